{
 "claims": [
  {
   "property": "C01",
   "status": "proved",
   "theorems": [
    "RankDB.Props.C01_above_is_documented_order",
    "RankDB.Props.C01_strict_total_order",
    "RankDB.Props.C01_ranking_unique",
    "RankDB.Props.C01_ranking_exists"
   ],
   "note": "The comparison is the documented strict total order; rankings exist and are unique."
  },
  {
   "property": "C02",
   "status": "proved",
   "theorems": [
    "RankDB.Props.C02_insert"
   ],
   "note": "For every ranked slice and element."
  },
  {
   "property": "C03",
   "status": "proved",
   "theorems": [
    "RankDB.Props.C03_merge",
    "RankDB.Props.C03_merge_path_independent"
   ],
   "note": "For every pair of ranked slices; both code paths give the same result."
  },
  {
   "property": "C04",
   "status": "partial",
   "theorems": [
    "RankDB.Props.C04_deduplicate_partial",
    "RankDB.Props.C04_deduplicate_keeps_lowest_score",
    "RankDB.Props.C04_deduplicate_sort_independent",
    "RankDB.Props.C04_hasDuplicates",
    "RankDB.Props.C04_deduplicate_distinct"
   ],
   "note": "Uniqueness and latest-update are proved. The documented choice of the highest score among equal update times is false of the code: C04_deduplicate_keeps_lowest_score."
  },
  {
   "property": "C05",
   "status": "proved",
   "theorems": [
    "RankDB.Props.C05_mergeDeduplicate"
   ],
   "note": "For all ranked inputs."
  },
  {
   "property": "C06",
   "status": "proved",
   "theorems": [
    "RankDB.Props.C06_delete",
    "RankDB.Props.C06_update",
    "RankDB.Props.C06_add"
   ],
   "note": "Add, Update and Delete on slices with distinct IDs."
  },
  {
   "property": "C07",
   "status": "partial",
   "theorems": [
    "RankDB.Props.C07_sort_correct",
    "RankDB.Props.C07_sort_terminates_partial",
    "RankDB.Props.C07_sort_diverges",
    "RankDB.Props.C07_sort_not_total"
   ],
   "note": "The result of Sort is a ranked permutation whenever it returns, and it returns for inputs below 25000 elements or with a proper split; it does not return for large inputs that cannot be split: C07_sort_diverges, C07_sort_not_total."
  },
  {
   "property": "C08",
   "status": "proved",
   "theorems": [
    "RankDB.Props.C08_splitSize",
    "RankDB.Props.C08_splitSize_bound",
    "RankDB.Props.C08_splitSize_zero_panics"
   ],
   "note": "With the exception, also proved, of size 0, which panics."
  },
  {
   "property": "C09",
   "status": "proved",
   "theorems": [
    "RankDB.Props.C09_neighbours",
    "RankDB.Props.C09_inverse"
   ],
   "note": "All 64 bit scores and 32 bit tie-breakers."
  },
  {
   "property": "C10",
   "status": "proved",
   "theorems": [
    "RankDB.Props.C10_bulk_build",
    "RankDB.Props.C10_ranges_cover_once"
   ],
   "note": "All ranked inputs and positive segment sizes, plain and index segments."
  },
  {
   "property": "C11",
   "status": "proved",
   "theorems": [
    "RankDB.Props.C11_filter_selects",
    "RankDB.Props.C11_filter_partitions",
    "RankDB.Props.C11_last_second_is_lost"
   ],
   "note": "For update times below the last second of the 32 bit clock; C11_last_second_is_lost shows that the bound is needed."
  },
  {
   "property": "C12",
   "status": "proved",
   "theorems": [
    "RankDB.Props.C12_score_routing"
   ],
   "note": "All ID multisets, all well-formed lists."
  },
  {
   "property": "C13",
   "status": "partial",
   "theorems": [
    "RankDB.Props.C13_firstWithScore_partial",
    "RankDB.Props.C13_element_below_not_returned"
   ],
   "note": "Existing scores are found; the documented 'element below' for missing scores is not returned: C13_element_below_not_returned."
  },
  {
   "property": "C14",
   "status": "proved",
   "theorems": [
    "RankDB.Props.C14_populate",
    "RankDB.Props.C14_populate_returns",
    "RankDB.Props.C14_empty",
    "RankDB.Props.C14_new",
    "RankDB.Props.C14_populate_can_panic"
   ],
   "note": "For every schedule and shuffle. Settings for which the code panics are shown in C14_populate_can_panic."
  },
  {
   "property": "C15",
   "status": "proved",
   "theorems": [
    "RankDB.Props.C15_insert",
    "RankDB.Props.C15_insert_returns",
    "RankDB.Props.C15_insert_hangs"
   ],
   "note": "For every schedule; the call returns for split sizes of at least 4 and provably never returns below (C15_insert_hangs)."
  },
  {
   "property": "C16",
   "status": "proved",
   "theorems": [
    "RankDB.Props.C16_update_upserts",
    "RankDB.Props.C16_upsert_meaning"
   ],
   "note": "For every processing order. One clock value per call is a simplification."
  },
  {
   "property": "C17",
   "status": "proved",
   "theorems": [
    "RankDB.Props.C17_delete"
   ],
   "note": "For every schedule and multiset of IDs."
  },
  {
   "property": "C18",
   "status": "proved",
   "theorems": [
    "RankDB.Props.C18_split_keeps_content"
   ],
   "note": "For all sizes; segment IDs must not be used up (next ID at most 2^31)."
  },
  {
   "property": "C19",
   "status": "proved",
   "theorems": [
    "RankDB.Props.C19_reindex",
    "RankDB.Props.C19_reindex_returns"
   ],
   "note": "No assumption on the index."
  },
  {
   "property": "C20",
   "status": "proved",
   "theorems": [
    "RankDB.Props.C20_clone_keys",
    "RankDB.Props.C20_clone",
    "RankDB.Props.C20_clone_returns"
   ],
   "note": "Content and well-formedness of the clone, and disjoint storage and cache keys of the segments when the generated table IDs come from different clock units."
  },
  {
   "property": "C21",
   "status": "proved",
   "theorems": [
    "RankDB.Props.C21_content_is_ranked",
    "RankDB.Props.C21_step",
    "RankDB.Props.C21_history",
    "RankDB.Props.C21_history_independent",
    "RankDB.Props.C21_operations_return"
   ],
   "note": "All finite histories of insert, update, delete, populate, reindex, repair and split/merge against a map from ID to element; progress is C21_operations_return."
  },
  {
   "property": "C22",
   "status": "proved",
   "theorems": [
    "RankDB.Props.C22_rank_top"
   ],
   "note": "All offsets and counts on every well-formed list; beyond the end the query fails. Negative offsets are not represented (the code panics on some)."
  },
  {
   "property": "C23",
   "status": "proved",
   "theorems": [
    "RankDB.Props.C23_rank_bottom"
   ],
   "note": "All offsets and counts on every well-formed list."
  },
  {
   "property": "C24",
   "status": "proved",
   "theorems": [
    "RankDB.Props.C24_rank_score"
   ],
   "note": "Elements with at most the given score, with true ranks, for every 64 bit score."
  },
  {
   "property": "C25",
   "status": "partial",
   "theorems": [
    "RankDB.Props.C25_offset",
    "RankDB.Props.C25_percentile_partial",
    "RankDB.Props.C25_percentile_exact",
    "RankDB.Props.C25_offset_inside",
    "RankDB.Props.C25_percentile_below_one",
    "RankDB.Props.C25_no_elements_panics",
    "RankDB.Props.C25_percentile_panics",
    "RankDB.Props.C25_percentile_empty_panics",
    "RankDB.Props.C25_rounding_differs"
   ],
   "note": "The element at the computed offset with true ranks is returned (C25_percentile_partial, C25_percentile_exact). For every float64 below 1 and every list with elements an element is returned, at the true rank or, if the product needs more than 64 bits, the next (C25_percentile_below_one, C25_offset_inside). False of the code in general: percentile 1 on a list whose last segment is empty, and any percentile on an empty list, panic (C25_percentile_panics, C25_percentile_empty_panics, C25_no_elements_panics); 64 bit rounding can give the next rank (C25_rounding_differs, bounded by C25_offset)."
  },
  {
   "property": "C26",
   "status": "partial",
   "theorems": [
    "RankDB.Props.C26_get_elements_partial",
    "RankDB.Props.C26_get_elements_unsorted",
    "RankDB.Props.C26_get_elements_unsorted_in_order"
   ],
   "note": "Exactly one result per existing ID with true ranks, for every schedule. The documented order by rank is false of the code: C26_get_elements_unsorted."
  },
  {
   "property": "C27",
   "status": "partial",
   "theorems": [
    "RankDB.Props.C27_neighbours_partial",
    "RankDB.Props.C27_above_order"
   ],
   "note": "The right neighbours are returned, closest first in both directions. The documented order of Above is the opposite: C27_above_order."
  },
  {
   "property": "C28",
   "status": "proved",
   "theorems": [
    "RankDB.Props.C28_len",
    "RankDB.Props.C28_len_history",
    "RankDB.Props.C28_stats"
   ],
   "note": "Len and the element counts, top and bottom of Stats. Cache counters are not modelled."
  },
  {
   "property": "C29",
   "status": "partial",
   "theorems": [
    "RankDB.Props.C29_update_results_partial",
    "RankDB.Props.C29_before_single_segment",
    "RankDB.Props.C29_before_wrong"
   ],
   "note": "New ranks are right and the previous element is reported exactly if there was one; the previous rank is relative to its segment and FromBottom is 0: C29_before_wrong."
  },
  {
   "property": "C30",
   "status": "partial",
   "theorems": [
    "RankDB.Props.C30_verify_sound_partial",
    "RankDB.Props.C30_verify_complete",
    "RankDB.Props.C30_verify_unsound",
    "RankDB.Props.C30_verify_misses_index"
   ],
   "note": "Completeness is proved. Soundness needs non-empty ranges of which only the last reaches 0; without that it is false: C30_verify_unsound, C30_verify_misses_index."
  },
  {
   "property": "C31",
   "status": "proved",
   "theorems": [
    "RankDB.Props.C31_repair",
    "RankDB.Props.C31_repair_wellformed",
    "RankDB.Props.C31_repair_returns"
   ],
   "note": "Arbitrary score segments and index, any subset of unreadable segments. Ties in update time are resolved as in C04. Loading of the segment list itself is not part of the model."
  },
  {
   "property": "C32",
   "status": "proved",
   "theorems": [
    "RankDB.Props.C32_roundtrip",
    "RankDB.Props.C32_version",
    "RankDB.Props.C32_segments_version",
    "RankDB.Props.C32_segment_version",
    "RankDB.Props.C32_truncated"
   ],
   "note": "Restoring a backup of any well-formed list whose lengths and times fit their stored types gives the same settings and content under the same or a new ID. Other versions and truncated backups are rejected. A nil metadata map comes back as an empty map."
  },
  {
   "property": "C33",
   "status": "proved",
   "theorems": [
    "RankDB.Props.C33_roundtrip",
    "RankDB.Props.C33_consumes",
    "RankDB.Props.C33_version",
    "RankDB.Props.C33_truncated",
    "RankDB.Props.C33_injective"
   ],
   "note": "Byte-level MessagePack model; the encoding library is modelled from its format."
  },
  {
   "property": "C34",
   "status": "proved",
   "theorems": [
    "RankDB.Props.C34_roundtrip",
    "RankDB.Props.C34_fields",
    "RankDB.Props.C34_version",
    "RankDB.Props.C34_truncated"
   ],
   "note": "Byte-level; unknown fields range over all MessagePack values, nested to any depth."
  },
  {
   "property": "C35",
   "status": "partial",
   "theorems": [
    "RankDB.Props.C35_roundtrip",
    "RankDB.Props.C35_exact_partial",
    "RankDB.Props.C35_truncated",
    "RankDB.Props.C35_truncated_compressed",
    "RankDB.Props.C35_version",
    "RankDB.Props.C35_nil_metadata_query"
   ],
   "note": "Round trip and all truncation points proved; zstd is abstract with two laws. A nil metadata map comes back as an empty map, and a query can tell the difference (C35_nil_metadata_query), so exactness is proved for lists with a metadata map."
  },
  {
   "property": "C36",
   "status": "proved",
   "theorems": [
    "RankDB.Props.C36_primary",
    "RankDB.Props.C36_backup",
    "RankDB.Props.C36_error",
    "RankDB.Props.C36_truncated_primary",
    "RankDB.Props.C36_both_fail_partial_lists"
   ],
   "note": "All combinations of readable, unreadable, invalid and truncated list file and backup. If both fail an error is reported, but lists of the partially read file can be visible (C36_both_fail_partial_lists)."
  },
  {
   "property": "C37",
   "status": "partial",
   "theorems": [
    "RankDB.Props.C37_backup",
    "RankDB.Props.C37_restore_partial",
    "RankDB.Props.C37_roundtrip",
    "RankDB.Props.C37_failure_panics",
    "RankDB.Props.C37_failure_witness"
   ],
   "note": "Proved for sets of lists that all restore: exactly the written lists, with prefix and suffix, existing ones kept on request. The failure clause is false of the code: the first list that fails makes Restore panic by assigning to a nil map, so later lists are not restored (C37_failure_panics, C37_failure_witness)."
  },
  {
   "property": "C38",
   "status": "partial",
   "theorems": [
    "RankDB.Props.C38_map_partial",
    "RankDB.Props.C38_keys",
    "RankDB.Props.C38_keys_used",
    "RankDB.Props.C38_part_size",
    "RankDB.Props.C38_too_big",
    "RankDB.Props.C38_accepted",
    "RankDB.Props.C38_no_leftover",
    "RankDB.Props.C38_interference",
    "RankDB.Props.C38_torn",
    "RankDB.Props.C38_delete_ignored",
    "RankDB.Props.C38_leftover_after_restart"
   ],
   "note": "All histories with failures of the store below and restarts: answers, part sizes, rejection, nothing left over. The full statement fails: a key k+0 interferes with k (C38_interference), a failed Set leaves a torn blob that reads without error (C38_torn), a Delete whose header read fails reports success (C38_delete_ignored); hence the hypothesis Separate and the exceptions in the specification."
  },
  {
   "property": "C39",
   "status": "partial",
   "theorems": [
    "RankDB.Props.C39_single_saver_partial",
    "RankDB.Props.C39_ordered_partial",
    "RankDB.Props.C39_slow_read_partial",
    "RankDB.Props.C39_stale_read",
    "RankDB.Props.C39_key_collision",
    "RankDB.Props.C39_distinct"
   ],
   "note": "Proved for one saver with a store that does not fail, and for any number of savers that do not overtake each other with the same key. The full statement is false: C39_stale_read (two savers), C39_key_collision, C40_failed_save."
  },
  {
   "property": "C40",
   "status": "partial",
   "theorems": [
    "RankDB.Props.C40_single_saver_partial",
    "RankDB.Props.C40_ordered_partial",
    "RankDB.Props.C40_flush_ends",
    "RankDB.Props.C40_failed_save"
   ],
   "note": "As C39; flushing is proved to end for any savers and failures (C40_flush_ends). The full statement is false: C39_stale_read shows a flushed store with an old value, C40_failed_save a lost value."
  },
  {
   "property": "C41",
   "status": "partial",
   "theorems": [
    "RankDB.Props.C41_first_ending",
    "RankDB.Props.C41_goes_on",
    "RankDB.Props.C41_defaults_partial",
    "RankDB.Props.C41_configured_ignored",
    "RankDB.Props.C41_configured_leak",
    "RankDB.Props.C41_configured_wrong"
   ],
   "note": "First ending attempt proved for all outcome sequences. The claim about configured permanent errors is false: C41_configured_ignored, C41_configured_leak, C41_configured_wrong; C41_defaults_partial covers processes that configure none."
  },
  {
   "property": "C42",
   "status": "proved",
   "theorems": [
    "RankDB.Props.C42_storage_key",
    "RankDB.Props.C42_cache_key",
    "RankDB.Props.C42_generated_ids",
    "RankDB.Props.C42_segment_table",
    "RankDB.Props.C42_generated_distinct",
    "RankDB.Props.C42_random_collision"
   ],
   "note": "Injectivity of storage and cache keys for all parents and IDs; segment keys contain '-', generated table IDs are alphanumeric. Distinctness of generated IDs is proved for different clock units; within one unit it rests on the random bytes (C42_random_collision)."
  },
  {
   "property": "C43",
   "status": "proved",
   "theorems": [
    "RankDB.Props.C43_after",
    "RankDB.Props.C43_no_limit",
    "RankDB.Props.C43_page_after",
    "RankDB.Props.C43_page_refused"
   ],
   "note": "All collections of lists, all iteration orders, all start IDs and limits. IDs are byte strings compared bytewise. C43_page_after and C43_page_refused are about calls of the client library."
  },
  {
   "property": "C44",
   "status": "partial",
   "theorems": [
    "RankDB.Props.C44_wrong_page",
    "RankDB.Props.C44_before_partial",
    "RankDB.Props.C44_before_favourable_partial",
    "RankDB.Props.C44_page_of_one_wrong",
    "RankDB.Props.C44_page_before_partial",
    "RankDB.Props.C44_page_both"
   ],
   "note": "False in the code (C44_wrong_page, and C44_page_of_one_wrong for every collection). Proved: counts, size, order and all but the smallest list of the page for limits of two or more; exact pages under a condition on the iteration order. C44_page_before_partial is about calls of the client library; C44_page_both: after_id is ignored if before_id is given."
  },
  {
   "property": "C45",
   "status": "partial",
   "theorems": [
    "RankDB.Props.C45_missing_field_matches",
    "RankDB.Props.C45_selected",
    "RankDB.Props.C45_matchAll_partial",
    "RankDB.Props.C45_nothing"
   ],
   "note": "False for queried values that are empty (C45_missing_field_matches). Proved for non-empty values, and C45_selected says exactly what is selected."
  },
  {
   "property": "C46",
   "status": "proved",
   "theorems": [
    "RankDB.Props.C46_order",
    "RankDB.Props.C46_nan_lowest",
    "RankDB.Props.C46_round_trip",
    "RankDB.Props.C46_round_trip_nan"
   ],
   "note": "All bit patterns; the value of a bit pattern is the IEEE 754 binary64 value. The exact bits come back except that -0 comes back as +0 (equal numbers)."
  },
  {
   "property": "C47",
   "status": "proved",
   "theorems": [
    "RankDB.Props.C47_restricted_lists",
    "RankDB.Props.C47_denied_list",
    "RankDB.Props.C47_restricted_elements",
    "RankDB.Props.C47_denied_element",
    "RankDB.Props.C47_unrestricted",
    "RankDB.Props.C47_independent"
   ],
   "note": "Claims as none, string or other value; strings are sequences of characters. A claim that is not a string (for instance a JSON array) does not restrict, see C47_unrestricted. Which endpoints perform the check is not modelled."
  },
  {
   "property": "C48",
   "status": "proved",
   "theorems": [
    "RankDB.Props.C48_deduplicate_lists",
    "RankDB.Props.C48_deduplicate",
    "RankDB.Props.C48_notIn",
    "RankDB.Props.C48_overlap"
   ],
   "note": "Element ID sets and list ID sets."
  },
  {
   "property": "C49",
   "status": "proved",
   "theorems": [
    "RankDB.Props.C49_new",
    "RankDB.Props.C49_bounded",
    "RankDB.Props.C49_holders",
    "RankDB.Props.C49_get_proceeds",
    "RankDB.Props.C49_release_proceeds"
   ],
   "note": "Any number of goroutines and tokens, all interleavings; each token is released once by its holder."
  },
  {
   "property": "C50",
   "status": "partial",
   "theorems": [
    "RankDB.Props.C50_result",
    "RankDB.Props.C50_nil_iff_partial",
    "RankDB.Props.C50_error_not_lost",
    "RankDB.Props.C50_no_deadlock",
    "RankDB.Props.C50_terminates",
    "RankDB.Props.C50_nil_although_cancelled"
   ],
   "note": "All interleavings, any number of goroutines, any channel capacities. Proved: result lists exactly the reported errors, none lost, no deadlock, bounded steps, nil iff no errors while the context is not cancelled. The code can return nil although the context was cancelled (C50_nil_although_cancelled)."
  },
  {
   "property": "C51",
   "status": "partial",
   "theorems": [
    "RankDB.Props.C51_insert",
    "RankDB.Props.C51_delete",
    "RankDB.Props.C51_update_partial",
    "RankDB.Props.C51_update_lost"
   ],
   "note": "Proved for insertions and deletions at every crash point. For updates: elements that are not named are kept; named elements are kept unless they move to another segment. C51_update_lost shows that a moved element can be lost."
  },
  {
   "property": "C52",
   "status": "partial",
   "theorems": [
    "RankDB.Props.C52_split_partial",
    "RankDB.Props.C52_merge",
    "RankDB.Props.C52_split_lost"
   ],
   "note": "At every crash point repairing keeps the elements of segments that existed before; merging alone loses nothing (C52_merge). Elements moved to a new segment are lost at every crash point between the writes of the score segments and the saving of the segments: C52_split_lost."
  },
  {
   "property": "C53",
   "status": "partial",
   "theorems": [
    "RankDB.Props.C53_no_deadlock_reading_partial",
    "RankDB.Props.C53_no_deadlock_warm_partial",
    "RankDB.Props.C53_no_deadlock_partial",
    "RankDB.Props.C53_all_released",
    "RankDB.Props.C53_exclusive",
    "RankDB.Props.C53_deadlock_radius",
    "RankDB.Props.C53_deadlock_percentile",
    "RankDB.Props.C53_deadlock_delete",
    "RankDB.Props.C53_deadlock_score_rank",
    "RankDB.Props.C53_deadlock_stats",
    "RankDB.Props.C53_deadlock_populate"
   ],
   "note": "Locks of a list as a transition system: goroutines of any number of calls, Go's RWMutex with announced writers, programs of all list operations with the data they depend on as parameters. Proved for all operations except lookups and percentiles with neighbours, GetRankScoreDesc over several locks, Stats with elements and Populate after a failed load: every schedule is bounded, never stuck, and releases all locks. For the excepted operations the claim is false of the code: each has a concrete schedule that ends in a deadlock with a call that changes elements (or reindexes, for Stats). Also proved: without calls that change elements, lookups and percentiles with any neighbours and GetRankScoreDesc never deadlock, and on a list in memory neither does Stats with elements."
  },
  {
   "property": "C54",
   "status": "partial",
   "theorems": [
    "RankDB.Props.C54_old_or_new",
    "RankDB.Props.C54_found_partial",
    "RankDB.Props.C54_unchanged",
    "RankDB.Props.C54_no_change",
    "RankDB.Props.C54_missing",
    "RankDB.Props.C54_wrong_rank"
   ],
   "note": "Proved for every interleaving of any number of updates with a lookup: results are requested elements, at most once, as in a list in effect during the lookup; an element whose segment stays the same is found; unchanged elements are found as they are; without a change the ranks are right. The full claim is false: C54_missing shows a lookup that reports an element as missing that is in the list before and after, C54_wrong_rank one that reports a rank the element never had. Neighbours and further segments that cannot be loaded are covered in C95."
  },
  {
   "property": "C55",
   "status": "partial",
   "theorems": [
    "RankDB.Props.C55_pieces",
    "RankDB.Props.C55_cutting_ends",
    "RankDB.Props.C55_insert_partial",
    "RankDB.Props.C55_hangs"
   ],
   "note": "Proved for split sizes of at least 4, which the REST API guarantees. The library accepts smaller sizes, and then no insertion ends: C55_hangs."
  },
  {
   "property": "C56",
   "status": "proved",
   "theorems": [
    "RankDB.Props.C56_get_multi"
   ],
   "note": "For every list and request."
  },
  {
   "property": "C57",
   "status": "partial",
   "theorems": [
    "RankDB.Props.C57_neighbours_partial",
    "RankDB.Props.C57_above_wrong",
    "RankDB.Props.C57_percentile_partial"
   ],
   "note": "The element, the neighbours below and a single neighbour above carry true ranks. Two or more neighbours above never do: C57_above_wrong."
  },
  {
   "property": "C58",
   "status": "proved",
   "theorems": [
    "RankDB.Props.C58_around"
   ],
   "note": "For every list and set of IDs."
  },
  {
   "property": "C59",
   "status": "partial",
   "theorems": [
    "RankDB.Props.C59_report_partial",
    "RankDB.Props.C59_returns_results",
    "RankDB.Props.C59_no_deadlock",
    "RankDB.Props.C59_terminates",
    "RankDB.Props.C59_limit",
    "RankDB.Props.C59_cancelled"
   ],
   "note": "Every list is reported once, with its error or result, with at most the limit running. If the context is cancelled the code returns nothing: C59_cancelled."
  },
  {
   "property": "C60",
   "status": "proved",
   "theorems": [
    "RankDB.Props.C60_interval",
    "RankDB.Props.C60_disabled",
    "RankDB.Props.C60_written",
    "RankDB.Props.C60_shutdown"
   ],
   "note": "A backup is written on every k-th save after the first one; the save at shutdown writes none (C60_shutdown)."
  },
  {
   "property": "C61",
   "status": "partial",
   "theorems": [
    "RankDB.Props.C61_uncached",
    "RankDB.Props.C61_cached_partial",
    "RankDB.Props.C61_other_set",
    "RankDB.Props.C61_merged"
   ],
   "note": "Without a cache (the default) proved for all histories. With a cache proved for all histories, evictions and failures in which a name belongs to one set and the segment had no failed in-place save and was not merged away; the three excluded cases are proved to return other elements (C61_other_set, C61_merged, C63_failed_delete): the code violates the property there."
  },
  {
   "property": "C62",
   "status": "partial",
   "theorems": [
    "RankDB.Props.C62_map_partial",
    "RankDB.Props.C62_queue_bound",
    "RankDB.Props.C62_closed",
    "RankDB.Props.C62_reported",
    "RankDB.Props.C62_last_commit",
    "RankDB.Props.C62_stale_during_delete",
    "RankDB.Props.C62_failed_commit",
    "RankDB.Props.C62_failed_commit_silent",
    "RankDB.Props.C62_key_collision"
   ],
   "note": "Every sequential history on keys that stay distinct when joined, with any order of flushing and any places where transactions get too big, for a database that does not fail. Missing, because the code violates it (proved): a Get between the two halves of a Delete returns an older value, a failed commit loses queued values (and Close reports success), a failed commit in the middle of a flush is not reported, and set/key pairs that join to the same key interfere."
  },
  {
   "property": "C63",
   "status": "partial",
   "theorems": [
    "RankDB.Props.C63_uncached_partial",
    "RankDB.Props.C63_others",
    "RankDB.Props.C63_fresh",
    "RankDB.Props.C63_failed_delete",
    "RankDB.Props.C63_delete_neither",
    "RankDB.Props.C63_failed_update",
    "RankDB.Props.C63_failed_insert",
    "RankDB.Props.C63_failed_count"
   ],
   "note": "Proved without a cache, for other segments, and for changes made in a new array. With a cache the code violates it: a failed in-place deletion leaves elements that are neither before nor after, with a duplicate (C63_delete_neither), a failed small insertion drops the last element (C63_failed_insert), and the count in the table is already the new one (C63_failed_count)."
  },
  {
   "property": "C64",
   "status": "proved",
   "theorems": [
    "RankDB.Props.C64_range_top",
    "RankDB.Props.C64_range_bottom"
   ],
   "note": "For every list, offset and limit."
  },
  {
   "property": "C65",
   "status": "partial",
   "theorems": [
    "RankDB.Props.C65_create_partial",
    "RankDB.Props.C65_concurrent_duplicate"
   ],
   "note": "Proved for requests one after the other. Concurrent creates of one ID can leave it twice: C65_concurrent_duplicate."
  },
  {
   "property": "C66",
   "status": "proved",
   "theorems": [
    "RankDB.Props.C66_put_multi"
   ],
   "note": "For every list and request."
  },
  {
   "property": "C67",
   "status": "proved",
   "theorems": [
    "RankDB.Props.C67_insert_durable",
    "RankDB.Props.C67_delete_durable",
    "RankDB.Props.C67_update_durable",
    "RankDB.Props.C67_populate_durable",
    "RankDB.Props.C67_reindex_durable",
    "RankDB.Props.C67_split_durable"
   ],
   "note": "Insert, UpdateElements, DeleteElements and split for every list and write order; also Populate and Reindex, once the new names of the segments are saved with the list of lists."
  },
  {
   "property": "C68",
   "status": "partial",
   "theorems": [
    "RankDB.Props.C68_reindex_partial",
    "RankDB.Props.C68_reindex_unsaved",
    "RankDB.Props.C68_populate_lost",
    "RankDB.Props.C68_repair_lost"
   ],
   "note": "Reindexing keeps the elements, and Repair returns them if the index is found: C68_reindex_partial. Repair panics if the new name of the index was not saved (C68_reindex_unsaved); populating and repairing again lose all elements if stopped before the end (C68_populate_lost, C68_repair_lost)."
  },
  {
   "property": "C69",
   "status": "proved",
   "theorems": [
    "RankDB.Props.C69_existing",
    "RankDB.Props.C69_conflict",
    "RankDB.Props.C69_create",
    "RankDB.Props.C69_clone_conflict",
    "RankDB.Props.C69_clone",
    "RankDB.Props.C69_delete"
   ],
   "note": "C69_conflict, C69_create, C69_clone_conflict, C69_clone and C69_delete over the model of the whole server; every state that histories of requests lead to is covered by C70_history. Requests at the same time are C72."
  },
  {
   "property": "C70",
   "status": "proved",
   "theorems": [
    "RankDB.Props.C70_request",
    "RankDB.Props.C70_history",
    "RankDB.Props.C70_from_nothing",
    "RankDB.Props.C70_others"
   ],
   "note": "C70_request is the refinement step for every request; C70_history and C70_from_nothing lift it to all histories. The hypotheses Fits and Allowed say that names for new segments are fresh, the clock is set, and numbers fit their types; split sizes below 4 are excluded because populate can divide by zero or not end, see C14 and C15."
  },
  {
   "property": "C71",
   "status": "partial",
   "theorems": [
    "RankDB.Props.C71_saved",
    "RankDB.Props.C71_stopped_partial",
    "RankDB.Props.C71_crashed_partial",
    "RankDB.Props.C71_deleted_returns",
    "RankDB.Props.C71_repaired_lost",
    "RankDB.Props.C71_created_lost"
   ],
   "note": "Proved for lists whose entry in the catalogue was not changed since the catalogue was saved, for stops between requests and crashes within requests about other lists. False otherwise: C71_deleted_returns, C71_repaired_lost and C71_created_lost hold for every list."
  },
  {
   "property": "C72",
   "status": "partial",
   "theorems": [
    "RankDB.Props.C72_both_created",
    "RankDB.Props.C72_in_order_partial"
   ],
   "note": "Proved if the requests are served one after the other. False at the same time: C72_both_created, for all servers and all lists."
  },
  {
   "property": "C73",
   "status": "partial",
   "theorems": [
    "RankDB.Props.C73_lists",
    "RankDB.Props.C73_elements",
    "RankDB.Props.C73_read_only",
    "RankDB.Props.C73_no_delete",
    "RankDB.Props.C73_permitted",
    "RankDB.Props.C73_reads_partial",
    "RankDB.Props.C73_range_unrestricted"
   ],
   "note": "Proved for changes through every endpoint of lists, elements and many lists, and for lookups by ID. Disagreement: a range of ranks (and percentile, and top_bottom of a list) shows elements that only_elements does not name (C73_range_unrestricted). The signature of the token is checked by the middleware and is not modelled."
  },
  {
   "property": "C74",
   "status": "partial",
   "theorems": [
    "RankDB.Props.C74_selected",
    "RankDB.Props.C74_same_partial",
    "RankDB.Props.C74_sets_ignored",
    "RankDB.Props.C74_all_instead",
    "RankDB.Props.C74_report",
    "RankDB.Props.C74_put",
    "RankDB.Props.C74_delete",
    "RankDB.Props.C74_create",
    "RankDB.Props.C74_set_not_updated"
   ],
   "note": "Proved for create, put and delete with the selection that each uses. Disagreements: sets without fields are ignored by create and put (C74_sets_ignored, C74_set_not_updated), and reindex, verify and backup of sets alone are applied to all lists (C74_all_instead)."
  },
  {
   "property": "C75",
   "status": "partial",
   "theorems": [
    "RankDB.Props.C75_answers_partial",
    "RankDB.Props.C75_trace_partial",
    "RankDB.Props.C75_from_nothing_partial"
   ],
   "note": "Proved for every history of changes and queries, starting from any server in good order or from none: each query shows what the map of rankings gives at that time, percentiles below 100 % included (C25_percentile_below_one). Missing: ranks of two or more neighbours above an element (they are wrong, C57), paging backward (wrong, C44), the percentile 100 % (it can panic, C25), and requests that run at the same time (C54, C77)."
  },
  {
   "property": "C76",
   "status": "partial",
   "theorems": [
    "RankDB.Props.C76_range_no_gap",
    "RankDB.Props.C76_old_or_new",
    "RankDB.Props.C76_clone_unchanged_partial",
    "RankDB.Props.C76_clone_quiet",
    "RankDB.Props.C76_top_quiet",
    "RankDB.Props.C76_bottom_quiet",
    "RankDB.Props.C76_clone_twice",
    "RankDB.Props.C76_clone_missing",
    "RankDB.Props.C76_range_twice"
   ],
   "note": "Proved for every interleaving: only elements of lists in effect during the call, strictly in ranking order; elements that are not updated meanwhile are in a clone exactly once, and are not left out between two elements of a range (C76_range_no_gap); without changes clone and range are exact. False in the code for elements that are updated meanwhile: a clone can have an element twice or not at all (C76_clone_twice, C76_clone_missing), a range can show one twice (C76_range_twice)."
  },
  {
   "property": "C77",
   "status": "partial",
   "theorems": [
    "RankDB.Props.C77_serial_partial",
    "RankDB.Props.C77_done_partial",
    "RankDB.Props.C77_untouched",
    "RankDB.Props.C77_crash_partial"
   ],
   "note": "Proved for every interleaving of the changes of requests and jobs for different lists (and clones of lists that nobody changes), with queries of lists in between, and for a crash at any moment. Missing: requests for the same list at the same time (false in parts: C54, C65, C72, C76) (pages of the catalogue while lists are created or deleted are C90)."
  },
  {
   "property": "C78",
   "status": "proved",
   "theorems": [
    "RankDB.Props.C78_passes",
    "RankDB.Props.C78_no_false_alarm",
    "RankDB.Props.C78_no_false_alarm_spec"
   ],
   "note": "All reachable servers satisfy the list invariant, have times and sizes in bounds (Proofs/Fit, FitWrites, FitServer), and therefore pass all checks; nothing is written."
  },
  {
   "property": "C79",
   "status": "proved",
   "theorems": [
    "RankDB.Props.C79_generated_names",
    "RankDB.Props.C79_request",
    "RankDB.Props.C79_query",
    "RankDB.Props.C79_start",
    "RankDB.Props.C79_history",
    "RankDB.Props.C79_from_nothing",
    "RankDB.Props.C79_meaning",
    "RankDB.Props.C79_saved"
   ],
   "note": "Names of segments are what RandString returns (C79_generated_names). Orderly asks that lists can be read after a start; C71 shows when a start finds lists whose blobs are gone. Errors of the storage are in C31, C37, C38 and C80."
  },
  {
   "property": "C80",
   "status": "partial",
   "theorems": [
    "RankDB.Props.C80_start_partial",
    "RankDB.Props.C80_readable_start",
    "RankDB.Props.C80_worst",
    "RankDB.Props.C80_cut_off",
    "RankDB.Props.C80_forgets",
    "RankDB.Props.C80_stale",
    "RankDB.Props.C80_never_backed"
   ],
   "note": "True without backups, and with backups as long as the storage can be read at every start and accepts the catalogue whenever it accepts a backup (C80_start_partial); any start that can read the catalogue is right (C80_readable_start); nothing else than the last save, the last backup or no lists is ever loaded (C80_worst). False with backups if a read fails: C80_forgets, C80_stale. C80_never_backed: short runs never make a backup."
  },
  {
   "property": "C81",
   "status": "partial",
   "theorems": [
    "RankDB.Props.C81_limit",
    "RankDB.Props.C81_nobody_enters",
    "RankDB.Props.C81_answers",
    "RankDB.Props.C81_stop_partial",
    "RankDB.Props.C81_changes_first",
    "RankDB.Props.C81_bounded",
    "RankDB.Props.C81_never_hangs",
    "RankDB.Props.C81_can_end",
    "RankDB.Props.C81_waits_for_work",
    "RankDB.Props.C81_timeout_loses",
    "RankDB.Props.C81_abandoned"
   ],
   "note": "Proved for every interleaving: the limit and the tokens, that nobody enters after the signal, what each answer means, that a stop never hangs and is bounded; and that the saved catalogue is complete if no stage runs into its timeout and no client abandons a request for many lists. False otherwise (C81_timeout_loses, C81_abandoned). The shutdown library is modelled by its documentation."
  },
  {
   "property": "C82",
   "status": "proved",
   "theorems": [
    "RankDB.Props.C82_stack",
    "RankDB.Props.C82_dynamo",
    "RankDB.Props.C82_dynamo_stale",
    "RankDB.Props.C82_acknowledged",
    "RankDB.Props.C82_keys_used",
    "RankDB.Props.C82_too_big",
    "RankDB.Props.C82_short_key",
    "RankDB.Props.C82_slash_collision",
    "RankDB.Props.C82_volatile",
    "RankDB.Props.C82_delete_ignored",
    "RankDB.Props.C82_block_size"
   ],
   "note": "C82_stack is the property for everything newBlobstore and wrapRetry can build; C82_acknowledged spells out what it means for an acknowledged value; C82_keys_used: the keys of the database meet the hypothesis. Badger is taken as a database that does not fail (C62 says what happens otherwise), Aerospike as in the specification: a value whose write failed may be torn and an acknowledged deletion may not have happened (C82_delete_ignored, also with retries). C82_volatile, C82_slash_collision, C82_short_key and C82_block_size show what the configuration does not give. The driver for DynamoDB, which the server cannot be configured to use, reads without consistency: C82_dynamo, C82_dynamo_stale."
  },
  {
   "property": "C83",
   "status": "partial",
   "theorems": [
    "RankDB.Props.C83_failures_release_partial",
    "RankDB.Props.C83_returned_holds_nothing",
    "RankDB.Props.C83_kept_lock_blocks",
    "RankDB.Props.C83_split_keeps_segment",
    "RankDB.Props.C83_index_split_keeps_segment",
    "RankDB.Props.C83_backup_keeps_table",
    "RankDB.Props.C83_populate_keeps_list",
    "RankDB.Props.C83_repair_keeps_list",
    "RankDB.Props.C83_repair_no_index_keeps_list",
    "RankDB.Props.C83_split_blocks_ranking",
    "RankDB.Props.C83_kept_list_blocks",
    "RankDB.Props.C83_backup_blocks_insert",
    "RankDB.Props.C83_reindex_never_returns",
    "RankDB.Props.C83_load_never_returns",
    "RankDB.Props.C83_double_unlock_fatal",
    "RankDB.Props.C83_same_locks",
    "RankDB.Props.C83_same_start"
   ],
   "note": "Proved for every operation and every place of failure except eight, for which the opposite is proved for all schedules: splits that cannot save, a backup that cannot be written, populating or repairing when the new index cannot be stored, repairing with unreadable statistics keep a lock for ever; reindexing or loading that cannot save the segments unlocks twice, which ends the process. C83_same_locks and C83_same_start: the programs of failing calls are those of the calls that go through, up to the failure."
  },
  {
   "property": "C84",
   "status": "partial",
   "theorems": [
    "RankDB.Props.C84_status",
    "RankDB.Props.C84_arrived",
    "RankDB.Props.C84_complete_partial",
    "RankDB.Props.C84_upload_complete",
    "RankDB.Props.C84_restored_partial",
    "RankDB.Props.C84_flush_error_ignored",
    "RankDB.Props.C84_close_error_ignored",
    "RankDB.Props.C84_cancelled_success_lost",
    "RankDB.Props.C84_not_a_snapshot",
    "RankDB.Props.C84_status_safe_partial",
    "RankDB.Props.C84_status_fatal"
   ],
   "note": "Proved for every job: the status, and what restoring the destination gives for every failure, cancelling and cut. That a reported success can be restored is proved for uploads, and for other destinations under the hypothesis that they take everything; it is false otherwise (dropped errors of Flush and Close, a cancelled job drops its buffer, the request to another server is cancelled when the job ends). Asking for the status can end the server."
  },
  {
   "property": "C85",
   "status": "partial",
   "theorems": [
    "RankDB.Props.C85_read_partial",
    "RankDB.Props.C85_within_limits",
    "RankDB.Props.C85_serves_partial",
    "RankDB.Props.C85_one_meaning",
    "RankDB.Props.C85_null_panics",
    "RankDB.Props.C85_missing_id_is_zero",
    "RankDB.Props.C85_nan_panics",
    "RankDB.Props.C85_many_read_partial",
    "RankDB.Props.C85_many_refused",
    "RankDB.Props.C85_many_one_meaning",
    "RankDB.Props.C85_many_null_panics",
    "RankDB.Props.C85_many_denied",
    "RankDB.Props.C85_many_bad"
   ],
   "note": "Proved for all requests except those in `Spec.Unusual`, for which the code violates the statement: null for an element of a new list panics (C85_null_panics), elements to put without ID or score are accepted as element 0 with score 0 (C85_missing_id_is_zero), the percentile NaN panics (C85_nan_panics). The percentile 100 is accepted and panics (C25_percentile_panics). C85_within_limits shows that accepted requests meet the hypotheses of C70 and C75. Requests for many lists likewise (C85_many_read_partial, C85_many_refused, C85_many_one_meaning), except null for an element (C85_many_null_panics). Syntax of JSON, ParseFloat, before_id, and the bodies of verify, backup and restore are not modelled."
  },
  {
   "property": "C86",
   "status": "partial",
   "theorems": [
    "RankDB.Props.C86_stored_partial",
    "RankDB.Props.C86_update_erases"
   ],
   "note": "A payload that is sent is stored untouched and no other element changes (C86_stored_partial). The second sentence is violated: an update without payload always erases the stored payload (C86_update_erases). Whether the decoder turns an explicit null into an absent payload is outside of the model; in both cases the stored payload is lost."
  },
  {
   "property": "C87",
   "status": "proved",
   "theorems": [
    "RankDB.Props.C87_release_invisible",
    "RankDB.Props.C87_release_same",
    "RankDB.Props.C87_release_locks",
    "RankDB.Props.C87_release_returns"
   ],
   "note": "C87_release_locks and C87_release_returns are about the locks, at any schedule. C87_release_invisible and C87_release_same are about histories of requests one after the other, for storages that do not fail; all answers are those of the map of rankings (with the exceptions of C75)."
  },
  {
   "property": "C88",
   "status": "partial",
   "theorems": [
    "RankDB.Props.C88_update_partial",
    "RankDB.Props.C88_update_refused",
    "RankDB.Props.C88_update_others",
    "RankDB.Props.C88_update_values",
    "RankDB.Props.C88_no_faults",
    "RankDB.Props.C88_update_dropped",
    "RankDB.Props.C88_update_twice",
    "RankDB.Props.C88_update_lost",
    "RankDB.Props.C88_insert",
    "RankDB.Props.C88_insert_others",
    "RankDB.Props.C88_delete",
    "RankDB.Props.C88_delete_whole",
    "RankDB.Props.C88_delete_others",
    "RankDB.Props.C88_delete_blocks",
    "RankDB.Props.C88_delete_blocks_on"
   ],
   "note": "Proved for insertions and deletions, for every pattern of failures, and for updates if the segments of the scores can be read and saved; other elements are untouched and no values are mixed for every pattern. The full statement is false of the code: updates are reported as done although the element was dropped (C88_update_dropped, for every list), stored twice (C88_update_twice) or lost (C88_update_lost), and a deletion whose client goes away makes later updates of the element do nothing (C88_delete_blocks, for every list)."
  },
  {
   "property": "C89",
   "status": "partial",
   "theorems": [
    "RankDB.Props.C89_balances_partial",
    "RankDB.Props.C89_rest",
    "RankDB.Props.C89_request",
    "RankDB.Props.C89_quiet",
    "RankDB.Props.C89_served",
    "RankDB.Props.C89_queued",
    "RankDB.Props.C89_one_run",
    "RankDB.Props.C89_ties_stay",
    "RankDB.Props.C89_dropped"
   ],
   "note": "Proved: repeated runs end, after a linear number at most, in segments of the configured sizes (C89_balances_partial), such lists are not changed (C89_rest), exactly when a run is requested (C89_request, C89_quiet), requests are queued and served in order (C89_queued, C89_served). False in the code, with witnesses: one request is one run that cuts segments in two at most and the list is not checked again (C89_one_run); a segment whose lower half is tied is never cut, though it could be cut above, and every later change requests a run in vain (C89_ties_stay); with 1000 requests waiting, also for one and the same list, further ones are dropped (C89_dropped). That the content does not change is C18."
  },
  {
   "property": "C90",
   "status": "partial",
   "theorems": [
    "RankDB.Props.C90_browse_partial",
    "RankDB.Props.C90_still",
    "RankDB.Props.C90_ends",
    "RankDB.Props.C90_short_page",
    "RankDB.Props.C90_selected",
    "RankDB.Props.C90_other_list"
   ],
   "note": "Proved for all changes of the catalogue during the calls: C90_browse_partial, C90_ends, C90_selected; C90_still links the model to that of C43. Range of sync.Map is modelled by its documentation. False in the code: a page can be short or empty although lists follow, when lists are deleted between the scan and the lookup (C90_short_page), and a request for a set can be applied to a list of another set that was created with the same ID in between (C90_other_list)."
  },
  {
   "property": "C91",
   "status": "proved",
   "theorems": [
    "RankDB.Props.C91_serial",
    "RankDB.Props.C91_all",
    "RankDB.Props.C91_real_time",
    "RankDB.Props.C91_report",
    "RankDB.Props.C91_does",
    "RankDB.Props.C91_map",
    "RankDB.Props.C91_none_lost"
   ],
   "note": "For any jobs that change the list in small steps, as long as each step is made while the call holds the locks that the code holds: C91_serial, C91_all, C91_real_time, C91_report. C91_does says that the jobs of the operations do what the operations of the specification do. C91_map and C91_none_lost draw the conclusion for updates and deletions. Storage does not fail here, and two cases take the update lock twice and are not covered: Repair and Populate of a list whose segments cannot be loaded."
  },
  {
   "property": "C92",
   "status": "partial",
   "theorems": [
    "RankDB.Props.C92_restored_partial",
    "RankDB.Props.C92_moved",
    "RankDB.Props.C92_others",
    "RankDB.Props.C92_others_crash",
    "RankDB.Props.C92_saved",
    "RankDB.Props.C92_unsaved_lost",
    "RankDB.Props.C92_broken",
    "RankDB.Props.C92_unreachable"
   ],
   "note": "Proved for all servers in good order: C92_restored_partial and C92_moved (content, counts, other lists), C92_others and C92_others_crash (any bytes, any point), C92_saved. False part, proved as negation: C92_unsaved_lost (the catalogue is not saved, so a restart loses the restored lists and the ones they replaced), C92_broken (a list that cannot be read panics and has already deleted the existing list). C92_unreachable: prefix and suffix are not checked, so lists can get IDs that requests refuse."
  },
  {
   "property": "C93",
   "status": "proved",
   "theorems": [
    "RankDB.Props.C93_serial",
    "RankDB.Props.C93_put_delete",
    "RankDB.Props.C93_real_time",
    "RankDB.Props.C93_all",
    "RankDB.Props.C93_not_lost"
   ],
   "note": "Requests that create elements are not among them: the handler looks for the IDs before it takes the lock, see C65. Lists are neither created nor deleted meanwhile (C77), and the storage does not fail. Maintenance needs room for the numbers of segments and elements."
  },
  {
   "property": "C94",
   "status": "partial",
   "theorems": [
    "RankDB.Props.C94_never_stuck",
    "RankDB.Props.C94_shutdown_ends_partial",
    "RankDB.Props.C94_bounded",
    "RankDB.Props.C94_shutdown_empty_partial",
    "RankDB.Props.C94_shutdown_stored_partial",
    "RankDB.Props.C94_late_call_lost",
    "RankDB.Props.C94_late_call_waits"
   ],
   "note": "Proved for all schedules while Shutdown is not called, and the bound for all schedules. With Shutdown it is proved when no Set or Delete is between its look at the flag and its change of the queue at that moment; for such calls the statement is false of the code (C94_late_call_lost, C94_late_call_waits)."
  },
  {
   "property": "C95",
   "status": "partial",
   "theorems": [
    "RankDB.Props.C95_neighbours",
    "RankDB.Props.C95_failed_load",
    "RankDB.Props.C95_unchanged",
    "RankDB.Props.C95_no_change_partial",
    "RankDB.Props.C95_both_sides",
    "RankDB.Props.C95_neither_side"
   ],
   "note": "Proved for every interleaving of any number of updates with a lookup: each side holds exactly the closest elements of one list in effect, in order (a prefix if a segment could not be loaded); unchanged elements are found; without a change the whole result is right. The full claim is false: the two sides can be those of different lists, so an element can be on both sides (C95_both_sides) or on neither (C95_neither_side). A lookup whose first segment cannot be loaded fails and is not modelled."
  },
  {
   "property": "C96",
   "status": "proved",
   "theorems": [
    "RankDB.Props.C96_as_values",
    "RankDB.Props.C96_get",
    "RankDB.Props.C96_returned_kept",
    "RankDB.Props.C96_caller_writes",
    "RankDB.Props.C96_one_holder",
    "RankDB.Props.C96_capacity",
    "RankDB.Props.C96_last_write"
   ],
   "note": "C96_as_values: refinement to the store with values for every schedule; C96_get, C96_returned_kept, C96_caller_writes: reads; C96_one_holder: no buffer is held twice; C96_capacity: sizes; C96_last_write combines it with C39/C40."
  },
  {
   "property": "C97",
   "status": "partial",
   "theorems": [
    "RankDB.Props.C97_content",
    "RankDB.Props.C97_one_load",
    "RankDB.Props.C97_exclusive",
    "RankDB.Props.C97_error",
    "RankDB.Props.C97_no_error",
    "RankDB.Props.C97_writer_error_partial",
    "RankDB.Props.C97_no_deadlock",
    "RankDB.Props.C97_ends",
    "RankDB.Props.C97_foreign_error",
    "RankDB.Props.C97_panic_empty",
    "RankDB.Props.C97_panic_stuck"
   ],
   "note": "Proved for all schedules: C97_content (no panics or failed saves), C97_one_load, C97_exclusive, C97_error, C97_no_error, C97_no_deadlock (no panics), C97_ends; writes fail for their own reasons only (C97_writer_error_partial). The code violates the rest: C97_foreign_error (a read fails because the context of another request, which was loading, was cancelled), C97_panic_empty and C97_panic_stuck (if the loading call panics, waiting calls get and cache an empty segment, and the segment stays locked)."
  },
  {
   "property": "C98",
   "status": "proved",
   "theorems": [
    "RankDB.Props.C98_serial",
    "RankDB.Props.C98_answers",
    "RankDB.Props.C98_no_deadlock",
    "RankDB.Props.C98_ends",
    "RankDB.Props.C98_torn"
   ],
   "note": "C98_serial: every interleaving, with failures and crashes, is explained by a history of the atomic calls of C38 in the order of return. C98_answers: what Get answers, in terms of the calls that returned before. C98_no_deadlock, C98_ends: some call can always go on and every schedule ends. C98_torn: the exception for crashes is needed, a process that ends within a Set leaves a mix of the old and the new blob that reads without error."
  },
  {
   "property": "C99",
   "status": "proved",
   "theorems": [
    "RankDB.Props.C99_recovers",
    "RankDB.Props.C99_history",
    "RankDB.Props.C99_split_partial",
    "RankDB.Props.C99_unsaved",
    "RankDB.Props.C99_saved",
    "RankDB.Props.C99_reindexed_stuck",
    "RankDB.Props.C99_repair_crashed"
   ],
   "note": "C99_recovers is one crash, C99_history puts it after any history and before any later one, C99_saved is the restart after saving. C99_split_partial covers the split job, which the statement leaves out because it can lose elements (C52). C99_unsaved, C99_reindexed_stuck and C99_repair_crashed show what is not kept: the repaired list is lost if the server stops before the catalogue is saved, repairing after an unsaved reindex panics, and a crash within the repair empties the list."
  },
  {
   "property": "C100",
   "status": "partial",
   "theorems": [
    "RankDB.Props.C100_brought_back",
    "RankDB.Props.C100_entries",
    "RankDB.Props.C100_neither",
    "RankDB.Props.C100_repaired_lost"
   ],
   "note": "Proved for all interleavings: a list whose entry nobody changes since the save began is brought back (C100_brought_back), and the file has nothing else than lists that were there, once each (C100_entries). Range of sync.Map is modelled by its documentation, and the names that are saved for a list whose entry is being changed are unspecified, because the code writes them without the lock under which they are encoded. False in the code: the file is not the catalogue of one moment. A list that is cloned and then deleted during a save can be in the file under neither ID (C100_neither), and a save that ends after a repair was answered can lose the list (C100_repaired_lost); both hold for every server."
  },
  {
   "property": "C101",
   "status": "partial",
   "theorems": [
    "RankDB.Props.C101_seen_partial",
    "RankDB.Props.C101_untouched_partial",
    "RankDB.Props.C101_flushed_partial",
    "RankDB.Props.C101_whole",
    "RankDB.Props.C101_half_done",
    "RankDB.Props.C101_moved_lost",
    "RankDB.Props.C101_catalogue_first"
   ],
   "note": "Proved for one saver and a storage that does not fail (with more savers or failures already reads are wrong, C39 and C40): C101_seen_partial (clients see what they see without the write-behind store), C101_flushed_partial (a crash with an empty queue), C101_untouched_partial (a crash at any moment: the start succeeds and untouched lists are back). C101_whole holds for any number of savers and failures: a key only ever has a value that was stored under it. The last part of the statement fails: C101_half_done (an answered request is left after any number of its changes), C101_moved_lost (an element whose new score was acknowledged is gone), C101_catalogue_first (a list is in the catalogue, cannot be read and cannot be created). Requests one at a time."
  },
  {
   "property": "C102",
   "status": "proved",
   "theorems": [
    "RankDB.Props.C102_private",
    "RankDB.Props.C102_as_alone",
    "RankDB.Props.C102_ends",
    "RankDB.Props.C102_ranked",
    "RankDB.Props.C102_unranked"
   ],
   "note": "Programs that read and write single cells (Model/Heap) for the operations on slices; C102_private: for every schedule the result of each goroutine is that of the list-valued specification (Spec/Heap), given elements are unchanged, no index out of range; C102_as_alone: independent of the schedule and of the others; C102_ends: every goroutine ends after enough turns; C102_ranked: what the requests give to the goroutines is ranked. C102_unranked: users of the package must not give one unranked slice to two calls at the same time. Simplified: sort.Slice and copy read before they write; payload bytes are not cells."
  },
  {
   "property": "C103",
   "status": "proved",
   "theorems": [
    "RankDB.Props.C103_same",
    "RankDB.Props.C103_one_result",
    "RankDB.Props.C103_ranked",
    "RankDB.Props.C103_no_panic",
    "RankDB.Props.C103_ends",
    "RankDB.Props.C103_returns"
   ],
   "note": "C103_same: refinement to the sequential model of C07 for every schedule; C103_no_panic and C103_ends: every interleaving of the merge rounds. That the recursion of Sort over the pieces ends is C07 (false for 25000 or more unranked ties, C07_sort_diverges)."
  },
  {
   "property": "C104",
   "status": "partial",
   "theorems": [
    "RankDB.Props.C104_element",
    "RankDB.Props.C104_returns",
    "RankDB.Props.C104_no_panic_partial",
    "RankDB.Props.C104_no_change_partial",
    "RankDB.Props.C104_panics",
    "RankDB.Props.C104_wrong_element"
   ],
   "note": "The element and its neighbours are proved for every interleaving, and the whole claim if no update changes the list. Missing: that the call does not panic (refuted by C104_panics; proved as long as no segment becomes empty) and that the element is at the percentile of a list in effect (refuted by C104_wrong_element)."
  },
  {
   "property": "C105",
   "status": "partial",
   "theorems": [
    "RankDB.Props.C105_old_or_new",
    "RankDB.Props.C105_unchanged_partial",
    "RankDB.Props.C105_no_change",
    "RankDB.Props.C105_located",
    "RankDB.Props.C105_twice",
    "RankDB.Props.C105_wrong_rank"
   ],
   "note": "Proved for every interleaving except the last sentence, which is false of the code: an element that is moved down meanwhile can be returned twice (C105_twice), and ranks can be those of no list in effect (C105_wrong_rank)."
  },
  {
   "property": "C106",
   "status": "partial",
   "theorems": [
    "RankDB.Props.C106_same_locks",
    "RankDB.Props.C106_no_race_partial",
    "RankDB.Props.C106_change_alone",
    "RankDB.Props.C106_race_segment",
    "RankDB.Props.C106_race_verify",
    "RankDB.Props.C106_race_unloaded"
   ],
   "note": "Proved for all operations but Verify and the failure paths of Populate and Repair: accesses of two calls to the same memory are both reads, or a read with a write of the value that is already there. The full property is false of the code: C106_race_segment, C106_race_verify, C106_race_unloaded."
  },
  {
   "property": "C107",
   "status": "partial",
   "theorems": [
    "RankDB.Props.C107_request",
    "RankDB.Props.C107_history",
    "RankDB.Props.C107_from_nothing",
    "RankDB.Props.C107_all_deleted",
    "RankDB.Props.C107_deleted",
    "RankDB.Props.C107_delete_without_index",
    "RankDB.Props.C107_delete_broken_leaves",
    "RankDB.Props.C107_restart_leaves",
    "RankDB.Props.C107_waste_stays",
    "RankDB.Props.C107_lost_for_ever"
   ],
   "note": "Proved for every history of requests without a stop or an error of the storage. False after a restart: C107_restart_leaves, C107_lost_for_ever; and for a list without index one segment of which cannot be read: C107_delete_broken_leaves."
  },
  {
   "property": "C108",
   "status": "partial",
   "theorems": [
    "RankDB.Props.C108_blob",
    "RankDB.Props.C108_blob_asks",
    "RankDB.Props.C108_small_blob",
    "RankDB.Props.C108_restored",
    "RankDB.Props.C108_repair",
    "RankDB.Props.C108_takes_anything",
    "RankDB.Props.C108_any_elements",
    "RankDB.Props.C108_read",
    "RankDB.Props.C108_backup_asks",
    "RankDB.Props.C108_count_panics",
    "RankDB.Props.C108_elements_panic",
    "RankDB.Props.C108_small_file",
    "RankDB.Props.C108_server_takes_bad",
    "RankDB.Props.C108_server_loses"
   ],
   "note": "Proved: results are bounded by the bytes and in range, an accepted file gives exactly its elements, the list is well formed exactly if the segments in the file are, and a repair makes it well formed; blobs that are accepted and real backups ask for exactly what they have. False: small blobs and files ask for any amount of memory before they are refused (C108_small_blob, C108_small_file); wrong counts panic (C108_count_panics, C108_elements_panic); any elements in any order are accepted (C108_takes_anything, C108_any_elements, C108_server_takes_bad), and segments with the same number overwrite each other (C108_server_loses). C108_repair leaves out elements with the time 2^32-1 and split sizes below 4."
  },
  {
   "property": "C109",
   "status": "partial",
   "theorems": [
    "RankDB.Props.C109_rank_top",
    "RankDB.Props.C109_rank_bottom",
    "RankDB.Props.C109_rank_score",
    "RankDB.Props.C109_percentile",
    "RankDB.Props.C109_lookup",
    "RankDB.Props.C109_isolated",
    "RankDB.Props.C109_isolated_lookup",
    "RankDB.Props.C109_stats",
    "RankDB.Props.C109_stats_silent",
    "RankDB.Props.C109_neighbours_dropped"
   ],
   "note": "Proved for pages from the top, from the bottom and from a score: an error or exactly the page, reading only segments of the page (at most two or three more than it fills); for lookups and percentiles: an error or the right elements with the right ranks, with all neighbours if no read fails; a segment that cannot be read does not disturb pages and lookups that have none of its elements. False: neighbours in a segment that cannot be read are left out without an error (C109_neighbours_dropped), and Stats shows no top and bottom element without an error (C109_stats_silent). Percentile 1 and empty lists are left out (see C25). No cache; nothing changes the list meanwhile; the end of the context is not modelled."
  },
  {
   "property": "C110",
   "status": "partial",
   "theorems": [
    "RankDB.Props.C110_update_writes",
    "RankDB.Props.C110_same_segment",
    "RankDB.Props.C110_index_rewritten",
    "RankDB.Props.C110_update_reads",
    "RankDB.Props.C110_delete_writes",
    "RankDB.Props.C110_delete_reads",
    "RankDB.Props.C110_delete_reads_twice",
    "RankDB.Props.C110_update_results",
    "RankDB.Props.C110_results_read_again",
    "RankDB.Props.C110_at_rank",
    "RankDB.Props.C110_range_one_more",
    "RankDB.Props.C110_score_twice",
    "RankDB.Props.C110_settled",
    "RankDB.Props.C110_split",
    "RankDB.Props.C110_merge",
    "RankDB.Props.C110_pass",
    "RankDB.Props.C110_insert_writes",
    "RankDB.Props.C110_insert_pieces"
   ],
   "note": "The exact segments written and read by UpdateElements and DeleteElements, the exact segments written by Insert, the writes of splitting one segment (C110_split), of merging two (C110_merge) and of a pass with nothing to do, a bound on the writes of any pass (C110_pass), and the reads of the queries, without a cache. The table of README.md is wrong in five places: the index segment of an updated element is always rewritten, deletion reads it twice, results are looked up again, a page can take one read more, and a query by score reads its first segment twice. An insertion in several pieces writes a segment once for each piece (C110_insert_pieces). Reads of splitting and merging are not covered."
  },
  {
   "property": "C111",
   "status": "partial",
   "theorems": [
    "RankDB.Props.C111_delete_retry",
    "RankDB.Props.C111_delete_meanwhile",
    "RankDB.Props.C111_update_retry_partial",
    "RankDB.Props.C111_delete_crash",
    "RankDB.Props.C111_update_crash_partial",
    "RankDB.Props.C111_update_twice_stays",
    "RankDB.Props.C111_update_lost_stays",
    "RankDB.Props.C111_lost_for_ever",
    "RankDB.Props.C111_deleted_for_ever",
    "RankDB.Props.C111_insert_again"
   ],
   "note": "Deletions: C111_delete_retry (any number of attempts with any failures), C111_delete_meanwhile, C111_delete_crash (crash and repair, then any attempts). Updates: C111_update_retry_partial and C111_update_crash_partial, for attempts during which score segments can be read and everything can be saved (unreadable index segments, lost clients and lost answers are covered). Without this it is false: C111_update_twice_stays, C111_update_lost_stays; C111_lost_for_ever and C111_deleted_for_ever show it for every list and any number of repetitions. It is false for insertions: C111_insert_again."
  },
  {
   "property": "C112",
   "status": "partial",
   "theorems": [
    "RankDB.Props.C112_insert",
    "RankDB.Props.C112_delete",
    "RankDB.Props.C112_update_partial",
    "RankDB.Props.C112_put_never",
    "RankDB.Props.C112_deleted_never",
    "RankDB.Props.C112_insert_torn",
    "RankDB.Props.C112_update_torn"
   ],
   "note": "C112_insert, C112_delete (including any later attempts at the deletion) for every crash point; C112_update_partial: everything except that a named element is there once. Negations: C112_put_never and C112_deleted_never (for every list there is a crash point after which an element can never be put again), C112_insert_torn (wrong length, a page leaves out an element, an element shown by pages cannot be looked up and is stored twice by a later put), C112_update_torn."
  },
  {
   "property": "C113",
   "status": "partial",
   "theorems": [
    "RankDB.Props.C113_prefix",
    "RankDB.Props.C113_bolt_killed",
    "RankDB.Props.C113_bolt_power",
    "RankDB.Props.C113_badger_killed",
    "RankDB.Props.C113_badger_inverted",
    "RankDB.Props.C113_badger_rebuilt",
    "RankDB.Props.C113_badger_merged"
   ],
   "note": "C113_prefix for every driver, setting, history and moment; C113_bolt_killed and C113_bolt_power: with Bolt acknowledged requests survive. For Badger the statement is false: C113_badger_killed (any list of fewer than 98 segments: every acknowledged request since the start is lost with the process, however many there were, since they stay in a queue that is flushed at 100 different blobs), C113_badger_inverted (NoSync switched off is what lets a power failure lose everything), C113_badger_rebuilt (an acknowledged repair or replacement and a kill: all elements of the list are lost, whichever segments are looked for), C113_badger_merged (a maintenance pass that merges a segment and a kill: its elements are lost). The behaviour of the databases themselves (atomic transactions, synced transactions survive, unsynced ones survive in order) is assumed; transactions that are too big are not modelled here."
  },
  {
   "property": "C114",
   "status": "partial",
   "theorems": [
    "RankDB.Props.C114_one_route",
    "RankDB.Props.C114_arrives",
    "RankDB.Props.C114_distinct",
    "RankDB.Props.C114_client_complete",
    "RankDB.Props.C114_accepted",
    "RankDB.Props.C114_other_operation",
    "RankDB.Props.C114_restored"
   ],
   "note": "C114_arrives, C114_distinct, C114_client_complete, C114_one_route for all calls, IDs and paths; C114_accepted: IDs that the server accepts meet the condition. False for lists that were restored with a slash in the suffix: deleting the copy deletes an element of another list (C114_other_operation, C114_restored). The table of routes and the functions of the client are modelled; the router (httptreemux) is a library and modelled by its documentation, and escaping of characters other than letters, digits, '-', '_', '.' and '/' is left out, as are queries and bodies."
  },
  {
   "property": "C115",
   "status": "proved",
   "theorems": [
    "RankDB.Props.C115_values",
    "RankDB.Props.C115_any_spelling",
    "RankDB.Props.C115_legal",
    "RankDB.Props.C115_understood",
    "RankDB.Props.C115_one_meaning",
    "RankDB.Props.C115_served",
    "RankDB.Props.C115_distinct",
    "RankDB.Props.C115_first_counts",
    "RankDB.Props.C115_jobs_understood",
    "RankDB.Props.C115_many_understood",
    "RankDB.Props.C115_many_one_meaning",
    "RankDB.Props.C115_many_carried"
   ],
   "note": "C115_values, C115_any_spelling, C115_legal for all queries; C115_understood, C115_many_understood and C115_jobs_understood (verifying, repairing, restoring and tokens, up to the handlers) for all calls and arguments; C115_served for all servers in good order, C115_many_carried, for bodies without null elements and percentiles other than the text NaN (what happens with those is C85); C115_one_meaning, C115_many_one_meaning, C115_distinct, C115_first_counts. net/url (QueryEscape, Encode, ParseQuery), Itoa and FormatBool are modelled by their documentation. Bodies are compared as decoded, ParseFloat and json.Unmarshal of match_metadata are parameters, and the destinations of backups are left out; pages of lists with before_id are in C43 and C44."
  },
  {
   "property": "C116",
   "status": "partial",
   "theorems": [
    "RankDB.Props.C116_hosts_partial",
    "RankDB.Props.C116_one_meaning",
    "RankDB.Props.C116_never_refused",
    "RankDB.Props.C116_no_colon",
    "RankDB.Props.C116_port_ignored",
    "RankDB.Props.C116_large_port"
   ],
   "note": "C116_hosts_partial: documented settings for all hosts and ports, C116_one_meaning. Missing is that other settings are refused, which is false: C116_never_refused (not even the empty one), C116_no_colon (no host by IPv6 address), C116_port_ignored, C116_large_port. strings.Split and strconv.Atoi are modelled by their documentation, strings.TrimSpace for ASCII; connecting is left out."
  },
  {
   "property": "C117",
   "status": "partial",
   "theorems": [
    "RankDB.Props.C117_token_partial",
    "RankDB.Props.C117_default",
    "RankDB.Props.C117_refused",
    "RankDB.Props.C117_never_valid",
    "RankDB.Props.C117_cut_short"
   ],
   "note": "C117_token_partial for all texts and times and up to 153722867 minutes (292 years), C117_default, C117_refused. For longer times the statement is false: C117_never_valid, C117_cut_short. Signing is left out, jwt-go's check of the times is modelled by its documentation, and how the middleware splits the scopes is left out."
  }
 ]
}