{
"C01": {"status": "proved", "note": "The comparison is the documented strict total order; rankings exist and are unique."},
"C02": {"status": "proved", "note": "For every ranked slice and element."},
"C03": {"status": "proved", "note": "For every pair of ranked slices; both code paths give the same result."},
"C04": {"status": "partial", "note": "Uniqueness and latest-update are proved. The documented choice of the highest score among equal update times is false of the code: C04_deduplicate_keeps_lowest_score."},
"C05": {"status": "proved", "note": "For all ranked inputs."},
"C06": {"status": "proved", "note": "Add, Update and Delete on slices with distinct IDs."},
"C07": {"status": "partial", "note": "The result of Sort is a ranked permutation whenever it returns, and it returns for inputs below 25000 elements or with a proper split; it does not return for large inputs that cannot be split: C07_sort_diverges, C07_sort_not_total."},
"C08": {"status": "proved", "note": "With the exception, also proved, of size 0, which panics."},
"C09": {"status": "proved", "note": "All 64 bit scores and 32 bit tie-breakers."},
"C10": {"status": "proved", "note": "All ranked inputs and positive segment sizes, plain and index segments."},
"C100": {"status": "partial", "note": "Proved for all interleavings: a list whose entry nobody changes since the save began is brought back (C100_brought_back), and the file has nothing else than lists that were there, once each (C100_entries). Range of sync.Map is modelled by its documentation, and the names that are saved for a list whose entry is being changed are unspecified, because the code writes them without the lock under which they are encoded. False in the code: the file is not the catalogue of one moment. A list that is cloned and then deleted during a save can be in the file under neither ID (C100_neither), and a save that ends after a repair was answered can lose the list (C100_repaired_lost); both hold for every server."},
"C101": {"status": "partial", "note": "Proved for one saver and a storage that does not fail (with more savers or failures already reads are wrong, C39 and C40): C101_seen_partial (clients see what they see without the write-behind store), C101_flushed_partial (a crash with an empty queue), C101_untouched_partial (a crash at any moment: the start succeeds and untouched lists are back). C101_whole holds for any number of savers and failures: a key only ever has a value that was stored under it. The last part of the statement fails: C101_half_done (an answered request is left after any number of its changes), C101_moved_lost (an element whose new score was acknowledged is gone), C101_catalogue_first (a list is in the catalogue, cannot be read and cannot be created). Requests one at a time."},
"C102": {"status": "proved", "note": "Programs that read and write single cells (Model/Heap) for the operations on slices; C102_private: for every schedule the result of each goroutine is that of the list-valued specification (Spec/Heap), given elements are unchanged, no index out of range; C102_as_alone: independent of the schedule and of the others; C102_ends: every goroutine ends after enough turns; C102_ranked: what the requests give to the goroutines is ranked. C102_unranked: users of the package must not give one unranked slice to two calls at the same time. Simplified: sort.Slice and copy read before they write; payload bytes are not cells."},
"C103": {"status": "proved", "note": "C103_same: refinement to the sequential model of C07 for every schedule; C103_no_panic and C103_ends: every interleaving of the merge rounds. That the recursion of Sort over the pieces ends is C07 (false for 25000 or more unranked ties, C07_sort_diverges)."},
"C104": {"status": "partial", "note": "The element and its neighbours are proved for every interleaving, and the whole claim if no update changes the list. Missing: that the call does not panic (refuted by C104_panics; proved as long as no segment becomes empty) and that the element is at the percentile of a list in effect (refuted by C104_wrong_element)."},
"C105": {"status": "partial", "note": "Proved for every interleaving except the last sentence, which is false of the code: an element that is moved down meanwhile can be returned twice (C105_twice), and ranks can be those of no list in effect (C105_wrong_rank)."},
"C106": {"status": "partial", "note": "Proved for all operations but Verify and the failure paths of Populate and Repair: accesses of two calls to the same memory are both reads, or a read with a write of the value that is already there. The full property is false of the code: C106_race_segment, C106_race_verify, C106_race_unloaded."},
"C107": {"status": "partial", "note": "Proved for every history of requests without a stop or an error of the storage. False after a restart: C107_restart_leaves, C107_lost_for_ever; and for a list without index one segment of which cannot be read: C107_delete_broken_leaves."},
"C108": {"status": "partial", "note": "Proved: results are bounded by the bytes and in range, an accepted file gives exactly its elements, the list is well formed exactly if the segments in the file are, and a repair makes it well formed; blobs that are accepted and real backups ask for exactly what they have. False: small blobs and files ask for any amount of memory before they are refused (C108_small_blob, C108_small_file); wrong counts panic (C108_count_panics, C108_elements_panic); any elements in any order are accepted (C108_takes_anything, C108_any_elements, C108_server_takes_bad), and segments with the same number overwrite each other (C108_server_loses). C108_repair leaves out elements with the time 2^32-1 and split sizes below 4."},
"C109": {"status": "partial", "note": "Proved for pages from the top, from the bottom and from a score: an error or exactly the page, reading only segments of the page (at most two or three more than it fills); for lookups and percentiles: an error or the right elements with the right ranks, with all neighbours if no read fails; a segment that cannot be read does not disturb pages and lookups that have none of its elements. False: neighbours in a segment that cannot be read are left out without an error (C109_neighbours_dropped), and Stats shows no top and bottom element without an error (C109_stats_silent). Percentile 1 and empty lists are left out (see C25). No cache; nothing changes the list meanwhile; the end of the context is not modelled."},
"C11": {"status": "proved", "note": "For update times below the last second of the 32 bit clock; C11_last_second_is_lost shows that the bound is needed."},
"C110": {"status": "partial", "note": "The exact segments written and read by UpdateElements and DeleteElements, the exact segments written by Insert, the writes of splitting one segment (C110_split), of merging two (C110_merge) and of a pass with nothing to do, a bound on the writes of any pass (C110_pass), and the reads of the queries, without a cache. The table of README.md is wrong in five places: the index segment of an updated element is always rewritten, deletion reads it twice, results are looked up again, a page can take one read more, and a query by score reads its first segment twice. An insertion in several pieces writes a segment once for each piece (C110_insert_pieces). Reads of splitting and merging are not covered."},
"C111": {"status": "partial", "note": "Deletions: C111_delete_retry (any number of attempts with any failures), C111_delete_meanwhile, C111_delete_crash (crash and repair, then any attempts). Updates: C111_update_retry_partial and C111_update_crash_partial, for attempts during which score segments can be read and everything can be saved (unreadable index segments, lost clients and lost answers are covered). Without this it is false: C111_update_twice_stays, C111_update_lost_stays; C111_lost_for_ever and C111_deleted_for_ever show it for every list and any number of repetitions. It is false for insertions: C111_insert_again."},
"C112": {"status": "partial", "note": "C112_insert, C112_delete (including any later attempts at the deletion) for every crash point; C112_update_partial: everything except that a named element is there once. Negations: C112_put_never and C112_deleted_never (for every list there is a crash point after which an element can never be put again), C112_insert_torn (wrong length, a page leaves out an element, an element shown by pages cannot be looked up and is stored twice by a later put), C112_update_torn."},
"C113": {"status": "partial", "note": "C113_prefix for every driver, setting, history and moment; C113_bolt_killed and C113_bolt_power: with Bolt acknowledged requests survive. For Badger the statement is false: C113_badger_killed (any list of fewer than 98 segments: every acknowledged request since the start is lost with the process, however many there were, since they stay in a queue that is flushed at 100 different blobs), C113_badger_inverted (NoSync switched off is what lets a power failure lose everything), C113_badger_rebuilt (an acknowledged repair or replacement and a kill: all elements of the list are lost, whichever segments are looked for), C113_badger_merged (a maintenance pass that merges a segment and a kill: its elements are lost). The behaviour of the databases themselves (atomic transactions, synced transactions survive, unsynced ones survive in order) is assumed; transactions that are too big are not modelled here."},
"C114": {"status": "partial", "note": "C114_arrives, C114_distinct, C114_client_complete, C114_one_route for all calls, IDs and paths; C114_accepted: IDs that the server accepts meet the condition. False for lists that were restored with a slash in the suffix: deleting the copy deletes an element of another list (C114_other_operation, C114_restored). The table of routes and the functions of the client are modelled; the router (httptreemux) is a library and modelled by its documentation, and escaping of characters other than letters, digits, '-', '_', '.' and '/' is left out, as are queries and bodies."},
"C115": {"status": "proved", "note": "C115_values, C115_any_spelling, C115_legal for all queries; C115_understood, C115_many_understood and C115_jobs_understood (verifying, repairing, restoring and tokens, up to the handlers) for all calls and arguments; C115_served for all servers in good order, C115_many_carried, for bodies without null elements and percentiles other than the text NaN (what happens with those is C85); C115_one_meaning, C115_many_one_meaning, C115_distinct, C115_first_counts. net/url (QueryEscape, Encode, ParseQuery), Itoa and FormatBool are modelled by their documentation. Bodies are compared as decoded, ParseFloat and json.Unmarshal of match_metadata are parameters, and the destinations of backups are left out; pages of lists with before_id are in C43 and C44."},
"C116": {"status": "partial", "note": "C116_hosts_partial: documented settings for all hosts and ports, C116_one_meaning. Missing is that other settings are refused, which is false: C116_never_refused (not even the empty one), C116_no_colon (no host by IPv6 address), C116_port_ignored, C116_large_port. strings.Split and strconv.Atoi are modelled by their documentation, strings.TrimSpace for ASCII; connecting is left out."},
"C117": {"status": "partial", "note": "C117_token_partial for all texts and times and up to 153722867 minutes (292 years), C117_default, C117_refused. For longer times the statement is false: C117_never_valid, C117_cut_short. Signing is left out, jwt-go's check of the times is modelled by its documentation, and how the middleware splits the scopes is left out."},
"C12": {"status": "proved", "note": "All ID multisets, all well-formed lists."},
"C13": {"status": "partial", "note": "Existing scores are found; the documented 'element below' for missing scores is not returned: C13_element_below_not_returned."},
"C14": {"status": "proved", "note": "For every schedule and shuffle. Settings for which the code panics are shown in C14_populate_can_panic."},
"C15": {"status": "proved", "note": "For every schedule; the call returns for split sizes of at least 4 and provably never returns below (C15_insert_hangs)."},
"C16": {"status": "proved", "note": "For every processing order. One clock value per call is a simplification."},
"C17": {"status": "proved", "note": "For every schedule and multiset of IDs."},
"C18": {"status": "proved", "note": "For all sizes; segment IDs must not be used up (next ID at most 2^31)."},
"C19": {"status": "proved", "note": "No assumption on the index."},
"C20": {"status": "proved", "note": "Content and well-formedness of the clone, and disjoint storage and cache keys of the segments when the generated table IDs come from different clock units."},
"C21": {"status": "proved", "note": "All finite histories of insert, update, delete, populate, reindex, repair and split/merge against a map from ID to element; progress is C21_operations_return."},
"C22": {"status": "proved", "note": "All offsets and counts on every well-formed list; beyond the end the query fails. Negative offsets are not represented (the code panics on some)."},
"C23": {"status": "proved", "note": "All offsets and counts on every well-formed list."},
"C24": {"status": "proved", "note": "Elements with at most the given score, with true ranks, for every 64 bit score."},
"C25": {"status": "partial", "note": "The element at the computed offset with true ranks is returned (C25_percentile_partial, C25_percentile_exact). For every float64 below 1 and every list with elements an element is returned, at the true rank or, if the product needs more than 64 bits, the next (C25_percentile_below_one, C25_offset_inside). False of the code in general: percentile 1 on a list whose last segment is empty, and any percentile on an empty list, panic (C25_percentile_panics, C25_percentile_empty_panics, C25_no_elements_panics); 64 bit rounding can give the next rank (C25_rounding_differs, bounded by C25_offset)."},
"C26": {"status": "partial", "note": "Exactly one result per existing ID with true ranks, for every schedule. The documented order by rank is false of the code: C26_get_elements_unsorted."},
"C27": {"status": "partial", "note": "The right neighbours are returned, closest first in both directions. The documented order of Above is the opposite: C27_above_order."},
"C28": {"status": "proved", "note": "Len and the element counts, top and bottom of Stats. Cache counters are not modelled."},
"C29": {"status": "partial", "note": "New ranks are right and the previous element is reported exactly if there was one; the previous rank is relative to its segment and FromBottom is 0: C29_before_wrong."},
"C30": {"status": "partial", "note": "Completeness is proved. Soundness needs non-empty ranges of which only the last reaches 0; without that it is false: C30_verify_unsound, C30_verify_misses_index."},
"C31": {"status": "proved", "note": "Arbitrary score segments and index, any subset of unreadable segments. Ties in update time are resolved as in C04. Loading of the segment list itself is not part of the model."},
"C32": {"status": "proved", "note": "Restoring a backup of any well-formed list whose lengths and times fit their stored types gives the same settings and content under the same or a new ID. Other versions and truncated backups are rejected. A nil metadata map comes back as an empty map."},
"C33": {"status": "proved", "note": "Byte-level MessagePack model; the encoding library is modelled from its format."},
"C34": {"status": "proved", "note": "Byte-level; unknown fields range over all MessagePack values, nested to any depth."},
"C35": {"status": "partial", "note": "Round trip and all truncation points proved; zstd is abstract with two laws. A nil metadata map comes back as an empty map, and a query can tell the difference (C35_nil_metadata_query), so exactness is proved for lists with a metadata map."},
"C36": {"status": "proved", "note": "All combinations of readable, unreadable, invalid and truncated list file and backup. If both fail an error is reported, but lists of the partially read file can be visible (C36_both_fail_partial_lists)."},
"C37": {"status": "partial", "note": "Proved for sets of lists that all restore: exactly the written lists, with prefix and suffix, existing ones kept on request. The failure clause is false of the code: the first list that fails makes Restore panic by assigning to a nil map, so later lists are not restored (C37_failure_panics, C37_failure_witness)."},
"C38": {"status": "partial", "note": "All histories with failures of the store below and restarts: answers, part sizes, rejection, nothing left over. The full statement fails: a key k+0 interferes with k (C38_interference), a failed Set leaves a torn blob that reads without error (C38_torn), a Delete whose header read fails reports success (C38_delete_ignored); hence the hypothesis Separate and the exceptions in the specification."},
"C39": {"status": "partial", "note": "Proved for one saver with a store that does not fail, and for any number of savers that do not overtake each other with the same key. The full statement is false: C39_stale_read (two savers), C39_key_collision, C40_failed_save."},
"C40": {"status": "partial", "note": "As C39; flushing is proved to end for any savers and failures (C40_flush_ends). The full statement is false: C39_stale_read shows a flushed store with an old value, C40_failed_save a lost value."},
"C41": {"status": "partial", "note": "First ending attempt proved for all outcome sequences. The claim about configured permanent errors is false: C41_configured_ignored, C41_configured_leak, C41_configured_wrong; C41_defaults_partial covers processes that configure none."},
"C42": {"status": "proved", "note": "Injectivity of storage and cache keys for all parents and IDs; segment keys contain '-', generated table IDs are alphanumeric. Distinctness of generated IDs is proved for different clock units; within one unit it rests on the random bytes (C42_random_collision)."},
"C43": {"status": "proved", "note": "All collections of lists, all iteration orders, all start IDs and limits. IDs are byte strings compared bytewise. C43_page_after and C43_page_refused are about calls of the client library."},
"C44": {"status": "partial", "note": "False in the code (C44_wrong_page, and C44_page_of_one_wrong for every collection). Proved: counts, size, order and all but the smallest list of the page for limits of two or more; exact pages under a condition on the iteration order. C44_page_before_partial is about calls of the client library; C44_page_both: after_id is ignored if before_id is given."},
"C45": {"status": "partial", "note": "False for queried values that are empty (C45_missing_field_matches). Proved for non-empty values, and C45_selected says exactly what is selected."},
"C46": {"status": "proved", "note": "All bit patterns; the value of a bit pattern is the IEEE 754 binary64 value. The exact bits come back except that -0 comes back as +0 (equal numbers)."},
"C47": {"status": "proved", "note": "Claims as none, string or other value; strings are sequences of characters. A claim that is not a string (for instance a JSON array) does not restrict, see C47_unrestricted. Which endpoints perform the check is not modelled."},
"C48": {"status": "proved", "note": "Element ID sets and list ID sets."},
"C49": {"status": "proved", "note": "Any number of goroutines and tokens, all interleavings; each token is released once by its holder."},
"C50": {"status": "partial", "note": "All interleavings, any number of goroutines, any channel capacities. Proved: result lists exactly the reported errors, none lost, no deadlock, bounded steps, nil iff no errors while the context is not cancelled. The code can return nil although the context was cancelled (C50_nil_although_cancelled)."},
"C51": {"status": "partial", "note": "Proved for insertions and deletions at every crash point. For updates: elements that are not named are kept; named elements are kept unless they move to another segment. C51_update_lost shows that a moved element can be lost."},
"C52": {"status": "partial", "note": "At every crash point repairing keeps the elements of segments that existed before; merging alone loses nothing (C52_merge). Elements moved to a new segment are lost at every crash point between the writes of the score segments and the saving of the segments: C52_split_lost."},
"C53": {"status": "partial", "note": "Locks of a list as a transition system: goroutines of any number of calls, Go's RWMutex with announced writers, programs of all list operations with the data they depend on as parameters. Proved for all operations except lookups and percentiles with neighbours, GetRankScoreDesc over several locks, Stats with elements and Populate after a failed load: every schedule is bounded, never stuck, and releases all locks. For the excepted operations the claim is false of the code: each has a concrete schedule that ends in a deadlock with a call that changes elements (or reindexes, for Stats). Also proved: without calls that change elements, lookups and percentiles with any neighbours and GetRankScoreDesc never deadlock, and on a list in memory neither does Stats with elements."},
"C54": {"status": "partial", "note": "Proved for every interleaving of any number of updates with a lookup: results are requested elements, at most once, as in a list in effect during the lookup; an element whose segment stays the same is found; unchanged elements are found as they are; without a change the ranks are right. The full claim is false: C54_missing shows a lookup that reports an element as missing that is in the list before and after, C54_wrong_rank one that reports a rank the element never had. Neighbours and further segments that cannot be loaded are covered in C95."},
"C55": {"status": "partial", "note": "Proved for split sizes of at least 4, which the REST API guarantees. The library accepts smaller sizes, and then no insertion ends: C55_hangs."},
"C56": {"status": "proved", "note": "For every list and request."},
"C57": {"status": "partial", "note": "The element, the neighbours below and a single neighbour above carry true ranks. Two or more neighbours above never do: C57_above_wrong."},
"C58": {"status": "proved", "note": "For every list and set of IDs."},
"C59": {"status": "partial", "note": "Every list is reported once, with its error or result, with at most the limit running. If the context is cancelled the code returns nothing: C59_cancelled."},
"C60": {"status": "proved", "note": "A backup is written on every k-th save after the first one; the save at shutdown writes none (C60_shutdown)."},
"C61": {"status": "partial", "note": "Without a cache (the default) proved for all histories. With a cache proved for all histories, evictions and failures in which a name belongs to one set and the segment had no failed in-place save and was not merged away; the three excluded cases are proved to return other elements (C61_other_set, C61_merged, C63_failed_delete): the code violates the property there."},
"C62": {"status": "partial", "note": "Every sequential history on keys that stay distinct when joined, with any order of flushing and any places where transactions get too big, for a database that does not fail. Missing, because the code violates it (proved): a Get between the two halves of a Delete returns an older value, a failed commit loses queued values (and Close reports success), a failed commit in the middle of a flush is not reported, and set/key pairs that join to the same key interfere."},
"C63": {"status": "partial", "note": "Proved without a cache, for other segments, and for changes made in a new array. With a cache the code violates it: a failed in-place deletion leaves elements that are neither before nor after, with a duplicate (C63_delete_neither), a failed small insertion drops the last element (C63_failed_insert), and the count in the table is already the new one (C63_failed_count)."},
"C64": {"status": "proved", "note": "For every list, offset and limit."},
"C65": {"status": "partial", "note": "Proved for requests one after the other. Concurrent creates of one ID can leave it twice: C65_concurrent_duplicate."},
"C66": {"status": "proved", "note": "For every list and request."},
"C67": {"status": "proved", "note": "Insert, UpdateElements, DeleteElements and split for every list and write order; also Populate and Reindex, once the new names of the segments are saved with the list of lists."},
"C68": {"status": "partial", "note": "Reindexing keeps the elements, and Repair returns them if the index is found: C68_reindex_partial. Repair panics if the new name of the index was not saved (C68_reindex_unsaved); populating and repairing again lose all elements if stopped before the end (C68_populate_lost, C68_repair_lost)."},
"C69": {"status": "proved", "note": "C69_conflict, C69_create, C69_clone_conflict, C69_clone and C69_delete over the model of the whole server; every state that histories of requests lead to is covered by C70_history. Requests at the same time are C72."},
"C70": {"status": "proved", "note": "C70_request is the refinement step for every request; C70_history and C70_from_nothing lift it to all histories. The hypotheses Fits and Allowed say that names for new segments are fresh, the clock is set, and numbers fit their types; split sizes below 4 are excluded because populate can divide by zero or not end, see C14 and C15."},
"C71": {"status": "partial", "note": "Proved for lists whose entry in the catalogue was not changed since the catalogue was saved, for stops between requests and crashes within requests about other lists. False otherwise: C71_deleted_returns, C71_repaired_lost and C71_created_lost hold for every list."},
"C72": {"status": "partial", "note": "Proved if the requests are served one after the other. False at the same time: C72_both_created, for all servers and all lists."},
"C73": {"status": "partial", "note": "Proved for changes through every endpoint of lists, elements and many lists, and for lookups by ID. Disagreement: a range of ranks (and percentile, and top_bottom of a list) shows elements that only_elements does not name (C73_range_unrestricted). The signature of the token is checked by the middleware and is not modelled."},
"C74": {"status": "partial", "note": "Proved for create, put and delete with the selection that each uses. Disagreements: sets without fields are ignored by create and put (C74_sets_ignored, C74_set_not_updated), and reindex, verify and backup of sets alone are applied to all lists (C74_all_instead)."},
"C75": {"status": "partial", "note": "Proved for every history of changes and queries, starting from any server in good order or from none: each query shows what the map of rankings gives at that time, percentiles below 100 % included (C25_percentile_below_one). Missing: ranks of two or more neighbours above an element (they are wrong, C57), paging backward (wrong, C44), the percentile 100 % (it can panic, C25), and requests that run at the same time (C54, C77)."},
"C76": {"status": "partial", "note": "Proved for every interleaving: only elements of lists in effect during the call, strictly in ranking order; elements that are not updated meanwhile are in a clone exactly once, and are not left out between two elements of a range (C76_range_no_gap); without changes clone and range are exact. False in the code for elements that are updated meanwhile: a clone can have an element twice or not at all (C76_clone_twice, C76_clone_missing), a range can show one twice (C76_range_twice)."},
"C77": {"status": "partial", "note": "Proved for every interleaving of the changes of requests and jobs for different lists (and clones of lists that nobody changes), with queries of lists in between, and for a crash at any moment. Missing: requests for the same list at the same time (false in parts: C54, C65, C72, C76) (pages of the catalogue while lists are created or deleted are C90)."},
"C78": {"status": "proved", "note": "All reachable servers satisfy the list invariant, have times and sizes in bounds (Proofs/Fit, FitWrites, FitServer), and therefore pass all checks; nothing is written."},
"C79": {"status": "proved", "note": "Names of segments are what RandString returns (C79_generated_names). Orderly asks that lists can be read after a start; C71 shows when a start finds lists whose blobs are gone. Errors of the storage are in C31, C37, C38 and C80."},
"C80": {"status": "partial", "note": "True without backups, and with backups as long as the storage can be read at every start and accepts the catalogue whenever it accepts a backup (C80_start_partial); any start that can read the catalogue is right (C80_readable_start); nothing else than the last save, the last backup or no lists is ever loaded (C80_worst). False with backups if a read fails: C80_forgets, C80_stale. C80_never_backed: short runs never make a backup."},
"C81": {"status": "partial", "note": "Proved for every interleaving: the limit and the tokens, that nobody enters after the signal, what each answer means, that a stop never hangs and is bounded; and that the saved catalogue is complete if no stage runs into its timeout and no client abandons a request for many lists. False otherwise (C81_timeout_loses, C81_abandoned). The shutdown library is modelled by its documentation."},
"C82": {"status": "proved", "note": "C82_stack is the property for everything newBlobstore and wrapRetry can build; C82_acknowledged spells out what it means for an acknowledged value; C82_keys_used: the keys of the database meet the hypothesis. Badger is taken as a database that does not fail (C62 says what happens otherwise), Aerospike as in the specification: a value whose write failed may be torn and an acknowledged deletion may not have happened (C82_delete_ignored, also with retries). C82_volatile, C82_slash_collision, C82_short_key and C82_block_size show what the configuration does not give. The driver for DynamoDB, which the server cannot be configured to use, reads without consistency: C82_dynamo, C82_dynamo_stale."},
"C83": {"status": "partial", "note": "Proved for every operation and every place of failure except eight, for which the opposite is proved for all schedules: splits that cannot save, a backup that cannot be written, populating or repairing when the new index cannot be stored, repairing with unreadable statistics keep a lock for ever; reindexing or loading that cannot save the segments unlocks twice, which ends the process. C83_same_locks and C83_same_start: the programs of failing calls are those of the calls that go through, up to the failure."},
"C84": {"status": "partial", "note": "Proved for every job: the status, and what restoring the destination gives for every failure, cancelling and cut. That a reported success can be restored is proved for uploads, and for other destinations under the hypothesis that they take everything; it is false otherwise (dropped errors of Flush and Close, a cancelled job drops its buffer, the request to another server is cancelled when the job ends). Asking for the status can end the server."},
"C85": {"status": "partial", "note": "Proved for all requests except those in `Spec.Unusual`, for which the code violates the statement: null for an element of a new list panics (C85_null_panics), elements to put without ID or score are accepted as element 0 with score 0 (C85_missing_id_is_zero), the percentile NaN panics (C85_nan_panics). The percentile 100 is accepted and panics (C25_percentile_panics). C85_within_limits shows that accepted requests meet the hypotheses of C70 and C75. Requests for many lists likewise (C85_many_read_partial, C85_many_refused, C85_many_one_meaning), except null for an element (C85_many_null_panics). Syntax of JSON, ParseFloat, before_id, and the bodies of verify, backup and restore are not modelled."},
"C86": {"status": "partial", "note": "A payload that is sent is stored untouched and no other element changes (C86_stored_partial). The second sentence is violated: an update without payload always erases the stored payload (C86_update_erases). Whether the decoder turns an explicit null into an absent payload is outside of the model; in both cases the stored payload is lost."},
"C87": {"status": "proved", "note": "C87_release_locks and C87_release_returns are about the locks, at any schedule. C87_release_invisible and C87_release_same are about histories of requests one after the other, for storages that do not fail; all answers are those of the map of rankings (with the exceptions of C75)."},
"C88": {"status": "partial", "note": "Proved for insertions and deletions, for every pattern of failures, and for updates if the segments of the scores can be read and saved; other elements are untouched and no values are mixed for every pattern. The full statement is false of the code: updates are reported as done although the element was dropped (C88_update_dropped, for every list), stored twice (C88_update_twice) or lost (C88_update_lost), and a deletion whose client goes away makes later updates of the element do nothing (C88_delete_blocks, for every list)."},
"C89": {"status": "partial", "note": "Proved: repeated runs end, after a linear number at most, in segments of the configured sizes (C89_balances_partial), such lists are not changed (C89_rest), exactly when a run is requested (C89_request, C89_quiet), requests are queued and served in order (C89_queued, C89_served). False in the code, with witnesses: one request is one run that cuts segments in two at most and the list is not checked again (C89_one_run); a segment whose lower half is tied is never cut, though it could be cut above, and every later change requests a run in vain (C89_ties_stay); with 1000 requests waiting, also for one and the same list, further ones are dropped (C89_dropped). That the content does not change is C18."},
"C90": {"status": "partial", "note": "Proved for all changes of the catalogue during the calls: C90_browse_partial, C90_ends, C90_selected; C90_still links the model to that of C43. Range of sync.Map is modelled by its documentation. False in the code: a page can be short or empty although lists follow, when lists are deleted between the scan and the lookup (C90_short_page), and a request for a set can be applied to a list of another set that was created with the same ID in between (C90_other_list)."},
"C91": {"status": "proved", "note": "For any jobs that change the list in small steps, as long as each step is made while the call holds the locks that the code holds: C91_serial, C91_all, C91_real_time, C91_report. C91_does says that the jobs of the operations do what the operations of the specification do. C91_map and C91_none_lost draw the conclusion for updates and deletions. Storage does not fail here, and two cases take the update lock twice and are not covered: Repair and Populate of a list whose segments cannot be loaded."},
"C92": {"status": "partial", "note": "Proved for all servers in good order: C92_restored_partial and C92_moved (content, counts, other lists), C92_others and C92_others_crash (any bytes, any point), C92_saved. False part, proved as negation: C92_unsaved_lost (the catalogue is not saved, so a restart loses the restored lists and the ones they replaced), C92_broken (a list that cannot be read panics and has already deleted the existing list). C92_unreachable: prefix and suffix are not checked, so lists can get IDs that requests refuse."},
"C93": {"status": "proved", "note": "Requests that create elements are not among them: the handler looks for the IDs before it takes the lock, see C65. Lists are neither created nor deleted meanwhile (C77), and the storage does not fail. Maintenance needs room for the numbers of segments and elements."},
"C94": {"status": "partial", "note": "Proved for all schedules while Shutdown is not called, and the bound for all schedules. With Shutdown it is proved when no Set or Delete is between its look at the flag and its change of the queue at that moment; for such calls the statement is false of the code (C94_late_call_lost, C94_late_call_waits)."},
"C95": {"status": "partial", "note": "Proved for every interleaving of any number of updates with a lookup: each side holds exactly the closest elements of one list in effect, in order (a prefix if a segment could not be loaded); unchanged elements are found; without a change the whole result is right. The full claim is false: the two sides can be those of different lists, so an element can be on both sides (C95_both_sides) or on neither (C95_neither_side). A lookup whose first segment cannot be loaded fails and is not modelled."},
"C96": {"status": "proved", "note": "C96_as_values: refinement to the store with values for every schedule; C96_get, C96_returned_kept, C96_caller_writes: reads; C96_one_holder: no buffer is held twice; C96_capacity: sizes; C96_last_write combines it with C39/C40."},
"C97": {"status": "partial", "note": "Proved for all schedules: C97_content (no panics or failed saves), C97_one_load, C97_exclusive, C97_error, C97_no_error, C97_no_deadlock (no panics), C97_ends; writes fail for their own reasons only (C97_writer_error_partial). The code violates the rest: C97_foreign_error (a read fails because the context of another request, which was loading, was cancelled), C97_panic_empty and C97_panic_stuck (if the loading call panics, waiting calls get and cache an empty segment, and the segment stays locked)."},
"C98": {"status": "proved", "note": "C98_serial: every interleaving, with failures and crashes, is explained by a history of the atomic calls of C38 in the order of return. C98_answers: what Get answers, in terms of the calls that returned before. C98_no_deadlock, C98_ends: some call can always go on and every schedule ends. C98_torn: the exception for crashes is needed, a process that ends within a Set leaves a mix of the old and the new blob that reads without error."},
"C99": {"status": "proved", "note": "C99_recovers is one crash, C99_history puts it after any history and before any later one, C99_saved is the restart after saving. C99_split_partial covers the split job, which the statement leaves out because it can lose elements (C52). C99_unsaved, C99_reindexed_stuck and C99_repair_crashed show what is not kept: the repaired list is lost if the server stops before the catalogue is saved, repairing after an unsaved reindex panics, and a crash within the repair empties the list."}
}
