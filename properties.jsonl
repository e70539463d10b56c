{"id": "C01", "title": "Ranking order is a strict total order", "statement": "The order used to rank elements compares score (higher first), then tie-breaker (higher first), then update time (earlier first), then element ID (lower first). It is irreflexive, transitive and decides every two elements with different IDs, so every collection of elements with distinct IDs has exactly one ranking.", "quantifier": "all elements, all pairs and triples of elements, all collections with distinct IDs", "why_tests_cant": "A test compares a handful of pairs; totality and uniqueness of the ranking are statements about every pair and every permutation.", "anchors": ["element.go:Element.Above", "element.go:Element.aboveP", "elements.go:Elements.Sorter"]}
{"id": "C02", "title": "Single insert keeps the ranking", "statement": "Inserting an element into a ranked slice of elements returns a ranked slice that holds exactly the old elements plus the new one, and the returned index is the position of the new element.", "quantifier": "every ranked slice of any length and every element", "why_tests_cant": "The insert position depends on all relative orders of the new element; tests cover a few positions.", "anchors": ["elements.go:Elements.Insert"]}
{"id": "C03", "title": "Merge keeps the ranking and does not depend on the internal path", "statement": "Merging a ranked slice into another ranked slice yields a ranked slice with exactly the elements of both. The result is the same whether the allocating path or the in-place path is taken, so capacity, the sliced flag and the sizes (limits 10 and 1000) are not observable.", "quantifier": "every two ranked slices, every capacity and every value of the sliced flag", "why_tests_cant": "The two code paths are selected by sizes and capacity; only a proof shows they agree on all inputs.", "anchors": ["elements.go:Elements.Merge"]}
{"id": "C04", "title": "Deduplicate keeps one element per ID", "statement": "Deduplicating elements leaves exactly one element for every ID that occurred, that element is one of the originals, it has the latest update time among those with its ID, among these it is the documented one with the highest score, the result is ranked, and the reported change flag says whether anything was removed. The result must not depend on how the unstable sort orders equal IDs.", "quantifier": "every slice of elements, every outcome of the unstable sort", "why_tests_cant": "sort.Slice may order equal IDs in any way; a test observes one order.", "anchors": ["elements.go:Elements.Deduplicate", "elements.go:NewElements"]}
{"id": "C05", "title": "Merging with deduplication overwrites existing IDs", "statement": "Merging elements with deduplication gives a ranked slice in which every inserted element is present, an existing element is present exactly if its ID was not inserted, and nothing else is present.", "quantifier": "every existing slice and every inserted slice", "why_tests_cant": "The property quantifies over all overlaps of IDs between the two slices.", "anchors": ["elements.go:Elements.MergeDeduplicate", "elements.go:Elements.ids"]}
{"id": "C06", "title": "Add, Update and Delete on a slice act as a map keyed by ID", "statement": "On a ranked slice with distinct IDs: Add and Update leave the ID mapped to the new element and all other IDs unchanged, Delete removes exactly the given ID, Update and Delete report not-found exactly when the ID is absent and then change nothing, the slice stays ranked with distinct IDs, and the returned rank is the number of elements above and below the element.", "quantifier": "every ranked slice, every element and ID, every clock value", "why_tests_cant": "Requires all slices and all positions of the affected element.", "anchors": ["elements.go:Elements.Add", "elements.go:Elements.Update", "elements.go:Elements.Delete", "elements.go:Elements.idxRank"]}
{"id": "C07", "title": "Sort terminates and produces the ranking", "statement": "Sorting a slice of elements always terminates, returns a ranked permutation of the input, and reports a change exactly when the input was not already ranked.", "quantifier": "every slice of elements of any length, including ones of 25000 or more elements that use the split-and-merge path", "why_tests_cant": "The large path depends on how equal scores are grouped; no finite set of inputs covers it.", "anchors": ["elements.go:Elements.Sort", "elements.go:Elements.SplitSize"]}
{"id": "C08", "title": "Splitting elements by size", "statement": "Splitting a slice into pieces of about a given size returns non-empty pieces that concatenate to the slice, never separates two neighbours with the same score and tie-breaker, and, when neighbouring elements never tie, no piece is longer than the requested size.", "quantifier": "every slice, every positive piece size", "why_tests_cant": "Boundary arithmetic and runs of equal scores interact; the statement is about all lengths and all tie patterns.", "anchors": ["elements.go:Elements.SplitSize"]}
{"id": "C09", "title": "Boundary arithmetic on (score, tie-breaker)", "statement": "The value just before and the value just above a (score, tie-breaker) pair are inverse to each other away from the ends of the range, no other pair lies between a pair and its neighbour, and the functions saturate at the ends.", "quantifier": "all 64-bit scores and 32-bit tie-breakers", "why_tests_cant": "2^96 pairs; carries at the tie-breaker limit are the point.", "anchors": ["element.go:Element.PrevMax", "element.go:Element.AboveThis"]}
{"id": "C10", "title": "Bulk-built segments tile the whole score range", "statement": "Building segments from ranked pieces gives contiguous ranges that cover every (score, tie-breaker) pair exactly once, every element lies inside the range of the segment that stores it, element counters are exact, segment IDs are distinct, and index segments are cut only on ID boundaries.", "quantifier": "every list of pieces produced by size splitting of a ranked slice, both for scores and for index segments", "why_tests_cant": "Coverage with no gap and no overlap is a statement about every score and every input.", "anchors": ["segments.go:NewSegmentsElements", "segments.go:Segments.AlignIndex", "segments.go:Segments.Append", "segment.go:NewSegmentElements"]}
{"id": "C11", "title": "Range filter routes every element to exactly one segment", "statement": "For contiguous segments covering the whole range, filtering a ranked slice by each segment gives consecutive pieces that together are the whole slice; an element is selected by a segment exactly if its (score, tie-breaker) lies in the segment's range.", "quantifier": "every contiguous segmentation, every ranked slice", "why_tests_cant": "A missed boundary silently drops an element on insert; only a proof covers all boundaries.", "anchors": ["segment.go:Segment.FilterIdx", "segment.go:Segment.Filter", "segments.go:Segments.splitElementsIdx"]}
{"id": "C12", "title": "Score routing sends each ID to the one index segment that can hold it", "statement": "Splitting a set of IDs over the index segments assigns each ID to exactly one segment, the one whose ID range contains it, and preserves descending order inside each group.", "quantifier": "every aligned index segmentation, every set of IDs", "why_tests_cant": "Quantifies over all segmentations and all sets of IDs.", "anchors": ["segments.go:Segments.splitScores", "segments.go:Segments.splitIndexUpdates"]}
{"id": "C13", "title": "Looking up a set of scores returns every score that exists", "statement": "Given a ranked slice and strictly descending scores, the lookup returns, for every requested score that occurs, the first element with that score; for a requested score that does not occur the element below is returned as documented.", "quantifier": "every ranked slice and every strictly descending list of scores", "why_tests_cant": "The scan advances one score per element; whether a hit can be skipped depends on all interleavings.", "anchors": ["elements.go:Elements.FirstElementsWithScore", "segments.go:Segments.getFirstWithScore"]}
{"id": "C14", "title": "Creating or populating a list stores exactly the given elements", "statement": "After populating a list with elements with distinct IDs, the list content is exactly those elements in ranked order, every element can be looked up by ID, and the list is well formed. Populating with no elements gives an empty well-formed list.", "quantifier": "every set of elements with distinct IDs, all split and merge sizes with merge+split at least 2", "why_tests_cant": "Sizes decide the segmentation; the property must hold for all sizes and all inputs.", "anchors": ["list.go:List.Populate", "list.go:List.populate", "list.go:NewList", "list.go:List.initEmptyList"]}
{"id": "C15", "title": "Insert adds exactly the given elements", "statement": "Inserting elements with IDs not already in a well-formed list yields a well-formed list whose content is exactly the old content plus the new elements in ranked order.", "quantifier": "every well-formed list, every set of new elements with update times below the 32-bit maximum, any scheduling of the per-segment workers", "why_tests_cant": "Depends on every segmentation and every distribution of new elements over segments.", "anchors": ["list.go:List.Insert", "list.go:List.insert", "segments.go:Segments.Insert"]}
{"id": "C16", "title": "UpdateElements is an upsert", "statement": "Updating a well-formed list with elements with distinct IDs yields a well-formed list in which every given element replaces the element with the same ID or is added, and every other element is unchanged. The result does not depend on the order in which segments are processed.", "quantifier": "every well-formed list, every set of elements with distinct IDs, every processing order of segments", "why_tests_cant": "Go map iteration order and goroutine scheduling choose the order; tests see a few of the factorially many.", "anchors": ["list.go:List.UpdateElements"]}
{"id": "C17", "title": "DeleteElements removes exactly the given IDs", "statement": "Deleting IDs from a well-formed list yields a well-formed list that holds exactly the old elements whose IDs were not given. IDs that are absent or given twice have no further effect.", "quantifier": "every well-formed list, every list of IDs, any scheduling of the per-segment workers", "why_tests_cant": "Depends on every segmentation and every subset of IDs.", "anchors": ["list.go:List.DeleteElements", "segments.go:Segments.DeleteElementsIdx", "segments.go:Segments.DeleteElements"]}
{"id": "C18", "title": "Splitting and merging segments never changes content", "statement": "Running the split/merge maintenance on a well-formed list leaves the ranked content unchanged, leaves the list well formed with every element indexed to the segment that now stores it, and terminates.", "quantifier": "every well-formed list, all split and merge sizes", "why_tests_cant": "Index updates must match the segment moves for every pattern of splits and merges.", "anchors": ["list.go:List.split", "list.go:List.ForceSplit", "segments.go:Segments.splitIdx", "segments.go:Segments.mergeWithNext", "segments.go:Segments.updateIndexElements"]}
{"id": "C19", "title": "Reindex rebuilds a correct index from the scores", "statement": "Whatever state the index is in, rebuilding it from well-formed score segments yields a well-formed list with the same content in which every element can be found by ID.", "quantifier": "every well-formed score segmentation, every prior index", "why_tests_cant": "The prior index is arbitrary, including corrupt.", "anchors": ["list.go:List.Reindex", "list.go:List.reindex", "segments.go:Segments.ElementIndexAll"]}
{"id": "C20", "title": "Cloning copies content", "statement": "A list created as a clone of a well-formed list has the same ranked content, is well formed, and shares no segment identifier with the original, so later changes to one do not affect the other.", "quantifier": "every well-formed source list, all split and merge sizes of the clone", "why_tests_cant": "Quantifies over all source segmentations.", "anchors": ["list.go:List.cloneElements"]}
{"id": "C21", "title": "Any history of operations equals the reference model", "statement": "Starting from a new list, any sequence of Insert (of new IDs), UpdateElements, DeleteElements, Populate, Reindex, Repair and split/merge leaves the list well formed, and its ranked content equals the ranking of the finite map obtained by applying the same operations to a map from ID to element.", "quantifier": "all finite histories of operations with all arguments", "why_tests_cant": "Histories are unbounded; the claim is an induction over them.", "anchors": ["list.go:List"]}
{"id": "C22", "title": "GetRankTop returns the ranked slice at an offset", "statement": "On a well-formed list, asking for n elements at an offset from the top returns the elements ranked offset .. offset+n-1 (fewer at the end); it fails with out-of-bounds exactly when the offset is at or beyond the length.", "quantifier": "every well-formed list, every offset and count", "why_tests_cant": "The result crosses segment boundaries in every possible way.", "anchors": ["list.go:List.GetRankTop", "segments.go:Segments.segIdxTop", "segments.go:Segments.getElementsOffset"]}
{"id": "C23", "title": "GetRankBottom returns the ranked slice from an offset from the bottom", "statement": "On a well-formed list, asking from the bottom at an offset returns elements starting at rank length-1-offset going down; it fails with out-of-bounds exactly when the offset is at or beyond the length.", "quantifier": "every well-formed list, every offset and count", "why_tests_cant": "As for the top variant, over every segmentation.", "anchors": ["list.go:List.GetRankBottom", "segments.go:Segments.segIdxBottom"]}
{"id": "C24", "title": "GetRankScoreDesc starts at the first element at or below a score", "statement": "On a well-formed list, asking for n elements from a score returns the first n ranked elements whose score is at most the given score, each with its true rank from top and from bottom.", "quantifier": "every well-formed list, every 64-bit score, every count", "why_tests_cant": "Scores may fall on, between or across segment boundaries and tie groups.", "anchors": ["list.go:List.GetRankScoreDesc", "segments.go:Segments.segIdxScore", "segments.go:Segments.getElementsFromScore", "rankedelement.go:RankedElements.Offset"]}
{"id": "C25", "title": "GetPercentile returns the element at the percentile", "statement": "On a non-empty well-formed list, the percentile query returns the element ranked floor(p * length), or the last element when that equals the length, with true ranks; it never panics.", "quantifier": "every well-formed list, every percentile in [0,1]", "why_tests_cant": "Depends on empty segments and on rounding for every length.", "anchors": ["list.go:List.GetPercentile", "segments.go:Segments.getElementIndex", "segments.go:Segments.topOffsets"]}
{"id": "C26", "title": "GetElements finds exactly the requested elements with true ranks", "statement": "On a well-formed list, looking up IDs returns exactly one result for every requested ID that is in the list and none for others, each with its element, its true rank from top and bottom; the results are sorted by rank as documented.", "quantifier": "every well-formed list, every list of IDs, any scheduling of the per-segment workers", "why_tests_cant": "Lookup goes through the index and both segmentations; order depends on scheduling.", "anchors": ["list.go:List.GetElements", "list.go:List.getIndexElements", "segments.go:Segments.FindElements", "segments.go:Segments.findRanked"]}
{"id": "C27", "title": "Neighbours of a looked-up element", "statement": "On a well-formed list, a lookup with radius r returns in Below the up to r elements ranked directly below in rank order and in Above the up to r elements ranked directly above, in the documented order.", "quantifier": "every well-formed list, every element, every radius", "why_tests_cant": "Neighbours cross any number of (possibly empty) segments.", "anchors": ["segments.go:Segments.findRanked", "rankedelement.go:RankedElement"]}
{"id": "C28", "title": "Len and Stats count elements", "statement": "On a well-formed list the reported length equals the number of elements in the ranked content.", "quantifier": "every well-formed list", "why_tests_cant": "Counters are kept per segment through all operations.", "anchors": ["list.go:List.Len", "list.go:List.Stats", "segments.go:Segments.Elements"]}
{"id": "C29", "title": "Update results carry the new and the previous rank", "statement": "When results are requested, UpdateElements returns for each updated element its new rank, and for elements that existed before the call the element and its rank before the update.", "quantifier": "every well-formed list, every set of updates", "why_tests_cant": "The previous rank is computed while other elements are being processed.", "anchors": ["list.go:List.UpdateElements"]}
{"id": "C30", "title": "Verification accepts exactly well-formed lists", "statement": "If verifying a list and its elements succeeds then the list is well formed: segments tile the range, every element is in the right segment, IDs are unique and the index maps every ID to its segment and nothing else. A well-formed list with update times set is accepted.", "quantifier": "every list state, well formed or not", "why_tests_cant": "Soundness is about all corrupt states.", "anchors": ["list.go:List.Verify", "list.go:List.VerifyElements", "segments.go:Segments.Verify", "segments.go:Segments.VerifyElements"]}
{"id": "C31", "title": "Repair produces a well-formed list without losing readable IDs", "statement": "Repairing any list yields a well-formed list that contains, for each ID found in a readable score segment, exactly one element with that ID, with the latest update time, and nothing else.", "quantifier": "every list state, including overlapping ranges, duplicates, wrong counters, missing segments and arbitrary index", "why_tests_cant": "Corrupt states are unbounded.", "anchors": ["list.go:List.Repair"]}
{"id": "C32", "title": "Backup and restore of a list", "statement": "Restoring a list from its backup stream gives a well-formed list with the same settings and the same ranked content, under the same or under a new list ID; a stream with a different version number is rejected.", "quantifier": "every well-formed list, every metadata map", "why_tests_cant": "Round-trip over all content.", "anchors": ["list.go:List.Backup", "list.go:RestoreList"]}
{"id": "C33", "title": "Stored elements decode to what was stored", "statement": "Decoding the stored form of a segment's elements returns exactly these elements, consumes exactly the stored bytes, and a blob with another version byte is rejected.", "quantifier": "all slices of elements with all 64/32-bit field values and payloads up to 2^32-1 bytes", "why_tests_cant": "Variable-length integers have many boundaries; round trip must hold for every value.", "anchors": ["elements_gen.go", "element_gen.go", "segment.go:Segment.loadElements", "segment.go:lockedSegment.saveElements"]}
{"id": "C34", "title": "Stored segment tables decode to what was stored", "statement": "Decoding the stored form of a segment table returns the same ID, segments, next ID and index flag; field order does not matter and unknown fields are skipped.", "quantifier": "all segment tables", "why_tests_cant": "Round trip over all values.", "anchors": ["segments_gen.go", "segment_gen.go", "segments.go:Segments.Save", "segments.go:SegmentsID.Load"]}
{"id": "C35", "title": "Saved list definitions decode to what was saved", "statement": "Loading the saved list file returns exactly the saved lists with ID, set, metadata, sizes, index flag and segment references; a truncated stream is reported as an error and not silently accepted.", "quantifier": "all finite collections of lists, all truncation points", "why_tests_cant": "Every truncation point of every stream.", "anchors": ["lists.go:Lists.Save", "lists.go:Lists.Load", "list_gen.go"]}
{"id": "C36", "title": "Startup falls back to the backup list file", "statement": "Loading at startup succeeds with the primary list file if it is readable and valid, otherwise with the backup if a backup store is configured, otherwise it reports the error; a failed primary load leaves no lists from the primary visible when the backup is used.", "quantifier": "every combination of primary and backup blob states", "why_tests_cant": "All failure combinations including partial decode.", "anchors": ["manager.go:Manager.LoadLists", "manager.go:Manager.SaveLists", "lists.go:Lists.Load"]}
{"id": "C37", "title": "Backup sets restore every list", "statement": "Restoring a backup set restores exactly the lists in it, applies prefix and suffix to IDs, skips existing lists when asked to keep them, and reports failed lists without stopping.", "quantifier": "all backup sets, all sets of existing lists", "why_tests_cant": "Quantifies over all collections and all failures.", "anchors": ["backup/job.go:Request.Start", "backup/job.go:backupList", "backup/restore.go:RestoreInfo.Restore"]}
{"id": "C38", "title": "Size-limited store behaves as a map", "statement": "A store with a size limit returns for each key the last blob set (or not-found after delete or if never set), never writes a part above the limit, and rejects blobs that need 65535 parts or more. Blobs of different keys never interfere.", "quantifier": "all sequences of Set/Get/Delete on all keys and blobs", "why_tests_cant": "Depends on all lengths around multiples of the limit and all histories of part counts.", "anchors": ["blobstore/maxsize.go:MaxSizeStore"]}
{"id": "C39", "title": "Write-behind store: reads see the last write", "statement": "A write-behind store returns for each key the last value set (or not-found after delete), at any moment of the background saving.", "quantifier": "all interleavings of Set/Get/Delete with background saver steps, any number of savers", "why_tests_cant": "Scheduling of savers is nondeterministic.", "anchors": ["blobstore/lazysaver.go:LazySaver"]}
{"id": "C40", "title": "Write-behind store: everything is persisted in the end", "statement": "When all queued work has been flushed, the underlying store holds for each key the last value set or deleted.", "quantifier": "all interleavings, any number of savers, any store errors", "why_tests_cant": "Reordering between savers and failing saves only show under particular schedules.", "anchors": ["blobstore/lazysaver.go:LazySaver.startSaver", "blobstore/lazysaver.go:LazySaver.Shutdown"]}
{"id": "C41", "title": "Retrying store", "statement": "A retrying store returns the result of the first attempt that succeeds or fails permanently; permanent errors are exactly the default ones plus the ones configured for this store; it never retries after a permanent error.", "quantifier": "all sequences of outcomes of the wrapped store, all option lists", "why_tests_cant": "Sequences of failures are unbounded.", "anchors": ["blobstore/retry.go:RetryStore", "blobstore/retry.go:RetryOpt.PermanentErr"]}
{"id": "C42", "title": "Storage keys and cache keys identify a segment", "statement": "Two segments with different ID or different parent never share a storage key or a cache key, and a segment's key never equals the key of a segment table.", "quantifier": "all segment IDs and all generated parent IDs", "why_tests_cant": "Injectivity over all IDs, including IDs with more than six digits.", "anchors": ["segment.go:Segment.StorageKey", "segment.go:Segment.cacheID", "tools.go:RandString"]}
{"id": "C43", "title": "Listing lists after an ID", "statement": "Paging forward returns the n smallest list IDs greater than the given one, in ascending order, with exact counts of lists before and after, whatever the iteration order of the map.", "quantifier": "every set of list IDs, every start ID, every n, every iteration order", "why_tests_cant": "Map iteration order is random.", "anchors": ["lists.go:Lists.SortedIDsAfter"]}
{"id": "C44", "title": "Listing lists before an ID", "statement": "Paging backward returns the n largest list IDs less than the given one, in ascending order, with exact counts of lists before and after, whatever the iteration order of the map.", "quantifier": "every set of list IDs, every end ID, every n, every iteration order", "why_tests_cant": "Map iteration order is random.", "anchors": ["lists.go:Lists.SortedIDsBefore"]}
{"id": "C45", "title": "Selecting lists by metadata and set", "statement": "Selecting lists returns exactly the lists that are in one of the given sets or that have every queried metadata field with the queried value; with neither sets nor fields nothing is selected.", "quantifier": "all collections of lists, all queries", "why_tests_cant": "All combinations of present, absent and empty fields.", "anchors": ["lists.go:Lists.MatchAll"]}
{"id": "C46", "title": "Sortable floats preserve order", "statement": "Converting float64 to a score preserves order for all non-NaN values, maps NaN below everything, and converting back returns the exact value.", "quantifier": "all 2^64 float64 bit patterns and all pairs of them", "why_tests_cant": "2^128 pairs.", "anchors": ["sortfloat/float.go:SortableFloat64", "sortfloat/float.go:ReverseFloat64"]}
{"id": "C47", "title": "Restricted tokens only reach their lists and elements", "statement": "With a token restricted to lists (elements), access is granted exactly when every requested list (element) is in the comma-separated restriction; without a token or restriction access is granted.", "quantifier": "all claims, all requested IDs", "why_tests_cant": "All strings, including spaces, empty entries and non-string claims.", "anchors": ["api/jwt.go:HasAccessToList", "api/jwt.go:HasAccessToElement"]}
{"id": "C48", "title": "Set operations on IDs", "statement": "Deduplicating IDs gives each ID once, sorted; NotIn gives exactly the IDs not in the other; Overlap gives exactly the common ones in order of the argument.", "quantifier": "all ID slices, all map iteration orders", "why_tests_cant": "Map iteration order is random.", "anchors": ["elements.go:ElementIDs.Deduplicate", "elements.go:ElementIDs.NotIn", "elements.go:ElementIDs.Overlap", "list-id.go:ListIDs.Deduplicate"]}
{"id": "C49", "title": "Token bucket bounds concurrency", "statement": "At most as many holders as tokens exist at any time, no token is lost, and a waiting getter can proceed whenever a token is free.", "quantifier": "all interleavings of Get and Release", "why_tests_cant": "All schedules.", "anchors": ["bucket.go:NewBucket", "bucket.go:Bucket.Get", "bucket.go:Token.Release"]}
{"id": "C50", "title": "Fan-out error collection", "statement": "Waiting for workers returns nil exactly if no worker reported an error and the context was not cancelled, and returns only after all workers finished, so no worker is left blocked.", "quantifier": "all schedules of workers, errors and cancellation", "why_tests_cant": "All schedules.", "anchors": ["tools.go:waitErr"]}
{"id": "C51", "title": "Crash during an update loses no untouched element", "statement": "If the process stops at any point while an update, insert or delete writes its blobs, then after Repair every element not named in the operation is present unchanged; for an upsert of an existing ID either the old or the new element is present.", "quantifier": "all lists, all operations, all crash points and write orders", "why_tests_cant": "All prefixes of all write sequences in all map orders.", "anchors": ["list.go:List.UpdateElements", "list.go:List.Insert", "list.go:List.DeleteElements", "segments.go:Segments.replaceSegment"]}
{"id": "C52", "title": "Crash during split/merge loses no element", "statement": "If the process stops at any point while segments are split or merged, then after Repair every element is still present.", "quantifier": "all lists, all crash points", "why_tests_cant": "All prefixes of the write sequence.", "anchors": ["list.go:List.split", "list.go:List.saveSegments"]}
{"id": "C53", "title": "Concurrent calls on one list never deadlock", "statement": "Any set of concurrent read and update calls on a list eventually completes.", "quantifier": "all interleavings of lock operations of concurrent calls", "why_tests_cant": "Deadlocks need particular interleavings.", "anchors": ["list.go:List.loadSegments", "segments.go:Segments.elementFullIdx", "segments.go:Segments.findRanked", "segments.go:Segments.getElementsFromScore", "list.go:List.Stats"]}
{"id": "C54", "title": "Concurrent reads see a consistent element", "statement": "A lookup that runs concurrently with an update of an element returns either the old or the new element; it does not report an element as missing that is in the list before and after the update.", "quantifier": "all interleavings of GetElements with UpdateElements", "why_tests_cant": "Depends on the schedule between index lookup and segment lookup.", "anchors": ["list.go:List.GetElements", "list.go:List.UpdateElements"]}
{"id": "C55", "title": "Large inserts are chunked and terminate", "statement": "Inserting any number of elements terminates and inserts every element exactly once, whatever the chunk limit derived from the split size and the number of index segments.", "quantifier": "all element counts, all split sizes accepted when creating a list", "why_tests_cant": "Termination for every configuration.", "anchors": ["list.go:List.insert", "list.go:ListOption.MergeSplitSize"]}
{"id": "C56", "title": "REST lookup of several elements", "statement": "Looking up several elements over the API returns the found ones sorted by rank and the missing IDs sorted ascending; together they are exactly the requested IDs without repetition.", "quantifier": "all lists, all requested IDs", "why_tests_cant": "All overlaps of requested and existing IDs.", "anchors": ["api/elements.go:ElementsController.GetMulti"]}
{"id": "C57", "title": "REST neighbours carry their true ranks", "statement": "The neighbours of an element returned by the API carry their true ranks from top and bottom.", "quantifier": "all lists, all elements, all radii", "why_tests_cant": "All positions and radii.", "anchors": ["api/morph/elements.go:RankedElement.Full", "api/morph/elements.go:Elements.ToRanked"]}
{"id": "C58", "title": "REST comparison of an element within a set of elements", "statement": "Asking for an element among others returns the nearest ones above and below among the given IDs, at most range of each, and the local rank within the existing given IDs.", "quantifier": "all lists, all ID sets, all ranges", "why_tests_cant": "All positions.", "anchors": ["api/elements.go:ElementsController.GetAround"]}
{"id": "C59", "title": "Bulk operations report every list exactly once", "statement": "Applying an operation to many lists reports each requested list exactly once, either as success or as error; an error or panic on one list does not affect the others.", "quantifier": "all sets of lists, all outcomes, all schedules", "why_tests_cant": "All schedules and failures.", "anchors": ["api/multilist.go:onEveryList"]}
{"id": "C60", "title": "Periodic backup interval", "statement": "With a backup interval of k saves, a backup of the list file is written every k saves.", "quantifier": "all numbers of saves, all k", "why_tests_cant": "Unbounded number of ticks.", "anchors": ["manager.go:Manager.StartIntervalSaver"]}
{"id": "C61", "title": "Cached elements equal stored elements", "statement": "With a segment cache that may evict at any time, loading a segment always returns the elements last saved for it.", "quantifier": "all histories of saves, loads, evictions and deletions", "why_tests_cant": "Eviction is nondeterministic.", "anchors": ["segments.go:Segments.elementFullIdx", "segments.go:Segments.replaceSegment", "cache.go:Cache"]}
{"id": "C62", "title": "Queued key-value store behaves as a map", "statement": "The store that queues writes before bulk-writing returns the last value set or not-found after delete, for every key, at any queue fill level.", "quantifier": "all histories of operations", "why_tests_cant": "Queue boundary and key collisions.", "anchors": ["blobstore/badgerstore/badger.go:BadgerStore"]}
{"id": "C63", "title": "A failed save does not corrupt later reads", "statement": "If saving a segment fails during delete or update, later reads return either the state before or after the operation.", "quantifier": "all lists, all failing writes", "why_tests_cant": "All failure points, with the cache sharing memory with the caller.", "anchors": ["segments.go:Segments.DeleteElementsIdx", "segments.go:Segments.replaceSegment"]}
{"id": "C64", "title": "A range request returns the requested ranks", "statement": "Requesting a range from the top or from the bottom returns exactly the elements at those ranks, in ranking order, each with its true rank from top and bottom; it is not-found exactly if the start is beyond the list.", "quantifier": "all lists, offsets and limits", "why_tests_cant": "Arbitrary segment layouts and offsets at segment boundaries.", "anchors": ["api/lists.go:ListsController.GetRange", "api/morph/elements.go:Elements.ToRanked"]}
{"id": "C65", "title": "Creating an element never replaces or duplicates one", "statement": "A create request for an ID that is in the list is answered with conflict and changes nothing; for a new ID the element is added and answered with its true ranks; two create requests never leave an ID twice.", "quantifier": "all lists, elements and interleavings of requests", "why_tests_cant": "Every interleaving of lookups and inserts.", "anchors": ["api/elements.go:ElementsController.Create"]}
{"id": "C66", "title": "Putting many elements over the API", "statement": "After a put of several elements there is for every requested ID one of its elements in the list, with the current time; other elements are unchanged; the answer has the put elements in ranking order with their true ranks.", "quantifier": "all lists and requests, including repeated IDs", "why_tests_cant": "Arbitrary mixes of new, existing and repeated IDs over any segment layout.", "anchors": ["api/elements.go:ElementsController.PutMulti"]}
{"id": "C67", "title": "Completed changes are durable", "statement": "When Insert, UpdateElements, DeleteElements or a split has returned, a process that starts afterwards with the same storage reads exactly the list the operation produced.", "quantifier": "all lists, all operations, all write orders of goroutines and maps", "why_tests_cant": "A segment that was changed in memory but not written shows only for particular inputs and layouts of segments.", "anchors": ["list.go:List.Insert", "list.go:List.UpdateElements", "list.go:List.DeleteElements", "list.go:List.saveSegments", "segments.go:Segments.replaceSegment"]}
{"id": "C68", "title": "Crash during rebuilding keeps the elements", "statement": "If the process stops at any point while a list is reindexed, repaired or populated again, every element is still found by Repair.", "quantifier": "all lists, all crash points", "why_tests_cant": "All prefixes of the write sequence.", "anchors": ["list.go:List.reindex", "list.go:List.Repair", "list.go:List.populate", "list.go:List.deleteAll"]}
{"id": "C69", "title": "Creating and cloning lists", "statement": "Creating a list over the API with an ID that is in use is refused and changes nothing unless replacing was asked for; otherwise exactly that list is added or replaced and all other lists stay as they are. Cloning never replaces a list, gives the copy exactly the elements of the original and leaves the original as it is.", "quantifier": "all databases, all requests, all histories of requests served one after the other", "why_tests_cant": "It must hold for every set of lists, every history of creates, clones and deletes and every reuse of a list ID.", "anchors": ["api/lists.go:ListsController.Create", "api/lists.go:ListsController.Clone", "api/lists.go:ListsController.Delete", "lists.go:lists.Exists", "lists.go:lists.Add", "manager.go:Manager.DeleteList"]}
{"id": "C70", "title": "The server is a map from list IDs to rankings", "statement": "Whatever requests to create, replace, clone, delete, reindex, repair and change lists are made one after the other, every answer and everything that can be read afterwards is what a plain map from list ID to a ranking of elements gives: no request touches another list, elements never move between lists, and nothing of segments, index or storage names is visible.", "quantifier": "all servers, all histories of requests of any length, all payloads, all orders of background work", "why_tests_cant": "It ranges over all histories of requests over any number of lists that share one storage.", "anchors": ["api/lists.go:ListsController", "api/elements.go:ElementsController", "manager.go:Manager", "lists.go:Lists", "list.go:List"]}
{"id": "C71", "title": "Restarting keeps every list", "statement": "When the server is stopped at any time and started again, every list is there with exactly the content that the acknowledged requests gave it, and lists that were deleted are gone.", "quantifier": "all histories of requests, all points at which the server stops, between or within requests", "why_tests_cant": "All histories with saves of the catalogue at any point and crashes at any point.", "anchors": ["manager.go:Manager.SaveLists", "manager.go:Manager.LoadLists", "manager.go:Manager.DeleteList", "manager.go:Manager.StartIntervalSaver", "list.go:List.Repair", "list.go:List.DeleteAll"]}
{"id": "C72", "title": "Of two creations with one ID at most one succeeds", "statement": "If two requests without replacing create a list with the same ID, at most one of them is answered with success, and the elements of that one are kept, also if the requests are served at the same time.", "quantifier": "all servers, all pairs of requests, all interleavings", "why_tests_cant": "All interleavings of two requests.", "anchors": ["api/lists.go:ListsController.Create", "api/lists.go:ListsController.Clone", "lists.go:Lists.Add", "lists.go:Lists.ByID"]}
{"id": "C73", "title": "A restricted token reaches only what it names", "statement": "With a token that has only_lists or only_elements and not the scope api:manage, no call of the API changes a list, or an element of any list, that the restriction does not name; a read-only token changes nothing; a token without api:delete makes nothing disappear; lookups by element ID show only named lists and elements; and a call for what is named, with the scope of the endpoint, does what it does without a token.", "quantifier": "every token, every call of the API, every state of the server, every environment of the call (clock, names, order of goroutines)", "why_tests_cant": "Tests try a few endpoints with a few restrictions; the claim is about every endpoint, every way in which lists are selected and everything else on the server.", "anchors": ["api/jwt.go:HasAccessToList", "api/jwt.go:HasAccessToElement", "api/elements.go", "api/lists.go", "api/multilist.go", "api/app/controllers.go", "README.md:only_elements"]}
{"id": "C74", "title": "A request for many lists means the same request for each selected list", "statement": "A request for many lists that names lists, metadata fields and sets is applied exactly once to every list that is named, matches all fields, or is in one of the sets, and to no other; every such list gets what a request for it alone would do, whatever the order of the goroutines; and the report names every selected list once with its outcome.", "quantifier": "every selection, every state of the server, every order in which the lists are served, every set of elements or IDs", "why_tests_cant": "The selection combines three criteria with lists that may overlap, and the lists are served in any order; tests cover single combinations.", "anchors": ["api/multilist.go:Create", "api/multilist.go:Delete", "api/multilist.go:Get", "api/multilist.go:Put", "api/multilist.go:onEveryList", "lists.go:MatchAll", "api/design/multilist.go"]}
{"id": "C75", "title": "Every query is answered from the rankings as the changes before it left them", "statement": "In any history of creates, clones, deletions, updates, maintenance jobs and queries, every query (a list with its first and last element, an element with neighbours, several elements, an element among others, a range from the top or the bottom, a percentile, a page of the catalogue) is answered with what the rankings give that the changes before it define, with the ranks in that ranking; and not found exactly if the list or the element does not exist.", "quantifier": "every history of changes and queries, every content, every query, every order of goroutines in the lookups", "why_tests_cant": "The answers are computed from segments, index and catalogue whose shape depends on the whole history; the claim is that none of this is visible in any answer.", "anchors": ["api/elements.go:Get", "api/elements.go:GetMulti", "api/elements.go:GetAround", "api/lists.go:Get", "api/lists.go:GetRange", "api/lists.go:GetPercentile", "api/lists.go:GetAll", "list.go:GetElements", "list.go:GetRankTop", "list.go:GetRankBottom", "list.go:Stats", "lists.go:SortedIDsAfter"]}
{"id": "C76", "title": "Clones and ranges taken during updates have every element once", "statement": "A list that is cloned, or of which a range of ranks is read, while elements of it are updated: the result has only elements that were in the list at some time during the call, as they were then, in the order of the ranking; a clone has every element of the list exactly once, before or after its update; and if nothing changes meanwhile, clone and range are exact.", "quantifier": "every well-formed list, every sequence of updates, every interleaving of the steps of the updates with the reads of the segments", "why_tests_cant": "What is read depends on which segment an update changes between which two reads; a test run sees one interleaving and usually no update at all.", "anchors": ["list.go:cloneElements", "list.go:GetRankTop", "list.go:GetRankBottom", "segments.go:getElementsOffset", "segments.go:segIdxTop", "list.go:UpdateElements"]}
{"id": "C77", "title": "Requests for different lists do not disturb each other", "statement": "Any number of requests for different lists run at the same time, their changes of the storage and of the catalogue mixed in any way. What every client sees, answers and shown lists, is what they would see if the requests were served one after the other in the order of arrival; a list that nobody is changing is always as these requests define it, and a list that no request is about never changes. After a crash in the middle the same holds for every saved list that no request was changing.", "quantifier": "every server in good order, every set of requests and jobs for different lists, every interleaving of their changes, every moment of reading or crashing", "why_tests_cant": "The number of interleavings of writes grows exponentially with the number of requests; interference between lists would show in a few of them only.", "anchors": ["api/lists.go:Create", "api/lists.go:Clone", "api/lists.go:Delete", "api/elements.go:PutMulti", "manager.go:SaveLists", "manager.go:DeleteList", "lists.go:Add", "lists.go:Delete", "segments.go:replaceSegment"]}
{"id": "C78", "title": "Verifying a list never raises a false alarm", "statement": "After any sequence of requests and background jobs served by a server that started empty, a Verify request reports every existing list as correct, and reports nothing else for an ID without a list; it changes nothing, even if it was asked to repair.", "quantifier": "every sequence of creates, replacements, clones, deletions, element updates, reindexing, repairs, splits and saves, with any clock values, goroutine orders, shuffles and fresh names, for which numbers fit their types and lists stay below 2^32 - 3 elements; every list ID", "why_tests_cant": "An alarm can depend on one rare combination of splits, merges, ties and rebuilt indexes; tests check a few lists after a few operations, not every reachable list.", "anchors": ["api/lists.go: Verify", "list.go: Verify, verify, VerifyElements, verifyElements", "segments.go: Verify, VerifyElements"]}
{"id": "C79", "title": "Stored bytes always stand for the lists that clients see", "statement": "Everything the server knows is in blobs of bytes: encoded segment tables, encoded elements and the encoded, possibly compressed, catalogue. Starting with an empty storage, any sequence of requests, queries, crashes in the middle of a request and starts gives the same answers as if nothing was ever encoded; every start can read the catalogue; and after a save and a start every list is shown as before, apart from metadata that were not given and are empty afterwards.", "quantifier": "every sequence of requests, jobs, queries and crashes at any change of a request, for which numbers and lengths fit their stored forms and lists are readable after a start; compressed or not", "why_tests_cant": "A wrong encoding of one boundary value, two things stored under one key, or a blob written half-way through a request shows only for particular values, names and crash points.", "anchors": ["segments.go: Save, SegmentsID.Load", "segment.go: StorageKey, loadElements, saveElements, deleteElements", "lists.go: Save, Load", "manager.go: SaveLists, LoadLists", "elements_gen.go", "segments_gen.go", "list_gen.go", "api/rankdb.go: StartServer"]}
{"id": "C80", "title": "A start brings back the lists that were saved last", "statement": "A server is started, changed, saved by the interval saver or by a shutdown, killed and started again, any number of times. Every start either brings back exactly the catalogue that was saved last, or fails and leaves what is stored as it is.", "quantifier": "every sequence of starts, changes of the catalogue, saves, shutdowns and kills, with any reads and writes failing; with and without backups", "why_tests_cant": "Lists are lost only for particular orders of saves, failed reads and restarts; a test would have to try all of them, and the loss appears with the next save, long after the failure.", "anchors": ["api/rankdb.go: StartServer", "manager.go: LoadLists, SaveLists, StartIntervalSaver, NewLists", "lists.go: Load, Save"]}
{"id": "C81", "title": "Stopping the server loses nothing that was acknowledged", "statement": "At any time at most MaxUpdates update requests are handled, and no failure, cancellation or refusal ever costs one of these places. Once a stop was requested no further request is let in: it is answered 'Server restarting' and changes nothing. Every request that was let in and answered as done is completely in the catalogue that the stop saves, a request that was refused or cancelled while it waited is not in it at all, and nothing changes the catalogue after it was saved. A stop always comes to an end.", "quantifier": "every number and order of requests, every interleaving of their handling with the stages of the stop, every limit", "why_tests_cant": "A test stops a server with a few requests in flight; the loss needs a request that changes the catalogue between two particular stages.", "anchors": ["api/shutdown.go:ShutdownMiddleware, UpdateRequest", "api/services.go:StartServices", "api/rankdb.go:StartServer", "api/multilist.go:onEveryList", "manager.go:StartIntervalSaver"]}
{"id": "C82", "title": "The configured storage gives back what it acknowledged", "statement": "Whatever storage is configured (Badger, Bolt, memory or Aerospike, or DynamoDB as a library), with or without retries, and with all layers on top of the driver: a read returns the value that was acknowledged last, or one that was reported as failed since then, or a failure. It never says that a value is missing that was acknowledged, never returns a value of another key or set, and restarts do not change this, except that the memory storage forgets. Whether a blob is refused as too big depends on its size alone.", "quantifier": "every history of reads, writes, deletions and restarts, with any requests failing before or after they took effect, any number of retries, every blob, every set, all keys without slash and plus sign (such as all that the database uses), every size of write blocks up to 1 MiB + 1024 bytes", "why_tests_cant": "The layers interact: which error of which part of which blob is retried, ignored or remembered depends on the history, and requests that fail after they took effect cannot be produced by a test of the driver.", "anchors": ["blobstore/memstore/memstore.go:", "blobstore/boltstore/boltstore.go:", "blobstore/aerostore/aerostore.go:", "blobstore/dynamo/dynamo.go:", "blobstore/badgerstore/badger.go:", "blobstore/maxsize.go:", "blobstore/retry.go:", "api/rankdb.go:newBlobstore, wrapRetry"]}
{"id": "C83", "title": "A failed request leaves no lock behind", "statement": "A request on a list that fails, at any point and for any reason, releases every lock it took exactly once. All requests on the list that are running or come later return, and the server goes on.", "quantifier": "any number of concurrent requests on a list, all data, every place at which each of them can fail, all schedules", "why_tests_cant": "Every combination of a failing storage access with every schedule of concurrent requests would have to be produced.", "anchors": ["list.go:List.loadSegments", "list.go:List.UpdateElements", "list.go:List.split", "list.go:List.Reindex", "list.go:List.reindex", "list.go:List.populate", "list.go:List.Repair", "list.go:List.Backup", "segments.go:Segments.replaceSegment", "segments.go:Segments.elementFullIdx", "lists.go:Lists.Save"]}
{"id": "C84", "title": "Backup jobs say what was backed up", "statement": "A backup job that was started over the API ends and reports each of the lists it has dealt with once, as success or as error. Restoring what it left at its destination gives the lists it reported as success, each as it was when the job looked at it, and no other list, and reports an error if the data is not complete. When the status says done, not cancelled and without errors, all requested lists can be restored. A list reported as success can be restored. Asking for the status of a job does not disturb the server.", "quantifier": "for all requested lists and their contents at the times the job looks at them, lists that are missing or that cannot be read, all times of cancelling, all points at which the destination fails or the data is cut off, and all sizes of the buffer", "why_tests_cant": "the point at which a write fails, the time of cancelling, and where the data is cut off by a crash or a closed connection range over all bytes of all possible sets; the tests only back up to memory and disk without failures", "anchors": ["backup/job.go: Request.Start, backupList, ID.Status, ID.Cancel", "backup/restore.go: RestoreInfo.Restore", "backup/server/rankdb.go: RankDB.Save, bodyWriter.Transfer", "backup/s3/s3.go: File.Save", "backup/file/file.go: File.Save", "backup/reader/reader.go: Reader.Save", "msgppool.go: WriterMsgp.Flush, WriterMsgp.Close", "api/backup.go: BackupController.Status, startBackup"]}
{"id": "C85", "title": "Malformed requests are refused, others are carried out as written", "statement": "A request to the API whose list ID, element IDs, ranges, limits, offsets, percentile, flags or body do not have the documented form is answered with 'bad request' (or 'not found' if the list does not exist) and changes nothing. Every other request is carried out with exactly the numbers, names and elements that were written, and with the documented defaults for what is absent.", "quantifier": "every request for one list: every text of every parameter, every decoded body (absent fields, null entries, all numbers), every server in good order", "why_tests_cant": "The rules are about all texts: signs, leading zeros, overflow at 64 bits, lengths in characters, rounding of percentiles, missing and null fields.", "anchors": ["api/app/contexts.go:NewCreateListsContext, NewPutElementsContext, NewGetPercentileListsContext", "api/app/user_types.go:element.Validate, rankList.Validate, Finalize, Publicize", "api/app/controllers.go:unmarshal", "api/morph/elements.go:ApiElements.Elements", "api/lists.go:GetPercentile, GetRange", "api/elements.go:Put"]}
{"id": "C86", "title": "Payloads are stored untouched and kept by updates without payload", "statement": "The payload of an element is stored byte for byte as it was sent. An update of an element that gives no payload changes score and tie breaker and leaves the stored payload as it is.", "quantifier": "every server in good order, every list and element, every update of one element and every payload", "why_tests_cant": "It has to hold for every stored state, every payload and every update, whatever segments the element moves between.", "anchors": ["api/design/elements.go:Element, payload", "api/elements.go:Put", "api/morph/elements.go:ApiElements.Elements", "list.go:UpdateElements"]}
{"id": "C87", "title": "Taking lists out of memory is invisible", "statement": "The server may take lists out of memory at any time, also while requests for them are running and also if this has to be given up after a minute. It does so only while nobody uses the list, gives back every lock it took exactly once, takes both tables of a list or none, and always returns. No answer to any later request depends on which lists were taken out of memory and when.", "quantifier": "all schedules of a release with any other users of the list and any moment of the timeout; all histories of changes and queries with releases of any lists at any places", "why_tests_cant": "All schedules, timeouts and histories.", "anchors": ["list.go:List.ReleaseSegments", "lists.go:Lists.Prune", "manager.go:StartListPruner", "list.go:loadSegments", "list.go:updateSegments"]}
{"id": "C88", "title": "Changes while the storage fails", "statement": "An update, insertion or deletion of elements that reports success has taken effect completely, also if reads or writes of the storage failed during it or the client went away. Whatever fails and whatever is reported, elements that are not named by the call stay as they are, no element appears that was neither there nor given, and later calls still do what they report.", "quantifier": "all lists, calls and patterns of failures: which segments cannot be read at which attempt, which cannot be saved, and when the request is cancelled", "why_tests_cant": "All patterns of failures on all lists.", "anchors": ["list.go:List.UpdateElements", "list.go:List.DeleteElements", "list.go:List.Insert", "segments.go:replaceSegment", "segments.go:DeleteElementsIdx", "segments.go:Insert", "tools.go:waitErr"]}
{"id": "C89", "title": "Splitting and merging bring segments to the configured sizes", "statement": "Splitting and merging, run often enough, brings every well-formed list to the configured sizes: no index segment has the split size or more elements, no score segment has unless its elements are tied, and no two small neighbouring segments together have at most the merge size. A list with these sizes is left alone and does not request splits. Every change that leaves other sizes requests a run, the requests are served in order, and when all are served the lists have the configured sizes.", "quantifier": "every well-formed list, all merge and split sizes with merge < split and split at least 2, every sequence of changes and runs of the splitter", "why_tests_cant": "Whether repeated splitting and merging ever stops, rather than cutting and joining the same segments for ever, must be known for every distribution of elements over segments.", "anchors": ["list.go:List.split", "list.go:List.checkSplit", "list.go:List.requestSplit", "list.go:List.ForceSplit", "manager.go:Manager.StartListSplitter", "segments.go:Segments.splitIdx"]}
{"id": "C90", "title": "Paging through the catalogue while lists come and go", "statement": "A client that asks for page after page until no lists follow gets the lists sorted, none twice, only lists that existed at some time meanwhile and every list that existed all the time; without changes it gets exactly the lists, in as many pages as are needed. A page is only empty if no lists follow. A request for many lists reaches every matching list that exists all the time, each list at most once, and only lists that match.", "quantifier": "all sequences of creating, replacing and deleting lists during the calls, all orders of iteration that sync.Map allows, all page sizes", "why_tests_cant": "Range over the map is not a snapshot and its order is random; what it can see depends on the schedule.", "anchors": ["lists.go:Lists.SortedIDsAfter", "lists.go:Lists.MatchAll", "lists.go:Lists.ByID", "api/lists.go:GetAll", "api/multilist.go:Put"]}
{"id": "C91", "title": "Changes of one list at the same time take effect one after the other", "statement": "When calls of UpdateElements, Insert, DeleteElements, Repair, Reindex, Populate, DeleteAll and the splitting of segments run on one list at the same time, the list afterwards is what the same calls give when they are made one after the other. The order is one that agrees with real time: a call that returned before another began comes first. No update is lost: an element that one call updates and no other call names is in the list as it was sent, an element that one call deletes and no other names is gone. What an update reports about its elements belongs to the list right after this update.", "quantifier": "every number of concurrent calls, all their arguments, every interleaving of their goroutines and of the small changes they make to segments, every starting list", "why_tests_cant": "The interleavings of many goroutines that lock and store segments one by one cannot be enumerated by tests, and a test sees only the schedule it gets.", "anchors": ["list.go: UpdateElements, Insert, DeleteElements, split, Reindex, Populate, Repair, DeleteAll, loadSegments", "segments.go:DeleteElementsIdx", "segments.go:Insert", "segments.go:updateIndexElements", "segments.go:replaceSegment", "segments.go:elementFullIdx"]}
{"id": "C92", "title": "Restoring a backup set on a running server", "statement": "When lists of one server are backed up and the set is restored on the same or another server, with a prefix and suffix for the IDs, the restoration succeeds and reports how many lists it restored and how many it passed over; afterwards each backed up list has, under its new ID, the options and the ranking it had when it was backed up, unless existing lists are to be kept and one exists; no other list changes, whatever the stream contains and wherever the restoration stops, also after a crash; and what was restored survives a restart.", "quantifier": "every pair of servers reachable by requests, every selection of lists, prefix, suffix and replace option, every stream of bytes for lists outside of the set, and every point at which the restoration stops", "why_tests_cant": "A test restores a few lists on an empty server; it does not cover every catalogue with lists of the same ID, every byte stream, and every point of a crash.", "anchors": ["backup/restore.go:Restore", "backup/job.go:Start", "list.go:Backup", "list.go:RestoreList", "api/multilist.go:Restore", "manager.go:DeleteList"]}
{"id": "C93", "title": "Changes of any lists at the same time take effect one after the other", "statement": "When any number of requests that put elements, delete elements, reindex, repair or split run on a server at the same time, for the same list or for different ones, every one of them is answered with success and all lists afterwards are what the same requests give when they are served one after the other. One order does for all lists at once, and it agrees with real time: a request that was answered before another arrived comes first. An element that one request puts and no other request for the list names is in the list as it was sent.", "quantifier": "every number of lists and of concurrent requests for each, all their arguments, every interleaving of their goroutines and of the small changes they make to segments, all starting lists", "why_tests_cant": "The interleavings of many requests on many lists cannot be enumerated; a test sees only the schedules it gets and a lost update shows in few of them.", "anchors": ["api/elements.go:PutMulti", "api/elements.go:DeleteMulti", "api/lists.go:Reindex", "api/lists.go:Repair", "manager.go:StartListSplitter", "list.go: UpdateElements, DeleteElements, split, Reindex, Repair, loadSegments", "segments.go:DeleteElementsIdx", "segments.go:Insert", "segments.go:updateIndexElements", "segments.go:replaceSegment", "segments.go:elementFullIdx"]}
{"id": "C94", "title": "The write-behind store never gets stuck, stays bounded and is empty after Shutdown", "statement": "Whatever callers, the request handler and the savers of the write-behind store have done so far, and whether or not the store below accepts what is written, they can go on until every Set or Delete that has begun has returned, everything has been written, and Shutdown, if it was called, has returned. The queue never holds more than the configured number of items plus one for each call that still waits and one for each saver. When Shutdown returns, nothing is left in the queue.", "quantifier": "all accepted limits and numbers of savers, all calls, all schedules of the goroutines, all outcomes of writes, all moments at which Shutdown is called", "why_tests_cant": "A lost wake-up or a missing token shows only in particular interleavings of callers, handler, savers and Shutdown; a test sees a few of them and cannot show that no schedule blocks.", "anchors": ["blobstore/lazysaver.go: NewLazySaver, set, delete, add, saveFront, requestHandler, startSaver, Shutdown, Set, Delete"]}
{"id": "C95", "title": "Neighbours looked up during updates are those of one list", "statement": "A lookup with neighbours that runs concurrently with updates of the list returns, for each element it finds, the neighbours the element has in one list in effect during the lookup: no element is on both sides, and none that is in the list throughout is left out between them.", "quantifier": "all lists, radii and interleavings of GetElements with UpdateElements, and all failures to load further segments", "why_tests_cant": "Depends on which updates take place between the collection of the neighbours below and above, and on which locks are held.", "anchors": ["list.go:List.GetElements", "segments.go:Segments.FindElements", "segments.go:Segments.findRanked", "segments.go:Segments.elementFullIdx"]}
{"id": "C96", "title": "Reused buffers never change queued, stored or returned data", "statement": "The write-behind store copies every value into a buffer taken from shared pools and gives the buffer back when the value is replaced or saved. However calls and background savers interleave and whichever buffers the pools hand out, the bytes that are queued, the bytes that reach the store below and the bytes that reads return are exactly the bytes callers passed: the store behaves like one that never reuses memory. Bytes returned by a read stay as they are until that caller writes into them, and writing into them changes nothing else. A buffer has at most one holder at any time, and a buffer from the pools has room for any value of up to 1 MB.", "quantifier": "for every number of savers, every sequence and interleaving of writes, deletes, reads and saver steps, every choice the pools make and every size of the values", "why_tests_cant": "a buffer that is given back too early shows only when the pool hands it to another call between two particular steps of a saver, and sync.Pool chooses freely", "anchors": ["blobstore/lazysaver.go: getDataBufferChunk, putDataBufferChunk, LazySaver.get, LazySaver.set, LazySaver.delete, LazySaver.startSaver"]}
{"id": "C97", "title": "Calls that load a segment at the same time", "statement": "When any number of calls read and write the same part of a list at the same time, the part is read from the storage by one call at a time and the others wait for it. Every call that is given elements is given those that were saved last, whoever loaded them and whether or not they came from the cache; a write has the part for itself. A stored part is found by everyone unless reading it fails, a call fails only for its own reasons, nobody waits forever and every call ends after a bounded number of steps.", "quantifier": "for every number of readers and writers, every interleaving, every moment at which the cache drops the part, every outcome of the reads and saves, with and without a cache", "why_tests_cant": "the calls that share a load must meet within the time of one read from the storage; the number of interleavings is unbounded", "anchors": ["segment.go: Segment.loadElements, elementLoader", "segments.go: Segments.elementFullIdx, Segments.replaceSegment"]}
{"id": "C98", "title": "Concurrent calls on the size-limited store", "statement": "Calls on a store with a size limit that run at the same time, on the same or on different keys, return the same results and leave the same blobs as the same calls made one after the other in the order in which they return, whatever the interleaving of their operations on the store below, whichever of these fail, and wherever the process ends. A Get therefore never sees parts of two different blobs, unless a Set or Delete of this key failed or was running when the process ended. No call waits forever.", "quantifier": "all numbers of calls, all keys that are not part keys of each other, all interleavings of single operations, all failures, all crash points", "why_tests_cant": "A blob of many parts is read and written by many operations; tests run a handful of the interleavings.", "anchors": ["blobstore/maxsize.go:runningOp", "blobstore/maxsize.go:Get", "blobstore/maxsize.go:Set", "blobstore/maxsize.go:Delete"]}
{"id": "C99", "title": "One repair request after a crash brings the whole server back", "statement": "The server crashes at any point within a request that creates, changes or deletes elements of a list whose catalogue entry was saved, and is started again. A repair request for the list then succeeds and leaves the server in good order: every other list is exactly as it was, the list has its options and all elements that the request did not touch, in ranking order and each ID once, and besides them only elements that it had or that the request gave. From then on every request means what it should, and once the catalogue is saved a restart changes nothing.", "quantifier": "every server in good order, every history since the catalogue was saved that edits elements or splits segments, every request, every crash point, every schedule of both processes and every later history", "why_tests_cant": "A test crashes a few requests at a few points on a small list; the claim is about every write of every request on every list, and about everything that is done with the server afterwards.", "anchors": ["list.go:Repair", "list.go:populate", "list.go:initEmptyList", "list.go:loadSegments", "list.go:UpdateElements", "list.go:DeleteElements", "list.go:Insert", "api/lists.go:Repair", "api/elements.go:MultiPut", "manager.go:LoadLists", "manager.go:SaveLists"]}
{"id": "C100", "title": "The catalogue saved while requests run", "statement": "The server saves its catalogue at intervals while requests go on. Once a save that began after a list was created (or deleted) is done, a crash at any moment and a start bring the list back (or keep it away) as the requests so far have made it, however saves, failed saves and requests for any lists interleave. The saved catalogue is the catalogue at one moment of the save.", "quantifier": "every server in good order, every interleaving of requests, queries, saves and failed saves, every moment of a crash", "why_tests_cant": "a test sees a few interleavings of one save with a few requests; the loss needs a clone and a deletion, or a repair, between two particular steps of the iteration over the lists, and a crash before the next save", "anchors": ["manager.go:Manager.StartIntervalSaver", "manager.go:Manager.SaveLists", "lists.go:Lists.Save", "list.go:List.updateSegments", "manager.go:Manager.LoadLists"]}
{"id": "C101", "title": "What a crash leaves of a server with the write-behind store", "statement": "With the write-behind store switched on, clients see what they would see without it. If the process stops at any moment, whatever of the queue has been written, the server starts again; every list whose entry was saved when the queue was last empty, and that no request was about since, is shown as it was; and every request that was answered is either kept as a whole or lost as a whole.", "quantifier": "all histories of requests and queries, all interleavings with the savers of the write-behind store, all moments of a crash, all compressions", "why_tests_cant": "What is in storage at a crash depends on which of the queued writes the savers have done, and on writes that replaced each other in the queue; tests let the queue drain.", "anchors": ["blobstore/lazysaver.go: LazySaver.Set, get, saveFront, saver", "api/rankdb.go: StartServer (LazySaver.Enabled)", "manager.go: LoadLists, SaveLists"]}
{"id": "C102", "title": "Lists that are changed at the same time do not share memory", "statement": "A request that puts the same elements into many lists gives one slice of elements to all goroutines. Whatever the order in which the goroutines take turns, even between single reads and writes of memory, the given elements never change, no goroutine reads or writes out of range, and every list ends with exactly the elements and answers that it would have if it had been changed alone with a copy of the elements. Changes in place (append with room, moving elements to the front, merging) of one segment are never seen by another segment, list or request.", "quantifier": "every number of goroutines, every code of them made of the operations on slices (also depending on answers), every content of memory, every schedule of single memory accesses", "why_tests_cant": "Races between goroutines show only under particular interleavings of single memory accesses, and sharing of arrays only when an append happens to have room; tests run a few of them.", "anchors": ["elements.go: Sort, Insert, Delete, Update, Add, Merge, Clone", "segments.go: Insert, DeleteElements, DeleteElementsIdx, updateIndexElements, splitIdx, mergeWithNext, NewSegmentsElements", "api/multilist.go: Create, Put, onEveryList", "list.go: UpdateElements, insert"]}
{"id": "C103", "title": "Sorting with several goroutines gives one ranking", "statement": "Sorting a slice of elements that is long enough to be sorted with several goroutines gives the same result at every schedule of them, the ranking of exactly the given elements. No goroutine overwrites a piece that another one has yet to read, none uses an index out of range, and none waits for ever.", "quantifier": "every slice of elements of any length, every number of pieces, every order in which the goroutines run", "why_tests_cant": "Schedules of the goroutines that merge pieces while the next ones are started cannot be enumerated by a test, and slices below 25000 elements never take this path.", "anchors": ["elements.go:Elements.Sort", "elements.go:Elements.SplitSize", "elements.go:Elements.Merge"]}
{"id": "C104", "title": "Percentiles looked up while the list is updated", "statement": "GetPercentile that runs while updates of the same list are in progress returns an element that was in the list at some time during the call, as it was then, and its neighbours below are exactly those right below it in one list in effect during the call, and likewise those above. If no update changes the list during the call, it returns the element at the percentile with its true ranks and neighbours. A call for a percentile below 100% of a list that has elements all the time does not panic.", "quantifier": "every valid list, every percentile, every radius, every interleaving of the steps of any number of updates with those of the call", "why_tests_cant": "The position of the element is taken from the counts before the segment is locked; whether an update comes between the two depends on the scheduler.", "anchors": ["list.go:RankList.GetPercentile", "segments.go:Segments.getElementIndex", "segments.go:Segments.findRanked", "segments.go:Segments.getTopOffset"]}
{"id": "C105", "title": "Elements from a score on, looked up while the list is updated", "statement": "GetRankScoreDesc that runs while updates of the same list are in progress returns at most the wanted number of elements, none above the score, strictly in ranking order and with consecutive ranks, each as it was in the list at some time during the call. An element at or below the score that is not changed during the call is not left out before the last element returned, nor if fewer elements are returned than wanted. If no update changes the list during the call the result is exact, with true ranks. No element is returned twice, and ranks are those of a list in effect.", "quantifier": "every valid list, every score, every wanted number, every interleaving of the steps of any number of updates with those of the call", "why_tests_cant": "The counts, the first segment and the following segments are read one after the other under different locks; what an update does in between depends on the scheduler.", "anchors": ["list.go:List.GetRankScoreDesc", "segments.go:Segments.segIdxScore", "segments.go:Segments.getElementsFromScore", "segments.go:Segments.getElementsOffset"]}
{"id": "C106", "title": "Concurrent calls on a list have no data races", "statement": "When calls on the same list run at the same time, no call reads memory of the list (its segment tables, the elements of its segments, its index and the names under which they are stored) while another call changes it, and no two calls change it at the same time.", "quantifier": "any number of concurrent calls of all operations of a list, all data they can meet (which segments are touched, whether segments are cached, loaded or rebuilt), every interleaving of the steps of all goroutines", "why_tests_cant": "The race detector reports only races of the schedules that happen in a test run; the property is about all of them.", "anchors": ["list.go:loadSegments", "list.go:updateSegments", "list.go:populate", "list.go:Repair", "segments.go:elementFullIdx", "segments.go:replaceSegment", "segments.go:Verify", "segments.go:splitScores"]}
{"id": "C107", "title": "Nothing is left in the storage that belongs to no list", "statement": "Deleting, replacing, rebuilding or splitting lists deletes what they no longer need: after any requests, every stored table of segments belongs to a list that is there, and every stored block of elements is listed in such a table. In particular, when all lists are deleted, nothing is left. This also holds after the server was stopped and started again.", "quantifier": "every history of requests (create, replace, clone, delete, reindex, repair, split, changes of elements, saves), every content, every schedule of goroutines and names of segments, and every moment at which the server is stopped", "why_tests_cant": "Tests see the answers; garbage in the storage is visible in none of them, and which blobs an operation leaves depends on all segments of the list and on everything that happened before.", "anchors": ["list.go:DeleteAll", "list.go:reindex", "list.go:populate", "list.go:split", "segments.go:Segments.Delete", "segment.go:deleteElements", "api/lists.go:Create", "manager.go:DeleteList", "manager.go:LoadLists"]}
{"id": "C108", "title": "Bytes that nobody vouches for do no harm", "statement": "Whatever bytes are found in a stored block of elements or are uploaded as a backup, reading them either gives an error or elements in the range of their types, at most one for every seven bytes; it asks for no more memory than the bytes justify and does not crash. A backup that is accepted gives a list with exactly the elements in the file, and the list is well formed; if it is not, a repair makes it so.", "quantifier": "every string of bytes, every limit of the memory, every schedule of goroutines, every name the list is restored under", "why_tests_cant": "Tests read what the program wrote. Damaged or made-up bytes are a space no sample covers, and the demand for memory is visible in no result.", "anchors": ["list.go:RestoreList", "elements_gen.go:Elements.DecodeMsg", "segments_gen.go:Segments.DecodeMsg", "segment.go:loadElements", "backup/restore.go:Restore", "list.go:Repair"]}
{"id": "C109", "title": "Queries while the storage fails", "statement": "When reads of stored segments fail, a query either returns an error or the right answer, never a wrong or incomplete one. A segment that cannot be read affects only the queries that need it, and a query reads no more segments than its answer needs.", "quantifier": "every well-formed list, every query with every argument, every choice of which reads fail, every schedule of the goroutines of a lookup", "why_tests_cant": "Any subset of the reads of a query may fail, and the right answer has to be compared with what is given for each; tests inject one or two failures.", "anchors": ["list.go:GetRankTop", "list.go:GetRankBottom", "list.go:GetRankScoreDesc", "list.go:GetPercentile", "list.go:GetElements", "list.go:Stats", "segments.go:getElementsOffset", "segments.go:getElementsFromScore", "segments.go:findRanked", "segments.go:FindElements", "segments.go:getFirstWithScore"]}
{"id": "C110", "title": "What operations read and write", "statement": "Without a cache, UpdateElements of k elements reads and rewrites exactly the index segments for their IDs (at most k) and the score segments in which the elements are or will be (at most 2k, at most k if all elements remain in their segments), each once however many elements share it, plus the two tables; DeleteElements rewrites exactly the segments with elements that are deleted, at most k of each kind; Insert of k new elements rewrites exactly the score segments into which they belong and the index segments for their IDs, at most k of each kind; looking up k IDs reads at most 2k segments, and the element at a rank or percentile takes one read. This is the table \"Operation Complexity\" of README.md, which does not hold everywhere.", "quantifier": "all lists, all elements and IDs, all orders of goroutines and maps, all times", "why_tests_cant": "Which segments are touched depends on where all the elements are; the store must not be rewritten more than promised for any list and any batch.", "anchors": ["README.md: Operation Complexity", "list.go: UpdateElements, DeleteElements, Insert, GetElements, GetRankTop, GetRankScoreDesc", "segments.go: elementFullIdx, replaceSegment, DeleteElementsIdx, DeleteElements, getElementsFromScore, getElementsOffset"]}
{"id": "C111", "title": "Requests can be repeated", "statement": "A client that got an error or no answer can send the same request again: once a repeated deletion reports success exactly the named elements are gone, and once a repeated update reports success the list is as if only the last attempt had been made, however many attempts there were, whatever failed during them and also if the process crashed and the list was repaired in between. Until then no other element is lost or changed. This fails for updates during which scores could not be read or saved and for insertions.", "quantifier": "all lists, all elements and IDs, all numbers of attempts, all failures of reads and writes and all moments at which clients go away or the process crashes, all times and orders of goroutines", "why_tests_cant": "Which elements an attempt has changed when it fails depends on the moment and on which segments were affected; the number of attempts and of combinations of failures is unbounded.", "anchors": ["list.go: UpdateElements, DeleteElements, Insert, Repair", "segments.go: DeleteElementsIdx, DeleteElements, replaceSegment, Insert", "tools.go: waitErr", "api/elements.go: Create"]}
{"id": "C112", "title": "Going on after a crash without a repair", "statement": "After a crash at any moment of an insertion, an update or a deletion a new process can read the list from the store and serve it without a repair: elements that the request did not name are all there, unchanged and in order, nothing foreign appears, and a repeated deletion that reports success leaves exactly the other elements. Repeating a put makes the element appear, and lengths, pages and lookups agree with the elements; these last two fail.", "quantifier": "all lists in the store, all requests, all numbers of writes after which the process stops, all later attempts with any failures, all times and orders of goroutines", "why_tests_cant": "The number of crash points grows with the number of segments a request touches, in an order the scheduler chooses, and what is wrong afterwards shows only in later requests.", "anchors": ["list.go: Insert, UpdateElements, DeleteElements, loadSegments, GetRankTop, GetElements", "segments.go: replaceSegment, Save, segIdxTop, Elements", "segment.go: loadElements, elementsUpdated"]}
{"id": "C113", "title": "Killed processes and power failures lose at most what the setting allows", "statement": "When the process is killed or the power fails at any moment of a history of requests to a list, a new process reads the list as the first of the requests left it, or these and a part of the next; a change is never lost while a later one survives. What was acknowledged survives a killed process, and a power failure unless NoSync is set. The last sentence fails for Badger.", "quantifier": "all lists in the store, all histories of insertions, updates and deletions, all moments of the failure, both file storages and both values of NoSync, all numbers of transactions that the operating system had written", "why_tests_cant": "What survives depends on which writes were in a queue or not synced at the moment of the failure; the histories are unbounded and a test cannot cut the power.", "anchors": ["api/rankdb.go: newBlobstore", "blobstore/badgerstore/badger.go: Set, Delete, flush", "blobstore/boltstore/boltstore.go: Set, Delete", "list.go: Insert, UpdateElements, DeleteElements"]}
{"id": "C114", "title": "Requests made with the client library arrive as the operation they name", "statement": "A request that is built with a function of the client library reaches the operation of the server with the same name, with exactly the list ID, element ID or backup ID that was given. Two different calls are never the same request, every request that reaches an operation can be made with the library, and no path belongs to two operations. This holds for all IDs that the server accepts; for IDs of lists that a restoration has made it fails.", "quantifier": "all functions of the client library, all list, element and backup IDs, all methods and paths", "why_tests_cant": "The IDs and paths are unbounded; tests call the controllers directly and do not pass through the router.", "anchors": ["api/client/lists.go: DeleteListsPath and the other Path functions", "api/client/elements.go", "api/client/multilist.go", "api/client/backup.go", "api/app/controllers.go: Mux.Handle", "api/app/contexts.go: list_id, element_id", "api/multilist.go: Restore"]}
{"id": "C115", "title": "The arguments given to the client library are the ones the server works with", "statement": "A call of the client library, with any arguments, reaches the server as a request that asks for exactly what the arguments say: numbers, booleans, texts of any bytes and all entries of arrays come out of the query of the URL as they went in, absent arguments stand for the documented defaults, and numbers outside of the documented bounds are refused. The answer is the one for these arguments. Two calls that are sent as the same request say the same.", "quantifier": "all calls of the client library for one list, for several lists, the page of lists, verifying, repairing, restoring or tokens, all values of their arguments of the Go types, all servers in good order", "why_tests_cant": "Texts, numbers and arrays are unbounded; the tests of the project call controllers with parameters that are already parsed and have no test that goes through client and server.", "anchors": ["api/client/elements.go: NewGetElementsRequest, NewDeleteMultiElementsRequest and the others", "api/client/lists.go: NewGetRangeListsRequest, NewGetAllListsRequest and the others", "api/client/multilist.go: NewDeleteMultilistRequest and the others", "api/client/jwt.go: NewJWTJWTRequest", "api/app/contexts.go: NewGetRangeListsContext and the others"]}
{"id": "C116", "title": "The server connects to the hosts of the cluster that the configuration names", "statement": "The setting for the hosts of an Aerospike cluster is a list of entries host or host:port, separated by commas. The server connects to exactly these hosts, in their order, with the given port or 3000; a setting that is not of this form is refused. The first part holds; nothing is ever refused: an empty setting is a host without a name, a port with a blank after it is replaced by 3000, numbers that are no ports are taken as ports, and addresses of IPv6 cannot be given.", "quantifier": "all texts of the setting, all lists of hosts and ports", "why_tests_cant": "The texts are unbounded; there is no test of this package, as it needs a cluster.", "anchors": ["blobstore/aerostore/aerostore.go: New, parseHosts", "api/rankdb.go: newBlobstore"]}
{"id": "C117", "title": "A token that is asked for is good for what was asked", "statement": "A token that is asked for with the client library has the scope that was asked for, opens exactly the lists and elements that the given texts name (all of them if no text was given), and is accepted from the second it was made until the given number of minutes has passed, a day by default. No token is made for less than a minute or if creating tokens is not enabled. This holds for up to 153722867 minutes; tokens for longer times expire before they were made or are cut short, because the duration overflows.", "quantifier": "all scopes, names of lists and elements in any UTF-8 text, numbers of minutes of the Go type, times", "why_tests_cant": "Texts, minutes and times are unbounded; there is no test that creates a token and uses it.", "anchors": ["api/jwt.go: JWTController.JWT, HasAccessToList, HasAccessToElement", "api/client/jwt.go: NewJWTJWTRequest", "api/app/contexts.go: NewJWTJWTContext"]}
