# Formal model of klauspost/rankdb in Lean 4

## Trusted base

* Lean 4.33.0 kernel. Every theorem named in `MANIFEST.json` depends on at most the axioms `propext`,
  `Classical.choice` and `Quot.sound`; building `lean/Verif/Axioms.lean` fails if a theorem in `RankDB.Props`
  depends on another one. There are no axioms of our own, no `sorry`, no `native_decide` and no `bv_decide`. `decide +kernel` is used
  for concrete cases; it is evaluated by the kernel.
* The hand translation from Go to the Lean definitions in `lean/Verif/Model/*`. Every definition cites the file and
  the lines it models and says what was simplified.
* The specifications in `lean/Verif/Spec/*` and the statements of the theorems in `lean/Verif/Props/*`.
* The behaviour of code outside the repository, as far as it is modelled:
  * Go itself: slices, maps (any iteration order), channels, `sync.Mutex` and `sync.RWMutex` (a waiting writer blocks
    new readers), `sort.Slice` (any sorted permutation), 64 and 32 bit arithmetic.
  * `tinylib/msgp`: modelled from the MessagePack format (`Model/Wire`).
  * zstd: an abstract pair of functions with two laws, stated in `Model/ListFile` (reading a complete stream gives what
    was written; reading the beginning of a stream gives a beginning of it). Nothing is assumed about flate.
  * `cenkalti/backoff`: modelled from its documentation (`Model/Retry`).
  * Badger: a map with transactions that are applied as a whole or not at all (`Model/Badger`).
  * Storage in general: a map from set and key to bytes. A write of one blob happens or does not happen.
  * Bolt and Badger when the power fails: synced transactions survive, unsynced ones survive up to some point (`Model/Power`).
  * httptreemux: finds the route whose texts and parameters fit the pieces of the path (`Model/Routes`).
  * net/url: `QueryEscape`, `Values.Encode` and `ParseQuery` (`Model/ClientArgs`).
  * goa and its JWT middleware: scopes of endpoints are enforced as `api/app/controllers.go` registers them, and
    signatures are checked.

## What is modelled, and what is not

| Code | Model |
|---|---|
| element.go, elements.go, element-id.go | `Element`: all functions on slices |
| segment.go, segments.go | `Segments` (content), `Cache` (loading, saving, shared arrays), `Locks`, `Disk` (writes) |
| list.go | `List` (content), `Disk` (writes), `Locks`, `Concurrent` (lookups during updates), `Scan` (clones and ranges during updates), `Backup` |
| lists.go, list-id.go | `Catalogue` (paging, selection), `ListFile`, `Server` |
| manager.go | `Server`, `Saver`, `ListFile` |
| tools.go, bucket.go | `FanOut`, `Bucket`, `Keys` |
| *_gen.go | `Stored`, `Wire` |
| sortfloat | `SortFloat` |
| blobstore/maxsize.go, retry.go, lazysaver.go, badgerstore | `MaxSize`, `Retry`, `LazySaver`, `Badger` |
| blobstore/aerostore parseHosts | `Hosts`; connecting is not modelled |
| blobstore/memstore, boltstore, aerostore, dynamo; api/rankdb.go newBlobstore, wrapRetry | `Layers`: the drivers as maps whose requests may fail, stacked under `maxsize.go` and `retry.go` |
| backup | `Backup` |
| badgerstore and boltstore under the settings of newBlobstore, when the process or the power stops | `Power` |
| api/client (paths and methods), the routes of api/app/controllers.go | `Routes`; escaping of paths is not modelled |
| api/client (arguments in queries), api/app/contexts.go | `ClientArgs`, `ClientMany`, `ClientJobs`, `ClientPages`; the destinations of backups and the encoding of bodies are not modelled |
| api/elements.go, lists.go, multilist.go, jwt.go, morph | `Api`, `ApiServer`, `Access`, `Issue`, `EveryList`, `Server`, `ServerQueries`, `VerifyApi`, `Pool` (requests for different lists at the same time) |

Not modelled: HTTP transport, decoding of JSON and generated goa code, logging, New Relic, statistics of the caches,
`msgppool.go`, the DynamoDB, Aerospike, Bolt and Badger client libraries and the databases behind them (`Layers` assumes of
them that a request is atomic and either succeeds, fails without an effect or fails with its effect; DynamoDB may answer reads
from any former state),
the command line tools, the code in `examples`, wall-clock time (a clock value is an argument; timers may fire at any
moment), memory limits, and integer overflow of the Go type `int` (64 bits).

Simplifications that matter for reading the theorems:

* One call of `UpdateElements` and the like reads the clock once.
* Offsets, limits and counts of queries are natural numbers; negative ones are not represented. The API rejects them.
* A nil payload and an empty payload are the same. A nil metadata map and an empty one are told apart (C35).
* Content models read every segment as it was last saved; `Cache`, `Disk` and `Concurrent` say when that is so.
* `Server` serves one request after the other; `Concurrent`, `Scan`, `Pool`, `Locks`, `EveryList`, C65 and C72 are about requests at the
  same time.
* `Locks` has the calls that go through, `LockErrors` the calls that fail. Errors for positions out of range and for wrong flags
  are not in it.

## Modelling conventions

* Unsigned integers are `Nat`; the theorems that need it carry the bounds `< 2^64`, `< 2^32` as hypotheses. Places
  where Go wraps around are modelled with explicit `%`.
* `sort.Slice` is not stable. It is modelled by an insertion sort; theorems use only that the result is a sorted
  permutation, or show that all sorted permutations give the same result (C04).
* Go map iteration order and goroutine scheduling become an explicit argument (a permutation or a sequence of steps)
  that theorems quantify over.
* A slice is a `List`; C102 justifies this for goroutines that run at the same time. Writes to memory shared with the cache are modelled where they are observable (C61, C63).
* Errors are values. Where the code panics or does not return, the model has an explicit outcome for it.
* A theorem with the suffix `_partial` proves a part; its comment says what is missing. If the property is false of the
  code, a theorem with a concrete witness says so, and `MANIFEST.json` has the status "partial".

## Layout

`Verif/Model` models the code. `Verif/Spec` contains small independent specifications. `Verif/Proofs` contains helper
lemmas. `Verif/Props` contains the property theorems, named after the property, together with the examples that show
that their hypotheses can be met. `tools/manifest.py` makes `MANIFEST.json` from the theorem names and
`tools/notes.json`. `seeded/LOG.jsonl` records the wrong programs that the theorems were tested against.

## Properties: what is modelled and how it is proved

| Property | Model | Proof |
|---|---|---|
| C01 | `Element.Above`, `aboveP` | case analysis on the lexicographic order; uniqueness of sorted permutations |
| C02 | `Elements.Insert` | induction on the slice |
| C03 | both paths of `Merge` | induction; uniqueness of the sorted permutation |
| C04 | `Deduplicate` loop over any ID-sorted permutation | loop invariant; negation for the tie rule |
| C05 | `MergeDeduplicate` | membership and sortedness |
| C06 | `Add`/`Update`/`Delete`/`idxRank` | induction, refinement to a map |
| C07 | `Sort` with explicit fuel | termination measure; negation for all-equal slices of 25000 elements |
| C08 | `SplitSize` loop | loop invariant |
| C09 | `PrevMax`, `AboveThis` | arithmetic |
| C10 | `NewSegmentsElements`, `AlignIndex` | induction on pieces |
| C11 | `FilterIdx`, `splitElementsIdx` | induction on segments |
| C12 | `splitScores`, `splitIndexUpdates` | induction on segments |
| C13 | `FirstElementsWithScore` | induction; negation for the documented "element below" part |
| C14–C20 | list operations over a state of score and index segments | each operation preserves well-formedness and refines the map specification |
| C21 | histories | induction over the history using C14–C20 |
| C22–C29 | queries | refinement to `take`/`drop` of the ranked content |
| C30 | `Verify`, `VerifyElements` | soundness and completeness against well-formedness |
| C31 | `Repair` | any state, uses C04 and C14 |
| C32–C37 | codecs and streams | round trip by structural induction; truncation by prefix argument |
| C38–C41, C62 | store wrappers as state machines | refinement to a map, negations for reordering and collisions |
| C42 | key formatting | injectivity of decimal printing with padding |
| C43–C45, C48 | list catalogue functions over any iteration order | invariants of the scan |
| C46 | bit-vector model of sortable floats | case analysis on sign and magnitude |
| C47 | claim check | list membership |
| C49, C50, C53, C54, C59 | step machines | invariants over all schedules; deadlock witnesses as negations |
| C51, C52, C67, C68 | ordered write traces | every prefix; negations as concrete traces |
| C55 | chunk loop | termination measure; negation for split size below 4 |
| C56–C58 | API logic over list queries | refinement; negation for C57 |
| C60 | tick counter | induction on ticks |
| C61, C63 | cache, storage and the arrays that slices share | invariant over histories with evictions and failures; negations for other sets, merged segments and failed saves |
| C64–C66 | API logic of ranges, creation and updates | refinement to the list operations; negation for concurrent creation |
| C69, C70 | the whole server as a state machine of catalogue and blobs | every request refines a change of a map from list ID to ranking; induction over histories |
| C71 | effects of requests in order, any prefix, then a restart | frame property of effects on other names; negations for deleted, repaired and created lists |
| C72 | two creations that both look up the ID before they add the list | negation for all servers; proof for served in order |
| C73 | calls with tokens over the whole server | C47 for the checks, C70 for what changes; negation for ranges |
| C74 | selection and the requests per list | C45/C48 for the selection, induction over the selected lists with C70; negations for sets |
| C75 | queries on the server, traces of changes and queries | C25, C28, C43, C56, C57, C58, C64 for the list that is looked up, induction over traces with C70 |
| C76 | reading segment by segment interleaved with the steps of updates | invariant: what was read is glued from segments of lists in effect; tiling for the order; negations by schedules |
| C77 | requests in progress with their pending changes over the whole server | invariant: making the pending changes gives the server that serving one after the other gives; changes of different lists commute; C70, C75 for one request |
| C78 | Lists.verify, Lists.verifyElements, Server.verify over the whole server model | Invariants over every write of every request: times are set, numbers and counts fit, options in order; with C70's list invariant the completeness of the checks (C30) applies |
| C79 | Server down to bytes: writeBytes, decoded, start (Model/Bytes) | forward simulation: Represents relates bytes to the server of Model/Server and is kept by every single change, from the round trips C33, C34, C35, key separation C42 and the size bounds of C78; composed with C70, C71 and C75 |
| C80 | StartServer, LoadLists, saver, stops and starts with failing reads and writes (Model/Startup) | refinement to a machine that remembers the last saved catalogue; invariant on the two stored files; round trip C35 |
| C81 | Model/Shutdown: requests in any stage of ShutdownMiddleware, UpdateRequest and their handler, the token bucket, the stages of the shutdown, the list saver, goroutines that outlive their request; events in any order | invariants over runs; a measure for termination; witnesses for the negations |
| C82 | `Layers` (drivers, retry, maxsize.go as code over an abstract store, newBlobstore), `MaxSize`, `Badger` | each driver simulates a map whose requests may fail (before or after taking effect); maxsize.go over such a map is `Model/MaxSize` (refinement by induction on the loops); an invariant of the possible values of a key, kept by calls, retries and restarts |
| C83 | `Model/LockErrors`: the programs of `Model/Locks` cut off at every place of failure, with segments that cannot be read | invariant of `Proofs/Locks` for clean failures; counting of acquires and releases for the others; a kept lock stays for ever |
| C84 | Model/BackupJob: the job with the buffer of its writer, writes that fail, data lost on close, cancelling, and the status; accesses to the map of errors | induction over the lists with an invariant relating the bytes written and the lists reported; decoding of cut records fails by the prefix property of the readers |
| C85 | `Model/Validate`, `Model/ValidateMany`: parameters, bodies, handlers up to the first access to a list; `Spec/Validate`: the documented form (`AsksFor`), independent of the checks | each check against its rule, then all requests by cases; `respond` combined with C70 and C75 |
| C86 | `Model/Validate`, `Model/Server` | C85 and C70 with `Chosen` for one element |
| C87 | `Model/Release`: the goroutine and the caller of ReleaseSegments step by step with the mutex that they share, other goroutines as an environment. `Model/Memory`: the server with the tables in memory, which requests use instead of the stored ones. | Invariant over all schedules; measure for the number of steps. Refinement: the tables in memory are always those in the storage, therefore the server of `Model/Server` gives the same answers. |
| C88 | `Model/Faults`: UpdateElements, DeleteElements and Insert with the failures of a call as a function of position and attempt. | An acknowledged call equals the call of `Model/List` without failures, then C15-C17; relation between segments before and after for all patterns. Negations for every list or with witnesses. |
| C89 | `checkSplit`, `requestSplit`, the queue and the loop of `StartListSplitter` as events; `List.split` as for C18 | a measure of the segments (1 for each, and twice the elements less one for those of the split size) gets smaller with every run that changes anything; a run that leaves it equal meets a balanced list and changes nothing; the queue by induction over the events |
| C90 | `SortedIDsAfter` and `MatchAll` over what `Range` visits, with every list looked up in the catalogue in effect at that time; the client as a function of the pages | the page of what was visited is exact (C43); a list that is there throughout is on the page or behind all of it, and then lists follow; induction over the calls |
| C91 | `Model/Serial`: the lock programs of `Model/Locks` for all calls, and for each call any sequence of small changes of the list, which need a segment locked for writing or `segmentsLock` and `updateLock` for writing; `Job.bySegment` stores the segments one by one in any order. | Invariants over all runs: whoever may change the list has the update lock for writing (`Locks` part of `Proofs/Serial`), two calls never have it together, a call takes it only once, so the changes of a call are not mixed with those of others (`WInv`); the order of first changes is the serial order. |
| C92 | Model/ServerRestore: `payloadOf`, `restoreList`, `dropOld`, `restoreLoop`, `restoreSet` on the server of Model/Server | C37 for the stream, C32 for one list, an invariant over the records of the set (`restoreLoop_items`), and for arbitrary bytes the names under which effects write (`restoreLoop_own`) |
| C93 | Every list of the server is a world of `Model/Serial` (locks of list.go and small changes under them); a step of the server (`Model/Crowd.lean`) is a step of one list. `jobOf` and `calls` say what the call of a request does and which locks it takes. The specification is that of C70 (`Means`, `MeansAll`), on what a user sees of the lists. | Every list has a serial order by C91. The order of first changes on all lists restricts to the order of each list, and an induction on it, with the list that a request is about replaced by the list after the request alone, gives the meaning of the requests one after the other. |
| C94 | goroutines of blobstore/lazysaver.go: phases of callers, request handler, savers and Shutdown, tokens, signal and timer; the queue is that of C39 | invariant (tokens are conserved; a queued item has somebody who will wake the handler), then a measure of what is left that some steps always decrease |
| C95 | `FindElements` and `findRanked` with the read locks each goroutine keeps, together with updates in progress and lookups in the index (`Model/Near`, on top of `Model/Concurrent`) | Invariant: a segment that is locked for reading keeps the elements of the list in effect; refinement: without the neighbours the lookup is one of C54 |
| C96 | blobstore/lazysaver.go with buffers, capacities and pools (Model/LazyBuf) | ownership invariant by counting holders, and a refinement to Model/LazySaver |
| C97 | the lock of a segment, the loader with its channel and closure, the cache entry and the stored segment (Model/Loader) | invariants over an unbounded number of calls; a decreasing count of steps |
| C98 | MaxSizeStore as sequences of single operations of any number of calls with a mutex per key (Model/MaxSteps) | invariant: a running call has done what it would have done after the calls that have returned, since calls on other keys touch other blobs; refinement to the atomic calls of C38; accessibility of the step relation for termination |
| C99 | Model/Recover: the repair request for a list of which parts are missing, on the server of Model/Server; Spec/Recover: which elements a request touches and gives. | The crashed server and the repair together are writes to one list of a server in good order, so the invariant of C70 applies to them at once. What the repair finds comes from the mixtures of old and new segments of C51 and the steps of C52. |
| C100 | the goroutine that saves the catalogue, as a further thread of the concurrent server of C77: begin, Range, Set, failure | invariant over all interleavings that the entry of a list which nobody moves is the same in memory, in what Range has seen and in the file; general constructions for the negations |
| C101 | Model/Behind: Model/Bytes with every write going through Model/LazySaver; a request is answered when its calls have returned; a crash keeps the storage below. | Simulation: what requests find is the fold of all calls (C39), so the bytes stand for the server without write-behind store (C79). For each key the storage has a value of some moment since the queue was empty (C39's slow read), and for lists that no request is about all moments agree. |
| C102 | memory as arrays of cells, slices as windows, the functions of elements.go and segments.go that write in place as programs of single reads and writes (Model/Heap) | separation: each goroutine writes only arrays of its own; induction over schedules; refinement of every operation to lists |
| C103 | Model/SortPar: the slots of the pieces, the calling goroutine and one goroutine per pair, step by step; merging reads the pieces only (C102) | Invariant: slots from the loop variable on still hold the pieces of the round, slots below hold the merger or have a goroutine that will write it; a weight that decreases with every step |
| C104 | `Model/Percent`: the call as a reader that locates the element from the table of segments and then locks the segment, over the updates of `Model/Concurrent` and the goroutine of `Model/Near` | invariant of the reachable states, with the history of the lists in effect; concrete schedules as witnesses of the negations |
| C105 | `Model/FromScore`: the call as a reader that locates the segment from the table, locks it and reads on segment by segment, over the updates of `Model/Concurrent` | invariant: what was read is a consecutive piece of the segments glued together, each as in a list in effect; concrete schedules as witnesses of the negations |
| C106 | The programs of C53 (Model/Locks) with the reads and writes of shared memory as steps of their own (Model/Races); C106_same_locks proves that without the accesses they are the same programs and runs | Lock discipline: each access is allowed by the locks held (which must include segmentsLock); kept by every step; two calls never hold a lock when one of them has it for writing. Races by executed schedules |
| C107 | The server of C70 (Model/Server) with all blobs of all lists | Invariant: the blobs under the two names of each list are exactly the segments in its tables, and there is nothing under other names; kept by the writes of every operation (induction over the loops of split and the pieces of an insertion) |
| C108 | The readers of C24 and C32 on arbitrary bytes (Model/Stored, Model/Backup), the arguments of `make` while they read and its panics (Model/Untrusted) | Every reader consumes a minimal number of bytes per value (compositional lower bounds); the list is a function of the parsed file; repair by C31 |
| C109 | The queries as the reads they make one after the other, each of which gets the elements or an error (Model/ReadFaults) | Relation of a query to the traces of its reads; induction over the segments, against the queries of C21-C25 |
| C110 | `Disk.updateElements`, `Disk.deleteElements`, `Disk.insert` (Model/Disk), `Cost.updateReads`, `Cost.deleteReads`, `Cost.updateResultReads` (Model/Cost) and the queries of Model/ReadFaults | The positions that are loaded are characterised by where IDs and elements belong; counting with relations that are functional because segments tile the space |
| C111 | Sequences of `Faults.delete` and `Faults.update` with arbitrary failures; `Disk.repair` of a crashed store | Invariant over the attempts: segments keep their IDs and lose only named elements, and the index is untouched while a named element is left. Updates: unnamed elements are kept, so that the last attempt decides. Witnesses for what repeating does not repair |
| C112 | A prefix of the writes of `Disk.insert`, `Disk.updateElements`, `Disk.deleteElements`, then `Disk.reload`, then requests with failures | Heads are written last, so that after a prefix of the writes every segment has its range and its old or its new elements (`Onward.Torn`); invariants of C111 from there. Witnesses for stale counts and dangling index entries |
| C113 | `Power`: disk, unsynced transactions and Badger's queue under the writes of `Disk`, with the settings of `newBlobstore` | Invariant: what survives is the effect of a prefix of the writes and the process sees all of them (writes that are overwritten in the queue can be left out); a prefix of the writes of a history is some whole requests and a torn one (C67, C112). The queue never has more entries than the list has blobs |
| C114 | `Model/Routes`: the table of routes of api/app/controllers.go, the `Path` functions and methods of api/client, and a router that splits paths at slashes | No two routes with the same method fit one path: decided on the table by `apart`, which is proved sound for all paths. Filling a route with parameters and splitting the path again are inverse |
| C115 | `Model/ClientArgs`, `Model/ClientMany`, `Model/ClientJobs`: the query that each function of api/client writes, `net/url`, and the parameters that the contexts of api/app/contexts.go take from it; then `Validate.route` | `Spec/ClientArgs.Says` says what a call asks for in terms of Go values. Escaping, joining and decimal digits have inverses; with C114 and C85 a call asks for what it says, in both directions |
| C116 | `Model/Hosts`: `parseHosts` with `strings.Split`, `strings.TrimSpace` and the first result of `strconv.Atoi` | `Spec/Hosts.NamesAll` is the documented form. Splitting undoes joining; the loop over digits gives the number. The theorems about other texts are for classes of texts, not single ones |
| C117 | `Model/Issue`: `JWT` of api/jwt.go with the overflow of the duration, after `Model/ClientJobs` and before `Model/Access` | `Spec/Issue.Opens` and `ValidFrom` say what a token is good for. C115 for the call, UTF-8 decoding undoes encoding, C47 for the restrictions, arithmetic for the times |

Nothing in the list is outside the reach of an executable model.

## Disagreements between the code and what it promises

Each of these is a theorem about the model with a concrete witness (or for all inputs). They were found while proving
the properties; the code was only read, not run.

| Theorem | What the code does |
|---|---|
| `C04_deduplicate_keeps_lowest_score` | Among elements with one ID and one update time the lowest score is kept; the comment says the highest. |
| `C07_sort_diverges` | `Elements.Sort` never returns on 25000 or more unsorted elements with equal score and tie-breaker. |
| `C11_last_second_is_lost` | An element in the last second of the 32 bit clock is routed to no segment. |
| `C13_element_below_not_returned` | The documented next element below a missing score is not returned. |
| `C14_populate_can_panic`, `C15_insert_hangs`, `C55_hangs` | Split sizes that the library accepts make populate panic or inserts never return. |
| `C25_percentile_panics`, `C25_percentile_empty_panics` | Percentile 1 with an empty last segment and any percentile of an empty list panic. |
| `C26_get_elements_unsorted`, `C27_above_order` | Results of lookups are not in the documented order. |
| `C29_before_wrong` | The previous rank of an updated element is relative to its segment, and its rank from the bottom is 0. |
| `C30_verify_unsound`, `C30_verify_misses_index` | Verification accepts lists that are not well-formed. |
| `C35_nil_metadata_query` | A list without metadata comes back with empty metadata, which a query can tell apart. |
| `C36_both_fail_partial_lists` | If both list files are broken, lists of the partly read file are visible. |
| `C37_failure_panics` | The first list of a backup set that fails to restore makes the restore panic. |
| `C38_interference`, `C38_torn`, `C38_delete_ignored` | Keys that end like part numbers interfere; a failed write leaves a mixed blob; a failed delete reports success. |
| `C39_stale_read`, `C39_key_collision`, `C40_failed_save` | With several savers an old value can overwrite a new one; joined keys collide; a failed save loses the value. |
| `C41_configured_ignored`, `C41_configured_leak`, `C41_configured_wrong` | Permanent errors of one retry store leak into others or are ignored. |
| `C44_wrong_page`, `C44_page_of_one_wrong` | The page before an ID contains a wrong list. |
| `C45_missing_field_matches` | A query for an empty value matches lists without the field. |
| `C50_nil_although_cancelled`, `C59_cancelled` | A cancelled call reports success, or nothing. |
| `C51_update_lost`, `C52_split_lost`, `C68_*` | Crashes that lose elements: updates that move an element, splits, populate and repair. |
| `C53_deadlock_*` | Concurrent calls on one list that wait for each other for ever. Each needs a call that changes elements or, for `Stats`, a reindex: `C53_no_deadlock_reading_partial` and `C53_no_deadlock_warm_partial` exclude the others. |
| `C54_missing`, `C54_wrong_rank` | A lookup during an update misses an element that is there before and after, or gives a rank it never had. |
| `C57_above_wrong` | Two or more neighbours above never carry their true ranks in the API. |
| `C60_shutdown` | The save at shutdown writes no backup of the list file. |
| `C61_other_set`, `C61_merged`, `C63_*` | The cache returns elements of another set, of a merged segment, or of a save that failed. |
| `C62_*` | The queued store returns an older value during a delete, and loses queued values when a commit fails. |
| `C65_concurrent_duplicate`, `C72_both_created` | Concurrent creations of one element or list both succeed. |
| `C71_deleted_returns`, `C71_repaired_lost`, `C71_created_lost` | After a crash deleted lists are back but unreadable, and repaired or created lists are gone. |
| `C73_range_unrestricted` | Ranges of ranks show elements that `only_elements` does not name. |
| `C74_sets_ignored`, `C74_set_not_updated`, `C74_all_instead` | Sets alone are ignored by create and put, and mean all lists for reindex, verify and backup. |
| `C76_clone_twice`, `C76_clone_missing`, `C76_range_twice` | An element that an update moves while the list is cloned is in the clone twice or not at all; a range can show it twice. |
| `C80_forgets`, `C80_stale` | with backups configured, one failed read of the catalogue at a start (also a transient one) makes the server start with the backup, or without any lists if no backup was made yet; the next save overwrites the good catalogue. A shutdown never writes the backup, and `C80_never_backed` shows that a server that is restarted often never makes one |
| `C81_timeout_loses` | A request that is still handled when ShutdownRequestWait is over goes on, changes the catalogue after it was saved and is answered as done: the change is lost at the next start. |
| `C81_abandoned` | onEveryList returns when the context is cancelled (Verify with repair and Reindex of many lists) without waiting for the goroutines that it started. They hold no lock and no token, so they are not counted by MaxUpdates, and they change lists after the catalogue was saved and the stores are closed. |
| `C82_delete_ignored` | with Aerospike `Delete` takes a failed read of the header for absence and answers nil; `wrapRetry` is above it, so retries do not help |
| `C82_block_size` | with WriteBlockSize above 1 MiB + 1024 bytes every blob above 1 MiB is refused: the parts are larger than the driver accepts |
| `C82_slash_collision` | the memory storage (and Badger) join set and key with a slash: keys with a slash collide with keys of other sets |
| `C82_short_key` | the memory storage refuses keys shorter than two bytes with an error that is retried until the retries give up |
| `C82_too_big` | the memory storage has a limit of 1 MiB for blobs and is not wrapped with the store that splits blobs |
| `C82_dynamo_stale` | the driver for DynamoDB does not ask for consistent reads: `Get` can return a value that was overwritten (the server cannot be configured to use this driver) |
| `C83_split_keeps_segment`, `C83_index_split_keeps_segment`, `C83_split_blocks_ranking` | a split that cannot save a segment leaves a segment locked; later reads that come to it never return |
| `C83_backup_keeps_table`, `C83_backup_blocks_insert` | a backup whose destination cannot be written leaves the table of segments locked for reading; later inserts never return |
| `C83_populate_keeps_list`, `C83_repair_no_index_keeps_list`, `C83_repair_keeps_list`, `C83_kept_list_blocks` | filling or repairing a list whose new index cannot be stored, and repairing a list whose statistics cannot be read, leave the list locked; no later request on it returns and the catalogue cannot be saved |
| `C83_reindex_never_returns`, `C83_load_never_returns`, `C83_double_unlock_fatal` | reindexing, or loading with a rebuilt index, that cannot save the segments unlocks twice, which ends the process |
| `C84_flush_error_ignored` | The error of the last write (`msg.Flush`) is dropped: a small backup to a full disk is reported as success and there is nothing to restore. |
| `C84_close_error_ignored` | Errors when the compressor and the destination are closed are dropped, and a job that sends to another server neither waits for its answer nor lets the request end (it cancels its context): data cut off there is reported as success. |
| `C84_cancelled_success_lost` | A cancelled job drops the buffer of its writer (`Close` does not flush): lists it reports as success are not at the destination. |
| `C84_not_a_snapshot` | The lists of a set are from different times: an element moved between lists can be missing in all of them. |
| `C84_status_fatal` | The status shares its map of errors with the running job: an error stored while the status is encoded ends the process (concurrent map iteration and map write). |
| `C85_null_panics` | A description of a list with `null` among its elements passes the validation and panics in `Publicize`. |
| `C85_missing_id_is_zero` | PUT of several elements checks nothing: an element without ID or score is stored as ID 0, score 0, and null is skipped. |
| `C85_nan_panics` | The percentile NaN passes both range checks and panics. |
| `C85_many_null_panics` | `null` among the elements of a request for many lists panics in `Publicize`, before the token is checked. |
| `C86_update_erases` | The documentation of `payload` says that null means do not update, but no code keeps the stored payload: an update without payload erases it. |
| `C88_update_dropped`, `C88_update_twice`, `C88_update_lost` | UpdateElements only logs that a segment of the scores could not be read or saved (list.go:1398-1404, 1453-1476) and reports success. |
| `C88_delete_blocks`, `C88_delete_blocks_on` | A deletion that is cancelled after the scores, or that cannot save the index (segments.go:447), leaves entries in the index. Updates of such an element into the same segment get ErrNotFound from Elements.Update, which is only logged (list.go:1427-1433). |
| `C89_one_run` | One request leads to one run, in which a segment is cut in two at most, and the splitter does not check the list again: after a large insertion segments stay far above the split size until the next change. |
| `C89_ties_stay` | `splitIdx` looks for a cut from the middle downwards only, so that a segment whose lower half is tied is never cut, however large it is, although it could be cut above; each later change requests a run that does nothing. |
| `C89_dropped` | Requests beyond 1000 are dropped, and the same list can take up all the places. |
| `C90_short_page` | Lists deleted between the scan and the lookup make the page shorter, even empty, while `lists_after` is not 0: a client that stops at a short page misses lists, and after an empty page there is no ID to go on from. |
| `C90_other_list` | Selecting by set or metadata and looking up are two steps: a list that is deleted and created again in between with another set is changed although it does not match. |
| `C92_unsaved_lost` | Restoring reports success without saving the catalogue. After a restart none of the restored lists exist, and the lists they replaced cannot be read any more. |
| `C92_broken` | With `replace`, the existing list is deleted before the backup of its replacement is read. If that fails the list is gone, and the request panics instead of reporting the error. |
| `C92_unreachable` | `list_id_prefix` and `list_id_suffix` are not checked. A blank in one of them makes lists that no request for one list can show or delete. |
| `C94_late_call_lost`, `C94_late_call_waits` | `Set` looks at `shuttingDown` under a lock it then releases, so an item can be added after the request handler has seen an empty queue and exited. Then either `Set` reports success, the value is never written and `Shutdown` waits forever for its token, or `Shutdown` returns and `Set` waits forever. |
| `C95_both_sides`, `C95_neither_side` | The neighbours below and above are collected one after the other; an update in between can move an element to the other side. |
| `C96_capacity` (example) | The comment of getDataBufferChunk promises room for any size; a new buffer for more than 1 MB has only 1 MB and append allocates another one. Harmless. |
| `C97_foreign_error` | segment.go:178-194: calls that wait for a load get the error of the call that loads, also if this is the cancellation of that call's own request. |
| `C97_panic_empty`, `C97_panic_stuck` | segment.go:186-204: if reading panics, err and forReader are still nil when the channel is closed, so waiting calls get no elements and no error and segments.go:256 caches them; segments.go:250 does not release the lock. |
| `C98_torn` | a process that ends while a blob of several parts is written leaves a blob that is neither the old nor the new one, and reading it reports no error |
| `C99_unsaved` | after the repair the list is lost if the server stops once more before the catalogue is saved |
| `C99_reindexed_stuck` | a repair request for a list that was reindexed before an unsaved stop panics |
| `C99_repair_crashed` | a crash within the repair request empties the list |
| `C100_neither` | clone a list to a new ID and delete the original while the catalogue is saved: the saved catalogue can have neither, and a crash loses the elements (lists.go:121-130 with manager.go:185-199) |
| `C100_repaired_lost` | a save that began before a repair and ends after it stores the old names; after a crash the list is lost |
| `C101_half_done`, `C101_moved_lost` | With the write-behind store an answered request can be left half done by a crash: the element that an answered request moved from one segment to another is in neither. |
| `C101_catalogue_first` | A queued write is replaced in place, so the order of writes to different keys is lost: the catalogue can be written before the segments of a list that it names. After the crash the list exists, every request to it fails, and creating it is refused. |
| `C102_unranked` | `UpdateElements` and `Insert` sort the slice of the caller in place (list.go:1246, 1596). Two calls at the same time with one unranked slice can add one element twice and lose another. The server ranks the elements of a request before it shares them (`C102_ranked`). |
| `C104_panics`, `C104_wrong_element` | `GetPercentile` takes the position in the segment from the counts in the table, and locks the segment afterwards. If an update empties the segment in between, `elementOff` becomes -1 and the call panics (segments.go:975-978), although the list has elements all the time. If an update moves elements into or out of the segment in between, the element returned is at the percentile in no list that was in effect. |
| `C105_twice`, `C105_wrong_rank` | `GetRankScoreDesc` reads the counts, the first segment and the following segments one after the other. An element that an update moves to a lower segment in between is returned twice, and the ranks are computed from the number of elements above the segment before an update and the position in the segment after it. |
| `C106_race_segment` | The segment, and in it the address of its lock, is read before it is locked (segments.go:199-200) while `replaceSegment` assigns the segment to itself (segments.go:284). The value does not change, but it is a data race for Go. |
| `C106_race_verify` | `Segments.Verify` keeps only the address of a segment under the lock of the table and reads `Updated` and the bounds after it (segments.go:672-677). |
| `C106_race_unloaded` | After a failed load `Repair` reads `l.scores` without a lock (list.go:1799) and `populate` reads the names with the list lock only (list.go:890-892), while `loadSegments` of another call writes both. |
| `C107_restart_leaves`, `C107_lost_for_ever` | The catalogue is saved now and then. The blobs of a list that was created, reindexed or repaired since the last save belong to no list after a restart. No request or job ever deletes them (`C107_waste_stays`). |
| `C107_delete_broken_leaves` | `DeleteAll` loads the list before it deletes it (list.go:1125-1131). If the index is missing and a score segment cannot be read, it returns without an error and deletes nothing; the list is removed from the catalogue and the request is answered with success. |
| `C108_small_blob`, `C108_small_file` | The decoders allocate the number of elements or segments a header names before they read the first. Six bytes in a blob, or 60 in an upload, are enough to ask for billions of places. |
| `C108_count_panics`, `C108_elements_panic` | `RestoreList` passes the number of segments and the element count of each segment from the file to `make`. Negative or very large numbers panic, also if all elements are there. |
| `C108_takes_anything`, `C108_any_elements`, `C108_server_takes_bad`, `C108_server_loses` | `RestoreList` does not look at what it reads: elements out of order, the same ID twice, and segments with the same number are accepted and reported as restored. Of segments with the same number all but the last are lost. |
| `C109_neighbours_dropped` | `findRanked` stops collecting neighbours when a segment cannot be read and drops the error, so that GetElements and GetPercentile return too few neighbours as if the list ended there. |
| `C109_stats_silent` | `Stats` drops the errors of its two queries. A list with elements is reported without top and bottom element when its segments cannot be read. |
| `C110_index_rewritten` | README.md:444 says that no index segment is written if an element remains in its segment; `UpdateElements` writes the index segment of every element. |
| `C110_delete_reads_twice` | README.md:445 has one read of an index segment for a deletion; `DeleteElements` reads it twice, to find the element and to remove the entry. |
| `C110_results_read_again` | README.md:444 has three reads for an update; with results the changed segments are read again. |
| `C110_range_one_more` | README.md:442 has `1 + FLOOR((To-From)/$$)` reads for a page; a page that crosses the end of a segment takes one more. |
| `C110_score_twice` | README.md:443 has one read for elements with a score; `getElementsFromScore` reads its first segment twice. |
| `C110_insert_pieces` | An insertion of more than `splitSize/4` elements for each index segment is done in pieces (list.go:1576-1595) and writes a segment again for every piece. |
| `C111_update_twice_stays` | An element that is in the list twice because its old segment could not be read stays there with its old score: repeating the update and deleting the element, both reported as done, do not remove it. |
| `C111_update_lost_stays`, `C111_lost_for_ever`, `C111_deleted_for_ever` | An element that was lost because its new segment could not be saved cannot be brought back by repeating the update, nor by deleting and updating it; all report success. For every list and any number of repetitions, and also for elements whose deletion was abandoned between elements and index. |
| `C111_insert_again` | Repeating an insertion (or a creation by the API) that was refused because the client went away inserts the element twice, since the check for existing elements uses the index. |
| `C112_put_never`, `C112_deleted_never` | For every list there is a crash point of a put, and one of a deletion, after which the element cannot be put into its segment any more unless the list is repaired: the index has an entry for it and the scores do not, so that every update takes it for present, changes nothing and reports success. |
| `C112_insert_torn` | After a crash in an insertion the stored counts are those from before: the length and the pages of the list are wrong (an element is on no page), an element shown on a page cannot be looked up, and a later put stores it twice. |
| `C112_update_torn` | After a crash in an update an element keeps its old score for good or is in the list twice; deleting it leaves one. |
| `C113_badger_killed` | With Badger, requests to a list of fewer than 98 segments are acknowledged but stay in a queue in memory until the store is closed: a killed process loses all of them, however many there were. There is no flush by time. |
| `C113_badger_inverted` | `newBlobstore` passes `config.Badger.NoSync` to `WithSyncWrites`: with NoSync off writes are not synced, and a power failure can lose everything since the start; with NoSync on they are. |
| `C113_badger_rebuilt` | With Badger a deletion goes to the database at once while writes wait in the queue. A repair deletes the old segments and queues the new ones: a process that is killed after an acknowledged repair of a list with up to about 97 new segments leaves neither, and all elements are lost, also those that were stored long before. |
| `C113_badger_merged` | Merging deletes the blob of the merged segment at once and leaves the merged one in Badger's queue: a process that is killed afterwards leaves a list that cannot be read, and a repair drops all elements of the segment, also those that were stored and flushed long before. The server merges by itself. |
| `C114_other_operation` | The client puts the list ID into the path as it is and `url.URL` does not escape slashes. Deleting the list `top/elements/42` with the client deletes the element 42 of the list `top`. The server refuses such IDs when lists are created but not when they are restored. |
| `C114_restored` | Restoring lists beside the originals with such a suffix makes such lists for every server in good order. |
| `C116_never_refused` | `strings.Split` of the empty text gives one entry, so the error "no hosts specified" of aerostore.go:42 cannot occur and a configuration without hosts gives a host without a name. |
| `C116_port_ignored` | `parseHosts` trims blanks of the name but not of the port and ignores the error of `Atoi`: `as1:3100 ,as2` and `as1: 3100` connect to port 3000. |
| `C116_no_colon` | Entries are split at every colon: `[::1]:3100` is the host `[` with port 3000. |
| `C116_large_port` | Ports above 65535 are not refused. |
| `C117_never_valid`, `C117_cut_short` | api/jwt.go:177: `time.Minute * time.Duration(ctx.Expire)` overflows from 153722868 minutes on and there is no upper bound for `expire`. The token is made and answered with 200 but has already expired, or is good for seconds |
| `C44_page_both` | api/lists.go:208-227: if a request for a page of lists has both `before_id` and `after_id`, the second is ignored without an error |
| (not a theorem) | `updateSegments` (list.go:241-259) writes `Scores` and `Index` without the lock of the list, while `Lists.Save` encodes them under the read lock: a data race. The model leaves such names unspecified |

Seen while reading and not modelled: `replaceSegment` with a position out of range leaves `SegmentsLock` locked.
