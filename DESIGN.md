# Formal model of bgokden/veri in Lean 4 — design

## Approach

`/verif/lean/Verif/` holds an executable Lean model of the Go code in `/repo`
(packages `data`, `data/gencoder`, `util`, `node`, `server`) and of the C++ Annoy library in `annoyindex`; not of the
generated protobuf and SWIG code.  It is one connected model: a `Data` record
(a data set) is what the store, the searches, the maintenance and the file model work on; a `Node` holds a list of
`Data`; a cluster is a list of `Node`s.  Each area has

* `<Area>/Model.lean`  – definitions, each citing the file and lines it models,
* `<Area>/Spec.lean`   – a small, independent specification where one is needed,
* `<Area>/Lemmas.lean` – helper lemmas,
* `<Area>/Props.lean`  – the property theorems (named after the property ids) and, beside
  each of them, `example`s showing that concrete non-trivial cases meet the hypotheses.

If a property is false of the code, the file contains a theorem that proves the
negation with a concrete witness (`..._fails` / `..._counterexample`) and a
`..._partial` theorem with the strongest true version found; the property is `partial` in
MANIFEST.json and the finding is listed under "Disagreements" below.

## Modelling conventions

* `uint8/uint32/uint64/int64` are Lean's `UInt8/UInt32/UInt64/Int64`: wrap-around is modelled.
* A `float32`/`float64` is its bit pattern.  `<`/`>` on float64 are defined exactly (IEEE-754
  order on bit patterns, NaN incomparable, -0 = +0).  Arithmetic (`+ - * / sqrt acos`) is a
  parameter (`FOps`): theorems hold for every arithmetic with the stated laws.
* A Go panic (nil dereference, index out of range, ...) is an explicit outcome `Res.panic`;
  error returns are `Res.err`.
* A nil pointer is `Option.none` wherever the code could meet one from a request.
* `sync.Map`/`cache.Cache` are finite maps (association lists with unique keys);
  iteration order, being unspecified in Go, is an explicit argument over which theorems quantify.
* `sort.Slice` (unstable) is any function returning a permutation that is ordered if
  the comparison is a strict weak order.
* The clock is an explicit argument at every read.
* Replies of peers, random numbers, answers of the Annoy index (except in C112-C117), gjson path lookups, JSON
  encoding, gRPC connection states are arguments (oracles).
* Goroutines and channels become small-step state machines; theorems quantify over all schedules.

## Plan per property

| id | modelled | proof |
|----|----------|-------|
| C01–C05, C07 | gencoder byte for byte: fixed buffer writes with bounds checks, index reads, varint loops | round trip by induction on varint/lists; injectivity and prefix-freedom as corollaries; truncation of keys panics; truncation of values is silently accepted (negation) |
| C06 | NewDatum | negation + partial |
| C08–C12, C14 | DBMap + InsertBDMap, DeleteBDMap, LoopDBMap with clocks | refinement to a reference map, induction over histories; C14 for every TTL in `Store/Ttl.lean` |
| C13 | atomic map accesses of insert/delete/scan as small steps | counterexample trace; invariant without purge of that key |
| C15–C19, C21 | Data.Insert, RunOnRandomSources; cluster of nodes | case analysis, induction over the source list; cluster recursion; when a failed insert changes nothing in `Data/Failed.lean` |
| C20 | Node.Insert with Drain | case analysis |
| C22–C24 | Collector, PassesFilters, Search over LoopDBMap | top-k invariant of the fold |
| C25, C26 | Annoyer snapshot, SearchAnnoy | induction over the index answer; negation for staleness |
| C27–C32 | Aggregator (Insert, InsertToList, BestScore, One, Result) | top-k invariant; negations for lower-is-better and duplicates; when a datum comes twice, in `Search/Twice.lean` |
| C33, C34 | channel/waitgroup/merge loop state machine | invariants over all schedules; progress; leak witness |
| C35, C36 | GetSearchKey, QueryCache | self-delimiting encoding; negation for age |
| C37 | cluster of nodes with request-id caches | potential argument over all schedules |
| C38 | DataStream two consumers | invariant; lost-item witness |
| C39–C47 | Process, DataSourceDiffMap, isEvictionOn, Close | fold invariants; divergence for all fuel; exact arithmetic for the statistics |
| C48 | Run guard | interleaving counterexample; sequential partial; which starts can be in the loop, in `Dataset/Loops.lean` |
| C49–C55 | Dataset over a cache with expiry, index file | induction over calls; crash = prefix of writes |
| C56–C63 | node peer table, ids, readiness, address parsing | list/permutation lemmas, induction over histories |
| C64–C67 | connection pool state machine | invariants; counterexamples |
| C68–C70 | vector functions over `FOps` | induction over vectors |
| C71, C73 | the panics of insert and merge | exact condition (iff) by case analysis and induction |
| C72 | NaN in comparison and sort | negation; membership without the assumption on NaN |
| C74 | grouped merge with a context | negation; in general the largest score (`Search/Represent.lean`) |
| C75 | query cache with timeouts | negation; invariant of the cache machine |
| C76, C77 | maintenance machine with client writes | negation traces; invariants |
| C78–C80 | concurrent creations, saves, loading as small steps | invariants over all schedules; negations; which upgrade remains, in `Dataset/Winner.lean` |
| C81 | announcements as small steps | negation; monotone without overlap |
| C82 | pools of connections dropped while in use | negation; exact condition |
| C83 | DataStream | invariant; negation |
| C84, C85 | paths, `path.Join`/`Clean`, removal on the disk | names resolved component by component; negation with `..` |
| C86–C88 | the panics of announcements, of asking peers, of the report | exact conditions (iff) |
| C89–C92 | SyncWithPeers over any list and order | induction over the records; negations |
| C93, C94 | Join reply, HTTP answers | case analysis over all addresses; invariant of the node machine |
| C95–C97 | search over several nodes: local search, merge at each node, streams between them | adequacy invariant (`Adequate`) preserved by each merge, induction over the tree of nodes; negations |
| C98 | a search request from the handler to the last merge | composition of C24, C25, C32, C73 for any context |
| C99 | a cluster of nodes executing an insert and the calls it makes (`Cluster/Replicas.lean`, `Cluster/Placement.lean`) | invariant linking a handler's counter to acknowledged calls and to stores; two negations; with C164 and C165 the sources that synchronisation finds reach different nodes |
| C100 | the maintenance machine of C39–C46 | origin invariant of queued copies; negation |
| C101, C102 | lock, memory and files of the native index, searches and runs as goroutines (`Index/Model.lean`) | inductive invariants over all interleavings; negation by a run |
| C103 | what the library reads of a vector; the maintenance machine of C39–C46 | invariant on lengths; negations by runs |
| C104 | the searches of a request as a machine on the shared limit; 0.9 by soft float | rounding is monotone; invariant: every limit sent is a cut of the given one; induction on hops |
| C105 | the same machine | negation by a run; invariant; a run that reaches the worst case |
| C106 | milliseconds to an int64 of nanoseconds | arithmetic modulo 2^64 |
| C107 | the plan of C45, soft floats for the one per cent | exact condition by bounds on the rounded product; negation by an example |
| C108 | `GetDataInfo` of C49–C53 against the fields of the configuration | calculation; negation by the default configuration |
| C109 | the machine of the list of data sets and its index file (C54, C79, C80) | invariant: every data set is empty; negation by an example |
| C110 | the histories of C08 | the reference map keeps the last insert; negation by two inserts |
| C111 | several stores, inserts on their way, sends, losses, drops as a machine | invariants on the values of one key; negation by swaps, induction on their number |
| C112, C115 | the trees of the Annoy library: random numbers, planes, splits, queue of a search (`Annoy/Model.lean`) | `_make_tree` by induction: every root is the root of a tree with each item once; the search by a measure on the queue |
| C113, C114 | the same | counting: an item is collected at most once for each tree; negation by evaluating the library on eight and five vectors |
| C116 | maintenance runs (C34–C48), the library, `SearchAnnoy` (C25) together | invariant: slots are filled without a gap by data of one length |
| C117 | the blocks the wrapper allocates | induction over the searches; negation by repeating one |
| C118, C119 | words shared without a lock: a reader and a writer interleaved word by word (`Race/Words.lean`), on top of maintenance runs | the values that can be read are exactly the mixtures (both directions); invariant on the lengths of the statistics |
| C120 | slices with capacities, the steps of `append` interleaved (`Race/Known.lean`) | invariant on headers; one goroutine alone refines the sequential model of C60; a stalled goroutine gives the unbounded loss |
| C121, C122 | time: the ticker with its channel of one place, the loop, jobs made of calls with a time limit (`Node/Timer.lean`) | invariant linking each round to the one before (ticks, when taken, when started); starts are spaced like ticks but two; a family of executions for the unbounded overlap |
| C123, C124 | a scan with the promise of `Range`, any well-formed changes of the map and clock beside it (`Store/During.lean`, `Search/During.lean`) | invariant: the visits so far come from maps and clocks since the call, the callback has been fed the live ones; then the sequential top-k lemma |
| C125 | requests as two-step goroutines with the order of returns as history (`Store/Linear.lean`) | invariant: the abstract map is a run of the returned requests; prefixes of executions give the real-time order; the counterexample checks all orders of three requests |
| C126 | the histories of the query cache of C35 (`Search/CacheHits.lean`) | invariant: a stored answer whose time has not run out, or a newer one, is under its key |
| C127–C129 | `ResponseWriter` as a state with what has been sent; precedence of settings; the process with its signal goroutine around the machine of C42 (`Server/`) | evaluation; simulation into the machine of C42 |
| C130 | `EncodeToString` as two steps beside a collector and goroutines that use memory (`Unsafe/`) | invariant along all runs; explicit run |
| C131 | rounding errors of `roundRat` (`Vector/RoundErr`), the running sums of the statistics (`Process/StatsFloat`) | forward error analysis by induction; exact sums of powers of two up to 2^24, then a fixed point |
| C132 | places of the slice by order of the scan (`Placed`), runs from begin to end (`Process/IndexCover`) | invariants of the maintenance machine; counting argument for what is missed; a run of 1001 data built by induction, ended by the measure of C77 |
| C133 | the same machine, executions as lists of labels (`WasLive`) | invariant on runs begun after the moment; empty data sets keep the index |
| C134 | values of bit patterns (`Vector/Value`), error bounds of the operations (`Vector/Accurate`), true distance in the rationals (`Ref.dist2`) | forward error analysis by induction over the components; soft-float shown to meet the bounds |
| C135 | C22 with scores of C134 (`Search/Nearest`) | order of the scores transferred to the true distances through the error bound |
| C136 | sum of differences in the rationals (`Ref.dist1`), `Vector/Products` | forward error analysis by induction |
| C137 | inner product and sum of magnitudes (`Ref.dot`, `Ref.absDot`), `Vector/Products` | forward error analysis by induction |
| C138 | cosine in the reals (`Ref.cosine`), `Vector/CosErr` | the three sums are independent; Cauchy-Schwarz by induction; errors of root, product, quotient, clamp |
| C139 | C22 with scores of C138 (`Search/Similar`) | as C135 |
| C140 | C22 with scores of C136 (`Search/Similar`) | as C135 |
| C141 | angle in the reals (`Ref.angular`), `Vector/AngErr` | modulus of continuity of the arc cosine (Jordan's inequality) |
| C142 | place-by-place comparison of answers (`Ref.NoWorse`), `Search/More` | top-k of a subset is no better than top-k of the whole; C33, C34 |
| C143 | C95 for a lone node and C134 (`Search/Self`) | the score of the vector itself is 0, that of the others is not |
| C144 | the flips as a function of the state (`Kiss.after`, `Kiss.heads`), `Annoy/Ends` | induction over the number of items; more fuel does not change a result |
| C145 | the handler as it is, against C95's searches (`Cluster/Unary`) | evaluation |
| C146 | C95's cluster searches; real cosines (`Cluster/EndToEnd`) | C95 with the error of the score (C138); counterexample evaluated |
| C147 | the store's histories (C08–C10), then C95's search at a lone node (`Cluster/EndToEnd`) | C09/C10 give the hypothesis of C143 |
| C148 | the index as built by C112's `build`; the search of C113 (`Annoy/Self`) | the vector's own side of every split is popped with priority at least zero, before any other side; induction on the trees |
| C149 | `Make`: requests, clean-up, deletion, expiry and janitor on one name, statement by statement (`Dataset/Create`) | invariant: the thread that holds the lock determines the state of the object |
| C150 | the same | invariant: in the list, about to be closed, or stopped and set up; counterexamples evaluated |
| C151 | `Net`: one node over all events, two nodes over all rounds (`Node/Services`) | expiry followed through the synchronisation loop; induction over rounds |
| C152 | `Annoy.Kiss` against whole-number arithmetic (`Annoy/Kiss`) | case analysis on the overflow |
| C153 | `DS.createIfNotExists`, `DS.get` against `Ref.retention` (`Dataset/Retention`) | `Int64` product compared with the integer product |
| C154 | `Annoy.getAllNns`, `Search.searchAnnoy` (`Annoy/More`) | the collected candidates grow with the budget; the sorted prefix of a larger set is pointwise not larger |
| C155 | `Gossip.exec`: `join`, `sync`, `deliver` over any set of nodes (`Gossip/Model`) | who knows whom since when; one window renews, two windows close triangles, so chains halve |
| C156 | `Gossip.exec` with creations and any other changes of data sets (`Gossip/Spread`, `Gossip/Last`) | the record of the owner is renewed with the list of its data sets in it; a join pushes every expiry to at least 198 s later |
| C157 | `Net.run` (`Node/Ready`) | induction over the events from the end |
| C158 | `Bal.step`: several `Proc` machines, with calls between them in two steps (`Cluster/Rebalance`) | each transfer under way has left the key on its destination, which keeps it until the answer |
| C159 | `Annoy.buildB`: the build with its buffer and file, each access checked (`Annoy/Buffer`) | the buffer holds the nodes there are after each allocation; equality with `build` by induction |
| C160 | `Calls.Step`: the collecting loop with the calls in detail, connections counted (`Search/Calls`) | invariant (connections = calls under way); settled states; a measure for termination |
| C161 | same machine | what is collected is a permutation of first parts of the answers |
| C162 | `Startup.step`: `RunServer` with its goroutines (`Server/Startup`) | invariant; the position of `RunServer` only moves on |
| C163 | `Search.streamSearch` through C22 (`Search/Stable`) | the best `k` of a larger set compared place by place by counting |
| C164 | `Gossip.exec` (`Gossip/Sources`) | invariant: records carry addresses that the node still has, so the first address that is not our own is another node's |
| C165 | `Gossip.exec`, `Net.syncPeer` (`Gossip/Sources`) | the same invariant: with fixed addresses the source is the smallest address of the node; a cluster of two for the negation |
| C166 | `Iso.serve` (`Node/Isolation`) | each operation sets or erases the entry of one name |
| C167 | `Iso.run` (`Node/Isolation`) | two runs in step: equal entries for the name, equal entries for its query ids; two searches with one id for the negation |
| C168 | `Clu.AggOut`, `Clu.MultiOut` (`Cluster/Search`), proofs in `Cluster/Complete` | no list ever reaches its limit: one entry per key in the merge of one datum, at most one per key and datum in the last merge |
| C169 | as C168, with the histories of C09, C10 | the insert shows at its node, C168 |
| C170 | `Rep` (C111) with time: when each insert was made up, clocks off by fixed amounts (`Cluster/Life.lean`) | invariant: each copy and each insert on its way has a chain of transfers back to a client's insert whose delays are the prolongation of its life; counting the transfers of a chain per node |
| C171 | C22 with scores of C137 (`Search/Ranking`) | as C135 |
| C172 | C22 with scores of C141 (`Search/Ranking`) | as C135 |
| C173 | `Iso` (C166): the requests of a node one after the other with the background activity (`Node/Contents.lean`) | refinement of the reference map of C08, request by request |
| C174 | `Iso` (C166), the table of query ids (`Node/Remembered.lean`) | invariant: each id has a query whose time explains its expiry |
| C175 | `Wire`: the wire format of proto3, each message as a list of its fields (`Wire/Model.lean`, `Wire/Props.lean`) | round trip of numbers, fields, kinds of fields, then messages by going through their fields |
| C176 | `Wire`, as C175 | fields that are not known do not change the message that is being read |
| C177 | `Wire`, descriptor.proto as messages, the bytes of the description (`Wire/Descriptor.lean`) | evaluation |
| C178 | `Wire`, with the size limit of gRPC (`Wire/Size.lean`) | lengths of the parts of a request; a request of exactly the limit |
| C179 | `Pool`, the pools with sync.Pool and the loading cache (`Pool/Kept.lean`) | invariant over executions in which nothing is dropped, replaced or given back late; four executions for the others |
| C180 | `Pool`, as C179 | entries of a connection counted against returns; induction over sequential uses |
| C181 | `Cluster`, the executions of C99 (`Cluster/Survives.lean`) | holders of C99 counted against the lost nodes; the entry is kept by each step |
| C182 | `Cluster`, the executions of C99 (`Cluster/Answered.lean`) | a measure that each step of a handler makes less, and a step that is always enabled |
| C183 | `Data`, inserts (`Data/Commute.lean`) | an insert decides by the entry of its key alone; maps compared by their entries |
| C184 | `Cluster`, searches over nodes (`Cluster/Anywhere.lean`) | both answers are the best of hits with the same keys (C94, C163) |
| C185 | `Calls`, the machine of C160 (`Search/Left.lean`) | settled states, goroutines counted; an execution for every list of more than 100 results |
| C186 | `Cluster`, the executions of C37 (`Cluster/Flood.lean`) | a node that has carried the query out has sent it to all its sources; what is due comes to pass |
| C187 | `Cluster`, a search of all nodes as one machine (`Cluster/Whole.lean`) | a finished request has the sites of all requests below it; every request is below the client's; then C168 and C95 |
| C188 | `Cluster`, the same machine | the last open request can always go on, since what it waits for came later; a cost that falls with each step |
| C189 | `Cluster`, the machine of C187 with time limits (`Cluster/Cut.lean`) | all that is under way is a match of a connected node; merging keeps that |
| C190 | `Gossip` and `Cluster` together (`Cluster/Joined.lean`) | C156 gives each node as a source of the asked one, C164 and C165 that there are at most six; then C187 |
| C191 | the insert machine and the search machine of `Cluster` together (`Cluster/Found.lean`) | C181 gives a node that has the datum, C187 that it is returned |
| C192 | the search machine of `Cluster` for many searches with one cache per node (`Cluster/Many.lean`) | the steps of one search seen alone are steps of the machine of C187; and back |
| C193 | `Data.insert` with sources that take or refuse (`Data/Enough.lean`) | the acknowledgements are the willing ones among the first six |
| C194 | `save` and `load` of the Annoy library (`Annoy/Loaded.lean`) | the scan finds the copies of the roots; the searches from copies and originals go in step |
| C195 | `initConfig` and the start of the server (`Server/Config.lean`) | cases of the command line and the environment; negation |
| C196 | the index search on the native index after any history (`Annoy/SelfUse.lean`) | C116 and C148 together: the position is answered, and the answer is in order |
| C197 | inserts, runs, native index, index search (`Annoy/Later.lean`) | C132 puts the datum into the index, C196 finds it |
| C198 | the machine of C192 with the limits of C189 (`Cluster/ManyCut.lean`) | each step belongs to one search and is a step of that one alone; the counts of the steps add up |
| C199 | decoding of arbitrary bytes (`Gencoder/Canon.lean`) | the readers are inverted one after the other; the length reader up to nine bytes |
| C200 | the machine of C187 beside stores that change (`Cluster/Moving.lean`) | a run is a run of C187 over what the nodes held when they were asked; a node that notes the id is asked once |
| C201 | the machine of C198 with query caches (`Cluster/Cached.lean`) | what a node has found comes from the nodes connected with it; equal cache keys mean equal matches |
| C202 | requests for several data with groups and a context over the whole cluster (`Cluster/Several.lean`) | whatever is kept by merging and going up the sources holds of all results; all data of a merge have come in |
| C203 | as C202, without time limits (`Cluster/Each.lean`) | each of the searches that has ended is one of `AggOut`, with the node asked among those that took part; C168 |

No property is `not_applicable`.

## Areas of the model

| directory | code | contents |
|-----------|------|----------|
| `Go`, `AMap`, `Sort`, `Float` | – | outcomes with panics and errors, finite maps, sorting functions, IEEE order on bit patterns |
| `Gencoder` | data/gencoder, data/datum.go | the binary encoding, byte for byte |
| `Store` | data/newsync.go:17-91, data/delete.go | the map of a data set; `Conc`: its atomic steps under interleaving |
| `Data` | data/data.go, data/insert.go | the data set record, inserts with replication |
| `Vector` | data/util.go | distances over any arithmetic; `SoftFloat`: IEEE-754 arithmetic in Lean (round to nearest even); `Rounding`, `RoundErr`, `NumErr`: its order and error bounds; `Value`: the number a bit pattern stands for; `Accurate`: the error bounds the accuracy theorems assume, met by `SoftFloat`; `Accuracy`, `Products`, `CosErr`, `AngErr`: the score functions against the true values |
| `Search` | data/search.go, data/aggregator.go | local and index search, merging, the stream machine, the query cache, `Json`: its keys, `Limits`: the time limits |
| `Process` | data/newsync.go:93-227, data/sync.go, data/data.go:108-195 | maintenance as a machine of runs, consumers and a closer; statistics; `Exchange`: when the exchange stops |
| `Dataset` | data/dataset.go | the list of data sets, the index file, its concurrent readers and writers, `Run` |
| `Node` | node/node.go, node/nodeservice.go, server/httpservice.go, state | peers, announcements, synchronisation, joins, draining, the data stream |
| `Pool` | util/connpool.go | the connection pool as a machine |
| `Cluster` | node/nodeservice.go, node/datasourceclient.go, data/insert.go, data/search.go | several nodes: inserts, queries, whole searches; `Versions`: the values of a key |
| `Server` | server/httpservice.go, server/veriserviceserver.go, cmd/serve.go, cmd/root.go | the answers over HTTP, the settings, the signals of the process |
| `Unsafe` | util/util.go | a string made of a slice without copying, beside the garbage collector (elsewhere `encodeToString` is the identity) |
| `Files` | data/data.go, data/dataset.go, server/veriserviceserver.go | paths and removals |
| `Annoy` | annoyindex/annoylib.h, annoyindex/kissrandom.h | the native index: building its trees and searching them, over any arithmetic; `Soft`: IEEE arithmetic meets the assumptions; `Use`: with maintenance and searches |
| `Race` | data/data.go, data/newsync.go, node/nodeservice.go | fields shared without a lock: `Words`, the mixtures a reader can get; `Info`, information about a data set; `Known`, addresses learned |
| `Index` | data/newsync.go:147-222, data/search.go:313-337, annoyindex | who uses, replaces and releases the native index, its files, the vectors it reads |

## Disagreements between the properties and the code

For each of these the full statement is a Lean proposition (`..._statement`) that is proved false of the model by a concrete
case, and the strongest version found is proved beside it.

<!-- begin disagreements -->
* **C05** Truncated encodings are not accepted as data. Proved for keys; false for values: a label cut short is accepted and padded (negation and exact behaviour proved). (`C05_truncated_value_rejected_fails`)
* **C06** Datum constructor keeps every argument. False: NewDatum stores size1 as size2 (negation proved); exact behaviour proved. (`C06_newDatum_keeps_arguments_fails`)
* **C13** An acknowledged insert survives concurrent scans. False: a scan that has found an old entry expired deletes the key after a fresh insert stored it (negation proved). Proved for every interleaving without such a pending scan, and for keys that never get a TTL. (`C13_insert_survives_fails`)
* **C14** A longer TTL never means a shorter life. False for TTLs that overflow int64 (negation proved); proved for all others. Exactly, for a datum not stored yet: with TTL t at second s it lives until s + t if that is below 2^63, for ever if it is 2^64, and not at all otherwise; so for which pairs of TTLs the property holds. (`C14_longer_ttl_fails`)
* **C16** A data set never holds more than its target. False: the size compared is the one of the last maintenance (negation proved). Proved: in every execution, clients writing during maintenance included, the overshoot is bounded by the inserts accepted since the run that reported the size began; sharper (since its end) when clients do not write during maintenance. (`C16_target_fails`)
* **C18** A failed insert leaves nothing behind. False: the datum stays stored when replication fails (negation proved). Proved: a refused insert changes nothing, and the only other error is too few replicas. Exactly: nothing changes if it was refused, or if the same value was stored already with an expiry less than ten seconds from the new one. (`C18_failed_insert_invisible_fails`)
* **C21** Insert does not modify the caller's request. False: the count field of the caller's configuration is set to 1 by a forwarded insert (negation proved). Exact behaviour proved. (`C21_config_unchanged_fails`)
* **C24** A search never crashes the node. False for limit 0 (negation proved); exact panic condition on well-formed stores. (`C24_search_never_panics_fails`)
* **C26** Index search returns live data. False: the index answers from the data the last run met (negation proved). Proved: everything returned was stored and alive at some earlier moment; without writers it is stored, expired or accepted by a peer. (`C26_index_live_fails`)
* **C28** Merging results, lower is better. False: once full the worse result is kept (negation proved). Proved when at most limit distinct data arrive; beyond that the exact answer is proved: the limit-1 best of the first limit arrivals and the worst of all. (`C28_merge_lower_top_k_fails`)
* **C29** Merged results contain no datum twice. False when a datum arrives again with a larger score (negation proved). Proved for consistent scores, in both directions. Exactly, with room for all arrivals: no datum twice just if none arrives with a greater score than at first. (`C29_no_duplicates_fails`)
* **C32** Context scoring. False for lower-is-better: the worst score is taken (negation proved, exact behaviour proved). Proved for higher-is-better. (`C32_context_best_fails`)
* **C34** A timeout returns promptly with partial results. The timeout part is proved; 'every source can still finish' is false (negation proved) and proved when the results fit the channel. (`C34_sources_finish_fails`)
* **C35** Cached answers answer the same question. False: datums of one request share a configuration whose timeout each search lowers (negation proved). Proved up to the timeout, and exactly when the timeout was not yet lowered. (`C35_same_question_fails`)
* **C36** Cached answers have bounded age. False: every hit prolongs the item (unbounded age proved). Proved: one more duration per hit; exactly how long an answer is found if it is not prolonged (durations overflow: some are kept for ever, some for five minutes). (`C36_bounded_age_fails`)
* **C38** Data stream delivers every datum once. False: the handler may return while its goroutine holds a datum (negation proved). Proved: at most that one is missing, the rest arrives exactly once; all of it if the goroutine holds none; the stream ends. (`C38_fails`)
* **C40** Eviction respects the low-water mark. False when the mark is zero: the unsigned difference wraps (negation proved). Proved for a mark other than zero and for no target. (`C40_low_water_mark_fails`)
* **C41** Shutdown hands over all data. False: Close trusts the size of the last run, so data never counted are dropped (negation proved). Proved when the size is not zero and nobody writes: Close ends only with an empty store, everything expired or accepted by a peer. (`C41_handover_fails`)
* **C42** Shutdown terminates. False: with a source and a datum without expiry Close never returns, under every schedule (proved). (`C42_close_terminates_fails`)
* **C44** Statistics converge to the true mean and distribution. Over exact arithmetic (an ordered field with a distance); single precision is C131. False for data of maximal distance zero (negation proved). (`C44_statistics_fails`)
* **C47** Maintenance is throttled. False for a clock that went backwards (negation proved). Proved, as an equivalence, for a clock not behind the last run. (`C47_throttled_fails`)
* **C48** Only one maintenance loop runs per data set. False: the check and the increment of the counter are not atomic (negation proved). Proved when starts do not overlap, and that a start after another loop has counted itself is refused. Exactly: of any number of starts of an open data set any, but at least one, may be in the loop. (`C48_one_loop_fails`)
* **C51** Saved index restores the same data sets. False: a utilization that is not a number cannot be encoded, the data set is lost (negation proved). Proved exactly: the live configurations with a finite utilization are restored, each once. Saves without interference; see C79, C80. (`C51_restore_fails`)
* **C52** A crash while saving never corrupts the index. False: the file is truncated before it is written (negation proved). Proved for every crash point of a save, with any other activity but a second save: only configurations that were really there. (`C52_crash_fails`)
* **C53** Periodic clean-up never drops acknowledged data. False: an acknowledged insert that no maintenance run has counted yet is removed with its data set (negation proved). Proved: removed only if the last count was zero here and at every peer serving it. (`C53_cleanup_fails`)
* **C54** A deleted data set stays deleted. False: a background walk over the names taken before the delete creates the data set again (negation proved). Proved for every schedule when no walk under way holds the name. (`C54_deleted_fails`)
* **C55** Unused data sets expire after their retention. False: every background walk counts as a use (negation proved, and that a visit keeps the data set for a full retention). Proved when no walk visits it. (`C55_expires_fails`)
* **C59** A wrong clock cannot block a peer's updates. False: while the record from the future is held every announcement with the right time is ignored (negation proved). Proved: accepted when the record held is older or none is held; the wrong record is kept at most fifteen minutes unless it comes in again. (`C59_fails`)
* **C62** A draining node stays not ready. False: every synchronisation that ends sets the flag (negation proved). Proved: not ready until a synchronisation ends, an equivalence; inserts stay refused for good. (`C62_fails`)
* **C65** At most twenty users share a connection. False: giving a connection back adds a copy to the pool, so more than 21 can have it (negation proved). Proved: 21, and one more for each time it was given back; that many are reached however often that was, so there is no bound. (`C65_fails`)
* **C66** A connection in use is not closed by another user. False: the first one to finish closes a connection that is not ready (negation proved). Proved exactly: closed if and only if it is not ready then. (`C66_fails`)
* **C70** Score function selection. False for two of the Annoy-prefixed names, which score by euclidean distance (negation proved); proved for all other names. (`C70_annoy_prefix_fails`)
* **C71** No insert request crashes the node. False (negation proved); exact set of panicking requests; requests with key and value never panic. (`C71_no_insert_crashes_fails`)
* **C72** A not-a-number score never hides a better result. False (negation proved with machine arithmetic); with NaN scores the answer still consists of the right number of distinct matching data. (`C72_nan_does_not_hide_fails`)
* **C73** Merging results never crashes. False (negation proved); exact panic condition. (`C73_merge_never_panics_fails`)
* **C74** Group scores survive a search context. False: the representative is rescored against the context (negation proved). Proved without context data. Exactly, with context data: the score is the largest of those against the context and, unless that is prioritised, the score of the group (scores that are numbers). (`C74_group_score_kept_fails`)
* **C75** Cached answers are complete. False: answers of searches cut short by their timeout are cached (negation proved). Proved for searches not cut short. (`C75_complete_answers_fails`)
* **C76** Maintenance never loses an update. False: the consumer deletes by key after the acknowledgement of the old value (negation proved). Proved: a key is removed only by expiry, a client, or an acknowledged copy with this key. (`C76_no_update_lost_fails`)
* **C77** A maintenance run completes. False: a run without consumer blocks for ever if Close comes during its scan (negation proved). Proved: boundedly many steps under every schedule, and never stuck when there is a consumer or the data set is open. (`C77_run_completes_fails`)
* **C78** Concurrent upgrades never lower the version. False: check and assignment are not atomic (negation proved). Proved: never below the first version; monotone when requests do not overlap. Exactly: after requests served at the same time any one of those with a higher version than the first may be what remains, and nothing else. (`C78_version_fails`)
* **C79** The index is complete once the saves have ended. False: an older save may end last (negation proved). Proved when saves do not overlap, with any other activity. (`C79_index_complete_fails`)
* **C80** Loading the index is not disturbed by the saves it starts. False: the first data set loaded starts a save that truncates the file being read (negation proved). Proved for an index of at most 4096 bytes under every schedule, and for any size when no save opens the file meanwhile. (`C80_load_fails`)
* **C81** Overlapping announcements keep the newest record. False: the check and the Set are two steps (negation proved). Proved for every interleaving in which the announcements of one and the same peer do not overlap. (`C81_fails`)
* **C82** Dropping a pool of connections does not hurt calls under way. False (negation proved). Proved: one connection at a time, only with a copy in that pool; counters stay. (`C82_fails`)
* **C83** A data stream has one sender. False: the flush loop and the goroutine may send at the same time, and the goroutine after the return (negation proved). Proved: not during the scan, not with at most one live datum; at most one call after the return. (`C83_fails`)
* **C84** Dropping a data set deletes only its own files. False: the name is joined to the path unchecked, so a data set named ../.. stands for the parent of the node's directory (negation proved). Proved exactly for names that can be names of directories. (`C84_fails`)
* **C85** The end of the server keeps the other files. False: a deferred removal of the whole directory runs when listening ends, e.g. because the port is in use (negation proved, exact). Proved for the end by a signal. (`C85_fails`)
* **C86** No announcement crashes the node. False: a record without addresses is accepted, and a request without a record then reads through a nil pointer (negation proved; exact condition). Proved while every announced record has addresses, none empty. (`C86_fails`)
* **C87** An unreachable peer never crashes the node. False: the size of a peer that does not answer is read through a nil pointer (negation proved; exact condition). Proved when the peers of empty data sets answer. (`C87_fails`)
* **C88** The periodic report never crashes the node. False: a data set that has gone, or is not initialized yet, is dereferenced (negation proved; exact condition). Proved for names still listed. (`C88_fails`)
* **C90** A peer seen at every synchronisation stays a source. False: the entry is added for ten minutes and not prolonged, so there is a gap until the next synchronisation (negation proved). Proved exactly: a source from the synchronisation that added it for ten minutes, and at the time of each synchronisation; and exactly until when processing uses it. (`C90_fails`)
* **C91** Synchronisation does not bring back a deleted data set. False: it comes back as soon as a peer has it (negation proved). Proved exactly when. (`C91_fails`)
* **C92** Synchronisation drops only stale records. False: the record is removed by identity because of an older copy (negation proved; exact). Proved when the table did not change since the synchronisation took the records. (`C92_fails`)
* **C95** A search over several nodes returns the best data. False if lower is better: the merges keep the worse of two when the limit is reached (negation proved). Proved for any number of nodes if higher is better, or if at most limit many data match; in both directions if only the node itself takes part. Exact (non-index) scoring, no context, no group limit, stores filled by well-formed inserts. (`C95_cluster_search_fails`)
* **C96** A search for several data is carried out for each of them. False: all requests of one search carry the same id, so the second is taken for a repetition (negation proved; exactly at most one datum per node). Proved: the first request with an id is carried out. (`C96_every_datum_fails`)
* **C97** Group scores hold over several nodes. False: other nodes send group scores, which are grouped and summed again (negation proved). Proved if no other node takes part. (`C97_cluster_groups_fails`)
* **C98** No search request crashes the node. False: a request without a configuration (negation proved). Proved for requests with a configuration, a positive limit, a result limit below 2^63, and keys on all data; each of these is needed (shown). (`C98_search_request_fails`)
* **C99** An acknowledged insert is stored on as many nodes as asked for. False: the calls may come back to the node itself, or reach one node under two addresses (negation proved). Proved: as many requests as asked for have been stored, by as many nodes if the calls reach different nodes other than its own; and so if the sources are those found by synchronisation and the nodes are seen only under addresses that they announce from the start (C164, C165). (`C99_replicas_fails`)
* **C100** Data without expiry take part in rebalancing. False: a datum without expiry is never offered (negation proved; for every execution). Proved: what is offered has an expiry with more than ten seconds left. (`C100_every_datum_fails`)
* **C102** The files of the index go with the data set. False: the file of the last index stays (negation proved; exactly that one). Proved: it is never removed while current, and all others are removed. (`C102_files_fails`)
* **C103** The index reads no vector past its end. False: the dimension is the length of the first vector met, and shorter ones are read past their end, by inserts and by queries (negations proved; exact condition). Proved if all vectors have one length. (`C103_build_fails`, `C103_search_fails`)
* **C105** Each datum of a request has the whole time limit. False: the searches share one configuration and each lowers the limit in it (negation proved). Proved: the exact set of limits a search can have, the worst case is reached, and the property holds for one datum. (`C105_fails`)
* **C106** A search waits as long as its time limit says. False: from 9223372036855 ms on the conversion to nanoseconds overflows, and the timer may fire at once (negation proved; the exact condition). (`C106_fails`)
* **C107** Nodes exchange data until their statistics are close. Proved: as long as the statistics differ data are planned, and what close means in real numbers (one per cent of the largest distance, up to rounding). False the other way round: data sets with fewer than a hundred data, or with fewer than a hundred thousand and a larger peer, never stop (negation proved; the exact condition). (`C107_fails`)
* **C108** Information on a data set shows its configuration. False: the number of replicas, whether they are enforced and the retention time are shown as zero, already for the default configuration (negation proved). Proved: exactly these three are missing; the configurations for which the claim holds. (`C108_fails`)
* **C109** A restarted node has its data. False: only the configurations are on disk (negation proved). Proved: in every execution of a new process, whatever is on disk, no data set has a datum before the first insert; the data sets and their configurations come back. (`C109_fails`)
* **C110** A newer version is never replaced by an older one. False: versions are never compared (negation proved). Proved: exactly, the value inserted last is stored; the claim for versions inserted in ascending order. (`C110_fails`)
* **C111** Nodes that exchange a datum come to agree on its value. False: two nodes swap their values, for any number of exchanges (negation proved). Proved: values only come from clients; agreement if clients never change a value, or if only one node sends. (`C111_fails`)
* **C113** An index search finds as many as asked for. False: the limit is passed as the number of candidates to collect over all trees, so the same item counts once for each tree (negation proved: six answers for a limit of seven among eight). Proved: at least limit / trees answers or all; all if there are at most dimension + 2 items, or if the limit exceeds (items - 1) * trees; all for limits of 2^31 or more. (`C113_enough_fails`)
* **C114** An index search finds the nearest. False: the query itself, stored, is not found with a limit of three among five (negation proved). Proved: the nearest are found if there are at most dimension + 2 items or the limit exceeds (items - 1) * trees. (`C114_nearest_fails`)
* **C116** No index search crashes a node. False: vectors of different lengths (negation proved, see C103). Proved from the creation of the data set on, for histories with vectors of one length; with at most length + 2 items nothing that passes the filters is missed. (`C116_index_search_fails`)
* **C117** Index searches do not use up memory. False: the wrapper copies the answer to memory from malloc that nothing frees (negation proved). Proved: exactly 12 bytes are lost for each position answered; a bound by the numbers of searches and items. (`C117_memory_fails`)
* **C118** Information about a data set is that of one moment. False: the fields are read and written without a lock (negation proved: the average of one datum reported as that of two). Proved: exactly the mixtures, field by field, of what holds while the request is served can be returned; so if nothing changes, that. (`C118_one_moment_fails`)
* **C119** Requests for information do not crash a node. False: a slice is two words, and the length of a new one may be read with the pointer of an old one (negation proved). On every data set a request during the end of its first run can crash the node. Proved: it can happen exactly if a length changes while the request is served; not if all vectors have one length and the data set is not counted as empty. (`C119_memory_fails`)
* **C120** Addresses learned are announced. False: the list is extended without a lock by goroutines that overlap (negation proved; the loss has no bound). Proved: all announced addresses come from replies; an address is added and nothing lost while no other goroutine moves, so replies dealt with in turn are all announced. Headers and strings are read and written at once in this model. (`C120_learned_fails`)
* **C121** The periodic task runs every minute. False: the report asks all sources in turn before the round starts (negation proved). Proved: a round starts at most a minute and ten seconds per source asked after the one before, within the minute if there are no sources, and never more often than the ticker ticks. (`C121_every_minute_fails`)
* **C122** Rounds of periodic tasks do not pile up. False: nothing waits for the round before (negation proved; with enough silent addresses any number of rounds overlap). Proved: with at most k calls in a task, at most k * 10 s / 60 s + 3 tasks of a kind run at the same time. (`C122_one_round_fails`)
* **C123** A search during writes answers with the data of one moment. False: data that were never stored together can be answered together (negation proved). Proved for all concurrent changes: no failure, and the answer is the exact top-k of a selection with at most one datum per key, nothing that was not stored and alive at some moment, and nothing missing that was there all the time. Scores without NaN. (`C123_one_moment_fails`)
* **C125** Concurrent inserts and deletes take effect one after the other. False for expiries (negation proved with three inserts of one value whose expiries are less than ten seconds apart). Proved in the order of the returns: keys and values are exactly those of the sequence, the expiry is that of one of the near ones; for data without expiry the full statement holds. Without scans that purge (C13). (`C125_linearizable_fails`)
* **C126** A repeated query is answered from the cache. False: the searches of one request lower its shared timeout, which is part of the cache key, so the key depends on which search begins first (negation proved). Proved: answered from the cache, by an answer at least as new, exactly if the two searches found the same configuration, in particular for requests with one datum. (`C126_repeated_query_fails`)
* **C127** Health answers are labelled as JSON. False: the type is set after the header has been sent, so it is guessed from the body (negation and exact answer proved, relying on the documentation of net/http). The unused helper has the right order. (`C127_json_fails`)
* **C128** Settings take effect from every place. False: services, port and directory are taken from the command line only (negation proved). Exact precedence proved for the broadcast addresses; viper's precedence is modelled from its documentation. (`C128_settings_fails`)
* **C129** A signal ends the server. False: the goroutine takes one signal only and then waits for Close, which need not return (C42): no number of signals ends the server (proved). A signal is never lost, and after it the process ends exactly when Close returns or Listen fails. One data set. (`C129_signal_ends_fails`)
* **C130** A key string keeps the bytes of its key. False: between lines 11 and 12 only a uintptr refers to the bytes, which may be freed and reused for another key (negation proved). Proved: right, and for ever, unless the collector frees them exactly there; with the commented-out copy always right. Memory is freed and reused by whole arrays. (`C130_key_string_fails`)
* **C131** Reported statistics are accurate to one percent. False: in float32 adding 1/n stops having an effect; 2^25 data [1] are reported with average 1/2 and a histogram that sums to 1/2 (negation proved). Proved for at most 80000 data, and an error bound (n+1) B / 2^23 for n < 2^23-1 data bounded by B: IEEE single precision, round to nearest even, every operation rounded. (`C131_accuracy_fails`)
* **C132** The index covers the data set. False: the slice behind the index has max(1000, previous N) places; of 1001 data inserted before the first run one cannot be found (negation proved). Exactly: what can be found are the first max(1000, previous N) data met. Complete if the run reports at most 1000 or at most the previous N, and after every later run on unchanged data. (`C132_index_covers_fails`)
* **C133** Index answers are no older than the last run. False: a run that meets nothing keeps the old index, so after the last datum is deleted the index returns it for ever (negation and the for-ever version proved). Proved for runs that meet a live datum in a data set that is not closed, whatever clients do. (`C133_index_fresh_fails`)
* **C134** The distance is right to one per cent. False: the sum of squares is kept in float32, so a component that differs by 2^64 makes the distance +Inf, and vectors within 2^-75 of each other have distance 0 (both proved for all such vectors; negation proved). Proved: within one per cent up to 65536 components if the true distance is 0 or in [2^-60, 2^62]; in general the error of the square is at most (2n+8)/2^24 of it plus 3n/2^149. (`C134_distance_accurate_fails`)
* **C135** A search by distance returns the nearest. False even for harmless numbers: (4096, 1/2) is returned and (4096, 0) left out for the query (0, 0), because both distances are 4096 in float32 (negation proved). Proved: for finite vectors within 2^62 of the query and up to 65536 components, what is left out is not nearer than what is returned, and the order is right, up to one per cent (and 2^-64). By the number n of components, and with no bound on how near: the squares of the distances up to a share of (2n + 8) / 2^24 of each and 6n / 2^149. (`C135_nearest_fails`)
* **C136** The quick distance is right to a millionth. False only for components that are farther apart than a float32 can say (negation proved). Proved if no two components differ by more than 3*2^126, with no lower bound: the sum is kept in float64. (`C136_quick_accurate_fails`)
* **C137** The inner product is right to one per cent. False: (4096, 1, 4096) times (4096, 1, -4096) is 0 instead of 1 (negation proved). Proved: the error is at most (2n+4)/2^24 of the sum of the magnitudes of the terms plus 3n/2^149; within one per cent if no term is negative and the product is in [2^-120, 2^124]. (`C137_product_accurate_fails`)
* **C138** The cosine similarity is right to 1/100. False: a vector with a component of 2^64 or more has similarity 0 or NaN to every vector, one without a component above 2^-75 has similarity 0 to every vector, itself included (both proved for all such vectors; negation proved). Proved if each vector is zero or has a length in [2^-60, 2^60]; by the number n of components the error is (5n + 20) / 2^24 if the lengths are in [2^-50, 2^60]. (`C138_cosine_accurate_fails`)
* **C139** A search by cosine returns the most similar. False: for the query (1, 0) the vector (4096, 1) is returned and (1, 0) left out (negation proved). Proved up to 1/50 of the cosine, for vectors that are zero or of length in [2^-60, 2^60] with up to 32768 components; by the number n of components up to 2 (5n + 20) / 2^24, for lengths in [2^-50, 2^60]. (`C139_most_similar_fails`)
* **C140** A search by quick distance returns the nearest. False: the differences are rounded to float32 (negation proved). Proved up to three parts in a million. (`C140_quick_nearest_fails`)
* **C141** The angular similarity is right to 71/1000. False as C138 (negation proved). Proved if each vector is zero or has a length in [2^-60, 2^60]; the bound is the square root of half the error of the cosine, also by the number of components as in C138. (`C141_angular_accurate_fails`)
* **C142** A search with more time does not answer worse. False if lower is better: when the limit is reached the merge replaces a better result by a worse one, so more arrivals spoil the answer (negation proved). Proved if higher is better, or if no more data arrive than fit. (`C142_more_time_fails`)
* **C143** A stored vector finds itself. False: with 2^-80 and 0 stored, a search for 0 returns 2^-80 (negation proved). Proved, with score 0, if the other stored vectors are at true distances in [2^-60, 2^62] from it. (`C143_finds_itself_fails`)
* **C145** The unary search answers. False: the handler returns nil and no error for every request (negation proved; exactly that). There is no case in which it holds. (`C145_unary_search_fails`)
* **C146** A search over several nodes by cosine similarity returns the most similar. False as stated (negation proved: (4096, 1) is returned for (1, 0) and (1, 0) is not). Proved up to 1/50 of the cosine, for finite vectors of length zero or between 2^-60 and 2^60 with up to 2^15 components, no groups and no time limit reached (as in C95); by the number n of components up to 2 (5n + 20) / 2^24. (`C146_cluster_similar_fails`)
* **C147** An inserted vector is found. False as stated (negation proved: 0 is inserted, then 2^-80; a search for 0 returns 2^-80). Proved if the other stored vectors are at true distances between 2^-60 and 2^62, for a node without peers, until ten seconds before the TTL ends. (`C147_inserted_found_fails`)
* **C148** The index finds a vector that is in it. False as stated (negation proved: of five numbers, one of them 1, a search for 1 finds others). Proved for a vector that on its way through the trees comes to no plane that it lies in (margin zero), for every arithmetic with Lib.Ok in which a zero plane gives margin zero, all vectors, dimensions and limits. (`C148_index_finds_itself_fails`)
* **C150** A data set taken out of the list is stopped. False (negation proved, twice): the clean-up closes a data set that is in the list and not yet set up, which then starts its loop; and an expired data set is replaced by the next request without being closed. Proved if neither happens. (`C150_stopped_fails`)
* **C151** A service nobody has is forgotten. False (negation proved): two nodes remind each other of a name for ever, as each report prolongs it by ten minutes and every node reports every minute. Proved: a reported service is known for ten minutes; its time to live changes only by reports that name it. For services learned from others: what go-cache's IncrementExpiration does to an entry without expiry is not assumed. (`C151_forgotten_fails`)
* **C152** The random numbers of the native index are those its comments describe. False (negation proved): with seed 2^64-1 the second carry is one too small. Exact: the carry is wrong exactly when it was 2^58 and the last six bits of the number were ones. With the seed the index uses nothing is said about when that state is met. (`C152_description_fails`)
* **C153** A data set is kept for its retention. False (negation proved): the product with a second in nanoseconds overflows, and a retention of 2^55 seconds is a day. Exact: true if and only if the retention is at most 9223372036 seconds. (`C153_retention_fails`)
* **C158** Rebalancing keeps a copy. False: two nodes above their marks that hold the same datum send it to each other, each accepts what it has already, and each removes it when the answer comes. Proved: no copy is lost unless a node removes the datum while another node waits for its answer to a transfer of it; in particular if all nodes but one have no target and stay open. (`C158_last_copy_fails`)
* **C159** The index is built or given up without a crash. False (negation proved): if the file cannot be opened, grown or mapped, or the disk is full, or there is no memory, the process crashes, for all vectors. Proved: whatever is refused, an index that is built is the same as without refusals; if nothing is refused and the disk has room for four nodes for each item, it is built within its memory, every node of it can be read, and the file has exactly the size of the nodes. Linux; the file is sparse, so that room is needed for what is written only. (`C159_refusals_fails`)
* **C160** A search gives its connections back. False (negation proved): after its time limit a search whose sources have more results than the channel has room for keeps connections for ever. Exactly: the connections kept are those of calls that stand before the full channel of a search ended by its time limit. So searches that end in time, and searches for at most fourteen results (a node and six peers), keep none; for fifteen it can happen (shown). The pool itself: C64-C67. (`C160_connections_fails`)
* **C161** A search that ends in time has the whole answer of each node it asked. False (negation proved): a peer that cannot be reached or breaks off is taken for one that has nothing more. Proved: of each source the search has a first part of its answer, the whole of it unless the call failed, and always all local results. (`C161_whole_fails`)
* **C162** A server that says it is ready takes calls. False (negation proved): the first synchronisation makes the node ready before its port is open. Exactly: it says so without taking calls only right before it opens its port, or after it could not, or after serving has ended, and then the process removes its directory and ends. From the moment the port is open it takes calls as long as it serves. If port 8000 is taken the server goes on without health checks (shown). A node is ready exactly if a synchronisation has ended and no closing has come after it (C162_synced). (`C162_ready_fails`)
* **C165** No node is a source twice. False (negation proved): a node that learns from a join that it is seen under another address announces itself under another identity; as long as both records are kept it is two sources. Holds if the nodes are seen only under addresses that they announce from the start; then, with C156, after each late enough synchronisation exactly one source reaches each connected node that keeps the data set. (`C165_once_fails`)
* **C167** What a node answers on one data set does not depend on the others. False (negation proved): the ids of queries are kept per node, not per data set, so a search with the id of an earlier search of another data set gets an empty answer and no error. Holds, together with the contents of the data set in the end, if no client uses an id for two data sets. (`C167_alone_fails`)
* **C170** A datum is gone from all nodes when its TTL has ended. False (negation proved): what is sent is the time left when the scan came to the datum, so the time that a copy waits in the queue and is on its way is added to its life; two nodes that need half a minute for a transfer keep a datum for ever (shown). Exactly: a copy ends at the end of the TTL plus the time that it was on its way, from node to node. Proved: it is gone in time if nothing takes time; and in bounded time if a node sends a datum at most once in p seconds (60, C47), a transfer takes at most d seconds with the waiting, and N nodes have N d < p. For clocks off by fixed amounts, times and TTLs below 2^61 seconds. (`C170_gone_fails`)
* **C171** A search by inner product returns the largest. False: for the query (4096, 1, 4096) the vector (0, 1/2, 0) is returned and (4096, 1, -4096), whose product is 1 but 0 in float32, left out (negation proved). Proved up to the errors of the two products: for n common components (2n + 4) / 2^24 of the magnitudes of the terms, and 3n / 2^149; at one node and over several (as in C95). (`C171_largest_fails`)
* **C172** A search by angular similarity returns the nearest directions. False: for the query (1, 0) the vector (4096, 1) is returned and (1, 0) left out (negation proved). Proved up to twice the error of the angle: with n components the root of (5n + 20) / 2^25 and a hundred-thousandth (of half a turn) if the lengths are zero or in [2^-50, 2^60]; 142/1000 for any up to 32768 components and lengths in [2^-60, 2^60]; at one node and over several (as in C95). (`C172_direction_fails`)
* **C178** What a node takes it can hand on. False (negation proved): no size limit is set, so the library's default of 4 MiB for a message holds; an insert of just that size cannot be sent on with its configuration, and two data of 3 MB which a node has taken cannot be returned together by Search. Proved: with 24 bytes to spare an insert can be sent on and its datum returned in the stream of a search; it can always be read with the data set; an answer of Search reaches the client exactly if its data together have room. (`C178_handed_on_fails`, `C178_answer_fails`)
* **C179** A connection is closed or can be used again. False (negation proved) in four ways: the runtime drops an entry of sync.Pool without closing its connection; the loading cache replaces a pool by a fresh one on a refresh, without closing it (that goburrow/cache does not call the removal listener then is a fact about the library); a connection given back while its pool is being closed stays in it; CloseAll stops after 1000 entries. Proved: in executions without these, every open connection is in use, can be taken again, or is going to be closed. (`C179_fails`)
* **C180** The pool of connections does not grow with use. False (negation proved): each Get puts a connection that it finds healthy back before it hands it out, and Put adds it once more, so n + 1 uses one after the other leave n + 2 entries of the same connection. Proved: a pool never has more entries of a connection than one more than the number of times it was given back. (`C180_fails`)
* **C181** An acknowledged insert outlives the loss of nodes. False (negation proved): a node may pass the insert on to itself under an address that it does not know as its own, and all copies are on one node. Proved if each call reaches the node of the source called, or none, and the sources are different nodes, none of them the node itself (C164 and C165 give this for sources found by synchronisation); also with other values written for the key, then for the key alone. (`C181_fails`)
* **C184** A search answers alike wherever it is asked. False (negation proved) if lower is better: an aggregator that is full keeps the larger of two distances (C28, C95), so two nodes with one point each answer with the farther one, one node with both points with the nearer. Proved if higher is better, or if no more than `limit` different data match, for answers that all nodes have given in time. (`C184_fails`)
* **C185** A search leaves nothing running. False (negation proved): a search for more than a hundred results whose time limit comes before they are collected leaves two goroutines for ever, without any peer; so n searches leave 2 n. Exactly: the sources that stand before the full channel of a search ended by its time limit, and one that waits for them; at most one more than the sources. Nothing is left of searches that end in time or whose sources have at most a hundred results together. The connections: C160. (`C185_fails`)
* **C186** A search reaches every node connected by sources. False (negation proved): only six sources are asked, so that in a mesh of eight nodes one is never asked. Proved if no node has more than six sources. How often each node carries it out: C37; time limits: C104. (`C186_fails`)
<!-- end disagreements -->

## Tests of the theorems with wrong programs

`seeded/LOG.jsonl` has one line per edit of a definition, made in a copy outside this directory.

* 668 edits chosen by hand for particular claims. For each the theorems of the manifest that no longer hold up are listed (`failed`). 13 went
  unnoticed by a claim that was expected to notice (`survived_at_first`); `tightened` names the theorems added or changed for that.
* 968 edits (`sweep-…`) made mechanically: a literal, comparison, condition or update in some definition. For these the build was stopped
  at the first theorem that failed, so `failed` names only that one. 875 were noticed. 8 are undecided, because the build ran out of time.
  85 went unnoticed: for 31 theorems were added and the edit, run again, is noticed; for 5 there is a reason why no claim can
  notice (`breaks`); 49 are open: nothing fails, and it is not established that they are harmless. 25 of them
  are in the arithmetic of Annoy's trees and in its file buffer (`Annoy/`).

That a theorem fails means that its proof does, as it stands; in a few cases the statement may still be true of the edited definition.

## Trusted base

* Lean's kernel (4.33.0), and the three axioms of Lean's library, as listed below.  No axioms of our own, no `sorry`, no
  `native_decide`, no `bv_decide`.  `decide +kernel` evaluates in the kernel.  Mathlib's order lemmas and tactics are used in the
  accuracy theorems (C134 on); they add no axioms.
* The reading of the Go source into the model.  Each definition cites the lines it stands for and says where it simplifies.
* What is assumed of code outside the repository.  Where something is assumed it is a hypothesis of the theorems, and an example
  environment meets it (`exEnv_ok`, `DS.toy_ok`):
  * `Env.Ok`: the float comparisons and the conversions are those of the bit patterns (`Bits`); `sort.Slice` returns an ordered
    permutation if the comparison is a strict weak order on the list (`IsSort`).  Nothing is assumed of gjson.
  * `FLaws` (C68, C69 only): `|a-b| = |b-a|`, commutative multiplication and the like.
  * `Ref.Accurate` (C134 on): the error bounds of IEEE-754 operations rounded to nearest (proved of `SoftFloat`, `SF.accurate`).  `Ref.AccurateAcos` (C141): in addition `math.Acos` is right to a
    millionth (`SF.acos_acc`: such functions exist).
  * `XEnv.Ok`: encoding/json gives back a configuration from its line, which has no line feed; an infinite or not-a-number
    utilization is an error; an empty line is not JSON; `IncrementExpiration` of the cache (a fork of go-cache that is not in
    the repository) puts the expiry of a live item between now + d and old + d.
  * `Annoy.Lib.Ok`: a split with an empty side counts as unbalanced, the sort permutes its list and sorts it unless there is a NaN
    (proved of IEEE arithmetic, `Annoy.soft_ok`).
  * The protobuf library reads and writes the wire format of proto3 as `Wire` describes it, fields in the order of their numbers; gRPC
    takes messages of at most 4 MiB (C175-C178).  Elsewhere messages are passed as values, which C175 justifies.
  * goburrow/cache may drop or replace a pool at any time; on a refresh it replaces the value without calling the removal listener
    (`C179_replaced` only).
  * C44: exact arithmetic (an ordered field with a distance) instead of floats; single precision is treated in C131.
  * `sync.Map`, channels, wait groups, locks, go-cache: single operations are atomic; `Range` visits each key at most once, and
    every key that is there throughout; shared fields are read and written at once (except in C118-C120).

### Modelled

`data`: aggregator.go, data.go (except `NewTempData`, logging), dataset.go, datum.go, delete.go, gencoder/gencoder.go, insert.go, newsync.go, search.go, sync.go, util.go (except the unused
`CosineSimilarity64`, `CosineSimilarity32`, `sum`).
`node`: node.go (except the rendering of `Info`), nodeservice.go (handlers, `Listen` as far as
C85 needs it), datasourceclient.go.  `util/connpool.go`.  `util/util.go`.  `server/httpservice.go` (handlers),
`server/veriserviceserver.go` (start, signal, end, as far as addresses, files and signals are concerned).  `cmd/serve.go` (the settings).
`state`.
`annoyindex/annoylib.h`, `kissrandom.h`: `add_item`, `build`, `get_nns_by_vector` for the angular metric (C112-C117; elsewhere the
answers of the index are arguments).  `veriservice/extra.go` (`Clean` has no effect on the fields modelled).

### Not modelled

* The generated gRPC and SWIG code (except where a property names it); of the generated protobuf code the messages and their
  description are modelled (C175-C178), the accessors are not.  Of the Annoy library: `unbuild` and
  the other metrics (its buffer and file: C159; `save` and `load`: C194).
* gRPC transport: a call is answered, fails, or is given up after its time limit; back pressure and HTTP/2 are not modelled.
* `main.go`, logging, the rendering of the report in `Info`.
* Memory exhaustion, goroutine stack limits, the garbage collector (except `sync.Pool` dropping items at any time, and C130).
* Data races: C118 and C119 model the information of a data set word by word, C120 the list of known addresses.  Other shared fields
  are read and written at once.  In C118-C120 every word read was written by some earlier or overlapping write (the Go memory model
  allows no more for words; the order of the writes is arbitrary).

### Axioms each claimed theorem depends on

Output of `#print axioms`, grouped (`tools/mkdesign.py`).

<!-- begin axioms -->
*none* (6 theorems): `C106_at_once`, `C106_fails`, `C128_settings_fails`, `C145_unary_search_exact`, `C50_search_unknown`, `SF.bits`

*propext* (43 theorems): `C06_newDatum_keeps_arguments_fails`, `C06_newDatum_partial`, `C101_example`, `C102_files_fails`, `C105_fails`, `C109_nothing_stored`, `C120_learned_fails`, `C121_every_minute_fails`, `C121_example`, `C127_exact`, `C127_json_fails`, `C128_exact`, `C128_settings_partial`, `C149_example`, `C153_example`, `C153_retention_fails`, `C161_whole_fails`, `C162_close`, `C162_example`, `C162_ready_fails`, `C162_web_ends`, `C195_exact`, `C195_example`, `C195_fails`, `C22_default_config`, `C25_no_index`, `C32_no_context`, `C47_example`, `C47_throttled_fails`, `C48_example`, `C48_first_start`, `C48_one_loop_fails`, `C69_bounded`, `C69_symmetric`, `C69_zero_vector`, `C70_score_function`, `C78_runs`, `C78_version_fails`, `C84_apart`, `C88_young`, `C94_unhealthy`, `C96_every_datum_fails`, `C96_first_partial`

*Quot.sound, propext* (165 theorems): `C04_encode_exact`, `C06_size2_collision`, `C07_score_roundtrip`, `C101_progress`, `C103_build_fails`, `C103_exact`, `C103_example`, `C103_search_fails`, `C105_worst`, `C107_goes_on`, `C107_nan_partial`, `C108_create`, `C108_exact`, `C108_partial`, `C109_partial`, `C10_overflow_corner`, `C117_memory_exact`, `C120_alone_partial`, `C120_in_turn_partial`, `C120_lost`, `C120_sound`, `C121_every_minute_partial`, `C122_example`, `C122_one_round_fails`, `C122_one_round_partial`, `C122_unbounded`, `C125_example`, `C127_right_order_partial`, `C129_example`, `C129_only_close`, `C129_signal_ends_partial`, `C12_scan_exact`, `C12_scan_sees_live_once`, `C130_key_string_fails`, `C130_other_key`, `C133_example`, `C13_insert_survives_partial`, `C13_permanent_keys_survive`, `C149_progress`, `C149_set_up_once`, `C14_huge_ttl_dead_on_arrival`, `C14_life_example`, `C14_longer_ttl_fails`, `C150_early`, `C150_example`, `C150_replaced`, `C150_stopped_fails`, `C150_stopped_partial`, `C152_description_fails`, `C152_example`, `C152_parts_partial`, `C153_use_partial`, `C154_example`, `C158_arrives_example`, `C158_ends`, `C158_last_copy_fails`, `C159_example`, `C159_refusals_fails`, `C159_refused`, `C159_same`, `C160_connections_fails`, `C160_ends`, `C160_example`, `C160_fifteen`, `C161_example`, `C161_prefixes`, `C161_whole_partial`, `C162_exit`, `C162_history`, `C162_no_health`, `C162_ready_exact`, `C162_ready_partial`, `C162_refused`, `C162_synced`, `C162_takes`, `C166_only_named`, `C166_run`, `C167_alone_partial`, `C16_accepted_example`, `C16_concurrent_example`, `C16_target_fails`, `C173_then`, `C174_remembered`, `C179_dropped`, `C179_fails`, `C179_late`, `C179_replaced`, `C183_any_order`, `C183_example`, `C183_repeated`, `C183_repeated_forever`, `C18_failed_insert_invisible_fails`, `C194_empty`, `C195_partial`, `C197_example`, `C199_example`, `C199_fails`, `C199_padded`, `C199_padded_example`, `C20_drain_refuses`, `C20_no_drain_inserts`, `C21_config_unchanged_fails`, `C26_index_live_fails`, `C29_exact_example`, `C30_example`, `C31_grouped_result_bounded`, `C31_result_bounded`, `C32_context_best_partial`, `C32_context_largest`, `C32_merge_rescored`, `C37_unbounded`, `C38_fails`, `C39_accepted_example`, `C40_example`, `C40_low_water_mark_fails`, `C41_example`, `C41_handover_fails`, `C43_example`, `C45_example`, `C45_plan`, `C45_planned_number`, `C46_delay`, `C48_loops_exact`, `C48_loops_example`, `C48_one_loop_partial`, `C48_second_refused_partial`, `C49_create`, `C49_idempotent`, `C49_sequence`, `C50_info_creates`, `C50_search_known`, `C51_restore_finite_partial`, `C51_restore_partial`, `C53_cleanup_partial`, `C53_counted_partial`, `C55_reported_partial`, `C59_expires`, `C60_history`, `C60_learn`, `C64_get`, `C64_interleaved`, `C64_returns`, `C65_fails`, `C66_exact`, `C66_fails`, `C66_partial`, `C69_zero_padding`, `C71_no_insert_crashes_fails`, `C74_exact_example`, `C74_group_score_exact`, `C74_group_score_kept_partial`, `C76_no_update_lost_fails`, `C77_example`, `C78_version_partial`, `C82_fails`, `C83_fails`, `C83_partial`, `C87_exact`, `C87_partial`, `C90_fails`, `C90_partial`, `C90_used_exact`, `C90_used_example`, `Linear.step_conc`, `Store.insertBDMap_eq_thread`

*Classical.choice, Quot.sound, propext* (527 theorems): `C01_datum_key_roundtrip`, `C01_key_roundtrip`, `C02_datum_roundtrip`, `C02_value_roundtrip`, `C03_key_encoding_prefix_free`, `C03_store_key_injective`, `C03_value_encoding_injective`, `C05_truncated_key_rejected`, `C05_truncated_value_leaks_old`, `C05_truncated_value_partial`, `C05_truncated_value_rejected_fails`, `C08_store_refines_reference`, `C08_total`, `C09_ttl_lower`, `C09_ttl_upper`, `C100_every_datum_fails`, `C100_permanent_never_sent`, `C100_sent_partial`, `C101_current_kept`, `C101_never_released`, `C101_released_once`, `C102_files_exact`, `C102_files_partial`, `C103_one_length_partial`, `C104_hops`, `C104_one_datum`, `C104_smaller`, `C105_one_datum`, `C105_partial`, `C106_exact`, `C106_partial`, `C107_close_partial`, `C107_exact`, `C107_fails`, `C107_far_partial`, `C107_larger_peer_goes_on`, `C107_near_partial`, `C107_partial`, `C107_small_goes_on`, `C108_fails`, `C109_fails`, `C10_no_ttl_never_expires`, `C110_always_replaced`, `C110_exact`, `C110_fails`, `C110_partial`, `C111_fails`, `C111_never`, `C111_no_invention`, `C111_one_source_partial`, `C111_one_value_partial`, `C112_answers`, `C113_enough_fails`, `C113_large_partial`, `C113_share_partial`, `C114_complete_partial`, `C114_nearest_fails`, `C115_size`, `C116_index_search_fails`, `C116_index_search_partial`, `C117_memory_fails`, `C117_memory_partial`, `C118_exact`, `C118_one_moment_fails`, `C118_quiet_partial`, `C119_exact`, `C119_first`, `C119_memory_fails`, `C119_uniform_partial`, `C11_delete_exact`, `C123_example`, `C123_one_moment_fails`, `C123_one_moment_partial`, `C124_example`, `C124_stream_during_writes`, `C125_linearizable_fails`, `C125_linearizable_partial`, `C125_permanent_partial`, `C125_values_partial`, `C126_example`, `C126_repeated_query_fails`, `C126_repeated_query_partial`, `C129_never_ends`, `C129_signal_ends_fails`, `C130_copy_right`, `C130_example`, `C130_key_string_partial`, `C131_accuracy_fails`, `C131_accuracy_partial`, `C131_error_bound`, `C131_example`, `C131_saturated`, `C132_example`, `C132_index_covers_exact`, `C132_index_covers_fails`, `C132_index_covers_partial`, `C132_index_misses`, `C132_second_run_partial`, `C133_index_fresh_fails`, `C133_index_fresh_partial`, `C133_index_stale`, `C134_distance_accurate_fails`, `C134_distance_accurate_partial`, `C134_distance_error_partial`, `C134_example`, `C134_infinite`, `C134_vanishes`, `C135_error_example`, `C135_example`, `C135_nearest_error_partial`, `C135_nearest_fails`, `C135_nearest_partial`, `C136_example`, `C136_quick_accurate_fails`, `C136_quick_accurate_partial`, `C137_example`, `C137_product_accurate_fails`, `C137_product_accurate_partial`, `C137_product_error_partial`, `C138_cosine_accurate_fails`, `C138_cosine_accurate_partial`, `C138_cosine_error_partial`, `C138_error_example`, `C138_example`, `C138_long`, `C138_short`, `C139_example`, `C139_most_similar_error_partial`, `C139_most_similar_fails`, `C139_most_similar_partial`, `C13_insert_survives_fails`, `C140_example`, `C140_quick_nearest_fails`, `C140_quick_nearest_partial`, `C141_angular_accurate_fails`, `C141_angular_accurate_partial`, `C141_angular_error_partial`, `C141_example`, `C142_example`, `C142_more_arrivals_partial`, `C142_more_time_fails`, `C142_more_time_partial`, `C143_example`, `C143_finds_itself_fails`, `C143_finds_itself_partial`, `C144_ends_unless_partial`, `C144_example`, `C144_small_partial`, `C145_unary_search_fails`, `C146_cluster_similar_error_partial`, `C146_cluster_similar_fails`, `C146_cluster_similar_partial`, `C146_example`, `C147_example`, `C147_inserted_found_fails`, `C147_inserted_found_partial`, `C148_example`, `C148_index_finds_itself_fails`, `C148_index_finds_itself_partial`, `C14_life_exact`, `C14_longer_ttl_exact`, `C14_longer_ttl_partial`, `C151_example`, `C151_forgotten_fails`, `C151_forgotten_partial`, `C151_kept`, `C151_reminded`, `C152_description_exact`, `C153_longer_partial`, `C153_retention_exact`, `C154_more`, `C154_search`, `C155_everyone`, `C155_example`, `C156_example`, `C156_spreads`, `C156_unremoved`, `C156_unremoved_example`, `C157_example`, `C157_ready`, `C158_arrives`, `C158_atomic`, `C158_example`, `C158_last_copy_partial`, `C158_one_partial`, `C158_turn_example`, `C159_granted_partial`, `C15_over_target_refused`, `C160_connections_partial`, `C160_fourteen_partial`, `C160_held`, `C163_example`, `C163_no_worse`, `C163_prefix`, `C163_same`, `C163_unreturned`, `C164_example`, `C164_others`, `C165_exactly_one_example`, `C165_exactly_one_partial`, `C165_example`, `C165_once_fails`, `C165_once_partial`, `C166_example`, `C167_alone_fails`, `C167_example`, `C168_all_returned`, `C168_example`, `C169_example`, `C169_inserted_returned`, `C16_concurrent_partial`, `C16_only_inserts_grow`, `C16_target_partial`, `C170_at_once_partial`, `C170_bounded_partial`, `C170_end_partial`, `C170_example`, `C170_forever`, `C170_gone_fails`, `C171_cluster_example`, `C171_cluster_partial`, `C171_example`, `C171_largest_fails`, `C171_largest_partial`, `C172_cluster_example`, `C172_cluster_partial`, `C172_direction_error_partial`, `C172_direction_fails`, `C172_direction_partial`, `C172_error_example`, `C172_example`, `C173_contents`, `C173_example`, `C173_found`, `C173_found_example`, `C173_nothing_new`, `C173_search_scans`, `C173_seen`, `C173_stays`, `C173_stream_scans`, `C174_bounded`, `C174_example`, `C175_arrives`, `C175_distinct`, `C175_example`, `C175_types_example`, `C176_example`, `C176_newer`, `C176_search`, `C177_compiled`, `C178_answer_fails`, `C178_example`, `C178_forwarded`, `C178_handed_on_fails`, `C178_handed_on_partial`, `C178_streamed`, `C178_unary`, `C179_example`, `C179_partial`, `C179_thousand`, `C17_success_means_replicas`, `C180_fails`, `C180_grows`, `C180_partial`, `C181_example`, `C181_fails`, `C181_key_partial`, `C181_partial`, `C182_answered`, `C182_example`, `C182_goes_on`, `C182_steps`, `C184_example`, `C184_fails`, `C184_more_partial`, `C184_partial`, `C185_exact`, `C185_example`, `C185_fails`, `C185_partial`, `C185_two`, `C185_unbounded`, `C186_example`, `C186_fails`, `C186_partial`, `C187_best`, `C187_example`, `C187_inserted`, `C187_whole_cluster`, `C188_answer`, `C188_cluster_search_ends`, `C188_limited`, `C189_example`, `C189_genuine`, `C18_failed_example`, `C18_failed_insert_exact`, `C18_failed_insert_partial`, `C190_example`, `C190_joined`, `C191_example`, `C191_found`, `C192_alone`, `C192_each`, `C192_example`, `C192_goes_on`, `C193_exact`, `C193_example`, `C193_fails`, `C193_partial`, `C194_example`, `C194_loaded`, `C196_example`, `C196_fails`, `C196_partial`, `C197_fails`, `C197_partial`, `C198_alone`, `C198_ends`, `C198_example`, `C198_genuine`, `C198_goes_on`, `C199_exact`, `C199_partial`, `C199_parts`, `C199_value_exact`, `C19_cluster`, `C19_fanout_bounded`, `C19_replica_not_forwarded`, `C200_exact`, `C200_example`, `C200_fails`, `C200_partial`, `C201_example`, `C201_genuine`, `C201_off`, `C202_data`, `C202_example`, `C202_scores`, `C203_example`, `C203_own`, `C21_config_partial`, `C22_search_top_k`, `C22_streamed_top_k`, `C23_results_pass_filters`, `C24_search_never_panics_fails`, `C24_search_panics_iff`, `C24_search_returns_partial`, `C25_index_search`, `C25_index_search_bounded`, `C25_streamed_index`, `C26_index_live_partial`, `C26_index_quiet_partial`, `C27_best_score_counts`, `C27_example`, `C27_merge_higher_top_k`, `C27_merge_order_independent`, `C28_exact`, `C28_exact_example`, `C28_merge_lower_partial`, `C28_merge_lower_top_k_fails`, `C28_wrong`, `C28_wrong_example`, `C29_no_duplicates_exact`, `C29_no_duplicates_fails`, `C29_no_duplicates_partial`, `C30_grouped_result`, `C30_representative_best`, `C31_ranked`, `C32_context_best_fails`, `C33_completes`, `C33_example`, `C33_no_deadlock`, `C33_nothing_lost`, `C33_search_result`, `C34_sources_finish_fails`, `C34_sources_finish_partial`, `C34_timeout_partial`, `C35_key_injective`, `C35_same_question_fails`, `C35_same_question_partial`, `C36_bounded_age_fails`, `C36_bounded_age_partial`, `C36_kept_exact`, `C36_kept_example`, `C36_unbounded_age`, `C37_fanout`, `C37_once`, `C38_ends`, `C38_partial`, `C38_quiet_partial`, `C39_accepted_by_source`, `C39_no_datum_lost`, `C39_removed_only_if_accepted`, `C40_low_water_mark_partial`, `C40_only_above_mark_partial`, `C41_handover_partial`, `C42_close_never_returns`, `C42_close_terminates_fails`, `C42_close_terminates_partial`, `C43_concurrent`, `C43_reported_size`, `C43_reported_size_exact`, `C43_reporting_between`, `C44_average`, `C44_example`, `C44_statistics_fails`, `C44_statistics_partial`, `C45_budget`, `C46_expiry_preserved`, `C46_not_forwarded`, `C47_count_restarts`, `C47_insert_makes_due`, `C47_inserts_counted`, `C47_throttled_partial`, `C50_defaults`, `C50_insert_creates`, `C51_restore_fails`, `C52_crash_fails`, `C52_crash_partial`, `C53_cleanup_fails`, `C54_deleted_fails`, `C54_deleted_partial`, `C55_expires_fails`, `C55_expires_partial`, `C55_reported_example`, `C55_visited_stays_partial`, `C56_comma_needed`, `C56_identity`, `C56_stable`, `C57_monotone`, `C57_newest`, `C57_order`, `C57_step`, `C58_ignored`, `C58_join`, `C58_sync`, `C59_blocked`, `C59_fails`, `C59_partial`, `C60_addresses`, `C61_peer`, `C61_sent`, `C62_drain`, `C62_exact`, `C62_fails`, `C62_partial`, `C63_advertised`, `C63_every`, `C65_first_partial`, `C65_partial`, `C65_reached`, `C67_counter`, `C67_quiet`, `C68_common_prefix`, `C68_self_zero`, `C68_symmetric`, `C70_annoy_prefix_fails`, `C70_annoy_prefix_partial`, `C71_insert_panics_iff`, `C71_wellformed_insert_partial`, `C72_nan_does_not_hide_fails`, `C72_nan_partial`, `C73_merge_never_panics_fails`, `C73_merge_panics_iff`, `C73_merge_returns_partial`, `C74_group_score_kept_fails`, `C75_complete_answers_fails`, `C75_complete_answers_partial`, `C76_no_update_lost_partial`, `C77_run_bounded_partial`, `C77_run_completes_fails`, `C77_run_not_stuck_partial`, `C78_exact_example`, `C78_version_exact`, `C79_index_complete_fails`, `C79_index_complete_partial`, `C80_load_fails`, `C80_no_save_partial`, `C80_small_index_partial`, `C81_fails`, `C81_partial`, `C81_step_partial`, `C82_partial`, `C84_dots`, `C84_fails`, `C84_partial`, `C84_shutdown_partial`, `C84_traversal`, `C85_fails`, `C85_listen`, `C85_partial`, `C86_exact`, `C86_fails`, `C86_partial`, `C87_fails`, `C88_exact`, `C88_fails`, `C88_partial`, `C89_complete`, `C89_keeps`, `C91_exact`, `C91_fails`, `C92_exact`, `C92_fails`, `C92_partial`, `C93_learned`, `C93_none`, `C93_reply`, `C94_endpoints`, `C95_alone_example`, `C95_alone_partial`, `C95_cluster_search_fails`, `C95_cluster_search_partial`, `C95_example`, `C95_six_example`, `C96_only_one`, `C97_cluster_groups_fails`, `C97_cluster_groups_partial`, `C98_needed`, `C98_search_request_fails`, `C98_search_request_partial`, `C99_cluster_example`, `C99_cluster_partial`, `C99_replicas_fails`, `C99_replicas_partial`, `C99_requests_stored`, `C99_sources_partial`
<!-- end axioms -->
