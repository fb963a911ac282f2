{"id": "C01", "title": "Key encoding round-trips", "statement": "Decoding the bytes produced by encoding a datum key gives back exactly that key (feature bit patterns, group label, size1, size2, dim1, dim2), reports exactly the number of bytes consumed, and ignores whatever follows the encoding.", "quantifier": "every datum key of every feature length and label length, and every trailing byte string", "why_tests_cant": "the length prefix is a variable-length integer whose branches depend on unbounded lengths; a test samples a handful of lengths", "anchors": ["data/gencoder/gencoder.go:MarshalKey", "data/gencoder/gencoder.go:UnmarshalKey", "data/datum.go:GetKeyAsBytes", "data/datum.go:ToDatumKey"]}
{"id": "C02", "title": "Value encoding round-trips", "statement": "Decoding the bytes produced by encoding a datum value gives back exactly that value (version and label) and the number of bytes consumed, whatever the destination struct held before.", "quantifier": "every datum value, every label length, every previous content of the destination", "why_tests_cant": "same unbounded length prefix, plus re-use of a destination with arbitrary old capacity and content", "anchors": ["data/gencoder/gencoder.go:MarshalValue", "data/gencoder/gencoder.go:UnmarshalValue", "data/datum.go:ToDatumValue"]}
{"id": "C03", "title": "Different keys never collide in the store", "statement": "Two datum keys have the same encoded form only if they are the same key, and no key's encoding is a proper prefix of another key's encoding; so no insert, delete or cache lookup for one key can hit another key.", "quantifier": "every pair of datum keys", "why_tests_cant": "injectivity over all pairs cannot be sampled; the repo's own collision test draws random bytes", "anchors": ["data/gencoder/gencoder.go:MarshalKey", "util/util.go:EncodeToString", "data/newsync.go:InsertBDMap"]}
{"id": "C04", "title": "Encoding fills its buffer exactly", "statement": "Encoding a key, a value or a score never writes outside the buffer sized for it, never panics, and returns a byte string whose length is exactly the computed size.", "quantifier": "every datum key, datum value and score", "why_tests_cant": "an off-by-one between the size pass and the write pass shows only at particular lengths (127/128, 16383/16384, ...)", "anchors": ["data/gencoder/gencoder.go:SizeKey", "data/gencoder/gencoder.go:SizeValue", "data/gencoder/gencoder.go:DatumScore"]}
{"id": "C05", "title": "Truncated encodings are not accepted as data", "statement": "Decoding any proper prefix of an encoded key or value fails instead of returning a datum that was never encoded.", "quantifier": "every key or value and every truncation point", "why_tests_cant": "the truncation points of all encodings are unbounded; whether an access is out of range depends on each of them", "anchors": ["data/gencoder/gencoder.go:UnmarshalKey", "data/gencoder/gencoder.go:UnmarshalValue"]}
{"id": "C06", "title": "Datum constructor keeps every argument", "statement": "The datum built from feature, dim1, dim2, size1, size2, group label, label and version carries each of those arguments in the field of the same name.", "quantifier": "all argument tuples", "why_tests_cant": "the repo's tests only pass size2 = 0 and never read it back; the claim is for all arguments", "anchors": ["data/datum.go:NewDatum"]}
{"id": "C07", "title": "Score encoding round-trips", "statement": "Encoding and decoding a score preserves all 64 bits of the float, including NaN payloads, infinities and negative zero.", "quantifier": "all 2^64 bit patterns", "why_tests_cant": "2^64 inputs", "anchors": ["data/gencoder/gencoder.go:DatumScore"]}
{"id": "C08", "title": "A data set behaves as a map with expiry", "statement": "After any sequence of inserts, deletes and scans at any clock values, what a scan returns is what a simple reference map says: for each key the value of the latest accepted insert that was not followed by a delete of that key and has not expired, where repeating an insert with an identical value and an expiry within 10 seconds of the stored one leaves the stored expiry unchanged.", "quantifier": "every finite history of insert, delete and scan operations with arbitrary clock values, keys, values and TTLs", "why_tests_cant": "histories are unbounded; unit tests run one short fixed history", "anchors": ["data/newsync.go:InsertBDMap", "data/newsync.go:DeleteBDMap", "data/newsync.go:LoopDBMap"]}
{"id": "C09", "title": "An insert with a TTL lives about that long", "statement": "A datum accepted with a TTL of t seconds is never returned by a scan that starts at or after insert time + t + 9 seconds without being inserted again, and, if it is not deleted or overwritten, is returned by every scan before insert time + t - 9 seconds.", "quantifier": "every datum, every TTL that does not overflow the clock, every history of other operations", "why_tests_cant": "depends on every combination of re-insert times and clock values", "anchors": ["data/newsync.go:InsertBDMap", "data/newsync.go:CloseEnough", "data/newsync.go:LoopDBMap"]}
{"id": "C10", "title": "Data without a TTL never expires", "statement": "A datum accepted without a TTL is returned by every later local scan, whatever the clock reads, until that key is deleted or overwritten.", "quantifier": "every history whose TTLs do not overflow the 64-bit clock, and every clock value", "why_tests_cant": "'never' over unbounded time", "anchors": ["data/newsync.go:InsertBDMap", "data/newsync.go:LoopDBMap"]}
{"id": "C11", "title": "Delete removes exactly its key", "statement": "After a delete of a datum no scan returns its key until it is inserted again, and every other key is untouched.", "quantifier": "every store content and every datum", "why_tests_cant": "the frame condition ranges over all other keys", "anchors": ["data/newsync.go:DeleteBDMap", "data/delete.go:Delete"]}
{"id": "C12", "title": "A scan yields each live datum once and drops only expired ones", "statement": "A scan calls its callback exactly once for each live entry, in some order, never for an expired one, removes from the store exactly the expired entries it met, and stops at the first callback error, returning that error.", "quantifier": "every store content, iteration order, clock reading per entry and callback", "why_tests_cant": "iteration order of a concurrent map is unspecified, clock readings vary per entry", "anchors": ["data/newsync.go:LoopDBMap", "data/newsync.go:StreamAll"]}
{"id": "C13", "title": "An acknowledged insert survives concurrent scans", "statement": "An acknowledged insert is not lost because a scan was running at the same time: only a delete of that key, an overwrite or its own expiry makes it disappear.", "quantifier": "every interleaving of the individual map accesses of inserts, deletes and scans", "why_tests_cant": "needs one specific interleaving between a scan's expiry check and its removal", "anchors": ["data/newsync.go:LoopDBMap", "data/newsync.go:InsertBDMap"]}
{"id": "C14", "title": "A longer TTL never means a shorter life", "statement": "If the same datum is inserted with a larger nonzero TTL, it expires no earlier.", "quantifier": "every pair of 64-bit TTL values and every clock", "why_tests_cant": "the failure needs TTLs near 2^63", "anchors": ["data/newsync.go:InsertBDMap"]}
{"id": "C15", "title": "Over-target inserts are refused without effect", "statement": "An insert is refused with the over-target error exactly when the data set has a target and its last computed size is at least the target; a refused insert changes nothing and contacts no peer.", "quantifier": "every data set state, configuration and request", "why_tests_cant": "a full-state frame condition over all configurations", "anchors": ["data/insert.go:Insert"]}
{"id": "C16", "title": "A data set never holds more than its target", "statement": "With a target configured, the number of stored data never exceeds the target.", "quantifier": "every sequence of inserts and maintenance runs", "why_tests_cant": "needs a history between two maintenance runs, of unbounded length", "anchors": ["data/insert.go:Insert", "data/newsync.go:Process"]}
{"id": "C17", "title": "Success means enough replicas", "statement": "When replication is enforced and a client insert returns success, the number of nodes that accepted the datum, counting this one, is at least the configured replication number.", "quantifier": "every number of peers, iteration order and pattern of peer failures", "why_tests_cant": "all failure patterns over all peer orders", "anchors": ["data/insert.go:Insert", "data/data.go:RunOnRandomSources"]}
{"id": "C18", "title": "A failed insert leaves nothing behind", "statement": "When an insert returns an error, the datum is not visible to later searches on this node (unless it was already there).", "quantifier": "every state and failure pattern", "why_tests_cant": "needs peer failures at the right moment", "anchors": ["data/insert.go:Insert"]}
{"id": "C19", "title": "Insert fan-out is bounded and never loops", "statement": "One client insert contacts at most six peers, stops after the first contacted peer that brings the number of copies to the replication number, and the copies it sends are marked so that receiving nodes never forward them; so in a cluster of any size and topology, cyclic ones included, one client insert causes at most six remote inserts.", "quantifier": "every cluster size, topology (including cycles) and reply pattern", "why_tests_cant": "topologies and schedules are unbounded", "anchors": ["data/insert.go:Insert", "data/data.go:RunOnRandomSources", "node/nodeservice.go:Insert"]}
{"id": "C20", "title": "A draining node accepts no data", "statement": "Once a node is shutting down, every insert request is refused with the drain error and changes nothing.", "quantifier": "every request and node state", "why_tests_cant": "frame condition over the complete state", "anchors": ["node/nodeservice.go:Insert", "node/node.go:Close"]}
{"id": "C21", "title": "Insert does not modify the caller's request", "statement": "The insert configuration passed by the caller is unchanged after the call, so it can be used again with the same meaning.", "quantifier": "every configuration", "why_tests_cant": "a test must look at a parameter nobody re-reads", "anchors": ["data/insert.go:Insert"]}
{"id": "C22", "title": "Exact search returns the true best results", "statement": "For a positive limit k, an exact local search returns min(k, number of matching live data) results, sorted best first according to the score direction, every result is a live datum that passes the filters with its own score, and no matching live datum left out scores strictly better than one returned.", "quantifier": "every store content, iteration order, query, limit k >= 1, direction and score function without NaN scores; every outcome of the unstable sort on ties", "why_tests_cant": "all data sets, orders and tie-breaks", "anchors": ["data/search.go:Search", "data/search.go:Collector.Insert"]}
{"id": "C23", "title": "Every search result passes all filters", "statement": "No exact or index search returns a datum whose label misses a requested filter path or whose group label misses a requested group filter path; with no filters nothing is excluded.", "quantifier": "every datum, filter list and group filter list", "why_tests_cant": "all filter lists", "anchors": ["data/search.go:PassesFilters", "data/search.go:Search", "data/search.go:SearchAnnoy"]}
{"id": "C24", "title": "A search never crashes the node", "statement": "A local search returns normally for every configuration, in particular for a limit of zero.", "quantifier": "every configuration and store content", "why_tests_cant": "a crash needs a particular configuration and non-empty matching data", "anchors": ["data/search.go:Collector.Insert", "data/aggregator.go:InsertToList"]}
{"id": "C25", "title": "Index search returns indexed data only, within the limit", "statement": "An index search returns data of the current index snapshot only, in the order the index ranked them, each scored by the requested function and passing the filters, at most limit of them; with no index it returns exactly what exact search returns.", "quantifier": "every snapshot, every answer of the external index, every configuration", "why_tests_cant": "the external index answer is arbitrary", "anchors": ["data/search.go:SearchAnnoy"]}
{"id": "C26", "title": "Index search returns live data", "statement": "A datum that was deleted or has expired is not returned by an index search.", "quantifier": "every history of inserts, deletes, expiry and maintenance runs", "why_tests_cant": "needs histories around maintenance runs", "anchors": ["data/search.go:SearchAnnoy", "data/newsync.go:Process"]}
{"id": "C27", "title": "Merging results, higher is better", "statement": "Merging scored results from any number of sources for a higher-is-better query yields the limit best distinct results, sorted best first, and the scores of the merged list do not depend on the order of arrival.", "quantifier": "every multiset of incoming results with consistent scores per key, every arrival order, every limit >= 1", "why_tests_cant": "arrival order is scheduler-dependent and unbounded", "anchors": ["data/aggregator.go:Insert", "data/aggregator.go:InsertToList", "data/aggregator.go:IsNewScoredBetter"]}
{"id": "C28", "title": "Merging results, lower is better", "statement": "Merging scored results from any number of sources for a lower-is-better query (the default, distance) yields the limit smallest-score distinct results.", "quantifier": "every multiset of incoming results with consistent scores per key, every arrival order, every limit >= 1", "why_tests_cant": "shows only when more than limit results arrive in some order", "anchors": ["data/aggregator.go:IsNewScoredBetter", "data/aggregator.go:InsertToList"]}
{"id": "C29", "title": "Merged results contain no datum twice", "statement": "A merged result list never contains two entries with the same datum key.", "quantifier": "every stream of incoming results", "why_tests_cant": "needs the same key with different scores in one particular order", "anchors": ["data/aggregator.go:Insert"]}
{"id": "C30", "title": "Grouped results: one per group, with the documented group score", "statement": "A grouped search returns at most one datum per group label; for a group that collected scores s1..sn the group's score is their sum when higher is better and their sum divided by n squared otherwise, and its representative is the best ranked member collected.", "quantifier": "every stream of incoming results, every group limit >= 1, no search context", "why_tests_cant": "group contents are unbounded and map iteration order is random", "anchors": ["data/aggregator.go:Result", "data/aggregator.go:One"]}
{"id": "C31", "title": "Result sizes are bounded by the request", "statement": "A merged result never has more than limit entries, nor more than the result limit when one is given, and truncation keeps the best ones (a prefix of the ranked list).", "quantifier": "every configuration and input stream", "why_tests_cant": "all configurations, including 64-bit result limits", "anchors": ["data/aggregator.go:Result", "data/aggregator.go:InsertToList"]}
{"id": "C32", "title": "Context scoring", "statement": "With a non-empty search context each merged result is rescored to the best of its search score and its scores against the context data; if the context is prioritised the search score is ignored; with no context data the score is unchanged.", "quantifier": "every context, score function and direction", "why_tests_cant": "all contexts and directions", "anchors": ["data/aggregator.go:BestScore"]}
{"id": "C33", "title": "Collecting results from sources loses nothing", "statement": "As long as the timeout does not fire, a search over any number of concurrent sources hands every result sent by every source to the merger exactly once, in every interleaving; it never sends on or closes a closed channel and never deadlocks.", "quantifier": "every number of sources, every result count per source, every interleaving", "why_tests_cant": "goroutine interleavings", "anchors": ["data/search.go:AggregatedSearch", "data/search.go:MultiAggregatedSearch", "data/search.go:StreamSearch"]}
{"id": "C34", "title": "A timeout returns promptly with partial results", "statement": "From every state of a running search the timeout can end it, and the merged result is then built from results actually sent by the sources, none twice; every source that was asked can still finish.", "quantifier": "every interleaving and timeout point", "why_tests_cant": "goroutine interleavings", "anchors": ["data/search.go:AggregatedSearch"]}
{"id": "C35", "title": "Cached answers answer the same question", "statement": "A cached answer is only returned for a query with the same datum key and the same search configuration up to the request id.", "quantifier": "every pair of queries", "why_tests_cant": "collisions over all pairs of encoded keys", "anchors": ["data/search.go:GetSearchKey", "data/search.go:EncodeSearchConfig", "data/search.go:AggregatedSearch"]}
{"id": "C36", "title": "Cached answers have bounded age", "statement": "An answer served from the cache is at most the requested cache duration old.", "quantifier": "every history of queries", "why_tests_cant": "needs a long history of hits", "anchors": ["data/search.go:AggregatedSearch"]}
{"id": "C37", "title": "Queries do not circulate", "statement": "In a cluster of any topology, one query is executed at most once per node plus once at the node where it entered, so the fan-out always terminates.", "quantifier": "every topology, number of nodes, message order and delay within the lifetime of the request-id cache", "why_tests_cant": "distributed schedules", "anchors": ["node/nodeservice.go:SearchStream", "node/datasourceclient.go:StreamSearch"]}
{"id": "C38", "title": "Data stream delivers every datum once", "statement": "A data-stream request delivers every live datum of the data set to the client exactly once before it returns.", "quantifier": "every store content and every interleaving of its two senders", "why_tests_cant": "goroutine interleavings at the end of the stream", "anchors": ["node/nodeservice.go:DataStream", "data/newsync.go:StreamAll"]}
{"id": "C39", "title": "Maintenance deletes only what a peer accepted", "statement": "A maintenance run removes a datum from the node only if it expired or at least one peer acknowledged a copy of it in that run.", "quantifier": "every store, peer set, reply pattern, random choice", "why_tests_cant": "random choices, peer replies and map orders", "anchors": ["data/newsync.go:Process"]}
{"id": "C40", "title": "Eviction respects the low-water mark", "statement": "While a data set is open, a maintenance run moves data away only while the size computed before the run minus the number moved is at or above target times utilization; in particular with no target nothing is removed, and at most (size - mark + 1) data are removed.", "quantifier": "every size, target, utilization, reply pattern", "why_tests_cant": "64-bit wrap-around and all reply patterns", "anchors": ["data/sync.go:isEvictionOn", "data/newsync.go:Process"]}
{"id": "C41", "title": "Shutdown hands over all data", "statement": "When a node closes a data set that has reachable peers accepting data, every live datum is accepted by a peer before the data set is dropped.", "quantifier": "every store content", "why_tests_cant": "needs all kinds of entries, in particular those without TTL", "anchors": ["data/data.go:Close", "data/newsync.go:Process"]}
{"id": "C42", "title": "Shutdown terminates", "statement": "Closing a data set terminates.", "quantifier": "every store content and peer set", "why_tests_cant": "non-termination cannot be observed by a test that ends", "anchors": ["data/data.go:Close"]}
{"id": "C43", "title": "Reported size is the number of live data", "statement": "After a maintenance run the reported size N equals the number of live data it met, and reporting in between returns the value of the last run.", "quantifier": "every store content and clock", "why_tests_cant": "all contents", "anchors": ["data/newsync.go:Process", "data/data.go:GetDataInfo"]}
{"id": "C44", "title": "Statistics converge to the true mean and distribution", "statement": "On an unchanged data set of vectors of one dimension, after two maintenance runs the reported average is the mean of the features and, after three, the histogram sums to one with every datum counted in a bucket 0..63.", "quantifier": "every non-empty set of vectors of equal dimension (exact arithmetic)", "why_tests_cant": "all data sets", "anchors": ["data/newsync.go:Process", "data/util.go:CalculateAverage"]}
{"id": "C45", "title": "Transfer budget is bounded", "statement": "A maintenance run considers at most six peers, plans at most 1000 transfers per peer, at least one for a peer whose statistics differ, and while the data set is open queues at most the planned total.", "quantifier": "all 64-bit sizes on both sides, including the peer being larger", "why_tests_cant": "64-bit wrap-around on subtraction", "anchors": ["data/data.go:DataSourceDiffMap", "data/newsync.go:Process"]}
{"id": "C46", "title": "A transferred copy keeps its expiry", "statement": "A datum handed to a peer expires there at the same wall-clock second as at the sender, up to the transfer delay, and is marked as a replica so it is not forwarded.", "quantifier": "every expiry and clock value, including clocks that pass the expiry during the run", "why_tests_cant": "wrap-around of the remaining time", "anchors": ["data/sync.go:InsertConfigFromExpireAt", "data/newsync.go:InsertBDMap"]}
{"id": "C47", "title": "Maintenance is throttled", "statement": "A non-forced maintenance run does work only if at least 60 seconds passed since the last one and either there were inserts, or the planned transfers exceed a tenth of the size, or 600 seconds passed; otherwise data, statistics and index are untouched.", "quantifier": "every clock, counter and state", "why_tests_cant": "full frame condition", "anchors": ["data/newsync.go:Process"]}
{"id": "C48", "title": "Only one maintenance loop runs per data set", "statement": "At any time at most one maintenance loop is running for a data set.", "quantifier": "every interleaving of starts", "why_tests_cant": "check-then-act interleaving", "anchors": ["data/data.go:Run", "data/dataset.go:ReloadRuns"]}
{"id": "C49", "title": "Creating an existing data set keeps its data and only upgrades its configuration", "statement": "Creating a data set that exists never discards its data, replaces the configuration only when the new version is strictly higher, and so the version of a data set never decreases over any sequence of create calls; creating twice is the same as creating once.", "quantifier": "every sequence of create requests", "why_tests_cant": "all sequences", "anchors": ["data/dataset.go:CreateIfNotExists", "data/dataset.go:GetOrCreateIfNotExists"]}
{"id": "C50", "title": "Searching never creates a data set, inserting does", "statement": "A search on an unknown data set is refused and leaves the list of data sets unchanged; an insert or info request on an unknown name creates it with the default configuration.", "quantifier": "every data-set list and name", "why_tests_cant": "frame condition", "anchors": ["data/dataset.go:Get", "data/dataset.go:GetNoCreate", "node/nodeservice.go:SearchStream"]}
{"id": "C51", "title": "Saved index restores the same data sets", "statement": "Saving the index and loading it in a fresh process restores exactly the data-set configurations that were live, each once.", "quantifier": "every set of configurations", "why_tests_cant": "all sets of configurations", "anchors": ["data/dataset.go:SaveIndex", "data/dataset.go:LoadIndex"]}
{"id": "C52", "title": "A crash while saving never corrupts the index", "statement": "If the process dies at any point of an index save, loading what is on disk restores only configurations that were really there, and restores at least those of the previous save.", "quantifier": "every crash point (every prefix of the writes)", "why_tests_cant": "crash points are unbounded", "anchors": ["data/dataset.go:SaveIndex", "data/dataset.go:LoadIndex"]}
{"id": "C53", "title": "Periodic clean-up never drops acknowledged data", "statement": "A data set that holds acknowledged live data is not removed by the periodic clean-up.", "quantifier": "every history of inserts, maintenance runs and clean-ups", "why_tests_cant": "needs a clean-up between an insert and the next maintenance run", "anchors": ["data/dataset.go:ReloadRuns", "data/data.go:CheckIfActive"]}
{"id": "C54", "title": "A deleted data set stays deleted", "statement": "After a data set is deleted it is not listed again until somebody creates, inserts into or asks for it.", "quantifier": "every interleaving with background index saves", "why_tests_cant": "needs an interleaving with the background save", "anchors": ["data/dataset.go:Delete", "data/dataset.go:SaveIndex"]}
{"id": "C55", "title": "Unused data sets expire after their retention", "statement": "A data set that is not used for its retention time is removed.", "quantifier": "every retention and every schedule of background activity", "why_tests_cant": "long time spans", "anchors": ["data/dataset.go:GetRetention", "data/dataset.go:SaveIndex"]}
{"id": "C56", "title": "Peer identity ignores address order", "statement": "Two peer records identify the same peer exactly when they list the same addresses with the same multiplicities, in any order (addresses non-empty and without commas).", "quantifier": "all address lists", "why_tests_cant": "all pairs of lists", "anchors": ["node/node.go:GetIdOfPeer", "node/node.go:SerializeStringArray"]}
{"id": "C57", "title": "Peer records only move forward", "statement": "The stored timestamp for a peer id never decreases while the record is held, and after any set of peer announcements the table holds for each id the newest recent announcement, whatever their order.", "quantifier": "every sequence and permutation of announcements", "why_tests_cant": "gossip orders", "anchors": ["node/node.go:AddPeerElement"]}
{"id": "C58", "title": "A node never lists itself or a stale peer", "statement": "No announcement whose address list equals the node's own, or whose timestamp is 300 seconds old or more, ever changes the peer table.", "quantifier": "every announcement and table", "why_tests_cant": "64-bit timestamps", "anchors": ["node/node.go:AddPeerElement", "node/node.go:IsRecent", "node/node.go:CheckPeer"]}
{"id": "C59", "title": "A wrong clock cannot block a peer's updates", "statement": "A peer that once announced a timestamp far in the future can still update its record later.", "quantifier": "every timestamp", "why_tests_cant": "needs extreme timestamps", "anchors": ["node/node.go:AddPeerElement", "node/node.go:IsRecent"]}
{"id": "C60", "title": "Announced addresses are complete and distinct", "statement": "The address list a node announces contains every known and advertised address exactly once, and learning an address from a join twice adds it once.", "quantifier": "every known/advertised list and join history", "why_tests_cant": "all histories", "anchors": ["node/node.go:unique", "node/node.go:GetNodeInfo", "node/nodeservice.go:SendJoinRequest"]}
{"id": "C61", "title": "A peer is never told about itself, nor contacted at our own address", "statement": "Synchronisation picks for each peer the first of its addresses that is not ours and never sends a peer record to an address listed in that record.", "quantifier": "all address lists", "why_tests_cant": "all lists", "anchors": ["node/node.go:FirstDifferent", "node/node.go:GetDifferentAddressOf", "node/nodeservice.go:SendAddPeerRequest"]}
{"id": "C62", "title": "A draining node stays not ready", "statement": "Once shutdown has begun the readiness endpoint never again answers ready.", "quantifier": "every interleaving with the periodic peer sync", "why_tests_cant": "needs the sync to run during shutdown", "anchors": ["node/node.go:Close", "node/node.go:SyncWithPeers", "server/httpservice.go:GetReady"]}
{"id": "C63", "title": "Advertised addresses always carry a port", "statement": "Every advertised address given on the command line ends up with a port: those without a colon get the listen port, the others are unchanged, in order.", "quantifier": "every broadcast string and port", "why_tests_cant": "all strings", "anchors": ["server/veriserviceserver.go:RunServer"]}
{"id": "C64", "title": "The pool never hands out a dead connection", "statement": "Asking the pool for a connection never returns one that is shut down, makes at most four attempts, and after the pool is closed creates no connection.", "quantifier": "every pool content and dial outcome", "why_tests_cant": "all pool contents", "anchors": ["util/connpool.go:GetWithRetry", "util/connpool.go:NewConnection", "util/connpool.go:CloseAll"]}
{"id": "C65", "title": "At most twenty users share a connection", "statement": "A pooled connection is never used by more than 21 requests at the same time.", "quantifier": "every interleaving of get and put", "why_tests_cant": "needs particular get/put histories", "anchors": ["util/connpool.go:Get", "util/connpool.go:PutIfHealthy"]}
{"id": "C66", "title": "A connection in use is not closed by another user", "statement": "Returning a connection never closes it while another request is still using it.", "quantifier": "every interleaving and connection state", "why_tests_cant": "needs shared connections and a state change", "anchors": ["util/connpool.go:PutIfHealthy", "util/connpool.go:Put"]}
{"id": "C67", "title": "The use counter balances", "statement": "A connection's counter always equals the number of requests currently holding it.", "quantifier": "every interleaving of get and put through the cache", "why_tests_cant": "all histories", "anchors": ["util/connpool.go:Get", "util/connpool.go:ConnectionCache.Put"]}
{"id": "C68", "title": "Distances are symmetric and depend only on the common prefix", "statement": "Euclidean, absolute and dot-product comparisons give the same value when their arguments are swapped and look only at the first min(len a, len b) components; euclidean and absolute distance of a vector to itself is zero.", "quantifier": "all pairs of float32 vectors (for any arithmetic with commutative multiplication and sign-symmetric subtraction, as IEEE 754 has)", "why_tests_cant": "all pairs of vectors and lengths", "anchors": ["data/util.go:VectorDistance", "data/util.go:QuickVectorDistance", "data/util.go:VectorMultiplication"]}
{"id": "C69", "title": "Cosine similarity is bounded and symmetric", "statement": "Cosine similarity is symmetric, treats the shorter vector as padded with zeros, is 0 if either vector is zero, and is never above 1 nor below -1.", "quantifier": "all pairs of float32 vectors", "why_tests_cant": "rounding makes the unclamped quotient exceed 1 for some inputs", "anchors": ["data/util.go:CosineSimilarity"]}
{"id": "C70", "title": "Score function selection", "statement": "The requested score function name selects the documented function; an Annoy-prefixed name selects index search with the same scoring as the plain name; an unknown name means euclidean distance.", "quantifier": "all names", "why_tests_cant": "all strings", "anchors": ["data/search.go:GetVectorComparisonFunction", "data/search.go:StreamSearch"]}
{"id": "C71", "title": "No insert request crashes the node", "statement": "An insert request, well formed or not, never makes the node panic: a request without datum, key or value is refused or stored.", "quantifier": "every request a client can encode, on every reachable store", "why_tests_cant": "whether a missing field panics depends on what the store already holds for that key", "anchors": ["data/newsync.go:InsertBDMap", "data/datum.go:GetKeyAsBytes", "node/nodeservice.go:Insert"]}
{"id": "C72", "title": "A not-a-number score never hides a better result", "statement": "Also when some stored vectors give a score that is not a number, no matching live datum left out of an exact search scores strictly better than one returned.", "quantifier": "every store content, order, query and configuration", "why_tests_cant": "one bad vector changes the answer only for particular orders and limits", "anchors": ["data/search.go:Search", "data/search.go:Collector.Insert"]}
{"id": "C73", "title": "Merging results never crashes", "statement": "Merging results that carry a datum key returns normally for every limit and result limit a request can carry.", "quantifier": "every stream of keyed results and every search configuration", "why_tests_cant": "boundary values of 32- and 64-bit limits, combined with an empty or non-empty stream", "anchors": ["data/aggregator.go:InsertToList", "data/aggregator.go:Result"]}
{"id": "C74", "title": "Group scores survive a search context", "statement": "In a grouped search with a search context each result still carries the score of its group, computed from the scores its group collected.", "quantifier": "every context, every stream of results, every iteration order over the groups", "why_tests_cant": "two rescoring passes over unbounded groups", "anchors": ["data/aggregator.go:Result", "data/aggregator.go:BestScore", "data/aggregator.go:One"]}
{"id": "C75", "title": "Cached answers are complete", "statement": "An answer served from the query cache comes from a search that had merged everything its sources sent.", "quantifier": "every history of queries and every interleaving of the searches", "why_tests_cant": "needs a timeout at a particular moment, then a second query", "anchors": ["data/search.go:AggregatedSearch"]}
{"id": "C76", "title": "Maintenance never loses an update", "statement": "When a client replaces the value of a datum while a maintenance run hands the datum over, the new value is not lost: it is removed only if it was itself accepted by a peer, expired or deleted.", "quantifier": "every interleaving of client writes with any number of maintenance runs", "why_tests_cant": "a write in the window between queueing a copy and the acknowledgement of the peer", "anchors": ["data/newsync.go:Process", "data/newsync.go:DeleteBDMap"]}
{"id": "C77", "title": "A maintenance run completes", "statement": "A maintenance run that has begun takes a bounded number of steps and never blocks for ever, whatever happens to the data set meanwhile.", "quantifier": "every schedule of runs, closing and peers' answers", "why_tests_cant": "a full queue without a reader appears only if the data set is closed during the scan of a run that started at size zero", "anchors": ["data/newsync.go:Process", "data/data.go:Close"]}
{"id": "C78", "title": "Concurrent upgrades never lower the version", "statement": "However create requests for an existing data set interleave, the version of its configuration never decreases.", "quantifier": "every interleaving of create requests", "why_tests_cant": "two requests must pass the version check before either sets the configuration", "anchors": ["data/dataset.go:CreateIfNotExists"]}
{"id": "C79", "title": "The index is complete once the saves have ended", "statement": "When all background saves have ended and the last change of the list was before one of them started, the index on disk lists every data set.", "quantifier": "every interleaving of changes and background saves", "why_tests_cant": "saves run in goroutines and must finish in inverted order", "anchors": ["data/dataset.go:SaveIndex", "data/dataset.go:CreateIfNotExists"]}
{"id": "C80", "title": "Loading the index is not disturbed by the saves it starts", "statement": "A process that loads the index ends up with every data set of the index, whatever the background saves started by the loading do meanwhile.", "quantifier": "every index and every interleaving of the loading with the saves", "why_tests_cant": "needs an index longer than the read buffer, and a goroutine that runs between two reads", "anchors": ["data/dataset.go:LoadIndex", "data/dataset.go:SaveIndex", "data/dataset.go:CreateIfNotExists"]}
{"id": "C81", "title": "Overlapping announcements keep the newest record", "statement": "When announcements of one node are handled at the same time, the record kept afterwards is the newest of those accepted: the timestamp of the record under an identity never decreases while it is held.", "quantifier": "every interleaving of announcements, joins and synchronisations", "why_tests_cant": "two handlers must pass the check before either stores its record", "anchors": ["node/node.go:AddPeerElement", "node/nodeservice.go:Join", "node/nodeservice.go:AddPeer"]}
{"id": "C82", "title": "Dropping a pool of connections does not hurt calls under way", "statement": "When the pool of connections of an address is dropped, because the address was not used for a while, no connection is closed that a request still uses.", "quantifier": "every interleaving of requests with the dropping of pools", "why_tests_cant": "the pool must expire while a long request holds its connection", "anchors": ["util/connpool.go:CloseAll", "util/connpool.go:NewConnectionCache"]}
{"id": "C83", "title": "A data stream has one sender", "statement": "While a data-stream request is served, two goroutines never send on its stream at the same time, and nothing is sent after the request has returned.", "quantifier": "every store content and every interleaving of the handler with its goroutine", "why_tests_cant": "the overlap lasts microseconds and corrupts the stream only sometimes", "anchors": ["node/nodeservice.go:DataStream"]}
{"id": "C84", "title": "Dropping a data set deletes only its own files", "statement": "When a data set is closed, by a request, by the clean-up or at the end, the files deleted are those in the directory named after it in the node's data directory, and no others.", "quantifier": "every name of a data set, every file system and every history of requests", "why_tests_cant": "nobody names a data set ../.. in a test, where the deletion would hit the test machine", "anchors": ["data/data.go:Close", "data/data.go:NewPreData", "data/dataset.go:ReloadRuns"]}
{"id": "C85", "title": "The end of the server keeps the other files", "statement": "However the server ends, a file that is not in the directory of one of its data sets is still there; in particular the index of the data sets.", "quantifier": "every way the server ends and every content of its directory", "why_tests_cant": "a failing start must be tried on a directory with data in it", "anchors": ["server/veriserviceserver.go:RunServer"]}
{"id": "C86", "title": "No announcement crashes the node", "statement": "A join or add-peer request, with or without a peer record, never makes the node panic, whatever was announced to it before.", "quantifier": "every history of announcements and every request, well formed or not", "why_tests_cant": "needs two malformed requests in a certain order; the first one looks harmless", "anchors": ["node/node.go:AddPeerElement", "node/nodeservice.go:Join", "node/nodeservice.go:AddPeer"]}
{"id": "C87", "title": "An unreachable peer never crashes the node", "statement": "The periodic clean-up of the data sets ends normally whichever of the known peers answer.", "quantifier": "every history of announcements and synchronisations, every set of peers that answer, every iteration order", "why_tests_cant": "a peer must fail in the minutes between two clean-ups, on a data set that is empty here", "anchors": ["data/data.go:CheckIfActive", "data/dataset.go:ReloadRuns", "node/datasourceclient.go:GetDataInfo"]}
{"id": "C88", "title": "The periodic report never crashes the node", "statement": "The report that the node prints every minute ends normally, whatever happens to the data sets while it is made.", "quantifier": "every history of requests and background activity between taking the names and looking them up", "why_tests_cant": "a data set must vanish in the microseconds between two lines", "anchors": ["node/node.go:Info", "data/dataset.go:GetNoCreate"]}
{"id": "C89", "title": "Synchronisation makes the peers' data sets available", "statement": "A synchronisation ends, and after it the node lists every data set that a recent peer announced, with a configuration at least as new as the peer's, and uses the peer as a source for it; nothing else is lost from the list.", "quantifier": "every set of peer records, every list of data sets, every iteration order", "why_tests_cant": "needs several nodes, and the effect is per data set and peer", "anchors": ["node/node.go:SyncWithPeers", "data/dataset.go:GetOrCreateIfNotExists", "data/data.go:AddSource"]}
{"id": "C90", "title": "A peer seen at every synchronisation stays a source", "statement": "A peer whose record is handled by every synchronisation, once a minute, is a source of its data sets all the time.", "quantifier": "every sequence of synchronisation times at most a minute apart", "why_tests_cant": "the gap appears ten minutes after the start and lasts less than a minute", "anchors": ["data/data.go:AddSource", "node/node.go:SyncWithPeers"]}
{"id": "C91", "title": "Synchronisation does not bring back a deleted data set", "statement": "A data set that a client deleted on a node is not listed again because of a synchronisation.", "quantifier": "every set of peer records and every list of data sets", "why_tests_cant": "needs a second node and a minute of waiting", "anchors": ["node/node.go:SyncWithPeers", "data/dataset.go:Delete"]}
{"id": "C92", "title": "Synchronisation drops only stale records", "statement": "A synchronisation removes no peer record whose timestamp is recent.", "quantifier": "every peer table and every snapshot that the synchronisation took of it", "why_tests_cant": "the peer must announce itself again while a synchronisation is under way", "anchors": ["node/node.go:CheckPeer", "node/node.go:SyncWithPeers"]}
{"id": "C93", "title": "A join tells the caller its address", "statement": "The reply to a join is the host the request came from, without its port; localhost for a loopback address; empty if there is no usable address. The caller then knows itself under that host and its own port.", "quantifier": "every address, IPv4 or IPv6, and every port", "why_tests_cant": "tests run on one machine, where the address is always the loopback one", "anchors": ["node/nodeservice.go:Join", "node/nodeservice.go:SendJoinRequest"]}
{"id": "C94", "title": "The health endpoints are consistent", "statement": "While the server runs the health endpoint answers 200, the readiness endpoint 200 or 503, and the body says alive exactly when the status is 200.", "quantifier": "every state the node can get into", "why_tests_cant": "tests look at the two usual states", "anchors": ["server/httpservice.go:GetReady", "server/httpservice.go:GetHeath", "state/state.go:Health"]}
{"id": "C95", "title": "A search over several nodes returns the best data", "statement": "The answer to a search for one datum that no time limit cuts short consists of the best live matching data on all nodes that took part, each datum once, best first, as many as asked for.", "quantifier": "every number of nodes, all their contents, every interleaving of their answers", "why_tests_cant": "needs several nodes, and the order in which answers arrive matters", "anchors": ["data/search.go:MultiAggregatedSearch", "data/search.go:AggregatedSearch", "data/aggregator.go:Insert", "node/nodeservice.go:SearchStream"]}
{"id": "C96", "title": "A search for several data is carried out for each of them", "statement": "A request that asks for several data is carried out for each of them on every node it is passed to.", "quantifier": "every number of data and every schedule of the requests between nodes", "why_tests_cant": "needs a second node; one of the data is searched for, so results do arrive", "anchors": ["node/nodeservice.go:SearchStream", "data/search.go:MultiAggregatedSearch", "node/datasourceclient.go:StreamSearch"]}
{"id": "C97", "title": "Group scores hold over several nodes", "statement": "In a grouped search over several nodes each result carries the documented score of at most the group limit many different matching data of its group, and stands for the first of them.", "quantifier": "every number of nodes, all their contents, every interleaving of their answers", "why_tests_cant": "with a single node the scores are right", "anchors": ["data/search.go:MultiAggregatedSearch", "data/aggregator.go:One", "data/aggregator.go:Result"]}
{"id": "C98", "title": "No search request crashes the node", "statement": "Whatever a search request contains, handling it does not crash the node that receives it.", "quantifier": "every request: configuration, context, data; every state of the node", "why_tests_cant": "tests send well-formed requests", "anchors": ["node/nodeservice.go:SearchStream", "data/search.go:MultiAggregatedSearch", "data/aggregator.go:BestScore"]}
{"id": "C99", "title": "An acknowledged insert is stored on as many nodes as asked for", "statement": "An insert acknowledged by a node, into a data set that enforces a number of replicas, has been stored on that number of nodes.", "quantifier": "every number of nodes, all their sources, every interleaving of the requests between them", "why_tests_cant": "tests use one node, or nodes that know each other under one address", "anchors": ["data/insert.go:Insert", "node/nodeservice.go:Insert", "node/datasourceclient.go:Insert", "node/node.go:SyncWithPeers"]}
{"id": "C100", "title": "Data without expiry take part in rebalancing", "statement": "Maintenance can transfer every live datum to another node, whether or not it has an expiry.", "quantifier": "every content of a data set and every execution of maintenance", "why_tests_cant": "rebalancing moves a random sample; which data never move does not show", "anchors": ["data/newsync.go:Process", "data/sync.go:InsertConfigFromExpireAt"]}
{"id": "C101", "title": "A search never uses a released index", "statement": "While a search asks the native index of a data set, that index has not been released, and the table in which the search looks up the answers belongs to it. No index is released twice.", "quantifier": "every number of searches and maintenance runs, every interleaving", "why_tests_cant": "the window between the check and the lock is a few instructions wide", "anchors": ["data/search.go:SearchAnnoy", "data/newsync.go:Process", "data/data.go:Annoyer"]}
{"id": "C102", "title": "The files of the index go with the data set", "statement": "When a data set has been closed and its maintenance runs are over, no temporary file of its index is left.", "quantifier": "every number of maintenance runs, every interleaving", "why_tests_cant": "nobody looks at the temporary directory after a test", "anchors": ["data/newsync.go:Process", "data/data.go:Close"]}
{"id": "C103", "title": "The index reads no vector past its end", "statement": "Neither building the native index nor searching it reads a vector of a client past its end.", "quantifier": "all vectors clients insert and search for, every execution of maintenance", "why_tests_cant": "reading a few bytes of foreign memory mostly goes unnoticed, and tests use vectors of one length", "anchors": ["data/newsync.go:Process", "data/search.go:SearchAnnoy", "annoyindex/annoylib.h:add_item_impl"]}
{"id": "C104", "title": "A forwarded query has a smaller time limit", "statement": "A query that a search sends on to a peer has a smaller time limit than the request of the user; over several hops it shrinks with every hop until peers are given no time.", "quantifier": "every time limit, every number of data in the request, every interleaving of their searches, every number of hops", "why_tests_cant": "tests have no peers, or one hop with a limit of a second", "anchors": ["data/search.go:AggregatedSearch", "data/search.go:MultiAggregatedSearch"]}
{"id": "C105", "title": "Each datum of a request has the whole time limit", "statement": "The search for each of the data of a request waits for answers as long as the time limit of the request says.", "quantifier": "every time limit, every number of data, every interleaving of their searches", "why_tests_cant": "the searches race for one configuration; with few data the loss is small", "anchors": ["data/search.go:AggregatedSearch", "data/search.go:MultiAggregatedSearch"]}
{"id": "C106", "title": "A search waits as long as its time limit says", "statement": "The timer of a search runs for the number of milliseconds the request gives.", "quantifier": "all 64-bit time limits", "why_tests_cant": "nobody tests with a limit of centuries, which clients write to mean none", "anchors": ["data/search.go:AggregatedSearch", "data/search.go:MultiAggregatedSearch"]}
{"id": "C107", "title": "Nodes exchange data until their statistics are close", "statement": "Maintenance plans to send data to a peer if and only if the average and histogram of the two sides are not close.", "quantifier": "all statistics of the two sides", "why_tests_cant": "a test would have to run maintenance with two nodes until nothing moves", "anchors": ["data/data.go:DataSourceDiffMap", "data/newsync.go:Process"]}
{"id": "C108", "title": "Information on a data set shows its configuration", "statement": "The information a client gets on a data set, when asking for it or when creating it, shows the configuration the data set has.", "quantifier": "every configuration and every state of the list of data sets", "why_tests_cant": "tests look at the fields they set: name, size, target", "anchors": ["data/data.go:GetDataInfo", "node/nodeservice.go:GetDataInfo", "node/nodeservice.go:CreateDataIfNotExists"]}
{"id": "C109", "title": "A restarted node has its data", "statement": "After a restart a node has the data it had when it saved its index.", "quantifier": "every content of the node, every content of the index file, every execution of the new process up to the first insert", "why_tests_cant": "needs a restart of the process with a kept directory", "anchors": ["data/dataset.go:LoadIndex", "data/dataset.go:SaveIndex", "data/data.go:InitData"]}
{"id": "C110", "title": "A newer version is never replaced by an older one", "statement": "An insert whose value has an older version than the stored value does not replace it.", "quantifier": "all histories of inserts, deletes and scans", "why_tests_cant": "tests insert versions in ascending order", "anchors": ["data/newsync.go:InsertBDMap", "data/datum.go:GetValueAsBytes"]}
{"id": "C111", "title": "Nodes that exchange a datum come to agree on its value", "statement": "When clients no longer insert under a key, nodes that exchange it end with the same value for it.", "quantifier": "every number of nodes, every schedule of exchanges, losses and expiries", "why_tests_cant": "needs two nodes with different values for a key and several maintenance runs", "anchors": ["data/newsync.go:Process", "data/newsync.go:InsertBDMap", "data/insert.go:Insert"]}
{"id": "C112", "title": "Answers of the native index are genuine", "statement": "Building a native index never crashes the process. On an index that has been built every search ends, and its answer consists of positions of vectors that were added, each at most once, each with its own distance from the query, nearest first.", "quantifier": "all vectors (also NaN, infinite, all equal), all numbers of items, all queries and limits, any float arithmetic", "why_tests_cant": "the index is random and approximate; tests look at single answers", "anchors": ["annoyindex/annoylib.h:_get_all_nns", "annoyindex/annoylib.h:_make_tree", "annoyindex/annoygomodule.h:getNnsByVector"]}
{"id": "C113", "title": "An index search finds as many as asked for", "statement": "An index search with a limit and without filters returns that many data, or all there are if these are fewer.", "quantifier": "all vectors, queries and limits", "why_tests_cant": "the number of answers depends on the shape of random trees", "anchors": ["data/search.go:SearchAnnoy", "annoyindex/annoylib.h:_get_all_nns"]}
{"id": "C114", "title": "An index search finds the nearest", "statement": "No datum of the index is nearer to the query than one of those returned without being returned itself.", "quantifier": "all vectors, queries and limits", "why_tests_cant": "whether a near vector is missed depends on random planes", "anchors": ["data/search.go:SearchAnnoy", "annoyindex/annoylib.h:_get_all_nns"]}
{"id": "C115", "title": "The size of an index is linear", "statement": "A native index has at most as many trees as items and fewer than four nodes for each item.", "quantifier": "all vectors and numbers of items", "why_tests_cant": "tests build small indexes only", "anchors": ["annoyindex/annoylib.h:thread_build", "data/newsync.go:Process"]}
{"id": "C116", "title": "No index search crashes a node", "statement": "Whatever clients insert, building the native index of a data set and searching through it crashes neither, and a search returns data of the index that pass its filters, each once, with their scores, at most the limit, nearest first.", "quantifier": "all histories of inserts, deletes, expiry, maintenance runs and closing; all queries; any float arithmetic", "why_tests_cant": "needs the history of a data set, a run and a native index together", "anchors": ["data/search.go:SearchAnnoy", "data/newsync.go:Process", "annoyindex/annoylib.h:_get_all_nns"]}
{"id": "C117", "title": "Index searches do not use up memory", "statement": "The memory that index searches allocate is bounded, however many there are.", "quantifier": "all indexes and all sequences of searches", "why_tests_cant": "tests search a few times only", "anchors": ["annoyindex/annoygomodule_wrap.cxx:getNnsByVector", "data/search.go:SearchAnnoy"]}
{"id": "C118", "title": "Information about a data set is that of one moment", "statement": "What a request for the information of a data set returns was the information of the data set at one moment while the request was served.", "quantifier": "all histories of inserts, deletes, maintenance runs and closing, all requests during them, all interleavings of the reads of the request with the writes of the runs, word by word", "why_tests_cant": "needs a request between two assignments of a run", "anchors": ["data/data.go:GetDataInfo", "data/newsync.go:Process"]}
{"id": "C119", "title": "Requests for information do not crash a node", "statement": "A request for the information of a data set reads only memory that belongs to the data set, whatever maintenance does at the time.", "quantifier": "all histories of inserts, deletes, maintenance runs and closing, all requests during them, all interleavings word by word", "why_tests_cant": "needs a request between the two halves of one assignment; the race detector sees only what a test runs", "anchors": ["data/data.go:GetDataInfo", "data/newsync.go:Process"]}
{"id": "C120", "title": "Addresses learned are announced", "statement": "An address that a node has learned of itself from the reply to a join request is among those it announces.", "quantifier": "all sets of replies, all interleavings of the goroutines that deal with them, all capacities that append chooses", "why_tests_cant": "needs two replies at the same time; tests have one peer", "anchors": ["node/nodeservice.go:SendJoinRequest", "node/node.go:GetNodeInfo", "node/node.go:Periodic"]}
{"id": "C121", "title": "The periodic task runs every minute", "statement": "A node starts a round of its periodic tasks (joining, synchronising, reloading, saving) at most a minute after the previous one.", "quantifier": "all numbers of sources, addresses and peers, all times they take to answer, all interleavings of the ticker, the loop and the tasks", "why_tests_cant": "needs silent peers and minutes of waiting", "anchors": ["node/node.go:SetPeriodicTask", "node/node.go:Periodic", "node/node.go:Info"]}
{"id": "C122", "title": "Rounds of periodic tasks do not pile up", "statement": "A round of joining or synchronising is over before the next one begins.", "quantifier": "all numbers of sources, addresses and peers, all times they take to answer, all interleavings of the ticker, the loop and the tasks", "why_tests_cant": "needs silent peers and minutes of waiting; piled-up rounds show only as slowness", "anchors": ["node/node.go:Periodic", "node/node.go:JoinToPeers", "node/node.go:SyncWithPeers", "node/nodeservice.go:SendJoinRequest"]}
{"id": "C123", "title": "A search during writes answers with the data of one moment", "statement": "A search that runs while other clients insert and delete answers with the best matching data that were stored together at one moment during the search.", "quantifier": "all stores, queries and configurations, all changes of the store and of the clock while the search runs, all orders of the scan that sync.Map allows", "why_tests_cant": "the anomaly needs a write at the right place of a scan; the order of a scan is not under a test's control", "anchors": ["data/search.go:Search", "data/newsync.go:LoopDBMap"]}
{"id": "C124", "title": "Streaming a data set during writes sends a consistent selection", "statement": "A stream of all data, sent while other clients insert and delete, never fails, contains at most one datum per key and nothing that was not stored and alive at some moment, and misses nothing that was stored and alive all the time.", "quantifier": "all stores, all changes of the store and of the clock while the stream is sent, all orders of the scan that sync.Map allows", "why_tests_cant": "the order of a scan and the moments of the writes are not under a test's control", "anchors": ["data/newsync.go:StreamAll", "data/newsync.go:LoopDBMap"]}
{"id": "C125", "title": "Concurrent inserts and deletes take effect one after the other", "statement": "When concurrent inserts and deletes have returned, the data set is as if they had been carried out one after the other, in an order in which a request that had returned before another was called comes first.", "quantifier": "all stores, all numbers of concurrent requests, all interleavings of their steps", "why_tests_cant": "the difference shows only for three overlapping inserts in one particular order", "anchors": ["data/newsync.go:InsertBDMap", "data/newsync.go:DeleteBDMap"]}
{"id": "C126", "title": "A repeated query is answered from the cache", "statement": "While the answer to a query is not older than the cache duration asked for, a request with the same datum and the same search configuration is answered from the cache.", "quantifier": "all histories of requests, searches, clock steps and clean-ups of the cache; all configurations", "why_tests_cant": "whether the second request hits depends on which goroutine of a request begins first, which a test cannot choose", "anchors": ["data/search.go:AggregatedSearch", "data/search.go:MultiAggregatedSearch"]}
{"id": "C127", "title": "Health answers are labelled as JSON", "statement": "The answers of the health and readiness endpoints, which are JSON, have the content type application/json.", "quantifier": "all states of the node", "why_tests_cant": "a unit test with a recorder looks at the header map, which is changed although it has been sent", "anchors": ["server/httpservice.go:GetReady", "server/httpservice.go:GetHeath"]}
{"id": "C128", "title": "Settings take effect from every place", "statement": "A setting given on the command line, in the environment or in the configuration file takes effect.", "quantifier": "all values of all settings in all places", "why_tests_cant": "needs the start of a process for each combination of places", "anchors": ["cmd/serve.go:serveCmd", "cmd/root.go:initConfig"]}
{"id": "C129", "title": "A signal ends the server", "statement": "A server that has been sent an interrupt or terminate signal ends, at the latest when it is sent another.", "quantifier": "all data sets, all schedules of signals, of the goroutine that waits for them and of the data set being closed", "why_tests_cant": "the process must be observed for ever: no finite test shows that it does not end", "anchors": ["server/veriserviceserver.go:RunServer", "node/node.go:Close", "data/data.go:Close"]}
{"id": "C130", "title": "A key string keeps the bytes of its key", "statement": "The string under which a datum is kept in the store's map (and that de-duplicates merged results) has the bytes of the datum's encoded key, whenever the garbage collector runs.", "quantifier": "all keys, all schedules of the call, the garbage collector and goroutines that allocate, write and give up memory", "why_tests_cant": "a collection must fall between two adjacent machine instructions of one call", "anchors": ["util/util.go:EncodeToString", "data/newsync.go:InsertBDMap", "data/aggregator.go:Insert"]}
{"id": "C131", "title": "Reported statistics are accurate to one percent", "statement": "On an unchanged data set with features between -1 and 1, every component of the average reported after two maintenance runs is within one percent of the mean, and the histogram reported after three sums to one within one percent (maximal distance not zero).", "quantifier": "every non-empty set of finite float32 vectors of equal dimension, every order of every scan", "why_tests_cant": "needs tens of millions of data, and an argument about every rounding", "anchors": ["data/newsync.go:Process", "data/util.go:CalculateAverage"]}
{"id": "C132", "title": "The index covers the data set", "statement": "After a maintenance run in an open data set that nobody writes to meanwhile, every stored live datum can be found by an index search.", "quantifier": "every history of inserts, every schedule of runs, every order of every scan", "why_tests_cant": "needs more data than a test inserts, and nothing reports what is missing", "anchors": ["data/newsync.go:Process", "data/search.go:SearchAnnoy"]}
{"id": "C133", "title": "Index answers are no older than the last run", "statement": "After a run that began after a moment t, with no run under way at t, index searches return only data that were stored and alive at some moment after t.", "quantifier": "every history, every schedule of runs, clients and Close, every answer of the library", "why_tests_cant": "needs a data set that becomes empty, and a look at the answers afterwards", "anchors": ["data/newsync.go:Process", "data/search.go:SearchAnnoy"]}
{"id": "C134", "title": "The distance is right to one per cent", "statement": "VectorDistance of two vectors of finite numbers is the Euclidean distance of their common components, within one per cent.", "quantifier": "all vectors of finite numbers of all lengths, every arithmetic with IEEE-754 error bounds, fused or not", "why_tests_cant": "tests compare a few small vectors; overflow and underflow inside the sum do not show", "anchors": ["data/util.go:VectorDistance", "data/util.go:euclideanDistance"]}
{"id": "C135", "title": "A search by distance returns the nearest", "statement": "A search for the smallest VectorDistance returns the matching live data nearest to the query: none left out is nearer than one returned.", "quantifier": "every stored content, order of the scan, limit and filters; all vectors of finite numbers", "why_tests_cant": "needs two data whose distances differ in the last digits of single precision", "anchors": ["data/search.go:Search", "data/util.go:VectorDistance"]}
{"id": "C136", "title": "The quick distance is right to a millionth", "statement": "QuickVectorDistance of two vectors of finite numbers is the sum of the absolute differences of their common components, to one part in a million.", "quantifier": "all vectors of finite numbers of up to 2^30 components, every arithmetic with IEEE-754 error bounds", "why_tests_cant": "tests compare a few small vectors", "anchors": ["data/util.go:QuickVectorDistance"]}
{"id": "C137", "title": "The inner product is right to one per cent", "statement": "VectorMultiplication of two vectors of finite numbers is the inner product of their common components, within one per cent.", "quantifier": "all vectors of finite numbers, every arithmetic with IEEE-754 error bounds, fused or not", "why_tests_cant": "needs terms that cancel", "anchors": ["data/util.go:VectorMultiplication"]}
{"id": "C138", "title": "The cosine similarity is right to 1/100", "statement": "CosineSimilarity of two vectors of finite numbers is the cosine of their angle (the shorter vector padded with zeros; 0 if a vector is zero), within 1/100.", "quantifier": "all vectors of finite numbers of up to 2^15 components, every arithmetic with IEEE-754 error bounds, fused or not", "why_tests_cant": "tests compare a few vectors of ordinary length; sums of squares overflow and underflow silently", "anchors": ["data/util.go:CosineSimilarity"]}
{"id": "C139", "title": "A search by cosine returns the most similar", "statement": "A search for the highest CosineSimilarity returns the matching live data most similar to the query: none left out is more similar than one returned.", "quantifier": "every stored content, order of the scan, limit and filters; all vectors of ordinary length", "why_tests_cant": "needs two data whose similarities differ in the last digits of single precision", "anchors": ["data/search.go:Search", "data/util.go:CosineSimilarity"]}
{"id": "C140", "title": "A search by quick distance returns the nearest", "statement": "A search for the smallest QuickVectorDistance returns the matching live data nearest to the query in the sum of differences: none left out is nearer than one returned.", "quantifier": "every stored content, order of the scan, limit and filters; all vectors of finite numbers", "why_tests_cant": "needs two data whose distances differ in the last digits of single precision", "anchors": ["data/search.go:Search", "data/util.go:QuickVectorDistance"]}
{"id": "C141", "title": "The angular similarity is right to 71/1000", "statement": "AngularDistance of two vectors of finite numbers is 1 - angle/pi (1/2 if a vector is zero), within 71/1000.", "quantifier": "all vectors of finite numbers of up to 2^15 components, every arithmetic with IEEE-754 error bounds and every arc cosine right to a millionth", "why_tests_cant": "tests compare a few vectors of ordinary length", "anchors": ["data/util.go:AngularDistance"]}
{"id": "C142", "title": "A search with more time does not answer worse", "statement": "Of two searches over the same sources, one of which was cut short by its time limit, the one cut short does not have the better result in any place of the answer.", "quantifier": "every number and order of results and of sources, every moment of the cut, all limits", "why_tests_cant": "needs a cut at a particular moment", "anchors": ["data/search.go:AggregatedSearch", "data/aggregator.go:Insert"]}
{"id": "C143", "title": "A stored vector finds itself", "statement": "A search by VectorDistance at a lone node for a vector that the node stores returns this vector first.", "quantifier": "every stored content, order of the scan, schedule, limit and filters; all vectors of finite numbers", "why_tests_cant": "tests store a few vectors far apart; needs vectors whose squared difference vanishes in single precision", "anchors": ["data/search.go:AggregatedSearch", "data/util.go:VectorDistance"]}
{"id": "C144", "title": "Building the native index ends", "statement": "Building the native index of any number of vectors ends.", "quantifier": "all vectors, all dimensions, every arithmetic", "why_tests_cant": "tests build small indexes of random vectors; whether a build ends depends on the random numbers", "anchors": ["annoyindex/annoylib.h:_make_tree", "annoyindex/kissrandom.h:flip"]}
{"id": "C145", "title": "The unary search answers", "statement": "A client that calls Search gets the answer that SearchStream sends.", "quantifier": "every request, every cluster", "why_tests_cant": "no test calls Search", "anchors": ["node/nodeservice.go:Search"]}
{"id": "C146", "title": "A search over several nodes by cosine similarity returns the most similar", "statement": "A search by cosine similarity over several nodes returns as many as asked for of the matching data that they store, in descending order of the true cosine; none of those left out is more similar to the query than one returned.", "quantifier": "all stores, all clusters, all schedules, all accurate floating-point units", "why_tests_cant": "a test has a handful of vectors on one or two nodes; rounding and the order of arrival matter", "anchors": ["data/search.go:AggregatedSearch", "data/search.go:MultiAggregatedSearch", "data/util.go:CosineSimilarity"]}
{"id": "C147", "title": "An inserted vector is found", "statement": "After an accepted insert of a vector, as long as it has not expired and is not deleted or replaced, a search by distance for this vector at the node returns it first.", "quantifier": "all histories before and after the insert, all scan orders, all clocks within the TTL, all accurate floating-point units", "why_tests_cant": "a test inserts a few vectors far apart and searches at once", "anchors": ["data/newsync.go:InsertBDMap", "data/search.go:AggregatedSearch", "data/util.go:VectorDistance"]}
{"id": "C148", "title": "The index finds a vector that is in it", "statement": "A search of the approximate index for a vector that is in it, with a limit of at least one, answers with its position; no answer before it is farther away than its own distance.", "quantifier": "all sets of vectors, all dimensions, all limits, all fuel, every arithmetic that meets the laws", "why_tests_cant": "a test searches a few random vectors; it takes a vector that lies in a splitting plane to see it missed", "anchors": ["annoyindex/annoylib.h:_get_all_nns", "annoyindex/annoylib.h:_make_tree", "data/search.go:SearchAnnoy"]}
{"id": "C149", "title": "A data set is set up once", "statement": "However requests, clean-ups, deletions and expiry interleave, a data set is set up at most once: its list of sources is made once, its maintenance loop is started once, and a request that works with it finds it set up. No request waits for the set-up in vain.", "quantifier": "all numbers of requests and all their interleavings", "why_tests_cant": "it takes requests that create the same data set within microseconds of each other", "anchors": ["data/data.go:InitData", "data/dataset.go:CreateIfNotExists", "data/insert.go:Insert", "data/data.go:AddSource"]}
{"id": "C150", "title": "A data set taken out of the list is stopped", "statement": "Once a data set has been deleted, cleaned up or replaced, its maintenance loop ends.", "quantifier": "all numbers of requests, clean-ups, deletions and expiries and all their interleavings", "why_tests_cant": "the clean-up runs once a minute and has to meet the moment between two statements; expiry takes two weeks", "anchors": ["data/data.go:Close", "data/data.go:InitData", "data/dataset.go:ReloadRuns", "data/dataset.go:CreateIfNotExists"]}
{"id": "C151", "title": "A service nobody has is forgotten", "statement": "Every service name a peer reports is known to the node for ten minutes after the report; a service that no configuration names is forgotten by all nodes in the end.", "quantifier": "all nodes, all exchanges of records, all numbers of rounds", "why_tests_cant": "it takes hours of exchanges between several nodes to see that a name never goes away", "anchors": ["node/node.go:AddService", "node/node.go:SyncWithPeers", "node/node.go:GetNodeInfo", "node/node.go:JoinToPeers"]}
{"id": "C152", "title": "The random numbers of the native index are those its comments describe", "statement": "For every seed, each number of the generator is the sum of a linear congruence, an exclusive-or shift and a multiplication with carry of 128 bits, and the number drawn below n is below n.", "quantifier": "all seeds and all positions in the sequence", "why_tests_cant": "the difference shows at one state in 2^64", "anchors": ["annoyindex/kissrandom.h:kiss", "annoyindex/kissrandom.h:flip", "annoyindex/kissrandom.h:index"]}
{"id": "C153", "title": "A data set is kept for its retention", "statement": "A data set that nobody uses is kept for exactly the retention of its configuration (a day if none is given), and a use prolongs it by that much.", "quantifier": "all configurations, all points in time", "why_tests_cant": "it would take a test as long as the retention, and the retentions that go wrong are longer than 292 years", "anchors": ["data/dataset.go:GetRetention", "data/dataset.go:CreateIfNotExists", "data/dataset.go:Get"]}
{"id": "C154", "title": "A search of the index with a larger limit does not answer worse", "statement": "Of two searches of one index for the same vector the one with the larger limit (below 2^32-1) answers, position by position, with vectors not farther away, if no distance is NaN; so do two index searches of a data set whose vectors have one length.", "quantifier": "all indexes, all queries, all limits below 2^32-1, all filters", "why_tests_cant": "the search stops early, at a number of candidates that depends on the limit and on the random trees", "anchors": ["annoyindex/annoylib.h:_get_all_nns", "data/search.go:SearchAnnoy"]}
{"id": "C155", "title": "In a connected cluster everyone comes to know everyone", "statement": "If every node joins and synchronises at least every 99 seconds and is reachable at its addresses, then after 3+2m such stretches any two nodes connected by at most 2^m entries of the service lists have live records of each other, at most 99 seconds old; nothing on the way panics.", "quantifier": "all numbers of nodes, all configurations, all orders of the nodes' work within a stretch, all iteration orders of the maps, all points in time before the overflow of the clock, all data sets created on the way", "why_tests_cant": "it takes several nodes and minutes of real time, and the order of their work and of the iterations over maps is different in every run", "anchors": ["node/node.go:SyncWithPeers", "node/node.go:JoinToPeers", "node/node.go:AddPeerElement", "node/nodeservice.go:SendJoinRequest", "node/nodeservice.go:SendAddPeerRequest"]}
{"id": "C156", "title": "A data set of one node becomes known to the whole cluster", "statement": "If every node joins and synchronises at least every 99 seconds, then after 3+2m such stretches and 100 seconds each synchronisation of a node connected to the owner by at most 2^m entries of the service lists leaves the data set in its list, with an address of the owner as a source; it is enough that nobody removes the data set and that retentions are at least 198 seconds, since the periodic joins keep it listed.", "quantifier": "all numbers of nodes, all configurations, all orders of the nodes' work, all iteration orders of the maps, all other changes to the data sets of all nodes, all data sets", "why_tests_cant": "it takes several nodes and minutes of real time, and depends on expiry times of three kinds of records", "anchors": ["node/node.go:SyncWithPeers", "node/node.go:GetNodeInfo", "node/node.go:JoinToPeers", "data/dataset.go:DataConfigList"]}
{"id": "C157", "title": "When a node is ready", "statement": "The readiness endpoint answers 200 exactly if a synchronisation with the peers has ended and no shutdown has begun since; otherwise 503, in particular right after the start.", "quantifier": "all configurations, all peers and their answers, all sequences of synchronisations, joins, requests, clock steps and shutdowns", "why_tests_cant": "the flag is set by a background task and cleared by the shutdown; a test sees some of the orders", "anchors": ["node/node.go:SyncWithPeers", "node/node.go:Close", "server/httpservice.go:GetReady", "server/veriserviceserver.go:RunServer"]}
{"id": "C158", "title": "Rebalancing keeps a copy", "statement": "A datum that some node of the cluster stores, that no client deletes and that has not expired stays stored on some node, whatever the maintenance of the nodes transfers and evicts at the same time.", "quantifier": "all numbers of nodes, all configurations, all interleavings of the maintenance runs, transfers and answers of all nodes with inserts and deletes of clients, all clocks", "why_tests_cant": "two maintenance runs on different nodes have to send the same datum to each other within one round trip", "anchors": ["data/newsync.go:Process", "data/sync.go:isEvictionOn", "data/insert.go:Insert", "node/datasourceclient.go:Insert"]}
{"id": "C159", "title": "The index is built or given up without a crash", "statement": "If the operating system refuses a file, room on the disk or memory while the index is built, the run goes on without it; a search uses only memory that is there.", "quantifier": "all answers of the operating system, all vectors, all dimensions, every arithmetic", "why_tests_cant": "tests run with enough disk and memory; the growth of the buffer depends on the number of nodes, which depends on the random numbers", "anchors": ["annoyindex/annoylib.h:_reallocate_nodes", "annoyindex/annoylib.h:on_disk_build", "annoyindex/annoylib.h:remap_memory_and_truncate", "data/newsync.go:Process"]}
{"id": "C160", "title": "A search gives its connections back", "statement": "When a search has answered and its calls to other nodes have ended or reached their limit of ten seconds, no connection is in use on its behalf.", "quantifier": "all numbers of sources, all answers of peers, all failures, every interleaving, every moment of the time limit", "why_tests_cant": "needs more results than the channel holds and a time limit that ends at the wrong moment; the loss shows only in the long run", "anchors": ["node/datasourceclient.go:StreamSearch", "data/search.go:AggregatedSearch", "util/connpool.go:Put"]}
{"id": "C161", "title": "A search that ends in time has the whole answer of each node it asked", "statement": "If a search ends before its time limit, every result that the asked nodes have for it has been taken into account.", "quantifier": "all numbers of sources, all answers of peers, all failures, every interleaving", "why_tests_cant": "tests have no broken connections in the middle of a stream", "anchors": ["node/datasourceclient.go:StreamSearch", "data/search.go:AggregatedSearch"]}
{"id": "C162", "title": "A server that says it is ready takes calls", "statement": "Whenever a server answers a health check with ready, its port takes the calls of clients and other nodes.", "quantifier": "all interleavings of the start, of the first synchronisation, of health checks and of failures to open a port", "why_tests_cant": "tests do not run the server process; the order of its goroutines is up to the scheduler", "anchors": ["server/veriserviceserver.go:RunServer", "node/node.go:NewNode", "node/nodeservice.go:Listen", "server/httpservice.go:RestApi"]}
{"id": "C163", "title": "A search answers the same whatever the order of the data, and no worse with more data, a larger limit or fewer filters", "statement": "An exact search with a positive limit of a data set at rest answers alike (the same number of results, equally good place by place) for every order in which the data are stored and visited. If the data set has more data, or the limit is larger, or there are fewer filters, the answer has no fewer results and none is worse than the one in the same place. A smaller limit gives the beginning of the answer. Removing data that are not in the answer does not change it.", "quantifier": "all stored contents, queries, exact score functions, limits, filters, orders of visiting; scores that are numbers", "why_tests_cant": "tests search a few points in one order and look at the best results", "anchors": ["data/search.go:Search", "data/search.go:StreamSearch", "data/search.go:Collector.Insert"]}
{"id": "C164", "title": "A source of a data set is another node", "statement": "In a cluster in which a message to an address that a node announces, or under which it is seen, reaches that node: whatever the nodes do, and in whatever order they join, synchronise and pass on records, each source of a data set of a node is an address that reaches another node, never the node itself.", "quantifier": "all numbers of nodes, networks, address lists, schedules, contents of the records passed on, clocks", "why_tests_cant": "a node becomes its own source only through an old record of itself that comes back from others after it has learned another address", "anchors": ["node/node.go:SyncWithPeers", "node/node.go:GetDifferentAddressOf", "node/nodeservice.go:SendJoinRequest", "data/data.go:AddSource"]}
{"id": "C165", "title": "No node is a source twice", "statement": "In such a cluster no two sources of a data set of a node reach the same node, so that replicas and answers are not counted twice.", "quantifier": "all numbers of nodes, networks, address lists, schedules, clocks", "why_tests_cant": "needs two records of one node at the same time", "anchors": ["node/node.go:SyncWithPeers", "node/node.go:AddPeerElement", "node/node.go:GetIdOfPeer", "data/data.go:AddSource"]}
{"id": "C166", "title": "A request changes only the data set it names", "statement": "An insert, a search, a stream, a request for information, a creation, a deletion or the addition of a source leaves every other data set of the node as it is: its data, its configuration, its sources and its expiry; and so does any number of such requests. Nothing else of the node changes but the list of the ids of queries.", "quantifier": "all nodes, requests and sequences of requests, clocks, successful or not", "why_tests_cant": "needs every kind of request against every pair of names", "anchors": ["node/nodeservice.go:Insert", "node/nodeservice.go:SearchStream", "node/nodeservice.go:DataStream", "data/dataset.go:Get", "data/dataset.go:CreateIfNotExists"]}
{"id": "C167", "title": "What a node answers on one data set does not depend on the others", "statement": "For every history of requests and background activity, the answers to the requests for one data set are those the node would have given without the requests for other data sets.", "quantifier": "all nodes, data sets, sequences of requests, clean-ups, walks of the list, clocks", "why_tests_cant": "compares two histories; the same id for queries of two data sets within five minutes is not an ordinary test", "anchors": ["node/nodeservice.go:SearchStream", "node/nodeservice.go:Insert", "data/dataset.go:Get", "data/dataset.go:ReloadRuns"]}
{"id": "C168", "title": "A search with room for all matching data returns them all", "statement": "A search by comparison of vectors that is not cut short and whose limit and result limit are no smaller than the number of different matching data, times the number of data asked for, returns every live matching datum of all nodes that took part and nothing else, each once if one datum was asked for.", "quantifier": "all numbers of nodes and of data asked for, all contents, score functions, directions, contexts and scores, not-a-number included; every interleaving of the answers", "why_tests_cant": "every interleaving of answers of any number of nodes, and scores that compare with nothing", "anchors": ["data/search.go:Search", "data/search.go:AggregatedSearch", "data/search.go:MultiAggregatedSearch", "data/aggregator.go:InsertToList", "data/aggregator.go:Result"]}
{"id": "C169", "title": "What is inserted at one node is found from another", "statement": "After an accepted insert at a node, as long as it has not expired and nobody deletes or replaces it there, every search from any node that reaches this node, is not cut short and has room for all matching data returns it, or what another node has under the same key.", "quantifier": "all histories of the node before and after the insert, all clocks within the time to live, all numbers of nodes, every interleaving", "why_tests_cant": "two nodes, a history and a search in one statement", "anchors": ["data/data.go:InsertBDMap", "data/search.go:Search", "data/search.go:AggregatedSearch", "data/search.go:MultiAggregatedSearch"]}
{"id": "C170", "title": "A datum is gone from all nodes when its TTL has ended", "statement": "When the time to live of every insert of a datum has ended, no node of the cluster shows it, whatever copies maintenance has passed from node to node.", "quantifier": "all numbers of nodes, clocks off by any amounts, inserts with any TTL at any nodes, all transfers with any delay, losses, evictions and deletions, in every order", "why_tests_cant": "copies on several nodes over long times, with delays in queues and on the way", "anchors": ["data/newsync.go:InsertBDMap", "data/newsync.go:Process", "data/newsync.go:LoopDBMap", "data/sync.go:InsertConfigFromExpireAt", "data/insert.go:Insert"]}
{"id": "C171", "title": "A search by inner product returns the largest", "statement": "A search with VectorMultiplication where higher is better returns the matching live data with the largest inner products with the query: none left out has a larger product than one returned.", "quantifier": "all data sets, all queries, filters, limits and iteration orders; all vectors of finite numbers with terms not above 2^125 in sum", "why_tests_cant": "rounding and cancellation for arbitrary vectors", "anchors": ["data/search.go:Search", "data/search.go:Insert", "data/util.go:VectorMultiplication"]}
{"id": "C172", "title": "A search by angular similarity returns the nearest directions", "statement": "A search with AngularDistance where higher is better returns the matching live data whose direction is nearest to that of the query: none left out is nearer than one returned.", "quantifier": "all data sets, all queries, filters, limits and iteration orders; all ordinary vectors of finite numbers", "why_tests_cant": "rounding for arbitrary vectors, arc cosine near its ends", "anchors": ["data/search.go:Search", "data/search.go:Insert", "data/util.go:AngularDistance", "data/util.go:CosineSimilarity"]}
{"id": "C173", "title": "A data set holds what the answers of the node say", "statement": "While a data set is in the list of a node, it holds what the requests and their answers say: the data of the inserts that were not refused, the last one for each key, less those that have expired when a scan came to them. A stream of the data set returns exactly that, each key once, and a search of the node's own data the best of it; no other request and no background activity changes it; a datum stays until it expires or its key is inserted again, and nothing appears that was not inserted.", "quantifier": "all histories of inserts, searches, streams, information requests, creations, deletions, peers' announcements, clean-ups and walks over the list, for any data sets, in every order at any times; every answer of other nodes; data with a key and a value", "why_tests_cant": "long interleavings of all kinds of requests for several data sets with background clean-up and expiry", "anchors": ["node/nodeservice.go:Insert", "node/nodeservice.go:SearchStream", "node/nodeservice.go:DataStream", "node/nodeservice.go:GetDataInfo", "data/insert.go:Insert", "data/newsync.go:LoopDBMap", "data/dataset.go:Get"]}
{"id": "C174", "title": "A node forgets the ids of queries", "statement": "A node remembers the id of a query for at most five minutes and the time until the next clean-up, so the number of ids it holds is at most the number of queries asked in the five minutes before its last clean-up and since.", "quantifier": "all histories of requests and background activity in order of time", "why_tests_cant": "growth of memory over a long time", "anchors": ["node/nodeservice.go:SearchStream", "node/node.go:NewNode"]}
{"id": "C175", "title": "A message arrives as it was sent", "statement": "Whoever receives the bytes that a node or a client writes for a message of the service reads that message, field by field; so two different messages never look the same on the wire.", "quantifier": "all messages of all 22 types of veriservice.proto, with any contents (strings in UTF-8)", "why_tests_cant": "lists and nested messages of any length, every combination of fields that are left out because they are zero", "anchors": ["veriservice/veriservice.pb.go:InsertionRequest", "veriservice/veriservice.pb.go:SearchRequest", "veriservice/veriservice.pb.go:Peer", "veriservice/veriservice.proto"]}
{"id": "C176", "title": "A message of a later version is understood", "statement": "A node that receives a message with fields it does not know, as a later version may send, wherever they stand among the others, reads the message that the fields it knows make.", "quantifier": "all messages of all types; any number of unknown fields of any type and contents, in any positions; within the parts of a search request too", "why_tests_cant": "there is no later version yet to test against", "anchors": ["veriservice/veriservice.pb.go:SearchRequest", "veriservice/veriservice.proto"]}
{"id": "C177", "title": "The compiled description of the messages is that of the service", "statement": "The description that is compiled into the program, and from which messages are read and written, has exactly the messages, fields, numbers, types and methods of the service definition.", "quantifier": "the whole description", "why_tests_cant": "a program built from an old description works with itself", "anchors": ["veriservice/veriservice.pb.go:file_veriservice_proto_rawDesc", "veriservice/veriservice.proto"]}
{"id": "C178", "title": "What a node takes it can hand on", "statement": "The datum of every insert that reached a node can be sent on to another node, returned by a search, and read with the whole data set.", "quantifier": "all insert requests, of any size, and all answers made of their data", "why_tests_cant": "requests of just the largest size, and answers with many large data", "anchors": ["node/datasourceclient.go:Insert", "node/nodeservice.go:Listen", "util/connpool.go:NewConnection", "data/insert.go:Insert"]}
{"id": "C179", "title": "A connection is closed or can be used again", "statement": "A connection that a node has opened and that is still open is in use, lies in a pool from which it can be taken again, or is going to be closed.", "quantifier": "all interleavings of any number of users of the pools, with evictions, refreshes and collections at any moments", "why_tests_cant": "the connections that are forgotten depend on when an entry is dropped by the runtime or a pool is replaced while in use; nothing fails when it happens", "anchors": ["util/connpool.go:CloseAll", "util/connpool.go:PutIfHealthy", "util/connpool.go:NewConnectionCache", "util/connpool.go:Put"]}
{"id": "C180", "title": "The pool of connections does not grow with use", "statement": "A pool holds a connection at most once, however often it is used.", "quantifier": "all interleavings of any number of users, any number of uses", "why_tests_cant": "the extra entries change no answer; only the size of the pool and its users' connections", "anchors": ["util/connpool.go:Put", "util/connpool.go:Get", "util/connpool.go:PutIfHealthy"]}
{"id": "C181", "title": "An acknowledged insert outlives the loss of nodes", "statement": "An insert into a data set that asks for r nodes has been acknowledged. If afterwards (or before) fewer than r nodes lose what they have, and the others do not take the datum away, then another node still has it.", "quantifier": "all clusters, executions of any length before and after, any lost nodes and whatever they do", "why_tests_cant": "which nodes have a copy depends on the failures of calls and the order in which the sources are tried", "anchors": ["data/insert.go:Insert", "node/datasourceclient.go:Insert", "node/nodeservice.go:Insert"]}
{"id": "C182", "title": "Every insert is answered", "statement": "A request to insert gets an answer or an error: its handler never waits for ever, however the nodes call each other, and makes a bounded number of steps.", "quantifier": "all clusters, executions of any length with any number of concurrent inserts and calls that fail or time out", "why_tests_cant": "that handlers of different nodes never wait for each other in a circle concerns all interleavings of their calls", "anchors": ["data/insert.go:Insert", "data/data.go:RunOnRandomSources", "node/nodeservice.go:Insert", "node/datasourceclient.go:Insert"]}
{"id": "C183", "title": "Inserts come in any order, and repeated inserts do no harm", "statement": "Two inserts of data with different keys leave the same data set and get the same answers, whichever comes first. An insert that comes a second time changes at most the expiry of its datum, and nothing if the datum does not expire.", "quantifier": "all data sets, data, configurations, clocks and outcomes of the calls to other nodes", "why_tests_cant": "it relates the outcomes of two different histories from every state", "anchors": ["data/insert.go:Insert", "data/newsync.go:InsertBDMap", "data/newsync.go:CloseEnough"]}
{"id": "C184", "title": "A search answers alike wherever it is asked", "statement": "Two searches for the same, over nodes that together have the same matching data, answer with the same scores in the same places, whichever nodes are asked and however the data are spread over them. With more nodes the answer gets no worse.", "quantifier": "all ways to spread the data, orders of merging, limits, filters and score functions whose scores are numbers", "why_tests_cant": "it relates the answers of two different clusters; how the data are spread depends on rebalancing", "anchors": ["node/nodeservice.go:Search", "data/search.go:AggregatedSearch", "data/aggregator.go:Insert"]}
{"id": "C185", "title": "A search leaves nothing running", "statement": "When a search is over, everything that it has started ends: no goroutine of it waits for ever.", "quantifier": "all numbers of sources and results, all interleavings, time limits at any moment", "why_tests_cant": "what is left does not show in any answer; it adds up until the memory is used up", "anchors": ["data/search.go:AggregatedSearch", "data/search.go:MultiAggregatedSearch", "data/search.go:StreamSearch", "node/datasourceclient.go:StreamSearch"]}
{"id": "C186", "title": "A search reaches every node connected by sources", "statement": "If no request is lost or refused for other reasons than that the node has had the query, a search that is asked at a node is carried out at every node to which a chain of sources leads.", "quantifier": "all clusters and ways in which the sources are linked, all interleavings, any number of data searched for", "why_tests_cant": "the nodes are picked at random and pass the query on concurrently; which are left out depends on the picks and on the order of arrival", "anchors": ["data/data.go:RunOnRandomSources", "data/search.go:AggregatedSearch", "node/nodeservice.go:SearchStream"]}
{"id": "C187", "title": "A search of the whole cluster returns every match", "statement": "In a cluster whose nodes have at most six sources each, a search with room for all that matches returns every live matching datum that is stored, while the search goes on, at any node to which a chain of sources that answer leads; nothing else, and no key twice. With less room and if higher is better, it returns the best of them.", "quantifier": "all clusters, ways of linking, stores (which may change meanwhile), nodes that fail, orders in which nodes search, pass on, wait, merge and answer", "why_tests_cant": "it is a property of the whole distributed execution: which node carries the query out for whom depends on the order of arrival", "anchors": ["data/search.go:AggregatedSearch", "data/search.go:MultiAggregatedSearch", "data/data.go:RunOnRandomSources", "node/nodeservice.go:SearchStream", "node/datasourceclient.go:StreamSearch"]}
{"id": "C188", "title": "Nodes that search never wait for each other in a circle", "statement": "A search ends even without its time limits, however the sources are linked: as long as the client has no answer some node can go on, and the number of steps is at most proportional to the number of nodes.", "quantifier": "all clusters with rings of sources or nodes that are sources of themselves, all interleavings, nodes that fail at any moment", "why_tests_cant": "absence of deadlock and a bound on all executions cannot be seen in finitely many of them", "anchors": ["data/search.go:AggregatedSearch", "node/nodeservice.go:SearchStream", "node/datasourceclient.go:StreamSearch"]}
{"id": "C189", "title": "Time limits and failures never make a search return anything wrong", "statement": "Whatever time limits expire and whichever nodes fail while a search of the whole cluster goes on, each result is a live match, with its score, of a node to which a chain of sources leads; no key comes twice, and there are not more results than asked for.", "quantifier": "all clusters, ways of linking, stores, moments at which time limits expire or nodes fail, sources picked, interleavings", "why_tests_cant": "partial answers arise in every combination of what has and has not arrived in time", "anchors": ["data/search.go:AggregatedSearch", "data/search.go:MultiAggregatedSearch", "node/nodeservice.go:SearchStream", "node/datasourceclient.go:StreamSearch"]}
{"id": "C190", "title": "A cluster that has found itself answers with everything", "statement": "In a cluster of at most seven nodes that are connected by entries of their configurations and do their periodic work, a search that is asked at a node after one of its later synchronisations returns every live match stored at any node that has the data set, nothing else, and no key twice.", "quantifier": "all clusters of at most seven nodes, configurations, orders of joining and synchronising, orders of map iteration, stores, nodes that fail, interleavings of the search", "why_tests_cant": "it spans minutes of gossip between several processes and then a search of all of them", "anchors": ["node/node.go:SyncWithPeers", "node/node.go:JoinToPeers", "data/data.go:AddSource", "data/data.go:RunOnRandomSources", "data/search.go:AggregatedSearch", "node/nodeservice.go:SearchStream"]}
{"id": "C191", "title": "An acknowledged insert is found though nodes are lost", "statement": "In a cluster where the sources of a node are other nodes and none twice, an insert into a data set that asks for r nodes has been acknowledged. If fewer than r nodes lose what they have or fail, and the others do not take the datum away, a search with room for all matches, at a node from which sources lead to all nodes that are left, returns the datum as long as it matches and has not expired.", "quantifier": "all clusters, executions of any length before and after, lost nodes and whatever they do, interleavings of the inserts and of the search", "why_tests_cant": "which nodes have a copy depends on failures and on the order in which sources are tried; which node searches for whom, on the order of arrival", "anchors": ["data/insert.go:Insert", "node/nodeservice.go:Insert", "data/search.go:AggregatedSearch", "node/nodeservice.go:SearchStream"]}
{"id": "C192", "title": "Searches that go on at the same time do not disturb each other", "statement": "Any number of searches of the whole cluster go on at the same time, at whatever nodes they are asked and with whatever configurations. If their ids differ, each goes through the steps that it could go through alone, returns what it would return alone, and can go on until it has its answer whatever the others wait for.", "quantifier": "all clusters, numbers of searches, requests, moments at which they begin, interleavings of their steps", "why_tests_cant": "interference shows only in particular interleavings of many requests at many nodes", "anchors": ["node/nodeservice.go:SearchStream", "data/search.go:AggregatedSearch", "node/datasourceclient.go:StreamSearch"]}
{"id": "C193", "title": "An insert is accepted if enough nodes take it", "statement": "An insert into a data set that has room and asks for r copies is accepted, and stored, if r - 1 of its sources take it.", "quantifier": "all data sets, sources, orders in which they are asked, sets of sources that take the insert", "why_tests_cant": "the order in which sources are asked is random, and only some orders leave the willing ones out", "anchors": ["data/insert.go:Insert", "data/data.go:RunOnRandomSources", "node/datasourceclient.go:Insert"]}
{"id": "C194", "title": "An index that is saved and loaded again answers as before", "statement": "A built index of the Annoy library with at least one item, saved to a file and loaded from it, has the same items and answers every question as before. An index without items is not loaded.", "quantifier": "all lengths of vectors, sequences of items, random choices while building, questions, numbers of results and search limits", "why_tests_cant": "the roots are found again by their numbers of descendants and their first children, which coincide with those of other nodes only for particular trees", "anchors": ["annoyindex/annoylib.h:save", "annoyindex/annoylib.h:load", "annoyindex/annoylib.h:_get_all_nns"]}
{"id": "C195", "title": "The configuration file that the user names is the one that counts", "statement": "The server reads the configuration file named by --config, else the one named by VERICONFIG, else the file config in .veri of the home directory. A file that cannot be read does not keep it from starting.", "quantifier": "all command lines, environments, home directories, files", "why_tests_cant": "depends on variables of the environment that no test sets", "anchors": ["cmd/root.go:initConfig", "cmd/serve.go:serveCmd"]}
{"id": "C196", "title": "An index search for the key of an indexed datum returns it", "statement": "If all inserts carry values and vectors of one length, then after any history an index search for the key of a datum of the index that passes the filters returns this datum, or as many data as the limit allows, none of them farther from the query than the query from itself.", "quantifier": "all histories of inserts, deletes, expiry, maintenance runs and closing; all arithmetics that meet the laws; all configurations", "why_tests_cant": "depends on how the planes of random trees lie to a vector", "anchors": ["data/search.go:SearchAnnoy", "data/newsync.go:Process", "annoyindex/annoylib.h:_get_all_nns"]}
{"id": "C197", "title": "What has been inserted is found by an index search after the next run", "statement": "Data with vectors of one length are inserted, then maintenance goes on alone and a run ends in an open data set. An index search for the key of anything stored that passes the filters returns it, or as many data as the limit that are as near.", "quantifier": "all histories, all numbers and schedules of runs, orders of scans, arithmetics that meet the laws, configurations", "why_tests_cant": "needs a history, a run over it, a native index and a search of it together", "anchors": ["data/insert.go:Insert", "data/newsync.go:Process", "data/search.go:SearchAnnoy", "annoyindex/annoylib.h:_get_all_nns"]}
{"id": "C198", "title": "Searches with time limits at the same time do not disturb each other", "statement": "Any number of searches of the whole cluster with different ids go on at the same time, and at any moment the time may be up at any node for any of them. Each client gets only live matches of its own request, no key twice and no more than asked for; each search can go on until it has its answer, whatever the others wait for; and all requests in the cluster come to an end, after a number of steps proportional to the number of searches.", "quantifier": "all clusters, numbers of searches, requests, failures, moments of the limits, interleavings", "why_tests_cant": "needs limits that come in the middle of particular interleavings of many requests at many nodes", "anchors": ["node/nodeservice.go:SearchStream", "data/search.go:AggregatedSearch", "data/search.go:MultiAggregatedSearch"]}
{"id": "C199", "title": "Only encodings decode", "statement": "Whatever bytes decode to a key are the encoding of that key, and whatever bytes decode to a value are the encoding of that value; so no two byte strings stand for the same datum.", "quantifier": "all byte strings, all previous contents of the destination", "why_tests_cant": "2^8n byte strings of each length n, nearly all of which no encoder has written", "anchors": ["data/gencoder/gencoder.go:UnmarshalKey", "data/gencoder/gencoder.go:UnmarshalValue"]}
{"id": "C200", "title": "Searches find data that move", "statement": "A search of the whole cluster returns a datum that at every moment is stored by some node that the search can reach, even if during the search the datum moves from one node to another (the copy is made before the original is deleted).", "quantifier": "all clusters, all stores, all schedules of the search and of the inserts, deletes, scans and clocks of the nodes beside it", "why_tests_cant": "Rebalancing runs in the background at intervals of seconds; the answer depends on which node is asked before and which after the datum has moved", "anchors": ["data/newsync.go:Process", "data/search.go:AggregatedSearch", "node/nodeservice.go:SearchStream"]}
{"id": "C201", "title": "Caches never make up answers", "statement": "Whatever answers nodes keep in their caches and give again, for however long, all that a client gets are matches of its own request, with the right scores, that have been stored and alive at some time at nodes connected with the one asked; no key twice, no more than asked for. A search with a cache duration of zero goes as if there were no caches.", "quantifier": "all clusters, all stores, any number of searches at the same time with any requests, cache durations and time limits, every order of the steps", "why_tests_cant": "An answer that is kept at one node, for one request, is given at any later time to another one, through any number of nodes that keep it in turn", "anchors": ["data/search.go:AggregatedSearch", "data/search.go:GetSearchKey", "data/search.go:EncodeSearchConfig"]}
{"id": "C202", "title": "A search for several data makes nothing up", "statement": "A request with any number of data, with or without groups and a search context, at any node of any cluster, whatever time limits are reached and whatever nodes refuse or fail: every datum in the answer has been stored and alive at a node connected with the one asked and passes the filters, and there are no more than asked for. Without groups and context every result is a match of one of the data of the request, with its score.", "quantifier": "all requests, clusters, stores, contexts, group limits and time limits, every order of the steps", "why_tests_cant": "The searches for the data of a request share one id, refuse each other at the other nodes and group what has been grouped before", "anchors": ["data/search.go:MultiAggregatedSearch", "data/aggregator.go:Insert", "data/aggregator.go:Result", "node/nodeservice.go:SearchStream"]}
{"id": "C203", "title": "Each datum of a request is searched for at the node asked", "statement": "A request with several data that no time limit cuts short, with room for all matches: every match of every one of its data, among what the node asked stores, is in the answer, though the other nodes answer for only one of the data.", "quantifier": "all requests, clusters, stores and contexts, every order of the steps", "why_tests_cant": "Whether the searches of one request hinder each other depends on the order in which they reach the nodes, over several nodes", "anchors": ["data/search.go:MultiAggregatedSearch", "data/search.go:AggregatedSearch", "node/nodeservice.go:SearchStream"]}
