{"id": "C01", "title": "Stored vectors decode to exactly what was encoded", "statement": "Encoding any non-nil vector of at most 2^31-1 components and decoding the resulting bytes returns the same components, bit for bit and in order; encoding a nil vector is an error, never a blob.", "quantifier": "all vectors of 32-bit words of any length, and all bytes that may follow the blob", "why_tests_cant": "the input space is every vector of every length including every NaN payload; a test samples a handful of vectors", "anchors": ["internal/encoding/utils.go:EncodeVector", "internal/encoding/utils.go:DecodeVector"]}
{"id": "C02", "title": "Decoding untrusted bytes is total and exact", "statement": "For every byte string, decoding either fails with an error or returns exactly the declared number of components; it never reads past the end. It succeeds exactly when a four byte non-negative length header is present and at least that many four byte words follow. A decoded vector re-encodes to the consumed prefix.", "quantifier": "all byte strings", "why_tests_cant": "corrupt or truncated blobs form an infinite space; tests try a few", "anchors": ["internal/encoding/utils.go:DecodeVector"]}
{"id": "C03", "title": "A store behaves as a map from id to the last successful write", "statement": "After any history of upserts, batch upserts, deletes, batch deletes, document deletes, collection deletes and clears, GetByID(id) returns the content, vector, document, metadata and ACL of the last successful write to that id that no later operation removed, and not-found otherwise. Operations on other ids do not change it.", "quantifier": "all histories of store operations, all ids", "why_tests_cant": "a property of every interleaving of every operation; unit tests fix one short history", "anchors": ["pkg/core/store_crud.go:Upsert", "pkg/core/store_crud.go:UpsertBatch", "pkg/core/store_crud.go:Delete", "pkg/core/store_query.go:GetByID"]}
{"id": "C04", "title": "A failed batch upsert changes nothing", "statement": "UpsertBatch either stores every record of the batch or, if any record is rejected at any position, leaves rows and index contents exactly as they were.", "quantifier": "all batches, all positions of the failing record, all prior states", "why_tests_cant": "the failing position and prior state are unbounded", "anchors": ["pkg/core/store_crud.go:UpsertBatch"]}
{"id": "C05", "title": "Delete removes exactly one record and reports absence", "statement": "Delete(id) succeeds exactly when id is stored, removes that record and no other, and after it no lookup, listing, or search (linear or through either index) returns id until it is written again.", "quantifier": "all states, ids and later read operations", "why_tests_cant": "must hold for every state and every later query path", "anchors": ["pkg/core/store_crud.go:Delete", "pkg/index/hnsw.go:Delete", "pkg/index/ivf.go:Delete"]}
{"id": "C06", "title": "A failed bulk delete changes nothing", "statement": "DeleteBatch removes exactly the listed ids that exist and reports not-found when none exist; if the storage layer fails part way through, no record has been removed.", "quantifier": "all id lists of any length, all points at which the storage layer fails", "why_tests_cant": "fault injection at every chunk boundary of every list length", "anchors": ["pkg/core/store_crud.go:DeleteBatch"]}
{"id": "C07", "title": "Delete-by-filter removes exactly the records the filter matches", "statement": "DeleteByFilter removes a record if and only if its metadata satisfies the filter expression (with AND, OR, NOT and comparisons read the usual way); an empty filter is refused.", "quantifier": "all filter expressions of any depth, all tables", "why_tests_cant": "filter trees are unbounded in depth and the damage is silent", "anchors": ["pkg/core/store_crud.go:DeleteByFilter", "pkg/core/advanced_filter.go:BuildSQLFromFilter", "pkg/core/advanced_filter.go:MetadataFilter"]}
{"id": "C08", "title": "A collection-scoped search stays in its collection", "statement": "Every result of Search with a collection name belongs to that collection, on the linear, HNSW and IVF paths.", "quantifier": "all states, queries, options and index contents", "why_tests_cant": "must hold for every index content, including stale ones", "anchors": ["pkg/core/store_search.go:Search", "pkg/core/store_search.go:searchWithHNSW", "pkg/core/store_search.go:processCandidates", "pkg/core/store_search.go:fetchCandidates"]}
{"id": "C09", "title": "Linear search returns exactly the top K", "statement": "Without an index, Search returns the records with the K highest scores among those that pass the collection, filter and threshold tests: sorted by score, at most K, no eligible record left out scores above one returned, and fewer than K only when fewer are eligible.", "quantifier": "all tables, queries, K, thresholds, similarity functions, and every way an unstable sort may break ties", "why_tests_cant": "exactness over all data sets and all tie orders", "anchors": ["pkg/core/store_search.go:Search", "pkg/core/store_search.go:scoreCandidates", "pkg/core/store_search.go:sortByScore"]}
{"id": "C10", "title": "Every search result satisfies the requested filter and threshold", "statement": "Every result of Search matches every key of the metadata filter, the doc_id filter if present, and the threshold when positive, whichever index serves the query.", "quantifier": "all states, options and index contents", "why_tests_cant": "the path that breaks it depends on configuration and state", "anchors": ["pkg/core/store_search.go:processCandidates", "pkg/core/store_search.go:matchesFilter", "pkg/core/store_search.go:buildSearchQuery"]}
{"id": "C11", "title": "ACL search returns only permitted records in the requested collection", "statement": "SearchWithACL returns a record only if it is public or lists one of the caller's principals, and only from the requested collection.", "quantifier": "all tables, principals and options", "why_tests_cant": "a security property: one reachable counterexample is a leak", "anchors": ["pkg/core/advanced_search.go:SearchWithACL"]}
{"id": "C12", "title": "Hybrid search fuses ranks soundly and respects the query scope", "statement": "HybridSearch scores each id by the sum of 1/(k+rank) over the lists that contain it, lists each id once in descending fused score, at most TopK, and returns only records inside the requested collection and filter.", "quantifier": "all ranked lists, k, TopK and tables", "why_tests_cant": "rank fusion interacts with every ordering of both lists", "anchors": ["pkg/core/advanced_search.go:HybridSearch"]}
{"id": "C13", "title": "In strict mode every stored vector has the store's dimension", "statement": "When the dimension policy is strict and a dimension is fixed or was detected, no sequence of writes, batch writes and reopenings leaves a stored vector of another length.", "quantifier": "all histories of writes, batches and reopenings", "why_tests_cant": "depends on which write path is used and on process restarts", "anchors": ["pkg/core/store_crud.go:Upsert", "pkg/core/store_crud.go:UpsertBatch", "pkg/core/store_init.go:Init"]}
{"id": "C14", "title": "Dimension adaptation always produces the target length", "statement": "Adapting a vector yields exactly the target length for the adapting policies and an error, never a changed vector, for the strict policies; truncation keeps only components of the input in their original order, padding keeps the input as a prefix, and a vector already of the target length is returned unchanged.", "quantifier": "all vectors, source and target dimensions and policies", "why_tests_cant": "all dimension pairs and policies", "anchors": ["pkg/core/dimension.go:AdaptVector", "pkg/core/dimension.go:truncateWithImportance", "pkg/core/dimension.go:padVector"]}
{"id": "C15", "title": "A closed store refuses every write", "statement": "Once Close has returned, every write operation fails with the closed error and leaves the data unchanged; Close may be called any number of times.", "quantifier": "all histories with any number of closes", "why_tests_cant": "ordering of close against every operation", "anchors": ["pkg/core/store_close.go:Close", "pkg/core/store_crud.go:Upsert", "pkg/core/collections.go:CreateCollection"]}
{"id": "C16", "title": "Collections have unique names and delete exactly their own records", "statement": "At any time no two collections share a name; creating an existing name fails; deleting a collection removes its records and no others; a collection's reported count equals the number of records in it.", "quantifier": "all histories of collection and record operations", "why_tests_cant": "invariant over all histories", "anchors": ["pkg/core/collections.go:CreateCollection", "pkg/core/collections.go:DeleteCollection", "pkg/core/collections.go:GetCollectionStats"]}
{"id": "C17", "title": "Deleting a document deletes its chunks", "statement": "With referential integrity enforced, no stored chunk ever refers to a missing document, and deleting a document removes exactly the chunks that refer to it. This must not depend on which pooled connection executes the delete.", "quantifier": "all histories and all assignments of operations to pooled connections", "why_tests_cant": "the connection choice is made by the pool at run time", "anchors": ["pkg/core/document.go:DeleteDocument", "pkg/core/store_init.go:Init", "pkg/core/store_init.go:createTables"]}
{"id": "C18", "title": "Session history is the most recent messages, oldest first", "statement": "GetSessionHistory(session, n) returns the last min(n, total) messages of exactly that session in chronological order.", "quantifier": "all message tables and limits", "why_tests_cant": "all message sets and tie patterns", "anchors": ["pkg/core/chat.go:GetSessionHistory", "pkg/core/chat.go:AddMessage"]}
{"id": "C19", "title": "Chat search ranks by similarity within one session", "statement": "SearchChatHistory returns at most limit messages of that session, the most similar ones, in descending similarity.", "quantifier": "all message tables, queries and limits", "why_tests_cant": "exactness over all data", "anchors": ["pkg/core/chat.go:SearchChatHistory", "pkg/core/chat.go:SearchMessagesByUser"]}
{"id": "C20", "title": "Filter strings parse with the usual precedence", "statement": "Parsing a filter string gives the expression with NOT binding tighter than AND and AND tighter than OR, BETWEEN's AND is not a connective, and parentheses group.", "quantifier": "all filter expressions rendered to text", "why_tests_cant": "grammar is infinite", "anchors": ["pkg/core/advanced_filter.go:ParseFilterString", "pkg/core/advanced_filter.go:parseComparison"]}
{"id": "C21", "title": "The SQL filter and the in-memory filter agree", "statement": "A record is selected by the SQL form of a filter if and only if the in-memory evaluation of the same filter accepts it.", "quantifier": "all filter expressions and all metadata maps", "why_tests_cant": "two interpreters over an infinite expression language", "anchors": ["pkg/core/advanced_filter.go:BuildSQLFromFilter", "pkg/core/advanced_filter.go:evaluateFilter"]}
{"id": "C22", "title": "Dump followed by Load restores every record", "statement": "Dumping a store and loading the dump into an empty store gives the same records, including access lists.", "quantifier": "all stores", "why_tests_cant": "all record contents", "anchors": ["pkg/core/io.go:Dump", "pkg/core/io.go:getAllEmbeddings", "pkg/core/io.go:Load", "pkg/core/io.go:processImportEmbedding"]}
{"id": "C23", "title": "Loading always terminates and reports each line once", "statement": "Load on any JSONL input terminates, and every input record is counted exactly once as imported, skipped or failed.", "quantifier": "all input streams, well formed or not", "why_tests_cant": "non-termination cannot be observed by a finite test and inputs are unbounded", "anchors": ["pkg/core/io.go:loadJSONL", "pkg/core/io.go:loadJSON"]}
{"id": "C24", "title": "Aggregations agree with the records", "statement": "For any table and filter, count, sum, average, minimum and maximum are those of the matching records, and grouped counts partition the count.", "quantifier": "all tables and filters", "why_tests_cant": "all tables", "anchors": ["pkg/core/aggregations.go:Aggregate"]}
{"id": "C25", "title": "Range search returns exactly the records inside the radius", "statement": "RangeSearch returns a record exactly when its distance to the query is at most the radius, nearest first, truncated to TopK only when TopK is positive.", "quantifier": "all tables, queries, radii and similarity functions", "why_tests_cant": "exactness over all data and every metric", "anchors": ["pkg/core/faceted_search.go:RangeSearch"]}
{"id": "C26", "title": "Collecting top K from a stream gives the global top K", "statement": "CollectTopKFromStream returns the K best-scored distinct results delivered on the stream, in descending order.", "quantifier": "all finite streams and K", "why_tests_cant": "order of arrival is arbitrary", "anchors": ["pkg/core/streaming.go:CollectTopKFromStream"]}
{"id": "C27", "title": "Accepted asynchronous updates are applied in order", "statement": "Every update accepted by the incremental index is eventually stored, and the last accepted update for an id wins, whatever interleaving of producers, searches and flushes occurs.", "quantifier": "all interleavings of AddAsync, SearchWithUpdates, flushes and Close", "why_tests_cant": "schedules are unbounded", "anchors": ["pkg/core/streaming.go:IncrementalIndex"]}
{"id": "C28", "title": "Concurrent store operations cannot deadlock", "statement": "No schedule of concurrent API calls reaches a state in which every unfinished call waits for the store lock.", "quantifier": "all numbers of callers and all schedules under Go's writer-preferring read-write lock", "why_tests_cant": "the losing schedule needs a writer to arrive between two read locks of one call", "anchors": ["pkg/core/store_crud.go:UpsertBatch", "pkg/core/collections.go:GetCollectionStats", "pkg/core/advanced_search.go:HybridSearch", "pkg/core/reranker.go:SearchWithReranker"]}
{"id": "C29", "title": "Committed records are searchable after a crash and reopen", "statement": "After any history of writes and snapshots, a crash at any point, and a reopen, every committed record is present in the vector index that serves search.", "quantifier": "all histories, all crash points", "why_tests_cant": "crash points are unbounded", "anchors": ["pkg/core/store_index.go:initHNSWIndex", "pkg/core/store_index.go:loadIndexSnapshot", "pkg/core/store_index.go:saveIndexSnapshot"]}
{"id": "C30", "title": "HNSW search results are live, distinct, sorted and at most k", "statement": "Every id returned by the HNSW index was inserted and not deleted, appears once, carries its exact distance, and results are in ascending distance, at most k of them.", "quantifier": "all graphs reachable by any history of inserts, deletes and random levels, all queries", "why_tests_cant": "graph shapes and random levels are unbounded", "anchors": ["pkg/index/hnsw.go:Search", "pkg/index/hnsw.go:searchLayer"]}
{"id": "C31", "title": "The HNSW graph stays well formed", "statement": "After any history of inserts and deletes every neighbour reference resolves to a stored node that exists on that layer, no node is its own neighbour, and the entry point is a stored node.", "quantifier": "all histories and level choices", "why_tests_cant": "inductive invariant", "anchors": ["pkg/index/hnsw.go:Insert", "pkg/index/hnsw.go:addConnection", "pkg/index/hnsw.go:Delete"]}
{"id": "C32", "title": "A record written again is searchable with its new vector", "statement": "After a record is updated, or deleted and written again, the vector index answers with its latest vector.", "quantifier": "all histories that write an id more than once", "why_tests_cant": "histories", "anchors": ["pkg/index/hnsw.go:Insert", "pkg/core/store_crud.go:Upsert"]}
{"id": "C33", "title": "Parallel index building loses no record", "statement": "Every vector given to the parallel batch build can be returned by a search that asks for as many results as there are vectors.", "quantifier": "all batches and worker counts", "why_tests_cant": "depends on partition and random levels", "anchors": ["pkg/index/hnsw.go:InsertBatchParallel"]}
{"id": "C34", "title": "IVF deletion removes exactly the given id", "statement": "After any history of training, additions and deletions, the IVF index contains exactly the ids added and not since deleted, and search returns only those with their own vectors.", "quantifier": "all histories", "why_tests_cant": "position bookkeeping over every deletion pattern", "anchors": ["pkg/index/ivf.go:Add", "pkg/index/ivf.go:Delete", "pkg/index/ivf.go:Search"]}
{"id": "C35", "title": "Flat index search is exact", "statement": "Flat search returns the k nearest stored vectors in ascending distance, and range search exactly those within the radius.", "quantifier": "all contents, queries, k and tie orders", "why_tests_cant": "exactness over all data", "anchors": ["pkg/index/flat.go:Search", "pkg/index/flat.go:RangeSearch", "pkg/index/flat.go:quickSortResults"]}
{"id": "C36", "title": "LSH finds an inserted vector and never a deleted one", "statement": "Querying the LSH index with a stored vector's own value finds that vector when k allows; results are always stored, distinct and carry exact distances.", "quantifier": "all histories and hash families", "why_tests_cant": "hash families are random", "anchors": ["pkg/index/lsh.go:Insert", "pkg/index/lsh.go:Search", "pkg/index/lsh.go:Delete"]}
{"id": "C37", "title": "Composite indexes keep their parts in step", "statement": "After a successful Delete on a hybrid or multi index no strategy returns the id, and a failed Insert leaves no trace.", "quantifier": "all histories and strategies", "why_tests_cant": "histories", "anchors": ["pkg/index/multi_index.go:HybridIndex", "pkg/index/multi_index.go:MultiIndex"]}
{"id": "C38", "title": "Scalar quantization is lossless on codes and bounded on values", "statement": "Packing codes into bits and unpacking returns the codes for every bit width from 1 to 8 and every dimension; a reconstructed component inside the trained range differs from the original by at most half a quantization step.", "quantifier": "all bit widths, dimensions, code sequences and values", "why_tests_cant": "packing crosses byte boundaries in every phase", "anchors": ["pkg/quantization/scalar_quantization.go:Encode", "pkg/quantization/scalar_quantization.go:Decode"]}
{"id": "C39", "title": "Binary codes preserve sign patterns and Hamming search is exact", "statement": "Re-encoding a decoded binary code returns the code; the Hamming distance counts the differing bits and is a metric; binary search returns the k nearest codes.", "quantifier": "all vectors, codes and k", "why_tests_cant": "all codes", "anchors": ["pkg/quantization/scalar_quantization.go:BinaryQuantizer", "pkg/quantization/scalar_quantization.go:HammingDistance", "pkg/quantization/scalar_quantization.go:SearchBinary"]}
{"id": "C40", "title": "Product quantizer encodes to the nearest codewords and serializes faithfully", "statement": "Each subvector is encoded by a nearest codeword; decoding has the original dimension; codebooks written and read back are identical; truncated data is an error, not a crash.", "quantifier": "all codebooks, vectors and byte strings", "why_tests_cant": "all codebooks and truncation points", "anchors": ["pkg/quantization/product_quantization.go:Encode", "pkg/quantization/product_quantization.go:SerializeCodebooks", "pkg/quantization/product_quantization.go:DeserializeCodebooks"]}
{"id": "C41", "title": "Graph edges always join existing nodes", "statement": "After any history of node and edge operations (single and batch) with referential integrity enforced, every edge's endpoints exist, and deleting a node removes exactly its incident edges.", "quantifier": "all histories", "why_tests_cant": "inductive invariant", "anchors": ["pkg/graph/graph.go:UpsertNode", "pkg/graph/graph.go:DeleteNode", "pkg/graph/graph.go:UpsertEdge", "pkg/graph/graph_batch.go:ExecuteBatch"]}
{"id": "C42", "title": "Neighbors returns exactly the nodes within the depth", "statement": "With no limit, Neighbors(start, depth) returns each node other than the start that a walk of at most depth allowed edges reaches, exactly once; with a limit it returns min(limit, all) of the nodes that pass the type filter.", "quantifier": "all graphs, depths, directions, filters and edge orders", "why_tests_cant": "all graphs", "anchors": ["pkg/graph/graph_traversal.go:Neighbors"]}
{"id": "C43", "title": "ShortestPath returns a shortest path", "statement": "If any directed path exists ShortestPath returns a real path along stored edges with the fewest hops, its distance is the number of edges and its weight their sum; otherwise it reports that there is none.", "quantifier": "all graphs, endpoints and edge orders", "why_tests_cant": "minimality over all graphs", "anchors": ["pkg/graph/graph_traversal.go:ShortestPath"]}
{"id": "C44", "title": "Connected decides reachability within the depth", "statement": "Connected(a, b, d) is true exactly when some undirected walk of at most d edges joins a and b.", "quantifier": "all graphs and depths", "why_tests_cant": "all graphs", "anchors": ["pkg/graph/graph_traversal.go:Connected"]}
{"id": "C45", "title": "PageRank scores are bounded and conserve mass", "statement": "After any number of iterations every score is at least (1-d)/n, the scores sum to at most one, and to exactly one when every node has an outgoing edge; results list each node once in descending score.", "quantifier": "all graphs, damping factors and iteration counts", "why_tests_cant": "all graphs and iteration counts", "anchors": ["pkg/graph/graph_algorithms.go:PageRank"]}
{"id": "C46", "title": "Communities partition the nodes", "statement": "Community detection puts each node in exactly one community, whatever order nodes and labels are visited in.", "quantifier": "all graphs and visit orders", "why_tests_cant": "map iteration order is random", "anchors": ["pkg/graph/graph_algorithms.go:CommunityDetection"]}
{"id": "C47", "title": "Predicted edges are new, ranked and within topK", "statement": "PredictEdges proposes only nodes that are not the source and not already adjacent, with score above the cut-off, in descending score, at most topK.", "quantifier": "all graphs", "why_tests_cant": "all graphs", "anchors": ["pkg/graph/graph_algorithms.go:PredictEdges"]}
{"id": "C48", "title": "Graph statistics count nodes, edges and components", "statement": "The reported component count equals the number of classes of undirected reachability.", "quantifier": "all graphs and visit orders", "why_tests_cant": "all graphs", "anchors": ["pkg/graph/graph_algorithms.go:GetGraphStatistics"]}
{"id": "C49", "title": "Graph batches report every item and keep the search index in step", "statement": "Success and failure counts of a graph batch add up to the number of items, rows change only for the successful ones, and nodes written in a batch are found by index search as if written one by one.", "quantifier": "all batches and states", "why_tests_cant": "all batches", "anchors": ["pkg/graph/graph_batch.go:UpsertNodesBatch", "pkg/graph/graph_batch.go:ExecuteBatch", "pkg/graph/graph_batch.go:DeleteNodesBatch"]}
{"id": "C50", "title": "Graph export and import round-trip", "statement": "Importing an exported graph into an empty store restores every node and edge with its type, content, vector, weight and properties, for each supported format.", "quantifier": "all graphs and formats", "why_tests_cant": "all graphs", "anchors": ["pkg/graph/graph_export.go:ExportJSON", "pkg/graph/graph_export.go:ImportJSON", "pkg/graph/graph_export.go:ExportGraphML", "pkg/graph/graph_export.go:ImportGraphML", "pkg/graph/graph_export.go:ExportGEXF"]}
{"id": "C51", "title": "Graph vector index finds every node", "statement": "A search of the graph's own HNSW index for as many results as there are nodes returns every indexed node.", "quantifier": "all insertion histories and level choices", "why_tests_cant": "level choices are random", "anchors": ["pkg/graph/graph_hnsw.go:Add", "pkg/graph/graph_hnsw.go:searchLevel", "pkg/graph/graph_hnsw.go:Search"]}
{"id": "C52", "title": "Graph hybrid search ranks consistently", "statement": "Hybrid graph search returns each node at most once in descending combined score, at most TopK, with normalized weights summing to one.", "quantifier": "all graphs and weights", "why_tests_cant": "all weights", "anchors": ["pkg/graph/graph_hybrid.go:HybridSearch"]}
{"id": "C53", "title": "Radius search finds exactly the points inside the circle", "statement": "SearchRadius returns each stored point whose great-circle distance to the centre is at most the radius, once, nearest first.", "quantifier": "all point sets and histories, centres and radii", "why_tests_cant": "poles, the antimeridian and re-insertions are measure-zero for random tests", "anchors": ["pkg/geo/geospatial.go:SearchRadius", "pkg/geo/geospatial.go:getCandidateCells", "pkg/geo/geospatial.go:Insert", "pkg/geo/geospatial.go:Delete"]}
{"id": "C54", "title": "Nearest-neighbour geo search is exact", "statement": "SearchKNN returns the k nearest stored points in ascending distance.", "quantifier": "all point sets", "why_tests_cant": "exactness", "anchors": ["pkg/geo/geospatial.go:SearchKNN"]}
{"id": "C55", "title": "Bounding-box and polygon searches are exact", "statement": "SearchBoundingBox returns exactly the stored points inside the box, each once; SearchPolygon exactly those the ray-casting rule accepts.", "quantifier": "all point sets, boxes and grid sizes", "why_tests_cant": "grid truncation near zero and negative coordinates", "anchors": ["pkg/geo/geospatial.go:SearchBoundingBox", "pkg/geo/geospatial.go:getGridKey", "pkg/geo/geospatial.go:SearchPolygon"]}
{"id": "C56", "title": "The router picks the best route and only above threshold", "statement": "Route returns the route with an utterance of highest similarity to the query; it is reported as matched exactly when that similarity reaches the threshold.", "quantifier": "all route sets, queries, similarity functions and thresholds", "why_tests_cant": "all similarity values, including negative ones", "anchors": ["pkg/semantic-router/router.go:Route"]}
{"id": "C57", "title": "Route names are unique and a rejected route is not added", "statement": "At any time no two routes share a name, and an Add or AddBatch that returns an error leaves the routes unchanged.", "quantifier": "all histories", "why_tests_cant": "histories", "anchors": ["pkg/semantic-router/router.go:Add", "pkg/semantic-router/router.go:AddBatch", "pkg/semantic-router/router.go:Remove"]}
{"id": "C58", "title": "A hybrid match always names a route", "statement": "When the hybrid router reports a match the combined score reaches the threshold and the result names an existing route.", "quantifier": "all scores, alpha and thresholds", "why_tests_cant": "all score combinations", "anchors": ["pkg/semantic-router/hybrid.go:Route"]}
{"id": "C59", "title": "Embedding caches and batches are transparent", "statement": "Batch embedding returns the vector of the i-th text at position i for every goroutine schedule and map iteration order, and a cached embedder returns what the wrapped embedder returns.", "quantifier": "all schedules, iteration orders and cache contents", "why_tests_cant": "schedules are unbounded", "anchors": ["pkg/cortexdb/embedder.go:EmbedBatch", "pkg/semantic-router/embedder.go:CachedEmbedder"]}
{"id": "C60", "title": "Memory banks are isolated", "statement": "Recall on a bank returns only memories retained into that bank, for every combination of recall strategies.", "quantifier": "all histories and strategies", "why_tests_cant": "leaks need particular combinations of data and strategy", "anchors": ["pkg/hindsight/hindsight.go:Recall", "pkg/hindsight/hindsight.go:Retain", "pkg/hindsight/hindsight.go:keywordSearch"]}
{"id": "C61", "title": "Recall fusion ranks by reciprocal rank and lists each memory once", "statement": "Fused recall lists each memory once, scored by the sum over strategies of 1/(60+rank), in descending order, at most TopK.", "quantifier": "all result lists", "why_tests_cant": "all lists", "anchors": ["pkg/hindsight/hindsight.go:rrfFuse", "pkg/hindsight/hindsight.go:Recall"]}
{"id": "C62", "title": "Auto-retention fires on schedule with the window in order", "statement": "Extraction fires exactly once per TriggerEvery matching messages, and the extractor receives the most recent WindowSize messages oldest first.", "quantifier": "all message histories and configurations", "why_tests_cant": "histories", "anchors": ["pkg/hindsight/chat.go:AddMessage", "pkg/hindsight/hooks.go:RetainFromText"]}
{"id": "C63", "title": "Banks survive a restart", "statement": "A bank created before a restart is available after it with its disposition, and every operation on it works as before.", "quantifier": "all banks and restart points", "why_tests_cant": "restart points", "anchors": ["pkg/hindsight/hindsight.go:CreateBank", "pkg/hindsight/hindsight.go:loadPersistedBanks", "pkg/hindsight/hindsight.go:calculateConfidence"]}
{"id": "C64", "title": "Observation confidence is a probability", "statement": "The confidence given to an observation always lies between 0.1 and 1.", "quantifier": "all memory sets, strategies and dispositions", "why_tests_cant": "all inputs", "anchors": ["pkg/hindsight/hindsight.go:calculateConfidence"]}
{"id": "C65", "title": "Chunking covers the document", "statement": "Splitting a text into chunks loses no word: every word of every paragraph occurs in a chunk in order, every chunk has at most the chunk size words, none is empty, and consecutive chunks of a paragraph overlap by exactly the requested number of words.", "quantifier": "all texts, chunk sizes and overlaps", "why_tests_cant": "all sizes and overlaps, and termination", "anchors": ["pkg/cortexdb/graphrag.go:splitGraphRAGText", "pkg/cortexdb/graphrag.go:applyGraphRAGIngestDefaults"]}
{"id": "C66", "title": "Context packing respects every budget", "statement": "The packed context has at most the maximum number of chunks, at most the per-document limit from one document, fits the character budget unless it is a single chunk, keeps ranking order, and is empty only when there are no chunks.", "quantifier": "all chunk lists and budgets", "why_tests_cant": "all combinations of budgets", "anchors": ["pkg/cortexdb/graphrag.go:packGraphRAGContext", "pkg/cortexdb/graphrag.go:rerankGraphRAGChunks"]}
{"id": "C67", "title": "Memory buckets separate users, sessions and namespaces", "statement": "Two requests resolve to the same memory bucket only if they have the same scope, the same owner and the same namespace, so one owner's search never returns another owner's memories.", "quantifier": "all scopes, users, sessions and namespaces", "why_tests_cant": "separator characters inside identifiers", "anchors": ["pkg/cortexdb/memory_api.go:resolveMemoryBucket", "pkg/cortexdb/memory_api.go:SaveMemory", "pkg/cortexdb/memory_api.go:SearchMemory"]}
{"id": "C68", "title": "Expired memories are never found", "statement": "A memory saved with a time to live is never returned by search after it expires, and an update that does not mention the time to live does not extend it.", "quantifier": "all clocks and histories", "why_tests_cant": "time", "anchors": ["pkg/cortexdb/memory_api.go:memoryExpired", "pkg/cortexdb/memory_api.go:UpdateMemory", "pkg/cortexdb/memory_api.go:buildMemoryMetadata"]}
{"id": "C69", "title": "A failed knowledge update keeps the old knowledge", "statement": "If saving or updating a knowledge item fails at any step, the previously stored item is still there.", "quantifier": "all failure points", "why_tests_cant": "failure points", "anchors": ["pkg/cortexdb/knowledge_api.go:SaveKnowledge", "pkg/cortexdb/knowledge_api.go:UpdateKnowledge", "pkg/cortexdb/knowledge_api.go:cleanupKnowledgeArtifacts"]}
{"id": "C70", "title": "Lexical search ranks better matches higher", "statement": "Among lexical hits, a better full-text rank gives a higher score and an earlier position, and a request without TopK uses a default instead of returning nothing.", "quantifier": "all ranked hit lists, query expansions and TopK", "why_tests_cant": "all rank values", "anchors": ["pkg/cortexdb/cortexdb.go:ftsSearch", "pkg/cortexdb/graphrag_tools.go:searchTextCandidates", "pkg/cortexdb/memory_api.go:searchMemoryLexical"]}
{"id": "C71", "title": "Knowledge hits group chunks by document", "statement": "Grouped hits list each document once, with the best chunk score, exactly its chunk ids, in descending score with ties by id.", "quantifier": "all chunk lists", "why_tests_cant": "all lists", "anchors": ["pkg/cortexdb/knowledge_api.go:aggregateKnowledgeHits"]}
{"id": "C72", "title": "Generated chunk and bucket identifiers do not collide", "statement": "Chunk identifiers of different documents or positions differ.", "quantifier": "all document ids and indices", "why_tests_cant": "all strings", "anchors": ["pkg/cortexdb/graphrag.go:graphChunkNodeID"]}
{"id": "C73", "title": "Rerankers reorder without inventing or duplicating results", "statement": "Every reranker returns a rearrangement of its input (or a prefix of one where documented), and score normalization maps scores into [0,1] without changing their order.", "quantifier": "all result lists and parameters", "why_tests_cant": "all lists", "anchors": ["pkg/core/reranker.go:DiversityReranker", "pkg/core/reranker.go:ScoreNormalizationReranker", "pkg/core/reranker.go:RRF"]}
{"id": "C74", "title": "Diversity selection returns distinct results within K", "statement": "Each diversity strategy returns distinct members of the candidate set, at most TopK, and starts with the best match.", "quantifier": "all candidate sets and parameters", "why_tests_cant": "all lists", "anchors": ["pkg/core/advanced_search.go:diversifyMMR", "pkg/core/advanced_search.go:diversifyDistance", "pkg/core/advanced_search.go:diversifyDPP"]}
{"id": "C75", "title": "Multi-vector scores aggregate fields as documented", "statement": "An entity's score is the maximum, minimum, sum or mean of its matching fields' scores, entities are listed once in descending score, at most TopK, and distinct entity/field pairs never overwrite each other.", "quantifier": "all entities, fields and strategies", "why_tests_cant": "all field sets and identifier strings", "anchors": ["pkg/core/multi_vector.go:UpsertMultiVector", "pkg/core/multi_vector.go:SearchMultiVector", "pkg/core/multi_vector.go:aggregateScores"]}
{"id": "C76", "title": "Keyword hits are the rows that currently contain the keyword", "statement": "A full-text match is returned for a record exactly when its current content contains the term, after any history of writes, replacements and deletions.", "quantifier": "all histories", "why_tests_cant": "index drift accumulates over histories", "anchors": ["pkg/core/store_init.go:createTables", "pkg/core/store_crud.go:Upsert"]}
{"id": "C77", "title": "Records without an access list inherit their document's", "statement": "A record stored without its own access list but belonging to a document with one is returned by an access-controlled search only to callers with a principal in the document's list.", "quantifier": "all stores, documents, records and principals", "why_tests_cant": "all combinations of document and record lists", "anchors": ["pkg/core/store_init.go:createTables", "pkg/core/advanced_search.go:SearchWithACL"]}
{"id": "C78", "title": "Filtered search returns the K best matching records", "statement": "A metadata-filtered search returns the K best scored records among those that match the filter.", "quantifier": "all stores, queries, filters and K", "why_tests_cant": "depends on how scores and filter interleave over all stores", "anchors": ["pkg/core/store_search.go:SearchWithFilter"]}
{"id": "C79", "title": "Filters made with the builder never panic and mean what was asked", "statement": "Any chain of filter builder calls with any values gives a filter that can be translated to SQL and evaluated without a panic, and means the conjunction of the conditions in the order called, Or joining two non-empty filters.", "quantifier": "all chains of builder calls and all values", "why_tests_cant": "chains are unbounded and values have any dynamic type", "anchors": ["pkg/core/advanced_filter.go:MetadataFilter", "pkg/core/advanced_filter.go:BuildSQLFromFilter", "pkg/core/advanced_filter.go:evaluateFilter"]}
{"id": "C80", "title": "Advanced search returns the K best records that satisfy both filters", "statement": "A search with a pre-filter and a post-filter returns the K best scored records of the collection among those satisfying both.", "quantifier": "all stores, queries and filter expressions", "why_tests_cant": "depends on how scores and filters interleave over all stores", "anchors": ["pkg/core/advanced_filter.go:SearchWithAdvancedFilter", "pkg/core/advanced_filter.go:fetchCandidatesWithSQL"]}
{"id": "C81", "title": "Context reranking keeps the chunks and starts with the most relevant", "statement": "Reranking retrieved chunks returns chunks of the input, none more often than given, as many as the chunk budget and the input allow, with rerank scores in [0,1], and the first one has the highest rerank score. The score is 60 % stretched search score, 25 % words shared with the question and 15 % names, and each place goes to the chunk that is best by score weighed against its likeness to the nearest chunk already chosen, where chunks of one document count as at least 0.85 alike.", "quantifier": "all chunk lists, queries, tokenizers and options", "why_tests_cant": "all lists and score patterns", "anchors": ["pkg/cortexdb/graphrag.go:rerankGraphRAGChunks", "pkg/cortexdb/graphrag.go:normalizeChunkScores", "pkg/cortexdb/graphrag.go:overlapScore"]}
{"id": "C82", "title": "Different entities have different graph nodes", "statement": "Two entities with different names are stored as different nodes.", "quantifier": "all pairs of entity names", "why_tests_cant": "all pairs of texts", "anchors": ["pkg/cortexdb/graphrag.go:graphEntityNodeID"]}
{"id": "C83", "title": "Saving a memory changes no other owner's memories", "statement": "A save by one owner leaves every memory saved by another owner in place.", "quantifier": "all histories of memory operations", "why_tests_cant": "all histories and id choices", "anchors": ["pkg/cortexdb/memory_api.go:SaveMemory"]}
{"id": "C84", "title": "Live memories are found", "statement": "A memory is found until its time to live is over; a search returns the best live memories of the bucket, and expired ones do not take the place of live ones.", "quantifier": "all memory tables, times, time-to-live values and searches", "why_tests_cant": "all times and tables", "anchors": ["pkg/cortexdb/memory_api.go:SearchMemory", "pkg/cortexdb/memory_api.go:buildMemoryMetadata", "pkg/core/chat.go:SearchChatHistory"]}
{"id": "C85", "title": "A saved knowledge item is exactly what was saved", "statement": "After a successful save, the item has the saved title, content and the next version, and its searchable chunks are exactly those of the new content.", "quantifier": "all databases in which chunks have their document, all items and failure schedules", "why_tests_cant": "all prior contents of the database", "anchors": ["pkg/cortexdb/knowledge_api.go:SaveKnowledge", "pkg/cortexdb/knowledge_api.go:cleanupKnowledgeArtifacts"]}
{"id": "C86", "title": "Ingesting a document again replaces its chunks", "statement": "After a document is ingested again under the same id, its chunks are exactly those of the new text.", "quantifier": "all databases, documents and chunk sizes", "why_tests_cant": "all pairs of old and new texts", "anchors": ["pkg/cortexdb/graphrag.go:InsertGraphDocument"]}
{"id": "C87", "title": "Deleting knowledge removes all of it", "statement": "A successful delete leaves no document, chunk, document node or chunk node of the item.", "quantifier": "all databases and failure schedules", "why_tests_cant": "all states", "anchors": ["pkg/cortexdb/knowledge_api.go:DeleteKnowledge"]}
{"id": "C88", "title": "A router with a store keeps its routes", "statement": "A router opened on the store of an earlier router has the routes of that router, each with all its utterances, and none that was removed.", "quantifier": "every sequence of Add, AddBatch and Remove calls followed by a reopening", "why_tests_cant": "What survives depends on the whole history of writes and removals.", "anchors": ["pkg/semantic-router/router.go:persistRoute", "pkg/semantic-router/router.go:loadRoutesFromStore", "pkg/semantic-router/router.go:Remove"]}
{"id": "C89", "title": "A function call is complete exactly when its required parameters have values", "statement": "Route of a function router reports IsComplete exactly when every required parameter of the schema has a value among the arguments.", "quantifier": "every schema, every set of registered patterns and every query", "why_tests_cant": "Schemas and patterns are user input; tests fix a few of them.", "anchors": ["pkg/semantic-router/schema.go:extractParameters"]}
{"id": "C90", "title": "The dense similarity functions are what they claim to be", "statement": "Cosine similarity is symmetric, within [-1,1], 1 for a non-zero vector with itself and unchanged by positive scaling. The Euclidean similarity is symmetric, at most 0, 0 exactly for equal vectors, and minus it is a metric. Dot product is symmetric and bounded by the product of the norms. On unit vectors all three order candidates alike.", "quantifier": "all vectors of any dimension (over the reals)", "why_tests_cant": "A statement about all real vectors.", "anchors": ["pkg/core/similarity.go:cosineSimilarity", "pkg/core/similarity.go:dotProduct", "pkg/core/similarity.go:euclideanDistance"]}
{"id": "C91", "title": "Sparse similarity is a cosine", "statement": "Sparse similarity is symmetric, within [-1,1], 1 for a non-zero vector with itself, 0 for texts without a common term, not negative for weights that are not negative; a hybrid of dense and sparse with a weight in [0,1] stays within [-1,1].", "quantifier": "all sparse vectors and weights (over the reals)", "why_tests_cant": "A statement about all real vectors and all map iteration orders.", "anchors": ["pkg/semantic-router/sparse.go:SparseSimilarity", "pkg/semantic-router/sparse.go:HybridSimilarity"]}
{"id": "C92", "title": "A sparse encoder depends on the corpus it was fitted on", "statement": "After Fit, the encoding of a text depends only on the corpus given to that Fit; two texts have a positive similarity exactly when they share a term, and a similarity within [0,1].", "quantifier": "all corpora, all earlier Fit calls and all texts", "why_tests_cant": "Ranges over histories of Fit calls and all texts.", "anchors": ["pkg/semantic-router/sparse.go:Fit", "pkg/semantic-router/sparse.go:EncodeSparse"]}
{"id": "C93", "title": "Index distances agree with the similarity functions", "statement": "For vectors of one dimension the cosine distance is 1 minus the cosine similarity (between 0 and 2, 0 from a non-zero vector to itself), the dot distance is minus the dot product and the Euclidean distance is minus the Euclidean similarity: nearest in the index means most similar.", "quantifier": "all pairs of vectors of equal dimension (over the reals)", "why_tests_cant": "A statement about all real vectors.", "anchors": ["pkg/index/hnsw.go:CosineDistance", "pkg/index/hnsw.go:EuclideanDistance", "pkg/index/hnsw.go:DotProductDistance", "pkg/core/similarity.go"]}
{"id": "C94", "title": "Deleting a bank removes its memories", "statement": "After DeleteBank succeeds the bank is not found any more and no memory retained into it is recalled, also after a bank of the same id is created again.", "quantifier": "all banks, histories and later operations", "why_tests_cant": "leftover memories only show up under later histories", "anchors": ["pkg/hindsight/hindsight.go:DeleteBank", "pkg/hindsight/hindsight.go:Recall"]}
{"id": "C95", "title": "Reflect keeps within its token budget", "statement": "The context returned by Reflect counts, at four bytes per token rounded down, at most the tokens of a positive budget, is left whole when it fits, and the reported token count is the one of the returned context.", "quantifier": "all contexts and budgets", "why_tests_cant": "all lengths", "anchors": ["pkg/hindsight/hindsight.go:Reflect"]}
{"id": "C96", "title": "Extracted facts are all accounted for", "statement": "RetainFromText counts a fact as retained exactly when it has an id and a vector and is stored, as skipped exactly when it lacks one of them, and reports one error per fact not retained.", "quantifier": "all lists of facts and store failures", "why_tests_cant": "all failure patterns", "anchors": ["pkg/hindsight/hooks.go:RetainFromText"]}
{"id": "C97", "title": "Observations that reach the threshold are persisted", "statement": "When Observe succeeds, every observation whose confidence reaches MinConfidence has been stored as an observation memory.", "quantifier": "all memory sets, thresholds and banks", "why_tests_cant": "depends on the memories found", "anchors": ["pkg/hindsight/hindsight.go:Observe", "pkg/hindsight/hindsight.go:RetainObservation"]}
{"id": "C98", "title": "Geographic distance is the great-circle distance", "statement": "The distance used by the geographic index is 6371 km times the angle between the two points on the sphere; it is symmetric, zero from a point to itself, at most half the circumference, and obeys the triangle inequality.", "quantifier": "all pairs and triples of coordinates", "why_tests_cant": "a trigonometric identity over all coordinates", "anchors": ["pkg/geo/geospatial.go:haversineDistance"]}
{"id": "C99", "title": "A rectangle given as a polygon accepts the points inside it", "statement": "SearchPolygon with the four corners of a rectangle accepts exactly the points inside the rectangle, with its northern and eastern sides and without its southern and western ones.", "quantifier": "all rectangles and points", "why_tests_cant": "borders and all coordinates", "anchors": ["pkg/geo/geospatial.go:pointInPolygon", "pkg/geo/geospatial.go:SearchPolygon"]}
{"id": "C100", "title": "Subgraph is the induced subgraph", "statement": "For distinct ids, Subgraph returns exactly the stored nodes among them and exactly the stored edges with both ends among them, each once.", "quantifier": "all graphs and id lists", "why_tests_cant": "A test checks one small graph and one id list; the claim ranges over every graph, including parallel edges, self loops, unknown ids and repeated ids.", "anchors": ["pkg/graph/graph_traversal.go:Subgraph"]}
{"id": "C101", "title": "Communities never join unconnected nodes", "statement": "Two nodes that community detection puts in the same community are connected by a chain of edges; a community's score is its share of the nodes and community ids are distinct.", "quantifier": "all graphs, weights and visit orders", "why_tests_cant": "Label propagation depends on map iteration order, which Go randomises; a test sees a handful of orders on a handful of graphs.", "anchors": ["pkg/graph/graph_algorithms.go:CommunityDetection"]}
{"id": "C102", "title": "The combined score is the weighted sum of its parts", "statement": "Each hybrid graph result carries the similarity, the inverse of one more than the shortest distance from the start, and the edge strength along a shortest path; its combined score is the weighted sum of the three, for every result alike.", "quantifier": "all graphs, queries, weights and thresholds", "why_tests_cant": "The rule must hold for every node whichever phase found it; a test on one graph does not compare the phases.", "anchors": ["pkg/graph/graph_hybrid.go:HybridSearch", "pkg/graph/graph_hybrid.go:collectGraphDistances"]}
{"id": "C103", "title": "Similarity in the graph is an exact ranking", "statement": "SimilarityInGraph returns the TopK most similar of exactly the other stored nodes that pass the threshold, each once, and fails for an unknown node.", "quantifier": "all graphs, thresholds and limits", "why_tests_cant": "Exactness over every graph and tie order is not settled by examples.", "anchors": ["pkg/graph/graph_hybrid.go:SimilarityInGraph"]}
{"id": "C104", "title": "Neighbourhood search ranks the whole neighbourhood", "statement": "GraphVectorSearch returns the most similar nodes among the start node and every node within the requested depth, direction and types.", "quantifier": "all graphs, options and limits", "why_tests_cant": "The interaction of limit and ranking shows only on graphs where the best neighbour is found late.", "anchors": ["pkg/graph/graph_hybrid.go:GraphVectorSearch"]}
{"id": "C105", "title": "Index-backed vector search over the graph is sound", "statement": "HNSWSearch returns at most K stored nodes, none twice, best first, none under the threshold, each scored against the vector indexed last for it, and skips a qualifying node the index found only when K at least as good are returned.", "quantifier": "all histories of index adds and removals, graphs, queries, limits and thresholds", "why_tests_cant": "Level draws, removals and graph edits interleave without bound.", "anchors": ["pkg/graph/graph_hnsw.go:HNSWSearch", "pkg/graph/graph_hnsw.go:Search"]}
{"id": "C106", "title": "Combined index and closeness search is an exact ranking of what the index found", "statement": "HNSWHybridSearch ranks exactly the stored nodes found by the index that pass both thresholds, by the weighted sum of similarity and 1/(hops+1) from the nearest centre, and returns the best TopK, each once.", "quantifier": "all index histories, graphs, centre lists, weights, thresholds and limits", "why_tests_cant": "Shortest paths over all graphs and all centre lists cannot be enumerated.", "anchors": ["pkg/graph/graph_hnsw.go:HNSWHybridSearch", "pkg/graph/graph_traversal.go:ShortestPath"]}
{"id": "C107", "title": "Exported files are recognised", "statement": "DetectFormat names the format of every file that Export wrote, whatever the graph contains.", "quantifier": "all graphs and all three formats, and every number of bytes the reader may deliver", "why_tests_cant": "Node texts can contain any word, and a reader may deliver any number of bytes.", "anchors": ["pkg/graph/graph_export.go:DetectFormat", "pkg/graph/graph_export.go:Export"]}
{"id": "C108", "title": "A small vector index answers exactly", "statement": "As long as no more than 2M+1 different ids were ever put into the HNSW index, a search whose candidate list can hold them all returns exactly the k nearest live vectors, and more generally every live vector of an index can be found by a search that asks for as many results as there are vectors.", "quantifier": "every distance function, every history of inserts, batches and deletes, every random level, every query, k and candidate list size", "why_tests_cant": "recall of an approximate index depends on the whole history of links and random levels; tests measure recall on random samples", "anchors": ["pkg/index/hnsw.go: HNSW.Search, HNSW.searchLayer, HNSW.pruneConnections"]}
{"id": "C109", "title": "Links per node stay within the configured limit", "statement": "No node of the HNSW index ever has more than M links on an upper layer or 2M links on the bottom layer.", "quantifier": "every history of inserts, batches, parallel builds and deletes, every random level", "why_tests_cant": "the limit must hold after each of an unbounded number of link and prune steps", "anchors": ["pkg/index/hnsw.go: HNSW.insertInternal, HNSW.pruneConnections, HNSW.InsertBatchParallel"]}
{"id": "C110", "title": "Index calls report errors exactly when they should and Size counts the live ids", "statement": "Insert returns an error exactly when the id was inserted before, Delete exactly when it never was, and Size is the number of ids inserted and not deleted.", "quantifier": "every history of inserts, batches, parallel builds and deletes", "why_tests_cant": "the outcome depends on the whole history", "anchors": ["pkg/index/hnsw.go: HNSW.Insert, HNSW.Delete, HNSW.Size"]}
{"id": "C111", "title": "A multi index search combines what its parts return", "statement": "The merging strategy returns the k nearest of everything the parts return, each id once with its smallest distance; the voting strategy ranks ids by how many parts name them; the rerank strategy orders the candidates of the primary part by the distances the secondary parts give them.", "quantifier": "every set of parts, every content, query and k, every map iteration order", "why_tests_cant": "the combination depends on the answers of all parts and on map iteration order", "anchors": ["pkg/index/multi_index.go: MultiIndex.Search, MultiIndex.searchMergeAll, MultiIndex.searchWithVoting, MultiIndex.searchWithRerank"]}
{"id": "C112", "title": "The HNSW adapter builds the index it was asked for", "statement": "An index made with NewHNSWAdapter(dimension, M) keeps at most M links per node on upper layers and 2M on the bottom layer.", "quantifier": "every dimension and M, every history of inserts and deletes", "why_tests_cant": "the limit must hold in every reachable state", "anchors": ["pkg/index/multi_index.go: NewHNSWAdapter"]}
{"id": "C113", "title": "Training a quantizer covers its training data and a failed training changes nothing", "statement": "Training on a non-empty batch of vectors of the right dimension succeeds and afterwards every training vector lies in the trained range (scalar) or the thresholds are the component means (binary); a failed training returns an error and leaves the quantizer as it was.", "quantifier": "all batches of training vectors", "why_tests_cant": "the failure position in the batch and the previous training are unbounded", "anchors": ["pkg/quantization/scalar_quantization.go:Train"]}
{"id": "C114", "title": "Product quantized search ranks by distance", "statement": "A search over product quantized codes returns the k codes whose reconstructions are nearest to the query by Euclidean distance, nearest first, with their distances.", "quantifier": "all codebooks, queries, code sets and k", "why_tests_cant": "all codebooks and queries", "anchors": ["pkg/quantization/product_quantization.go:SearchPQ", "pkg/quantization/product_quantization.go:ComputeDistance"]}
{"id": "C115", "title": "Product quantizer training yields usable codebooks", "statement": "Training on enough vectors of the dimension succeeds, gives the configured number of codewords of the right dimension for every subspace, and every codeword lies within the component ranges of the training vectors.", "quantifier": "all training sets, sizes and shuffles", "why_tests_cant": "all training sets and random shuffles", "anchors": ["pkg/quantization/product_quantization.go:Train", "pkg/quantization/product_quantization.go:kMeans"]}
{"id": "C116", "title": "A streaming search delivers every candidate", "statement": "A streaming search delivers every matching record exactly once with its score, batch by batch and best first within a batch, until the context is cancelled; with early termination it delivers at least the requested number of good results when there are that many.", "quantifier": "all candidate lists, batch sizes, consumers and schedules", "why_tests_cant": "consumer speed and schedule are unbounded", "anchors": ["pkg/core/streaming.go:StreamSearch"]}
{"id": "C117", "title": "Merging streams keeps every result", "statement": "The merged stream carries every result of every input exactly once, those of one input in their order, under every schedule, and is closed when all inputs are.", "quantifier": "all numbers of inputs, all inputs and all schedules", "why_tests_cant": "goroutine interleavings are unbounded", "anchors": ["pkg/core/streaming.go:MergeStreamResults"]}
{"id": "C118", "title": "Searching with pending updates merges them into the ranking", "statement": "A search on the incremental index returns the best results among the stored records and the pending updates it looked at, best first and at most TopK, each record once in its newest version.", "quantifier": "all stored results, pending updates and limits", "why_tests_cant": "all result lists and queues", "anchors": ["pkg/core/streaming.go:SearchWithUpdates"]}
{"id": "C119", "title": "Exclusive calls run alone", "statement": "While a call that takes the store (or an index, a router or the memory system) exclusively is inside its critical section, no other call is inside a critical section of the same component, under every schedule.", "quantifier": "all programs of calls, all numbers of threads and all schedules", "why_tests_cant": "goroutine interleavings are unbounded", "anchors": ["pkg/core/store.go:SQLiteStore.mu", "pkg/core/store_crud.go:DeleteBatch", "pkg/core/collections.go:CreateCollection"]}
{"id": "C120", "title": "Concurrent calls do not race", "statement": "Calls made from several goroutines never access the closed flag, the dimension, the quantizer, the lists of an index or the weight of a router while another goroutine changes it.", "quantifier": "all programs of calls, all numbers of threads and all schedules", "why_tests_cant": "a race detector only sees the schedules that happen to run", "anchors": ["pkg/core/store_search.go:Search", "pkg/core/store_crud.go:Upsert", "pkg/core/store_close.go:Close", "pkg/index/ivf.go:Delete", "pkg/semantic-router/hybrid.go:SetAlpha"]}
{"id": "C121", "title": "Routers, combined indexes and the memory system never deadlock", "statement": "No schedule of calls on the routers, the encoders, the combined indexes and the memory system, mixed with store calls, makes them wait for each other forever.", "quantifier": "all programs of calls, all numbers of threads and all schedules", "why_tests_cant": "goroutine interleavings are unbounded", "anchors": ["pkg/semantic-router/hybrid.go:HybridRouter", "pkg/semantic-router/sparse.go:BM25Encoder.Fit", "pkg/index/multi_index.go:MultiIndex", "pkg/hindsight/hindsight.go:System"]}
{"id": "C122", "title": "Load never overwrites a stored record unless asked", "statement": "Loading a dump with SkipExisting leaves every record that was in the store before unchanged; without Replace or Upsert a record of the dump does not silently replace a stored record of the same id, and with Replace the previous records are gone.", "quantifier": "all stores, dumps and load options", "why_tests_cant": "the combination of store contents, dump contents and options is unbounded", "anchors": ["pkg/core/io.go:processImportEmbedding", "pkg/core/io.go:LoadOptions"]}
{"id": "C123", "title": "Faceted search returns the best TopK among all records matching the facets", "statement": "A search with facet conditions returns the TopK most similar among all records whose metadata meet every condition, best first.", "quantifier": "every store, query, set of facet conditions, TopK", "why_tests_cant": "the candidate set is cut before scoring and conditions are assembled into SQL, so only particular combinations of store and conditions show the loss", "anchors": ["pkg/core/faceted_search.go:SearchWithFacets", "pkg/core/faceted_search.go:fetchCandidatesWithFacets", "pkg/core/faceted_search.go:buildFacetedWhereClause"]}
{"id": "C124", "title": "Facet counts are those of the records the search speaks about", "statement": "The counts returned per facet value equal the number of records of the searched collection having that value.", "quantifier": "every store and facet field", "why_tests_cant": "needs every content of the store, including records without metadata and other collections", "anchors": ["pkg/core/faceted_search.go:computeFacetCounts"]}
{"id": "C125", "title": "A keyword boost never demotes a matching result", "statement": "Reranking by keyword match never lowers the score of a result that contains a query word, and never puts it behind an equally good result without the word.", "quantifier": "every list of results, every score range, every query and boost", "why_tests_cant": "tests use cosine scores; the sign of the score decides", "anchors": ["pkg/core/reranker.go:KeywordMatchReranker.Rerank"]}
{"id": "C126", "title": "Searching with a reranker honours its options", "statement": "Results of a search with a reranker are those of the reranker, in its order, at most TopK, all at or above the threshold; PreserveOriginalScore keeps the original score.", "quantifier": "every store, query, reranker and option value", "why_tests_cant": "the effect of an option must be compared over all rerankers and stores", "anchors": ["pkg/core/reranker.go:SearchWithReranker", "pkg/core/reranker.go:RerankOptions"]}
{"id": "C127", "title": "Positive and negative examples rank by similarity less weighted dissimilarity", "statement": "A search with positive and negative examples answers with the TopK records in scope of greatest similarity to a positive example less the weight times the greatest similarity to a negative example.", "quantifier": "every store, examples, weight, scope and TopK", "why_tests_cant": "the score has a floor at 0 that only some similarity functions and vectors reach", "anchors": ["pkg/core/advanced_search.go:SearchWithNegatives"]}
{"id": "C128", "title": "Recommendations follow the examples", "statement": "RecommendSimilar ranks the records in scope by similarity to the stored examples, reports examples that do not exist and does not recommend the examples themselves.", "quantifier": "every store, positive and negative identifiers, scope", "why_tests_cant": "needs all combinations of known and unknown identifiers", "anchors": ["pkg/core/advanced_search.go:RecommendSimilar"]}
{"id": "C129", "title": "Anomalies are ranked by the mean distance to the nearest five others", "statement": "FindAnomalies answers with the TopK records in scope of greatest mean distance to their five nearest other records (all others when fewer).", "quantifier": "every store, scope and TopK", "why_tests_cant": "the five nearest must be right for every record of every store, ties included", "anchors": ["pkg/core/advanced_search.go:FindAnomalies"]}
{"id": "C130", "title": "A multi-vector search leaves the caller's options as they were", "statement": "SearchMultiVector must not write into the filter map the caller passed in SearchOptions.Filter.", "quantifier": "every list of queries and every filter", "why_tests_cant": "Tests look at the answer, not at the arguments afterwards; the map is shared by the caller's later searches.", "anchors": ["pkg/core/multi_vector.go:SearchMultiVector"]}
{"id": "C131", "title": "Writing an entity with several vectors is all or nothing, in the store and in the index", "statement": "UpsertMultiVector of an entity with encodable vectors succeeds whatever other records exist, and when it fails neither rows nor the index have changed.", "quantifier": "every store, entity, failing vector and failing commit", "why_tests_cant": "The failing vector and the foreign-key setting of the connection drawn from the pool vary; tests use one connection and good vectors.", "anchors": ["pkg/core/multi_vector.go:UpsertMultiVector", "pkg/core/store_init.go:Init"]}
{"id": "C132", "title": "Deleting an entity removes all its vectors and nothing else", "statement": "After DeleteMultiVectorEntity the entity is not found, every record of other entities is kept, and the index forgets exactly its vectors.", "quantifier": "every store and entity identifier, including stores that also hold plain records", "why_tests_cant": "Depends on what other records (with or without metadata) happen to be in the store.", "anchors": ["pkg/core/multi_vector.go:DeleteMultiVectorEntity"]}
{"id": "C133", "title": "Hybrid search finds by keyword what is stored", "statement": "HybridSearch and SearchTextOnly find a stored record by a word of its current text, however often records were written or deleted before, as long as no more than the candidate limit of records match.", "quantifier": "all histories of writes and deletions, all queries and limits", "why_tests_cant": "The full-text index keeps entries of replaced rows; the effect shows only after enough rewrites, or after a particular order of rewrite and delete.", "anchors": ["pkg/core/advanced_search.go:HybridSearch", "pkg/core/store_init.go:createTables", "pkg/core/store_crud.go:Upsert"]}
{"id": "C134", "title": "Keyword hits of messages and memories are the messages that currently contain the keyword", "statement": "After any history of adding, saving, updating and deleting messages, a keyword search returns only messages whose current text satisfies the query, each once, all of them when the limit allows, and never fails on the index.", "quantifier": "all histories of message writes, all boolean queries, conditions and limits", "why_tests_cant": "index drift accumulates over histories", "anchors": ["pkg/core/store_init.go:createTables", "pkg/core/chat.go:KeywordSearchMessages", "pkg/cortexdb/memory_api.go:SaveMemory"]}
{"id": "C135", "title": "Retrieval over chunks and graph returns seeds and their linked chunks, and nothing else", "statement": "For a query that matches something and a search that uses the graph: every returned chunk is a vector hit with its own score, or a chunk the graph returns around a hit, with the text stored there and half the score of the best hit it is linked to; no chunk comes twice; the entities listed are those around the hits and next to the chunks found; every hit and the best linked chunks are in the answer unless a budget of the options is used up; the context text is that of the returned chunks; the search fails only when a part it calls fails.", "quantifier": "all graphs, all vector hits, all options, all queries, all sort orders of equal scores", "why_tests_cant": "Which chunks survive depends on the interplay of link scores, reranking and three budgets over arbitrary graphs.", "anchors": ["pkg/cortexdb/graphrag.go:SearchGraphRAG", "pkg/cortexdb/graphrag.go:rerankGraphRAGChunks", "pkg/cortexdb/graphrag.go:packGraphRAGContext"]}
{"id": "C136", "title": "A retrieval in a collection stays in the collection", "statement": "A chunk returned by SearchGraphRAG with a collection set belongs to that collection.", "quantifier": "all stores with several collections, all graphs, all queries", "why_tests_cant": "It takes two collections whose documents mention the same entity.", "anchors": ["pkg/cortexdb/graphrag.go:SearchGraphRAG"]}
{"id": "C137", "title": "Reranking can be switched off", "statement": "With Rerank set to false the chunks come in the order of their search scores.", "quantifier": "all queries, all hits, all options", "why_tests_cant": "The option's zero value and its explicit value cannot be told apart; the effect shows only when text overlap and scores disagree.", "anchors": ["pkg/cortexdb/graphrag.go:applyGraphRAGQueryDefaults", "pkg/cortexdb/graphrag.go:SearchGraphRAG"]}
{"id": "C138", "title": "The best text hit of a lexical retrieval can come first", "statement": "In a lexical retrieval a chunk that matches the query's words is not ranked below a chunk that is merely linked to another hit and shares no word with the query.", "quantifier": "all graphs, all text hits, all queries, all options", "why_tests_cant": "The two kinds of scores are on different scales; whether this matters depends on links between arbitrary hits.", "anchors": ["pkg/cortexdb/graphrag_tools.go:SearchGraphRAGLexical", "pkg/cortexdb/graphrag_tools.go:searchTextCandidates"]}
{"id": "C139", "title": "Lexical retrieval returns text hits, entity hits and their linked chunks, with the best score of each", "statement": "For a lexical retrieval that uses the graph: every returned chunk is a text hit, a hit by entity, or a chunk the graph returns around one of them; its score is the best of all the ways it was found (text score; at least 3/4 by entity; 1/2 by link); no chunk comes twice; the chunk budget holds; the context is that of the chunks.", "quantifier": "all graphs, all text and entity hits, all options, all queries", "why_tests_cant": "A chunk can be found in many ways in any order; only the best may count.", "anchors": ["pkg/cortexdb/graphrag_tools.go:SearchGraphRAGLexical"]}
{"id": "C140", "title": "Chunks are fetched and packed in the order asked", "statement": "GetChunks returns the stored chunks for the ids in the order asked and skips ids that are not stored; BuildContext packs a subsequence of them that starts with the first, respects the budgets, and leaves a chunk out only when a budget is used up.", "quantifier": "all id lists with unknown and repeated ids, all stores, all budgets", "why_tests_cant": "Budget and order interplay over arbitrary lists.", "anchors": ["pkg/cortexdb/graphrag_tools.go:GetChunks", "pkg/cortexdb/graphrag_tools.go:BuildContext", "pkg/cortexdb/graphrag_tools.go:loadToolChunks"]}
{"id": "C141", "title": "The graph writing tools report only what was stored", "statement": "After UpsertRelations or UpsertEntities returns without error, every edge id and node id it reports is stored with the ends, type, weight and properties that were sent, the counts it reports are the numbers stored, and nothing else in the graph changed.", "quantifier": "all graphs, all lists of entities and relations, with and without foreign keys enforced", "why_tests_cant": "The gap shows only for requests that mention an entity or chunk that is not stored, in combination with the others of the request.", "anchors": ["pkg/cortexdb/graphrag_tools.go:UpsertEntities", "pkg/cortexdb/graphrag_tools.go:UpsertRelations", "pkg/graph/graph_batch.go:UpsertEdgesBatch"]}
{"id": "C142", "title": "Recording the same relation again adds no second edge", "statement": "A relation that is already stored (same ends, same type) and is sent again updates the stored edge; the graph never holds two edges for one relation.", "quantifier": "all graphs, all sequences of requests", "why_tests_cant": "Depends on the history of requests and on the position of the relation in each.", "anchors": ["pkg/cortexdb/graphrag_tools.go:UpsertRelations"]}
{"id": "C143", "title": "An entity recorded as mentioned in a chunk is listed among the entities of that chunk", "statement": "After an entity was recorded with a chunk id, fetching that chunk with its entities lists the entity, whatever its type; nothing is listed that is not linked to the chunk.", "quantifier": "all graphs, all chunks, all entity types", "why_tests_cant": "Needs all graphs around a chunk; the type filter and the neighbour limit only show on some of them.", "anchors": ["pkg/cortexdb/graphrag_tools.go:chunkEntityNames", "pkg/cortexdb/graphrag_tools.go:GetChunks"]}
{"id": "C144", "title": "Chunks by entities are scored by how many of the named entities they are linked to", "statement": "Searching chunks by entities returns chunks within the given number of hops of a named entity, each once, with the number of named entities it is near to as score, best first, ties by id, cut at the number asked.", "quantifier": "all graphs, all lists of names, all limits and hop counts", "why_tests_cant": "Ranking and cut interplay over arbitrary graphs; a name may be given in several spellings.", "anchors": ["pkg/cortexdb/graphrag_tools.go:SearchChunksByEntities"]}
{"id": "C145", "title": "Expanding the graph returns exactly the reachable part", "statement": "ExpandGraph without a limit returns, each once, exactly the stored nodes asked for or reached from them by walks of at most the given number of hops along edges of the wanted types, restricted to wanted node types, and exactly the stored edges between returned ids.", "quantifier": "all graphs with cycles and self loops, all start lists, all filters and hop counts", "why_tests_cant": "Reachability over all graphs.", "anchors": ["pkg/cortexdb/graphrag_tools.go:ExpandGraph", "pkg/graph/graph_traversal.go:Neighbors", "pkg/graph/graph_traversal.go:Subgraph"]}
{"id": "C146", "title": "Expanding the graph along edge types shows only edges of these types", "statement": "When ExpandGraph is given edge types, every returned node is reached along edges of those types and every returned edge has one of those types.", "quantifier": "all graphs, all edge type filters", "why_tests_cant": "Needs graphs with parallel edges of several types between the found nodes.", "anchors": ["pkg/cortexdb/graphrag_tools.go:ExpandGraph"]}
{"id": "C147", "title": "The lexical vector is a bag of words of fixed dimension and never zero", "statement": "Without an embedder the vector of a text has the configured dimension, is never zero, counts each word at one position that depends on the word alone, and does not depend on the order or case of the words or on punctuation around them.", "quantifier": "all texts, all dimensions, all hash functions", "why_tests_cant": "All texts; collisions of the hash are unavoidable and must not break the counts.", "anchors": ["pkg/cortexdb/graphrag_tools.go:lexicalVectorForText", "pkg/cortexdb/graphrag_tools.go:normalizeToolToken"]}
{"id": "C148", "title": "The full-text queries made from a question are distinct, non-blank and lose no keyword", "statement": "The queries made from a question, keywords and alternates are pairwise different, none is blank, the first is the trimmed question, every non-blank alternate is among them, and every keyword (a run of letters or digits of at least two bytes that is no stop word) of the question or of the given keywords occurs as a term of one of them.", "quantifier": "all questions, keywords and alternates", "why_tests_cant": "All texts in all scripts.", "anchors": ["pkg/cortexdb/graphrag_tools.go:lexicalSearchQueries", "pkg/cortexdb/graphrag_tools.go:lexicalQueryKeywords", "pkg/cortexdb/graphrag_tools.go:mergeLexicalKeywords", "pkg/cortexdb/graphrag_tools.go:formatFTSKeywords"]}
{"id": "C149", "title": "An argument taken after a keyword stands in the text", "statement": "The value that parameter extraction takes after a keyword of a parameter is a word of the user's text that follows the keyword, without blanks, quotes or punctuation and as long as possible, and such a word is found when it is written after the first place of the keyword.", "quantifier": "all texts, all keywords without characters special to regular expressions", "why_tests_cant": "All texts; leftmost matching with optional parts has many ways to pick a wrong place or to stop early.", "anchors": ["pkg/semantic-router/schema.go:RegexExtractor.extractValue", "pkg/semantic-router/schema.go:RegexExtractor.Extract"]}
{"id": "C150", "title": "A number in the text is the number passed to the function", "statement": "An integer or number argument extracted for a function equals the number written in the text.", "quantifier": "all numbers, all surrounding texts", "why_tests_cant": "All numbers: negative ones, fractions and numbers beyond 64 bits behave differently from the ones usually tried.", "anchors": ["pkg/semantic-router/schema.go:RegexExtractor.coerceType", "pkg/semantic-router/schema.go:RegexExtractor.extractValue"]}
{"id": "C151", "title": "An enumerated parameter gets one of its values", "statement": "The argument of a parameter with an enumeration is one of the enumerated values or the default.", "quantifier": "all texts and enumerations", "why_tests_cant": "All texts: the value after a keyword is not compared with the enumeration.", "anchors": ["pkg/semantic-router/schema.go:RegexExtractor.extractValue", "pkg/semantic-router/schema.go:SchemaBuilder.AddParameterWithEnum"]}
{"id": "C152", "title": "A matched text becomes a call of the route's function, and only complete calls run", "statement": "When a text matches a route, the function router answers with a call of the function registered for that route, latest registration first; executing the call runs that function's handler exactly when every required parameter has a value, with arguments of its parameters only.", "quantifier": "all routing results, all histories of registered functions, all texts", "why_tests_cant": "All histories of registrations and all texts.", "anchors": ["pkg/semantic-router/schema.go:FunctionRouter.Add", "pkg/semantic-router/schema.go:FunctionRouter.Route", "pkg/semantic-router/schema.go:FunctionCall.Execute"]}
{"id": "C153", "title": "The list of required parameters of a schema is right and decides completeness", "statement": "A schema's list of required parameters holds every parameter last added as required once and nothing else, however often the schema is built, and a call is complete exactly when all parameters on that list have values.", "quantifier": "all sequences of builder calls, all schemas, all texts", "why_tests_cant": "All sequences of builder calls with parameters redefined and schemas built repeatedly or read from JSON.", "anchors": ["pkg/semantic-router/schema.go:SchemaBuilder.Build", "pkg/semantic-router/schema.go:SchemaBuilder.AddParameter", "pkg/semantic-router/schema.go:RegexExtractor.Extract"]}
{"id": "C154", "title": "Parameter extraction never panics", "statement": "Extracting parameters from a text returns for every schema and every text.", "quantifier": "all schemas and texts", "why_tests_cant": "All descriptions and texts: a description is compiled as a regular expression, word by word, only when the text contains the word.", "anchors": ["pkg/semantic-router/schema.go:RegexExtractor.extractValue", "pkg/semantic-router/schema.go:RegexExtractor.extractKeywords"]}
{"id": "C155", "title": "Ingested document is complete in the graph", "statement": "After InsertGraphDocument succeeds, the graph holds a document node, one chunk node per chunk with exactly the chunk's text, a has_chunk edge from the document to every chunk and a next edge from every chunk to the one after it; nothing else is added except edges and nodes for what the extractor returned, and ingesting the same document again changes no edge and no node.", "quantifier": "every document id, title, text, chunking options, extractor, embedder that returns non-empty vectors, map iteration order and previous graph", "why_tests_cant": "the structure depends on id formatting for every number of chunks and on ids never colliding between kinds of edges for all document ids, including ids with colons; tests fix a few ids", "anchors": ["pkg/cortexdb/graphrag.go: InsertGraphDocument, graphChunkNodeID, graphDocumentNodeID", "pkg/graph/graph_batch.go: UpsertNodesBatch, UpsertEdgesBatch"]}
{"id": "C156", "title": "Extracted entities become nodes the chunks point to", "statement": "After InsertGraphDocument succeeds, every entity with a non-blank name that the extractor returned for a chunk has a node with the name and type of an entity extracted under the same id, the chunk has a mentions edge to it, and the answer lists exactly the ids of the extracted entities, each once.", "quantifier": "every document, extractor answer, order in which Go visits its maps, and previous graph", "why_tests_cant": "Go randomises map iteration, and extractor answers range over all lists of names, many of which share an id; a test sees one order and a few names", "anchors": ["pkg/cortexdb/graphrag.go: InsertGraphDocument, graphEntityNodeID"]}
{"id": "C157", "title": "Extracted relations are not lost", "statement": "After InsertGraphDocument succeeds, every relation with two non-blank ends that the extractor returned for a chunk is an edge of the graph with its ends, type and weight (1 when unset).", "quantifier": "every document, extractor answer, previous graph and foreign key setting of the connection", "why_tests_cant": "needs all extractor answers, in particular relations whose ends were not also listed as entities, and both foreign key settings of the pooled connections", "anchors": ["pkg/cortexdb/graphrag.go: InsertGraphDocument", "pkg/graph/graph_batch.go: UpsertEdgesBatch", "pkg/core/store_init.go: Init"]}
{"id": "C158", "title": "A failed ingestion leaves the graph as it was", "statement": "When InsertGraphDocument returns an error it has changed neither nodes nor edges of the graph, and it never panics.", "quantifier": "every input, every failing step (record, extractor, rows, each batch, embedder) and every embedder answer, also too short ones", "why_tests_cant": "a test would have to inject a failure at every step for every number of chunks", "anchors": ["pkg/cortexdb/graphrag.go: InsertGraphDocument"]}
{"id": "C159", "title": "Ingestion without an embedder", "statement": "The ingest_document tool needs no embedder: for every non-empty id and non-blank text it succeeds when the database accepts the writes, and the graph then holds the document with all chunks in order, each with a vector of the dimension of the collection, else of the configuration, else 64; nothing else changes.", "quantifier": "every id, title, text, chunking options, collection and configured dimension, and previous graph", "why_tests_cant": "ranges over all texts and dimensions; tests ingest a few", "anchors": ["pkg/cortexdb/graphrag_tools.go: IngestDocument, lexicalVectorDim, ensureLexicalCollection, lexicalVectorForText"]}
{"id": "C160", "title": "The document vector is the mean of the chunk vectors", "statement": "The vector of a document node has the embedder's dimension and each of its coordinates lies within the range of that coordinate over the chunk vectors; for one chunk it is the chunk's vector.", "quantifier": "every non-empty list of chunk vectors of the embedder's dimension", "why_tests_cant": "quantifies over all vectors and all coordinates; a test compares a few sums", "anchors": ["pkg/cortexdb/graphrag.go: averageVectors, InsertGraphDocument"]}
{"id": "C161", "title": "The graph index of a store follows its table", "statement": "After any history of writes and removals every stored record can be reached through the store's HNSW index with its stored vector, and the index holds no record that is not stored.", "quantifier": "every history of upserts, batches, removals by id, list, filter, document and collection, clears, closes and reopens, every fault and connection choice, every index that behaves like the HNSW index", "why_tests_cant": "quantifies over all interleavings of write kinds; a test checks the index after a handful of calls", "anchors": ["pkg/core/store_crud.go: Upsert, UpsertBatch, Delete, DeleteBatch, DeleteByFilter, Clear, ClearByDocID, DeleteByDocID", "pkg/core/document.go: DeleteDocument", "pkg/index/hnsw.go: Insert, Delete"]}
{"id": "C162", "title": "The inverted file of a store follows its table", "statement": "After any history of writes and removals a trained inverted file index of the store lists every stored record exactly once and no record that is not stored.", "quantifier": "every history of writes and removals, every fault and connection choice, every index that behaves like the inverted file", "why_tests_cant": "quantifies over all histories of mixed writes and removals; a test checks a few", "anchors": ["pkg/core/store_crud.go: Upsert, UpsertBatch, Delete, DeleteBatch, DeleteByFilter", "pkg/core/document.go: DeleteDocument", "pkg/index/ivf.go: Add, Delete"]}
{"id": "C163", "title": "A written record is in the collection the caller names", "statement": "A record written with a collection id is in that collection, one written with a collection name is in the collection of that name and shows that name when read, one written with neither is in the default collection; a name that does not exist is refused and nothing changes; the collection always exists.", "quantifier": "every store state, record and batch, every position in a batch, every connection of the pool", "why_tests_cant": "quantifies over all states and batches and over which pooled connection runs the statement", "anchors": ["pkg/core/store_crud.go: Upsert, UpsertBatch", "pkg/core/collections.go: GetCollection", "pkg/core/store_query.go: GetByID"]}
{"id": "C164", "title": "An inserted text can be read back with the embedder's vector", "statement": "After InsertText succeeds, reading the id gives the text, the metadata and the embedder's vector adapted to the store's dimension, and no other record changed; when it fails (no embedder, empty text, embedder error, store error) no record changed.", "quantifier": "every store state, id, text, metadata, embedder, fault and connection", "why_tests_cant": "quantifies over all store states, embedders and failures", "anchors": ["pkg/cortexdb/cortexdb.go: InsertText", "pkg/core/store_crud.go: Upsert"]}
{"id": "C165", "title": "A map of texts is inserted completely or not at all", "statement": "After InsertTextBatch succeeds every non-empty text of the map is stored under its id with the vector the embedder gave for that text, whatever the order in which the map was visited, and no other record changed; when it fails nothing changed; it behaves as inserting each text alone.", "quantifier": "every store state, map of texts, visiting order, embedder and fault position", "why_tests_cant": "quantifies over all visiting orders of the map and all embedder answers, including too few vectors", "anchors": ["pkg/cortexdb/cortexdb.go: InsertTextBatch", "pkg/core/store_crud.go: UpsertBatch"]}
{"id": "C166", "title": "The quick interface never overwrites a record", "statement": "A vector or text added through Quick can be read back under the returned id, every record stored before is unchanged, and a failed call stores nothing; texts it accepts are those InsertText accepts.", "quantifier": "every store state, collection, vector, text, embedder, fault, and every fresh id", "why_tests_cant": "quantifies over all store states and failures", "anchors": ["pkg/cortexdb/cortexdb.go: Quick.Add, Quick.AddToCollection, Quick.AddText, Quick.AddTextToCollection"]}
{"id": "C167", "title": "Info reports how the database was opened", "statement": "Info returns the path, dimension, index type and similarity the database was opened with, and the index it names is the enabled one.", "quantifier": "every configuration", "why_tests_cant": "quantifies over all configurations", "anchors": ["pkg/cortexdb/cortexdb.go: Open, Info"]}
{"id": "C168", "title": "Training learns a full set of cell centres that are means of stored vectors", "statement": "Training the inverted-file index on at least as many vectors as cells, all of one dimension, never panics and learns exactly one centre per cell, of that dimension; every centre is the mean of some of the vectors; and the total squared distance of the vectors to their closest centre is no worse than for some choice of the vectors themselves as centres, and never gets worse with more rounds.", "quantifier": "every list of vectors, number of cells, number of rounds and outcome of the random choices", "why_tests_cant": "The result depends on random choices and on duplicates among the vectors; tests run a handful of seeds on well-separated data and never see an empty cell.", "anchors": ["pkg/index/ivf.go:kMeansIVF", "pkg/index/ivf.go:euclideanDistanceIVF"]}
{"id": "C169", "title": "Training the index lists every stored record once, and a failed training changes nothing", "statement": "When training succeeds the index lists every stored record exactly once, whatever it held before, and a search over all cells is exact over the stored records. When training is refused or fails, the index and its settings are as before.", "quantifier": "every store state, previous index, requested number of cells, set of stored records, random choices and failure of the query", "why_tests_cant": "The failure only shows on retraining a trained index after records were deleted or when the query fails; tests train once on enough data.", "anchors": ["pkg/core/store_index.go:TrainIndex", "pkg/index/ivf.go:Train", "pkg/index/ivf.go:Clear"]}
{"id": "C170", "title": "A saved knowledge item reads back as it was saved", "statement": "After any history of saves and updates, when SaveKnowledge succeeds GetKnowledge shows the title, content, source, author, metadata and collection that were given, one chunk per part of the content, the entities found in the content or given for its chunks and no others, and a version one higher than before; the readers set on the document and its creation time survive; and nothing shown of any other item changes.", "quantifier": "every history of saves, updates, document edits and time, every request and every other item", "why_tests_cant": "Saving over an existing item goes through deletion and re-creation of the document, its chunks and its graph nodes; what is lost on that way depends on the history and on what other interfaces wrote to the document.", "anchors": ["pkg/cortexdb/knowledge_api.go:SaveKnowledge", "pkg/cortexdb/knowledge_api.go:loadKnowledgeRecord", "pkg/cortexdb/knowledge_api.go:ingestKnowledgeContent", "pkg/cortexdb/knowledge_memory_helpers.go:stringMapToAnyMap"]}
{"id": "C171", "title": "An update of a knowledge item changes what it names and nothing else", "statement": "When UpdateKnowledge succeeds, every field named in the request has the new value, every other field (title, content, source, author, collection, metadata, chunks, entities, readers, creation time) is as it was shown before, the version is one higher, and nothing shown of any other item changes.", "quantifier": "every history of saves, updates, document edits and time, every combination of named and unnamed fields, and every other item", "why_tests_cant": "There are hundreds of combinations of named fields, and the losses only show in fields that were set by an earlier call or through another interface.", "anchors": ["pkg/cortexdb/knowledge_api.go:UpdateKnowledge", "pkg/cortexdb/knowledge_api.go:cleanupKnowledgeArtifacts", "pkg/cortexdb/knowledge_api.go:upsertKnowledgeDocumentRecord", "pkg/cortexdb/knowledge_api.go:knowledgeCollection"]}
{"id": "C172", "title": "Snippets are short, faithful and valid text", "statement": "The snippet of a search hit is at most 180 bytes long. If the text with its white space reduced to single spaces fits, the snippet is that text; otherwise it is a beginning of it followed by three dots. It is always valid text.", "quantifier": "all contents, of any length and script", "why_tests_cant": "Tests use short English texts; the property concerns every text, in particular those where the cut falls inside a character of several bytes.", "anchors": ["pkg/cortexdb/knowledge_memory_helpers.go: compactSnippet"]}
{"id": "C173", "title": "Reflect's text lists what was recalled", "statement": "The text Reflect returns lists every recalled memory exactly once, under the heading of its type and in the order recalled, or says that nothing was found. Under a token budget it is a beginning of the whole text, still valid text.", "quantifier": "all lists of recalled memories, of any types and contents, all questions and budgets", "why_tests_cant": "Tests look at a few memories of the four known types without a tight budget; the property quantifies over all types a memory can be retained with and all cut positions.", "anchors": ["pkg/hindsight/hindsight.go: Reflect, formatContext, Retain"]}
{"id": "C174", "title": "A memory comes back as it was retained", "statement": "A memory that was retained and is then recalled has the same id, bank, type, content, entities, metadata and time, and, for opinions and observations, the same confidence. Other memories are not changed by retaining it.", "quantifier": "all memories (any entity names and metadata keys) and all previous contents", "why_tests_cant": "Round-trip over every memory, including names with the separator inside and metadata keys that collide with internal ones; tests use a few benign memories.", "anchors": ["pkg/hindsight/hindsight.go: Retain, buildMetadata, scoredEmbeddingToMemory"]}
{"id": "C175", "title": "An observation comes back as it was added", "statement": "An observation that was added is listed exactly once among the observations of its bank, with its content, confidence, time, kind, sources and reasoning; only observations of that bank are listed.", "quantifier": "all observations, all previous contents, all banks", "why_tests_cant": "The claim is about every observation and everything stored before it; tests check at most that some observation is listed.", "anchors": ["pkg/hindsight/hindsight.go: RetainObservation, AddObservation, GetObservations"]}
{"id": "C176", "title": "The memory system works with the collection it is configured for", "statement": "With any collection name in the configuration, a memory whose vector has the configured dimension is accepted by the memory system.", "quantifier": "all collection names, memories and databases", "why_tests_cant": "Every configuration value is quantified over; tests use the default name only.", "anchors": ["pkg/hindsight/hindsight.go: New, getCollection, Retain", "pkg/core/collections.go: CreateCollection, GetCollection"]}
{"id": "C177", "title": "Search refuses unusable queries and answers the others", "statement": "A search is answered exactly when the store is open and the query is usable: it has components, all of them numbers, and the dimension of the store (or one the store's policy adapts). A query without components is refused. The same holds with a metadata filter.", "quantifier": "all queries, store states, dimensions, indexes, options and filters", "why_tests_cant": "An equivalence over every query vector and store state; tests show single refused or answered queries.", "anchors": ["pkg/core/store_search.go: Search, SearchWithFilter, validateSearchInput", "internal/encoding/utils.go: ValidateVector", "pkg/core/dimension.go: AdaptVector"]}
{"id": "C178", "title": "A quantised index stands for the vectors that were stored", "statement": "With scalar quantization on, the vector index compares queries with a vector that is below the stored one by less than one quantization step in every component, for every record: after opening a store, after single writes and after batches, and training the quantizer again does not change what the index holds. (Holds for records of the first 1000 after opening or for the first batch; violated for a new store written one record at a time, where every record after the first is seen as the first, by training again, and by a batch whose first vector is too short, which panics.)", "quantifier": "Every dimension, bit width, list of records with distinct ids, and every later value written", "why_tests_cant": "A test writes a few records and checks that a search returns something; the scores returned are computed from the stored vectors, so that the index seeing every record as the first one only shows as missing results in large stores.", "anchors": ["pkg/core/store_crud.go:Upsert", "pkg/core/store_crud.go:UpsertBatch", "pkg/core/store_index.go:TrainQuantizer", "pkg/core/store_index.go:initHNSWIndex", "pkg/index/hnsw.go:Insert", "pkg/index/hnsw.go:InsertBatch", "pkg/index/hnsw.go:calculateDistance"]}
{"id": "C179", "title": "A quantised index survives closing, crashing and reopening", "statement": "After a snapshot of the index and reopening, the index compares queries with the same vector for every record as before, whatever records were written since the store was opened, and at whatever point the process stopped while writing the snapshot. (Holds when the snapshot was written completely and the bit width is valid; violated when the first snapshot stops between its two statements, and when the store is reopened without a valid bit width: then no record kept only as a code is seen.)", "quantifier": "Every store content, every sequence of writes, every point of a crash while the snapshot is written, every configuration at reopening", "why_tests_cant": "The crash point between two statements and the configuration at the next start are outside what a unit test of saving and loading covers.", "anchors": ["pkg/core/store_index.go:saveIndexSnapshot", "pkg/core/store_index.go:loadIndexSnapshot", "pkg/core/store_index.go:initHNSWIndex", "pkg/index/hnsw.go:Save", "pkg/index/hnsw.go:Load"]}
{"id": "C180", "title": "The tools offered to language models are the tools that answer", "statement": "The list of tool definitions, the tool dispatcher and the MCP server have the same tools, each with the same request and handler; every published argument is an argument of the request and vice versa, the arguments published as required are the ones that are not optional, and every argument object that follows the published schema is decoded, each argument receiving the value given for it. (Decoding is violated for metadata maps with values other than strings and for integers written with a fraction part, both of which the schemas allow.)", "quantifier": "Every tool name, every argument object", "why_tests_cant": "The dispatcher, the definitions and the server are three hand-written tables with some hundred entries; tests call a handful of tools with typical arguments.", "anchors": ["pkg/cortexdb/graphrag_tools.go:Definitions", "pkg/cortexdb/graphrag_tools.go:Call", "pkg/cortexdb/knowledge_memory_tooldefs.go:knowledgeMemoryToolDefinitions", "pkg/cortexdb/mcp.go:NewMCPServer", "pkg/cortexdb/knowledge_memory_types.go:KnowledgeSaveRequest"]}
{"id": "C181", "title": "Metadata conditions mean the stored text", "statement": "A search with metadata conditions returns exactly the found records that carry, under every key asked for, the text of the value asked for; a whole number asked for finds the records that hold that number, however the number is typed. (The latter is violated for floating point conditions of seven digits or more, which are compared in exponent notation, and for conditions of other number types, which match nothing.)", "quantifier": "Every list of results, every set of conditions, every number", "why_tests_cant": "Tests compare small integers and short strings; the change of notation at 1000000 and the silent mismatch of other types are not sampled.", "anchors": ["pkg/core/store_search.go:compareMetadataValues", "pkg/core/store_search.go:filterByMetadata", "pkg/core/store_search.go:SearchWithFilter"]}
{"id": "C182", "title": "A CSV export is readable, and success means it was written", "statement": "The CSV export of an open store is a text that an RFC 4180 reader reads back as the column names and one row per record, in order, with id, content, document id, metadata and vector text exactly as stored, whatever quotes, commas, line ends or spaces they contain. An export in any format that reports success has written all of its text.", "quantifier": "every store state, export options, field contents, disk capacity", "why_tests_cant": "Contents are arbitrary strings and the disk may fill up at any byte; tests export a few plain records to a buffer that never fails.", "anchors": ["pkg/core/io.go:dumpCSV", "pkg/core/io.go:dumpJSONL", "pkg/core/io.go:dumpJSON", "pkg/core/io.go:getAllEmbeddings"]}
{"id": "C183", "title": "An export to a file is complete or leaves the file as it was", "statement": "After DumpToFile the path holds the complete export when success is reported; when an error is reported, what was at the path before is still there.", "quantifier": "every store state, format, disk capacity, previous content of the path", "why_tests_cant": "Needs every failure point: closed store, failing filter, unencodable record, full disk at every byte.", "anchors": ["pkg/core/io.go:DumpToFile", "pkg/core/io.go:Dump"]}
{"id": "C184", "title": "An index exported to a file can be imported again", "statement": "ExportIndex followed by ImportIndex restores the same index in any store with that kind of index, whatever it held before. A file that was cut off is refused. A failed import leaves the index as it was, and a failed export leaves the file as it was.", "quantifier": "every index content, map iteration order, cut point of the file, state of the importing store", "why_tests_cant": "A cut can be at every value of the file and the importing store can hold any index; tests import one complete file into an empty store.", "anchors": ["pkg/core/io.go:ExportIndex", "pkg/core/io.go:ImportIndex", "pkg/index/hnsw.go:Save", "pkg/index/hnsw.go:Load", "pkg/index/ivf.go:Save", "pkg/index/ivf.go:Load"]}
{"id": "C185", "title": "A text that was inserted is found by searching for it", "statement": "After InsertText succeeded, SearchText for the same text returns this record, unless as many records as were asked for are equally similar to the query. The text searches are refused without an embedder, for the empty text, when the embedder fails, and for no reason of their own otherwise; hits in a collection search are of the collection.", "quantifier": "every store state, embedder, text, number of results, dimension policy, similarity", "why_tests_cant": "Depends on all other records of the store and on the adaptation of stored and query vector agreeing; tests have a handful of records and one embedder.", "anchors": ["pkg/cortexdb/cortexdb.go:SearchText", "pkg/cortexdb/cortexdb.go:SearchTextInCollection", "pkg/cortexdb/cortexdb.go:InsertText", "pkg/core/store_search.go:Search"]}
{"id": "C186", "title": "Chat sessions and messages are accepted exactly when they should be, and are kept", "statement": "CreateSession succeeds exactly when the store is open and the id is new; the session can then be read back unchanged as long as the store is open. AddMessage succeeds exactly when the store is open, the id is new and the session exists; exactly this message is added. Refused calls change nothing. Vector searches over messages return only messages that have a vector.", "quantifier": "every history of session and message writes, every connection of the pool, every clock", "why_tests_cant": "Ranges over all histories and over which pooled connection serves each write; tests use one connection and a short conversation.", "anchors": ["pkg/core/chat.go:CreateSession", "pkg/core/chat.go:GetSession", "pkg/core/chat.go:AddMessage", "pkg/core/chat.go:SearchChatHistory", "pkg/core/chat.go:SearchMessagesByUser", "pkg/core/chat.go:KeywordSearchMessages"]}
{"id": "C187", "title": "A memory is what was last saved or updated", "statement": "After SaveMemory succeeds, GetMemory of the id returns the content, bucket, namespace and time to live of the request and the vector of the content. After UpdateMemory succeeds, what the request mentions is replaced and everything else stays. After DeleteMemory the memory is not found, and its bucket exists exactly if another memory lies in it. No call changes what GetMemory returns for any other id.", "quantifier": "every history of saves, updates and deletes with any outcome of the embedder, every request and every other id", "why_tests_cant": "The contents of the tables after arbitrary histories cannot be enumerated, and that a call leaves all other ids alone ranges over every id.", "anchors": ["pkg/cortexdb/memory_api.go: SaveMemory, UpdateMemory, GetMemory, DeleteMemory, ensureMemoryBucket, loadMemoryRow"]}
{"id": "C188", "title": "Which memory requests are refused and what they address", "statement": "A save is refused exactly when the id is empty, the content is blank, the scope is unknown or lacks its owner, or the embedder fails, and then no memory changes; no stored memory ever has a blank content. Without a scope the session counts, then the user, then everybody; a user or session scope without its owner is refused; a blank namespace is the namespace default.", "quantifier": "every request, every state, every history", "why_tests_cant": "The refusals range over all texts and spaces, and the absence of blank contents over all histories.", "anchors": ["pkg/cortexdb/memory_api.go: SaveMemory, UpdateMemory, resolveMemoryBucket, normalizeMemoryNamespace"]}
{"id": "C189", "title": "Keyword search of memories ranks by the best query", "statement": "A keyword search of memories lists each memory at most once, only live memories of the bucket which some query finds, with the best score any of the queries gives it (the first query counts fully, later ones down to 0.8), best first; a memory is left out only when the list is full, and then it is not better than any listed.", "quantifier": "every table of memories, every list of queries, every answer of the full text index and every time", "why_tests_cant": "The merge of several queries by best score is a statement about all answers of the full text index.", "anchors": ["pkg/cortexdb/memory_api.go: searchMemoryLexical"]}
{"id": "C190", "title": "A memory record says what was saved", "statement": "The record returned for a memory has the content, role, importance, time to live, expiry and metadata of the save; the six metadata keys of the system cannot be forged; an update merges metadata and keeps what it does not mention; the creation time is that of the first save. A save, an update or a deletion of one memory leaves every other one as it was, and a call that is refused changes nothing.", "quantifier": "every state, every save and update request with any metadata", "why_tests_cant": "Metadata maps with arbitrary keys, including those the system writes itself, cannot be enumerated.", "anchors": ["pkg/cortexdb/memory_api.go: buildMemoryMetadata, applyMemoryMetadata, memoryRecordFromMessage, SaveMemory, UpdateMemory", "pkg/cortexdb/knowledge_memory_helpers.go: cloneAnyMap, stringFromAny, floatFromAny, intFromAny"]}
{"id": "C191", "title": "A memory record names its user and session", "statement": "The user and session reported with a memory are those of the save request.", "quantifier": "every history of memory calls by any users", "why_tests_cant": "Which user is reported depends on who created the bucket first, so on the whole history.", "anchors": ["pkg/cortexdb/memory_api.go: ensureMemoryBucket, loadMemoryRow, memoryRecordFromMessage, SearchMemory"]}
{"id": "C192", "title": "Knowledge search shows documents", "statement": "Each hit of SearchKnowledge stands for one document, no two for the same; its score is that of its best chunk, its text fields are those of the stored document, its chunk ids and entities exactly those of its retrieved chunks; every retrieved chunk is listed under a hit and hits come by descending score. A blank query is refused; one document that cannot be loaded fails the call.", "quantifier": "every list of retrieved chunks with any scores and documents, every stored document, every behaviour of the sort on equal keys", "why_tests_cant": "Grouping depends on every arrangement of chunks, scores and documents; tests use a few chunks of one document.", "anchors": ["pkg/cortexdb/knowledge_api.go: SearchKnowledge, aggregateKnowledgeHits"]}
{"id": "C193", "title": "Search hints reach the search", "statement": "Entity names, keywords and alternate queries given to SearchKnowledge take part in the retrieval, and limits not given have the documented defaults.", "quantifier": "every request, with and without an embedder, every retrieval mode", "why_tests_cant": "That an input has no effect is a statement about all its values.", "anchors": ["pkg/cortexdb/knowledge_api.go: SearchKnowledge", "pkg/cortexdb/mcp.go: defaultMCPInstructions"]}
{"id": "C194", "title": "Reading many graph rows agrees with reading one", "statement": "After any history GetNodesBatch and GetEdgesBatch return exactly the nodes and edges that reading the ids one by one finds, each once, and leave out ids that are not there; the lookups behind paths and ranked results agree with single reads. The only failure is a list longer than the database can bind.", "quantifier": "every history of graph operations, every list of ids with repetitions", "why_tests_cant": "Agreement of two ways of reading has to hold in every reachable state.", "anchors": ["pkg/graph/graph_batch.go: GetNodesBatch, GetEdgesBatch", "pkg/graph/graph.go: getNodesByIDs, GetNode", "pkg/graph/graph_traversal.go: getEdgeByID"]}
{"id": "C195", "title": "Errors can be told apart", "statement": "errors.Is finds a sentinel through any nesting of store errors and wraps and finds nothing that is not a cause; wrapping keeps nil nil; looking up or deleting what is not there is recognised as ErrNotFound.", "quantifier": "every error value nested to any depth, every kind of lookup and every name", "why_tests_cant": "Error chains nest without bound and callers wrap them further.", "anchors": ["pkg/core/errors.go: StoreError, Error, Unwrap, Is, wrapError", "pkg/core/collections.go: GetCollection, DeleteCollection", "pkg/graph/graph.go: GetNode, DeleteNode, DeleteEdge"]}
{"id": "C196", "title": "Dimension analysis counts the stored vectors", "statement": "AnalyzeDimensions reports exactly the dimensions that occur with their counts, the total, a most frequent dimension with its count, and recommends migration exactly below four fifths; the report is the same on every run.", "quantifier": "every collection of stored vectors, every map iteration order", "why_tests_cant": "Go's map order is random, so a test sees one of the orders.", "anchors": ["pkg/core/dimension.go: AnalyzeDimensions"]}
{"id": "C197", "title": "The text of an observation mentions all it rests on", "statement": "The text Observe returns names the question and has one line for each recalled memory and each new observation, grouped by kind in a fixed order, without empty sections.", "quantifier": "every list of recalled memories of any types and every list of new observations", "why_tests_cant": "All mixtures of kinds, including unknown ones, cannot be enumerated.", "anchors": ["pkg/hindsight/hindsight.go: formatReflectContext, Observe"]}
{"id": "C198", "title": "Log lines are whole and in order", "statement": "Whatever goroutines log at once, the output consists of whole lines, one for each call at or above the minimum level, those of one goroutine in its order; a line has the level, the pairs of the logger and of the call, and the message.", "quantifier": "every number of goroutines and calls, every schedule, every moment", "why_tests_cant": "Interleavings depend on the scheduler; a test sees a few of them.", "anchors": ["pkg/core/logger.go: NewLogger, With, log"]}
{"id": "C199", "title": "A batch of queries is routed as each query alone", "statement": "RouteBatch of the dense and of the hybrid router returns, query by query and in order, what Route returns for that query on the router as it was before the batch; it fails, without results, exactly when a non-empty query cannot be embedded; and it changes no route.", "quantifier": "all routers and cached states, all batches, all embedders that answer alike during the call", "why_tests_cant": "batches, caches and failing embedders are unbounded; a cache filled half-way changes later lookups only on particular orders", "anchors": ["pkg/semantic-router/router.go:RouteBatch", "pkg/semantic-router/router.go:Route", "pkg/semantic-router/hybrid.go:RouteBatch"]}
{"id": "C200", "title": "TopTerms gives the terms of the greatest weights", "statement": "TopTerms(vec, k) with a positive k gives the k terms of the greatest weights in descending order (all of them when there are no more), with k not positive all terms in descending order; no term comes twice and every weight is the term's own.", "quantifier": "all sparse vectors, all k, all orders of map iteration and all unstable sorts", "why_tests_cant": "map order and ties vary from run to run", "anchors": ["pkg/semantic-router/sparse.go:TopTerms"]}
{"id": "C201", "title": "Index statistics describe the contents", "statement": "After any history, Stats of a vector index counts exactly the vectors present; for HNSW live and deleted nodes make up the total, the level counts and the greatest level are those of the live nodes; for IVF the cluster sizes add up to the vectors; for LSH every vector is filed once in every table.", "quantifier": "all histories of inserts, batches, deletes, training and clears; all orders of map iteration", "why_tests_cant": "histories are unbounded", "anchors": ["pkg/index/hnsw.go:Stats", "pkg/index/ivf.go:Stats", "pkg/index/lsh.go:Stats"]}
{"id": "C202", "title": "Automatic saving follows its configuration and ends with Close", "statement": "Snapshots are saved by a timer only when automatic saving is enabled, on Close only when SaveOnClose is set, and only after MinChanges changes; at most one automatic save runs or is scheduled at a time; after Close none begins and the goroutines die out.", "quantifier": "all configurations, all interleavings of Init, writes, timers and Close", "why_tests_cant": "interleavings with timers are unbounded", "anchors": ["pkg/core/store_index.go:startAutoSave", "pkg/core/store_index.go:autoSaveLoop", "pkg/core/store_index.go:IncrementChanges", "pkg/core/store_close.go:Close", "pkg/core/store_init.go:Init"]}
{"id": "C203", "title": "Concurrent writers leave table and index in step", "statement": "Goroutines that call Upsert, UpsertBatch and Delete on one store at the same time leave the same rows, the same index and the same call results in every schedule when they use different ids. Once all calls have returned, a record in the table is found through the index, and a record the index finds is in the table. (The code breaks the last part: a write and a removal of the same id can interleave so that both succeed and the index keeps an entry whose row is gone, or the row stays and the index has it marked deleted.)", "quantifier": "every number of goroutines, every sequence of calls each of them makes, every interleaving of their table and index steps, every database failure, every starting state", "why_tests_cant": "A test runs a handful of schedules the Go runtime happens to choose; the orders that break the agreement need a switch between two adjacent lines.", "anchors": ["pkg/core/store_crud.go:Upsert", "pkg/core/store_crud.go:UpsertBatch", "pkg/core/store_crud.go:Delete", "pkg/index/hnsw.go:Insert", "pkg/index/hnsw.go:Delete"]}
{"id": "C204", "title": "A batch becomes visible at once", "statement": "While UpsertBatch is running, a search from another goroutine sees all records of the batch or none of them. (The code keeps this for searches of the table; a search through the index can see a part of the batch.)", "quantifier": "every moment of every interleaving, every batch, every calls of the other goroutines on other ids", "why_tests_cant": "A test cannot stop the store between two index insertions.", "anchors": ["pkg/core/store_crud.go:UpsertBatch", "pkg/core/store_search.go:searchLinear", "pkg/core/store_search.go:searchWithHNSW"]}
{"id": "C205", "title": "A completed call is seen by every goroutine", "statement": "Once Upsert or UpsertBatch has returned without error in one goroutine, every search that another goroutine starts finds the records, in the table and through the index, and once Delete has returned without error none finds the record. (The code breaks the first part for a record that was removed earlier: the index refuses it for good.)", "quantifier": "every number of goroutines and calls on other ids, every interleaving, every moment after the return, every starting state", "why_tests_cant": "The schedules of the other goroutines are unbounded.", "anchors": ["pkg/core/store_crud.go:Upsert", "pkg/core/store_crud.go:UpsertBatch", "pkg/core/store_crud.go:Delete", "pkg/core/store_search.go:searchWithHNSW"]}
{"id": "C206", "title": "The dimension is decided once, also by concurrent first writers", "statement": "When goroutines write vectors of different lengths into a store that detects its dimension, one of them decides it for good, every stored vector has it at every moment, an adapting policy refuses no writer, and a search gets the answer it would get before or after the write. (The code breaks this for an empty vector written first, and for a search that runs while the first record is written: it is refused although the policy adapts.)", "quantifier": "every number of goroutines, vectors of every length, every policy, every interleaving of the parts that hold the lock", "why_tests_cant": "The race is over after the first record; a test sees it once per process, in the order the scheduler happens to choose.", "anchors": ["pkg/core/store_crud.go:Upsert", "pkg/core/store_search.go:Search", "pkg/core/store_search.go:validateSearchInput", "pkg/core/dimension.go:AdaptVector"]}
{"id": "C207", "title": "Automatic retention shows every message", "statement": "With automatic retention on and a window at least as long as the trigger, every message of a chat is shown to the extractor, except the last ones that wait for the next trigger. (The code keeps this for one session whose messages all count and extractions that run at once. Sessions share one counter, so the messages of a session can go unseen for ever, and messages whose role does not count push others out of the window.)", "quantifier": "every number of messages, every window and trigger, every pair of sessions taking turns", "why_tests_cant": "The history of a chat is unbounded.", "anchors": ["pkg/hindsight/chat.go:AddMessage", "pkg/hindsight/hooks.go:SetAutoRetain"]}
{"id": "C208", "title": "Stored vectors do not change when the caller's buffers do", "statement": "After Insert, Add or Upsert has returned, the caller may fill the slice with something else: every later search finds the vector as it was at the time of the call. A slice returned by the embedding cache may be written to without changing what others are told. (The code keeps this for the table, the flat index and quantised graph indexes; HNSW without a quantizer, IVF, LSH and the index of the graph keep the caller's slice, and the cache returns its own.)", "quantifier": "every history of buffer writes, insertions and deletions, every sharing of buffers between records", "why_tests_cant": "Tests allocate a new slice for every record; the histories of reuse are unbounded.", "anchors": ["pkg/index/hnsw.go:Insert", "pkg/index/ivf.go:Add", "pkg/index/lsh.go:Insert", "pkg/index/flat.go:Insert", "pkg/graph/graph_hnsw.go:Add", "pkg/core/store_crud.go:Upsert", "pkg/semantic-router/embedder.go:Embed"]}
{"id": "C209", "title": "Saves of one knowledge item from several goroutines leave one of them", "statement": "When several goroutines save, update, delete or ingest knowledge items through one open database, each item is afterwards what one of the calls on it made of it: its document and its retrievable chunks come from the same call, and calls on other items never change it, whatever the order in which the statements of the calls mix.", "quantifier": "every number of goroutines, every mix of save, update, delete and ingest calls, every schedule of their statements (also cut off at any moment), every well formed starting state", "why_tests_cant": "The calls are sequences of separate reads and writes without a lock; a test sees a handful of interleavings out of exponentially many and rarely the one in which a call decides on stale data", "anchors": ["pkg/cortexdb/knowledge_api.go: SaveKnowledge, UpdateKnowledge, DeleteKnowledge, cleanupKnowledgeArtifacts, upsertKnowledgeDocumentRecord", "pkg/cortexdb/graphrag.go: InsertGraphDocument"]}
{"id": "C210", "title": "Memory calls from several goroutines each happen as a whole", "statement": "When several goroutines save, update and delete memories through one open database, each memory always carries the vector of its own text, a call that reports success has had its full effect on its memory, a call that reports an error has had none, a valid save succeeds, and no change reported as made is lost, whatever the order in which the statements of the calls mix.", "quantifier": "every number of goroutines, every mix of save, update and delete calls with any requests and clock readings, every schedule of their statements and every moment of it, every starting state whose memories lie in existing buckets", "why_tests_cant": "Each call is several separate statements without a lock; the harmful orders (both goroutines read before either writes, a bucket removed between look-up and insert) do not occur in a sequential test and hardly ever in a stress test", "anchors": ["pkg/cortexdb/memory_api.go: SaveMemory, UpdateMemory, DeleteMemory, ensureMemoryBucket, loadMemoryRow", "pkg/core/chat.go: CreateSession, GetSession"]}
{"id": "C211", "title": "The graph's vector index agrees with the stored nodes when several goroutines write", "statement": "When several goroutines write and delete nodes and enable the graph's vector index, and all calls have returned, the index holds exactly the stored nodes, each with its stored vector: searches through the index neither miss a stored node, nor offer a deleted one, nor score a node by a vector it no longer has.", "quantifier": "all starting states, all numbers of concurrent calls with all nodes and vectors, all schedules of their statements", "why_tests_cant": "the statements on the table and on the index are separate; which disagreement remains depends on schedules that a test cannot force, and it stays until the index is rebuilt", "anchors": ["pkg/graph/graph.go: UpsertNode, DeleteNode", "pkg/graph/graph_hnsw.go: EnableHNSWIndex, Add, Remove"]}
{"id": "C212", "title": "A search ranks what was last written", "statement": "After any history of calls on the store (writes, batches, deletes of every kind, failed or not), each result of a search is a record written by a successful call and shows the vector, content, document and metadata of the last such call for its id, scored by that vector; no id is listed twice; and a record written and not overwritten or removed since is among the results of a plain search unless as many results as were asked for are at least as good.", "quantifier": "all histories of store calls with all faults, all queries and options, all indexes and whatever candidates they propose (completeness: searches without index)", "why_tests_cant": "a test tries a few histories; whether some mixture of overwrites, failed batches and deletes leaves a stale, doubled or lost record for the search to rank is a statement about all of them", "anchors": ["pkg/core/store_search.go: Search", "pkg/core/store.go: Upsert, UpsertBatch, Delete, GetByID"]}
{"id": "C213", "title": "Searching a small store through its own graph index is exact", "statement": "A store whose graph index is on and that was never given more than 2M+1 different ids, each written once and removed only by calls that reach the index, answers an unrestricted search with exactly the K best of all stored records, as the exhaustive search would; when 2K reaches the number of ids ever written the same holds inside a collection, under a metadata filter and above a threshold.", "quantifier": "all histories of writes, removals and reopenings of the store, all vectors, level draws and map orders, all queries and request options, all K", "why_tests_cant": "composes three components (table, index upkeep, graph search, ranking) over every history; a test fixes one history and one sequence of random levels", "anchors": ["pkg/core/store_search.go:searchWithHNSW", "pkg/core/store_crud.go:Upsert", "pkg/index/hnsw.go:Search"]}
{"id": "C214", "title": "Searching a store through its trained inverted file with all cells probed is exact", "statement": "For a store whose inverted file index was trained, and every later history of writes under new ids, removals of the last entry of a cell and calls that remove nothing, the index holds the vector of every stored record once and nothing else; a search through it that probes all cells never panics and returns exactly the k best of all stored records, and when four times k reaches the number of records also the best of those in the collection that match the filter and the threshold.", "quantifier": "all histories of such writes and removals from any state in which index and table agree, all queries, all options and all similarity functions that agree with the index distance", "why_tests_cant": "The result depends on every write since training and on the cell each vector fell into; tests look at a handful of vectors.", "anchors": ["pkg/core/store_search.go:searchWithIVF", "pkg/core/store_search.go:processCandidates", "pkg/core/store_crud.go:Upsert", "pkg/core/store_crud.go:UpsertBatch", "pkg/index/ivf.go:Search", "pkg/index/ivf.go:Add", "pkg/index/ivf.go:Delete"]}
{"id": "C215", "title": "A question in plain words can be used as a keyword query", "statement": "Keyword searches of messages and of records accept a question in plain words: the search succeeds and finds what contains the words, all of them for a question, any of them for keywords joined by OR, whatever punctuation the question has.", "quantifier": "all questions, texts, tables, users and limits, and every tokenizer", "why_tests_cant": "the question is free text and is read in the query language of the index", "anchors": ["pkg/core/chat.go:KeywordSearchMessages", "pkg/core/advanced_search.go:HybridSearch", "pkg/cortexdb/cortexdb.go:SearchTextOnly"]}
{"id": "C216", "title": "A memory is found by a word it contains", "statement": "After any history of saves, updates and deletions, a keyword search of memories finds a live memory of the bucket that contains a keyword of the question, unless the list is full; when nothing matches it returns an empty list.", "quantifier": "all histories, times, questions, keywords, alternates and limits", "why_tests_cant": "histories, times and free text", "anchors": ["pkg/cortexdb/memory_api.go:SearchMemory", "pkg/cortexdb/memory_api.go:searchMemoryLexical", "pkg/cortexdb/graphrag_tools.go:lexicalSearchQueries"]}
{"id": "C217", "title": "A chunk is found by a word it contains", "statement": "The keyword retrieval of the GraphRAG tools lists a chunk that contains a keyword of the question or one of the given keywords, unless the list is full, and does not stay silent about a question it cannot use.", "quantifier": "all questions, keywords, alternates, tables and limits, and every order of the index", "why_tests_cant": "free text and all tables", "anchors": ["pkg/cortexdb/graphrag_tools.go:searchTextCandidates", "pkg/cortexdb/cortexdb.go:SearchTextOnly"]}
{"id": "C218", "title": "The retrieval mode asked for is the one used", "statement": "A retrieval that disables the graph, or asks for the mode lexical in any spelling of case and blanks, returns hits of the search only and no entities, whatever the graph holds; one that asks for the mode graph, or leaves the mode open and names an entity, uses the graph, and fails when the graph cannot be read around a hit; one that leaves the mode open and names no entity does not use it.", "quantifier": "all modes, flags, questions, entity names, hits and graphs", "why_tests_cant": "the mode is free text and its meaning depends on the names found in the question; that nothing of the graph leaks into the answer is a statement about all graphs", "anchors": ["pkg/cortexdb/graphrag.go: normalizeRetrievalMode, shouldUseGraphRetrieval, SearchGraphRAG", "pkg/cortexdb/graphrag_tools.go: SearchGraphRAGLexical"]}
{"id": "C219", "title": "The names in a text are found", "statement": "Without a language model, the entities found in a document or a question are its names: every name written as capitalised words is found, words of one name are not torn apart, each name is found once, every entity found stands in the text as written, and a text that names nothing has none.", "quantifier": "all texts", "why_tests_cant": "free text; which words form a name depends on every character around them", "anchors": ["pkg/cortexdb/graphrag.go: extractTitleEntities, extractEntityNames, InsertGraphDocument, SearchGraphRAG"]}
{"id": "C220", "title": "A filter checked in memory reads numbers as numbers and other texts as texts", "statement": "A search with a post-filter returns the best scored records among exactly those whose metadata pass the filter: a comparison is by number when the stored text and the filter value both read as numbers and by text otherwise, a missing field passes a not-equal and nothing else, and AND, OR and NOT combine as usual. A malformed comparison gives an error.", "quantifier": "all filter expressions of any depth, all metadata and stores", "why_tests_cant": "filter expressions nest to any depth and metadata values are any texts; a test tries a few, and whether any two texts compare as the documentation says is a statement about all of them", "anchors": ["pkg/core/advanced_filter.go: SearchWithAdvancedFilter, evaluateFilter, compareValues, toFloat64"]}
{"id": "C221", "title": "A call over many items does what it does over few", "statement": "The number of items a call is about does not matter: deleting many nodes or edges, asking for the neighbours of a node with many neighbours, for a long path, for many search results or keyword hits, and deleting a knowledge item with many chunks gives the result the same call gives for few items; if a call cannot be served it is an error that changes nothing.", "quantifier": "all graphs, stores, index proposals, lists of ids and every limit on the number of parameters of a statement", "why_tests_cant": "a test has small lists; the statements grow with the data, and the database refuses a statement with more than 32766 parameters", "anchors": ["pkg/graph/graph_batch.go: DeleteNodesBatch, DeleteEdgesBatch, ExecuteBatch", "pkg/graph/graph_traversal.go: Neighbors, ShortestPath, loadNeighborNodes", "pkg/graph/graph.go: getNodesByIDs", "pkg/core/store_search.go: fetchEmbeddingsByIDs", "pkg/core/advanced_search.go: HybridSearch", "pkg/cortexdb/knowledge_api.go: cleanupKnowledgeArtifacts"]}
{"id": "C222", "title": "Streaming searches honour the options of the request", "statement": "A streaming search shows each record inside the requested collection and metadata filter at most once, with the similarity of its vector to the query, and every one of them to a consumer that keeps up; like an ordinary search it keeps to the requested limit and threshold, refuses a query it cannot compare with the stored vectors, and reports a failing read as an error. Streaming several queries gives for each query the stream it would get alone. A search through the incremental index keeps pending updates that are outside the collection, the filter, the threshold or the limit out of its answer, and does not panic.", "quantifier": "all stores, requests, queries, batch sizes, consumers, schedules and pending updates", "why_tests_cant": "Consumers, schedules and store contents are unbounded, and the goroutine reads the store after the call has returned", "anchors": ["pkg/core/streaming.go:StreamSearch", "pkg/core/streaming.go:ParallelStreamSearch", "pkg/core/streaming.go:IncrementalIndex.SearchWithUpdates", "pkg/core/store_search.go:fetchCandidates"]}
{"id": "C223", "title": "Hybrid routers keep their two routers together", "statement": "A sparse router accepts exactly the routes with a new name and an utterance, and answers a query with the highest similarity of an utterance and a route that has it, matched exactly when the threshold is reached. A hybrid router answers with both scores and their weighted mean; a call that adds a pair of routes, or a batch, adds all of it or nothing; List gives the routes of both routers; a query that one router matches on its own is a match.", "quantifier": "all histories of calls, encoders, similarities, thresholds and weights", "why_tests_cant": "Histories, encoders and weights are unbounded", "anchors": ["pkg/semantic-router/hybrid.go:SparseRouter.Add", "pkg/semantic-router/hybrid.go:SparseRouter.Route", "pkg/semantic-router/hybrid.go:HybridRouter.Add", "pkg/semantic-router/hybrid.go:HybridRouter.AddBatch", "pkg/semantic-router/hybrid.go:HybridRouter.Route", "pkg/semantic-router/hybrid.go:HybridRouter.List"]}
{"id": "C224", "title": "Recalling by time finds the memories of that time", "statement": "Recall with a time range returns exactly the memories of the bank that were made in that range, best first, as many as asked for.", "quantifier": "all stores, banks, queries, ranges and limits, with and without a vector index", "why_tests_cant": "which memories survive depends on how many others of the bank are more similar and on fractions of a second, which a few stored memories do not show", "anchors": ["pkg/hindsight/hindsight.go: temporalSearch, scoredEmbeddingToMemory, buildMetadata", "pkg/core/store_search.go: Search"]}
{"id": "C225", "title": "Recalling by entity finds the memories about it", "statement": "Recall with entities returns each memory of the bank that names one of them once, and no memory that names none.", "quantifier": "all stores, banks, queries, lists of entities and limits, with and without a vector index", "why_tests_cant": "a memory is lost only when enough others are more similar, and wrongly found only for particular pairs of names", "anchors": ["pkg/hindsight/hindsight.go: entitySearch, buildMetadata", "pkg/core/store_search.go: Search"]}
{"id": "C226", "title": "The list of observations is complete", "statement": "GetObservations returns every observation stored for the bank, each once, and nothing else.", "quantifier": "all stores and banks, any number of observations, any index and any policy for vectors of another length", "why_tests_cant": "needs more than a hundred observations, an index that proposes other records, or a store that refuses the dummy vector", "anchors": ["pkg/hindsight/hindsight.go: GetObservations, RetainObservation", "pkg/core/store_search.go: Search, searchWithHNSW"]}
{"id": "C227", "title": "Observations say what their memories say", "statement": "For every list of recalled memories, an observation of a preference (of a cause) is made about exactly the entities that are named at least twice and of which some memory's text has one of the fixed words, in small letters; its sources are the memories that name the entity. A generalisation over three memories or more is about a word of more than four bytes that occurs at least twice and that no other such word beats, and there is at most one.", "quantifier": "all recalled memories with their texts and entities, all banks, all orders in which the maps are visited", "why_tests_cant": "tests observe a few fixed memories; which words, which repetitions and which map orders change the outcome cannot be enumerated", "anchors": ["pkg/hindsight/hindsight.go:detectPatterns", "pkg/hindsight/hindsight.go:isPreferencePattern", "pkg/hindsight/hindsight.go:isCausalPattern", "pkg/hindsight/hindsight.go:generalizeFromMemories"]}
{"id": "C228", "title": "A graph is a map of nodes and a map of edges", "statement": "After any history of node and edge writes, deletions and batches, on connections that do or do not enforce foreign keys and with batches that commit or fail, reading a node or an edge by id gives what was last written under that id and not deleted since; writing a node again keeps its edges, deleting one removes the edges at it. A write is accepted exactly when ids and vector are given (and, for an edge, both ends are stored), a deletion exactly when there is something under the id, and a refused call changes nothing.", "quantifier": "all histories of graph calls, all foreign-key settings of connections, all commit outcomes", "why_tests_cant": "tests run short fixed histories; the refinement must hold after every history and on every connection", "anchors": ["pkg/graph/graph.go:UpsertNode", "pkg/graph/graph.go:DeleteNode", "pkg/graph/graph.go:UpsertEdge", "pkg/graph/graph.go:DeleteEdge", "pkg/graph/graph_batch.go:ExecuteBatch"]}
{"id": "C229", "title": "Documents are kept as written", "statement": "A document record reads back as the last accepted create or update gave it, with the second of its creation and of its last write, whatever other calls come after. A create is accepted exactly when there is no such document, an update exactly when there is one, both only when the metadata have a JSON form; refused calls change nothing; a deleted document is not found. A listing shows the newest documents of the named author, as many as asked for, each as reading it alone shows it. Departures: integers in the metadata come back as floating-point numbers; documents created within one second are listed in either order; listing a closed store does not give the closed-store error.", "quantifier": "every history of creates, updates, deletes, passing time and closing, every document, author, limit and order of ties", "why_tests_cant": "A test writes a few documents and reads them at once; it cannot range over all histories, all metadata values and all orders of ties.", "anchors": ["pkg/core/document.go: CreateDocument, GetDocument, UpdateDocument, DeleteDocument, ListDocumentsWithFilter"]}
{"id": "C230", "title": "Updates accepted by the incremental index reach the store", "statement": "Every update that AddAsync accepts is in the store once the index is closed and its worker has finished: under each id GetByID shows the last accepted update exactly as it was handed over, other records, collections and documents are untouched. A mistake in one update does not affect the others, does not end the process, and calls on the index and on its store take effect in the order they were made.", "quantifier": "every store, every list of updates, every schedule of producers, searches, flushes, storage failures, other calls and closing", "why_tests_cant": "The outcome depends on which updates share a flush, on where a refused update stands among them and on what happens to the store between acceptance and flush.", "anchors": ["pkg/core/streaming.go: NewIncrementalIndex, AddAsync, SearchWithUpdates, Close, processUpdates", "pkg/core/store_crud.go: UpsertBatch"]}
{"id": "C231", "title": "Closing the memory system finishes the extractions under way", "statement": "When Close of the memory system returns, every background extraction started by a call of AddMessage that returned without error has stored its facts; no extraction loses its facts while the database is open; and Close returns once the extractions under way have ended.", "quantifier": "every number of concurrent AddMessage calls, every trigger count, every interleaving of the calls, their background extractions and Close", "why_tests_cant": "a test runs one schedule; the loss needs Close to run between the write of a message and the step that registers its extraction", "anchors": ["pkg/hindsight/chat.go:AddMessage", "pkg/hindsight/hindsight.go:Close"]}
{"id": "C232", "title": "Conversations and memories in one database do not disturb each other", "statement": "The messages of every chat session and whether the session exists are what they would be had no memory been saved, updated or deleted, and every stored memory reads back as if no session had been created and no message added; the searches over a user's messages choose from conversations only.", "quantifier": "every mixed sequence of calls of the chat interface and of the memory interface on one database, every id, user, scope, namespace, text and time", "why_tests_cant": "tests exercise either interface on its own database; interference appears only in mixed histories and depends on which ids the two kinds of caller choose", "anchors": ["pkg/core/chat.go:CreateSession", "pkg/core/chat.go:AddMessage", "pkg/core/chat.go:GetSessionHistory", "pkg/cortexdb/memory_api.go:SaveMemory", "pkg/cortexdb/memory_api.go:UpdateMemory", "pkg/cortexdb/memory_api.go:DeleteMemory"]}
{"id": "C233", "title": "The memory system and the graph of one database do not disturb each other", "statement": "Nodes and edges written through the graph of a database read back as if the memory system on that database had created and deleted no banks and retained no memories; and the banks of the memory system, also after closing and opening, are those it created and did not delete, whatever was written through the graph.", "quantifier": "every mixed sequence of calls of the graph interface, of retaining memories, creating, reading and deleting banks, and of restarts; every id, entity name, node type and dimension", "why_tests_cant": "tests use one of the two interfaces on a database; the clash needs an entity name, a bank id or a node type of one caller to meet a node of the other", "anchors": ["pkg/hindsight/hindsight.go:Retain", "pkg/hindsight/hindsight.go:CreateBank", "pkg/hindsight/hindsight.go:GetBank", "pkg/hindsight/hindsight.go:DeleteBank", "pkg/hindsight/hindsight.go:loadPersistedBanks", "pkg/graph/graph.go:UpsertNode", "pkg/graph/graph.go:DeleteNode"]}
{"id": "C234", "title": "Collections do not affect each other", "statement": "What a collection holds under an id is changed only by calls that name this collection or delete that record: writing, deleting and creating records and collections elsewhere leaves it as it was, and the same id may be used in several collections.", "quantifier": "every store state and every history of writes, batches, deletions, creations and deletions of collections, documents, close and reopen; every id and collection name", "why_tests_cant": "tests use different ids in different collections; that the id is the key of the whole store shows only when two collections use the same one", "anchors": ["pkg/core/store_crud.go:Upsert", "pkg/core/store_crud.go:UpsertBatch", "pkg/core/store_crud.go:Delete", "pkg/core/collections.go:CreateCollection", "pkg/core/collections.go:DeleteCollection"]}
{"id": "C235", "title": "A collection holds vectors of the dimension it was created with", "statement": "A record written to a collection that was created with a dimension has a vector of that dimension, or the write is refused.", "quantifier": "every store state, every collection and declared dimension, every vector, single writes and batches", "why_tests_cant": "tests create collections with the dimension of the store; the claim ranges over all pairs of declared and stored dimensions", "anchors": ["pkg/core/collections.go:CreateCollection", "pkg/core/store_crud.go:Upsert", "pkg/core/store_crud.go:UpsertBatch"]}
{"id": "C236", "title": "Stores opened on one file agree on the records", "statement": "When the same database file is opened several times, a record written through one store is read, as it was written, through every other open store until some store writes its id again or removes it, and nothing else is read. All vectors in the file have one dimension under the strict policy.", "quantifier": "every history of calls on any number of stores opened on the same file, with failures and closings in between", "why_tests_cant": "Tests open one store per file. With several, the history interleaves the calls of all of them, and each keeps its own memory of the dimension.", "anchors": ["pkg/core/store.go: SQLiteStore", "pkg/core/store_init.go: Init", "pkg/core/store_crud.go: Upsert, UpsertBatch", "pkg/core/store_query.go: GetByID"]}
{"id": "C237", "title": "A record written through one store is found by searching through another", "statement": "When the same database file is opened several times, a committed record is found by an index search through every open store, and by every store that opens the file later, in whatever order the stores are closed.", "quantifier": "every history of writes, removals, saves, closings, crashes and openings of any number of stores on one file", "why_tests_cant": "The index lives in the memory of each store and its saved copy is written by the store that closes last. The loss needs an order of closings of two stores that no single-store test has.", "anchors": ["pkg/core/store_index.go: initHNSWIndex, saveIndexSnapshot, loadIndexSnapshot", "pkg/core/store_close.go: Close", "pkg/core/store_crud.go: Upsert"]}
{"id": "C238", "title": "Knowledge items and direct calls of the store and the graph do not disturb each other", "statement": "A knowledge item keeps its document and its chunks as long as no call names it, whichever mixture of knowledge, store and graph calls is made. A record written straight to the store does not take a chunk from an item. An item whose document was deleted straight from the store leaves nothing behind, or can still be deleted or updated.", "quantifier": "every database, item, and history of knowledge, store and graph calls with any faults", "why_tests_cant": "A test tries one order of calls and one id; the claim is about every mixture and every id, among them ids equal to a chunk's.", "anchors": ["pkg/cortexdb/knowledge_api.go: SaveKnowledge, UpdateKnowledge, DeleteKnowledge, cleanupKnowledgeArtifacts", "pkg/cortexdb/cortexdb.go: Vector, Graph", "pkg/core/document.go: DeleteDocument", "pkg/core/store_crud.go: Upsert, Delete, DeleteByDocID"]}
{"id": "C239", "title": "A quantizer read from a file is the quantizer that was saved", "statement": "Loading the file of a scalar or binary quantizer gives a quantizer that encodes and decodes exactly as the saved one did, whatever the quantizer it is loaded into was before, trained or not.", "quantifier": "every pair of quantizers, trained or not, of every dimension and number of bits", "why_tests_cant": "A test saves one trained quantizer and loads it into a new one; the claim is about every receiver and about quantizers saved before training.", "anchors": ["pkg/quantization/scalar_quantization.go: ScalarQuantizer.Save, ScalarQuantizer.Load, BinaryQuantizer.Save, BinaryQuantizer.Load"]}
{"id": "C240", "title": "The projecting binary quantizer codes vectors by their projections", "statement": "The quantizer with projections maps every vector of its input dimension linearly to its output dimension, codes each such vector by comparing the projections with the thresholds, refuses vectors of other dimensions, and after saving and loading gives the same codes.", "quantifier": "every projecting quantizer, every vector of every length", "why_tests_cant": "Projections are random and real valued; a test samples a few vectors and cannot show linearity, nor that no vector panics, nor that a reloaded quantizer agrees on all vectors.", "anchors": ["pkg/quantization/scalar_quantization.go: NewOptimizedBinaryQuantizer, OptimizedBinaryQuantizer.Project, BinaryQuantizer.Encode, BinaryQuantizer.Train"]}
{"id": "C241", "title": "Replacing the quantizer of an index in use keeps its records", "statement": "Setting another quantizer on an HNSW index that holds vectors does not change what the index knows of them: distances of queries to records already inserted stay what they were.", "quantifier": "all sequences of insertions and quantizer changes (including setting none), all quantizers given by arbitrary encode and decode functions, all ids and vectors", "why_tests_cant": "unit tests set one quantizer on an empty index; which records keep their vectors depends on the quantizer at each insertion and the one set last", "anchors": ["pkg/index/hnsw.go:SetQuantizer", "pkg/index/hnsw.go:Insert", "pkg/index/hnsw.go:calculateDistance"]}
{"id": "C242", "title": "A store with binary quantization tells its records apart", "statement": "With binary quantization on, records with different vectors remain different to the vector index, before and after reopening, whether they are written one by one or all at once.", "quantifier": "all tables of vectors of one dimension, all orders of writing, all thresholds", "why_tests_cant": "tests use a few well separated vectors; which vectors fall together depends on the means of all stored records or on the first record written", "anchors": ["pkg/quantization/scalar_quantization.go:BinaryQuantizer", "pkg/core/store_index.go:TrainQuantizer", "pkg/core/store_crud.go:Upsert"]}
{"id": "C243", "title": "Opening a store with another type of quantization keeps its index usable", "statement": "Opening an existing store with binary instead of scalar quantization, or the other way round, leaves the stored records findable by vector.", "quantifier": "all trained quantizers, dimensions, bit widths, records and positions in the saved index", "why_tests_cant": "a test would need stores written under one configuration and opened under another, for every dimension and bit width; the decoder accepts the foreign file without an error", "anchors": ["pkg/core/store_index.go:loadIndexSnapshot", "pkg/quantization/scalar_quantization.go:Load"]}
{"id": "C244", "title": "A call repeated after it succeeded changes nothing", "statement": "A client that repeats a call because it did not see the answer does no harm: repeating a write, a batch, a deletion, a creation or an update directly after it succeeded leaves every record, collection and document, every node and edge, every memory and every message as the first call left it. The repeated call is answered in a fixed way: writes, document updates and bulk deletions succeed again; deleting a record that is gone reports that it was not found; creating what exists is refused. Only the expiry of a memory is counted again. An inverted file index lists a repeated record once more each time.", "quantifier": "every store, graph, memory and conversation state, every call, every connection and fault of the repetition", "why_tests_cant": "A test repeats a few calls on a few states; retries happen after any call in any state.", "anchors": ["pkg/core/store_crud.go:Upsert", "pkg/core/store_crud.go:UpsertBatch", "pkg/core/store_crud.go:DeleteBatch", "pkg/core/document.go", "pkg/graph/graph_batch.go", "pkg/cortexdb/memory_api.go:SaveMemory", "pkg/core/chat.go:AddMessage"]}
{"id": "C245", "title": "Writes under different ids can be made in any order", "statement": "Writes and deletions of records with pairwise different ids leave the same records in whatever order they arrive, in a store whose dimension is known; the same holds for nodes with different ids and for edges with different ids of a graph. In a store without a dimension the first write decides it, so the order changes what is stored; an edge sent before its nodes is refused where foreign keys are enforced.", "quantifier": "every store with a dimension, every list of single-record writes and deletions with different ids, every rearrangement; every graph history, every list of nodes or of edges", "why_tests_cant": "Concurrent clients interleave in any of factorially many orders; tests try one.", "anchors": ["pkg/core/store_crud.go:Upsert", "pkg/core/store_crud.go:Delete", "pkg/graph/graph.go:UpsertNode", "pkg/graph/graph.go:UpsertEdge"]}
{"id": "C246", "title": "The reported compression ratio is what the codes save", "statement": "CompressionRatio of a scalar, binary or product quantizer is the quotient of the bytes of a vector (four for each coordinate) by the bytes of the code that Encode makes of it, and a record in an index with that quantizer takes the bytes of its code and no more.", "quantifier": "every dimension, number of bits and codebook layout, every trained quantizer, every vector of its dimension, every index and order of training and inserting", "why_tests_cant": "A test compares the ratio with an expected constant for one dimension, usually a multiple of eight; the claim is about all sizes, where codes end inside a byte, and about records inserted before training.", "anchors": ["pkg/quantization/scalar_quantization.go:ScalarQuantizer.CompressionRatio", "pkg/quantization/scalar_quantization.go:BinaryQuantizer.CompressionRatio", "pkg/quantization/product_quantization.go:ProductQuantizer.CompressionRatio", "pkg/index/hnsw.go:HNSW.Insert"]}
{"id": "C247", "title": "The same search asked twice gives the same answer", "statement": "Two searches with the same arguments and no write in between return the same results in the same order, even when several results have the same score.", "quantifier": "all histories of writes before the search, all queries and limits, all orders in which a map may be visited and equal scores may be left by a sort", "why_tests_cant": "Go visits maps in a random order, so a test sees one order at a time and passes or fails by chance; the claim compares every order with every other, over every set of tied scores.", "anchors": ["pkg/index/flat.go:Search", "pkg/index/lsh.go:Search", "pkg/index/multi_index.go:Search", "pkg/graph/graph_hybrid.go:HybridSearch", "pkg/core/advanced_search.go:HybridSearch", "pkg/hindsight/hindsight.go:Recall", "pkg/semantic-router/sparse.go:TopTerms", "pkg/cortexdb/memory_api.go:searchMemoryLexical"]}
{"id": "C248", "title": "Asking for more results keeps the ones already given", "statement": "The same search with a larger limit begins with the results it gave for the smaller limit, in the same order; for the history of a session, which runs from old to new, it ends with them.", "quantifier": "all stores, indexes and histories, all queries, all pairs of positive limits, the smaller first", "why_tests_cant": "A page of results is only safe to enlarge if this holds between any two limits over any stored records, including tied scores and searches that derive their inner limits from the outer one; a test compares two limits on one fixture.", "anchors": ["pkg/core/store_search.go:Search", "pkg/core/advanced_search.go:SearchWithACL", "pkg/core/advanced_search.go:HybridSearch", "pkg/core/advanced_search.go:SearchWithDiversity", "pkg/core/reranker.go:SearchWithReranker", "pkg/core/chat.go:SearchChatHistory", "pkg/core/chat.go:GetSessionHistory", "pkg/index/flat.go:Search", "pkg/index/lsh.go:Search", "pkg/graph/graph_hybrid.go:HybridSearch", "pkg/semantic-router/sparse.go:TopTerms"]}
{"id": "C249", "title": "Widening a search never loses a result", "statement": "When the number of results is not limited, or the limit is not reached, a search that is made wider returns every result it returned before, with the same score: a larger radius, a lower threshold, fewer filter conditions, no collection instead of one, more principals, a greater depth, more edge or node types.", "quantifier": "all stores, indexes and graphs, all queries, all pairs of requests of which one is wider than the other", "why_tests_cant": "It relates two requests over every possible content of the store; a test compares a few pairs on a fixture and cannot see the record that only some filter, list of principals or path length would drop.", "anchors": ["pkg/index/flat.go:RangeSearch", "pkg/core/faceted_search.go:RangeSearch", "pkg/core/store_search.go:Search", "pkg/core/advanced_search.go:SearchWithACL", "pkg/graph/graph_traversal.go:Neighbors"]}
{"id": "C250", "title": "Narrowing a search is choosing among its results", "statement": "When the number of results is not limited, or the limit is not reached, a search narrowed to a collection, by further filter conditions, by a threshold, by a smaller radius or by node types returns exactly those results of the wider search that say of themselves that they are in that collection, meet the conditions, reach the threshold, lie within the radius or have one of the types.", "quantifier": "all stores and graphs after any history, all queries, all pairs of a request and its narrowing", "why_tests_cant": "It compares what the database filters with what the caller would filter from the answer, for every record and every condition; a test does this for the conditions its author thought of.", "anchors": ["pkg/core/store_search.go:Search", "pkg/core/faceted_search.go:RangeSearch", "pkg/core/advanced_search.go:SearchWithACL", "pkg/graph/graph_traversal.go:Neighbors"]}
{"id": "C251", "title": "A write shows in a search only through its own record", "statement": "After one record is written or deleted, an unlimited search, or one whose limit is not reached, gives every other record exactly as before: the same records, with the same contents and scores.", "quantifier": "all stores, indexes and graphs after any history, all records written or deleted, all queries", "why_tests_cant": "It speaks of every record that was not touched, after every history; a test looks at the record it has written and seldom at all the others.", "anchors": ["pkg/core/store_crud.go:Upsert", "pkg/core/store_crud.go:UpsertBatch", "pkg/core/store_crud.go:Delete", "pkg/core/store_search.go:Search", "pkg/core/advanced_search.go:SearchWithACL", "pkg/index/flat.go:RangeSearch", "pkg/graph/graph_traversal.go:Neighbors"]}
{"id": "C252", "title": "A limit that is not positive means a default number of results", "statement": "A search whose limit is zero or negative gives up to a default number of results, the same for zero and for every negative number; it does not fail, come back empty or return everything because of it.", "quantifier": "all stores, sessions, buckets and graphs, all queries, all limits that are not positive", "why_tests_cant": "The claim is about every limit that is not positive and every amount of stored data, over a dozen search functions that each decide for themselves; tests use positive limits.", "anchors": ["pkg/core/store_search.go:Search", "pkg/core/advanced_search.go:SearchWithACL", "pkg/core/advanced_search.go:SearchWithDiversity", "pkg/core/faceted_search.go:RangeSearch", "pkg/core/chat.go:GetSessionHistory", "pkg/core/chat.go:SearchChatHistory", "pkg/core/chat.go:KeywordSearchMessages", "pkg/core/chat.go:SearchMessagesByUser", "pkg/cortexdb/memory_api.go:SearchMemory", "pkg/cortexdb/graphrag_tools.go:SearchChunksByEntities", "pkg/semantic-router/sparse.go:TopTerms"]}
{"id": "C253", "title": "A database without records answers every search with nothing", "statement": "When nothing is stored, because nothing was written yet or everything was deleted, every valid search succeeds with no results, whatever its options and whatever an index still remembers of deleted records.", "quantifier": "all histories that leave no records, messages or nodes, all valid queries and options, all proposals of stale indexes", "why_tests_cant": "The state is reached by any sequence of writes and deletions; a test empties one store in one way and runs one search on it.", "anchors": ["pkg/core/store_search.go:Search", "pkg/core/advanced_search.go:HybridSearch", "pkg/core/advanced_search.go:SearchWithACL", "pkg/core/advanced_search.go:SearchWithDiversity", "pkg/core/reranker.go:SearchWithReranker", "pkg/core/faceted_search.go:RangeSearch", "pkg/core/chat.go:GetSessionHistory", "pkg/core/chat.go:SearchChatHistory", "pkg/index/flat.go:Search", "pkg/graph/graph_hybrid.go:HybridSearch"]}
{"id": "C254", "title": "A clustered index finds a vector it holds", "statement": "Searching an IVF index for a vector it holds returns the entry of this vector: always when as many results are asked for as the index holds entries, and first when every other entry is farther away. It holds when at least one cluster is probed and no two centroids are equally far from the vector.", "quantifier": "every sequence of training, additions, deletions, clearing and probe settings, every entry held, every k, every tie-breaking of the sort", "why_tests_cant": "whether the cluster a vector was put into is among the clusters searched for it depends on the whole history of additions and deletions and on the order a library sort gives to equal distances", "anchors": ["pkg/index/ivf.go:Add", "pkg/index/ivf.go:Search", "pkg/index/ivf.go:findNearestCentroid", "pkg/index/ivf.go:Delete"]}
{"id": "C255", "title": "The built-in embedder gives every text its own vector of the right size", "statement": "The mock embedder returns for every text, alone or in a batch, a vector of the configured dimension with components between -1 and 1; a smaller dimension gives the beginning of the vector of a larger one; different texts have different vectors.", "quantifier": "every text, every dimension, every batch, every rounding of an int32 to float32 that is monotone and exact on 24 bits", "why_tests_cant": "which texts collide and which components leave the range depends on the arithmetic modulo 2^32 over all texts", "anchors": ["pkg/semantic-router/embedder.go:MockEmbedder.Embed", "pkg/semantic-router/embedder.go:MockEmbedder.EmbedBatch", "pkg/semantic-router/embedder.go:MockEmbedder.Dimensions", "pkg/semantic-router/embedder.go:NewMockEmbedder"]}
{"id": "C256", "title": "A cosine index stores directions and measures the vectors given", "statement": "The exact index for cosine distance stores every vector scaled to length one, a vector without length as it is; vectors of the same direction are stored alike, storing a stored vector changes nothing, and the distances it reports are the cosine distances between the vectors as they were given. A vector read back is the vector inserted.", "quantifier": "every vector, every query of the same dimension, every index", "why_tests_cant": "the scaling must not change any distance for any pair of vectors", "anchors": ["pkg/index/flat.go:NewFlatIndexCosine", "pkg/index/flat.go:normalize", "pkg/index/flat.go:Insert", "pkg/index/flat.go:GetVector", "pkg/index/hnsw.go:CosineDistance"]}
{"id": "C257", "title": "Router options take effect, the last one for each setting", "statement": "A router is made for every embedder that is not nil, with the value of the last option given for each setting and the documented default for the others, in whatever order they come; a hybrid router hands each threshold to the router it is meant for; a route is matched from the configured threshold on; every option changes what the router answers.", "quantifier": "every list of options, every query, every set of routes", "why_tests_cant": "lists of options are unbounded, and an option without effect only shows when all answers are compared", "anchors": ["pkg/semantic-router/router.go:NewRouter", "pkg/semantic-router/router.go:WithTopK", "pkg/semantic-router/router.go:WithSimilarityFunc", "pkg/semantic-router/router.go:Route", "pkg/semantic-router/types.go:DefaultConfig", "pkg/semantic-router/hybrid.go:NewHybridRouter", "pkg/semantic-router/hybrid.go:DefaultHybridConfig"]}
