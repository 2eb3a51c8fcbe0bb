/-!
# Locks

The reader/writer locks of the library (`sync.RWMutex`), the calls that take them, and every
interleaving of those calls.  A call is the list of its synchronisation events in program order;
the events between two of them are irrelevant to who waits for whom.
-/

namespace Verif.Lock

/-- How a thread holds a lock: reading, waiting to write (announced, `sync.RWMutex.Lock` after it
has taken the writer mutex and made later readers wait), or writing. -/
inductive Mode where
  | r | wait | w
  deriving DecidableEq, Repr

/-- The shared variables whose accesses are recorded: `SQLiteStore.closed`, `config.VectorDim`,
`quantizer`, the quantizer's `Trained` (pkg/core/store.go:16-31), the lists of `IVFIndex`
(pkg/index/ivf.go:13-26) and `HybridRouter.alpha` (pkg/semantic-router/hybrid.go:12-24). -/
inductive Var where
  | closed | dim | quantizer | trained | ivf | alpha
  deriving DecidableEq, Repr

/-- One synchronisation event.  Locks are numbered.  `RWMutex.Lock` is the two events `want`
(announce, new readers wait from here) and `lock` (the readers inside have left). -/
inductive Op where
  | rlock (l : Nat) | runlock (l : Nat) | want (l : Nat) | lock (l : Nat) | unlock (l : Nat)
  | rd (v : Var) | wr (v : Var)
  deriving DecidableEq, Repr

abbrev Held := List (Nat × Mode)

/-- A goroutine: the locks it holds and what it has still to do. -/
structure Thread where
  held : Held
  todo : List Op
  deriving DecidableEq, Repr

abbrev State := List Thread

/-- The locks held after an event. -/
def after (h : Held) : Op → Held
  | .rlock l => (l, .r) :: h
  | .runlock l => h.erase (l, .r)
  | .want l => (l, .wait) :: h
  | .lock l => (l, .w) :: h.erase (l, .wait)
  | .unlock l => h.erase (l, .w)
  | .rd _ => h
  | .wr _ => h

/-- Whether an event can happen now (`sync.RWMutex`: a reader waits while a writer has announced
itself or writes, a writer announces itself once the previous writer has left, and writes once
the readers have left; unlocking needs the lock held, otherwise the runtime aborts).  The
runtime lets the waiting readers in before the next writer announces itself; here they may also
come later. -/
def can (s : State) (t : Thread) : Op → Bool
  | .rlock l | .want l => s.all fun u => !(u.held.contains (l, .wait) || u.held.contains (l, .w))
  | .lock l => t.held.contains (l, .wait) && s.all fun u => !(u.held.contains (l, .r))
  | .runlock l => t.held.contains (l, .r)
  | .unlock l => t.held.contains (l, .w)
  | .rd _ => true
  | .wr _ => true

/-- Thread `i` does its next event, if it can. -/
def step (s : State) (i : Nat) : Option State :=
  match s[i]? with
  | none => none
  | some t =>
    match t.todo with
    | [] => none
    | op :: rest => if can s t op then some (s.set i ⟨after t.held op, rest⟩) else none

/-- The state after a schedule: the threads that move, in order. -/
def run (s : State) : List Nat → Option State
  | [] => some s
  | i :: is => match step s i with
    | none => none
    | some s' => run s' is

/-- Threads at their start. -/
def start (ps : List (List Op)) : State := ps.map fun p => ⟨[], p⟩

/-! ## The calls -/

/-- The store lock (`SQLiteStore.mu`, pkg/core/store.go:22). -/
abbrev mu : Nat := 10
/-- The lock of the vector index (`HNSW.mu`, pkg/index/hnsw.go:52; `IVFIndex.mu`,
pkg/index/ivf.go:25).  A store has one index in use. -/
abbrev ix : Nat := 11

/-- A read section: `mu.RLock(); defer mu.RUnlock()`. -/
def reading (l : Nat) (body : List Op) : List Op := .rlock l :: (body ++ [.runlock l])

/-- A write section: `mu.Lock(); defer mu.Unlock()`. -/
def writing (l : Nat) (body : List Op) : List Op := .want l :: .lock l :: (body ++ [.unlock l])

/-- A use of the vector index inside a store section: a call that locks the index for reading
(Search, Save), one that locks it for writing (Insert, Add, HNSW Delete, SetQuantizer, Load,
Clear, SetNProbe), or `IVFIndex.Delete` (pkg/index/ivf.go:398-450), which does not lock it. -/
inductive IndexUse where
  | look | change | ivfDelete
  deriving DecidableEq, Repr

/-- The events of a use of the index. -/
def IndexUse.ops : IndexUse → List Op
  | .look => reading ix [.rd .ivf]
  | .change => writing ix [.wr .ivf]
  | .ivfDelete => [.rd .ivf, .wr .ivf]

/-- The index calls made inside a store section. -/
def indexCalls (us : List IndexUse) : List Op := us.flatMap IndexUse.ops

/-- Methods of the store that hold the read lock once, check `closed`, and call no other locking
method. -/
inductive ReadCall where
  /-- pkg/core/advanced_filter.go:523-578 -/
  | searchWithAdvancedFilter
  /-- pkg/core/advanced_search.go:24-56 -/
  | searchWithACL
  /-- pkg/core/advanced_search.go:279-339 -/
  | searchWithNegatives
  /-- pkg/core/advanced_search.go:587-650 -/
  | findAnomalies
  /-- pkg/core/aggregations.go:50-77 -/
  | aggregate
  /-- pkg/core/chat.go:34-50 -/
  | createSession
  /-- pkg/core/chat.go:53-74 -/
  | getSession
  /-- pkg/core/chat.go:78-110 -/
  | addMessage
  /-- pkg/core/chat.go:113-156 -/
  | getSessionHistory
  /-- pkg/core/chat.go:160-219 -/
  | searchChatHistory
  /-- pkg/core/chat.go:224-254 -/
  | keywordSearchMessages
  /-- pkg/core/chat.go:258-323 -/
  | searchMessagesByUser
  /-- pkg/core/collections.go:108-153 -/
  | getCollection
  /-- pkg/core/collections.go:156-213 -/
  | listCollections
  /-- pkg/core/document.go:26-55 -/
  | createDocument
  /-- pkg/core/document.go:58-94 -/
  | getDocument
  /-- pkg/core/document.go:135-173 -/
  | updateDocument
  /-- pkg/core/document.go:177-218 -/
  | listDocumentsWithFilter
  /-- pkg/core/faceted_search.go:77-108 -/
  | searchWithFacets
  /-- pkg/core/faceted_search.go:337-399 -/
  | rangeSearch
  /-- pkg/core/io.go:474-489 -/
  | backup
  /-- pkg/core/io.go:398-429 (saves the index) -/
  | exportIndex
  /-- pkg/core/multi_vector.go:257-332 -/
  | getMultiVectorEntity
  /-- pkg/core/store.go:107-133 -/
  | stats
  /-- pkg/core/store_crud.go:317-358 -/
  | delete
  /-- pkg/core/store_crud.go:361-379 -/
  | deleteByDocID
  /-- pkg/core/store_crud.go:535-551 -/
  | clear
  /-- pkg/core/store_crud.go:554-607 -/
  | clearByDocID
  /-- pkg/core/store_query.go:14-49 -/
  | getByID
  /-- pkg/core/store_query.go:52-90 -/
  | getByDocID
  /-- pkg/core/store_query.go:93-126 -/
  | listDocuments
  /-- pkg/core/store_query.go:129-183 -/
  | listDocumentsWithInfo
  /-- pkg/core/store_query.go:186-228 -/
  | getDocumentsByType
  /-- pkg/core/streaming.go:29-124 (the goroutine it starts takes no lock) -/
  | streamSearch
  deriving DecidableEq, Repr

/-- Methods of the store that hold the write lock once and call no other locking method of the
store. -/
inductive WriteCall where
  /-- pkg/core/collections.go:33-105 -/
  | createCollection
  /-- pkg/core/collections.go:216-264 -/
  | deleteCollection
  /-- pkg/core/document.go:97-132 -/
  | deleteDocument
  /-- pkg/core/io.go:432-471 -/
  | importIndex
  /-- pkg/core/multi_vector.go:53-116 -/
  | upsertMultiVector
  /-- pkg/core/multi_vector.go:335-384 -/
  | deleteMultiVectorEntity
  /-- pkg/core/store_crud.go:382-462 -/
  | deleteBatch
  /-- pkg/core/store_crud.go:465-532 -/
  | deleteByFilter
  /-- pkg/core/store_index.go:216-308 -/
  | trainIndex
  /-- pkg/core/store_init.go:13-69 -/
  | init
  deriving DecidableEq, Repr

/-- A call on the store, with the facts about arguments and state that decide which of its
synchronisation events happen. -/
inductive Call where
  /-- A method with one read section; the index calls it makes. -/
  | read (m : ReadCall) (us : List IndexUse)
  /-- A method with one write section; the index calls it makes. -/
  | write (m : WriteCall) (us : List IndexUse)
  /-- `Config` (pkg/core/store.go:100-104). -/
  | config
  /-- `SetLogger`, `SetAutoDimAdapt` (pkg/core/store.go:76-87). -/
  | setOption
  /-- `Close` (pkg/core/store_close.go:9-38); whether it was open, whether an index is saved. -/
  | close (wasOpen saves : Bool)
  /-- `autoSaveLoop` (pkg/core/store_index.go:479-510); whether the store was closed, whether an
  index is saved. -/
  | autoSave (wasClosed saves : Bool)
  /-- `Search` (pkg/core/store_search.go:15-61); whether it is refused early, whether an index is
  used. -/
  | search (refused usesIndex : Bool)
  /-- `SearchWithFilter` (pkg/core/store_search.go:64-125). -/
  | searchWithFilter (refused usesIndex : Bool)
  /-- `Upsert` (pkg/core/store_crud.go:15-158); whether it finds the dimension unset, wins setting
  it and creates a quantizer, whether it trains, whether it gives a collection by name, the index
  calls. -/
  | upsert (first wins makesQ trains named : Bool) (us : List IndexUse)
  /-- `UpsertBatch` (pkg/core/store_crud.go:161-314); whether it trains, how many records name
  their collection, the index calls. -/
  | upsertBatch (trains : Bool) (named : Nat) (us : List IndexUse)
  /-- `TrainQuantizer` (pkg/core/store_index.go:311-358), called directly. -/
  | trainQuantizer
  /-- `HybridSearch` (pkg/core/advanced_search.go:59-209); whether it has a vector. -/
  | hybridSearch (vec usesIndex : Bool)
  /-- `SearchWithDiversity` (pkg/core/advanced_search.go:342-372). -/
  | searchWithDiversity (usesIndex : Bool)
  /-- `SearchWithReranker` (pkg/core/reranker.go:48-103). -/
  | searchWithReranker (usesIndex : Bool)
  /-- `SearchMultiVector` (pkg/core/multi_vector.go:119-205); how many fields it searches. -/
  | searchMultiVector (fields : Nat) (usesIndex : Bool)
  /-- `GetCollectionStats` (pkg/core/collections.go:267-308). -/
  | getCollectionStats
  /-- `Dump` (pkg/core/io.go:77-155); whether the format is JSON. -/
  | dump (json : Bool)
  /-- `RecommendSimilar` (pkg/core/advanced_search.go:559-584); how many records it looks up. -/
  | recommendSimilar (lookups : Nat)
  /-- `BatchRangeSearch` (pkg/core/faceted_search.go:402-414); how many queries. -/
  | batchRangeSearch (queries : Nat)
  deriving DecidableEq, Repr

/-- The index use of a search. -/
def searchIndex (b : Bool) : List Op := if b then indexCalls [.look] else []

/-- `Search` (pkg/core/store_search.go:15-61): the dimension under the read lock (16-18), `closed`
without it (20), the search under the read lock again (36-60). -/
def searchOps (refused usesIndex : Bool) : List Op :=
  reading mu [.rd .dim] ++ [.rd .closed]
    ++ (if refused then [] else reading mu (.rd .dim :: searchIndex usesIndex))

/-- `GetCollection` (pkg/core/collections.go:108-153). -/
def getCollectionOps : List Op := reading mu [.rd .closed]

/-- The events of a call. -/
def Call.ops : Call → List Op
  | .read _ us => reading mu (.rd .closed :: indexCalls us)
  | .write _ us => writing mu (.rd .closed :: indexCalls us)
  | .config => reading mu [.rd .dim]
  | .setOption => writing mu []
  | .close wasOpen saves =>
    writing mu (.rd .closed :: if wasOpen then searchIndex saves ++ [.rd .quantizer, .wr .closed] else [])
  | .autoSave wasClosed saves =>
    reading mu [.rd .closed] ++ (if wasClosed then [] else searchIndex saves ++ [.rd .quantizer])
  | .search refused usesIndex => searchOps refused usesIndex
  | .searchWithFilter refused usesIndex => searchOps refused usesIndex
  | .upsert first wins makesQ trains named us =>
    reading mu [.rd .dim] ++ [.rd .closed]
      ++ (if first then
            writing mu (.rd .dim ::
              (if wins then
                .wr .dim :: (if makesQ then .rd .quantizer :: .wr .quantizer :: indexCalls [.change] else [])
               else []))
          else [])
      ++ [.rd .quantizer] ++ (if trains then [.rd .trained, .wr .trained] else [])
      ++ reading mu ((if named then getCollectionOps else []) ++ indexCalls us)
  | .upsertBatch trains named us =>
    reading mu (.rd .closed :: .rd .quantizer ::
      ((if trains then [.rd .trained, .wr .trained] else [])
        ++ (List.replicate named ()).flatMap (fun _ => getCollectionOps) ++ indexCalls us))
  | .trainQuantizer => [.rd .quantizer, .wr .trained]
  | .hybridSearch vec usesIndex =>
    reading mu (.rd .closed :: if vec then searchOps false usesIndex else [])
  | .searchWithDiversity usesIndex => reading mu (.rd .closed :: searchOps false usesIndex)
  | .searchWithReranker usesIndex => reading mu (.rd .closed :: searchOps false usesIndex)
  | .searchMultiVector fields usesIndex =>
    reading mu (.rd .closed ::
      (List.replicate fields ()).flatMap fun _ => searchOps false usesIndex)
  | .getCollectionStats => reading mu (.rd .closed :: getCollectionOps)
  | .dump json => reading mu (.rd .closed :: if json then reading mu [.rd .closed] else [])
  | .recommendSimilar n =>
    (List.replicate n ()).flatMap (fun _ => reading mu [.rd .closed]) ++ reading mu [.rd .closed]
  | .batchRangeSearch n => (List.replicate n ()).flatMap fun _ => reading mu [.rd .closed]

/-- Whether a call takes the store lock while it already holds it: the calls of locking methods
at pkg/core/advanced_search.go:71, 354, reranker.go:58, 68, multi_vector.go:153,
collections.go:276, io.go:109, store_crud.go:95, 236. -/
def Call.nested : Call → Bool
  | .upsert _ _ _ _ named _ => named
  | .upsertBatch _ named _ => named != 0
  | .hybridSearch vec _ => vec
  | .searchWithDiversity _ => true
  | .searchWithReranker _ => true
  | .searchMultiVector fields _ => fields != 0
  | .getCollectionStats => true
  | .dump json => json
  | _ => false

/-- Whether a call asks for the store's write lock before anything else. -/
def Call.exclusive : Call → Bool
  | .write .. => true
  | .setOption => true
  | .close .. => true
  | _ => false

/-! ## The other components with locks -/

/-- `System.mu` (pkg/hindsight/hindsight.go:28). -/
abbrev hs : Nat := 0
/-- `HybridRouter.denseMu` (pkg/semantic-router/hybrid.go:15). -/
abbrev dense : Nat := 1
/-- `HybridRouter.sparseMu` (pkg/semantic-router/hybrid.go:18). -/
abbrev sparse : Nat := 2
/-- `Router.mu` (pkg/semantic-router/router.go:17). -/
abbrev router : Nat := 3
/-- `SparseRouter.mu` (pkg/semantic-router/hybrid.go:46). -/
abbrev srouter : Nat := 4
/-- `idfMu` of the encoder (pkg/semantic-router/sparse.go:90). -/
abbrev idf : Nat := 5
/-- `vocabMu` of the encoder (pkg/semantic-router/sparse.go:107). -/
abbrev vocab : Nat := 6
/-- `MultiIndex.mu`, `HybridIndex.mu` (pkg/index/multi_index.go:23, 382). -/
abbrev multi : Nat := 7
/-- `FunctionRouter.mu` (pkg/semantic-router/schema.go:101). -/
abbrev func : Nat := 8

/-- `n` encodings of texts by the sparse encoder (pkg/semantic-router/sparse.go:189-225). -/
def encodings (n : Nat) : List Op := (List.replicate n ()).flatMap fun _ => reading idf []

/-- `Router.Route` (pkg/semantic-router/router.go:207-251). -/
def routeOps : List Op := reading router []

/-- `SparseRouter.Route` (pkg/semantic-router/hybrid.go:136-175): the query is encoded first, the
utterances under the lock. -/
def sparseRouteOps (utterances : Nat) : List Op := encodings 1 ++ reading srouter (encodings utterances)

/-- Calls of the routers, the combined indexes and the memory system. -/
inductive Other where
  /-- `Router.Add`, `AddBatch`, `Remove` (pkg/semantic-router/router.go:100-204). -/
  | routerWrite
  /-- `Router.Route`, `List`, `Get`, `Stats` (router.go:207-251, 269-291, 437-454). -/
  | routerRead
  /-- `SparseRouter.Add` (hybrid.go:111-133). -/
  | sparseAdd
  /-- `SparseRouter.Route` (hybrid.go:136-175). -/
  | sparseRoute (utterances : Nat)
  /-- `HybridRouter.Add`, `AddBatch` (hybrid.go:311-354); whether there are dense routes, how many
  sparse ones. -/
  | hybridAdd (hasDense : Bool) (sparseRoutes : Nat)
  /-- `HybridRouter.Route` (hybrid.go:357-410). -/
  | hybridRoute (utterances : Nat)
  /-- `HybridRouter.List` (hybrid.go:427-432). -/
  | hybridList
  /-- `HybridRouter.Stats` (hybrid.go:445-463). -/
  | hybridStats
  /-- `HybridRouter.SetAlpha` (hybrid.go:440-442). -/
  | setAlpha
  /-- `Fit` of an encoder (sparse.go:134-186, 289-334); how many terms. -/
  | fit (terms : Nat)
  /-- `Vocabulary`, `Dimensions` of an encoder (sparse.go:237-248, 381-392). -/
  | vocabulary
  /-- `FunctionRouter.Add` (schema.go:120-136). -/
  | funcAdd
  /-- `FunctionRouter.Route` (schema.go:139-172). -/
  | funcRoute (isMatch : Bool)
  /-- `MultiIndex.AddIndex` (pkg/index/multi_index.go:78-82), `HybridIndex.SetAlpha` (491-495). -/
  | multiConfigure
  /-- `MultiIndex.Insert`, `Search`, `Delete`, `Size`, `Stats` (multi_index.go:85-140, 335-375);
  their index calls one after the other. -/
  | multiUse (us : List IndexUse)
  /-- `HybridIndex.Insert`, `Delete` (multi_index.go:400-408, 473-483). -/
  | hybridIndexWrite (us : List IndexUse)
  /-- `HybridIndex.Search` (multi_index.go:411-470). -/
  | hybridIndexSearch
  /-- `System.CreateBank`, `DeleteBank`, setters (pkg/hindsight/hindsight.go:745-789, 836-851,
  hooks.go:186-232): the graph store takes no lock. -/
  | bankWrite
  /-- `System.GetBank` (hindsight.go:793-821); whether it is loaded. -/
  | getBank (loads : Bool)
  /-- `System.ListBanks` (hindsight.go:824-833), `RetainFromText` without facts (hooks.go:248-262). -/
  | bankRead
  /-- `System.AddMessage` (pkg/hindsight/chat.go:51-118), the extraction apart. -/
  | memAddMessage
  /-- `System.Recall`, `Reflect`, `Observe` (hindsight.go:212-322, 644-686, 857-905) as one thread:
  store searches, then the system's lock `n` times. -/
  | recall (searches n : Nat)
  deriving DecidableEq, Repr

/-- The events of such a call. -/
def Other.ops : Other → List Op
  | .routerWrite => writing router []
  | .routerRead => routeOps
  | .sparseAdd => writing srouter []
  | .sparseRoute u => sparseRouteOps u
  | .hybridAdd d n =>
    .want dense :: .lock dense :: .want sparse :: .lock sparse ::
      ((if d then writing router [] else [])
        ++ (List.replicate n ()).flatMap (fun _ => writing srouter [])
        ++ [.unlock sparse, .unlock dense])
  | .hybridRoute u => routeOps ++ sparseRouteOps u ++ [.rd .alpha]
  | .hybridList => reading dense (reading router [])
  | .hybridStats =>
    .rlock dense :: .rlock sparse :: (reading router [] ++ [.rd .alpha, .runlock sparse, .runlock dense])
  | .setAlpha => [.wr .alpha]
  | .fit n => writing idf ((List.replicate n ()).flatMap fun _ => writing vocab [])
  | .vocabulary => reading vocab []
  | .funcAdd => writing func []
  | .funcRoute m => routeOps ++ (if m then reading func [] else [])
  | .multiConfigure => writing multi []
  | .multiUse us => reading multi (indexCalls us)
  | .hybridIndexWrite us => writing multi (indexCalls us)
  | .hybridIndexSearch => reading multi (indexCalls [.look, .look])
  | .bankWrite => writing hs []
  | .getBank loads => reading hs [] ++ (if loads then writing hs [] else [])
  | .bankRead => reading hs []
  | .memAddMessage => reading mu [.rd .closed] ++ writing hs []
  | .recall m n =>
    (List.replicate m ()).flatMap (fun _ => searchOps false true)
      ++ (List.replicate n ()).flatMap (fun _ => reading hs [])

end Verif.Lock
