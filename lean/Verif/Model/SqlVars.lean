import Verif.Model.GraphRead
import Verif.Model.GraphTraverse
import Verif.Model.Search

/-!
Model of the calls that put one bound parameter per item into a single SQL statement: /repo/pkg/graph/graph_batch.go,
graph.go, graph_traversal.go, /repo/pkg/core/store_search.go, advanced_search.go and /repo/pkg/cortexdb/knowledge_api.go.

`lim` is the number of bound parameters SQLite accepts in one statement (32766 unless compiled otherwise). A statement with
more fails. The other models leave this out; here the calls are repeated with it, on top of the same definitions, so the
simplifications are those of Verif.Model.Graph, GraphTraverse and Search.
-/
namespace Verif.Large

section Graph
open Verif.Graph

/-- `DeleteNodesBatch`, graph_batch.go:121-166: the statement of line 145 has a parameter for each id. -/
def deleteNodesBatch (lim : Nat) (fk commit : Bool) (s : State) (ids : List String) : State × Option Counts :=
  if ids = [] then (s, some ⟨0, 0⟩)
  else if lim < ids.length then (s, none)
  else Graph.deleteNodesBatch fk commit s ids

/-- `DeleteEdgesBatch`, graph_batch.go:271-316: the statement of line 295. -/
def deleteEdgesBatch (lim : Nat) (commit : Bool) (s : State) (ids : List String) : State × Option Counts :=
  if ids = [] then (s, some ⟨0, 0⟩)
  else if lim < ids.length then (s, none)
  else Graph.deleteEdgesBatch commit s ids

/-- `ExecuteBatch`, graph_batch.go:460-524, with the statements of lines 584 and 662: an error of one of them returns, and
the deferred rollback undoes what was done. -/
def executeBatch (lim : Nat) (fk commit : Bool) (s : State) (b : Batch) : State × Option Counts :=
  if lim < b.nodeDeletes.length then (s, none)
  else if lim < b.edgeDeletes.length then (s, none)
  else Graph.executeBatch fk commit s b

/-- `loadNeighborNodes`, graph_traversal.go:368-387, through `getNodesByIDs`. -/
def loadNeighbors (lim : Nat) (s : State) (types ids : List String) : Option (List Node) :=
  match nodesByIds lim s ids with
  | none => none
  | some m => some ((ids.filterMap (fun i => (m.find? (fun x => decide (x.1 = i))).map Prod.snd)).filter
      (fun n => decide (types = [] ∨ n.ntype ∈ types)))

/-- `Neighbors`, graph_traversal.go:29-100; `some none` is an error. -/
def neighbors (lim : Nat) (s : State) (id : String) (o : Opts) : Option (Option (List Node)) :=
  (neighborLoop s o (fuelA s) { visited := [id], ids := [], queue := [(id, 0)], stop := false }).map
    (fun r => r.bind (loadNeighbors lim s o.nodeTypes))

/-- `ShortestPath`, graph_traversal.go:103-203; `some none` is the error of the statement at line 148. -/
def shortestPath (lim : Nat) (s : State) (a b : String) : Option (Option PathAnswer) :=
  if a = b then (Graph.shortestPath s a b).map some
  else
    match pathLoop s b (fuelA s) [] [⟨a, [a], [], 0, 0⟩] with
    | none => none
    | some none => some (some .noPath)
    | some (some c) =>
      if lim < c.path.length then some none
      else match loadPath s c with
        | none => some (some .notFound)
        | some p => some (some (.path p))

/-- `cleanupKnowledgeArtifacts`, knowledge_api.go:377-400, as far as graph and chunks go: the nodes of the document and of
its chunks are deleted in one call, and only then the document with its chunks. The second value says whether the call
succeeds; without success the chunks stay. -/
def cleanup (lim : Nat) (fk : Bool) (g : State) (doc : String) (chunks : List String) : (State × List String) × Bool :=
  match deleteNodesBatch lim fk true g (doc :: chunks) with
  | (_, none) => ((g, chunks), false)
  | (g', some _) => ((g', []), true)

end Graph

section Search
open Verif.Model.Store Verif.Model.Search

/-- The ids an index proposes for a search, store_search.go:129-142, 156-172; `none` when the table is read instead. -/
def proposed {W : Type} (via : Serve W) (q : List W) (o : Opts) : Option (List String) :=
  match via with
  | .linear => none
  | .hnsw p => let ids := p q (defaultK o.topK * 2); if ids.length = 0 then none else some ids
  | .ivf p => match p q (defaultK o.topK * 4) with
    | none => none
    | some ids => if ids.length = 0 then none else some ids

/-- `Search`, store_search.go:15-61, with the statement of line 264; `none` is its error. -/
def search {W HI VI : Type} (lim : Nat) (c : Cfg W) (via : Serve W) (s : St W HI VI) (query : List W) (o : Opts) :
    Option (Except Err (List (Hit W))) :=
  match prepareQuery c s query with
  | .error e => some (.error e)
  | .ok q =>
    match proposed via q o with
    | some ids => if lim < ids.length then none else some (.ok (serve c via s q o))
    | none => some (.ok (serve c via s q o))

/-- `HybridSearch`, advanced_search.go:59-209, with the statement of line 145: its error is dropped (line 150 reads rows only
when there is none), so the full-text hits are. -/
def hybridSearch {W HI VI : Type} (lim : Nat) (c : Cfg W) (via : Serve W) (s : St W HI VI) (query : List W)
    (fts : List String) (o : Opts) (rrfK : ℚ) : Option (Except Err (List (Hit W))) :=
  if s.closed then some (.error .closed)
  else
    match (if query.length > 0 then search lim c via s query o else some (.ok [])) with
    | none => none
    | some (.error e) => some (.error e)
    | some (.ok vs) =>
      let k := if rrfK = 0 then 60 else rrfK
      let rows := if fts.length > 0 then
          if lim < fts.length then [] else (s.db.embeddings.filter (fun r => r.id ∈ fts)).map (scan s.db)
        else []
      let fused := rows.foldl (fun acc h => addHit acc h (1 / (k + rankOf fts h.id))) (fuseVector k 0 vs)
      let sorted := c.sort fused
      some (.ok (if o.topK > 0 ∧ (sorted.length : Int) > o.topK then sorted.take o.topK.toNat else sorted))

end Search

end Verif.Large
