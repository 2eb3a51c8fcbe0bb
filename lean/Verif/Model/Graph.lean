import Mathlib.Algebra.Order.Field.Rat

/-!
Model of the graph store, /repo/pkg/graph/graph.go and graph_batch.go.

Simplifications: vectors and weights are rationals; properties are an opaque text (their JSON); the two tables are lists in
row order; times are left out. `fk` says whether the connection that runs the statement enforces foreign keys: the pragma
at /repo/pkg/core/store_init.go:42 is sent to one connection of a pool of up to 25 (store_init.go:34). Encoding of vectors
never fails here, as it does for no non-empty vector (C01).
-/
namespace Verif.Graph

/-- `GraphNode`, graph.go:15-23. -/
structure Node where
  id : String
  vec : List ℚ
  content : String
  ntype : String
  props : String
  deriving DecidableEq, Repr

/-- `GraphEdge`, graph.go:26-35. -/
structure Edge where
  id : String
  src : String
  dst : String
  etype : String
  weight : ℚ
  props : String
  vec : List ℚ
  deriving DecidableEq, Repr

/-- The two tables (graph.go:94-126) and the contents of the optional vector index: `none` when no index was enabled. -/
structure State where
  nodes : List Node
  edges : List Edge
  index : Option (List (String × List ℚ))
  deriving DecidableEq, Repr

def init : State := ⟨[], [], none⟩

/-- `INSERT … ON CONFLICT(id) DO UPDATE` on nodes: the row keeps its place. -/
def putNode (l : List Node) (n : Node) : List Node :=
  if l.any (fun x => decide (x.id = n.id)) then l.map (fun x => if x.id = n.id then n else x) else l ++ [n]

def putEdge (l : List Edge) (e : Edge) : List Edge :=
  if l.any (fun x => decide (x.id = e.id)) then l.map (fun x => if x.id = e.id then e else x) else l ++ [e]

/-- `hnswIndex.index.Remove` then `Add` (graph.go:180-184), as far as the set of indexed vectors goes. -/
def reindex (i : Option (List (String × List ℚ))) (n : Node) : Option (List (String × List ℚ)) :=
  i.map (fun l => l.filter (fun x => decide (x.1 ≠ n.id)) ++ [(n.id, n.vec)])

/-- `UpsertNode`, graph.go:133-188; `none` is the nil pointer. -/
def upsertNode (s : State) (n : Option Node) : State × Bool :=
  match n with
  | none => (s, false)
  | some n =>
    if n.id = "" then (s, false)
    else if n.vec = [] then (s, false)
    else ({ s with nodes := putNode s.nodes n, index := reindex s.index n }, true)

def hasNode (l : List Node) (id : String) : Bool := l.any (fun x => decide (x.id = id))

/-- `GetNode`, graph.go:191-234. -/
def getNode (s : State) (id : String) : Option Node := s.nodes.find? (fun x => decide (x.id = id))

/-- `DELETE FROM graph_nodes` for the given ids with the cascade of graph.go:116-117: a row that goes takes the edges at it along;
an id without a row takes nothing. -/
def dropNodes (fk : Bool) (s : State) (ids : List String) : State :=
  let gone := ids.filter (hasNode s.nodes)
  { s with
    nodes := s.nodes.filter (fun x => decide (x.id ∉ ids))
    edges := if fk then s.edges.filter (fun e => decide (e.src ∉ gone ∧ e.dst ∉ gone)) else s.edges }

/-- `DeleteNode`, graph.go:237-259. -/
def deleteNode (fk : Bool) (s : State) (id : String) : State × Bool :=
  if hasNode s.nodes id then
    let s' := dropNodes fk s [id]
    ({ s' with index := s'.index.map (fun l => l.filter (fun x => decide (x.1 ≠ id))) }, true)
  else (s, false)

/-- The row written for an edge: weight 0 becomes 1 (graph.go:272-274). -/
def normEdge (e : Edge) : Edge := if e.weight = 0 then { e with weight := 1 } else e

/-- The statement of graph.go:295-306: with foreign keys both ends must exist. -/
def writeEdge (fk : Bool) (s : State) (e : Edge) : State × Bool :=
  if fk = true ∧ (hasNode s.nodes e.src = false ∨ hasNode s.nodes e.dst = false) then (s, false)
  else ({ s with edges := putEdge s.edges e }, true)

/-- `UpsertEdge`, graph.go:262-319. -/
def upsertEdge (fk : Bool) (s : State) (e : Option Edge) : State × Bool :=
  match e with
  | none => (s, false)
  | some e =>
    if e.id = "" then (s, false)
    else if e.src = "" ∨ e.dst = "" then (s, false)
    else writeEdge fk s (normEdge e)

inductive Dir where
  | out
  | in_
  | both
  | bad
  deriving DecidableEq, Repr

/-- `GetEdges`, graph.go:322-392; `none` is the error for an unknown direction. The text "" means both. -/
def getEdges (s : State) (id : String) : Dir → Option (List Edge)
  | .out => some (s.edges.filter (fun e => decide (e.src = id)))
  | .in_ => some (s.edges.filter (fun e => decide (e.dst = id)))
  | .both => some (s.edges.filter (fun e => decide (e.src = id ∨ e.dst = id)))
  | .bad => none

/-- `DeleteEdge`, graph.go:395-412. -/
def deleteEdge (s : State) (id : String) : State × Bool :=
  if s.edges.any (fun e => decide (e.id = id)) then ({ s with edges := s.edges.filter (fun e => decide (e.id ≠ id)) }, true)
  else (s, false)

/-! ### Batches -/

/-- `BatchResult`, graph_batch.go:23-27, without the error texts. -/
structure Counts where
  ok : Nat
  failed : Nat
  deriving DecidableEq, Repr

/-- One item of `UpsertNodesBatch` (graph_batch.go:62-109) or `upsertNodesBatchTx` (graph_batch.go:547-568): the row is
written, the vector index is not. -/
def batchNode (s : State) (n : Option Node) : State × Bool :=
  match n with
  | none => (s, false)
  | some n =>
    if n.id = "" ∨ n.vec = [] then (s, false)
    else ({ s with nodes := putNode s.nodes n }, true)

/-- One item of `UpsertEdgesBatch` (graph_batch.go:203-259) or `upsertEdgesBatchTx` (graph_batch.go:620-648). -/
def batchEdge (fk : Bool) (s : State) (e : Option Edge) : State × Bool := upsertEdge fk s e

/-- A loop over items that counts successes and failures. -/
def loop {α : Type} (f : State → α → State × Bool) : State → List α → State × Counts
  | s, [] => (s, ⟨0, 0⟩)
  | s, a :: as =>
    let r := f s a
    let rest := loop f r.1 as
    (rest.1, if r.2 then { rest.2 with ok := rest.2.ok + 1 } else { rest.2 with failed := rest.2.failed + 1 })

/-- `UpsertNodesBatch`, graph_batch.go:30-118; `commit = false` is a failed commit: the transaction is rolled back. -/
def upsertNodesBatch (commit : Bool) (s : State) (ns : List (Option Node)) : State × Option Counts :=
  if ns = [] then (s, some ⟨0, 0⟩)
  else if commit = false then (s, none)
  else let r := loop batchNode s ns; (r.1, some r.2)

/-- `deleteNodesBatchTx`, graph_batch.go:570-595, and the middle of `DeleteNodesBatch`, graph_batch.go:137-157: the number
of rows affected counts deleted nodes, not cascaded edges. -/
def deleteNodesTx (fk : Bool) (s : State) (ids : List String) : State × Counts :=
  let n := (s.nodes.filter (fun x => decide (x.id ∈ ids))).length
  (dropNodes fk s ids, ⟨n, ids.length - n⟩)

/-- `DeleteNodesBatch`, graph_batch.go:121-166. -/
def deleteNodesBatch (fk commit : Bool) (s : State) (ids : List String) : State × Option Counts :=
  if ids = [] then (s, some ⟨0, 0⟩)
  else if commit = false then (s, none)
  else let r := deleteNodesTx fk s ids; (r.1, some r.2)

/-- `UpsertEdgesBatch`, graph_batch.go:169-268. -/
def upsertEdgesBatch (fk commit : Bool) (s : State) (es : List (Option Edge)) : State × Option Counts :=
  if es = [] then (s, some ⟨0, 0⟩)
  else if commit = false then (s, none)
  else let r := loop (batchEdge fk) s es; (r.1, some r.2)

/-- `deleteEdgesBatchTx`, graph_batch.go:650-672. -/
def deleteEdgesTx (s : State) (ids : List String) : State × Counts :=
  let n := (s.edges.filter (fun x => decide (x.id ∈ ids))).length
  ({ s with edges := s.edges.filter (fun x => decide (x.id ∉ ids)) }, ⟨n, ids.length - n⟩)

/-- `DeleteEdgesBatch`, graph_batch.go:271-316. -/
def deleteEdgesBatch (commit : Bool) (s : State) (ids : List String) : State × Option Counts :=
  if ids = [] then (s, some ⟨0, 0⟩)
  else if commit = false then (s, none)
  else let r := deleteEdgesTx s ids; (r.1, some r.2)

/-- `BatchGraphOperation`, graph_batch.go:452-457. -/
structure Batch where
  nodeUpserts : List (Option Node)
  nodeDeletes : List String
  edgeUpserts : List (Option Edge)
  edgeDeletes : List String
  deriving DecidableEq, Repr

def Counts.add (a b : Counts) : Counts := ⟨a.ok + b.ok, a.failed + b.failed⟩

/-- `ExecuteBatch`, graph_batch.go:460-524, for a non-nil operation. -/
def executeBatch (fk commit : Bool) (s : State) (b : Batch) : State × Option Counts :=
  let r1 := loop batchNode s b.nodeUpserts
  let r2 := deleteNodesTx fk r1.1 b.nodeDeletes
  let r3 := loop (batchEdge fk) r2.1 b.edgeUpserts
  let r4 := deleteEdgesTx r3.1 b.edgeDeletes
  if commit = false then (s, none)
  else (r4.1, some (((r1.2.add r2.2).add r3.2).add r4.2))

/-- `GetNodesBatch`, graph_batch.go:319-378. -/
def getNodesBatch (s : State) (ids : List String) : List Node := s.nodes.filter (fun x => decide (x.id ∈ ids))

/-- `EnableHNSWIndex`, graph_hnsw.go:298-330, as far as the set of indexed vectors goes: all nodes are added. -/
def enableIndex (s : State) : State := { s with index := some (s.nodes.map (fun n => (n.id, n.vec))) }

/-! ### Histories -/

inductive Op where
  | upsertNode (n : Option Node)
  | deleteNode (fk : Bool) (id : String)
  | upsertEdge (fk : Bool) (e : Option Edge)
  | deleteEdge (id : String)
  | nodesBatch (commit : Bool) (ns : List (Option Node))
  | deleteNodes (fk commit : Bool) (ids : List String)
  | edgesBatch (fk commit : Bool) (es : List (Option Edge))
  | deleteEdges (commit : Bool) (ids : List String)
  | execute (fk commit : Bool) (b : Batch)
  | enable

def step (s : State) : Op → State
  | .upsertNode n => (upsertNode s n).1
  | .deleteNode fk id => (deleteNode fk s id).1
  | .upsertEdge fk e => (upsertEdge fk s e).1
  | .deleteEdge id => (deleteEdge s id).1
  | .nodesBatch c ns => (upsertNodesBatch c s ns).1
  | .deleteNodes fk c ids => (deleteNodesBatch fk c s ids).1
  | .edgesBatch fk c es => (upsertEdgesBatch fk c s es).1
  | .deleteEdges c ids => (deleteEdgesBatch c s ids).1
  | .execute fk c b => (executeBatch fk c s b).1
  | .enable => enableIndex s

def run (ops : List Op) : State := ops.foldl step init

end Verif.Graph
