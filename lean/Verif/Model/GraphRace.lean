import Verif.Base.Assoc
import Verif.Base.Solo

/-!
Nodes written by several goroutines while the graph store keeps its own vector index, /repo/pkg/graph/graph.go:133-188, 239-259 and
/repo/pkg/graph/graph_hnsw.go:55-96, 262-330. `GraphStore` has no lock: the statement on `graph_nodes` and the calls of the index
(each under the lock of the index) are separate and mix freely with those of other goroutines.

Simplifications: of a node only id and vector are kept; of the index only which vector it holds under which id (how it searches is
`Verif.Model.GraphHnsw`); the database does not fail, requests are valid and vectors have the dimension of the index; the query of `EnableHNSWIndex` reads one snapshot; memory is
sequentially consistent.
-/
namespace Verif.GraphRace
open Verif.Base

structure World (V : Type) where
  /-- `graph_nodes` -/
  db : List (String × V)
  /-- `g.hnswIndex != nil` -/
  on : Bool
  /-- `vectors` of the index -/
  idx : List (String × V)
  deriving DecidableEq, Repr

inductive Call (V : Type) where
  | upsert (id : String) (v : V)
  | delete (id : String)
  | enable
  deriving DecidableEq, Repr

/-- The statement a call carries out next. -/
inductive Phase (V : Type) where
  /-- `INSERT ... ON CONFLICT DO UPDATE`, graph.go:156-173 -/
  | upsert (id : String) (v : V)
  /-- `if g.hnswIndex != nil` and `Remove`, graph.go:180-181 -/
  | unindex (id : String) (v : V)
  /-- `Add`, graph.go:182 -/
  | index (id : String) (v : V)
  /-- `DELETE FROM graph_nodes`, graph.go:242-252 -/
  | delete (id : String)
  /-- `Remove`, graph.go:254-256 -/
  | forget (id : String)
  /-- a new empty index, graph_hnsw.go:300-302 -/
  | enable
  /-- the query, graph_hnsw.go:306-308 -/
  | scan
  /-- `Add` of the rows read, graph_hnsw.go:314-327 -/
  | fill (rows : List (String × V))
  | done (ok : Bool)
  deriving DecidableEq, Repr

/-- One statement of one goroutine. -/
def advance {V : Type} (w : World V) : Phase V → World V × Phase V
  | .upsert id v => ({ w with db := putA w.db id v }, .unindex id v)
  | .unindex id v => if w.on then ({ w with idx := delA w.idx id }, .index id v) else (w, .done true)
  | .index id v => ({ w with idx := putA w.idx id v }, .done true)
  | .delete id => if (getA w.db id).isSome then ({ w with db := delA w.db id }, .forget id) else (w, .done false)
  | .forget id => if w.on then ({ w with idx := delA w.idx id }, .done true) else (w, .done true)
  | .enable => ({ w with on := true, idx := [] }, .scan)
  | .scan => (w, .fill w.db)
  | .fill [] => (w, .done true)
  | .fill ((id, v) :: l) => ({ w with idx := putA w.idx id v }, .fill l)
  | .done r => (w, .done r)

def begin {V : Type} : Call V → Phase V
  | .upsert id v => .upsert id v
  | .delete id => .delete id
  | .enable => .enable

/-- The calls run in goroutines of their own, `sched` names the goroutine of each statement. -/
def race {V : Type} (w : World V) (calls : List (Call V)) (sched : List Nat) : World V × List (Phase V) :=
  runAll advance (w, calls.map begin) sched

end Verif.GraphRace
