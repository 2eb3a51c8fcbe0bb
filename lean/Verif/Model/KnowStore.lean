import Verif.Model.Knowledge

/-!
Knowledge items and the calls of the store and the graph of the same database. `DB.Vector` and `DB.Graph`
(/repo/pkg/cortexdb/cortexdb.go:102-109) hand out the store and the graph whose tables `SaveKnowledge` and its companions write. The state
is that of `Verif.Model.Knowledge`.

Simplifications: those of `Verif.Model.Knowledge`; the store is open, vectors, collections and metadata are left out. A record without
a document has the empty document id.
-/
namespace Verif.Knowledge

/-- A call of the store or of the graph. -/
inductive Raw where
  /-- `SQLiteStore.Upsert`. -/
  | upsert (fk : Bool) (r : Row)
  /-- `SQLiteStore.Delete`. -/
  | delete (id : Text)
  /-- `SQLiteStore.DeleteByDocID`. -/
  | deleteByDoc (doc : Text)
  /-- `SQLiteStore.DeleteDocument`. -/
  | deleteDocument (fk : Bool) (id : Text)
  /-- `GraphStore.UpsertNode`. -/
  | upsertNode (n : Text)
  /-- `GraphStore.DeleteNode`. -/
  | deleteNode (n : Text)

/-- What such a call does: `Upsert` replaces the row with the id, and with foreign keys refuses a document that does not exist
(/repo/pkg/core/store_crud.go:15-159, store_init.go:97-108); `Delete` refuses the empty id and one without a row (store_crud.go:317-358);
`DeleteByDocID` refuses the empty id (store_crud.go:361-379); `DeleteDocument` cascades to the rows with foreign keys and does not look
whether there was a document (document.go:97-132); `UpsertNode` refuses the empty id (/repo/pkg/graph/graph.go:133-188); `DeleteNode`
refuses an id without a node (graph.go:237-259). The second component is success. -/
def rawStep (s : State) : Raw → State × Bool
  | .upsert fk r =>
    if fk && r.doc != [] && (getDoc s r.doc).isNone then (s, false) else ({ s with rows := putRow s.rows r }, true)
  | .delete id =>
    if id = [] then (s, false)
    else if s.rows.any (fun r => r.id == id) then ({ s with rows := s.rows.filter (fun r => r.id != id) }, true) else (s, false)
  | .deleteByDoc doc => if doc = [] then (s, false) else ({ s with rows := s.rows.filter (fun r => r.doc != doc) }, true)
  | .deleteDocument fk id => (dropDoc fk id s, true)
  | .upsertNode n => if n = [] then (s, false) else (addNode n s, true)
  | .deleteNode n => if n ∈ s.nodes then (dropNodes [n] s, true) else (s, false)

/-- A call of either kind. -/
inductive Mixed where
  | api (op : Op)
  | raw (r : Raw)

/-- One call (/repo/pkg/cortexdb/knowledge_api.go:21-271 and the above). -/
def mixedStep (sp : Char → Bool) (fk : Bool) (s : State) : Mixed → State
  | .api op => step sp fk s op
  | .raw r => (rawStep s r).1

/-- The state after a history of calls. -/
def mixedRun (sp : Char → Bool) (fk : Bool) (s : State) (cs : List Mixed) : State := cs.foldl (mixedStep sp fk) s

end Verif.Knowledge
