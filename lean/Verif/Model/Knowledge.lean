import Verif.Model.Rag
import Verif.Base.Sort

/-!
Model of /repo/pkg/cortexdb/knowledge_api.go (saving, updating, deleting knowledge, grouping of hits) and of the
writes of `InsertGraphDocument` (/repo/pkg/cortexdb/graphrag.go:110-358).

Simplifications, stated once:
* The state keeps documents, chunks (rows of `embeddings`) and the ids of document and chunk nodes of the graph.
  Entity nodes, edges and vectors are left out.
* A call is a list of steps. Any step may fail (database error, cancelled context, embedder error): `fault = some n`
  means the first `n` steps are carried out and the next one fails, which ends the call with an error. A step either
  happens as a whole or not at all (each is one SQL statement or one transaction).
* `fk` says whether deleting a document removes its chunks (foreign keys enforced on the connection used, see C17).
-/
namespace Verif.Knowledge
open Verif.Base Verif.Rag

abbrev Text := List Char

structure Doc where
  id : Text
  title : Text
  content : Text
  version : Nat
  deriving DecidableEq, Repr

structure Row where
  id : Text
  doc : Text
  content : Text
  deriving DecidableEq, Repr

structure State where
  docs : List Doc
  rows : List Row
  nodes : List Text
  deriving DecidableEq, Repr

def init : State := ⟨[], [], []⟩

abbrev Step := State → State

/-- Run the steps up to the failing one. `true`: the call succeeded. -/
def exec (steps : List Step) (fault : Option Nat) (s : State) : State × Bool :=
  match fault with
  | none => (steps.foldl (fun s f => f s) s, true)
  | some n => if n < steps.length then ((steps.take n).foldl (fun s f => f s) s, false)
    else (steps.foldl (fun s f => f s) s, true)

/-- `store.GetDocument`, /repo/pkg/core/document.go. -/
def getDoc (s : State) (id : Text) : Option Doc := s.docs.find? (fun d => d.id == id)

/-- `store.GetByDocID`: the chunks of a document. -/
def chunksOf (s : State) (id : Text) : List Row := s.rows.filter (fun r => r.doc == id)

/-- `upsertGraphRAGDocumentRecord`, graphrag.go:588-604: create with version 1, or change title and content and
raise the version. -/
def upsertDocRecord (id title content : Text) : Step := fun s =>
  if s.docs.any (fun d => d.id == id) then
    { s with docs := s.docs.map (fun d => if d.id == id then
        { d with title := title, content := content, version := d.version + 1 } else d) }
  else { s with docs := s.docs ++ [⟨id, title, content, 1⟩] }

/-- `graph.UpsertNode` on ids. -/
def addNode (n : Text) : Step := fun s => if n ∈ s.nodes then s else { s with nodes := s.nodes ++ [n] }

/-- `INSERT OR REPLACE` of one chunk row by id (`UpsertBatch`). -/
def putRow (rows : List Row) (r : Row) : List Row := rows.filter (fun x => x.id != r.id) ++ [r]

/-- `store.UpsertBatch` of the chunks (one transaction). -/
def putRows (rs : List Row) : Step := fun s => { s with rows := rs.foldl putRow s.rows }

/-- The chunk rows of a document, graphrag.go:180-205. -/
def chunkRows (sp : Char → Bool) (o : IngestOpts) (id content : Text) : List Row :=
  (ingestChunks sp content o).zipIdx.map (fun p => ⟨chunkId id p.2, id, p.1⟩)

/-- The steps of `InsertGraphDocument`, graphrag.go:110-358, after validation: embed the chunks (no effect on the
store), document record, document node, extraction (no effect), chunk rows, chunk nodes, the rest (entities and edges,
not modelled). -/
def ingestSteps (sp : Char → Bool) (o : IngestOpts) (id title content : Text) : List Step :=
  [_root_.id, upsertDocRecord id title content, addNode (docNodeId id), _root_.id,
   putRows (chunkRows sp o id content),
   fun s => (chunkRows sp o id content).foldl (fun s r => addNode r.id s) s, _root_.id]

/-- `InsertGraphDocument`, graphrag.go:110-358. -/
def insertGraphDocument (sp : Char → Bool) (o : IngestOpts) (fault : Option Nat) (s : State) (id title content : Text) :
    State × Bool :=
  if id = [] then (s, false)
  else if trim sp content = [] then (s, false)
  else if ingestChunks sp content o = [] then (s, false)
  else exec (ingestSteps sp o id title content) fault s

/-- `graph.DeleteNodesBatch`. -/
def dropNodes (ns : List Text) : Step := fun s => { s with nodes := s.nodes.filter (fun n => !ns.contains n) }

/-- `store.DeleteDocument` with the cascade. -/
def dropDoc (fk : Bool) (id : Text) : Step := fun s =>
  { s with docs := s.docs.filter (fun d => d.id != id)
           rows := if fk then s.rows.filter (fun r => r.doc != id) else s.rows }

/-- `cleanupKnowledgeArtifacts`, knowledge_api.go:378-400: schema (no effect), read the chunks, delete the nodes,
delete the document. -/
def cleanupSteps (fk : Bool) (s : State) (id : Text) : List Step :=
  [_root_.id, _root_.id, dropNodes (docNodeId id :: (chunksOf s id).map (·.id)), dropDoc fk id]

/-- `upsertKnowledgeDocumentRecord`, knowledge_api.go:402-424. -/
def upsertRecord (d : Doc) : Step := fun s =>
  if s.docs.any (fun x => x.id == d.id) then
    { s with docs := s.docs.map (fun x => if x.id == d.id then d else x) }
  else { s with docs := s.docs ++ [d] }

structure SaveReq where
  id : Text
  title : Text
  content : Text
  opts : IngestOpts
  deriving DecidableEq, Repr

/-- The steps of a save once the request is valid, knowledge_api.go:29-60: look up (no effect), clean up if the item
exists, ingest, write the record. -/
def saveSteps (sp : Char → Bool) (fk : Bool) (s : State) (q : SaveReq) : List Step :=
  [_root_.id] ++
  (match getDoc s q.id with
    | some _ => cleanupSteps fk s q.id
    | none => []) ++
  ingestSteps sp q.opts q.id q.title q.content ++
  [upsertRecord ⟨q.id, q.title, q.content, match getDoc s q.id with
    | some d => d.version + 1
    | none => 1⟩]

/-- `SaveKnowledge`, knowledge_api.go:21-72. -/
def save (sp : Char → Bool) (fk : Bool) (fault : Option Nat) (s : State) (q : SaveReq) : State × Bool :=
  if q.id = [] then (s, false)
  else if trim sp q.content = [] then (s, false)
  else exec (saveSteps sp fk s q) fault s

structure UpdateReq where
  id : Text
  title : Option Text
  content : Option Text
  opts : IngestOpts
  deriving DecidableEq, Repr

/-- `UpdateKnowledge`, knowledge_api.go:75-187, for a change of title or content (the branch that replaces the
artifacts; the collection lookup has no effect on the store). -/
def update (sp : Char → Bool) (fk : Bool) (fault : Option Nat) (s : State) (q : UpdateReq) : State × Bool :=
  if q.id = [] then (s, false)
  else match getDoc s q.id with
    | none => (s, false)
    | some d =>
      let title := q.title.getD d.title
      match q.content with
      | some c =>
        if trim sp c = [] then (s, false)
        else exec ([_root_.id] ++ cleanupSteps fk s q.id ++ ingestSteps sp q.opts q.id title c ++
          [upsertRecord ⟨q.id, title, c, d.version + 1⟩]) fault s
      | none =>
        if q.title.isSome then
          exec ([_root_.id] ++ cleanupSteps fk s q.id ++ ingestSteps sp q.opts q.id title d.content ++
            [upsertRecord ⟨q.id, title, d.content, d.version + 1⟩]) fault s
        else exec [_root_.id, upsertRecord ⟨q.id, title, d.content, d.version + 1⟩] fault s

/-- `DeleteKnowledge`, knowledge_api.go:260-271. -/
def delete (fk : Bool) (fault : Option Nat) (s : State) (id : Text) : State × Bool :=
  if id = [] then (s, false)
  else match getDoc s id with
    | none => (s, false)
    | some _ => exec (cleanupSteps fk s id) fault s

/-- One call of the API, with the fault that meets it. -/
inductive Op where
  | save (q : SaveReq) (fault : Option Nat)
  | update (q : UpdateReq) (fault : Option Nat)
  | delete (id : Text) (fault : Option Nat)
  | ingest (o : IngestOpts) (id title content : Text) (fault : Option Nat)

def step (sp : Char → Bool) (fk : Bool) (s : State) : Op → State
  | .save q f => (save sp fk f s q).1
  | .update q f => (update sp fk f s q).1
  | .delete id f => (delete fk f s id).1
  | .ingest o id t c f => (insertGraphDocument sp o f s id t c).1

def run (sp : Char → Bool) (fk : Bool) (s : State) (ops : List Op) : State := ops.foldl (step sp fk) s

/-! ### Grouping of hits -/

/-- A chunk hit, `GraphRAGChunkResult`; `doc = none` is the empty document id. -/
structure Hit (I S : Type*) where
  id : I
  doc : Option I
  score : S
  entities : List I
  deriving DecidableEq, Repr

/-- `KnowledgeSearchHit` with the sets of `aggregate` (knowledge_api.go:490-494). -/
structure Group (I S : Type*) where
  id : I
  score : S
  chunks : List I
  entities : List I
  deriving DecidableEq, Repr

/-- The group key, knowledge_api.go:501-504. -/
def keyOf {I S : Type*} (h : Hit I S) : I := h.doc.getD h.id

/-- `append` guarded by `chunkSet`, knowledge_api.go:525-528. -/
def addNew {I : Type*} [DecidableEq I] (l : List I) (x : I) : List I := if x ∈ l then l else l ++ [x]

/-- Body of the loop, knowledge_api.go:500-531 (title, author, snippet and metadata are left out). Groups are kept in
the order of first appearance (`order`). -/
def addHit {I S : Type*} [DecidableEq I] [LinearOrder S] (gs : List (Group I S)) (h : Hit I S) : List (Group I S) :=
  let gs := if gs.any (fun g => decide (g.id = keyOf h)) then gs else gs ++ [⟨keyOf h, h.score, [], []⟩]
  gs.map (fun g => if g.id = keyOf h then
    { g with score := if h.score > g.score then h.score else g.score
             chunks := addNew g.chunks h.id
             entities := h.entities.foldl addNew g.entities } else g)

/-- `aggregateKnowledgeHits`, knowledge_api.go:489-563. `known` says which documents exist: a hit whose document
cannot be loaded ends the call with an error. `sort` is `sort.Slice` by score descending, then id. -/
def aggregate {I S : Type*} [DecidableEq I] [LinearOrder S] (known : I → Bool)
    (sort : List (Group I S) → List (Group I S)) (hits : List (Hit I S)) : Option (List (Group I S)) :=
  if hits.all (fun h => match h.doc with | none => true | some d => known d) then
    some (sort (hits.foldl addHit []))
  else none

end Verif.Knowledge
