import Verif.Model.Reflect
import Verif.Model.RagSearch

/-!
Model of the knowledge search of /repo/pkg/cortexdb/knowledge_api.go:199-257 (`SearchKnowledge`) and 489-563
(`aggregateKnowledgeHits`) with everything a hit shows.

Simplifications: the retrieval itself is a parameter (`Env.semantic` is `SearchGraphRAG`, `Env.lexical` the lexical tool;
both are modelled elsewhere); the answer of a retrieval is its chunks, entities and context; scores are rationals; the metadata
of a document is an opaque text; a document that cannot be loaded is `none`.
-/
namespace Verif.KnowSearch

open Verif.Base Verif.Rag Verif.RagSearch

/-- The part of a `core.Document` that a hit shows. -/
structure Info where
  title : Text
  source : Text
  author : Text
  metadata : Text
  deriving DecidableEq, Repr

/-- The zero values of a fresh `KnowledgeSearchHit`. -/
def noInfo : Info := ⟨[], [], [], []⟩

/-- `KnowledgeSearchHit` with the sets of `aggregate`, knowledge_api.go:490-494. -/
structure Found where
  id : Text
  info : Info
  score : ℚ
  snippet : List Nat
  chunks : List Text
  entities : List Text
  deriving DecidableEq, Repr

/-- knowledge_api.go:501-504. -/
def keyOf (c : Chunk) : Text := if c.doc = [] then c.id else c.doc

/-- Append unless present, knowledge_api.go:525-531. -/
def addNew (l : List Text) (x : Text) : List Text := if x ∈ l then l else l ++ [x]

/-- A group seeing one of its chunks, knowledge_api.go:519-546; `d` is the loaded document, `none` when the chunk names none. -/
def see (sp : Char → Bool) (f : Found) (c : Chunk) (d : Option Info) : Found :=
  { f with
    score := if c.score > f.score then c.score else f.score
    snippet := if c.score > f.score ∧ Reflect.snippet sp c.content ≠ [] then Reflect.snippet sp c.content else f.snippet
    chunks := addNew f.chunks c.id
    entities := c.entities.foldl addNew f.entities
    info := d.getD f.info }

/-- Body of the loop once the document is at hand, knowledge_api.go:505-546. Groups are kept in the order of first
appearance. -/
def addChunk (sp : Char → Bool) (gs : List Found) (c : Chunk) (d : Option Info) : List Found :=
  let gs := if gs.any (fun g => decide (g.id = keyOf c)) then gs
    else gs ++ [⟨keyOf c, noInfo, c.score, Reflect.snippet sp c.content, [], []⟩]
  gs.map (fun g => if g.id = keyOf c then see sp g c d else g)

/-- The loop, knowledge_api.go:500-547: a document that cannot be loaded ends the call. -/
def group (sp : Char → Bool) (docs : Text → Option Info) : List Found → List Chunk → Option (List Found)
  | gs, [] => some gs
  | gs, c :: cs =>
    if c.doc = [] then group sp docs (addChunk sp gs c none) cs
    else match docs c.doc with
      | none => none
      | some d => group sp docs (addChunk sp gs c (some d)) cs

/-- `aggregateKnowledgeHits`, knowledge_api.go:489-563; `sort` is `sort.Slice` by score, then id, `order` sorts the entities. -/
def hitsOf (sp : Char → Bool) (docs : Text → Option Info) (sort : List Found → List Found) (order : List Text → List Text)
    (chunks : List Chunk) : Option (List Found) :=
  (group sp docs [] chunks).map (fun gs => sort (gs.map (fun g => { g with entities := order g.entities })))

/-- `KnowledgeSearchRequest`, knowledge_memory_types.go:92-107. -/
structure Req where
  query : Text
  collection : Text
  opts : QueryOpts
  names : List Text
  keywords : List Text
  alternates : List Text
  mode : Text
  disableGraph : Bool
  deriving DecidableEq, Repr

/-- `GraphRAGQueryResult`. -/
structure Result where
  chunks : List Chunk
  entities : List Text
  context : List Text
  deriving DecidableEq, Repr

inductive Err where
  | emptyText
  | retrieval
  | document
  deriving DecidableEq, Repr

/-- What the call depends on. `semantic` takes the query, collection, options, mode and the graph switch. -/
structure Env where
  embedder : Bool
  lower : Char → Char
  sp : Char → Bool
  semantic : Text → Text → QueryOpts → Mode → Bool → Option Result
  lexical : Req → Option Result
  docs : Text → Option Info
  sort : List Found → List Found
  order : List Text → List Text

/-- `KnowledgeSearchResponse`, knowledge_api.go:250-256. -/
structure Response where
  query : Text
  results : List Found
  chunks : List Chunk
  entities : List Text
  context : List Text
  deriving DecidableEq, Repr

/-- "graphrag_chunks", the default collection, graphrag.go:16 and 544-546. -/
def collOf (c : Text) : Text := if c = [] then "graphrag_chunks".toList else c

/-- The retrieval chosen, knowledge_api.go:204-240. -/
def retrieve (E : Env) (r : Req) : Option Result :=
  if E.embedder = true ∧ parseMode E.lower E.sp r.mode ≠ .lexical then
    E.semantic r.query (collOf r.collection) (queryDefaults { r.opts with rerank := true }) (parseMode E.lower E.sp r.mode)
      r.disableGraph
  else E.lexical r

/-- `SearchKnowledge`, knowledge_api.go:199-257. -/
def search (E : Env) (r : Req) : Except Err Response :=
  if trim E.sp r.query = [] then .error .emptyText
  else match retrieve E r with
    | none => .error .retrieval
    | some res => match hitsOf E.sp E.docs E.sort E.order res.chunks with
      | none => .error .document
      | some hs => .ok ⟨r.query, hs, res.chunks, res.entities, res.context⟩

end Verif.KnowSearch
