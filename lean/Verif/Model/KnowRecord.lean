import Verif.Model.Ingest

/-!
Model of the knowledge record as the API shows it: `SaveKnowledge`, `UpdateKnowledge`, `GetKnowledge` of /repo/pkg/cortexdb/knowledge_api.go with all
fields of the document record (/repo/pkg/core/document.go), the collection of the chunks and the entities of the chunks.

Simplifications: an embedder is configured; no step fails for an outside reason (faults and crashes are in Model/Knowledge.lean); foreign keys are
enforced on the connections used; texts are opaque strings, the splitting of a text into chunks (with the defaults of
`applyGraphRAGIngestDefaults`), the entities the extractor finds in a chunk and the ids of entity nodes made from names (`graphEntityNodeID` and
`resolveEntityNodeID`, modelled in Model/Ingest.lean and Model/GraphTools.lean) are parameters; of the graph only the entity nodes, shared by all items, with
name and type, and the `mentions` edges from chunk to entity are kept, an edge being identified by its two ends; which neighbours of a chunk come first when there
are more than 32 (the document and the chunks before and after count too) is a parameter; the rows of a document come back in the order they were written;
relations are left out; `CURRENT_TIMESTAMP` is the clock `now`.
-/
namespace Verif.KnowRec
open Verif.Ingest (chunkId)

/-- A metadata value of a document: a string or any other JSON value. -/
inductive Val where
  | str (s : String)
  | other (json : String)
  deriving DecidableEq, Repr

/-- `fmt.Sprintf("%v", value)`, /repo/pkg/cortexdb/knowledge_memory_helpers.go:46; the text of other values is kept as it is. -/
def Val.show : Val → String
  | .str s => s
  | .other j => j

/-- `core.Document`, /repo/pkg/core/document.go:12-23; `meta = none` and `acl = none` are nil. -/
structure Doc where
  id : String
  title : String
  source : String
  content : String
  version : Nat
  author : String
  info : Option (List (String × Val))
  acl : Option (List String)
  created : Nat
  updated : Nat
  deriving DecidableEq, Repr

structure Row where
  id : String
  doc : String
  coll : String
  content : String
  deriving DecidableEq, Repr

/-- An entity node: `graph.GraphNode` with `ID`, `Content` and `NodeType`, /repo/pkg/cortexdb/graphrag.go:301-312 and graphrag_tools.go:684-690. -/
structure Node where
  id : String
  name : String
  etype : String
  deriving DecidableEq, Repr

/-- A `mentions` edge from a chunk to the entity node `ent`. -/
structure Link where
  chunk : String
  ent : String
  deriving DecidableEq, Repr

structure State where
  docs : List Doc
  rows : List Row
  nodes : List Node
  links : List Link
  now : Nat
  deriving DecidableEq, Repr

structure Env where
  blank : String → Bool
  split : Int → Int → String → List String
  extract : String → List (String × String)
  /-- `graphEntityNodeID`, /repo/pkg/cortexdb/graphrag.go:669-690. -/
  key : String → String
  /-- `resolveEntityNodeID` of id and name, /repo/pkg/cortexdb/graphrag_tools.go:1258-1272. -/
  resolve : String → String → String
  /-- Which of the entities a chunk mentions are among its first 32 neighbours. -/
  near : String → List String → List String

/-- `ToolEntityInput`: id, name, type and chunk ids. -/
structure Entity where
  id : String
  name : String
  etype : String
  chunks : List String
  deriving DecidableEq, Repr

/-- `defaultGraphRAGCollection`, /repo/pkg/cortexdb/graphrag.go:16. -/
def defaultColl : String := "graphrag_chunks"

/-- `GetDocument`, /repo/pkg/core/document.go:60-93. -/
def getDoc (s : State) (id : String) : Option Doc := s.docs.find? (fun d => d.id = id)

/-- `GetByDocID`, /repo/pkg/core/store_query.go:52-90. -/
def chunksOf (s : State) (id : String) : List Row := s.rows.filter (fun r => r.doc = id)

/-- `cleanupKnowledgeArtifacts`, /repo/pkg/cortexdb/knowledge_api.go:378-400: the chunk nodes go with their edges, the document with its rows. -/
def cleanup (s : State) (id : String) : State :=
  { s with docs := s.docs.filter (fun d => d.id ≠ id)
           rows := s.rows.filter (fun r => r.doc ≠ id)
           links := s.links.filter (fun l => l.chunk ∉ (chunksOf s id).map Row.id) }

/-- `upsertGraphRAGDocumentRecord`, /repo/pkg/cortexdb/graphrag.go:588-604, on `CreateDocument` and `UpdateDocument`
(/repo/pkg/core/document.go:26-57 and 131-175). -/
def ingestRecord (s : State) (id title content : String) : State :=
  match getDoc s id with
  | none => { s with docs := s.docs ++ [⟨id, title, "", content, 1, "", none, none, s.now, s.now⟩] }
  | some _ => { s with docs := s.docs.map (fun d => if d.id = id then { d with title := title, content := content, version := d.version + 1, updated := s.now } else d) }

/-- `INSERT ... ON CONFLICT` of an edge by its id, which is made from the chunk and the entity. -/
def addLink (ls : List Link) (l : Link) : List Link := if l ∈ ls then ls else ls ++ [l]

/-- `INSERT ... ON CONFLICT` of a node by its id, /repo/pkg/graph/graph_batch.go:41-167: the last one written stays. -/
def putNode (ns : List Node) (n : Node) : List Node := ns.filter (fun x => x.id ≠ n.id) ++ [n]

/-- `firstNonEmpty`. -/
def firstOr (e : Env) (a b : String) : String := if e.blank a then b else a

/-- The entities the extractor finds, part by part, /repo/pkg/cortexdb/graphrag.go:240-253; those without a name are passed over. -/
def named (e : Env) (t : String) : List (String × String) := (e.extract t).filter (fun x => !e.blank x.1)

/-- The nodes of the entities found, /repo/pkg/cortexdb/graphrag.go:246-249 and 287-316: for each node id the last one found. -/
def foundNodes (e : Env) (ts : List String) : List Node :=
  ts.flatMap (fun t => (named e t).map (fun x => ⟨e.key x.1, x.1, firstOr e x.2 "entity"⟩))

/-- The links of the entities found, /repo/pkg/cortexdb/graphrag.go:250-253 and 318-328. -/
def found (e : Env) (id : String) (ts : List String) : List Link :=
  ts.zipIdx.flatMap (fun p => (named e p.1).map (fun x => ⟨chunkId id p.2, e.key x.1⟩))

/-- The entities given in a request that are not passed over: those with a name or an id, /repo/pkg/cortexdb/graphrag_tools.go:664-666. -/
def useful (e : Env) (es : List Entity) : List Entity := es.filter (fun x => !(e.blank x.name && e.blank x.id))

/-- The nodes of the entities given in the request, /repo/pkg/cortexdb/graphrag_tools.go:667-690. -/
def givenNodes (e : Env) (es : List Entity) : List Node :=
  (useful e es).map (fun x => ⟨e.resolve x.id x.name, firstOr e x.name x.id, firstOr e x.etype "entity"⟩)

/-- The links of the entities given in the request, /repo/pkg/cortexdb/graphrag_tools.go:692-704. -/
def given (e : Env) (es : List Entity) : List Link :=
  (useful e es).flatMap (fun x => (x.chunks.filter (fun c => c ≠ "")).map (fun c => ⟨c, e.resolve x.id x.name⟩))

/-- `UpsertEntities`, /repo/pkg/cortexdb/graphrag_tools.go:646-718. An edge from a chunk that is not there is refused by the foreign key; `UpsertEdgesBatch`
(/repo/pkg/graph/graph_batch.go:169-265) counts the failure and goes on, and the count is not looked at. An edge from a node that is not a chunk is not kept here. -/
def upsertEntities (e : Env) (s : State) (es : List Entity) : State :=
  { s with nodes := (givenNodes e es).foldl putNode s.nodes
           links := ((given e es).filter (fun l => decide (l.chunk ∈ s.rows.map Row.id))).foldl addLink s.links }

/-- The chunk rows, /repo/pkg/cortexdb/graphrag.go:180-200. -/
def newRows (id coll : String) (ts : List String) : List Row := ts.zipIdx.map (fun p => ⟨chunkId id p.2, id, coll, p.1⟩)

/-- `UpsertBatch` of rows. -/
def putRow (rows : List Row) (r : Row) : List Row := rows.filter (fun x => x.id ≠ r.id) ++ [r]

/-- `ingestKnowledgeContent`, /repo/pkg/cortexdb/knowledge_api.go:298-376, with the embedder; without chunks it fails (graphrag.go:129-132). -/
def ingest (e : Env) (s : State) (id title content coll : String) (size overlap : Int) (es : List Entity) : State × Bool :=
  let ts := e.split size overlap content
  if ts = [] then (s, false)
  else
    let s1 := ingestRecord s id title content
    let s2 := { s1 with rows := (newRows id (if coll = "" then defaultColl else coll) ts).foldl putRow s1.rows
                        nodes := (foundNodes e ts).foldl putNode s1.nodes
                        links := (found e id ts).foldl addLink s1.links }
    (upsertEntities e s2 es, true)

/-- `upsertKnowledgeDocumentRecord`, /repo/pkg/cortexdb/knowledge_api.go:402-424. -/
def putRecord (s : State) (d : Doc) : State :=
  match getDoc s d.id with
  | none => { s with docs := s.docs ++ [{ d with acl := none, created := s.now, updated := s.now }] }
  | some _ => { s with docs := s.docs.map (fun x => if x.id = d.id then
      { x with title := d.title, content := d.content, source := d.source, version := d.version, author := d.author, info := d.info, updated := s.now } else x) }

/-- `stringMapToAnyMap`, /repo/pkg/cortexdb/knowledge_memory_helpers.go:51-60. -/
def toAny (m : Option (List (String × String))) : Option (List (String × Val)) := m.map (fun l => l.map (fun p => (p.1, Val.str p.2)))

/-- `anyMapToStringMap`, /repo/pkg/cortexdb/knowledge_memory_helpers.go:40-49. -/
def toStr (m : Option (List (String × Val))) : Option (List (String × String)) := m.map (fun l => l.map (fun p => (p.1, p.2.show)))

/-- `knowledgeCollection`, /repo/pkg/cortexdb/knowledge_api.go:474-487. -/
def collOf (s : State) (id : String) : String :=
  match chunksOf s id with
  | [] => defaultColl
  | r :: _ => r.coll

structure SaveReq where
  id : String
  title : String
  content : String
  source : String
  author : String
  coll : String
  size : Int
  overlap : Int
  info : Option (List (String × String))
  ents : List Entity
  deriving DecidableEq, Repr

/-- `SaveKnowledge`, /repo/pkg/cortexdb/knowledge_api.go:21-72; the flag says whether it succeeded. -/
def save (e : Env) (s : State) (q : SaveReq) : State × Bool :=
  if q.id = "" then (s, false)
  else if e.blank q.content then (s, false)
  else
    let s1 := match getDoc s q.id with
      | some _ => cleanup s q.id
      | none => s
    let r := ingest e s1 q.id q.title q.content q.coll q.size q.overlap q.ents
    if r.2 = false then r
    else
      let v := match getDoc s q.id with
        | some d => d.version + 1
        | none => 1
      (putRecord r.1 ⟨q.id, q.title, q.source, q.content, v, q.author, toAny q.info, none, 0, 0⟩, true)

structure UpdateReq where
  id : String
  title : Option String
  content : Option String
  source : Option String
  author : Option String
  coll : Option String
  size : Option Int
  overlap : Option Int
  info : Option (List (String × String))
  ents : List Entity
  deriving DecidableEq, Repr

/-- `replaceArtifacts`, /repo/pkg/cortexdb/knowledge_api.go:126. -/
def UpdateReq.replaces (q : UpdateReq) : Bool := q.content.isSome || q.title.isSome || q.coll.isSome || q.info.isSome

/-- `UpdateKnowledge`, /repo/pkg/cortexdb/knowledge_api.go:75-187. -/
def update (e : Env) (s : State) (q : UpdateReq) : State × Bool :=
  if q.id = "" then (s, false)
  else
    match getDoc s q.id with
    | none => (s, false)
    | some d =>
      if (q.content.map e.blank).getD false then (s, false)
      else
        let title := q.title.getD d.title
        let content := q.content.getD d.content
        let info := match q.info with
          | some m => some m
          | none => toStr d.info
        let rec' : Doc := ⟨q.id, title, q.source.getD d.source, content, d.version + 1, q.author.getD d.author, toAny info, none, 0, 0⟩
        if q.replaces then
          let r := ingest e (cleanup s q.id) q.id title content (q.coll.getD (collOf s q.id)) (q.size.getD 0) (q.overlap.getD 0) q.ents
          if r.2 = false then r else (putRecord r.1 rec', true)
        else
          (putRecord (upsertEntities e s q.ents) rec', true)

/-- `KnowledgeRecord`. -/
structure Record where
  id : String
  title : String
  content : String
  source : String
  author : String
  coll : String
  info : Option (List (String × String))
  chunks : List String
  ents : List String
  created : Nat
  updated : Nat
  deriving DecidableEq, Repr

/-- The entity node with an id. -/
def nodeOf (s : State) (i : String) : Option Node := s.nodes.find? (fun n => n.id = i)

/-- The name of a node, if its type is `entity`. -/
def nameOf (s : State) (i : String) : Option String :=
  match nodeOf s i with
  | some n => if n.etype = "entity" then some n.name else none
  | none => none

/-- `getChunkEntityNames`, /repo/pkg/cortexdb/graphrag_tools.go:1240-1256: of the first 32 neighbours those of the type `entity`. -/
def chunkNames (e : Env) (s : State) (c : String) : List String :=
  (e.near c ((s.links.filter (fun l => l.chunk = c)).map Link.ent)).filterMap (nameOf s)

/-- `loadKnowledgeRecord`, /repo/pkg/cortexdb/knowledge_api.go:426-472 (`GetKnowledge`, 190-196); the entities without repetition and without blank
names, their sorting left out. -/
def load (e : Env) (s : State) (id : String) : Option Record :=
  if id = "" then none
  else
    match getDoc s id with
    | none => none
    | some d =>
      let cs := (chunksOf s id).map Row.id
      some ⟨d.id, d.title, d.content, d.source, d.author, collOf s id, toStr d.info, cs,
        ((cs.flatMap (chunkNames e s)).filter (fun n => !e.blank n)).dedup, d.created, d.updated⟩

/-! ### Histories -/

/-- A call: the two of the knowledge API, `UpdateDocument` of the store (/repo/pkg/core/document.go:131-175: everything but the creation time), or time
going by. -/
inductive Op where
  | save (q : SaveReq)
  | update (q : UpdateReq)
  | document (d : Doc)
  | tick

def step (e : Env) (s : State) : Op → State
  | .save q => (save e s q).1
  | .update q => (update e s q).1
  | .document d => { s with docs := s.docs.map (fun x => if x.id = d.id then { d with created := x.created, updated := s.now } else x) }
  | .tick => { s with now := s.now + 1 }

def run (e : Env) (s : State) (ops : List Op) : State := ops.foldl (step e) s

def init : State := ⟨[], [], [], [], 0⟩

end Verif.KnowRec
