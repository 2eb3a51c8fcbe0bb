import Verif.Model.GraphTools
import Verif.Base.Assoc

/-!
Model of the ingestion of a document into the graph: `InsertGraphDocument`, /repo/pkg/cortexdb/graphrag.go:110-358, and `IngestDocument`,
/repo/pkg/cortexdb/graphrag_tools.go:514-643.

Simplifications: the properties of nodes and edges are opaque texts given by `props`; the schema and the collection are there
(`InitGraphSchema` and the creation of the collection do not fail); the document record and the rows of the chunks are flags that say whether
writing them succeeds (their contents are in the model of the knowledge base, C85 and C86); numbers are rationals. The order in which a map
is visited, and the order of the sorted keys, are the fields of `Orders`.
-/
namespace Verif.Ingest
open Verif.Base Verif.Graph Verif.GraphTools

/-- How a call ends. -/
inductive Out (α : Type) where
  | ok (a : α)
  | error
  | panic
  deriving DecidableEq, Repr

/-- `GraphEntity`, graphrag.go:36-39. -/
structure Ent where
  name : String
  etype : String
  deriving DecidableEq, Repr

/-- `GraphRelationship`, graphrag.go:42-47. -/
structure Rel where
  src : String
  dst : String
  rtype : String
  weight : ℚ
  deriving DecidableEq, Repr

/-- `GraphExtraction`, graphrag.go:50-53. -/
structure Extraction where
  ents : List Ent
  rels : List Rel
  deriving DecidableEq, Repr

/-- A chunk in the loop of graphrag.go:180-279: its position, text, vector and what the extractor answered (`none` is nil). -/
structure Item where
  i : Nat
  text : String
  vec : List ℚ
  ext : Option Extraction
  deriving DecidableEq, Repr

/-- `averageVectors`, graphrag.go:645-659. -/
def average (vs : List (List ℚ)) (dim : Nat) : List ℚ :=
  (List.range dim).map (fun i => ((vs.map (fun v => v.getD i 0)).sum) / (if vs = [] then 1 else (vs.length : ℚ)))

/-- `graphDocumentNodeID`, graphrag.go:661-663. -/
def docId (doc : String) : String := String.ofList (Verif.Rag.docNodeId doc.toList)

/-- `graphChunkNodeID`, graphrag.go:665-667. -/
def chunkId (doc : String) (i : Nat) : String := String.ofList (Verif.Rag.chunkId doc.toList i)

/-- The chunks of a text, graphrag.go:121 and 129. -/
def texts (u : Uni) (content : String) (o : Verif.Rag.IngestOpts) : List String :=
  (Verif.Rag.ingestChunks u.space content.toList o).map String.ofList

/-- The properties of the node with the given id. -/
abbrev Props := String → String

/-- The node of the document, graphrag.go:152-161 and graphrag_tools.go:557-566. -/
def docNode (u : Uni) (p : Props) (doc title content : String) (v : List ℚ) : Node :=
  ⟨docId doc, v, firstNonEmpty u title content, "document", p (docId doc)⟩

/-- The node of a chunk, graphrag.go:203-213 and graphrag_tools.go:599-609. -/
def chunkNode (p : Props) (doc : String) (it : Item) : Node := ⟨chunkId doc it.i, it.vec, it.text, "chunk", p (chunkId doc it.i)⟩

/-- graphrag.go:215-221 and graphrag_tools.go:610-616. -/
def hasChunk (doc : String) (i : Nat) : Edge := ⟨"edge:doc_chunk:" ++ doc ++ ":" ++ dec i, docId doc, chunkId doc i, "has_chunk", 1, "", []⟩

/-- graphrag.go:222-230 and graphrag_tools.go:617-625. -/
def nextChunk (doc : String) (i : Nat) : Edge :=
  ⟨"edge:chunk_next:" ++ doc ++ ":" ++ dec i, chunkId doc (i - 1), chunkId doc i, "next", 1, "", []⟩

/-- The edges that tie a chunk to its document and to the chunk before it, graphrag.go:215-230. -/
def structEdges (doc : String) (it : Item) : List Edge := hasChunk doc it.i :: (if it.i > 0 then [nextChunk doc it.i] else [])

def entsOf (it : Item) : List Ent := match it.ext with | none => [] | some x => x.ents
def relsOf (it : Item) : List Rel := match it.ext with | none => [] | some x => x.rels

/-- The entities of a chunk under their node ids, graphrag.go:240-253. -/
def entries (u : Uni) (it : Item) : List (String × Ent) :=
  ((entsOf it).filter (fun e => !blank u e.name)).map (fun e => (entityNode u e.name, ⟨e.name, firstNonEmpty u e.etype "entity"⟩))

/-- `entityTexts` after the loop, graphrag.go:245-248. -/
def entityTexts (u : Uni) (its : List Item) : List (String × Ent) :=
  (its.flatMap (entries u)).foldl (fun m e => putA m e.1 e.2) []

/-- The edges of `entityMentions`, graphrag.go:249-252 and 321-331, one for each entity of a chunk. -/
def mentions (u : Uni) (doc : String) (its : List Item) : List Edge :=
  its.flatMap (fun it => (((entries u it).map Prod.fst).dedup).map (mention (chunkId doc it.i)))

/-- The edge of a relation, graphrag.go:259-278, with its key in `relationshipKeys`. -/
def relEntry (u : Uni) (p : Props) (doc : String) (i : Nat) (r : Rel) : String × Edge :=
  let c := chunkId doc i
  let f := entityNode u r.src
  let t := entityNode u r.dst
  let ty := firstNonEmpty u r.rtype "related_to"
  (c ++ "|" ++ f ++ "|" ++ t ++ "|" ++ ty, ⟨"edge:rel:" ++ c ++ ":" ++ f ++ ":" ++ t ++ ":" ++ ty, f, t, ty, if r.weight = 0 then 1 else r.weight, p c, []⟩)

/-- The relations of a chunk, graphrag.go:255-279. -/
def relEntries (u : Uni) (p : Props) (doc : String) (it : Item) : List (String × Edge) :=
  ((relsOf it).filter (fun r => !(blank u r.src || blank u r.dst))).map (relEntry u p doc it.i)

/-- `relationshipKeys` after the loop, graphrag.go:267-277. -/
def relations (u : Uni) (p : Props) (doc : String) (its : List Item) : List (String × Edge) :=
  (its.flatMap (relEntries u p doc)).foldl (fun m e => putA m e.1 e.2) []

/-- The loop over the chunks, graphrag.go:180-279, as far as it can fail: `chunkVectors[i]` is out of range when the embedder answered with too
few vectors (lines 197 and 205), and an error of the extractor ends the call (lines 232-235). -/
def collect (extract : String → Option (Option Extraction)) (vs : List (List ℚ)) : Nat → List String → Out (List Item)
  | _, [] => .ok []
  | i, t :: ts =>
    match vs[i]? with
    | none => .panic
    | some v =>
      match extract t with
      | none => .error
      | some x =>
        match collect extract vs (i + 1) ts with
        | .ok its => .ok (⟨i, t, v, x⟩ :: its)
        | .error => .error
        | .panic => .panic

/-- The orders in which the maps are visited: `entityTexts` (graphrag.go:292), `entityMentions` (321-322) and the sorted keys (339). -/
structure Orders where
  ents : List (String × Ent) → List (String × Ent)
  ments : List Edge → List Edge
  rels : List (String × Edge) → List (String × Edge)

/-- What can go wrong outside: the foreign keys of the connection, the document record, the rows, and the commits of the three batches. -/
structure Faults where
  fk : Bool
  recordOk : Bool
  rowsOk : Bool
  c1 : Bool
  c2 : Bool
  c3 : Bool

/-- `GraphRAGIngestResult`, graphrag.go:69-73. -/
structure Result where
  doc : String
  chunks : List String
  ents : List String
  deriving DecidableEq, Repr

/-- The nodes of the entities, graphrag.go:302-316; `none` is `entityVectors[i]` out of range. -/
def entityNodes (p : Props) : List (String × Ent) → List (List ℚ) → Option (List Node)
  | [], _ => some []
  | _ :: _, [] => none
  | e :: es, v :: vs => (entityNodes p es vs).map (fun l => ⟨e.1, v, e.2.name, e.2.etype, p e.1⟩ :: l)

/-- The last part of the call, graphrag.go:334-357. -/
def finish (u : Uni) (p : Props) (o : Orders) (f : Faults) (doc : String) (its : List Item) (s : State) (ids : List String) (ments : List Edge) :
    State × Out Result :=
  let edges := its.flatMap (structEdges doc) ++ ments ++ (o.rels (relations u p doc its)).map Prod.snd
  let r := upsertEdgesBatch f.fk f.c3 s (edges.map some)
  match r.2 with
  | none => (r.1, .error)
  | some _ => (r.1, .ok ⟨docId doc, its.map (fun it => chunkId doc it.i), ids⟩)

/-- The part of the call after the loop, graphrag.go:281-357. -/
def store (u : Uni) (p : Props) (embed : List String → Option (List (List ℚ))) (o : Orders) (f : Faults) (doc : String) (its : List Item)
    (s : State) : State × Out Result :=
  if f.rowsOk = false then (s, .error)
  else
    let r1 := upsertNodesBatch f.c1 s ((its.map (chunkNode p doc)).map some)
    match r1.2 with
    | none => (r1.1, .error)
    | some _ =>
      let es := o.ents (entityTexts u its)
      if es = [] then finish u p o f doc its r1.1 [] []
      else
        match embed (es.map (fun e => e.2.name)) with
        | none => (r1.1, .error)
        | some vs =>
          match entityNodes p es vs with
          | none => (r1.1, .panic)
          | some ns =>
            let r2 := upsertNodesBatch f.c2 r1.1 (ns.map some)
            match r2.2 with
            | none => (r2.1, .error)
            | some _ => finish u p o f doc its r2.1 (es.map Prod.fst) (o.ments (mentions u doc its))

/-- `InsertGraphDocument`, graphrag.go:110-358, with an embedder of dimension `dim`. -/
def insertDocument (u : Uni) (p : Props) (embed : List String → Option (List (List ℚ))) (dim : Nat)
    (extract : String → Option (Option Extraction)) (o : Orders) (f : Faults) (opts : Verif.Rag.IngestOpts) (doc title content : String)
    (s : State) : State × Out Result :=
  if doc = "" ∨ blank u content = true then (s, .error)
  else
    let ts := texts u content opts
    if ts = [] then (s, .error)
    else
      match embed ts with
      | none => (s, .error)
      | some vs =>
        if f.recordOk = false then (s, .error)
        else
          let r := upsertNode s (some (docNode u p doc title content (average vs dim)))
          if r.2 = false then (r.1, .error)
          else
            match collect extract vs 0 ts with
            | .error => (r.1, .error)
            | .panic => (r.1, .panic)
            | .ok its => store u p embed o f doc its r.1

/-- `lexicalVectorDim`, graphrag_tools.go:1160-1171: the dimension of the collection (`none` if there is none), else of the configuration,
else 64. -/
def lexDim (collection : Option Int) (config : Int) : Nat :=
  match collection with
  | some d => if d > 0 then d.toNat else if config > 0 then config.toNat else 64
  | none => if config > 0 then config.toNat else 64

/-- `IngestDocument`, graphrag_tools.go:514-643; `vec` is `lexicalVectorForText` for the dimension of the collection. -/
def ingestDocument (u : Uni) (p : Props) (vec : String → List ℚ) (f : Faults) (opts : Verif.Rag.IngestOpts) (doc title content : String)
    (s : State) : State × Out Result :=
  if doc = "" ∨ blank u content = true then (s, .error)
  else
    let ts := texts u content opts
    if ts = [] then (s, .error)
    else if f.recordOk = false then (s, .error)
    else
      let r := upsertNode s (some (docNode u p doc title content (vec (firstNonEmpty u title content))))
      if r.2 = false then (r.1, .error)
      else
        let its := ts.zipIdx.map (fun q => (⟨q.2, q.1, vec q.1, none⟩ : Item))
        if f.rowsOk = false then (r.1, .error)
        else
          let r1 := upsertNodesBatch f.c1 r.1 ((its.map (chunkNode p doc)).map some)
          match r1.2 with
          | none => (r1.1, .error)
          | some _ =>
            let r2 := upsertEdgesBatch f.fk f.c3 r1.1 ((its.flatMap (structEdges doc)).map some)
            match r2.2 with
            | none => (r2.1, .error)
            | some _ => (r2.1, .ok ⟨docId doc, its.map (fun it => chunkId doc it.i), []⟩)

end Verif.Ingest
