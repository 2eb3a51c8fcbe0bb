import Verif.Model.Rag
import Verif.Model.Lexical
import Verif.Model.GraphTraverse

/-!
# Retrieval over chunks and the graph

`SearchGraphRAG` (/repo/pkg/cortexdb/graphrag.go:361-518) and `SearchGraphRAGLexical` with the tools it uses
(/repo/pkg/cortexdb/graphrag_tools.go).

Simplifications, beside those of `Verif.Model.Rag`:
* The embedder and the vector search are seen through the seeds they return (`none`: one of them failed). The two calls of
  `Neighbors` per chunk are seen through their answers (`World`); `worldOf` gives the answers of a stored graph.
* The map `chunkResults` is the list of its values, which have different ids. The order in which a map is visited does not
  matter before a sort; `sort` is `sort.Slice` by descending score and `keys` is `sortedKeys`, both parameters.
* `extractEntityNames(extractTitleEntities(query))` is the parameter `names`.
-/
namespace Verif.RagSearch
open Verif.Base Verif.Rag

abbrev Text := List Char

/-- A node returned by `Neighbors`; `doc` is the text property `document_id`, empty if there is none (`stringProperty`,
graphrag.go:946-957). -/
structure Near where
  id : Text
  content : Text
  ntype : Text
  doc : Text
  deriving DecidableEq, Repr

/-- The answers of the graph: `expand` those of graphrag.go:409-413 (graphrag_tools.go:1095-1099), `ents` the contents of the
entity nodes next to a chunk, sorted (graphrag.go:464-478, graphrag_tools.go:1240-1256). -/
structure World where
  expand : Text → Option (List Near)
  ents : Text → Option (List Text)

inductive Mode where
  | auto
  | lexical
  | graph
  deriving DecidableEq, Repr

/-- `normalizeRetrievalMode`, graphrag.go:856-867. -/
def parseMode (lower : Char → Char) (sp : Char → Bool) (m : Text) : Mode :=
  let t := (trim sp m).map lower
  if t = "".toList ∨ t = "auto".toList then .auto
  else if t = "lexical".toList then .lexical
  else if t = "graph".toList then .graph
  else .auto

/-- `shouldUseGraphRetrieval`, graphrag.go:869-885; `qn` are the names extracted from the query. -/
def useGraph (m : Mode) (disable : Bool) (qn entityNames : List Text) : Bool :=
  if disable then false
  else match m with
    | .lexical => false
    | .graph => true
    | .auto => if entityNames.length > 0 then true else decide (qn.length > 0)

/-- `shouldLoadChunkEntities`, graphrag.go:887-902; `blank` says that the query is blank. -/
def loadEntities (m : Mode) (disable blank : Bool) (qn : List Text) : Bool :=
  if disable then false
  else match m with
    | .lexical => false
    | .graph => true
    | .auto => if blank then true else decide (qn.length > 0)

def look (l : List Chunk) (id : Text) : Option Chunk := l.find? (fun c => decide (c.id = id))

/-- `chunkResults[c.ID] = c`. -/
def put (l : List Chunk) (c : Chunk) : List Chunk :=
  if l.any (fun x => decide (x.id = c.id)) then l.map (fun x => if x.id = c.id then c else x) else l ++ [c]

/-- The variables of the loop over the seeds, graphrag.go:393-395. -/
structure Acc where
  results : List Chunk
  seeds : List Text
  entities : List Text
  deriving DecidableEq, Repr

def chunkType : Text := "chunk".toList
def entityType : Text := "entity".toList

/-- One neighbour of a seed with the given score, graphrag.go:418-441. -/
def touch (score : ℚ) (a : Acc) (n : Near) : Acc :=
  if n.ntype = entityType then { a with entities := a.entities ++ [n.content] }
  else if n.ntype = chunkType then
    if n.id ∈ a.seeds then a
    else match look a.results n.id with
      | none => { a with results := put a.results ⟨n.id, n.doc, n.content, score * (1 / 2), [], 0⟩ }
      | some r => if score * (1 / 2) > r.score then { a with results := put a.results { r with score := score * (1 / 2) } } else a
  else a

/-- One seed, graphrag.go:397-442; `none` is the error of line 415. -/
def visit (w : World) (ug : Bool) (a : Acc) (s : Chunk) : Option Acc :=
  let a := { a with results := put a.results { s with entities := [], rerank := 0 }, seeds := a.seeds ++ [s.id] }
  if ug then (w.expand s.id).map (fun ns => ns.foldl (touch s.score) a) else some a

/-- The loop over the seeds. -/
def visitAll (w : World) (ug : Bool) : Acc → List Chunk → Option Acc
  | a, [] => some a
  | a, s :: ss => match visit w ug a s with
    | none => none
    | some a => visitAll w ug a ss

/-- The entities of every chunk, graphrag.go:463-480. -/
def attach (w : World) : List Chunk → Option (List Chunk)
  | [] => some []
  | c :: cs => match w.ents c.id, attach w cs with
    | some es, some l => some ({ c with entities := es } :: l)
    | _, _ => none

/-- `GraphRAGQueryResult`, graphrag.go:101-106, without the query. -/
structure Result where
  chunks : List Chunk
  entities : List Text
  context : Text
  deriving DecidableEq, Repr

/-- The parameters of a search that come from libraries. -/
structure Lib where
  sort : List Chunk → List Chunk
  keys : List Text → List Text
  tok : Text → Finset Text
  names : Text → List Text

/-- Tokens of the query's entities, graphrag.go:709. -/
def Lib.qe (L : Lib) (q : Text) : Finset Text := L.tok (joinSp (L.names q))

/-- Ranking and packing, graphrag.go:454-463 and 504-516. -/
def finish (L : Lib) (d : QueryOpts) (q : Text) (chunks : List Chunk) : List Chunk :=
  pack d (if d.rerank then rerank L.tok q (L.qe q) d chunks
    else (L.sort chunks).map (fun c => { c with rerank := c.score }))

/-- The chunks that are no seeds, best first and cut, graphrag.go:491-502. -/
def related (L : Lib) (d : QueryOpts) (seeds : List Text) (all : List Chunk) : List Chunk :=
  (L.sort (all.filter (fun c => decide (c.id ∉ seeds)))).take d.maxRelated.toNat

/-- `SearchGraphRAG`, graphrag.go:361-518, for a query that is not blank. `seeds` is the answer of the vector search (`none`: the
embedder or the search failed). `none` is an error. -/
def search (L : Lib) (w : World) (m : Mode) (disable : Bool) (o : QueryOpts) (q : Text) (seeds : Option (List Chunk)) :
    Option Result :=
  let d := queryDefaults o
  match seeds with
  | none => none
  | some [] => some ⟨[], [], []⟩
  | some ss =>
    let ug := useGraph m disable (L.names q) []
    match visitAll w ug ⟨[], [], []⟩ ss with
    | none => none
    | some a =>
      if ug = false then
        let chunks := finish L d q (ss.filterMap (fun s => look a.results s.id))
        some ⟨chunks, [], buildContext chunks⟩
      else match attach w a.results with
        | none => none
        | some all =>
          let chunks := finish L d q (ss.filterMap (fun s => look all s.id) ++ related L d a.seeds all)
          some ⟨chunks, L.keys (a.entities ++ all.flatMap (·.entities)), buildContext chunks⟩

/-! ### The lexical variant -/

/-- `addChunk`, graphrag_tools.go:1034-1055: a second occurrence keeps the better score. -/
def addChunk (a : Acc) (c : Chunk) (seed : Bool) : Acc :=
  let results := match look a.results c.id with
    | none => put a.results { c with entities := [], rerank := 0 }
    | some r => if c.score > r.score then put a.results { r with score := c.score } else a.results
  { a with results := results, seeds := if seed then (if c.id ∈ a.seeds then a.seeds else a.seeds ++ [c.id]) else a.seeds }

/-- A neighbour of a seed, graphrag_tools.go:1103-1117: every linked chunk gets the score 0.5. -/
def touchLex (a : Acc) (n : Near) : Acc :=
  if n.ntype = entityType then { a with entities := a.entities ++ [n.content] }
  else if n.ntype = chunkType then
    addChunk a ⟨n.id, n.doc, n.content, 1 / 2, [], 0⟩ false
  else a

/-- The loop over the seeds, graphrag_tools.go:1094-1119. -/
def expandAll (w : World) : Acc → List Text → Option Acc
  | a, [] => some a
  | a, s :: ss => match w.expand s with
    | none => none
    | some ns => expandAll w (ns.foldl touchLex a) ss

/-- graphrag_tools.go:1070-1073. -/
def floorScore (c : Chunk) : Chunk := if c.score < 3 / 4 then { c with score := 3 / 4 } else c

/-- `SearchGraphRAGLexical`, graphrag_tools.go:984-1158, for a query that is not blank. `texts` is the answer of `SearchText`,
`byEnt names` that of `SearchChunksByEntities`. -/
def searchLexical (L : Lib) (w : World) (m : Mode) (disable : Bool) (o : QueryOpts) (q : Text) (entityNames : List Text)
    (texts : Option (List Chunk)) (byEnt : List Text → Option (List Chunk)) : Option Result :=
  let d := queryDefaults { o with rerank := true }
  match texts with
  | none => none
  | some ts =>
    let ug := useGraph m disable (L.names q) entityNames
    let en := if ug ∧ entityNames.length = 0 then L.names q else entityNames
    let a0 := ts.foldl (fun a c => addChunk a c true) ⟨[], [], []⟩
    let a1 : Option Acc := if ug ∧ en.length > 0 then
        (byEnt en).map (fun cs => cs.foldl (fun a c => addChunk a (floorScore c) true) a0)
      else some a0
    match a1 with
    | none => none
    | some a =>
      if a.seeds = [] then some ⟨[], if ug then L.keys [] else [], []⟩
      else if ug = false then
        let chunks := pack d (rerank L.tok q (L.qe q) d (a.seeds.filterMap (look a.results)))
        some ⟨chunks, [], buildContext chunks⟩
      else match expandAll w a a.seeds with
        | none => none
        | some b => match attach w b.results with
          | none => none
          | some all =>
            let cand := b.seeds.filterMap (look all) ++ related L d b.seeds all
            let chunks := pack d (rerank L.tok q (L.qe q) d cand)
            some ⟨chunks, L.keys (b.entities ++ all.flatMap (·.entities)), buildContext chunks⟩

/-- `loadToolChunks`, graphrag_tools.go:1210-1238: stored chunks in the order asked, ids that are not stored are skipped. `get` is
`GetByID` (document and content), `ents` as in `World`; `none` is the error of line 1220. -/
def loadChunks (get : Text → Option (Text × Text)) (ents : Text → Option (List Text)) (withEnts : Bool) :
    List (Text × ℚ) → Option (List Chunk)
  | [] => some []
  | (i, x) :: is =>
    match get i with
    | none => loadChunks get ents withEnts is
    | some (doc, content) =>
      match (if withEnts then ents i else some []), loadChunks get ents withEnts is with
      | some es, some l => some (⟨i, doc, content, x, es, 0⟩ :: l)
      | _, _ => none

/-- `SearchText`, graphrag_tools.go:776-786 with `searchTextCandidates`; `none` is an error. -/
def searchText (get : Text → Option (Text × Text)) (ents : Text → Option (List Text)) (withEnts : Bool)
    (sort : List (Text × ℚ) → List (Text × ℚ)) (topK : Int) (answers : List (Option (List (Text × ℚ)))) : Option (List Chunk) :=
  match Verif.Lexical.candidates sort topK answers with
  | .panic => none
  | .ok rs => loadChunks get ents withEnts rs

/-- `GetChunks`, graphrag_tools.go:940-946: no scores. -/
def getChunks (get : Text → Option (Text × Text)) (ents : Text → Option (List Text)) (withEnts : Bool) (ids : List Text) :
    Option (List Chunk) := loadChunks get ents withEnts (ids.map (fun i => (i, 0)))

/-- The position becomes the score, graphrag_tools.go:963-974. -/
def byPosition (cs : List Chunk) : List Chunk :=
  cs.zipIdx.map (fun p => { p.1 with score := (cs.length : ℚ) - p.2, rerank := (cs.length : ℚ) - p.2 })

/-- `BuildContext`, graphrag_tools.go:949-981. -/
def buildTool (get : Text → Option (Text × Text)) (ents : Text → Option (List Text)) (withEnts : Bool) (ids : List Text)
    (o : QueryOpts) : Option (List Chunk × Text) :=
  (getChunks get ents withEnts ids).map (fun cs =>
    let packed := pack (queryDefaults o) (byPosition cs)
    (packed, buildContext packed))

/-! ### The answers of a stored graph -/

def toText (s : String) : Text := s.toList
def ofText (t : Text) : String := String.ofList t

/-- A stored node as the searches read it; `docOf` reads the property. -/
def nearOf (docOf : String → Text) (n : Verif.Graph.Node) : Near := ⟨toText n.id, toText n.content, toText n.ntype, docOf n.props⟩

/-- The two calls of `Neighbors` (`cap` is the limit of the second: 16 in graphrag.go:468, 32 in graphrag_tools.go:1245), on a
stored graph. `keys` sorts the names. -/
def worldOf (docOf : String → Text) (names : List Text → List Text) (cap : Int) (d : QueryOpts) (g : Verif.Graph.State) : World where
  expand id := (Verif.Graph.neighbors g (ofText id) ⟨d.maxHops, [], [], "both", d.topK * 12⟩).join.map
    (fun l => l.map (nearOf docOf))
  ents id := (Verif.Graph.neighbors g (ofText id) ⟨1, [], ["entity"], "both", cap⟩).join.map
    (fun l => names (l.map (fun n => toText n.content)))

end Verif.RagSearch
