import Verif.Model.GraphTraverse
import Verif.Model.Rag
import Verif.Base.Sort

/-!
Model of the tools that write and read the graph, /repo/pkg/cortexdb/graphrag_tools.go, and of the lexical helpers there.

Simplifications: the properties of nodes and edges are opaque texts; the schema is there (`InitGraphSchema` does not fail); `vec` gives the
vector of a text (blanks at its ends do not matter); the unicode tables are parameters; weights are rationals.
-/
namespace Verif.GraphTools
open Verif.Base Verif.Graph

/-- The tables of the unicode package: lower case, letter or digit, space. -/
structure Uni where
  lower : Char → Char
  letter : Char → Bool
  space : Char → Bool

/-- `strings.TrimSpace(x) == ""`. -/
def blank (u : Uni) (x : String) : Bool := decide (trim u.space x.toList = [])

/-- `firstNonEmpty` of two texts, graphrag.go:958-965. -/
def firstNonEmpty (u : Uni) (a b : String) : String := if blank u a then (if blank u b then "" else b) else a

/-- `graphEntityNodeID`, graphrag.go:669-685. -/
def entityNode (u : Uni) (name : String) : String := String.ofList (Verif.Rag.entityId u.lower u.letter u.space name.toList)

/-- `strings.HasPrefix(x, "entity:")`. -/
def isEntityId (x : String) : Bool := "entity:".toList.isPrefixOf x.toList

/-- `resolveEntityNodeID`, graphrag_tools.go:1258-1272. -/
def resolve (u : Uni) (id name : String) : String :=
  if isEntityId id then id
  else if isEntityId name then name
  else if blank u id = false then entityNode u id
  else if blank u name = false then entityNode u name
  else ""

/-! ### Writing -/

/-- `ToolEntityInput`, graphrag_tools.go:59-66; `props` is the text of the properties built at lines 668-677. -/
structure EntityIn where
  id : String
  name : String
  etype : String
  desc : String
  chunks : List String
  props : String

/-- graphrag_tools.go:661-665: entities without name and id are skipped. -/
def named (u : Uni) (es : List EntityIn) : List EntityIn := es.filter (fun e => !(blank u e.name && blank u e.id))

/-- The node of an entity, graphrag_tools.go:665-685. -/
def nodeOf (u : Uni) (vec : String → List ℚ) (e : EntityIn) : Node :=
  ⟨resolve u e.id e.name, vec (e.name ++ " " ++ e.desc), firstNonEmpty u e.name e.id, firstNonEmpty u e.etype "entity", e.props⟩

/-- The edge from a chunk to an entity, graphrag_tools.go:691-697. -/
def mention (chunk entity : String) : Edge := ⟨"edge:mention:" ++ chunk ++ ":" ++ entity, chunk, entity, "mentions", 1, "", []⟩

/-- The edges of an entity, graphrag_tools.go:687-698. -/
def mentionsOf (u : Uni) (e : EntityIn) : List Edge :=
  (e.chunks.filter (fun c => decide (c ≠ ""))).map (fun c => mention c (resolve u e.id e.name))

/-- `UpsertEntities`, graphrag_tools.go:646-718. `fk` and `commit` as in the graph store, one flag for each batch; `none` is an error. The
counts of the two batches are discarded (lines 702 and 707): the answer holds the ids and the number of edges that were handed over. -/
def upsertEntities (u : Uni) (vec : String → List ℚ) (fk c1 c2 : Bool) (s : State) (es : List EntityIn) :
    State × Option (List String × Nat) :=
  if es = [] then (s, some ([], 0))
  else
    let ns := (named u es).map (nodeOf u vec)
    let edges := (named u es).flatMap (mentionsOf u)
    let r1 := upsertNodesBatch c1 s (ns.map some)
    match r1.2 with
    | none => (r1.1, none)
    | some _ =>
      let r2 := upsertEdgesBatch fk c2 r1.1 (edges.map some)
      match r2.2 with
      | none => (r2.1, none)
      | some _ => (r2.1, some (ns.map Node.id, edges.length))

/-- `ToolRelationInput`, graphrag_tools.go:81-88. -/
structure RelIn where
  src : String
  dst : String
  rtype : String
  weight : ℚ
  props : String

/-- `fmt.Sprintf("%d", i)`. -/
def dec (i : Nat) : String := String.ofList (Verif.Rag.decimal i)

/-- graphrag_tools.go:739. -/
def relId (f t ty : String) (i : Nat) : String := "edge:relation:" ++ f ++ ":" ++ t ++ ":" ++ ty ++ ":" ++ dec i

/-- The edge of the relation at position `i`, graphrag_tools.go:731-764; `none` when an end has no name. -/
def relEdge (u : Uni) (r : RelIn) (i : Nat) : Option Edge :=
  let f := resolve u "" r.src
  let t := resolve u "" r.dst
  if f = "" ∨ t = "" then none
  else
    let ty := firstNonEmpty u r.rtype "related_to"
    some ⟨relId f t ty i, f, t, ty, if r.weight = 0 then 1 else r.weight, r.props, []⟩

def relEdges (u : Uni) (rs : List RelIn) : List Edge := rs.zipIdx.filterMap (fun p => relEdge u p.1 p.2)

/-- `UpsertRelations`, graphrag_tools.go:721-773; the counts of the batch are discarded (line 767). -/
def upsertRelations (u : Uni) (fk commit : Bool) (s : State) (rs : List RelIn) : State × Option (List String) :=
  let es := relEdges u rs
  let r := upsertEdgesBatch fk commit s (es.map some)
  match r.2 with
  | none => (r.1, none)
  | some _ => (r.1, some (es.map Edge.id))

/-! ### Reading -/

/-- `scoreMap[id] += 1`, graphrag_tools.go:878-880, on a map kept as a list of pairs. -/
def bump (m : List (String × Nat)) (i : String) : List (String × Nat) :=
  if m.any (fun p => decide (p.1 = i)) then m.map (fun p => if p.1 = i then (p.1, p.2 + 1) else p) else m ++ [(i, 1)]

/-- The loop of `SearchChunksByEntities`, graphrag_tools.go:865-881: an error for one name is skipped. -/
def tally (u : Uni) (s : State) (hops limit : Int) : List (String × Nat) → List String → List (String × Nat)
  | m, [] => m
  | m, n :: ns => match (neighbors s (resolve u "" n) ⟨hops, [], ["chunk"], "both", limit⟩).join with
    | none => tally u s hops limit m ns
    | some l => tally u s hops limit ((l.map Node.id).foldl bump m) ns

/-- `SearchChunksByEntities`, graphrag_tools.go:853-890, up to the loading of the chunks (`loadToolChunks`): the ids and scores. `sort` is
`sortIDsByScore`, lines 1411-1423. -/
def byEntities (u : Uni) (s : State) (sort : List (String × Nat) → List (String × Nat)) (names : List String) (topK hops : Int) :
    List (String × Nat) :=
  if names = [] then []
  else
    let k := if topK ≤ 0 then 10 else topK
    let h := if hops ≤ 0 then 1 else hops
    (sort (tally u s h (k * 8) [] names)).take k.toNat

/-- `getChunkEntityNames`, graphrag_tools.go:1240-1256, before sorting; `none` is an error. -/
def chunkEntities (s : State) (chunk : String) : Option (List String) :=
  (neighbors s chunk ⟨1, [], ["entity"], "both", 32⟩).join.map (fun l => l.map Node.content)

/-- The loop of `ExpandGraph`, graphrag_tools.go:901-920: the set of ids, in the order of insertion. -/
def gather (s : State) (o : Opts) : List String → List String → Option (List String)
  | set, [] => some set
  | set, i :: is =>
    if i = "" then gather s o set is
    else match (neighbors s i o).join with
      | none => none
      | some l => gather s o ((i :: l.map Node.id).foldl (fun a x => if x ∈ a then a else a ++ [x]) set) is

/-- `ExpandGraph`, graphrag_tools.go:893-928; `sort` is `sort.Strings`; `none` is an error. -/
def expandGraph (s : State) (sort : List String → List String) (ids : List String) (hops : Int) (edgeTypes nodeTypes : List String)
    (limit : Int) : Option (List Node × List Edge) :=
  if ids = [] then some ([], [])
  else
    let o : Opts := ⟨if hops ≤ 0 then 1 else hops, edgeTypes, nodeTypes, "both", limit⟩
    (gather s o [] ids).map (fun set => subgraph s (sort set))

/-! ### Lexical helpers -/

abbrev Text := List Char

/-- The characters cut off a token, graphrag_tools.go:1274-1276. -/
def edgeChar (c : Char) : Bool := c ∈ " \t\r\n.,!?;:\"'()[]{}<>".toList

/-- The tokens of `lexicalVectorForText`, graphrag_tools.go:1194-1198. -/
def tokens (u : Uni) (t : Text) : List Text :=
  ((fields u.space (t.map u.lower)).map (trim edgeChar)).filter (fun w => decide (w ≠ []))

/-- `vector[index] += 1`. -/
def bumpAt (v : List Nat) (i : Nat) : List Nat := v.set i (v.getD i 0 + 1)

/-- `lexicalVectorForText`, graphrag_tools.go:1189-1208; `hash` is FNV-1a; the default dimension is 64 (graphrag_tools.go:16). Counts are
exact (float32 is exact below 2^24). -/
def lexVec (u : Uni) (hash : Text → Nat) (t : Text) (dim : Int) : List Nat :=
  let d := if dim ≤ 0 then 64 else dim.toNat
  let v := (tokens u t).foldl (fun v w => bumpAt v (hash w % d)) (List.replicate d 0)
  if v.all (fun x => decide (x = 0)) then v.set 0 1 else v

/-- `seen` and `append`, graphrag_tools.go:1283-1293 and 1332-1336. -/
def addNew (l : List Text) (x : Text) : List Text := if x ∈ l then l else l ++ [x]

/-- Byte length, for `len(token) < 2`. -/
def bytes (t : Text) : Nat := (t.map Char.utf8Size).sum

/-- `lexicalQueryStopwords`, graphrag_tools.go:1374-1380. -/
def stopwords : List String :=
  ["a", "an", "and", "are", "as", "at", "be", "by", "does", "for", "from", "how", "in", "into", "is", "it", "of", "on", "or", "that",
    "the", "their", "there", "these", "this", "to", "was", "were", "what", "when", "where", "which", "who", "why", "with"]

/-- `lexicalQueryKeywords`, graphrag_tools.go:1318-1339. -/
def keywords (u : Uni) (q : Text) : List Text :=
  (((fields (fun c => !u.letter c) (q.map u.lower)).map (trim edgeChar)).filter
    (fun w => decide (w ≠ [] ∧ 2 ≤ bytes w) && decide (w ∉ stopwords.map String.toList))).foldl addNew []

/-- `mergeLexicalKeywords` of two groups, graphrag_tools.go:1341-1357. -/
def mergeKeywords (a b : List Text) : List Text := ((a ++ b).filter (fun w => decide (w ≠ []))).foldl addNew []

/-- `isASCIIAlphaNum`, graphrag_tools.go:1382-1389. -/
def alnum (w : Text) : Bool := w.all (fun c => ('a' ≤ c && c ≤ 'z') || ('0' ≤ c && c ≤ '9')) && decide (w ≠ [])

/-- `formatFTSKeywords`, graphrag_tools.go:1359-1372. -/
def formatTerms (ws : List Text) (pre : Bool) : List Text :=
  (ws.filter (fun w => decide (w ≠ []))).map (fun w => if pre && alnum w && decide (bytes w > 2) then w ++ ['*'] else w)

/-- `strings.Join(parts, " OR ")`. -/
def joinOr : List Text → Text
  | [] => []
  | [w] => w
  | w :: ws => w ++ " OR ".toList ++ joinOr ws

/-- `addQuery`, graphrag_tools.go:1283-1293. -/
def addQuery (u : Uni) (l : List Text) (x : Text) : List Text :=
  let x := trim u.space x
  if x = [] then l else addNew l x

/-- `lexicalSearchQueries`, graphrag_tools.go:1278-1316. -/
def searchQueries (u : Uni) (q : Text) (kws alternates : List Text) : List Text :=
  let t := trim u.space q
  let l0 := if t ≠ [] then addQuery u [] t else []
  let l1 := alternates.foldl (addQuery u) l0
  let planned := keywords u (joinSp kws)
  let auto := keywords u t
  let l2 := if auto.length > 0 then addQuery u l1 (joinOr auto) else l1
  let all := mergeKeywords planned auto
  if all.length > 0 then addQuery u (addQuery u l2 (joinOr (formatTerms all false))) (joinOr (formatTerms all true)) else l2

end Verif.GraphTools
