import Verif.Model.Graph
import Mathlib.Data.Rat.Floor

/-!
Model of /repo/pkg/graph/graph_export.go.

Simplifications: times are left out; texts are valid Unicode; vectors and weights are rationals, so NaN and infinities do not
occur. The XML libraries are modelled by what a text becomes on the way out and back (`xmlText`), the JSON libraries by a
printer and a reader of vectors and a reader of property texts (`Lib`). Property maps are their JSON text, "" standing for a
nil map and "{}" for an empty one.
-/
namespace Verif.Graph

/-- The characters that encoding/xml passes on (`isInCharacterRange`). -/
def xmlChar (c : Char) : Bool :=
  decide (c.toNat = 0x09 ∨ c.toNat = 0x0A ∨ c.toNat = 0x0D ∨ (0x20 ≤ c.toNat ∧ c.toNat ≤ 0xD7FF) ∨
    (0xE000 ≤ c.toNat ∧ c.toNat ≤ 0xFFFD) ∨ (0x10000 ≤ c.toNat ∧ c.toNat ≤ 0x10FFFF))

/-- A text written by `xml.Encoder` and read back by `xml.Decoder`: every other character becomes U+FFFD. -/
def xmlText (s : String) : String := String.ofList (s.toList.map (fun c => if xmlChar c then c else '�'))

/-- encoding/json on vectors and property maps. -/
structure Lib where
  showVec : List ℚ → String
  readVec : String → Option (List ℚ)
  /-- the text of the map that a text decodes to, `none` when it does not decode -/
  readProps : String → Option String

/-- Round half to even. -/
def roundEven (x : ℚ) : Int :=
  let f := ⌊x⌋
  if x - f < 1 / 2 then f else if x - f > 1 / 2 then f + 1 else if f % 2 = 0 then f else f + 1

/-- `strconv.ParseFloat(fmt.Sprintf("%f", w))`, graph_export.go:134 and :236: six decimals are kept. -/
def sixDecimals (w : ℚ) : ℚ := (roundEven (w * 1000000) : ℚ) / 1000000

/-- The loops that drop repeated edge ids, graph_export.go:122-128, :396-401 and :526-537. -/
def firstEdges : List String → List Edge → List Edge
  | _, [] => []
  | seen, e :: es => if e.id ∈ seen then firstEdges seen es else e :: firstEdges (e.id :: seen) es

/-- graph_export.go:61-76, :122-128 (and the same lines of the other formats): the edges of all nodes, once each. -/
def exportEdges (s : State) : List Edge := firstEdges [] (s.nodes.flatMap (fun n => s.edges.filter (fun e => decide (e.src = n.id))))

/-! ### GraphML -/

/-- `GraphMLNode`, graph_export.go:39-42. -/
structure MlNode where
  id : String
  data : List (String × String)
  deriving DecidableEq, Repr

/-- `GraphMLEdge`, graph_export.go:45-50. -/
structure MlEdge where
  id : String
  src : String
  dst : String
  data : List (String × String)
  deriving DecidableEq, Repr

/-- `GraphMLDocument`, graph_export.go:16-36, as far as it is read back; a key is its id and its name. The number in the
"weight" data is kept as the number that `ParseFloat` will read. -/
structure MlDoc where
  keys : List (String × String)
  nodes : List MlNode
  edges : List (MlEdge × ℚ)
  deriving DecidableEq, Repr

/-- graph_export.go:98-118. -/
def mlNode (L : Lib) (n : Node) : MlNode :=
  ⟨n.id, [("d0", n.content), ("d1", n.ntype)] ++ (if n.vec ≠ [] then [("d2", L.showVec n.vec)] else []) ++
    (if n.props ≠ "" then [("d3", n.props)] else [])⟩

/-- graph_export.go:130-144, with the weight as its number. -/
def mlEdge (e : Edge) : MlEdge × ℚ :=
  (⟨e.id, e.src, e.dst, [("d4", e.etype)] ++ (if e.props ≠ "" then [("d6", e.props)] else [])⟩, sixDecimals e.weight)

/-- graph_export.go:81-89. -/
def mlKeys : List (String × String) :=
  [("d0", "content"), ("d1", "type"), ("d2", "vector"), ("d3", "properties"), ("d4", "type"), ("d5", "weight"), ("d6", "properties")]

/-- `ExportGraphML`, graph_export.go:60-163. -/
def exportML (L : Lib) (s : State) : MlDoc := ⟨mlKeys, s.nodes.map (mlNode L), (exportEdges s).map mlEdge⟩

/-- Writing a document and reading it again. -/
def tripML (d : MlDoc) : MlDoc :=
  let p := fun (x : String × String) => (xmlText x.1, xmlText x.2)
  ⟨d.keys.map p, d.nodes.map (fun n => ⟨xmlText n.id, n.data.map p⟩),
    d.edges.map (fun e => (⟨xmlText e.1.id, xmlText e.1.src, xmlText e.1.dst, e.1.data.map p⟩, e.2))⟩

/-- A Go map built by assignment from a list of pairs, read at a key; a missing key reads as "". -/
def lookupLast (l : List (String × String)) (k : String) : String := ((l.reverse.find? (fun p => decide (p.1 = k))).map Prod.snd).getD ""

/-- One data field of a node, graph_export.go:191-206 and :452-465. A second properties field would be merged into the first;
exported documents have one. -/
def readField (L : Lib) (n : Node) (attr value : String) : Node :=
  if attr = "content" then { n with content := value }
  else if attr = "type" then { n with ntype := value }
  else if attr = "vector" then { n with vec := (L.readVec value).getD [0, 0, 0] }
  else if attr = "properties" then { n with props := (L.readProps value).getD n.props }
  else n

/-- graph_export.go:209-211 and :468-470. -/
def fillVec (n : Node) : Node := if n.vec = [] then { n with vec := [0, 0, 0] } else n

/-- graph_export.go:184-214. -/
def readMlNode (L : Lib) (keys : List (String × String)) (m : MlNode) : Node :=
  fillVec (m.data.foldl (fun n d => readField L n (lookupLast keys d.1) d.2) ⟨m.id, [], "", "", "{}"⟩)

/-- One data field of an edge, graph_export.go:232-242. -/
def readEdgeField (L : Lib) (e : Edge) (attr value : String) : Edge :=
  if attr = "type" then { e with etype := value }
  else if attr = "properties" then { e with props := (L.readProps value).getD e.props }
  else e

/-- graph_export.go:224-246. -/
def readMlEdge (L : Lib) (keys : List (String × String)) (m : MlEdge × ℚ) : Edge :=
  m.1.data.foldl (fun e d => readEdgeField L e (lookupLast keys d.1) d.2) ⟨m.1.id, m.1.src, m.1.dst, "", m.2, "{}", []⟩

/-- The end of every import, graph_export.go:217-219 and :249-251: two batches, each in its own transaction; `c1` and `c2`
say whether they commit. The answer is whether the import reports success. -/
def importBatches (fk c1 c2 : Bool) (s : State) (ns : List Node) (es : List Edge) : State × Bool :=
  match upsertNodesBatch c1 s (ns.map some) with
  | (s1, none) => (s1, false)
  | (s1, some _) =>
    match upsertEdgesBatch fk c2 s1 (es.map some) with
    | (s2, none) => (s2, false)
    | (s2, some _) => (s2, true)

/-- `ImportGraphML`, graph_export.go:166-254, of a document that decodes. -/
def importML (L : Lib) (fk c1 c2 : Bool) (s : State) (d : MlDoc) : State × Bool :=
  importBatches fk c1 c2 s (d.nodes.map (readMlNode L d.keys)) (d.edges.map (readMlEdge L d.keys))

/-! ### GEXF -/

/-- `GEXFNode`, graph_export.go:301-305. -/
structure XfNode where
  id : String
  label : String
  attrs : List (String × String)
  deriving DecidableEq, Repr

/-- `GEXFEdge`, graph_export.go:313-319. -/
structure XfEdge where
  id : String
  src : String
  dst : String
  weight : ℚ
  etype : String
  deriving DecidableEq, Repr

/-- `GEXFDocument`, graph_export.go:259-298, as far as it is read back. -/
structure XfDoc where
  attrs : List (String × String)
  nodes : List XfNode
  edges : List XfEdge
  deriving DecidableEq, Repr

/-- graph_export.go:374-393. -/
def xfNode (L : Lib) (n : Node) : XfNode :=
  ⟨n.id, n.content, [("0", n.content), ("1", n.ntype)] ++ (if n.vec ≠ [] then [("2", L.showVec n.vec)] else []) ++
    (if n.props ≠ "" then [("3", n.props)] else [])⟩

/-- graph_export.go:403-409: neither the properties nor the vector of an edge are written. -/
def xfEdge (e : Edge) : XfEdge := ⟨e.id, e.src, e.dst, e.weight, e.etype⟩

/-- graph_export.go:356-361. -/
def xfAttrs : List (String × String) := [("0", "content"), ("1", "type"), ("2", "vector"), ("3", "properties")]

/-- `ExportGEXF`, graph_export.go:327-428. -/
def exportXF (L : Lib) (s : State) : XfDoc := ⟨xfAttrs, s.nodes.map (xfNode L), (exportEdges s).map xfEdge⟩

def tripXF (d : XfDoc) : XfDoc :=
  let p := fun (x : String × String) => (xmlText x.1, xmlText x.2)
  ⟨d.attrs.map p, d.nodes.map (fun n => ⟨xmlText n.id, xmlText n.label, n.attrs.map p⟩),
    d.edges.map (fun e => ⟨xmlText e.id, xmlText e.src, xmlText e.dst, e.weight, xmlText e.etype⟩)⟩

/-- graph_export.go:445-473. -/
def readXfNode (L : Lib) (attrs : List (String × String)) (m : XfNode) : Node :=
  fillVec (m.attrs.foldl (fun n d => readField L n (lookupLast attrs d.1) d.2) ⟨m.id, [], m.label, "", "{}"⟩)

/-- graph_export.go:483-499. -/
def readXfEdge (m : XfEdge) : Edge := ⟨m.id, m.src, m.dst, m.etype, if m.weight = 0 then 1 else m.weight, "{}", []⟩

/-- `ImportGEXF`, graph_export.go:431-508, of a document that decodes. -/
def importXF (L : Lib) (fk c1 c2 : Bool) (s : State) (d : XfDoc) : State × Bool :=
  importBatches fk c1 c2 s (d.nodes.map (readXfNode L d.attrs)) (d.edges.map readXfEdge)

/-! ### JSON -/

/-- A property map under `omitempty` (graph.go:20, :32): an empty map is left out and reads back as nil. -/
def omitProps (p : String) : String := if p = "{}" then "" else p

/-- `ExportJSON` and the decoding in `ImportJSON`, graph_export.go:514-571: nodes and edges as they come back. -/
def tripJSON (s : State) : List Node × List Edge :=
  (s.nodes.map (fun n => { n with props := omitProps n.props }), (exportEdges s).map (fun e => { e with props := omitProps e.props }))

/-- `ImportJSON`, graph_export.go:562-588, of a document that decodes; empty lists are skipped there and by the batches. -/
def importJSON (fk c1 c2 : Bool) (s : State) (d : List Node × List Edge) : State × Bool := importBatches fk c1 c2 s d.1 d.2

/-! ### Telling the formats apart -/

inductive Format where
  | graphML
  | gexf
  | json
  deriving DecidableEq, Repr

/-- `strings.Contains`. -/
def containsText (t : List Char) : List Char → Bool
  | [] => t.isEmpty
  | c :: cs => t.isPrefixOf (c :: cs) || containsText t cs

/-- Space as `strings.TrimSpace` cuts it at the front (ASCII part). -/
def skipSpace : List Char → List Char
  | [] => []
  | c :: cs => if c = ' ' ∨ c = '\n' ∨ c = '\t' ∨ c = '\r' then skipSpace cs else c :: cs

/-- `DetectFormat`, graph_export.go:628-655, given the first characters that one `Read` delivered (at most 512). The trailing
trim is left out: it takes only spaces away, which no tested word contains. -/
def detect (got : List Char) : Option Format :=
  let t := skipSpace got
  if ("<?xml".toList.isPrefixOf t || "<graphml".toList.isPrefixOf t) && containsText "graphml".toList t then some .graphML
  else if ("<?xml".toList.isPrefixOf t || "<graphml".toList.isPrefixOf t) && containsText "gexf".toList t then some .gexf
  else if "{".toList.isPrefixOf t then some .json
  else none

/-- How every GraphML export begins (graph_export.go:79-80, :154 and the struct tags). -/
def mlHead : List Char :=
  "<?xml version=\"1.0\" encoding=\"UTF-8\"?>\n<graphml xmlns=\"http://graphml.graphdrawing.org/xmlns\">\n".toList

/-- How every GEXF export begins (graph_export.go:345-361, :418 and the struct tags). -/
def xfHead : List Char :=
  "<?xml version=\"1.0\" encoding=\"UTF-8\"?>\n<gexf xmlns=\"http://www.gexf.net/1.3\" version=\"1.3\">\n  <meta>\n".toList ++
  "    <creator>cortexdb</creator>\n    <description>Graph exported from cortexdb</description>\n  </meta>\n".toList ++
  "  <graph mode=\"static\" defaultedgetype=\"directed\">\n    <attributes class=\"node\">\n".toList ++
  "      <attribute id=\"0\" title=\"content\" type=\"string\"></attribute>\n".toList ++
  "      <attribute id=\"1\" title=\"type\" type=\"string\"></attribute>\n".toList ++
  "      <attribute id=\"2\" title=\"vector\" type=\"string\"></attribute>\n".toList ++
  "      <attribute id=\"3\" title=\"properties\" type=\"string\"></attribute>\n    </attributes>\n".toList

/-- How every JSON export begins (graph_export.go:541-554): an indented object whose first key is "edges". -/
def jsHead : List Char := "{\n  \"edges\":".toList

end Verif.Graph
