import Verif.Model.GraphTraverse
import Mathlib.Algebra.Order.Group.Abs
import Mathlib.Data.List.Dedup

/-!
Model of /repo/pkg/graph/graph_hybrid.go: searches that combine vectors with the graph.

Simplifications: scores and weights are rationals; `sort.Slice` is a parameter, which also stands for the order in which maps
are visited; the similarity function is a parameter; a missing filter is the filter with empty lists and depth 0; the answer
of the vector index is a parameter, a list of node ids.
-/
namespace Verif.Graph

/-- `GraphFilter`, graph.go:37-42. -/
structure GFilter where
  nodeTypes : List String
  edgeTypes : List String
  maxDepth : Int
  deriving DecidableEq, Repr

/-- `HybridWeights`, graph.go:60-64. -/
structure Weights where
  vector : ℚ
  graph : ℚ
  edge : ℚ
  deriving DecidableEq, Repr

/-- `HybridQuery`, graph.go:45-57, the fields that are read. -/
structure HQuery where
  vector : List ℚ
  start : String
  filter : GFilter
  topK : Int
  threshold : ℚ
  weights : Weights
  deriving DecidableEq, Repr

/-- `HybridResult`, graph.go:67-75; `distance = none` is -1. -/
structure HResult where
  node : Node
  vectorScore : ℚ
  graphScore : ℚ
  combined : ℚ
  distance : Option Nat
  deriving DecidableEq, Repr

/-- graph_hybrid.go:20-32. -/
def normWeights (w : Weights) : Weights :=
  let total := w.vector + w.graph + w.edge
  if total = 0 then ⟨5 / 10, 3 / 10, 2 / 10⟩
  else if |total - 1| > 1 / 1000 then ⟨w.vector / total, w.graph / total, w.edge / total⟩
  else w

/-! ### Distances -/

/-- One entry of the queue, and of `graphResults`: node, distance, weight (graph_hybrid.go:345-349, 299-302). -/
structure GDist where
  node : String
  dist : Nat
  weight : ℚ
  deriving DecidableEq, Repr

/-- graph_hybrid.go:379-394. -/
def pushOut (s : State) (types : List String) (c : GDist) : List GDist :=
  ((s.edges.filter (fun e => decide (e.src = c.node))).filter (fun e => decide (types = [] ∨ e.etype ∈ types))).map
    (fun e => ⟨e.dst, c.dist + 1, c.weight * e.weight⟩)

/-- The entry for a node. -/
def distOf (r : List GDist) (u : String) : Option GDist := r.find? (fun g => decide (g.node = u))

/-- graph_hybrid.go:356-395; `visited` and `graphResults` change together, so one list stands for both. -/
def distLoop (s : State) (types : List String) (M : Nat) : Nat → List GDist → List GDist → Option (List GDist)
  | _, r, [] => some r
  | 0, _, _ :: _ => none
  | fuel + 1, r, c :: q =>
    if c.dist > M then distLoop s types M fuel r q
    else if (distOf r c.node).any (fun g => decide (g.dist ≤ c.dist)) then distLoop s types M fuel r q
    else distLoop s types M fuel (c :: r.filter (fun g => decide (g.node ≠ c.node))) (q ++ pushOut s types c)

/-- graph_hybrid.go:351-354. -/
def GFilter.depth (f : GFilter) : Nat := if f.maxDepth > 0 then f.maxDepth.toNat else 3

/-- graph_hybrid.go:397-411. -/
def keepTypes (s : State) (types : List String) (r : List GDist) : List GDist :=
  if types = [] then r
  else r.filter (fun g => match getNode s g.node with | none => false | some n => decide (n.ntype ∈ types))

/-- `collectGraphDistances`, graph_hybrid.go:341-414. -/
def graphDistances (s : State) (start : String) (f : GFilter) : Option (List GDist) :=
  (distLoop s f.edgeTypes f.depth (s.edges.length + 1) [] [⟨start, 0, 1⟩]).map (keepTypes s f.nodeTypes)

/-! ### HybridSearch -/

/-- `GetAllNodes`, graph_hybrid.go:238-297. -/
def allNodes (s : State) (types : List String) : List Node := s.nodes.filter (fun n => decide (types = [] ∨ n.ntype ∈ types))

/-- `vectorCandidates`, graph_hybrid.go:304-339: `index` is the answer of the vector index, if there is one. -/
def vectorCandidates (s : State) (index : Option (List String)) (q : HQuery) : List Node :=
  match index with
  | none => allNodes s q.filter.nodeTypes
  | some ids =>
    if q.topK > 0 then
      let l := (ids.filterMap (getNode s)).filter (fun n => decide (q.filter.nodeTypes = [] ∨ n.ntype ∈ q.filter.nodeTypes))
      if l ≠ [] then l else allNodes s q.filter.nodeTypes
    else allNodes s q.filter.nodeTypes

/-- Phase 1, graph_hybrid.go:35-50; `dedup` because the map holds one entry per node. -/
def vectorHits (sim : List ℚ → List ℚ → ℚ) (s : State) (index : Option (List String)) (q : HQuery) : List Node :=
  if q.vector = [] then []
  else ((vectorCandidates s index q).filter (fun n => decide (q.threshold = 0 ∨ sim q.vector n.vec ≥ q.threshold))).dedup

/-- graph_hybrid.go:88-92. -/
def proximity (d : Option GDist) : ℚ :=
  match d with
  | none => 0
  | some g => 1 / ((g.dist : ℚ) + 1)

/-- graph_hybrid.go:78-95. -/
def vectorResult (sim : List ℚ → List ℚ → ℚ) (q : HQuery) (w : Weights) (dist : List GDist) (n : Node) : HResult :=
  { node := n
    vectorScore := sim q.vector n.vec
    graphScore := proximity (distOf dist n.id)
    combined := sim q.vector n.vec * w.vector + proximity (distOf dist n.id) * w.graph
    distance := (distOf dist n.id).map GDist.dist }

/-- graph_hybrid.go:113-128. -/
def graphResult (sim : List ℚ → List ℚ → ℚ) (q : HQuery) (w : Weights) (g : GDist) (n : Node) : HResult :=
  let v := if q.vector = [] then 0 else sim q.vector n.vec
  { node := n
    vectorScore := v
    graphScore := proximity (some g)
    combined := v * w.vector + proximity (some g) * w.graph + g.weight * w.edge
    distance := some g.dist }

/-- The results before sorting, graph_hybrid.go:62-136. -/
def hybridPool (sim : List ℚ → List ℚ → ℚ) (s : State) (q : HQuery) (w : Weights) (hits : List Node) (dist : List GDist) :
    List HResult :=
  hits.map (vectorResult sim q w dist) ++
    dist.filterMap (fun g =>
      if g.node ∈ hits.map Node.id then none
      else (getNode s g.node).map (graphResult sim q w g))

/-- `HybridSearch`, graph_hybrid.go:15-147 (a nil query is the only error that is not a storage error). -/
def hybridSearch (sim : List ℚ → List ℚ → ℚ) (sort : List HResult → List HResult) (s : State) (index : Option (List String))
    (q : HQuery) : Option (List HResult) :=
  match (if q.start = "" then some [] else graphDistances s q.start q.filter) with
  | none => none
  | some dist =>
    let l := sort (hybridPool sim s q (normWeights q.weights) (vectorHits sim s index q) dist)
    some (if q.topK > 0 then l.take q.topK.toNat else l)

/-! ### GraphVectorSearch and SimilarityInGraph -/

/-- graph_hybrid.go:171-177, 212-218. -/
def plainResult (score : ℚ) (n : Node) : HResult := ⟨n, score, 0, score, none⟩

/-- `GraphVectorSearch`, graph_hybrid.go:150-188: `some none` is the error of an unknown direction. -/
def graphVectorSearch (sim : List ℚ → List ℚ → ℚ) (sort : List HResult → List HResult) (s : State) (start : String)
    (v : List ℚ) (o : Opts) : Option (Option (List HResult)) :=
  (neighbors s start o).map (fun r => r.map (fun ns =>
    let l := sort (((getNode s start).toList ++ ns).map (fun n => plainResult (sim v n.vec) n))
    if o.limit > 0 then l.take o.limit.toNat else l))

/-- `SimilarityInGraph`, graph_hybrid.go:191-235. -/
def similarityInGraph (sim : List ℚ → List ℚ → ℚ) (sort : List HResult → List HResult) (s : State) (id : String)
    (topK : Int) (threshold : ℚ) : Option (List HResult) :=
  match getNode s id with
  | none => none
  | some n =>
    let l := sort (((s.nodes.filter (fun m => decide (m.id ≠ id))).filter
      (fun m => decide (threshold = 0 ∨ sim n.vec m.vec ≥ threshold))).map (fun m => plainResult (sim n.vec m.vec) m))
    some (if topK > 0 then l.take topK.toNat else l)

end Verif.Graph
