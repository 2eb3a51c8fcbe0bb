import Verif.Model.GraphTraverse
import Mathlib.Data.List.Dedup
import Mathlib.Algebra.Order.Group.Abs

/-!
Model of the algorithms in /repo/pkg/graph/graph_algorithms.go: PageRank, communities and edge prediction.

Simplifications: scores are rationals, so sums do not depend on the order of addition; arrays indexed by node position are
functions of the node id (ids are unique); `sort.Slice` and the iteration order of maps are parameters.
-/
namespace Verif.Graph

/-- The edges both of whose ends are stored, as pairs (graph_algorithms.go:57-71). -/
def topology (s : State) : List (String × String) :=
  (s.edges.map (fun e => (e.src, e.dst))).filter (fun p => decide (p.1 ∈ s.nodes.map Node.id ∧ p.2 ∈ s.nodes.map Node.id))

/-- `outDegree`, graph_algorithms.go:67. -/
def outDegree (es : List (String × String)) (u : String) : Nat := (es.filter (fun e => decide (e.1 = u))).length

/-- One new score, graph_algorithms.go:88-96. -/
def rankOf (n : Nat) (es : List (String × String)) (d : ℚ) (score : String → ℚ) (i : String) : ℚ :=
  (1 - d) / n + ((es.filter (fun e => decide (e.2 = i))).map (fun e =>
    if outDegree es e.1 > 0 then d * score e.1 / outDegree es e.1 else 0)).sum

/-- `maxDiff`, graph_algorithms.go:98-102. -/
def maxDiff (ids : List String) (new old : String → ℚ) : ℚ :=
  ids.foldl (fun m i => if |new i - old i| > m then |new i - old i| else m) 0

/-- The iteration, graph_algorithms.go:84-109. -/
def rankLoop (ids : List String) (es : List (String × String)) (d : ℚ) : Nat → (String → ℚ) → (String → ℚ)
  | 0, score => score
  | n + 1, score =>
    if maxDiff ids (rankOf ids.length es d score) score < 1 / 1000000 then rankOf ids.length es d score
    else rankLoop ids es d n (rankOf ids.length es d score)

/-- `PageRank`, graph_algorithms.go:18-125. -/
def pageRank (sort : List (String × ℚ) → List (String × ℚ)) (s : State) (iterations : Int) (damping : ℚ) : List (String × ℚ) :=
  let n := if iterations ≤ 0 then 100 else iterations.toNat
  let d := if damping ≤ 0 ∨ damping > 1 then 85 / 100 else damping
  let ids := s.nodes.map Node.id
  if ids = [] then []
  else sort (ids.map (fun i => (i, rankLoop ids (topology s) d n (fun _ => 1 / (ids.length : ℚ)) i)))

/-! ### Communities -/

/-- The weighted edges with both ends stored (graph_algorithms.go:171-186). -/
def weighted (s : State) : List (String × String × ℚ) :=
  (s.edges.map (fun e => (e.src, e.dst, e.weight))).filter
    (fun p => decide (p.1 ∈ s.nodes.map Node.id ∧ p.2.1 ∈ s.nodes.map Node.id))

/-- The entries of `adj[i]`, before equal neighbours are added up. -/
def contributions (es : List (String × String × ℚ)) (i : String) : List (String × ℚ) :=
  es.flatMap (fun e => (if e.1 = i then [(e.2.1, e.2.2)] else []) ++ (if e.2.1 = i then [(e.1, e.2.2)] else []))

/-- `commWeights`, graph_algorithms.go:208-211. -/
def labelWeights (es : List (String × String × ℚ)) (lab : String → String) (i : String) : List (String × ℚ) :=
  ((contributions es i).map (fun c => lab c.1)).dedup.map (fun l =>
    (l, (((contributions es i).filter (fun c => decide (lab c.1 = l))).map Prod.snd).sum))

/-- The choice of the best label, graph_algorithms.go:214-222, in the order the map is visited. -/
def bestLabel (cur : String) (ws : List (String × ℚ)) : String × ℚ :=
  ws.foldl (fun b w => if w.1 ≠ cur ∧ w.2 > b.2 then w else b) (cur, 0)

/-- One pass over the nodes, graph_algorithms.go:202-228; `ord` is the order in which the map is visited. -/
def sweepLabels (ord : String → List (String × ℚ) → List (String × ℚ)) (es : List (String × String × ℚ)) :
    List String → (String → String) × Bool → (String → String) × Bool
  | [], x => x
  | i :: is, x =>
    let b := (bestLabel (x.1 i) (ord i (labelWeights es x.1 i))).1
    sweepLabels ord es is (if b ≠ x.1 i then ((fun j => if j = i then b else x.1 j), true) else x)

/-- The passes, graph_algorithms.go:194-229. -/
def labelLoop (ord : Nat → String → List (String × ℚ) → List (String × ℚ)) (es : List (String × String × ℚ)) (ids : List String) :
    Nat → (String → String) → (String → String)
  | 0, lab => lab
  | n + 1, lab =>
    let r := sweepLabels (ord n) es ids (lab, false)
    if r.2 then labelLoop ord es ids n r.1 else r.1

/-- `Community`, graph_algorithms.go:128-132. -/
structure Community where
  id : Nat
  nodes : List String
  score : ℚ
  deriving DecidableEq, Repr

/-- `CommunityDetection`, graph_algorithms.go:136-255; `groups` is the order in which the groups are visited. -/
def communities (ord : Nat → String → List (String × ℚ) → List (String × ℚ)) (groups : List String → List String)
    (sort : List Community → List Community) (s : State) : List Community :=
  let ids := s.nodes.map Node.id
  if ids = [] then []
  else
    let lab := labelLoop ord (weighted s) ids 100 id
    sort ((groups (ids.map lab).dedup).mapIdx (fun k l =>
      { id := k, nodes := ids.filter (fun i => decide (lab i = l)),
        score := ((ids.filter (fun i => decide (lab i = l))).length : ℚ) / ids.length }))

/-! ### Edge prediction -/

/-- `EdgePrediction`, graph_algorithms.go:258-263. -/
structure Prediction where
  src : String
  dst : String
  score : ℚ
  combined : Bool
  deriving DecidableEq, Repr

/-- The score of one candidate, graph_algorithms.go:321-340: `sim` is the store's similarity function. -/
def predictionFor (sim : List ℚ → List ℚ → ℚ) (s : State) (n m : Node) : Prediction :=
  let mine := (adjBoth s n.id).dedup
  let common := (mine.filter (fun x => decide (x ∈ adjBoth s m.id))).length
  if common > 0 then ⟨n.id, m.id, (sim n.vec m.vec + (common : ℚ) / ((mine.length : ℚ) + 1)) / 2, true⟩
  else ⟨n.id, m.id, sim n.vec m.vec, false⟩

/-- `PredictEdges`, graph_algorithms.go:266-361; `none` is the error for an unknown node. -/
def predictEdges (sim : List ℚ → List ℚ → ℚ) (sort : List Prediction → List Prediction) (s : State) (id : String) (topK : Int) :
    Option (List Prediction) :=
  match getNode s id with
  | none => none
  | some n =>
    let cands := s.nodes.filter (fun m => decide (¬ (m.id = id ∨ m.id ∈ adjBoth s id)))
    let ps := (cands.map (predictionFor sim s n)).filter (fun p => decide (p.score > 1 / 2))
    some ((sort ps).take (if topK ≤ 0 then 10 else topK.toNat))

end Verif.Graph
