import Verif.Model.Rerank

/-!
# Diverse results, negative examples, recommendations and anomalies

`/repo/pkg/core/advanced_search.go:231-650`.  As in `Verif.Model.Search`, scores are exact rationals and the similarity
function, the sorting and the square root are parameters.
-/

namespace Verif.Diversity

open Verif.Model.Store Verif.Model.Search Verif.Rerank

variable {W HI VI : Type}

/-- Index and value of the first greatest value, starting from `b` (/repo/pkg/core/advanced_search.go:395-418).  The start value
`-math.MaxFloat32` is below every value: `none`. -/
def firstBest {α : Type} (f : α → ℚ) : List α → Nat → Option (Nat × ℚ) → Option (Nat × ℚ)
  | [], _, b => b
  | x :: l, i, none => firstBest f l (i + 1) (some (i, f x))
  | x :: l, i, some (j, v) => firstBest f l (i + 1) (if f x > v then some (i, f x) else some (j, v))

/-- The loop of `diversifyMMR` (/repo/pkg/core/advanced_search.go:394-427). -/
def mmrFill (sim : List W → List W → ℚ) (lambda : ℚ) (topK : Int) : Nat → List (Hit W) → List (Hit W) → List (Hit W)
  | 0, selected, _ => selected
  | fuel + 1, selected, remaining =>
    if (selected.length : Int) < topK ∧ remaining.length > 0 then
      match firstBest (fun h : Hit W => lambda * h.score - (1 - lambda) * maxSim sim h.vector selected) remaining 0 none with
      | none => selected
      | some (b, _) => match remaining[b]? with
        | none => selected
        | some x => mmrFill sim lambda topK fuel (selected ++ [x]) (remaining.eraseIdx b)
    else selected

/-- `diversifyMMR` (/repo/pkg/core/advanced_search.go:375-430). -/
def diversifyMMR (sim : List W → List W → ℚ) (lambda : ℚ) (topK : Int) : List (Hit W) → List (Hit W)
  | [] => []
  | first :: rest => mmrFill sim (if lambda = 0 then 1 / 2 else lambda) topK rest.length [first] rest

/-- The loop of `diversifyDistance` (/repo/pkg/core/advanced_search.go:444-461). -/
def distanceFill (sim : List W → List W → ℚ) (minDist : ℚ) (topK : Int) : List (Hit W) → List (Hit W) → List (Hit W)
  | [], selected => selected
  | c :: cs, selected =>
    if selected.any (fun s => 1 - sim c.vector s.vector < minDist) then distanceFill sim minDist topK cs selected
    else if ((selected ++ [c]).length : Int) ≥ topK then selected ++ [c]
    else distanceFill sim minDist topK cs (selected ++ [c])

/-- `diversifyDistance` (/repo/pkg/core/advanced_search.go:433-464). -/
def diversifyDistance (sim : List W → List W → ℚ) (minDist : ℚ) (topK : Int) (cands : List (Hit W)) : List (Hit W) :=
  distanceFill sim (if minDist = 0 then 1 / 10 else minDist) topK cands []

/-- `diversifyRandom` (/repo/pkg/core/advanced_search.go:467-493); `perm` is `rand.Perm`, `none` a panic (a negative slice
bound). -/
def diversifyRandom (perm : Nat → List Nat) (sort : List (Hit W) → List (Hit W)) (topK : Int) (cands : List (Hit W)) :
    Option (List (Hit W)) :=
  if (cands.length : Int) ≤ topK then some cands
  else
    let poolSize := if topK * 2 > cands.length then (cands.length : Int) else topK * 2
    if poolSize < 0 then none
    else
      let pool := cands.take poolSize.toNat
      some (sort (((perm pool.length).take topK.toNat).filterMap fun i => pool[i]?))

/-- The kernel matrix of `diversifyDPP` (/repo/pkg/core/advanced_search.go:507-520).  `root` is the square root; of a negative
number it is NaN in Go and any number here: such an entry belongs to a candidate of negative score and a chosen one of
positive score, and either way the former is not chosen. -/
def kernel (sim : List W → List W → ℚ) (root : ℚ → ℚ) (cands : List (Hit W)) (i j : Nat) : ℚ :=
  match cands[i]?, cands[j]? with
  | some a, some b => if i = j then a.score else sim a.vector b.vector * root (a.score * b.score)
  | _, _ => 0

/-- Marginal gain (/repo/pkg/core/advanced_search.go:536-539). -/
def gain (k : Nat → Nat → ℚ) (chosen : List Nat) (i : Nat) : ℚ :=
  k i i - (chosen.map fun j => k i j * k i j / k j j).sum

/-- The search for the best gain (/repo/pkg/core/advanced_search.go:527-545). -/
def dppScan (k : Nat → Nat → ℚ) (chosen : List Nat) : List Nat → Option Nat → ℚ → Option Nat
  | [], b, _ => b
  | i :: is, b, g =>
    if i ∈ chosen then dppScan k chosen is b g
    else if gain k chosen i > g then dppScan k chosen is (some i) (gain k chosen i)
    else dppScan k chosen is b g

/-- The loop of `diversifyDPP` (/repo/pkg/core/advanced_search.go:526-553). -/
def dppFill (k : Nat → Nat → ℚ) (n : Nat) (topK : Int) : Nat → List Nat → List Nat
  | 0, chosen => chosen
  | fuel + 1, chosen =>
    if (chosen.length : Int) < topK ∧ chosen.length < n then
      match dppScan k chosen (List.range n) none 0 with
      | none => chosen
      | some i => dppFill k n topK fuel (chosen ++ [i])
    else chosen

/-- `diversifyDPP` (/repo/pkg/core/advanced_search.go:496-556). -/
def diversifyDPP (sim : List W → List W → ℚ) (root : ℚ → ℚ) (topK : Int) (cands : List (Hit W)) : List (Hit W) :=
  if (cands.length : Int) ≤ topK then cands
  else
    let n := if cands.length > 100 then 100 else cands.length
    (dppFill (kernel sim root cands) n topK n []).filterMap fun i => cands[i]?

/-- `DiversityMethod`; any other text means MMR (/repo/pkg/core/advanced_search.go:262-276, 360-371). -/
inductive Method where
  | mmr
  | dpp
  | distance
  | random
  deriving DecidableEq

/-- `DiversitySearchOptions` (/repo/pkg/core/advanced_search.go:247-259). -/
structure DivOpts where
  lambda : ℚ := 0
  method : Method := .mmr
  minDistance : ℚ := 0
  base : Opts := {}

/-- `SearchWithDiversity` (/repo/pkg/core/advanced_search.go:342-372). -/
def searchWithDiversity (c : Cfg W) (via : Serve W) (root : ℚ → ℚ) (perm : Nat → List Nat) (s : St W HI VI) (query : List W)
    (o : DivOpts) : Except Failure (List (Hit W)) :=
  if s.closed then .error (.search .closed)
  else match search c via s query { o.base with topK := o.base.topK * 3 } with
    | .error e => .error (.search e)
    | .ok cands => match o.method with
      | .mmr => .ok (diversifyMMR c.sim o.lambda o.base.topK cands)
      | .distance => .ok (diversifyDistance c.sim o.minDistance o.base.topK cands)
      | .dpp => .ok (diversifyDPP c.sim root o.base.topK cands)
      | .random => match diversifyRandom perm c.sort o.base.topK cands with
        | none => .error .panic
        | some out => .ok out

/-- The greatest similarity, at least 0 (/repo/pkg/core/advanced_search.go:295-306 and 308-316). -/
def atLeastZero (sim : List W → List W → ℚ) (vs : List (List W)) (v : List W) : ℚ :=
  vs.foldl (fun m x => if sim x v > m then sim x v else m) 0

/-- `SearchWithNegatives` (/repo/pkg/core/advanced_search.go:279-339). -/
def searchWithNegatives (c : Cfg W) (s : St W HI VI) (pos neg : List (List W)) (weight : ℚ) (o : Opts) : Except Err (List (Hit W)) :=
  if s.closed then .error .closed
  else
    let w := if weight = 0 then 1 / 2 else weight
    let scored := (fetchCandidates s.db o).map fun h =>
      { h with score := atLeastZero c.sim pos h.vector - w * atLeastZero c.sim neg h.vector }
    let sorted := c.sort scored
    .ok (if o.topK > 0 ∧ (sorted.length : Int) > o.topK then sorted.take o.topK.toNat else sorted)

/-- The vectors of the examples that exist (/repo/pkg/core/advanced_search.go:561-575). -/
def exampleVectors (s : St W HI VI) (ids : List String) : List (List W) :=
  ids.filterMap fun id => match getByID s id with
    | .ok r => some r.vector
    | .error _ => none

/-- `RecommendSimilar` (/repo/pkg/core/advanced_search.go:559-584). -/
def recommendSimilar (c : Cfg W) (s : St W HI VI) (pos neg : List String) (o : Opts) : Except Err (List (Hit W)) :=
  searchWithNegatives c s (exampleVectors s pos) (exampleVectors s neg) (1 / 2) o

/-- The mean of the five smallest distances to the others (/repo/pkg/core/advanced_search.go:605-637); `sortAsc` is `sort.Slice`
on numbers. -/
def anomaly (sim : List W → List W → ℚ) (sortAsc : List ℚ → List ℚ) (h : Hit W) (others : List (Hit W)) : ℚ :=
  let distances := sortAsc (others.map fun o => 1 - sim h.vector o.vector)
  let limit := if 5 > distances.length then distances.length else 5
  if limit > 0 then (distances.take limit).sum / limit else 0

/-- `FindAnomalies` (/repo/pkg/core/advanced_search.go:587-650). -/
def findAnomalies (c : Cfg W) (sortAsc : List ℚ → List ℚ) (s : St W HI VI) (o : Opts) : Except Err (List (Hit W)) :=
  if s.closed then .error .closed
  else
    let cands := fetchCandidates s.db o
    let scored := cands.mapIdx fun i h => { h with score := anomaly c.sim sortAsc h (cands.eraseIdx i) }
    let sorted := c.sort scored
    .ok (if o.topK > 0 ∧ (sorted.length : Int) > o.topK then sorted.take o.topK.toNat else sorted)

end Verif.Diversity
