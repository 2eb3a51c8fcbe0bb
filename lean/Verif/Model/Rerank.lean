import Verif.Model.Search

/-!
# Rerankers

`/repo/pkg/core/reranker.go`.  Scores are exact rationals (so a division by zero gives 0, not an infinity).  `sort.Slice`
is a parameter; text functions of the standard library are parameters.
-/

namespace Verif.Rerank

open Verif.Model.Store Verif.Model.Search Verif.Base

variable {W HI VI : Type}

/-- `strings.ToLower`, `strings.Fields`, `strings.Contains`. -/
structure Txt where
  lower : String → String
  fields : String → List String
  contains : String → String → Bool

/-- A reranker: fails (`error`), panics (`none` inside) or gives a list. -/
inductive Res (α : Type) where
  | ok (a : α)
  | failed
  | panic
  deriving DecidableEq, Repr

abbrev Reranker (W : Type) := String → List (Hit W) → Res (List (Hit W))

/-- Smallest and largest score (/repo/pkg/core/reranker.go:128-137). -/
def bounds : List (Hit W) → ℚ → ℚ → ℚ × ℚ
  | [], lo, hi => (lo, hi)
  | r :: rs, lo, hi => bounds rs (if r.score < lo then r.score else lo) (if r.score > hi then r.score else hi)

/-- `ScoreNormalizationReranker.Rerank` (/repo/pkg/core/reranker.go:122-160). -/
def normalize (sort : List (Hit W) → List (Hit W)) (min max : ℚ) : Reranker W := fun _ results =>
  match results with
  | [] => .ok []
  | r0 :: rs =>
    let b := bounds (r0 :: rs) r0.score r0.score
    let range := if b.2 - b.1 = 0 then 1 else b.2 - b.1
    .ok (sort ((r0 :: rs).map fun r => { r with score := (r.score - b.1) / range * (max - min) + min }))

/-- Number of keywords found (/repo/pkg/core/reranker.go:196-202). -/
def matchCount (t : Txt) (cs : Bool) (query content : String) : Nat :=
  let q := if cs then query else t.lower query
  let c := if cs then content else t.lower content
  ((t.fields q).filter fun kw => t.contains c kw).length

/-- `KeywordMatchReranker.Rerank` (/repo/pkg/core/reranker.go:179-218). -/
def keyword (t : Txt) (sort : List (Hit W) → List (Hit W)) (boost : ℚ) (cs : Bool) : Reranker W := fun query results =>
  .ok (sort (results.map fun r =>
    let n := matchCount t cs query r.content
    if n > 0 then { r with score := r.score * (1 + n * boost) } else r))

/-- Word overlap (/repo/pkg/core/reranker.go:249-270). -/
def overlap (t : Txt) (query content : String) : ℚ :=
  let qs := t.fields (t.lower query)
  let cs := t.fields (t.lower content)
  if qs.length > 0 then ((qs.filter fun q => q ∈ cs).length : ℚ) / qs.length else 0

/-- Position in the list sorted by text score, from 1; the number of results if it is not found
(/repo/pkg/core/reranker.go:277-299). -/
def textRank (sorted : List (Nat × ℚ)) (n i : Nat) : Nat :=
  match sorted.findIdx? (fun x => x.1 = i) with
  | some j => j + 1
  | none => n

/-- `ReciprocalRankFusionReranker.Rerank` (/repo/pkg/core/reranker.go:240-313); `sortText` is the inner `sort.Slice`. -/
def rrf (t : Txt) (sort : List (Hit W) → List (Hit W)) (sortText : List (Nat × ℚ) → List (Nat × ℚ)) (k vw tw : ℚ) : Reranker W :=
  fun query results =>
    if results.length = 0 then .ok results
    else
      let text := (results.mapIdx fun j r => (j, overlap t query r.content))
      .ok (sort (results.mapIdx fun i r =>
        { r with score := vw / (k + (i + 1 : Nat)) + tw / (k + (textRank (sortText text) results.length i : Nat)) }))

/-- Largest similarity to the selected ones, at least 0 (/repo/pkg/core/reranker.go:357-363, advanced_search.go:402-408). -/
def maxSim (sim : List W → List W → ℚ) (v : List W) (selected : List (Hit W)) : ℚ :=
  selected.foldl (fun m s => if sim v s.vector > m then sim v s.vector else m) 0

/-- The index with the highest value; the first of them, and `best` before anything exceeds `init`
(/repo/pkg/core/reranker.go:350-372). -/
def argmax {α : Type} (f : α → ℚ) : List α → Nat → ℚ → Nat → Nat
  | [], _, _, best => best
  | x :: xs, i, init, best => if f x > init then argmax f xs (i + 1) (f x) i else argmax f xs (i + 1) init best

/-- The loop of `DiversityReranker.Rerank` (/repo/pkg/core/reranker.go:347-379); the fuel is the number of remaining ones. -/
def mmrLoop (sim : List W → List W → ℚ) (lambda : ℚ) (q : List W) : Nat → List (Hit W) → List (Hit W) → List (Hit W)
  | 0, selected, _ => selected
  | fuel + 1, selected, remaining =>
    match remaining with
    | [] => selected
    | _ =>
      let best := argmax (fun h : Hit W => lambda * sim q h.vector - (1 - lambda) * maxSim sim h.vector selected) remaining 0 (-1) 0
      match remaining[best]? with
      | none => selected
      | some x => mmrLoop sim lambda q fuel (selected ++ [x]) (remaining.eraseIdx best)

/-- `DiversityReranker.Rerank` (/repo/pkg/core/reranker.go:330-380). -/
def diversity (sim : List W → List W → ℚ) (lambda : ℚ) : Reranker W := fun _ results =>
  match results with
  | [] => .ok []
  | [r] => .ok [r]
  | r :: rs => .ok (mmrLoop sim lambda r.vector (rs.length + 1) [] (r :: rs))

/-- `CustomReranker.Rerank` (/repo/pkg/core/reranker.go:396-412). -/
def custom (sort : List (Hit W) → List (Hit W)) (f : Option (String → Hit W → ℚ)) : Reranker W := fun query results =>
  .ok (sort (results.map fun r => match f with
    | some g => { r with score := g query r }
    | none => r))

/-- `scores[k] = v` in a slice; `none` is the panic of an index out of range. -/
def setAt (scores : List ℚ) (k : Nat) (v : ℚ) : Option (List ℚ) :=
  if k < scores.length then some (scores.set k v) else none

/-- Scores of one reranker by the position of the original (/repo/pkg/core/reranker.go:444-454). -/
def scatter (results : List (Hit W)) : List (Hit W) → List ℚ → Option (List ℚ)
  | [], scores => some scores
  | r :: rs, scores =>
    match results.findIdx? (fun o => o.id = r.id) with
    | none => scatter results rs scores
    | some k => match setAt scores k r.score with
      | none => none
      | some scores => scatter results rs scores

/-- The first loop (/repo/pkg/core/reranker.go:437-456). -/
def collect (query : String) (results : List (Hit W)) : List (Reranker W) → Res (List (List ℚ))
  | [] => .ok []
  | rr :: rrs => match rr query results with
    | .failed => .failed
    | .panic => .panic
    | .ok reranked => match scatter results reranked (List.replicate reranked.length 0) with
      | none => .panic
      | some scores => match collect query results rrs with
        | .ok rest => .ok (scores :: rest)
        | .failed => .failed
        | .panic => .panic

/-- The weighted sum and the weight of position `i` over the rerankers that have a weight
(/repo/pkg/core/reranker.go:463-471); `none` is an index out of range. -/
def weigh (i : Nat) : List (List ℚ) → List ℚ → Option (ℚ × ℚ)
  | s :: ss, w :: ws => match s[i]?, weigh i ss ws with
    | some x, some (c, t) => some (x * w + c, w + t)
    | _, _ => none
  | _, _ => some (0, 0)

/-- The second loop (/repo/pkg/core/reranker.go:462-475). -/
def combineAll (scores : List (List ℚ)) (weights : List ℚ) : Nat → List (Hit W) → Option (List (Hit W))
  | _, [] => some []
  | i, r :: rs => match weigh i scores weights, combineAll scores weights (i + 1) rs with
    | some (c, t), some rest => some ((if t > 0 then { r with score := c / t } else r) :: rest)
    | _, _ => none

/-- `HybridReranker.Rerank` (/repo/pkg/core/reranker.go:431-483). -/
def hybrid (sort : List (Hit W) → List (Hit W)) (rerankers : List (Reranker W)) (weights : List ℚ) : Reranker W := fun query results =>
  if rerankers.length = 0 then .ok results
  else match collect query results rerankers with
    | .failed => .failed
    | .panic => .panic
    | .ok scores => match combineAll scores weights 0 results with
      | none => .panic
      | some out => .ok (sort out)

/-- `RerankOptions` (/repo/pkg/core/reranker.go:28-36). -/
structure RerankOpts where
  topK : Int := 10
  threshold : ℚ := 0
  preserve : Bool := false

/-- What `SearchWithReranker` may say. -/
inductive Failure where
  | search (e : Err)
  | rerank
  | panic
  deriving DecidableEq

/-- `SearchWithReranker` (/repo/pkg/core/reranker.go:48-103). -/
def searchWithReranker (c : Cfg W) (via : Serve W) (s : St W HI VI) (query : List W) (text : String) (rr : Option (Reranker W))
    (o : RerankOpts) : Except Failure (List (Hit W)) :=
  if s.closed then .error (.search .closed)
  else match rr with
    | none => match search c via s query { topK := o.topK } with
      | .error e => .error (.search e)
      | .ok hs => .ok hs
    | some rr =>
      let initial := if o.topK * 5 < 50 then 50 else o.topK * 5
      match search c via s query { topK := initial } with
      | .error e => .error (.search e)
      | .ok hs =>
        if hs.length = 0 then .ok hs
        else match rr text hs with
          | .failed => .error .rerank
          | .panic => .error .panic
          | .ok out =>
            let kept := if o.threshold > 0 then out.filter (fun h => h.score ≥ o.threshold) else out
            .ok (if o.topK > 0 ∧ (kept.length : Int) > o.topK then kept.take o.topK.toNat else kept)

end Verif.Rerank
