import Verif.Base.Sort
import Mathlib.Algebra.Order.Field.Rat
import Mathlib.Tactic.Linarith
import Mathlib.Tactic.FieldSimp
import Mathlib.Tactic.Positivity

/-!
Lexical search scores: `SearchTextOnly` and `ftsSearch` (/repo/pkg/cortexdb/cortexdb.go:414-507) and
`searchTextCandidates` (/repo/pkg/cortexdb/graphrag_tools.go:788-850). Scores are rationals (no rounding).
-/
namespace Verif.Lexical
open Verif.Base

/-- Score of a hit at position `pos` (from 0) of the full-text answer when `HybridSearch` gets no vector,
/repo/pkg/core/advanced_search.go:108-175 with the default `k = 60`. -/
def rrf (pos : Nat) : ℚ := 1 / (60 + ((pos : ℚ) + 1))

/-- `SearchTextOnly`, cortexdb.go:414-442: `HybridSearch` without a vector never fails on the full-text part, so its
answer is used. `ranked` are the ids in the order of the full-text rank (best first, no id twice). The answer is cut to
`topK` (default 10). The collection and threshold options are handed to the vector part only, which does not run. -/
def textOnly {I : Type*} (ranked : List I) (topK : Int) : List (I × ℚ) :=
  let k := if topK ≤ 0 then 10 else topK.toNat
  ((ranked.take (3 * k)).zipIdx.map (fun p => (p.1, rrf p.2))).take k

/-- The normalised score of `ftsSearch`, cortexdb.go:484: `1.0 / (1.0 + (-score))`; SQLite's `bm25()` is negative,
more negative for better matches. -/
def ftsScore (bm25 : ℚ) : ℚ := 1 / (1 + -bm25)

/-- `ftsSearch`, cortexdb.go:445-507: rows in the order of `bm25` (ascending: best first), threshold on the score. -/
def ftsSearch {I : Type*} (rows : List (I × ℚ)) (threshold : ℚ) (topK : Nat) : List (I × ℚ) :=
  ((rows.take topK).map (fun r => (r.1, ftsScore r.2))).filter
    (fun r => !(decide (threshold > 0) && decide (r.2 < threshold)))

/-- Weight of the query number `idx`, graphrag_tools.go:814-817. -/
def weight (idx : Nat) : ℚ := if 1 - (idx : ℚ) * (1 / 20) < 4 / 5 then 4 / 5 else 1 - (idx : ℚ) * (1 / 20)

/-- `merged[result.ID] = result` if new or better, graphrag_tools.go:818-823. -/
def merge {I : Type*} [DecidableEq I] (m : List (I × ℚ)) (r : I × ℚ) : List (I × ℚ) :=
  if m.any (fun x => decide (x.1 = r.1)) then
    m.map (fun x => if x.1 = r.1 ∧ r.2 > x.2 then r else x)
  else m ++ [r]

/-- The loop over the queries, graphrag_tools.go:801-828. `answers` are the results of `SearchTextOnly` for the queries
in order (`none`: an error). -/
def loop {I : Type*} [DecidableEq I] (topK : Int) : Nat → List (Option (List (I × ℚ))) → List (I × ℚ) → List (I × ℚ)
  | _, [], m => m
  | idx, none :: qs, m => loop topK (idx + 1) qs m
  | idx, some rs :: qs, m =>
    if rs = [] then loop topK (idx + 1) qs m
    else
      let m' := (rs.map (fun r => (r.1, r.2 * weight idx))).foldl merge m
      if idx = 0 ∧ (m'.length : Int) ≥ topK then m' else loop topK (idx + 1) qs m'

/-- The outcome of `searchTextCandidates`. -/
inductive Out (I : Type*) where
  | ok (rs : List (I × ℚ))
  | panic
  deriving DecidableEq

/-- Sorting and cutting, graphrag_tools.go:830-849; a negative `TopK` slices out of range. `sort` is `sort.Slice`. -/
def candidates {I : Type*} [DecidableEq I] (sort : List (I × ℚ) → List (I × ℚ)) (topK : Int)
    (answers : List (Option (List (I × ℚ)))) : Out I :=
  let merged := loop topK 0 answers []
  if merged = [] then .ok []
  else
    let ordered := sort merged
    if (ordered.length : Int) > topK then
      if topK < 0 then .panic else .ok (ordered.take topK.toNat)
    else .ok ordered

end Verif.Lexical
