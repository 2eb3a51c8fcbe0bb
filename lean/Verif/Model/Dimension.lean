import Verif.Base.Sort
import Mathlib.Analysis.Real.Sqrt

/-!
Model of `/repo/pkg/core/dimension.go`: adapting a vector to the store's dimension.
Components are real numbers (float32 rounding is not modelled). Dimensions are naturals: callers only pass
`len(...)` and a positive `VectorDim` (/repo/pkg/core/store_crud.go:31-52, store_search.go:27-38).
-/
namespace Verif.Model.Dimension
open Verif.Base

/-- `AdaptPolicy` (/repo/pkg/core/embedding.go). `other` stands for any unknown value. -/
inductive Policy where
  | strict | smart | truncate | pad | warn | other
  deriving DecidableEq, Repr

/-- Errors of `AdaptVector` (/repo/pkg/core/dimension.go:32, 41, 49, 51). -/
inductive Err where
  | lengthMismatch | dimensionMismatch | unknownPolicy
  deriving DecidableEq, Repr

/-- Sum of squares, the loop of /repo/pkg/core/dimension.go:163-166. -/
def sumSquares (v : List ℝ) : ℝ := (v.map (fun x => x * x)).sum

/-- `normalizeVector` (/repo/pkg/core/dimension.go:162-179). -/
noncomputable def normalizeVector (v : List ℝ) : List ℝ :=
  if sumSquares v = 0 then v else v.map (fun x => x / Real.sqrt (sumSquares v))

/-- `truncateVector` (/repo/pkg/core/dimension.go:67-78). -/
noncomputable def truncateVector (v : List ℝ) (target : Nat) : List ℝ :=
  if target ≥ v.length then normalizeVector (v ++ List.replicate (target - v.length) 0)
  else normalizeVector (v.take target)

/-- `truncateWithImportance` (/repo/pkg/core/dimension.go:81-126): pair with index, exchange sort by magnitude, keep
the first `target`, exchange sort by index, normalise. -/
noncomputable def truncateWithImportance (v : List ℝ) (target : Nat) : List ℝ :=
  if target ≥ v.length then v
  else
    let dims := v.zipIdx
    let byMagnitude := exchangeSort (fun a b => decide (|b.1| < |a.1|)) dims
    let selected := exchangeSort (fun a b => decide (a.2 < b.2)) (byMagnitude.take target)
    normalizeVector (selected.map Prod.fst)

/-- `padVector` (/repo/pkg/core/dimension.go:129-138). -/
noncomputable def padVector (v : List ℝ) (target : Nat) : List ℝ :=
  if target ≤ v.length then normalizeVector (v.take target)
  else normalizeVector (v ++ List.replicate (target - v.length) 0)

/-- `padWithNoise` (/repo/pkg/core/dimension.go:141-159). `noise i` is the product of the i-th random draw and the
noise level (lines 150-156); it is an arbitrary sequence. -/
noncomputable def padWithNoise (noise : Nat → ℝ) (v : List ℝ) (target : Nat) : List ℝ :=
  if target ≤ v.length then v.take target
  else normalizeVector (v ++ (List.range (target - v.length)).map noise)

/-- `smartAdapt` (/repo/pkg/core/dimension.go:56-64). -/
noncomputable def smartAdapt (noise : Nat → ℝ) (v : List ℝ) (source target : Nat) : List ℝ :=
  if source > target then truncateWithImportance v target else padWithNoise noise v target

/-- `AdaptVector` (/repo/pkg/core/dimension.go:30-53). -/
noncomputable def adaptVector (policy : Policy) (noise : Nat → ℝ) (v : List ℝ) (source target : Nat) :
    Except Err (List ℝ) :=
  if v.length ≠ source then .error .lengthMismatch
  else if source = target then .ok v
  else
    match policy with
    | .strict => .error .dimensionMismatch
    | .smart => .ok (smartAdapt noise v source target)
    | .truncate => .ok (truncateVector v target)
    | .pad => .ok (padVector v target)
    | .warn => .error .dimensionMismatch
    | .other => .error .unknownPolicy

end Verif.Model.Dimension
