import Mathlib.Algebra.Order.Field.Rat

/-!
Model of `AnalyzeDimensions`, /repo/pkg/core/dimension.go:233-271.

Simplifications: a vector is its length; the ratio compared with 0.8 is a rational. `order` is the order in which Go happens to
walk the map of counts: any arrangement of its keys.
-/
namespace Verif.DimStats

/-- `DimensionAnalysis`, dimension.go:11-17. -/
structure Analysis where
  primary : Nat
  primaryCount : Nat
  dims : List (Nat × Nat)
  total : Nat
  migrate : Bool
  deriving DecidableEq, Repr

/-- `dimensions[dim]++`, dimension.go:246-249. -/
def bump : List (Nat × Nat) → Nat → List (Nat × Nat)
  | [], d => [(d, 1)]
  | (k, n) :: m, d => if k = d then (k, n + 1) :: m else (k, n) :: bump m d

/-- One round of the loop for the primary dimension, dimension.go:254-259. -/
def better (m : List (Nat × Nat)) (best : Nat × Nat) (d : Nat) : Nat × Nat :=
  let n := (m.lookup d).getD 0
  if n > best.2 then (d, n) else best

/-- `AnalyzeDimensions`, dimension.go:234-271, on the lengths of the vectors. -/
def analyze (order : List (Nat × Nat) → List Nat) (lens : List Nat) : Analysis :=
  if lens.length = 0 then ⟨0, 0, [], 0, false⟩
  else
    let m := lens.foldl bump []
    let best := (order m).foldl (better m) (0, 0)
    ⟨best.1, best.2, m, lens.length, decide ((best.2 : ℚ) / (lens.length : ℚ) < 4 / 5) && decide (m.length > 1)⟩

end Verif.DimStats
