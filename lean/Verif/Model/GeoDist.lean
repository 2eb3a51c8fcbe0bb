import Verif.Model.Geo
import Mathlib.Analysis.SpecialFunctions.Complex.Arg

/-!
Model of the distance of the geographic index, /repo/pkg/geo/geospatial.go:331-343, over the reals (no rounding).
-/
namespace Verif.Geo

open Real

/-- `math.Atan2(y, x)`. -/
noncomputable def atan2 (y x : ℝ) : ℝ := Complex.arg ⟨x, y⟩

/-- The variable `a` of `haversineDistance`, geospatial.go:332-339. -/
noncomputable def havA (p q : Coord) : ℝ :=
  let lat1 := (p.lat : ℝ) * π / 180
  let lat2 := (q.lat : ℝ) * π / 180
  let dLat := ((q.lat : ℝ) - p.lat) * π / 180
  let dLng := ((q.lng : ℝ) - p.lng) * π / 180
  sin (dLat / 2) * sin (dLat / 2) + cos lat1 * cos lat2 * sin (dLng / 2) * sin (dLng / 2)

/-- `haversineDistance`, geospatial.go:331-343. -/
noncomputable def haversine (p q : Coord) : ℝ := 6371 * (2 * atan2 (√(havA p q)) (√(1 - havA p q)))

/-- The parameters of the index without rounding. -/
noncomputable def cfgR : Cfg ℝ := ⟨cell0, span0, haversine⟩

end Verif.Geo
