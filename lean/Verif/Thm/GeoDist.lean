import Verif.Model.GeoDist
import Mathlib.Geometry.Euclidean.Angle.Unoriented.TriangleInequality
import Mathlib.Analysis.InnerProductSpace.PiL2
import Mathlib.Tactic.FieldSimp
import Mathlib.Tactic.Linarith
import Mathlib.Tactic.Ring
import Mathlib.Analysis.Real.Pi.Bounds

/-!
C98: the distance of the geographic index is the great-circle distance on a sphere of radius 6371 km.
-/
namespace Verif.Geo

open Real InnerProductGeometry

/-- Specification: the point of the unit sphere with the given latitude and longitude in degrees. -/
noncomputable def onSphere (p : Coord) : EuclideanSpace ℝ (Fin 3) :=
  !₂[cos (p.lat * π / 180) * cos (p.lng * π / 180), cos (p.lat * π / 180) * sin (p.lng * π / 180), sin (p.lat * π / 180)]

theorem inner_onSphere (p q : Coord) : inner ℝ (onSphere p) (onSphere q) = 1 - 2 * havA p q := by
  have h1 : inner ℝ (onSphere p) (onSphere q) =
      cos (p.lat * π / 180) * cos (q.lat * π / 180) * (cos (p.lng * π / 180) * cos (q.lng * π / 180) +
        sin (p.lng * π / 180) * sin (q.lng * π / 180)) + sin (p.lat * π / 180) * sin (q.lat * π / 180) := by
    simp only [onSphere, PiLp.inner_apply, Fin.sum_univ_three]
    simp
    ring
  rw [h1]
  unfold havA
  simp only
  set a := (p.lat : ℝ) * π / 180 with ha
  set b := (q.lat : ℝ) * π / 180 with hb
  set c := (p.lng : ℝ) * π / 180 with hc
  set d := (q.lng : ℝ) * π / 180 with hd
  have e1 : ((q.lat : ℝ) - p.lat) * π / 180 = b - a := by rw [ha, hb]; ring
  have e2 : ((q.lng : ℝ) - p.lng) * π / 180 = d - c := by rw [hc, hd]; ring
  rw [e1, e2]
  have s1 : ∀ x : ℝ, sin (x / 2) * sin (x / 2) = (1 - cos x) / 2 := by
    intro x
    have h : cos x = 2 * cos (x / 2) ^ 2 - 1 := by
      rw [← cos_two_mul]; congr 1; ring
    have h2 := sin_sq_add_cos_sq (x / 2)
    nlinarith
  have s2 : cos a * cos b * sin ((d - c) / 2) * sin ((d - c) / 2) = cos a * cos b * ((1 - cos (d - c)) / 2) := by
    rw [← s1]; ring
  rw [s1, s2, cos_sub, cos_sub]
  ring

theorem norm_onSphere (p : Coord) : ‖onSphere p‖ = 1 := by
  have h : inner ℝ (onSphere p) (onSphere p) = 1 := by
    rw [inner_onSphere]
    simp [havA]
  have h2 := real_inner_self_eq_norm_sq (onSphere p)
  rw [h] at h2
  have := norm_nonneg (onSphere p)
  nlinarith

theorem havA_range (p q : Coord) : 0 ≤ havA p q ∧ havA p q ≤ 1 := by
  have h := abs_real_inner_le_norm (onSphere p) (onSphere q)
  rw [norm_onSphere, norm_onSphere, inner_onSphere] at h
  have := abs_le.1 h
  constructor <;> linarith [this.1, this.2]

theorem haversine_arcsin (p q : Coord) : haversine p q = 6371 * (2 * arcsin (√(havA p q))) := by
  obtain ⟨h0, h1⟩ := havA_range p q
  unfold haversine atan2
  rw [Complex.arg_of_re_nonneg (by simp)]
  have hn : ‖(⟨√(1 - havA p q), √(havA p q)⟩ : ℂ)‖ = 1 := by
    rw [Complex.norm_def, Complex.normSq_mk, mul_self_sqrt (by linarith), mul_self_sqrt h0]
    simp
  rw [hn]
  simp

/-- C98: the computed distance is 6371 km times the angle between the two points on the sphere; the argument of the square
root is never negative. -/
theorem C98_great_circle (p q : Coord) : haversine p q = 6371 * angle (onSphere p) (onSphere q) ∧
    0 ≤ havA p q ∧ 0 ≤ 1 - havA p q := by
  obtain ⟨h0, h1⟩ := havA_range p q
  refine ⟨?_, h0, by linarith⟩
  rw [haversine_arcsin]
  unfold angle
  rw [norm_onSphere, norm_onSphere, inner_onSphere]
  congr 1
  have hs0 : 0 ≤ √(havA p q) := sqrt_nonneg _
  have hs1 : √(havA p q) ≤ 1 := sqrt_le_iff.2 ⟨by norm_num, by simpa using h1⟩
  have h2 : (1 - 2 * havA p q) / (1 * 1) = cos (2 * arcsin (√(havA p q))) := by
    rw [cos_two_mul, cos_sq', sin_arcsin (by linarith) hs1, sq_sqrt h0]
    ring
  rw [h2, arccos_cos]
  · have := arcsin_nonneg.2 hs0; linarith
  · have := arcsin_le_pi_div_two (√(havA p q)); linarith

/-- C98: distances are symmetric, between 0 and half the circumference, 0 from a point to itself, and obey the triangle
inequality. -/
theorem C98_metric (p q r : Coord) : haversine p q = haversine q p ∧ 0 ≤ haversine p q ∧ haversine p q ≤ 6371 * π ∧
    haversine p p = 0 ∧ haversine p r ≤ haversine p q + haversine q r := by
  rw [(C98_great_circle p q).1, (C98_great_circle q p).1, (C98_great_circle p p).1, (C98_great_circle p r).1,
    (C98_great_circle q r).1]
  refine ⟨by rw [angle_comm], ?_, ?_, ?_, ?_⟩
  · have := angle_nonneg (onSphere p) (onSphere q); positivity
  · have := angle_le_pi (onSphere p) (onSphere q); linarith
  · rw [angle_self (by rw [← norm_ne_zero_iff, norm_onSphere]; norm_num)]; simp
  · have := angle_le_angle_add_angle (onSphere p) (onSphere q) (onSphere r); linarith

/-- A quarter of the circumference from the equator to the pole. -/
example : haversine ⟨0, 0⟩ ⟨90, 0⟩ = 6371 * (π / 2) := by
  rw [(C98_great_circle _ _).1, angle, norm_onSphere, norm_onSphere, inner_onSphere]
  have : havA ⟨0, 0⟩ ⟨90, 0⟩ = 1 / 2 := by
    unfold havA
    simp only
    have : ((((90 : ℚ) : ℝ) - ((0 : ℚ) : ℝ)) * π / 180 / 2) = π / 4 := by push_cast; ring
    rw [this, sin_pi_div_four]
    have h2 : √2 * √2 = (2 : ℝ) := mul_self_sqrt (by norm_num)
    push_cast
    simp
    linarith
  rw [this]
  simp

/-- A difference of latitude is never larger than what the distance allows. -/
theorem lat_le_dist (p q : Coord) (hp : -90 ≤ p.lat ∧ p.lat ≤ 90) (hq : -90 ≤ q.lat ∧ q.lat ≤ 90) :
    |(q.lat : ℝ) - p.lat| * 111 ≤ haversine p q := by
  rw [haversine_arcsin]
  set x := |(q.lat : ℝ) - p.lat| with hx
  have hp1 : (-90 : ℝ) ≤ p.lat := by exact_mod_cast hp.1
  have hp2 : (p.lat : ℝ) ≤ 90 := by exact_mod_cast hp.2
  have hq1 : (-90 : ℝ) ≤ q.lat := by exact_mod_cast hq.1
  have hq2 : (q.lat : ℝ) ≤ 90 := by exact_mod_cast hq.2
  have hx0 : 0 ≤ x := abs_nonneg _
  have hx180 : x ≤ 180 := abs_le.2 ⟨by linarith, by linarith⟩
  have hcos : ∀ y : ℝ, -90 ≤ y → y ≤ 90 → 0 ≤ cos (y * π / 180) := by
    intro y h1 h2
    apply cos_nonneg_of_neg_pi_div_two_le_of_le <;> nlinarith [pi_pos]
  have hsin : sin (x * π / 180 / 2) = √(sin (((q.lat : ℝ) - p.lat) * π / 180 / 2) ^ 2) := by
    rw [sqrt_sq_eq_abs]
    rcases abs_cases ((q.lat : ℝ) - p.lat) with ⟨h, _⟩ | ⟨h, _⟩
    · rw [hx, h, abs_of_nonneg]
      rw [← h, ← hx]
      apply sin_nonneg_of_nonneg_of_le_pi
      · positivity
      · nlinarith [pi_pos]
    · rw [hx, h]
      have : -((q.lat : ℝ) - p.lat) * π / 180 / 2 = -(((q.lat : ℝ) - p.lat) * π / 180 / 2) := by ring
      rw [this, sin_neg, abs_of_nonpos]
      have h0 : 0 ≤ sin (-(((q.lat : ℝ) - p.lat) * π / 180 / 2)) := by
        rw [← this, ← h, ← hx]
        apply sin_nonneg_of_nonneg_of_le_pi
        · positivity
        · nlinarith [pi_pos]
      rw [sin_neg] at h0
      linarith
  have hle : sin (x * π / 180 / 2) ≤ √(havA p q) := by
    rw [hsin]
    apply sqrt_le_sqrt
    unfold havA
    simp only
    have h1 := hcos p.lat hp1 hp2
    have h2 := hcos q.lat hq1 hq2
    have h3 : 0 ≤ sin (((q.lng : ℝ) - p.lng) * π / 180 / 2) * sin (((q.lng : ℝ) - p.lng) * π / 180 / 2) := mul_self_nonneg _
    have h4 := mul_nonneg (mul_nonneg h1 h2) h3
    rw [pow_two]
    nlinarith
  have h5 : x * π / 180 / 2 ≤ arcsin (√(havA p q)) := by
    rw [← arcsin_sin (x := x * π / 180 / 2)]
    · exact monotone_arcsin hle
    · have : 0 ≤ x * π / 180 / 2 := by positivity
      linarith [pi_pos]
    · nlinarith [pi_pos]
  have hpi := pi_gt_d2
  nlinarith

/-- On the equator a difference of longitude (up to half a turn) is never larger than what the distance allows. -/
theorem lng_le_dist (p q : Coord) (hp : p.lat = 0) (hq : q.lat = 0) (h : |(q.lng : ℝ) - p.lng| ≤ 180) :
    |(q.lng : ℝ) - p.lng| * 111 ≤ haversine p q := by
  rw [haversine_arcsin]
  set x := |(q.lng : ℝ) - p.lng| with hx
  have hx0 : 0 ≤ x := abs_nonneg _
  have hsin : sin (x * π / 180 / 2) = √(sin (((q.lng : ℝ) - p.lng) * π / 180 / 2) ^ 2) := by
    rw [sqrt_sq_eq_abs]
    rcases abs_cases ((q.lng : ℝ) - p.lng) with ⟨h', _⟩ | ⟨h', _⟩
    · rw [hx, h', abs_of_nonneg]
      rw [← h', ← hx]
      apply sin_nonneg_of_nonneg_of_le_pi
      · positivity
      · nlinarith [pi_pos]
    · rw [hx, h']
      have : -((q.lng : ℝ) - p.lng) * π / 180 / 2 = -(((q.lng : ℝ) - p.lng) * π / 180 / 2) := by ring
      rw [this, sin_neg, abs_of_nonpos]
      have h0 : 0 ≤ sin (-(((q.lng : ℝ) - p.lng) * π / 180 / 2)) := by
        rw [← this, ← h', ← hx]
        apply sin_nonneg_of_nonneg_of_le_pi
        · positivity
        · nlinarith [pi_pos]
      rw [sin_neg] at h0
      linarith
  have hle : sin (x * π / 180 / 2) ≤ √(havA p q) := by
    rw [hsin]
    apply sqrt_le_sqrt
    unfold havA
    simp [hp, hq, pow_two]
  have h5 : x * π / 180 / 2 ≤ arcsin (√(havA p q)) := by
    rw [← arcsin_sin (x := x * π / 180 / 2)]
    · exact monotone_arcsin hle
    · have : 0 ≤ x * π / 180 / 2 := by positivity
      linarith [pi_pos]
    · nlinarith [pi_pos]
  have hpi := pi_gt_d2
  nlinarith

/-- At a pole every longitude is the same point. -/
theorem pole_dist (x y : ℚ) : haversine ⟨90, x⟩ ⟨90, y⟩ = 0 := by
  rw [haversine_arcsin]
  have h : ((90 : ℚ) : ℝ) * π / 180 = π / 2 := by push_cast; ring
  have : havA ⟨90, x⟩ ⟨90, y⟩ = 0 := by
    unfold havA
    simp only [h, cos_pi_div_two]
    simp
  rw [this]
  simp

/-- The longitudes 180 and -180 are the same point. -/
theorem antimeridian_dist (x : ℚ) : haversine ⟨x, 180⟩ ⟨x, -180⟩ = 0 := by
  rw [haversine_arcsin]
  have h : (((-180 : ℚ) : ℝ) - ((180 : ℚ) : ℝ)) * π / 180 / 2 = -π := by push_cast; ring
  have : havA ⟨x, 180⟩ ⟨x, -180⟩ = 0 := by
    unfold havA
    simp only [h, sin_neg, sin_pi]
    simp
  rw [this]
  simp

end Verif.Geo
