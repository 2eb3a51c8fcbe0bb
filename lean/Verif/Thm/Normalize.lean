import Verif.Model.Normalize
import Verif.Thm.Similarity
import Mathlib.Tactic.FieldSimp
import Mathlib.Tactic.Positivity

/-!
C256: a cosine index stores directions, and distances are those of the vectors given.
-/
namespace Verif.Normalize
open Verif.Similarity Verif.Base

theorem normalize_scale (v : List ℝ) (h : dot v v ≠ 0) : normalize v = v.map ((√(dot v v))⁻¹ * ·) := by
  unfold normalize
  rw [if_neg h]
  apply List.map_congr_left
  intro x _
  rw [div_eq_mul_inv, mul_comm]

theorem normalize_length (v : List ℝ) : (normalize v).length = v.length := by
  unfold normalize
  split <;> simp

theorem sqrt_pos' (v : List ℝ) (h : dot v v ≠ 0) : 0 < √(dot v v) :=
  Real.sqrt_pos.2 (lt_of_le_of_ne (dot_self_nonneg v) (Ne.symm h))

theorem dot_scale_right (k : ℝ) (a b : List ℝ) : dot a (b.map (k * ·)) = k * dot a b := by
  rw [dot_comm, dot_scale, dot_comm]

/-- C256: what is stored has the length of a unit, unless the vector has no length at all, and then it is stored as it is. -/
theorem C256_unit (v : List ℝ) : (normalize v).length = v.length ∧
    ((∃ x ∈ v, x ≠ 0) → dot (normalize v) (normalize v) = 1) ∧ ((∀ x ∈ v, x = 0) → normalize v = v) := by
  refine ⟨normalize_length v, ?_, ?_⟩
  · rintro ⟨x, hx, hne⟩
    have h : dot v v ≠ 0 := fun h => hne ((dot_self_eq_zero v).1 h x hx)
    have hp := sqrt_pos' v h
    rw [normalize_scale v h, dot_scale, dot_scale_right]
    have := Real.mul_self_sqrt (dot_self_nonneg v)
    field_simp
    nlinarith
  · intro h
    unfold normalize
    rw [if_pos ((dot_self_eq_zero v).2 h)]

/-- C256: vectors of the same direction are stored alike. -/
theorem C256_scale (v : List ℝ) (k : ℝ) (hk : 0 < k) : normalize (v.map (k * ·)) = normalize v ∨ ∀ x ∈ v, x = 0 := by
  by_cases h : dot v v = 0
  · exact .inr ((dot_self_eq_zero v).1 h)
  · left
    have hd : dot (v.map (k * ·)) (v.map (k * ·)) = k ^ 2 * dot v v := by rw [dot_scale, dot_scale_right]; ring
    have h' : dot (v.map (k * ·)) (v.map (k * ·)) ≠ 0 := by rw [hd]; positivity
    have hp := sqrt_pos' v h
    rw [normalize_scale _ h', normalize_scale _ h, hd, Real.sqrt_mul (by positivity), Real.sqrt_sq hk.le, List.map_map]
    apply List.map_congr_left
    intro x _
    simp only [Function.comp]
    field_simp

/-- C256: storing what was stored changes nothing. -/
theorem C256_again (v : List ℝ) : normalize (normalize v) = normalize v := by
  by_cases h : dot v v = 0
  · have : normalize v = v := by unfold normalize; rw [if_pos h]
    rw [this, this]
  · have hp := sqrt_pos' v h
    have h1 : dot (normalize v) (normalize v) = 1 := by
      refine (C256_unit v).2.1 ?_
      by_contra hc
      push Not at hc
      exact h ((dot_self_eq_zero v).2 hc)
    rw [normalize_scale (normalize v) (by rw [h1]; norm_num), h1, Real.sqrt_one]
    simp

theorem distance_eq (q v : List ℝ) (h : q.length = v.length) : cosineDistance q v =
    if dot q q = 0 ∨ dot v v = 0 then some 1 else some (1 - dot q v / (√(dot q q) * √(dot v v))) := by
  unfold cosineDistance
  rw [if_neg (by omega)]
  simp only
  rw [List.take_of_length_le (by omega)]

/-- C256: the distance between a normalised query and a stored vector is the cosine distance between the vectors as they were given. -/
theorem C256_distance (q v : List ℝ) (h : q.length = v.length) : cosineDistance (normalize q) (normalize v) = cosineDistance q v := by
  rw [distance_eq _ _ (by rw [normalize_length, normalize_length, h]), distance_eq q v h]
  have hz : ∀ w : List ℝ, dot w w = 0 → normalize w = w := fun w hw => by unfold normalize; rw [if_pos hw]
  have hn : ∀ w : List ℝ, dot w w ≠ 0 → dot (normalize w) (normalize w) = 1 := by
    intro w hw
    refine (C256_unit w).2.1 ?_
    by_contra hc
    push Not at hc
    exact hw ((dot_self_eq_zero w).2 hc)
  by_cases hq : dot q q = 0
  · rw [if_pos (.inl (by rw [hz q hq]; exact hq)), if_pos (.inl hq)]
  by_cases hv : dot v v = 0
  · rw [if_pos (.inr (by rw [hz v hv]; exact hv)), if_pos (.inr hv)]
  rw [if_neg (by rw [hn q hq, hn v hv]; norm_num), if_neg (by tauto), hn q hq, hn v hv, normalize_scale q hq, normalize_scale v hv, dot_scale,
    dot_scale_right]
  have hp := sqrt_pos' q hq
  have hp' := sqrt_pos' v hv
  congr 2
  simp only [Real.sqrt_one]
  field_simp

/-- C256 is violated for reading a vector back: after an insertion into a cosine index `GetVector` returns another vector than the one
inserted, unless its length is one or zero. -/
theorem C256_back_violated (dist : List ℝ → List ℝ → ℚ) (ix : Flat.Index (List ℝ)) (id : String) (v : List ℝ) (hd : v.length = ix.dimension)
    (h0 : dot v v ≠ 0) (h1 : dot v v ≠ 1) :
    ∃ w, Flat.getVector (Flat.insert (cosineEnv dist) ix id v).1 id = some w ∧ w ≠ v := by
  refine ⟨normalize v, ?_, ?_⟩
  · unfold Flat.insert Flat.getVector
    rw [if_neg (by simpa [cosineEnv] using hd)]
    simp only
    rw [get_put, if_pos rfl]
    rfl
  · intro he
    have := (C256_unit v).2.1 (by
      by_contra hc
      push Not at hc
      exact h0 ((dot_self_eq_zero v).2 hc))
    rw [he] at this
    exact h1 this

/-- C256 for reading a vector back, as far as it holds: a vector of length one, or without length, comes back as it was inserted. -/
theorem C256_back_partial (dist : List ℝ → List ℝ → ℚ) (ix : Flat.Index (List ℝ)) (id : String) (v : List ℝ) (hd : v.length = ix.dimension)
    (h : dot v v = 0 ∨ dot v v = 1) : Flat.getVector (Flat.insert (cosineEnv dist) ix id v).1 id = some v := by
  have hn : normalize v = v := by
    unfold normalize
    rcases h with h | h
    · rw [if_pos h]
    · rw [if_neg (by rw [h]; norm_num), h, Real.sqrt_one]
      simp
  unfold Flat.insert Flat.getVector
  rw [if_neg (by simpa [cosineEnv] using hd)]
  simp only
  rw [get_put, if_pos rfl]
  change some (normalize v) = some v
  rw [hn]

/-- A vector the guards are about: the length of `[3, 4]` is neither zero nor one, that of `[1, 0]` is one. -/
example : dot [3, 4] [3, 4] ≠ 0 ∧ dot [3, 4] [3, 4] ≠ 1 ∧ dot [1, 0] [1, 0] = 1 := by
  simp only [dot]; norm_num

end Verif.Normalize
