import Verif.Model.Dimension
import Mathlib.Data.List.Sort
import Mathlib.Data.List.Perm.Subperm
import Mathlib.Tactic.Linarith
import Mathlib.Tactic.FieldSimp
import Mathlib.Algebra.Order.BigOperators.Group.List
import Mathlib.Algebra.BigOperators.Ring.List

/-! C14: dimension adaptation. -/
namespace Verif.Thm.Dimension
open Verif.Base Verif.Model.Dimension

/-- Specification: `w` is `u` brought to unit length (or `u` is zero and unchanged). -/
def IsUnitScale (u w : List ℝ) : Prop :=
  (∃ c : ℝ, 0 < c ∧ w = u.map (fun x => c * x) ∧ (w.map (fun x => x ^ 2)).sum = 1) ∨
  ((∀ x ∈ u, x = 0) ∧ w = u)

theorem sumSquares_nonneg (v : List ℝ) : 0 ≤ sumSquares v := by
  apply List.sum_nonneg
  intro x hx
  obtain ⟨y, _, rfl⟩ := List.mem_map.1 hx
  exact mul_self_nonneg y

theorem sumSquares_eq_zero (v : List ℝ) (h : sumSquares v = 0) : ∀ x ∈ v, x = 0 := by
  induction v with
  | nil => simp
  | cons y ys ih =>
    simp only [sumSquares, List.map_cons, List.sum_cons] at h
    have h1 := mul_self_nonneg y
    have h2 := sumSquares_nonneg ys
    have hs : sumSquares ys = 0 := by unfold sumSquares at *; linarith
    have hy : y * y = 0 := by unfold sumSquares at *; linarith
    intro x hx
    rcases List.mem_cons.1 hx with rfl | hx
    · exact mul_self_eq_zero.1 hy
    · exact ih hs x hx

theorem normalize_spec (v : List ℝ) : IsUnitScale v (normalizeVector v) := by
  unfold normalizeVector
  split
  · rename_i h
    exact Or.inr ⟨sumSquares_eq_zero v h, rfl⟩
  · rename_i h
    have hpos : 0 < sumSquares v := lt_of_le_of_ne (sumSquares_nonneg v) (Ne.symm h)
    have hs := Real.sqrt_pos.2 hpos
    refine Or.inl ⟨1 / Real.sqrt (sumSquares v), by positivity, ?_, ?_⟩
    · apply List.map_congr_left
      intro x _; field_simp
    · rw [List.map_map]
      have : ((fun x : ℝ => x ^ 2) ∘ fun x => x / Real.sqrt (sumSquares v)) =
          fun x => (x * x) * (1 / sumSquares v) := by
        funext x
        simp only [Function.comp]
        rw [div_pow, Real.sq_sqrt hpos.le]; field_simp
      rw [this, List.sum_map_mul_right]
      change sumSquares v * _ = 1
      field_simp

theorem normalize_length (v : List ℝ) : (normalizeVector v).length = v.length := by
  unfold normalizeVector; split <;> simp

theorem importance_length (v : List ℝ) (t : Nat) (h : t < v.length) :
    (truncateWithImportance v t).length = t := by
  unfold truncateWithImportance
  rw [if_neg (by omega)]
  simp only [normalize_length, List.length_map, (exchangeSort_perm _ _).length_eq, List.length_take,
    List.length_zipIdx]
  omega

/-- C14: an accepted adaptation always has the target length. -/
theorem C14_length (p : Policy) (noise : Nat → ℝ) (v : List ℝ) (s t : Nat) (w : List ℝ)
    (h : adaptVector p noise v s t = .ok w) : w.length = t := by
  unfold adaptVector at h
  split at h
  · cases h
  rename_i hs
  split at h
  · cases h; omega
  rename_i hst
  have hs : v.length = s := by omega
  cases p <;> simp only [reduceCtorEq, Except.ok.injEq] at h <;> subst h
  · unfold smartAdapt
    split
    · exact importance_length v t (by omega)
    · unfold padWithNoise
      rw [if_neg (by omega)]
      simp [normalize_length]; omega
  · unfold truncateVector
    split <;> simp [normalize_length] <;> omega
  · unfold padVector
    split <;> simp [normalize_length] <;> omega

example : adaptVector .pad (fun _ => 0) [3, 4] 2 2 = .ok [3, 4] := by simp [adaptVector]

/-- C14: the non adapting policies refuse every mismatch, and every policy refuses a wrong source length. -/
theorem C14_refused (p : Policy) (noise : Nat → ℝ) (v : List ℝ) (s t : Nat) :
    (v.length ≠ s → ∃ e, adaptVector p noise v s t = .error e) ∧
    (v.length = s → s ≠ t → p = .strict ∨ p = .warn ∨ p = .other → ∃ e, adaptVector p noise v s t = .error e) := by
  constructor
  · intro h; exact ⟨_, by simp only [adaptVector, if_pos h]; rfl⟩
  · intro h1 h2 h3
    unfold adaptVector
    rw [if_neg (by simpa using h1), if_neg h2]
    rcases h3 with rfl | rfl | rfl <;> exact ⟨_, rfl⟩

example : ([1, 2] : List ℝ).length = 2 ∧ (2 : Nat) ≠ 3 := by simp

/-- C14: a vector that already has the target length is returned unchanged under every policy. -/
theorem C14_same (p : Policy) (noise : Nat → ℝ) (v : List ℝ) :
    adaptVector p noise v v.length v.length = .ok v := by simp [adaptVector]

/-- C14: adaptation succeeds whenever the policy is an adapting one. -/
theorem C14_total (p : Policy) (noise : Nat → ℝ) (v : List ℝ) (t : Nat)
    (hp : p = .smart ∨ p = .truncate ∨ p = .pad) : ∃ w, adaptVector p noise v v.length t = .ok w := by
  unfold adaptVector
  rw [if_neg (by simp)]
  split
  · exact ⟨_, rfl⟩
  · rcases hp with rfl | rfl | rfl <;> exact ⟨_, rfl⟩

theorem zipIdx_pairwise (v : List ℝ) (n : Nat) : (v.zipIdx n).Pairwise (fun a b => a.2 < b.2) := by
  induction v generalizing n with
  | nil => simp
  | cons x xs ih =>
    simp only [List.zipIdx_cons, List.pairwise_cons]
    refine ⟨fun a ha => ?_, ih (n + 1)⟩
    have := List.le_snd_of_mem_zipIdx ha
    omega

theorem sublist_of_sorted_subperm {α : Type*} (key : α → ℕ) (l₁ l₂ : List α) (hp : l₁.Subperm l₂)
    (h1 : l₁.Pairwise (fun a b => key a ≤ key b)) (h2 : l₂.Pairwise (fun a b => key a < key b)) :
    l₁.Sublist l₂ := by
  -- strictly sorted by key on both sides
  obtain ⟨l, hl, hs⟩ := hp
  have hn : l.Pairwise (fun a b => key a < key b) := h2.sublist hs
  have hnd : l.Pairwise (fun a b => key a ≠ key b) := hn.imp (fun h => by omega)
  have hnd1 : l₁.Pairwise (fun a b => key a ≠ key b) :=
    hl.pairwise hnd (fun {a b} h => Ne.symm h)
  have h1' : l₁.Pairwise (fun a b => key a < key b) :=
    (h1.and hnd1).imp (fun ⟨a, b⟩ => by omega)
  have : l = l₁ := by
    refine hl.eq_of_pairwise (le := fun a b => key a < key b) ?_ hn h1'
    intro a b _ _ hab hba; omega
  exact this ▸ hs

/-- C14: smart truncation keeps the `t` components of largest magnitude, in their original order, brought to unit
length. -/
theorem C14_smart_truncate (noise : Nat → ℝ) (v : List ℝ) (t : Nat) (ht : t < v.length) :
    ∃ (kept : List (ℝ × Nat)) (w : List ℝ), adaptVector .smart noise v v.length t = .ok w ∧
      kept.Sublist v.zipIdx ∧ kept.length = t ∧ IsUnitScale (kept.map Prod.fst) w ∧
      (∀ d ∈ v.zipIdx, d ∉ kept → ∀ k ∈ kept, |d.1| ≤ |k.1|) := by
  let byMag := exchangeSort (fun a b : ℝ × Nat => decide (|b.1| < |a.1|)) v.zipIdx
  have hperm : byMag.Perm v.zipIdx := exchangeSort_perm _ _
  have hsort : byMag.Pairwise (fun a b => |b.1| ≤ |a.1|) :=
    (sortedFrom_exchange (fun a : ℝ × Nat => |a.1|) v.zipIdx).2
  let kept := exchangeSort (fun a b : ℝ × Nat => decide (a.2 < b.2)) (byMag.take t)
  have hkp : kept.Perm (byMag.take t) := exchangeSort_perm _ _
  refine ⟨kept, normalizeVector (kept.map Prod.fst), ?_, ?_, ?_, normalize_spec _, ?_⟩
  · unfold adaptVector
    rw [if_neg (by simp), if_neg (by omega)]
    simp only [smartAdapt, truncateWithImportance]
    rw [if_pos (by omega), if_neg (by omega)]
  · apply sublist_of_sorted_subperm (fun a : ℝ × Nat => a.2)
    · exact hkp.subperm.trans ((List.take_sublist t byMag).subperm.trans hperm.subperm)
    · exact exchangeSort_sorted (fun a : ℝ × Nat => a.2) _ (by simp) _
    · exact zipIdx_pairwise v 0
  · rw [hkp.length_eq, List.length_take, hperm.length_eq, List.length_zipIdx]; omega
  · intro d hd hnk k hk
    have hd' : d ∈ byMag := hperm.mem_iff.2 hd
    rw [← List.take_append_drop t byMag] at hd' hsort
    rcases List.mem_append.1 hd' with h | h
    · exact absurd (hkp.mem_iff.2 h) hnk
    · exact (List.pairwise_append.1 hsort).2.2 k (hkp.mem_iff.1 hk) d h

example : (1 : Nat) < ([3, 4] : List ℝ).length := by simp

/-- C14: padding (and truncation upward) keeps the whole input as a prefix and adds zeros, brought to unit length;
truncation keeps the leading components. -/
theorem C14_pad_truncate (p : Policy) (hp : p = .truncate ∨ p = .pad) (noise : Nat → ℝ) (v : List ℝ) (t : Nat) (hne : v.length ≠ t) :
    ∃ w, adaptVector p noise v v.length t = .ok w ∧
      IsUnitScale ((v ++ List.replicate (t - v.length) 0).take t) w := by
  have key : ∀ u, u = (v ++ List.replicate (t - v.length) 0).take t → IsUnitScale ((v ++ List.replicate (t - v.length) 0).take t) (normalizeVector u) := by
    rintro u rfl; exact normalize_spec _
  unfold adaptVector
  rw [if_neg (by simp), if_neg hne]
  rcases hp with rfl | rfl
  · refine ⟨_, rfl, ?_⟩
    unfold truncateVector
    split
    · apply key
      rw [List.take_of_length_le]; simp; omega
    · apply key
      rw [List.take_append_of_le_length (by omega)]
  · refine ⟨_, rfl, ?_⟩
    unfold padVector
    split
    · apply key
      rw [List.take_append_of_le_length (by omega)]
    · apply key
      rw [List.take_of_length_le]; simp; omega

/-- C14: smart padding keeps the whole input as a prefix followed by the noise, brought to unit length. -/
theorem C14_smart_pad (noise : Nat → ℝ) (v : List ℝ) (t : Nat) (ht : v.length < t) :
    ∃ w extra, adaptVector .smart noise v v.length t = .ok w ∧ extra.length = t - v.length ∧
      IsUnitScale (v ++ extra) w := by
  refine ⟨_, (List.range (t - v.length)).map noise, ?_, by simp, normalize_spec _⟩
  unfold adaptVector
  rw [if_neg (by simp), if_neg (by omega)]
  simp only [smartAdapt, padWithNoise]
  rw [if_neg (by omega), if_neg (by omega)]

example : ([3, 4] : List ℝ).length < 3 := by simp

end Verif.Thm.Dimension
