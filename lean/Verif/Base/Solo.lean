import Mathlib.Data.List.Induction
import Mathlib.Data.List.Count

/-!
Goroutines over a shared world, one statement at a time: `adv` is one statement of one goroutine, a schedule names the
goroutine of each statement. When the goroutines touch different parts of the world, each of them finds its part as if it had
run alone.
-/
namespace Verif.Base

variable {W T X : Type*}

/-- One statement of goroutine `i`. -/
def stepAt (adv : W → T → W × T) (s : W × List T) (i : Nat) : W × List T :=
  match s.2[i]? with
  | none => s
  | some t => ((adv s.1 t).1, s.2.set i (adv s.1 t).2)

/-- A schedule. -/
def runAll (adv : W → T → W × T) (s : W × List T) (l : List Nat) : W × List T := l.foldl (stepAt adv) s

/-- `n` statements of one goroutine with nobody else. -/
def alone (adv : W → T → W × T) (w : W) (t : T) : Nat → W × T
  | 0 => (w, t)
  | n + 1 => adv (alone adv w t n).1 (alone adv w t n).2

theorem runAll_snoc (adv : W → T → W × T) (s : W × List T) (l : List Nat) (i : Nat) :
    runAll adv s (l ++ [i]) = stepAt adv (runAll adv s l) i := by
  simp [runAll, List.foldl_append]

theorem runAll_alone (adv : W → T → W × T) (I : W → Prop) (Own : Nat → T → Prop) (view : Nat → W → X) (n : Nat)
    (hI : ∀ i w t, I w → Own i t → I (adv w t).1)
    (hO : ∀ i w t, I w → Own i t → Own i (adv w t).2)
    (hloc : ∀ i w w' t, I w → I w' → Own i t → view i w = view i w' →
      (adv w t).2 = (adv w' t).2 ∧ view i (adv w t).1 = view i (adv w' t).1)
    (hfr : ∀ i j w t, i < n → j < n → i ≠ j → I w → Own j t → view i (adv w t).1 = view i w)
    (w : W) (ts : List T) (hn : ts.length = n) (hw : I w) (hts : ∀ i t, ts[i]? = some t → Own i t) (l : List Nat) :
    I (runAll adv (w, ts) l).1 ∧ (runAll adv (w, ts) l).2.length = n ∧
    ∀ i t, ts[i]? = some t → (runAll adv (w, ts) l).2[i]? = some (alone adv w t (l.count i)).2 ∧
      view i (runAll adv (w, ts) l).1 = view i (alone adv w t (l.count i)).1 ∧
      I (alone adv w t (l.count i)).1 ∧ Own i (alone adv w t (l.count i)).2 := by
  induction l using List.reverseRecOn with
  | nil => exact ⟨hw, hn, fun i t h => ⟨h, rfl, hw, hts i t h⟩⟩
  | append_singleton l j ih =>
    obtain ⟨h1, h2, h3⟩ := ih
    rw [runAll_snoc]
    unfold stepAt
    by_cases hj : j < n
    · obtain ⟨t, ht⟩ : ∃ t, ts[j]? = some t := ⟨_, List.getElem?_eq_getElem (by omega : j < ts.length)⟩
      obtain ⟨a1, a2, a3, a4⟩ := h3 j t ht
      rw [a1]
      refine ⟨hI j _ _ h1 a4, by simp [h2], fun i t' ht' => ?_⟩
      by_cases hij : i = j
      · subst hij
        obtain rfl : t = t' := by rw [ht] at ht'; exact Option.some.inj ht'
        have hc : (l ++ [i]).count i = l.count i + 1 := by simp
        rw [hc]
        obtain ⟨b1, b2⟩ := hloc i _ _ _ h1 a3 a4 a2
        simp only [alone]
        refine ⟨?_, b2, hI i _ _ a3 a4, hO i _ _ a3 a4⟩
        rw [List.getElem?_set_self (by omega), b1]
      · have hc : (l ++ [j]).count i = l.count i := by
          rw [List.count_append, List.count_singleton]
          simp [Ne.symm hij]
        rw [hc]
        obtain ⟨c1, c2, c3, c4⟩ := h3 i t' ht'
        refine ⟨by rw [List.getElem?_set_ne (Ne.symm hij)]; exact c1, ?_, c3, c4⟩
        have hi : i < n := by rw [← hn]; exact (List.getElem?_eq_some_iff.1 ht').1
        exact (hfr i j _ _ hi hj hij h1 a4).trans c2
    · have : (runAll adv (w, ts) l).2[j]? = none := List.getElem?_eq_none (by omega)
      rw [this]
      refine ⟨h1, h2, fun i t ht => ?_⟩
      have hi : i < n := by rw [← hn]; exact (List.getElem?_eq_some_iff.1 ht).1
      have hc : (l ++ [j]).count i = l.count i := by
        rw [List.count_append, List.count_singleton]
        have : i ≠ j := by omega
        simp [Ne.symm this]
      rw [hc]
      exact h3 i t ht

/-- What holds of the world and the goroutines at the start and is kept by every statement holds after every schedule. -/
theorem runAll_induct (adv : W → T → W × T) (P : W → List T → Prop)
    (hstep : ∀ w ts i t, P w ts → ts[i]? = some t → P (adv w t).1 (ts.set i (adv w t).2))
    (w : W) (ts : List T) (h : P w ts) (l : List Nat) : P (runAll adv (w, ts) l).1 (runAll adv (w, ts) l).2 := by
  induction l using List.reverseRecOn with
  | nil => exact h
  | append_singleton l j ih =>
    rw [runAll_snoc]
    unfold stepAt
    split
    · exact ih
    · rename_i t ht; exact hstep _ _ _ _ ih ht

end Verif.Base
