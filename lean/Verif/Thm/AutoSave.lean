import Verif.Model.AutoSave
import Mathlib.Data.List.Basic

/-! C202: when index snapshots are saved automatically. -/
namespace Verif.AutoSave

theorem run_append (c : Cfg) (s : State) (a b : List Event) : run c s (a ++ b) = run c (run c s a) b := List.foldl_append

/-- The saves made by timers. -/
def byTimer (s : State) : Nat := (s.saves.filter (fun x => decide (x.1 = .timer))).length

/-- **C202.** With automatic saving off no timer is ever set and no save is made but by `Close`, in any interleaving. -/
theorem C202_off (c : Cfg) (hc : c.enabled = false) (es : List Event) :
    (run c init es).pending = [] ∧ (run c init es).runs = [] ∧ ∀ x ∈ (run c init es).saves, x.1 = .close := by
  suffices h : ∀ s : State, s.pending = [] ∧ s.runs = [] ∧ (∀ x ∈ s.saves, x.1 = .close) →
      (run c s es).pending = [] ∧ (run c s es).runs = [] ∧ ∀ x ∈ (run c s es).saves, x.1 = .close from h init (by simp [init])
  induction es with
  | nil => intro s h; exact h
  | cons e es ih =>
    intro s ⟨h1, h2, h3⟩
    refine ih (step c s e) ?_
    cases e with
    | start => simp only [step, hc]; split <;> simp [h1, h2]; exact fun a b => h3 (a, b); exact fun a b => h3 (a, b)
    | change => simp only [step]; split <;> exact ⟨h1, h2, h3⟩
    | fire t => simp only [step, h1]; simpa [h1, h2] using fun a b => h3 (a, b)
    | save i => simp only [step, h2]; simpa [h1, h2] using fun a b => h3 (a, b)
    | reset i => simp only [step, h2]; simpa [h1, h2] using fun a b => h3 (a, b)
    | close =>
      simp only [step]
      split
      · exact ⟨h1, h2, h3⟩
      · refine ⟨h1, h2, ?_⟩
        intro x hx
        rcases List.mem_cons.1 hx with rfl | hx
        · rfl
        · exact h3 x hx

/-- At most one timer or one run. -/
structure Single (s : State) : Prop where
  one : s.pending.length + s.runs.length ≤ 1
  below : ∀ t ∈ s.pending, t < s.next

theorem single_step (c : Cfg) (s : State) (h : Single s) (e : Event) (he : e ≠ .start) : Single (step c s e) := by
  obtain ⟨h1, h2⟩ := h
  cases e with
  | start => exact absurd rfl he
  | change => simp only [step]; split <;> exact ⟨h1, h2⟩
  | close => simp only [step]; split <;> exact ⟨h1, h2⟩
  | fire t =>
    simp only [step]
    split
    · rename_i ht
      have hp : s.pending = [t] ∧ s.runs = [] := by
        have := List.length_pos_of_mem ht
        obtain ⟨a, ha⟩ := List.length_eq_one_iff.1 (show s.pending.length = 1 by omega)
        rw [ha] at ht
        rw [List.mem_singleton.1 ht]
        exact ⟨ha, List.length_eq_zero_iff.1 (by omega)⟩
      split <;> constructor <;> simp [hp.1, hp.2]
    · exact ⟨h1, h2⟩
  | save i =>
    simp only [step]
    split
    · exact ⟨by simpa using h1, h2⟩
    · exact ⟨h1, h2⟩
  | reset i =>
    simp only [step]
    split
    · rename_i hr
      have hlt : i < s.runs.length := by
        rcases Nat.lt_or_ge i s.runs.length with h | h
        · exact h
        · rw [List.getElem?_eq_none h] at hr; simp at hr
      have hp : s.pending = [] := List.length_eq_zero_iff.1 (by omega)
      have hst : (stopTimer { s with runs := s.runs.eraseIdx i }).pending = [] ∧
          (stopTimer { s with runs := s.runs.eraseIdx i }).runs = s.runs.eraseIdx i := by
        unfold stopTimer
        split <;> simp [hp]
      constructor
      · simp only [setTimer, hst.1, hst.2, List.length_cons, List.length_nil, List.length_eraseIdx, hlt, if_true]
        omega
      · intro t ht
        simp only [setTimer, hst.1, List.mem_singleton] at ht ⊢
        omega
    · exact ⟨h1, h2⟩

/-- **C202.** A store that is initialised once never has two automatic saves running, nor one running while the next is
scheduled, in any interleaving with writes and `Close`. -/
theorem C202_one (c : Cfg) (es : List Event) (he : Event.start ∉ es) :
    (run c (step c init .start) es).pending.length + (run c (step c init .start) es).runs.length ≤ 1 := by
  suffices h : ∀ s, Single s → Single (run c s es) by
    refine (h _ ?_).one
    cases hen : c.enabled
    · exact ⟨by simp [step, init, hen], by simp [step, init, hen]⟩
    · exact ⟨by simp [step, init, hen, setTimer], by simp [step, init, hen, setTimer]⟩
  induction es with
  | nil => intro s h; exact h
  | cons e es ih =>
    intro s h
    simp only [List.mem_cons, not_or] at he
    exact ih he.2 _ (single_step c s h e (Ne.symm he.1))

/-- The runs that will still save. -/
def unsaved (s : State) : Nat := (s.runs.filter (fun x => decide (x = .saving))).length

theorem unsaved_set {l : List Stage} {i : Nat} (h : l[i]? = some .saving) :
    ((l.set i .resetting).filter (fun x => decide (x = .saving))).length + 1 = (l.filter (fun x => decide (x = .saving))).length := by
  induction l generalizing i with
  | nil => simp at h
  | cons a l ih =>
    cases i with
    | zero =>
      simp only [List.getElem?_cons_zero, Option.some.injEq] at h
      subst h
      simp
    | succ i =>
      simp only [List.getElem?_cons_succ] at h
      have := ih h
      simp only [List.set_cons_succ, List.filter_cons]
      split <;> simp [this]

theorem unsaved_erase {l : List Stage} {i : Nat} (h : l[i]? = some .resetting) :
    ((l.eraseIdx i).filter (fun x => decide (x = .saving))).length = (l.filter (fun x => decide (x = .saving))).length := by
  induction l generalizing i with
  | nil => simp at h
  | cons a l ih =>
    cases i with
    | zero =>
      simp only [List.getElem?_cons_zero, Option.some.injEq] at h
      subst h
      simp
    | succ i =>
      simp only [List.getElem?_cons_succ] at h
      have := ih h
      simp only [List.eraseIdx_cons_succ, List.filter_cons]
      split <;> simp [this]

theorem closed_step (c : Cfg) (s : State) (hc : s.closed = true) (e : Event) :
    (step c s e).closed = true ∧ byTimer (step c s e) + unsaved (step c s e) = byTimer s + unsaved s := by
  cases e with
  | start => simp [step, hc]
  | change => simp [step, hc]
  | close => simp [step, hc]
  | fire t =>
    simp only [step, hc, if_true]
    split <;> exact ⟨by first | exact hc | rfl, rfl⟩
  | save i =>
    simp only [step]
    split
    · rename_i hr
      refine ⟨hc, ?_⟩
      have := unsaved_set hr
      simp only [byTimer, unsaved, List.filter_cons, decide_true, if_true, List.length_cons]
      omega
    · exact ⟨hc, rfl⟩
  | reset i =>
    simp only [step]
    split
    · rename_i hr
      have h1 : ∀ s' : State, (stopTimer s').closed = s'.closed ∧ (stopTimer s').saves = s'.saves ∧ (stopTimer s').runs = s'.runs := by
        intro s'; unfold stopTimer; split <;> exact ⟨rfl, rfl, rfl⟩
      obtain ⟨a, b, d⟩ := h1 { s with runs := s.runs.eraseIdx i }
      refine ⟨a.trans hc, ?_⟩
      simp only [setTimer, byTimer, unsaved, b, d]
      rw [unsaved_erase hr]
    · exact ⟨hc, rfl⟩

/-- **C202.** After `Close` no automatic save begins: those made later are those that were running when it closed. For a
store initialised once that is at most one (`C202_one`). -/
theorem C202_after_close (c : Cfg) (s : State) (es : List Event) :
    byTimer (run c (step c s .close) es) ≤ byTimer (step c s .close) + unsaved (step c s .close) := by
  have hc : (step c s .close).closed = true := by
    simp only [step]; split
    · assumption
    · rfl
  generalize step c s .close = t at hc
  induction es generalizing t with
  | nil => exact Nat.le_add_right _ _
  | cons e es ih =>
    obtain ⟨h1, h2⟩ := closed_step c t hc e
    have := ih (step c t e) h1
    rw [h2] at this
    exact this

/-- What is left to happen: a timer can fire, a run can save and then set a timer. -/
def weight (s : State) : Nat := s.pending.length + (s.runs.map (fun x => if x = .saving then 3 else 2)).sum

/-- An event by which something happens. -/
def Active (s : State) : Event → Prop
  | .fire t => t ∈ s.pending
  | .save i => s.runs[i]? = some .saving
  | .reset i => s.runs[i]? = some .resetting
  | _ => False

theorem sum_set {l : List Stage} {i : Nat} (h : l[i]? = some .saving) :
    ((l.set i .resetting).map (fun x => if x = .saving then 3 else 2)).sum + 1 = (l.map (fun x => if x = Stage.saving then 3 else 2)).sum := by
  induction l generalizing i with
  | nil => simp at h
  | cons a l ih =>
    cases i with
    | zero =>
      simp only [List.getElem?_cons_zero, Option.some.injEq] at h
      subst h
      simp; omega
    | succ i =>
      simp only [List.getElem?_cons_succ] at h
      have := ih h
      simp only [List.set_cons_succ, List.map_cons, List.sum_cons]
      omega

theorem sum_erase {l : List Stage} {i : Nat} (h : l[i]? = some .resetting) :
    ((l.eraseIdx i).map (fun x => if x = .saving then 3 else 2)).sum + 2 = (l.map (fun x => if x = Stage.saving then 3 else 2)).sum := by
  induction l generalizing i with
  | nil => simp at h
  | cons a l ih =>
    cases i with
    | zero =>
      simp only [List.getElem?_cons_zero, Option.some.injEq] at h
      subst h
      simp; omega
    | succ i =>
      simp only [List.getElem?_cons_succ] at h
      have := ih h
      simp only [List.eraseIdx_cons_succ, List.map_cons, List.sum_cons]
      omega

/-- **C202.** After `Close` the goroutines of automatic saving die out: everything they do makes the number of things left
to do smaller, so every schedule ends with no timer set and nothing running. -/
theorem C202_dies_out (c : Cfg) (s : State) (hc : s.closed = true) (e : Event) :
    (Active s e → weight (step c s e) < weight s) ∧ (¬ Active s e → weight (step c s e) = weight s) ∧
    (weight s = 0 → s.pending = [] ∧ s.runs = []) := by
  refine ⟨?_, ?_, ?_⟩
  · cases e with
    | start => nofun
    | change => nofun
    | close => nofun
    | fire t =>
      intro ht
      have ht' : t ∈ s.pending := ht
      simp only [step, hc, if_true, ht', weight]
      have : (s.pending.filter (fun x => decide (x ≠ t))).length < s.pending.length :=
        List.length_filter_lt_length_iff_exists.2 ⟨t, ht', by simp⟩
      omega
    | save i =>
      intro hr
      have hr' : s.runs[i]? = some .saving := hr
      simp only [step, hr', weight]
      have := sum_set hr'
      omega
    | reset i =>
      intro hr
      have hr' : s.runs[i]? = some .resetting := hr
      have hs := sum_erase hr'
      simp only [step, hr', setTimer, weight, stopTimer]
      split
      · simp; omega
      · rename_i t _
        have := List.length_filter_le (fun x => decide (x ≠ t)) s.pending
        simp only [List.length_cons]
        omega
  · intro hn
    cases e with
    | start => simp [step, hc]
    | change => simp [step, hc]
    | close => simp [step, hc]
    | fire t =>
      have : t ∉ s.pending := hn
      simp [step, this]
    | save i =>
      have hn' : s.runs[i]? ≠ some .saving := hn
      simp only [step]
    | reset i =>
      have hn' : s.runs[i]? ≠ some .resetting := hn
      simp only [step]
  · intro h
    have h1 : s.pending.length = 0 := by unfold weight at h; omega
    refine ⟨List.length_eq_zero_iff.1 h1, ?_⟩
    cases hr : s.runs with
    | nil => rfl
    | cons a l =>
      simp only [weight, hr, List.map_cons, List.sum_cons] at h
      split at h <;> omega

/-- **C202, violated.** `SaveOnClose` is not looked at: closing an open store saves whatever it says, also with automatic
saving off. -/
theorem C202_save_on_close_violated (c : Cfg) (hc : c.saveOnClose = false) (s : State) (ho : s.closed = false) :
    (step c s .close).saves = (.close, s.changes) :: s.saves := by
  simp [step, ho]

/-- **C202, violated.** `MinChanges` is not looked at: however great it is, a timer that fires on an open store is followed
by a save, also when nothing has changed. -/
theorem C202_min_changes_violated (c : Cfg) (hc : 0 < c.minChanges) (s : State) (ho : s.closed = false) (t : Nat) (ht : t ∈ s.pending)
    (h0 : s.changes = 0) :
    (run c s [.fire t, .save s.runs.length]).saves = (.timer, 0) :: s.saves := by
  simp [run, step, ht, ho, h0]

/-- **C202, violated.** Initialising a store twice sets two timers, and two automatic saves run at once. -/
theorem C202_two_violated (c : Cfg) (hc : c.enabled = true) :
    (run c init [.start, .start, .fire 0, .fire 1]).runs = [.saving, .saving] := by
  simp [run, step, init, hc, setTimer]

example : (run ⟨true, true, 100⟩ init [.start, .change, .fire 0, .save 0, .change, .reset 0, .fire 1, .close, .save 0, .reset 0, .fire 2]) =
    ⟨true, [], some 2, 3, [], 0, [(.timer, 0), (.close, 1), (.timer, 1)]⟩ := by decide

example : Active (run ⟨true, true, 100⟩ init [.start, .fire 0, .close]) (.save 0) ∧
    (run ⟨true, true, 100⟩ init [.start, .fire 0, .close]).closed = true := by
  constructor
  · show _ = _; decide
  · decide

end Verif.AutoSave
