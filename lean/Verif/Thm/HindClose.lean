import Verif.Model.HindClose
import Mathlib.Data.List.Basic

/-!
C231: closing the memory system finishes the extractions under way.
-/
namespace Verif.HindClose

/-- An extraction the wait group counts. -/
def live (t : Th) : Bool :=
  match t.w with
  | .none => t.p == .counted
  | .over _ => false
  | _ => true

theorem countP_set (p : Th → Bool) (l : List Th) : ∀ (i : Nat) (a b : Th), l[i]? = some a →
    (l.set i b).countP p + (if p a then 1 else 0) = l.countP p + (if p b then 1 else 0) := by
  induction l with
  | nil => intro i a b h; simp at h
  | cons x l ih =>
    intro i a b h
    cases i with
    | zero =>
      simp only [List.getElem?_cons_zero, Option.some.injEq] at h
      subst h
      simp only [List.set_cons_zero, List.countP_cons]
      omega
    | succ i =>
      simp only [List.getElem?_cons_succ] at h
      have := ih i a b h
      simp only [List.set_cons_succ, List.countP_cons]
      omega

/-- What holds in every state. -/
structure Inv (s : State) : Prop where
  wg : s.wg = s.th.countP live
  shape : ∀ t ∈ s.th, t.w ≠ .none ↔ t.p = .returned true
  closer : s.closer = .closed ↔ s.isOpen = false
  fine : s.isOpen = true → ∀ t ∈ s.th, t.w ≠ .ended false ∧ t.w ≠ .over false

theorem inv_init (every : Int) (n : Nat) : Inv (init every n) := by
  refine ⟨?_, ?_, by simp [init], ?_⟩
  · symm
    show (List.replicate n (⟨.begin, .none⟩ : Th)).countP live = 0
    rw [List.countP_eq_zero]
    intro t ht
    rw [List.eq_of_mem_replicate ht]
    simp [live]
  · intro t ht
    rw [List.eq_of_mem_replicate ht]
    simp
  · intro _ t ht
    rw [List.eq_of_mem_replicate ht]
    simp

/-- Replacing one thread. -/
theorem inv_set {s : State} (h : Inv s) {i : Nat} {t u : Th} (ht : s.th[i]? = some t) (wg : Nat) (count : Int)
    (hw : wg + (if live t then 1 else 0) = s.wg + (if live u then 1 else 0)) (hs : u.w ≠ .none ↔ u.p = .returned true)
    (hf : s.isOpen = true → u.w ≠ .ended false ∧ u.w ≠ .over false) :
    Inv { s with wg := wg, count := count, th := s.th.set i u } := by
  have hc := countP_set live s.th i t u ht
  refine ⟨?_, ?_, h.closer, ?_⟩
  · have := h.wg
    simp only
    omega
  · intro x hx
    rcases List.mem_or_eq_of_mem_set hx with hx | rfl
    · exact h.shape x hx
    · exact hs
  · intro ho x hx
    rcases List.mem_or_eq_of_mem_set hx with hx | rfl
    · exact h.fine ho x hx
    · exact hf ho

theorem inv_step {s : State} (h : Inv s) (m : Move) : Inv (step s m) := by
  cases m with
  | call i =>
    simp only [step, callStep]
    cases ht : s.th[i]? with
    | none => exact h
    | some t =>
      have hm := List.mem_of_getElem? ht
      have hsh := h.shape t hm
      have hfi := fun ho => h.fine ho t hm
      obtain ⟨p, w⟩ := t
      simp only at hsh hfi
      cases p with
      | begin =>
        have hw : w = .none := by by_contra hw; simpa using hsh.1 hw
        subst hw
        simp only
        apply inv_set h ht
        · simp only [live]; cases s.isOpen <;> simp
        · cases s.isOpen <;> simp
        · intro ho; simp
      | wrote =>
        have hw : w = .none := by by_contra hw; simpa using hsh.1 hw
        subst hw
        simp only
        split_ifs
        · apply inv_set h ht
          · simp [live]
          · simp
          · simp
        · apply inv_set h ht
          · simp [live]
          · simp
          · simp
      | fired =>
        have hw : w = .none := by by_contra hw; simpa using hsh.1 hw
        subst hw
        apply inv_set h ht
        · simp [live]
        · simp
        · simp
      | counted =>
        have hw : w = .none := by by_contra hw; simpa using hsh.1 hw
        subst hw
        apply inv_set h ht
        · simp [live]
        · simp
        · simp
      | returned b => exact h
      | refused => exact h
  | work i =>
    simp only [step, workStep]
    cases ht : s.th[i]? with
    | none => exact h
    | some t =>
      have hm := List.mem_of_getElem? ht
      have hsh := h.shape t hm
      have hfi := fun ho => h.fine ho t hm
      obtain ⟨p, w⟩ := t
      simp only at hsh hfi
      cases w with
      | none => exact h
      | over b => exact h
      | ready =>
        have hp := hsh.1 (by simp)
        subst hp
        apply inv_set h ht
        · simp only [live]; cases s.isOpen <;> simp
        · cases s.isOpen <;> simp
        · intro ho; simp [ho]
      | read =>
        have hp := hsh.1 (by simp)
        subst hp
        apply inv_set h ht
        · simp [live]
        · simp
        · intro ho; simp [ho]
      | ended b =>
        have hp := hsh.1 (by simp)
        subst hp
        have hpos : 0 < s.th.countP live := List.countP_pos_iff.2 ⟨_, hm, by simp [live]⟩
        apply inv_set h ht
        · simp only [live]
          have := h.wg
          simp
          omega
        · simp
        · intro ho
          have := (hfi ho).1
          simp only [ne_eq, WC.ended.injEq] at this
          simp [this]
  | close =>
    simp only [step, closeStep]
    cases hc : s.closer with
    | idle =>
      have ho : s.isOpen = true := by
        by_contra ho
        have := h.closer.2 (by simpa using ho)
        rw [hc] at this; cases this
      exact ⟨h.wg, h.shape, by simp [ho], h.fine⟩
    | waiting =>
      have ho : s.isOpen = true := by
        by_contra ho
        have := h.closer.2 (by simpa using ho)
        rw [hc] at this; cases this
      simp only
      split_ifs
      · exact ⟨h.wg, h.shape, by simp [ho], h.fine⟩
      · exact h
    | passed => exact ⟨h.wg, h.shape, by simp, by simp⟩
    | closed => exact h

theorem inv_run {s : State} (h : Inv s) (l : List Move) : Inv (run s l) := by
  induction l generalizing s with
  | nil => exact h
  | cons m l ih => exact ih (inv_step h m)

/-- Call `i` has returned and started an extraction, and once `Close` has waited the facts are stored. -/
def Kept (i : Nat) (s : State) : Prop :=
  ∃ w, s.th[i]? = some ⟨.returned true, w⟩ ∧ w ≠ .none ∧ (s.closer = .passed ∨ s.closer = .closed → w = .over true)

theorem kept_step {s : State} (h : Inv s) {i : Nat} (hk : Kept i s) (m : Move) : Kept i (step s m) := by
  obtain ⟨w, hw, hn, hp⟩ := hk
  have hlt : i < s.th.length := (List.getElem?_eq_some_iff.1 hw).1
  cases m with
  | call j =>
    have hcl : (callStep s j).closer = s.closer ∧ (j ≠ i → (callStep s j).th[i]? = s.th[i]?) ∧ (j = i → callStep s j = s) := by
      refine ⟨?_, ?_, ?_⟩
      · unfold callStep; split
        · rfl
        · split
          · rfl
          · split_ifs <;> rfl
          · rfl
          · rfl
          · rfl
      · intro hne
        unfold callStep; split
        · rfl
        · split
          · simp [List.getElem?_set, hne]
          · split_ifs <;> simp [List.getElem?_set, hne]
          · simp [List.getElem?_set, hne]
          · simp [List.getElem?_set, hne]
          · rfl
      · rintro rfl
        unfold callStep
        rw [hw]
    by_cases hj : j = i
    · show Kept i (callStep s j)
      rw [hcl.2.2 hj]; exact ⟨w, hw, hn, hp⟩
    · exact ⟨w, by rw [← hw]; exact hcl.2.1 hj, hn, by rw [show (step s (.call j)).closer = s.closer from hcl.1]; exact hp⟩
  | work j =>
    by_cases hj : j = i
    · subst hj
      show Kept j (workStep s j)
      unfold workStep
      rw [hw]
      cases w with
      | none => exact absurd rfl hn
      | over b => exact ⟨_, hw, hn, hp⟩
      | ready =>
        refine ⟨if s.isOpen then .read else .ended false, by simp [hlt], ?_, ?_⟩
        · cases s.isOpen <;> simp
        · intro hc; have := hp hc; cases this
      | read =>
        refine ⟨.ended s.isOpen, by simp [hlt], by simp, ?_⟩
        intro hc; have := hp hc; cases this
      | ended b =>
        refine ⟨.over b, by simp [hlt], by simp, ?_⟩
        intro hc; have := hp hc; cases this
    · have hcl : (workStep s j).closer = s.closer ∧ (workStep s j).th[i]? = s.th[i]? := by
        unfold workStep; split
        · exact ⟨rfl, rfl⟩
        · split
          · exact ⟨rfl, by simp [List.getElem?_set, hj]⟩
          · exact ⟨rfl, by simp [List.getElem?_set, hj]⟩
          · exact ⟨rfl, by simp [List.getElem?_set, hj]⟩
          · exact ⟨rfl, rfl⟩
      exact ⟨w, by rw [← hw]; exact hcl.2, hn, by rw [show (step s (.work j)).closer = s.closer from hcl.1]; exact hp⟩
  | close =>
    show Kept i (closeStep s)
    unfold closeStep
    cases hc : s.closer with
    | idle => exact ⟨w, hw, hn, by simp⟩
    | waiting =>
      simp only
      split_ifs with h0
      · refine ⟨w, hw, hn, fun _ => ?_⟩
        have hm := List.mem_of_getElem? hw
        have hl : live ⟨.returned true, w⟩ = false := by
          have := h.wg
          rw [h0] at this
          by_contra hl
          have hpos : 0 < s.th.countP live := List.countP_pos_iff.2 ⟨_, hm, by simpa using hl⟩
          omega
        have ho : s.isOpen = true := by
          by_contra ho
          have := h.closer.2 (by simpa using ho)
          rw [hc] at this; cases this
        have hf := (h.fine ho _ hm).2
        cases w with
        | none => exact absurd rfl hn
        | ready => simp [live] at hl
        | read => simp [live] at hl
        | ended b => simp [live] at hl
        | over b => cases b with
          | true => rfl
          | false => exact absurd rfl hf
      · exact ⟨w, hw, hn, hp⟩
    | passed => exact ⟨w, hw, hn, fun _ => hp (Or.inl hc)⟩
    | closed => exact ⟨w, hw, hn, hp⟩

/-- C231, proved part: an extraction started by a call of `AddMessage` that returned before `Close` was called has stored its facts when `Close` returns, whatever other messages arrive before, during and
after, in every schedule. Missing: calls that overlap with `Close`, see below. -/
theorem C231_waits_partial (every : Int) (n : Nat) (before after : List Move) (i : Nat) (w : WC) :
    let s := run (init every n) before
    s.closer = .idle → s.th[i]? = some ⟨.returned true, w⟩ →
    let t := run s after
    t.closer = .closed → t.th[i]? = some ⟨.returned true, .over true⟩ := by
  intro s hidle hi t hclosed
  have hs : Inv s := inv_run (inv_init every n) before
  have hk : Kept i s := ⟨w, hi, (hs.shape _ (List.mem_of_getElem? hi)).2 rfl, by rw [hidle]; simp⟩
  have key : ∀ (l : List Move) (x : State), Inv x → Kept i x → Kept i (run x l) := by
    intro l
    induction l with
    | nil => intro x _ hx; exact hx
    | cons m l ih => intro x hx1 hx2; exact ih _ (inv_step hx1 m) (kept_step hx1 hx2 m)
  obtain ⟨w', hw', _, hp⟩ := key after s hs hk
  rw [hp (Or.inr hclosed)] at hw'
  exact hw'

/-- C231: as long as the database is open no extraction loses its facts; the wait group counts exactly the extractions under way, so it never goes below zero. -/
theorem C231_counted (every : Int) (n : Nat) (l : List Move) :
    let s := run (init every n) l
    s.wg = s.th.countP live ∧ (s.isOpen = true → ∀ t ∈ s.th, t.w ≠ .ended false ∧ t.w ≠ .over false) ∧
      ∀ t ∈ s.th, (∃ b, t.w = .ended b) → 0 < s.wg := by
  intro s
  have h : Inv s := inv_run (inv_init every n) l
  refine ⟨h.wg, h.fine, ?_⟩
  rintro t ht ⟨b, hb⟩
  rw [h.wg]
  exact List.countP_pos_iff.2 ⟨t, ht, by simp [live, hb]⟩

/-! ### Close returns -/

/-- A call between its beginning and its return. -/
def Busy (t : Th) : Prop := t.p = .wrote ∨ t.p = .fired ∨ t.p = .counted

/-- Three steps finish an extraction and change no other call. -/
theorem finish_one {s : State} (h : Inv s) (hb : ∀ t ∈ s.th, ¬Busy t) (i : Nat) :
    let s' := run s [.work i, .work i, .work i]
    s'.closer = s.closer ∧ s'.th.length = s.th.length ∧ (∀ t ∈ s'.th, ¬Busy t) ∧ (∀ t, s'.th[i]? = some t → live t = false) ∧ ∀ j ≠ i, s'.th[j]? = s.th[j]? := by
  intro s'
  have hs' : s' = workStep (workStep (workStep s i) i) i := rfl
  cases ht : s.th[i]? with
  | none =>
    have h1 : workStep s i = s := by unfold workStep; rw [ht]
    have : s' = s := by rw [hs', h1, h1, h1]
    rw [this, ht]
    exact ⟨rfl, rfl, hb, by simp, fun _ _ => rfl⟩
  | some t =>
    have hm := List.mem_of_getElem? ht
    have hlt : i < s.th.length := (List.getElem?_eq_some_iff.1 ht).1
    obtain ⟨p, w⟩ := t
    have hbt : ¬Busy ⟨p, w⟩ := hb _ hm
    have fin : ∀ b wg, s' = { s with wg := wg, th := s.th.set i ⟨p, .over b⟩ } → s'.closer = s.closer ∧ s'.th.length = s.th.length ∧ (∀ t ∈ s'.th, ¬Busy t) ∧
        (∀ t, s'.th[i]? = some t → live t = false) ∧ ∀ j ≠ i, s'.th[j]? = s.th[j]? := by
      intro b wg he
      rw [he]
      refine ⟨rfl, by simp, ?_, ?_, ?_⟩
      · intro x hx
        rcases List.mem_or_eq_of_mem_set hx with hx | rfl
        · exact hb x hx
        · exact hbt
      · intro x hx
        simp only [List.getElem?_set_self hlt, Option.some.injEq] at hx
        rw [← hx]; rfl
      · intro j hj
        simp [List.getElem?_set, Ne.symm hj]
    have e3 : ∀ (x : State) b, x.th[i]? = some ⟨p, .ended b⟩ → workStep x i = { x with wg := x.wg - 1, th := x.th.set i ⟨p, .over b⟩ } := by
      intro x b hx; unfold workStep; rw [hx]
    have e4 : ∀ (x : State) b, x.th[i]? = some ⟨p, .over b⟩ → workStep x i = x := by
      intro x b hx; unfold workStep; rw [hx]
    have e2 : ∀ (x : State), x.th[i]? = some ⟨p, .read⟩ → workStep x i = { x with th := x.th.set i ⟨p, .ended x.isOpen⟩ } := by
      intro x hx; unfold workStep; rw [hx]
    cases w with
    | none =>
      have h1 : workStep s i = s := by unfold workStep; rw [ht]
      have : s' = s := by rw [hs', h1, h1, h1]
      rw [this, ht]
      refine ⟨rfl, rfl, hb, ?_, fun _ _ => rfl⟩
      intro t he
      simp only [Option.some.injEq] at he
      rw [← he]
      simp only [live, beq_eq_false_iff_ne, ne_eq]
      intro hp
      exact hbt (Or.inr (Or.inr hp))
    | over b =>
      have h1 := e4 s b ht
      have : s' = s := by rw [hs', h1, h1, h1]
      rw [this, ht]
      refine ⟨rfl, rfl, hb, ?_, fun _ _ => rfl⟩
      intro t he
      simp only [Option.some.injEq] at he
      rw [← he]
      rfl
    | ended b =>
      refine fin b (s.wg - 1) ?_
      have h2 : ∀ wg, ({ s with wg := wg, th := s.th.set i ⟨p, .over b⟩ } : State).th[i]? = some ⟨p, .over b⟩ := by intro wg; simp [hlt]
      rw [hs', e3 s b ht, e4 _ b (h2 _), e4 _ b (h2 _)]
    | read =>
      refine fin s.isOpen (s.wg - 1) ?_
      have h1 : ({ s with th := s.th.set i ⟨p, .ended s.isOpen⟩ } : State).th[i]? = some ⟨p, .ended s.isOpen⟩ := by simp [hlt]
      rw [hs', e2 s ht, e3 _ s.isOpen h1]
      rw [e4 _ s.isOpen (by simp [hlt])]
      simp
    | ready =>
      have e1 : workStep s i = { s with th := s.th.set i ⟨p, if s.isOpen then .read else .ended false⟩ } := by
        unfold workStep; rw [ht]
      by_cases ho : s.isOpen = true
      · rw [if_pos ho] at e1
        refine fin s.isOpen (s.wg - 1) ?_
        have h1 : ({ s with th := s.th.set i ⟨p, .read⟩ } : State).th[i]? = some ⟨p, .read⟩ := by simp [hlt]
        rw [hs', e1, e2 _ h1]
        rw [e3 _ s.isOpen (by simp [hlt])]
        simp
      · rw [if_neg ho] at e1
        refine fin false (s.wg - 1) ?_
        have h1 : ({ s with th := s.th.set i ⟨p, .ended false⟩ } : State).th[i]? = some ⟨p, .ended false⟩ := by simp [hlt]
        rw [hs', e1, e3 _ false h1]
        rw [e4 _ false (by simp [hlt])]
        simp

/-- C231: `Close` does not wait for ever: when no call of `AddMessage` is under way, letting each extraction take its steps lets `Close` return. -/
theorem C231_returns (every : Int) (n : Nat) (l : List Move) :
    let s := run (init every n) l
    (∀ t ∈ s.th, ¬Busy t) →
    (run s ((List.range n).flatMap (fun i => [.work i, .work i, .work i]) ++ [.close, .close, .close])).closer = .closed := by
  intro s hb
  have hs : Inv s := inv_run (inv_init every n) l
  have hlen : s.th.length = n := by
    have stp : ∀ (x : State) (m : Move), (step x m).th.length = x.th.length := by
      intro x m
      cases m with
      | call i => simp only [step, callStep]; split
                  · rfl
                  · split
                    · simp
                    · split_ifs <;> simp
                    · simp
                    · simp
                    · rfl
      | work i => simp only [step, workStep]; split
                  · rfl
                  · split <;> simp
      | close => simp only [step, closeStep]; split
                 · rfl
                 · split_ifs <;> rfl
                 · rfl
                 · rfl
    have : ∀ (l : List Move) (x : State), (run x l).th.length = x.th.length := by
      intro l
      induction l with
      | nil => intro x; rfl
      | cons m l ih => intro x; exact (ih (step x m)).trans (stp x m)
    rw [this]; simp [init]
  have key : ∀ k : Nat, let x := run s ((List.range k).flatMap (fun i => [.work i, .work i, .work i]))
      Inv x ∧ x.th.length = n ∧ (∀ t ∈ x.th, ¬Busy t) ∧ ∀ j < k, ∀ t, x.th[j]? = some t → live t = false := by
    intro k
    induction k with
    | zero => exact ⟨hs, hlen, hb, by simp⟩
    | succ k ih =>
      obtain ⟨h1, h2, h3, h4⟩ := ih
      have hrun : run s ((List.range (k + 1)).flatMap (fun i => [.work i, .work i, .work i])) =
          run (run s ((List.range k).flatMap (fun i => [.work i, .work i, .work i]))) [.work k, .work k, .work k] := by
        rw [List.range_succ, List.flatMap_append]
        unfold run
        rw [List.foldl_append]
        simp
      obtain ⟨_, f2, f3, f4, f5⟩ := finish_one h1 h3 k
      simp only [hrun]
      refine ⟨inv_run h1 _, by rw [f2, h2], f3, ?_⟩
      intro j hj t ht
      by_cases hjk : j = k
      · subst hjk; exact f4 t ht
      · rw [f5 j hjk] at ht
        exact h4 j (by omega) t ht
  obtain ⟨k1, k2, _, k4⟩ := key n
  set x := run s ((List.range n).flatMap (fun i => [.work i, .work i, .work i])) with hx
  have hwg : x.wg = 0 := by
    rw [k1.wg, List.countP_eq_zero]
    intro t ht
    obtain ⟨j, hj⟩ := List.mem_iff_getElem?.1 ht
    have hjn : j < n := by rw [← k2]; exact (List.getElem?_eq_some_iff.1 hj).1
    rw [k4 j hjn t hj]; simp
  have hr : run s ((List.range n).flatMap (fun i => [.work i, .work i, .work i]) ++ [.close, .close, .close]) = closeStep (closeStep (closeStep x)) := by
    unfold run; rw [List.foldl_append]; rfl
  rw [hr]
  unfold closeStep
  cases hc : x.closer <;> simp [hwg, hc]

/-! ### Violations -/

/-- C231 is violated: `Close` does not wait for a call of `AddMessage` that has written its message but not yet reached the wait group, for every state in which nothing else is under way: the call returns without
error after `Close`, and its extraction loses the facts. -/
theorem C231_overlap_violated (s : State) (i : Nat) (hi : s.th[i]? = some ⟨.wrote, .none⟩) (hev : s.every ≤ s.count + 1) (hc : s.closer = .idle) (ho : s.isOpen = true) (hw : s.wg = 0) :
    let t := run s [.close, .close, .close, .call i, .call i, .call i, .work i, .work i]
    t.closer = .closed ∧ t.th[i]? = some ⟨.returned true, .over false⟩ := by
  have hlt : i < s.th.length := (List.getElem?_eq_some_iff.1 hi).1
  obtain ⟨every, count, wg, isOpen, closer, th⟩ := s
  simp only at hi hev hc ho hw hlt
  subst hc ho hw
  have hi' : th[i] = ⟨.wrote, .none⟩ := (List.getElem?_eq_some_iff.1 hi).2
  simp [run, step, closeStep, callStep, workStep, hi', hev, hlt]

/-- Two calls with a trigger of two: the second starts an extraction; it has returned before `Close` is called, and its facts are there afterwards. -/
example : (run (init 2 2) [.call 0, .call 0, .call 1, .call 1, .call 1, .call 1]).th[1]? = some ⟨.returned true, .ready⟩ ∧
    (run (init 2 2) [.call 0, .call 0, .call 1, .call 1, .call 1, .call 1]).closer = .idle ∧
    (run (init 2 2) [.call 0, .call 0, .call 1, .call 1, .call 1, .call 1, .close, .close, .work 1, .close, .work 1, .work 1, .close, .close]).closer = .closed ∧
    (run (init 2 2) [.call 0, .call 0, .call 1, .call 1, .call 1, .call 1, .close, .close, .work 1, .close, .work 1, .work 1, .close, .close]).th[1]? = some ⟨.returned true, .over true⟩ := by
  decide

example : (run (init 1 1) [.call 0]).th[0]? = some ⟨.wrote, .none⟩ ∧ (run (init 1 1) [.call 0]).wg = 0 := by decide

end Verif.HindClose
