import Verif.Model.Lock
import Mathlib.Tactic.Common

/-!
# Locks: C28, C119, C120, C121
-/

namespace Verif.Lock

/-! ## Specification -/

/-- Everything has been done. -/
def Finished (s : State) : Prop := ∀ t ∈ s, t.todo = []

/-- Somebody still has something to do and nobody can move. -/
def Deadlocked (s : State) : Prop := ¬ Finished s ∧ ∀ i, step s i = none

/-- The states reachable from the start of some programs. -/
def Reachable (ps : List (List Op)) (s : State) : Prop := ∃ is, run (start ps) is = some s

/-- Two threads are about to access the same variable, one of them writing. -/
def Race (s : State) : Prop :=
  ∃ (i j : Nat) (t u : Thread) (v : Var), i ≠ j ∧ s[i]? = some t ∧ s[j]? = some u ∧ t.todo.head? = some (.wr v) ∧
    (u.todo.head? = some (.wr v) ∨ u.todo.head? = some (.rd v))

/-! ## The discipline: locks are taken in increasing order -/

/-- A program that takes its locks in increasing order and releases what it takes.  Locks that
nobody ever asks for exclusively (`ro`) may be taken at any time. -/
def ordered (ro : Nat → Bool) : Held → List Op → Prop
  | h, [] => h = []
  | h, .rlock l :: p => (ro l = true ∨ ∀ x ∈ h, x.1 < l) ∧ ordered ro (after h (.rlock l)) p
  | h, .want l :: p => ro l = false ∧ (∀ x ∈ h, x.1 < l) ∧ ordered ro (after h (.want l)) p
  | h, .lock l :: p => ro l = false ∧ (∃ h', h = (l, .wait) :: h' ∧ ∀ x ∈ h', x.1 < l) ∧
      ordered ro (after h (.lock l)) p
  | h, .runlock l :: p => (l, .r) ∈ h ∧ ordered ro (after h (.runlock l)) p
  | h, .unlock l :: p => (l, .w) ∈ h ∧ ordered ro (after h (.unlock l)) p
  | h, .rd _ :: p => ordered ro h p
  | h, .wr _ :: p => ordered ro h p

/-- No `ro` lock is held exclusively. -/
def Shared (ro : Nat → Bool) (h : Held) : Prop := ∀ x ∈ h, x.2 ≠ .r → ro x.1 = false

/-- What holds of every thread along a run. -/
def Good (ro : Nat → Bool) (t : Thread) : Prop := Shared ro t.held ∧ ordered ro t.held t.todo

theorem shared_after {ro : Nat → Bool} {h : Held} {op : Op} {p : List Op} (sh : Shared ro h)
    (o : ordered ro h (op :: p)) : Shared ro (after h op) := by
  intro x hx
  cases op with
  | rlock l =>
    rcases List.mem_cons.1 hx with rfl | hx
    · simp
    · exact sh x hx
  | want l =>
    rcases List.mem_cons.1 hx with rfl | hx
    · intro _; exact o.1
    · exact sh x hx
  | lock l =>
    rcases List.mem_cons.1 hx with rfl | hx
    · intro _; exact o.1
    · exact sh x (List.mem_of_mem_erase hx)
  | runlock l => exact sh x (List.mem_of_mem_erase hx)
  | unlock l => exact sh x (List.mem_of_mem_erase hx)
  | rd v => exact sh x hx
  | wr v => exact sh x hx

theorem ordered_tail {ro : Nat → Bool} {h : Held} {op : Op} {p : List Op} (o : ordered ro h (op :: p)) :
    ordered ro (after h op) p := by
  cases op <;> simp only [ordered, after] at o ⊢ <;> first | exact o.2.2 | exact o.2 | exact o

/-- What a step does. -/
theorem step_some {s s' : State} {i : Nat} (h : step s i = some s') :
    ∃ (t : Thread) (op : Op) (rest : List Op), s[i]? = some t ∧ t.todo = op :: rest ∧ can s t op = true ∧
      s' = s.set i ⟨after t.held op, rest⟩ := by
  unfold step at h
  split at h
  · simp at h
  · rename_i t ht
    split at h
    · simp at h
    · rename_i op rest ho
      split_ifs at h with hc
      exact ⟨t, op, rest, ht, ho, hc, by simpa using h.symm⟩

theorem step_iff {s : State} {i : Nat} {t : Thread} {op : Op} {rest : List Op}
    (ht : s[i]? = some t) (ho : t.todo = op :: rest) (hc : can s t op = true) :
    step s i = some (s.set i ⟨after t.held op, rest⟩) := by
  unfold step; rw [ht]; simp only [ho]; rw [if_pos hc]

theorem forall_set {α : Type*} {P : α → Prop} {s : List α} {i : Nat} {x : α} (h : ∀ t ∈ s, P t)
    (hx : P x) : ∀ t ∈ s.set i x, P t := by
  intro t ht
  rcases List.mem_or_eq_of_mem_set ht with h' | h'
  · exact h t h'
  · exact h' ▸ hx

theorem good_step {ro : Nat → Bool} {s s' : State} {i : Nat} (o : ∀ t ∈ s, Good ro t)
    (h : step s i = some s') : ∀ t ∈ s', Good ro t := by
  obtain ⟨t, op, rest, ht, ho, _, rfl⟩ := step_some h
  refine forall_set (P := Good ro) o ?_
  have hg := o t (List.mem_of_getElem? ht)
  have hor := hg.2
  rw [ho] at hor
  exact ⟨shared_after hg.1 hor, ordered_tail hor⟩

theorem run_inv {P : State → Prop} (hstep : ∀ s i s', P s → step s i = some s' → P s') :
    ∀ (is : List Nat) (s s' : State), P s → run s is = some s' → P s'
  | [], s, s', h, hr => by simp only [run, Option.some.injEq] at hr; exact hr ▸ h
  | i :: is, s, s', h, hr => by
    simp only [run] at hr
    split at hr
    · simp at hr
    · rename_i s1 h1
      exact run_inv hstep is s1 s' (hstep s i s1 h h1) hr

theorem start_good {ro : Nat → Bool} {ps : List (List Op)} (h : ∀ p ∈ ps, ordered ro [] p) :
    ∀ t ∈ start ps, Good ro t := by
  intro t ht
  simp only [start, List.mem_map] at ht
  obtain ⟨p, hp, rfl⟩ := ht
  exact ⟨fun x hx => by simp at hx, h p hp⟩

/-- How high the lock a thread waits for is. -/
def key (t : Thread) : Nat :=
  match t.todo with
  | .rlock l :: _ => 2 * l
  | .want l :: _ => 2 * l
  | .lock l :: _ => 2 * l + 1
  | _ => 0

/-- A waiting thread waits for a thread that waits for something higher. -/
theorem chain {ro : Nat → Bool} {s : State} (o : ∀ t ∈ s, Good ro t) (stuck : ∀ i, step s i = none)
    {t : Thread} (ht : t ∈ s) (hne : t.todo ≠ []) :
    ∃ u ∈ s, u.todo ≠ [] ∧ key t < key u := by
  have blocked : ∀ u ∈ s, ∀ op rest, u.todo = op :: rest → can s u op = false := by
    intro u hu op rest ho
    obtain ⟨i, hi⟩ := List.getElem?_of_mem hu
    by_contra hc
    have := step_iff hi ho (by simpa using hc)
    rw [stuck i] at this
    simp at this
  have free : ∀ l, ro l = true → ∀ u : Thread, can s u (.rlock l) = true := by
    intro l hl u
    simp only [can, List.all_eq_true, Bool.not_eq_true', Bool.or_eq_false_iff]
    intro v hv
    have hsh := (o v hv).1
    constructor
    all_goals
      by_contra hc
      simp only [Bool.not_eq_false, List.contains_iff_mem] at hc
      have := hsh _ hc (by simp)
      simp [hl] at this
  -- a thread holding lock `l` waits for something above
  have holds : ∀ u ∈ s, ∀ l m, (l, m) ∈ u.held → u.todo ≠ [] ∧
      (2 * l < key u) ∧ (m = .r → 2 * l + 1 < key u) := by
    intro u hu l m hm
    have ou := (o u hu).2
    match hto : u.todo with
    | [] => rw [hto] at ou; simp only [ordered] at ou; rw [ou] at hm; simp at hm
    | .rlock l' :: rest =>
      rw [hto] at ou; simp only [ordered] at ou
      rcases ou.1 with hro | ou1
      · exact absurd (blocked u hu _ _ hto) (by rw [free l' hro]; simp)
      have := ou1 _ hm
      simp only at this
      refine ⟨by simp, ?_, fun _ => ?_⟩ <;> simp only [key, hto] <;> omega
    | .want l' :: rest =>
      rw [hto] at ou; simp only [ordered] at ou
      have := ou.2.1 _ hm
      simp only at this
      refine ⟨by simp, ?_, fun _ => ?_⟩ <;> simp only [key, hto] <;> omega
    | .lock l' :: rest =>
      rw [hto] at ou; simp only [ordered] at ou
      obtain ⟨_, ⟨h', hh, hlt⟩, _⟩ := ou
      rw [hh] at hm
      rcases List.mem_cons.1 hm with hm | hm
      · cases hm
        refine ⟨by simp, ?_, fun h => by cases h⟩
        simp only [key, hto]; omega
      · have := hlt _ hm
        simp only at this
        refine ⟨by simp, ?_, fun _ => ?_⟩ <;> simp only [key, hto] <;> omega
    | .runlock l' :: rest =>
      have := blocked u hu _ _ hto
      rw [hto] at ou; simp only [ordered] at ou
      simp [can, ou.1] at this
    | .unlock l' :: rest =>
      have := blocked u hu _ _ hto
      rw [hto] at ou; simp only [ordered] at ou
      simp [can, ou.1] at this
    | .rd v :: rest => have := blocked u hu _ _ hto; simp [can] at this
    | .wr v :: rest => have := blocked u hu _ _ hto; simp [can] at this
  match hto : t.todo with
  | [] => exact absurd hto hne
  | .rlock l :: rest =>
    have hb := blocked t ht _ _ hto
    simp only [can, List.all_eq_false, Bool.not_eq_true, Bool.not_eq_false', Bool.or_eq_true,
      List.contains_iff_mem] at hb
    obtain ⟨u, hu, hb⟩ := hb
    rcases hb with hb | hb
    all_goals
      have := holds u hu l _ hb
      exact ⟨u, hu, this.1, by simpa only [key, hto] using this.2.1⟩
  | .want l :: rest =>
    have hb := blocked t ht _ _ hto
    simp only [can, List.all_eq_false, Bool.not_eq_true, Bool.not_eq_false', Bool.or_eq_true,
      List.contains_iff_mem] at hb
    obtain ⟨u, hu, hb⟩ := hb
    rcases hb with hb | hb
    all_goals
      have := holds u hu l _ hb
      exact ⟨u, hu, this.1, by simpa only [key, hto] using this.2.1⟩
  | .lock l :: rest =>
    have hb := blocked t ht _ _ hto
    have ot := (o t ht).2
    rw [hto] at ot; simp only [ordered] at ot
    obtain ⟨_, ⟨h', hh, _⟩, _⟩ := ot
    have hw : (l, Mode.wait) ∈ t.held := by rw [hh]; simp
    simp only [can, Bool.and_eq_false_iff, List.all_eq_false, Bool.not_eq_true,
      Bool.not_eq_false', List.contains_iff_mem] at hb
    rcases hb with hb | hb
    · simp [hw] at hb
    · obtain ⟨u, hu, hb⟩ := hb
      have := holds u hu l _ hb
      exact ⟨u, hu, this.1, by simpa only [key, hto] using this.2.2 rfl⟩
  | .runlock l :: rest =>
    have hb := blocked t ht _ _ hto
    have ot := (o t ht).2
    rw [hto] at ot; simp only [ordered] at ot
    simp [can, ot.1] at hb
  | .unlock l :: rest =>
    have hb := blocked t ht _ _ hto
    have ot := (o t ht).2
    rw [hto] at ot; simp only [ordered] at ot
    simp [can, ot.1] at hb
  | .rd v :: rest => have := blocked t ht _ _ hto; simp [can] at this
  | .wr v :: rest => have := blocked t ht _ _ hto; simp [can] at this

theorem key_bounded (s : State) : ∃ M, ∀ t ∈ s, key t ≤ M := by
  induction s with
  | nil => exact ⟨0, by simp⟩
  | cons a s ih =>
    obtain ⟨M, hM⟩ := ih
    refine ⟨max (key a) M, ?_⟩
    intro t ht
    rcases List.mem_cons.1 ht with rfl | ht
    · omega
    · have := hM t ht; omega

theorem not_deadlocked {ro : Nat → Bool} {s : State} (o : ∀ t ∈ s, Good ro t) : ¬ Deadlocked s := by
  rintro ⟨hf, stuck⟩
  simp only [Finished, not_forall] at hf
  obtain ⟨t, ht, hne⟩ := hf
  obtain ⟨M, hM⟩ := key_bounded s
  have : ∀ n, ∃ u ∈ s, u.todo ≠ [] ∧ n ≤ key u := by
    intro n
    induction n with
    | zero => exact ⟨t, ht, hne, Nat.zero_le _⟩
    | succ n ih =>
      obtain ⟨u, hu, hune, hk⟩ := ih
      obtain ⟨v, hv, hvne, hlt⟩ := chain o stuck hu hune
      exact ⟨v, hv, hvne, by omega⟩
  obtain ⟨u, hu, _, hk⟩ := this (M + 1)
  have := hM u hu
  omega

/-! ## Every run comes to its end -/

/-- Events still to do. -/
def remaining (s : State) : Nat := (s.map fun t => t.todo.length).sum

theorem sum_set {α : Type*} (f : α → Nat) : ∀ (s : List α) (i : Nat) (t x : α),
    s[i]? = some t → f t = f x + 1 → (s.map f).sum = ((s.set i x).map f).sum + 1
  | [], _, _, _, h, _ => by simp at h
  | a :: s, 0, t, x, h, hf => by
    simp only [List.getElem?_cons_zero, Option.some.injEq] at h
    subst h
    simp only [List.set_cons_zero, List.map_cons, List.sum_cons]
    omega
  | a :: s, i + 1, t, x, h, hf => by
    simp only [List.getElem?_cons_succ] at h
    have := sum_set f s i t x h hf
    simp only [List.set_cons_succ, List.map_cons, List.sum_cons]
    omega

theorem remaining_step {s s' : State} {i : Nat} (h : step s i = some s') :
    remaining s = remaining s' + 1 := by
  obtain ⟨t, op, rest, ht, ho, _, rfl⟩ := step_some h
  exact sum_set _ s i t _ ht (by rw [ho]; simp)

theorem remaining_run : ∀ (is : List Nat) (s s' : State), run s is = some s' →
    remaining s = remaining s' + is.length
  | [], s, s', h => by simp only [run, Option.some.injEq] at h; simp [h]
  | i :: is, s, s', h => by
    simp only [run] at h
    split at h
    · simp at h
    · rename_i s1 h1
      have := remaining_run is s1 s' h
      have := remaining_step h1
      simp only [List.length_cons]
      omega

theorem completes {ro : Nat → Bool} : ∀ (n : Nat) (s : State), remaining s ≤ n → (∀ t ∈ s, Good ro t) →
    ∃ is s', run s is = some s' ∧ Finished s'
  | n, s, hn, o => by
    by_cases hf : Finished s
    · exact ⟨[], s, rfl, hf⟩
    · have hd := not_deadlocked o
      simp only [Deadlocked, hf, not_false_eq_true, true_and, not_forall] at hd
      obtain ⟨i, hi⟩ := hd
      obtain ⟨s1, h1⟩ := Option.ne_none_iff_exists'.1 hi
      have hr := remaining_step h1
      match n, hn with
      | 0, hn => omega
      | n + 1, hn =>
        obtain ⟨is, s', hrun, hfin⟩ := completes n s1 (by omega) (good_step o h1)
        exact ⟨i :: is, s', by simp only [run, h1, hrun], hfin⟩

/-! ## Which calls keep the discipline -/

/-- A piece of a program that, started holding only locks below `lo`, leaves them as they were
and takes its own in order. -/
def Clean (ro : Nat → Bool) (lo : Nat) (p : List Op) : Prop :=
  ∀ h rest, (∀ x ∈ h, x.1 < lo) → ordered ro h rest → ordered ro h (p ++ rest)

theorem clean_nil {ro : Nat → Bool} {lo : Nat} : Clean ro lo [] := fun _ _ _ o => o

theorem clean_append {ro : Nat → Bool} {lo : Nat} {p q : List Op} (hp : Clean ro lo p) (hq : Clean ro lo q) :
    Clean ro lo (p ++ q) := by
  intro h rest hl o
  rw [List.append_assoc]
  exact hp h _ hl (hq h _ hl o)

theorem clean_mono {ro : Nat → Bool} {lo lo' : Nat} {p : List Op} (hp : Clean ro lo' p) (hl : lo ≤ lo') : Clean ro lo p :=
  fun h rest hh o => hp h rest (fun x hx => Nat.lt_of_lt_of_le (hh x hx) hl) o

theorem clean_rd {ro : Nat → Bool} {lo : Nat} {v : Var} {p : List Op} (hp : Clean ro lo p) : Clean ro lo (.rd v :: p) :=
  fun h rest hl o => by simpa only [List.cons_append, ordered] using hp h rest hl o

theorem clean_wr {ro : Nat → Bool} {lo : Nat} {v : Var} {p : List Op} (hp : Clean ro lo p) : Clean ro lo (.wr v :: p) :=
  fun h rest hl o => by simpa only [List.cons_append, ordered] using hp h rest hl o

theorem clean_reading {ro : Nat → Bool} {lo l : Nat} {body : List Op} (hl : lo ≤ l) (hb : Clean ro (l + 1) body) :
    Clean ro lo (reading l body) := by
  intro h rest hh o
  simp only [reading, List.cons_append, List.append_assoc, ordered]
  refine ⟨Or.inr fun x hx => Nat.lt_of_lt_of_le (hh x hx) hl, ?_⟩
  refine hb _ _ ?_ ?_
  · intro x hx
    rcases List.mem_cons.1 hx with rfl | hx
    · simp
    · have := hh x hx; omega
  · simp only [List.nil_append, ordered, after]
    exact ⟨by simp, by simpa using o⟩

theorem clean_writing {ro : Nat → Bool} {lo l : Nat} {body : List Op} (hl : lo ≤ l) (hb : Clean ro (l + 1) body)
    (hr : ro l = false := by rfl) : Clean ro lo (writing l body) := by
  intro h rest hh o
  simp only [writing, List.cons_append, List.append_assoc, ordered]
  refine ⟨hr, fun x hx => Nat.lt_of_lt_of_le (hh x hx) hl, hr, ⟨h, rfl, fun x hx => Nat.lt_of_lt_of_le (hh x hx) hl⟩, ?_⟩
  refine hb _ _ ?_ ?_
  · intro x hx
    simp only [after, List.erase_cons_head] at hx
    rcases List.mem_cons.1 hx with rfl | hx
    · simp
    · have := hh x hx; omega
  · simp only [List.nil_append, ordered, after, List.erase_cons_head]
    exact ⟨by simp, o⟩

theorem clean_flatMap {α : Type*} {ro : Nat → Bool} {lo : Nat} (f : α → List Op) (hf : ∀ a, Clean ro lo (f a)) :
    ∀ l : List α, Clean ro lo (l.flatMap f)
  | [] => clean_nil
  | a :: l => by
    rw [List.flatMap_cons]; exact clean_append (hf a) (clean_flatMap f hf l)

theorem clean_ite {ro : Nat → Bool} {lo : Nat} {b : Bool} {p q : List Op} (hp : Clean ro lo p) (hq : Clean ro lo q) :
    Clean ro lo (if b then p else q) := by cases b <;> simpa

theorem clean_use {ro : Nat → Bool} {lo : Nat} (hr : ro ix = false) (h : lo ≤ ix) (u : IndexUse) : Clean ro lo u.ops := by
  cases u
  · exact clean_reading h (clean_rd clean_nil)
  · exact clean_writing h (clean_wr clean_nil) hr
  · exact clean_rd (clean_wr clean_nil)

theorem clean_index {ro : Nat → Bool} {lo : Nat} (hr : ro ix = false) (h : lo ≤ ix) (us : List IndexUse) : Clean ro lo (indexCalls us) :=
  clean_flatMap _ (clean_use hr h) us

theorem clean_searchIndex {ro : Nat → Bool} {lo : Nat} (hr : ro ix = false) (h : lo ≤ ix) (b : Bool) : Clean ro lo (searchIndex b) :=
  clean_ite (clean_index hr h _) clean_nil

theorem clean_search {ro : Nat → Bool} {lo : Nat} (hr : ro ix = false) (h : lo ≤ mu) (a b : Bool) : Clean ro lo (searchOps a b) :=
  clean_append (clean_append (clean_reading h (clean_rd clean_nil)) (clean_rd clean_nil))
    (clean_ite clean_nil (clean_reading h (clean_rd (clean_searchIndex hr (Nat.le_refl _) b))))

/-- No lock is restricted to readers. -/
def none' : Nat → Bool := fun _ => false

theorem clean_getCollection : Clean none' mu getCollectionOps :=
  clean_reading (Nat.le_refl _) (clean_rd clean_nil)

/-- A call that does not take the store lock twice keeps the discipline. -/
theorem clean_call (c : Call) (hc : c.nested = false) : Clean none' mu c.ops := by
  have hix : mu + 1 ≤ ix := by decide
  cases c with
  | read m us => exact clean_reading (Nat.le_refl _) (clean_rd (clean_index rfl hix us))
  | write m us => exact clean_writing (Nat.le_refl _) (clean_rd (clean_index rfl hix us))
  | config => exact clean_reading (Nat.le_refl _) (clean_rd clean_nil)
  | setOption => exact clean_writing (Nat.le_refl _) clean_nil
  | close a b =>
    exact clean_writing (Nat.le_refl _) (clean_rd (clean_ite
      (clean_append (clean_searchIndex rfl hix b) (clean_rd (clean_wr clean_nil))) clean_nil))
  | autoSave a b =>
    exact clean_append (clean_reading (Nat.le_refl _) (clean_rd clean_nil))
      (clean_ite clean_nil (clean_append (clean_searchIndex rfl (by decide) b) (clean_rd clean_nil)))
  | search a b => exact clean_search rfl (Nat.le_refl _) a b
  | searchWithFilter a b => exact clean_search rfl (Nat.le_refl _) a b
  | upsert first wins makesQ trains named us =>
    simp only [Call.nested] at hc
    subst hc
    refine clean_append (clean_append (clean_append (clean_append (clean_append ?_ ?_) ?_) ?_) ?_) ?_
    · exact clean_reading (Nat.le_refl _) (clean_rd clean_nil)
    · exact clean_rd clean_nil
    · exact clean_ite (clean_writing (Nat.le_refl _) (clean_rd (clean_ite (clean_wr
        (clean_ite (clean_rd (clean_wr (clean_index rfl hix _))) clean_nil)) clean_nil))) clean_nil
    · exact clean_rd clean_nil
    · exact clean_ite (clean_rd (clean_wr clean_nil)) clean_nil
    · exact clean_reading (Nat.le_refl _) (by simpa using clean_index rfl hix us)
  | upsertBatch trains named us =>
    have hn : named = 0 := by simpa [Call.nested] using hc
    subst hn
    refine clean_reading (Nat.le_refl _) (clean_rd (clean_rd (clean_append (clean_append ?_ ?_) ?_)))
    · exact clean_ite (clean_rd (clean_wr clean_nil)) clean_nil
    · exact clean_nil
    · exact clean_index rfl hix us
  | trainQuantizer => exact clean_rd (clean_wr clean_nil)
  | hybridSearch vec b =>
    have hn : vec = false := hc
    subst hn
    exact clean_reading (Nat.le_refl _) (clean_rd clean_nil)
  | searchWithDiversity b => simp [Call.nested] at hc
  | searchWithReranker b => simp [Call.nested] at hc
  | searchMultiVector n b =>
    have hn : n = 0 := by simpa [Call.nested] using hc
    subst hn
    exact clean_reading (Nat.le_refl _) (clean_rd clean_nil)
  | getCollectionStats => simp [Call.nested] at hc
  | dump json =>
    have hn : json = false := hc
    subst hn
    exact clean_reading (Nat.le_refl _) (clean_rd clean_nil)
  | recommendSimilar n =>
    exact clean_append (clean_flatMap _ (fun _ => clean_reading (Nat.le_refl _) (clean_rd clean_nil)) _)
      (clean_reading (Nat.le_refl _) (clean_rd clean_nil))
  | batchRangeSearch n =>
    exact clean_flatMap _ (fun _ => clean_reading (Nat.le_refl _) (clean_rd clean_nil)) _

/-- Every call of the routers, the combined indexes and the memory system keeps the discipline. -/
theorem clean_other (c : Other) : Clean none' 0 c.ops := by
  have z : ∀ n, 0 ≤ n := Nat.zero_le
  have enc : ∀ {lo} n, lo ≤ idf → Clean none' lo (encodings n) := fun n h =>
    clean_flatMap _ (fun _ => clean_reading h clean_nil) _
  have sr : ∀ u, Clean none' 0 (sparseRouteOps u) := fun u =>
    clean_append (enc 1 (z _)) (clean_reading (z _) (enc u (by decide)))
  cases c with
  | routerWrite => exact clean_writing (z _) clean_nil
  | routerRead => exact clean_reading (z _) clean_nil
  | sparseAdd => exact clean_writing (z _) clean_nil
  | sparseRoute u => exact sr u
  | hybridAdd d n =>
    have : Other.ops (.hybridAdd d n) = writing dense (writing sparse
        ((if d then writing router [] else [])
          ++ (List.replicate n ()).flatMap (fun _ => writing srouter []))) := by
      simp [Other.ops, writing]
    rw [this]
    exact clean_writing (z _) (clean_writing (by decide) (clean_append
      (clean_ite (clean_writing (by decide) clean_nil) clean_nil)
      (clean_flatMap _ (fun _ => clean_writing (by decide) clean_nil) _)))
  | hybridRoute u =>
    exact clean_append (clean_append (clean_reading (z _) clean_nil) (sr u)) (clean_rd clean_nil)
  | hybridList => exact clean_reading (z _) (clean_reading (by decide) clean_nil)
  | hybridStats =>
    have : Other.ops .hybridStats
        = reading dense (reading sparse (reading router [] ++ [.rd .alpha])) := by
      simp [Other.ops, reading]
    rw [this]
    exact clean_reading (z _) (clean_reading (by decide)
      (clean_append (clean_reading (by decide) clean_nil) (clean_rd clean_nil)))
  | setAlpha => exact clean_wr clean_nil
  | fit n =>
    exact clean_writing (z _) (clean_flatMap _ (fun _ => clean_writing (by decide) clean_nil) _)
  | vocabulary => exact clean_reading (z _) clean_nil
  | funcAdd => exact clean_writing (z _) clean_nil
  | funcRoute m =>
    exact clean_append (clean_reading (z _) clean_nil)
      (clean_ite (clean_reading (z _) clean_nil) clean_nil)
  | multiConfigure => exact clean_writing (z _) clean_nil
  | multiUse us => exact clean_reading (z _) (clean_index rfl (by decide) us)
  | hybridIndexWrite us => exact clean_writing (z _) (clean_index rfl (by decide) us)
  | hybridIndexSearch => exact clean_reading (z _) (clean_index rfl (by decide) _)
  | bankWrite => exact clean_writing (z _) clean_nil
  | getBank b =>
    exact clean_append (clean_reading (z _) clean_nil)
      (clean_ite (clean_writing (z _) clean_nil) clean_nil)
  | bankRead => exact clean_reading (z _) clean_nil
  | memAddMessage =>
    exact clean_append (clean_reading (z _) (clean_rd clean_nil)) (clean_writing (z _) clean_nil)
  | recall m n =>
    exact clean_append (clean_flatMap _ (fun _ => clean_search rfl (z _) _ _) _)
      (clean_flatMap _ (fun _ => clean_reading (z _) clean_nil) _)

theorem clean_ordered {ro : Nat → Bool} {lo : Nat} {p : List Op} (h : Clean ro lo p) : ordered ro [] p := by
  have := h [] [] (by simp) rfl
  simpa using this

/-! ## C28: nobody waits forever -/

/-- What a thread of a user program does: calls on the store, one after the other. -/
def session (cs : List Call) : List Op := cs.flatMap Call.ops

theorem session_ordered (cs : List Call) (h : ∀ c ∈ cs, c.nested = false) :
    ordered none' [] (session cs) := by
  have : Clean none' mu (session cs) := by
    induction cs with
    | nil => exact clean_nil
    | cons c cs ih =>
      simp only [session, List.flatMap_cons]
      exact clean_append (clean_call c (h c (by simp))) (ih fun d hd => h d (by simp [hd]))
  exact clean_ordered this

/-- **C28 (partial).** Any number of threads make any calls, none of which takes the store lock
while holding it.  Under every schedule, as long as some call has not returned some thread can
move; whatever has happened, all calls can still return; and no schedule is longer than the
number of events, so that every schedule that keeps moving threads that can move ends with all
calls returned. -/
theorem C28_no_deadlock_partial (threads : List (List Call))
    (h : ∀ cs ∈ threads, ∀ c ∈ cs, c.nested = false) (s : State)
    (hs : Reachable (threads.map session) s) :
    ¬ Deadlocked s ∧ (∃ is s', run s is = some s' ∧ Finished s') ∧
      ∀ is s', run s is = some s' → is.length ≤ remaining s := by
  obtain ⟨is, hr⟩ := hs
  have o : ∀ t ∈ s, Good none' t := by
    refine run_inv (P := fun s => ∀ t ∈ s, Good none' t)
      (fun s i s' => good_step) is _ s (start_good ?_) hr
    intro p hp
    simp only [List.mem_map] at hp
    obtain ⟨cs, hcs, rfl⟩ := hp
    exact session_ordered cs (h cs hcs)
  refine ⟨not_deadlocked o, completes _ s (Nat.le_refl _) o, ?_⟩
  intro is' s' hr'
  have := remaining_run is' s s' hr'
  omega

example : ∃ s, Reachable ([[Call.search false true, .close true true], [.upsert true true false false false [.change]],
    [.read .getByID []]].map session) s ∧ ¬ Finished s := by
  refine ⟨_, ⟨[0, 1, 1, 2], rfl⟩, ?_⟩
  simp only [Finished]
  decide

/-- Whether a call never asks for the store lock exclusively. -/
def Call.sharing : Call → Bool
  | .upsert first _ _ _ _ _ => !first
  | c => !c.exclusive

/-- The store lock is never asked for exclusively. -/
def sharedMu : Nat → Bool := fun l => l == mu

theorem clean_again {ro : Nat → Bool} {lo l : Nat} {body : List Op} (hr : ro l = true) (hl : l < lo)
    (hb : Clean ro lo body) : Clean ro lo (reading l body) := by
  intro h rest hh o
  simp only [reading, List.cons_append, List.append_assoc, ordered]
  refine ⟨Or.inl hr, ?_⟩
  refine hb _ _ ?_ ?_
  · intro x hx
    rcases List.mem_cons.1 hx with rfl | hx
    · exact hl
    · exact hh x hx
  · simp only [List.nil_append, ordered, after]
    exact ⟨by simp, by simpa using o⟩

theorem clean_sharing (c : Call) (hc : c.sharing = true) : Clean sharedMu ix c.ops := by
  have again : ∀ {body}, Clean sharedMu ix body → Clean sharedMu ix (reading mu body) := fun h =>
    clean_again rfl (by decide) h
  have idx : ∀ us, Clean sharedMu ix (indexCalls us) := fun us => clean_index rfl (Nat.le_refl _) us
  have six : ∀ b, Clean sharedMu ix (searchIndex b) := fun b => clean_searchIndex rfl (Nat.le_refl _) b
  have srch : ∀ a b, Clean sharedMu ix (searchOps a b) := fun a b =>
    clean_append (clean_append (again (clean_rd clean_nil)) (clean_rd clean_nil))
      (clean_ite clean_nil (again (clean_rd (six b))))
  have one : Clean sharedMu ix (reading mu [.rd .closed]) := again (clean_rd clean_nil)
  cases c with
  | read m us => exact again (clean_rd (idx us))
  | write m us => simp [Call.sharing, Call.exclusive] at hc
  | config => exact again (clean_rd clean_nil)
  | setOption => simp [Call.sharing, Call.exclusive] at hc
  | close a b => simp [Call.sharing, Call.exclusive] at hc
  | autoSave a b =>
    exact clean_append one (clean_ite clean_nil (clean_append (six b) (clean_rd clean_nil)))
  | search a b => exact srch a b
  | searchWithFilter a b => exact srch a b
  | upsert first wins makesQ trains named us =>
    have hf : first = false := by simpa [Call.sharing] using hc
    subst hf
    refine clean_append (clean_append (clean_append (clean_append (clean_append ?_ ?_) ?_) ?_) ?_) ?_
    · exact again (clean_rd clean_nil)
    · exact clean_rd clean_nil
    · exact clean_nil
    · exact clean_rd clean_nil
    · exact clean_ite (clean_rd (clean_wr clean_nil)) clean_nil
    · exact again (clean_append (clean_ite one clean_nil) (idx us))
  | upsertBatch trains named us =>
    exact again (clean_rd (clean_rd (clean_append (clean_append
      (clean_ite (clean_rd (clean_wr clean_nil)) clean_nil) (clean_flatMap _ (fun _ => one) _)) (idx us))))
  | trainQuantizer => exact clean_rd (clean_wr clean_nil)
  | hybridSearch vec b => exact again (clean_rd (clean_ite (srch _ _) clean_nil))
  | searchWithDiversity b => exact again (clean_rd (srch _ _))
  | searchWithReranker b => exact again (clean_rd (srch _ _))
  | searchMultiVector n b => exact again (clean_rd (clean_flatMap _ (fun _ => srch _ _) _))
  | getCollectionStats => exact again (clean_rd one)
  | dump json => exact again (clean_rd (clean_ite one clean_nil))
  | recommendSimilar n => exact clean_append (clean_flatMap _ (fun _ => one) _) one
  | batchRangeSearch n => exact clean_flatMap _ (fun _ => one) _

/-- **C28 (partial).** Calls of any kind, nested ones included, never deadlock as long as nobody
needs the store exclusively. -/
theorem C28_without_writers_partial (threads : List (List Call))
    (h : ∀ cs ∈ threads, ∀ c ∈ cs, c.sharing = true) (s : State)
    (hs : Reachable (threads.map session) s) :
    ¬ Deadlocked s ∧ ∃ is s', run s is = some s' ∧ Finished s' := by
  obtain ⟨is, hr⟩ := hs
  have o : ∀ t ∈ s, Good sharedMu t := by
    refine run_inv (P := fun s => ∀ t ∈ s, Good sharedMu t)
      (fun s i s' => good_step) is _ s (start_good ?_) hr
    intro p hp
    simp only [List.mem_map] at hp
    obtain ⟨cs, hcs, rfl⟩ := hp
    have : Clean sharedMu ix (session cs) := by
      have h := h cs hcs
      clear hcs
      induction cs with
      | nil => exact clean_nil
      | cons c cs ih =>
        simp only [session, List.flatMap_cons]
        exact clean_append (clean_sharing c (h c (by simp))) (ih fun d hd => h d (by simp [hd]))
    exact clean_ordered this
  exact ⟨not_deadlocked o, completes _ s (Nat.le_refl _) o⟩

example : Call.sharing (.searchWithReranker true) = true ∧ Call.nested (.searchWithReranker true) = true ∧
    Call.sharing (.upsert false false false false true [.change]) = true := ⟨rfl, rfl, rfl⟩

theorem run_append : ∀ (is js : List Nat) (s s1 : State), run s is = some s1 →
    run s (is ++ js) = run s1 js
  | [], js, s, s1, h => by simp only [run, Option.some.injEq] at h; simp [h]
  | i :: is, js, s, s1, h => by
    simp only [run, List.cons_append] at h ⊢
    split at h
    · simp at h
    · rename_i s2 h2
      exact run_append is js s2 s1 h

/-- **C28, violated.** Every call that takes the store lock twice deadlocks with every call that
needs it exclusively: there is a schedule after which neither ever moves again. -/
theorem C28_nested_deadlocks_violated (c w : Call) (hc : c.nested = true) (hw : w.exclusive = true) :
    ∃ s, Reachable [c.ops, w.ops] s ∧ Deadlocked s := by
  obtain ⟨q, hq⟩ : ∃ q, w.ops = .want mu :: .lock mu :: q := by
    cases w <;> simp only [Call.exclusive, Bool.false_eq_true] at hw <;> exact ⟨_, rfl⟩
  have first : ∃ k rest, run [⟨[], c.ops⟩, ⟨[], w.ops⟩] (List.replicate k 0)
      = some [⟨[(mu, .r)], .rlock mu :: rest⟩, ⟨[], w.ops⟩] := by
    generalize w.ops = o
    cases c with
    | upsert first wins makesQ trains named us =>
      simp only [Call.nested] at hc
      subst hc
      cases first <;> cases wins <;> cases makesQ <;> cases trains
      · exact ⟨6, _, by simp [run, step, can, after, Call.ops, reading, writing, getCollectionOps, indexCalls, IndexUse.ops]; rfl⟩
      · exact ⟨8, _, by simp [run, step, can, after, Call.ops, reading, writing, getCollectionOps, indexCalls, IndexUse.ops]; rfl⟩
      · exact ⟨6, _, by simp [run, step, can, after, Call.ops, reading, writing, getCollectionOps, indexCalls, IndexUse.ops]; rfl⟩
      · exact ⟨8, _, by simp [run, step, can, after, Call.ops, reading, writing, getCollectionOps, indexCalls, IndexUse.ops]; rfl⟩
      · exact ⟨6, _, by simp [run, step, can, after, Call.ops, reading, writing, getCollectionOps, indexCalls, IndexUse.ops]; rfl⟩
      · exact ⟨8, _, by simp [run, step, can, after, Call.ops, reading, writing, getCollectionOps, indexCalls, IndexUse.ops]; rfl⟩
      · exact ⟨6, _, by simp [run, step, can, after, Call.ops, reading, writing, getCollectionOps, indexCalls, IndexUse.ops]; rfl⟩
      · exact ⟨8, _, by simp [run, step, can, after, Call.ops, reading, writing, getCollectionOps, indexCalls, IndexUse.ops]; rfl⟩
      · exact ⟨10, _, by simp [run, step, can, after, Call.ops, reading, writing, getCollectionOps, indexCalls, IndexUse.ops]; rfl⟩
      · exact ⟨12, _, by simp [run, step, can, after, Call.ops, reading, writing, getCollectionOps, indexCalls, IndexUse.ops]; rfl⟩
      · exact ⟨10, _, by simp [run, step, can, after, Call.ops, reading, writing, getCollectionOps, indexCalls, IndexUse.ops]; rfl⟩
      · exact ⟨12, _, by simp [run, step, can, after, Call.ops, reading, writing, getCollectionOps, indexCalls, IndexUse.ops]; rfl⟩
      · exact ⟨11, _, by simp [run, step, can, after, Call.ops, reading, writing, getCollectionOps, indexCalls, IndexUse.ops]; rfl⟩
      · exact ⟨13, _, by simp [run, step, can, after, Call.ops, reading, writing, getCollectionOps, indexCalls, IndexUse.ops]; rfl⟩
      · exact ⟨17, _, by simp [run, step, can, after, Call.ops, reading, writing, getCollectionOps, indexCalls, IndexUse.ops]; rfl⟩
      · exact ⟨19, _, by simp [run, step, can, after, Call.ops, reading, writing, getCollectionOps, indexCalls, IndexUse.ops]; rfl⟩
    | upsertBatch trains named us =>
      obtain ⟨n, rfl⟩ : ∃ n, named = n + 1 :=
        Nat.exists_eq_succ_of_ne_zero (by simpa [Call.nested] using hc)
      cases trains
      · exact ⟨3, _, by simp [run, step, can, after, Call.ops, reading, getCollectionOps, List.replicate_succ]; rfl⟩
      · exact ⟨5, _, by simp [run, step, can, after, Call.ops, reading, getCollectionOps, List.replicate_succ]; rfl⟩
    | hybridSearch vec b =>
      have hv : vec = true := hc
      subst hv
      exact ⟨2, _, rfl⟩
    | searchWithDiversity b => exact ⟨2, _, rfl⟩
    | searchWithReranker b => exact ⟨2, _, rfl⟩
    | searchMultiVector n b =>
      obtain ⟨n, rfl⟩ : ∃ m, n = m + 1 :=
        Nat.exists_eq_succ_of_ne_zero (by simpa [Call.nested] using hc)
      exact ⟨2, _, rfl⟩
    | getCollectionStats => exact ⟨2, _, rfl⟩
    | dump json =>
      have hv : json = true := hc
      subst hv
      exact ⟨2, _, rfl⟩
    | read => simp [Call.nested] at hc
    | write => simp [Call.nested] at hc
    | config => simp [Call.nested] at hc
    | setOption => simp [Call.nested] at hc
    | close => simp [Call.nested] at hc
    | autoSave => simp [Call.nested] at hc
    | search => simp [Call.nested] at hc
    | searchWithFilter => simp [Call.nested] at hc
    | trainQuantizer => simp [Call.nested] at hc
    | recommendSimilar => simp [Call.nested] at hc
    | batchRangeSearch => simp [Call.nested] at hc
  obtain ⟨k, rest, hk⟩ := first
  refine ⟨[⟨[(mu, .r)], .rlock mu :: rest⟩, ⟨[(mu, .wait)], .lock mu :: q⟩],
    ⟨List.replicate k 0 ++ [1], ?_⟩, ?_, ?_⟩
  · have : start [c.ops, w.ops] = [⟨[], c.ops⟩, ⟨[], w.ops⟩] := rfl
    rw [this, run_append _ _ _ _ hk, hq]
    rfl
  · intro hf
    have := hf _ (List.mem_cons_self ..)
    simp at this
  · intro i
    match i with
    | 0 => rfl
    | 1 => rfl
    | i + 2 => rfl

/-! ## C119: exclusive calls run alone -/

/-- At most one thread writes under a lock, and then nobody else is inside. -/
def Alone (s : State) : Prop :=
  ∀ (i j : Nat) (t u : Thread) (l : Nat), s[i]? = some t → s[j]? = some u →
    ((l, Mode.w) ∈ t.held → (l, Mode.r) ∉ u.held) ∧
    (i ≠ j → ((l, Mode.w) ∈ t.held ∨ (l, Mode.wait) ∈ t.held) →
      (l, Mode.w) ∉ u.held ∧ (l, Mode.wait) ∉ u.held)

theorem can_free {s : State} {t : Thread} {l : Nat}
    (h : can s t (.rlock l) = true) : ∀ u ∈ s, (l, Mode.wait) ∉ u.held ∧ (l, Mode.w) ∉ u.held := by
  intro u hu
  simp only [can, List.all_eq_true, Bool.not_eq_true', Bool.or_eq_false_iff] at h
  have := h u hu
  constructor
  · intro hc; simp [hc] at this
  · intro hc; simp [hc] at this

theorem alone_step {s s' : State} {i : Nat} (h : Alone s) (hs : step s i = some s') : Alone s' := by
  obtain ⟨t, op, rest, ht, ho, hc, rfl⟩ := step_some hs
  have hmem := List.mem_of_getElem? ht
  -- what the moving thread holds afterwards
  intro a b x y l hx hy
  have old : ∀ (a : Nat) (x : Thread), (s.set i ⟨after t.held op, rest⟩)[a]? = some x →
      (a = i ∧ x.held = after t.held op) ∨ (a ≠ i ∧ s[a]? = some x) := by
    intro a x hx
    by_cases hai : a = i
    · subst hai
      have hlt : a < s.length := by
        have := (List.getElem?_eq_some_iff.1 ht).1; exact this
      rw [List.getElem?_set_self hlt] at hx
      simp only [Option.some.injEq] at hx
      exact Or.inl ⟨rfl, by rw [← hx]⟩
    · rw [List.getElem?_set_ne (Ne.symm hai)] at hx
      exact Or.inr ⟨hai, hx⟩
  -- membership after the event
  have grow : ∀ l m, (l, m) ∈ after t.held op → (l, m) ∈ t.held ∨
      (m = .r ∧ op = .rlock l) ∨ (m = .wait ∧ op = .want l) ∨ (m = .w ∧ op = .lock l) := by
    intro l m hm
    cases op with
    | rlock l' =>
      rcases List.mem_cons.1 hm with he | hm
      · cases he; exact Or.inr (Or.inl ⟨rfl, rfl⟩)
      · exact Or.inl hm
    | want l' =>
      rcases List.mem_cons.1 hm with he | hm
      · cases he; exact Or.inr (Or.inr (Or.inl ⟨rfl, rfl⟩))
      · exact Or.inl hm
    | lock l' =>
      rcases List.mem_cons.1 hm with he | hm
      · cases he; exact Or.inr (Or.inr (Or.inr ⟨rfl, rfl⟩))
      · exact Or.inl (List.mem_of_mem_erase hm)
    | runlock l' => exact Or.inl (List.mem_of_mem_erase hm)
    | unlock l' => exact Or.inl (List.mem_of_mem_erase hm)
    | rd v => exact Or.inl hm
    | wr v => exact Or.inl hm
  have noR : ∀ l, op = .lock l → ∀ u ∈ s, (l, Mode.r) ∉ u.held := by
    intro l hop u hu hm
    subst hop
    simp only [can, Bool.and_eq_true, List.all_eq_true, Bool.not_eq_true'] at hc
    have := hc.2 u hu
    simp [hm] at this
  have hasWait : ∀ l, op = .lock l → (l, Mode.wait) ∈ t.held := by
    intro l hop
    subst hop
    simp only [can, Bool.and_eq_true, List.contains_iff_mem] at hc
    exact hc.1
  have noX : ∀ l, op = .rlock l ∨ op = .want l → ∀ u ∈ s,
      (l, Mode.wait) ∉ u.held ∧ (l, Mode.w) ∉ u.held := by
    intro l hop
    rcases hop with rfl | rfl
    · exact can_free hc
    · exact can_free (t := t) hc
  rcases old a x hx with ⟨rfl, hxh⟩ | ⟨hai, hxo⟩ <;> rcases old b y hy with ⟨hb, hyh⟩ | ⟨hbi, hyo⟩
  · subst hb
    refine ⟨?_, fun hne => absurd rfl hne⟩
    rw [hxh, hyh]
    intro hw hr
    rcases grow l _ hw with hw | ⟨hm, _⟩ | ⟨hm, _⟩ | ⟨_, hop⟩
    · rcases grow l _ hr with hr | ⟨_, hop⟩ | ⟨hm, _⟩ | ⟨hm, _⟩
      · exact (h b b t t l ht ht).1 hw hr
      · exact (noX l (Or.inl hop) t hmem).2 hw
      · cases hm
      · cases hm
    · cases hm
    · cases hm
    · rcases grow l _ hr with hr | ⟨_, hop'⟩ | ⟨hm, _⟩ | ⟨hm, _⟩
      · exact noR l hop t hmem hr
      · rw [hop] at hop'; cases hop'
      · cases hm
      · cases hm
  · have hym := List.mem_of_getElem? hyo
    rw [hxh]
    constructor
    · intro hw hr
      rcases grow l _ hw with hw | ⟨hm, _⟩ | ⟨hm, _⟩ | ⟨_, hop⟩
      · exact (h a b t y l ht hyo).1 hw hr
      · cases hm
      · cases hm
      · exact noR l hop y hym hr
    · intro hne hw
      rcases hw with hw | hw
      · rcases grow l _ hw with hw | ⟨hm, _⟩ | ⟨hm, _⟩ | ⟨_, hop⟩
        · exact (h a b t y l ht hyo).2 hne (Or.inl hw)
        · cases hm
        · cases hm
        · exact (h a b t y l ht hyo).2 hne (Or.inr (hasWait l hop))
      · rcases grow l _ hw with hw | ⟨hm, _⟩ | ⟨_, hop⟩ | ⟨hm, _⟩
        · exact (h a b t y l ht hyo).2 hne (Or.inr hw)
        · cases hm
        · exact ((noX l (Or.inr hop)) y hym).symm
        · cases hm
  · subst hb
    have hxm := List.mem_of_getElem? hxo
    rw [hyh]
    constructor
    · intro hw hr
      rcases grow l _ hr with hr | ⟨_, hop⟩ | ⟨hm, _⟩ | ⟨hm, _⟩
      · exact (h a b x t l hxo ht).1 hw hr
      · exact (noX l (Or.inl hop) x hxm).2 hw
      · cases hm
      · cases hm
    · intro hne hw
      have hold := (h a b x t l hxo ht).2 hne hw
      constructor
      · intro hy'
        rcases grow l _ hy' with hy' | ⟨hm, _⟩ | ⟨hm, _⟩ | ⟨_, hop⟩
        · exact hold.1 hy'
        · cases hm
        · cases hm
        · exact hold.2 (hasWait l hop)
      · intro hy'
        rcases grow l _ hy' with hy' | ⟨hm, _⟩ | ⟨_, hop⟩ | ⟨hm, _⟩
        · exact hold.2 hy'
        · cases hm
        · have := noX l (Or.inr hop) x hxm
          rcases hw with hw | hw
          · exact this.2 hw
          · exact this.1 hw
        · cases hm
  · exact h a b x y l hxo hyo

theorem alone_reachable {ps : List (List Op)} {s : State} (hs : Reachable ps s) : Alone s := by
  obtain ⟨is, hr⟩ := hs
  refine run_inv (P := Alone) (fun s i s' => alone_step) is _ s ?_ hr
  intro i j t u l ht hu
  have hm := List.mem_of_getElem? ht
  simp only [start, List.mem_map] at hm
  obtain ⟨p, _, rfl⟩ := hm
  simp

/-- **C119.** Under every schedule of any programs, while one thread is inside a section that
holds a lock exclusively no other thread is inside a section of the same lock. -/
theorem C119_exclusive (ps : List (List Op)) (s : State) (hs : Reachable ps s) (i j : Nat)
    (t u : Thread) (l : Nat) (hij : i ≠ j) (hi : s[i]? = some t) (hj : s[j]? = some u)
    (hw : (l, Mode.w) ∈ t.held) : ∀ m, (l, m) ∉ u.held := by
  have h := alone_reachable hs i j t u l hi hj
  intro m
  cases m
  · exact h.1 hw
  · exact (h.2 hij (Or.inl hw)).2
  · exact (h.2 hij (Or.inl hw)).1

example : ∃ s, Reachable [Call.ops (.write .deleteBatch []), Call.ops (.read .getByID [])] s ∧
    ∃ t, s[0]? = some t ∧ (mu, Mode.w) ∈ t.held :=
  ⟨_, ⟨[0, 0], rfl⟩, _, rfl, by simp [after]⟩

/-! ## C120: no data races -/

/-- The lock that protects a variable. -/
def lockOf : Var → Nat
  | .closed | .dim | .quantizer | .trained => mu
  | .ivf => ix
  | .alpha => dense

/-- Every access happens under the lock of the variable, every change under the exclusive lock. -/
def guarded : Held → List Op → Prop
  | _, [] => True
  | h, .rd v :: p => ((lockOf v, .r) ∈ h ∨ (lockOf v, .w) ∈ h) ∧ guarded h p
  | h, .wr v :: p => (lockOf v, .w) ∈ h ∧ guarded h p
  | h, .rlock l :: p => guarded (after h (.rlock l)) p
  | h, .want l :: p => guarded (after h (.want l)) p
  | h, .lock l :: p => guarded (after h (.lock l)) p
  | h, .runlock l :: p => guarded (after h (.runlock l)) p
  | h, .unlock l :: p => guarded (after h (.unlock l)) p

theorem guarded_tail {h : Held} {op : Op} {p : List Op} (o : guarded h (op :: p)) :
    guarded (after h op) p := by
  cases op <;> simp only [guarded, after] at o ⊢ <;> first | exact o.2 | exact o

theorem no_race {ps : List (List Op)} (h : ∀ p ∈ ps, guarded [] p) {s : State}
    (hs : Reachable ps s) : ¬ Race s := by
  have hal := alone_reachable hs
  obtain ⟨is, hr⟩ := hs
  have hg : ∀ t ∈ s, guarded t.held t.todo := by
    refine run_inv (P := fun s => ∀ t ∈ s, guarded t.held t.todo) ?_ is _ s ?_ hr
    · intro s i s' o hst
      obtain ⟨t, op, rest, ht, ho, _, rfl⟩ := step_some hst
      refine forall_set (P := fun t : Thread => guarded t.held t.todo) o ?_
      have := o t (List.mem_of_getElem? ht)
      rw [ho] at this
      exact guarded_tail this
    · intro t ht
      simp only [start, List.mem_map] at ht
      obtain ⟨p, hp, rfl⟩ := ht
      exact h p hp
  rintro ⟨i, j, t, u, v, hij, ht, hu, hto, huo⟩
  have hgt := hg t (List.mem_of_getElem? ht)
  have hgu := hg u (List.mem_of_getElem? hu)
  obtain ⟨p, hp⟩ : ∃ p, t.todo = .wr v :: p := by
    cases htd : t.todo with
    | nil => rw [htd] at hto; simp at hto
    | cons a l => rw [htd] at hto; simp at hto; exact ⟨l, by rw [hto]⟩
  rw [hp] at hgt
  have hw := hgt.1
  have hall := hal i j t u (lockOf v) ht hu
  rcases huo with huo | huo
  · obtain ⟨q, hq⟩ : ∃ q, u.todo = .wr v :: q := by
      cases htd : u.todo with
      | nil => rw [htd] at huo; simp at huo
      | cons a l => rw [htd] at huo; simp at huo; exact ⟨l, by rw [huo]⟩
    rw [hq] at hgu
    exact (hall.2 hij (Or.inl hw)).1 hgu.1
  · obtain ⟨q, hq⟩ : ∃ q, u.todo = .rd v :: q := by
      cases htd : u.todo with
      | nil => rw [htd] at huo; simp at huo
      | cons a l => rw [htd] at huo; simp at huo; exact ⟨l, by rw [huo]⟩
    rw [hq] at hgu
    rcases hgu.1 with hr | hr
    · exact hall.1 hw hr
    · exact (hall.2 hij (Or.inl hw)).1 hr

/-- A piece of a program whose accesses are covered by the locks `need` and its own. -/
def Safe (need : Held) (p : List Op) : Prop :=
  ∀ h rest, (∀ x ∈ need, x ∈ h) → guarded h rest → guarded h (p ++ rest)

theorem safe_nil {n : Held} : Safe n [] := fun _ _ _ o => o

theorem safe_append {n : Held} {p q : List Op} (hp : Safe n p) (hq : Safe n q) : Safe n (p ++ q) := by
  intro h rest hl o
  rw [List.append_assoc]
  exact hp h _ hl (hq h _ hl o)

theorem safe_rd {n : Held} {v : Var} {p : List Op} (hn : (lockOf v, .r) ∈ n ∨ (lockOf v, .w) ∈ n)
    (hp : Safe n p) : Safe n (.rd v :: p) :=
  fun h rest hl o => ⟨hn.imp (hl _) (hl _), hp h rest hl o⟩

theorem safe_wr {n : Held} {v : Var} {p : List Op} (hn : (lockOf v, .w) ∈ n)
    (hp : Safe n p) : Safe n (.wr v :: p) :=
  fun h rest hl o => ⟨hl _ hn, hp h rest hl o⟩

theorem safe_reading {n : Held} {l : Nat} {body : List Op} (hb : Safe ((l, .r) :: n) body) :
    Safe n (reading l body) := by
  intro h rest hh o
  simp only [reading, List.cons_append, List.append_assoc, guarded, after]
  refine hb _ _ ?_ ?_
  · intro x hx
    rcases List.mem_cons.1 hx with rfl | hx
    · simp
    · exact List.mem_cons_of_mem _ (hh x hx)
  · simpa [guarded, after] using o

theorem safe_writing {n : Held} {l : Nat} {body : List Op} (hb : Safe ((l, .w) :: n) body) :
    Safe n (writing l body) := by
  intro h rest hh o
  simp only [writing, List.cons_append, List.append_assoc, guarded, after, List.erase_cons_head]
  refine hb _ _ ?_ ?_
  · intro x hx
    rcases List.mem_cons.1 hx with rfl | hx
    · simp
    · exact List.mem_cons_of_mem _ (hh x hx)
  · simpa [guarded, after] using o

theorem safe_flatMap {α : Type*} {n : Held} (f : α → List Op) : ∀ l : List α,
    (∀ a ∈ l, Safe n (f a)) → Safe n (l.flatMap f)
  | [], _ => safe_nil
  | a :: l, hf => by
    rw [List.flatMap_cons]
    exact safe_append (hf a (by simp)) (safe_flatMap f l fun b hb => hf b (by simp [hb]))

theorem safe_ite {n : Held} {b : Bool} {p q : List Op} (hp : Safe n p) (hq : Safe n q) :
    Safe n (if b then p else q) := by cases b <;> simpa

theorem safe_index {n : Held} (us : List IndexUse) (h : .ivfDelete ∉ us) : Safe n (indexCalls us) := by
  refine safe_flatMap _ us ?_
  intro u hu
  cases u
  · exact safe_reading (safe_rd (Or.inl (by simp [lockOf])) safe_nil)
  · exact safe_writing (safe_wr (by simp [lockOf]) safe_nil)
  · exact absurd hu h

theorem safe_searchIndex {n : Held} (b : Bool) : Safe n (searchIndex b) :=
  safe_ite (safe_index _ (by simp)) safe_nil

/-- Whether all accesses of a call are made under the locks: not so for the calls that check
`closed` or the quantizer without the lock, train the quantizer while others may use it, or
delete from an IVF index. -/
def Call.careful : Call → Bool
  | .search .. | .searchWithFilter .. | .upsert .. | .trainQuantizer | .autoSave false _ => false
  | .upsertBatch trains _ us => !trains && !us.contains .ivfDelete
  | .read _ us => !us.contains .ivfDelete
  | .write _ us => !us.contains .ivfDelete
  | _ => true

theorem safe_call (c : Call) (hc : c.careful = true) : Safe [] c.ops := by
  have rdR : ∀ {v n p}, lockOf v = mu → Safe ((mu, .r) :: n) p → Safe ((mu, .r) :: n) (.rd v :: p) :=
    fun hv hp => safe_rd (Or.inl (by simp [hv])) hp
  have rdW : ∀ {v n p}, lockOf v = mu → Safe ((mu, .w) :: n) p → Safe ((mu, .w) :: n) (.rd v :: p) :=
    fun hv hp => safe_rd (Or.inr (by simp [hv])) hp
  have one : ∀ {n}, Safe n (reading mu [.rd .closed]) := safe_reading (rdR rfl safe_nil)
  have srch : ∀ b, Safe [(mu, .r)] (searchOps false b) := fun b =>
    safe_append (safe_append (safe_reading (rdR rfl safe_nil)) (rdR rfl safe_nil))
      (safe_reading (rdR rfl (safe_searchIndex b)))
  cases c with
  | read m us =>
    have : .ivfDelete ∉ us := by simpa [Call.careful] using hc
    exact safe_reading (rdR rfl (safe_index us this))
  | write m us =>
    have : .ivfDelete ∉ us := by simpa [Call.careful] using hc
    exact safe_writing (rdW rfl (safe_index us this))
  | config => exact safe_reading (rdR rfl safe_nil)
  | setOption => exact safe_writing safe_nil
  | close a b =>
    exact safe_writing (rdW rfl (safe_ite (safe_append (safe_searchIndex b)
      (rdW rfl (safe_wr (by simp [lockOf]) safe_nil))) safe_nil))
  | autoSave a b =>
    cases a
    · simp [Call.careful] at hc
    · exact safe_append one safe_nil
  | search => simp [Call.careful] at hc
  | searchWithFilter => simp [Call.careful] at hc
  | upsert => simp [Call.careful] at hc
  | upsertBatch trains named us =>
    have hh : trains = false ∧ .ivfDelete ∉ us := by simpa [Call.careful] using hc
    obtain ⟨rfl, hu⟩ := hh
    exact safe_reading (rdR rfl (rdR rfl (safe_append (safe_append safe_nil
      (safe_flatMap _ _ fun _ _ => one)) (safe_index us hu))))
  | trainQuantizer => simp [Call.careful] at hc
  | hybridSearch vec b => exact safe_reading (rdR rfl (safe_ite (srch b) safe_nil))
  | searchWithDiversity b => exact safe_reading (rdR rfl (srch b))
  | searchWithReranker b => exact safe_reading (rdR rfl (srch b))
  | searchMultiVector n b => exact safe_reading (rdR rfl (safe_flatMap _ _ fun _ _ => srch b))
  | getCollectionStats => exact safe_reading (rdR rfl one)
  | dump json => exact safe_reading (rdR rfl (safe_ite one safe_nil))
  | recommendSimilar n => exact safe_append (safe_flatMap _ _ fun _ _ => one) one
  | batchRangeSearch n => exact safe_flatMap _ _ fun _ _ => one

/-- **C120 (partial).** Threads that only make calls which access the store's state under its
locks never race, under any schedule. -/
theorem C120_no_race_partial (threads : List (List Call))
    (h : ∀ cs ∈ threads, ∀ c ∈ cs, c.careful = true) (s : State)
    (hs : Reachable (threads.map session) s) : ¬ Race s := by
  refine no_race ?_ hs
  intro p hp
  simp only [List.mem_map] at hp
  obtain ⟨cs, hcs, rfl⟩ := hp
  have : Safe [] (session cs) := safe_flatMap _ _ fun c hcm => safe_call c (h cs hcs c hcm)
  simpa using this [] [] (by simp) trivial

example : Call.careful (.close true true) = true ∧ Call.careful (.write .deleteBatch [.change]) = true ∧
    Call.careful (.hybridSearch true true) = true := ⟨rfl, rfl, rfl⟩

/-- **C120, violated.** Every search and every insert reads the closed flag while a `Close` may be
writing it. -/
theorem C120_closed_flag_violated (c : Call)
    (hc : (∃ a b, c = .search a b) ∨ (∃ a b, c = .searchWithFilter a b) ∨
      ∃ f w q t n us, c = .upsert f w q t n us) :
    ∃ s, Reachable [c.ops, Call.ops (.close true true)] s ∧ Race s := by
  rcases hc with ⟨a, b, rfl⟩ | ⟨a, b, rfl⟩ | ⟨f, w, q, t, n, us, rfl⟩
  · exact ⟨_, ⟨[0, 0, 0, 1, 1, 1, 1, 1, 1, 1], rfl⟩, 1, 0, _, _, .closed, by decide, rfl, rfl, rfl, Or.inr rfl⟩
  · exact ⟨_, ⟨[0, 0, 0, 1, 1, 1, 1, 1, 1, 1], rfl⟩, 1, 0, _, _, .closed, by decide, rfl, rfl, rfl, Or.inr rfl⟩
  · exact ⟨_, ⟨[0, 0, 0, 1, 1, 1, 1, 1, 1, 1], rfl⟩, 1, 0, _, _, .closed, by decide, rfl, rfl, rfl, Or.inr rfl⟩

/-- **C120, violated.** Deleting a record of an IVF store changes the index lists while a search
reads them. -/
theorem C120_ivf_delete_violated (m : ReadCall) :
    ∃ s, Reachable [Call.ops (.read m [.ivfDelete]), Call.ops (.search false true)] s ∧ Race s :=
  ⟨_, ⟨[0, 0, 0, 1, 1, 1, 1, 1, 1, 1], rfl⟩, 0, 1, _, _, .ivf, by decide, rfl, rfl, rfl, Or.inr rfl⟩

/-- **C120, violated.** Two first inserts both train the quantizer at the same time. -/
theorem C120_training_violated (n n' : Bool) (us us' : List IndexUse) :
    ∃ s, Reachable [Call.ops (.upsert false false false true n us),
      Call.ops (.upsert false false false true n' us')] s ∧ Race s :=
  ⟨_, ⟨[0, 0, 0, 0, 0, 0, 1, 1, 1, 1, 1, 1], rfl⟩, 0, 1, _, _, .trained, by decide, rfl, rfl, rfl, Or.inl rfl⟩

/-- **C120, violated.** Setting the weight of a hybrid router races with routing. -/
theorem C120_alpha_violated :
    ∃ s, Reachable [Other.ops .setAlpha, Other.ops (.hybridRoute 0)] s ∧ Race s :=
  ⟨_, ⟨[1, 1, 1, 1, 1, 1], rfl⟩, 0, 1, _, _, .alpha, by decide, rfl, rfl, rfl, Or.inr rfl⟩

/-! ## C121: the other components never deadlock -/

/-- What a thread does: calls on the routers, indexes, the memory system and the store. -/
def mixed (cs : List (Other ⊕ Call)) : List Op := cs.flatMap (Sum.elim Other.ops Call.ops)

/-- **C121.** Any number of threads using the routers, the combined indexes and the memory system,
together with store calls that do not take the store lock twice, never deadlock under any
schedule, and all calls can always still return. -/
theorem C121_no_deadlock (threads : List (List (Other ⊕ Call)))
    (h : ∀ cs ∈ threads, ∀ c, .inr c ∈ cs → c.nested = false) (s : State)
    (hs : Reachable (threads.map mixed) s) :
    ¬ Deadlocked s ∧ ∃ is s', run s is = some s' ∧ Finished s' := by
  obtain ⟨is, hr⟩ := hs
  have o : ∀ t ∈ s, Good none' t := by
    refine run_inv (P := fun s => ∀ t ∈ s, Good none' t)
      (fun s i s' => good_step) is _ s (start_good ?_) hr
    intro p hp
    simp only [List.mem_map] at hp
    obtain ⟨cs, hcs, rfl⟩ := hp
    have h := h cs hcs
    clear hcs
    have : Clean none' 0 (mixed cs) := by
      induction cs with
      | nil => exact clean_nil
      | cons c cs ih =>
        simp only [mixed, List.flatMap_cons]
        refine clean_append ?_ (ih fun d hd => h d (by simp [hd]))
        cases c with
        | inl c => exact clean_other c
        | inr c => exact clean_mono (clean_call c (h c (by simp))) (Nat.zero_le _)
    exact clean_ordered this
  exact ⟨not_deadlocked o, completes _ s (Nat.le_refl _) o⟩

example : ∃ s, Reachable ([[.inl (.hybridAdd true 2), .inr (.close true true)], [.inl .hybridStats],
    [.inl (.sparseRoute 3), .inl (.fit 2)]].map mixed) s ∧ ¬ Finished s := by
  refine ⟨_, ⟨[0, 0, 2, 2], rfl⟩, ?_⟩
  simp only [Finished]
  decide

end Verif.Lock
