import Verif.Model.DimRace
import Verif.Thm.Dimension
import Mathlib.Data.List.Induction

/-!
Properties of the first records of a store, written at the same time: C206.
-/
namespace Verif.DimRace
open Verif.Model.Dimension Verif.Thm.Dimension

theorem run_snoc (s : State) (l : List Nat) (i : Nat) : run s (l ++ [i]) = step (run s l) i := by
  unfold run; rw [List.foldl_append]; rfl

theorem run_append (s : State) (l l' : List Nat) : run s (l ++ l') = run (run s l) l' := by
  unfold run; rw [List.foldl_append]

theorem advance_dim (p : Policy) (dim : Nat) (rows : List (String × List ℝ)) (t : Phase) (h : dim ≠ 0) : (advance p dim rows t).1 = dim := by
  cases t <;> unfold advance <;> simp only [if_neg h] <;> repeat' split
  all_goals rfl

theorem step_dim (s : State) (i : Nat) (h : s.dim ≠ 0) : (step s i).dim = s.dim := by
  unfold step
  split
  · rfl
  · exact advance_dim _ _ _ _ h

theorem step_policy (s : State) (i : Nat) : (step s i).policy = s.policy := by
  unfold step; split <;> rfl

theorem run_policy (s : State) (l : List Nat) : (run s l).policy = s.policy := by
  induction l using List.reverseRecOn with
  | nil => rfl
  | append_singleton l i ih => rw [run_snoc, step_policy, ih]

/-- C206: the dimension of a store is decided once: when it is known at one moment, it is the same at every later moment of every schedule. -/
theorem C206_once (s : State) (l l' : List Nat) (h : (run s l).dim ≠ 0) : (run s (l ++ l')).dim = (run s l).dim := by
  rw [run_append]
  induction l' using List.reverseRecOn with
  | nil => rfl
  | append_singleton l' i ih => rw [run_snoc, step_dim _ _ (by rw [ih]; exact h), ih]

/-- The vector a goroutine is writing has components. -/
def NonEmpty : Phase → Prop
  | .up _ _ v _ => v ≠ []
  | .upLock _ _ v _ => v ≠ []
  | .upPut _ _ v _ _ => v ≠ []
  | _ => True

/-- The goroutine has made its call but not begun. -/
def Fresh : Phase → Prop
  | .up .. => True
  | .se .. => True
  | _ => False

/-- The dimension a goroutine goes on with is that of the store. -/
def Knows (dim : Nat) : Phase → Prop
  | .upPut _ _ _ _ cur => cur = dim ∧ dim ≠ 0
  | .seCheck _ _ d => d = 0 ∨ d = dim
  | _ => True

structure Good (s : State) : Prop where
  full : ∀ t ∈ s.threads, NonEmpty t
  knows : ∀ t ∈ s.threads, Knows s.dim t
  rows : ∀ r ∈ s.rows, r.2.length = s.dim
  known : s.rows ≠ [] → s.dim ≠ 0

theorem knows_zero {d : Nat} {t : Phase} (h : Knows 0 t) : Knows d t := by
  cases t <;> simp_all [Knows]

theorem good_step {s : State} (h : Good s) (i : Nat) : Good (step s i) := by
  unfold step
  cases hi : s.threads[i]? with
  | none => exact h
  | some t =>
    have hm := List.mem_of_getElem? hi
    have hf := h.full t hm
    have hk := h.knows t hm
    have hsame : ∀ t', NonEmpty t' → Knows s.dim t' → Good ⟨s.policy, s.dim, s.rows, s.threads.set i t'⟩ := by
      intro t' h1 h2
      refine ⟨?_, ?_, h.rows, h.known⟩
      · intro u hu
        rcases List.mem_or_eq_of_mem_set hu with hu | rfl
        · exact h.full u hu
        · exact h1
      · intro u hu
        rcases List.mem_or_eq_of_mem_set hu with hu | rfl
        · exact h.knows u hu
        · exact h2
    cases t with
    | up ok id v n =>
      simp only [advance]
      split
      · exact hsame _ hf trivial
      · rename_i h0; exact hsame _ hf ⟨rfl, h0⟩
    | upLock ok id v n =>
      simp only [advance]
      split
      · rename_i h0
        have hr : s.rows = [] := by
          by_contra hne; exact h.known hne h0
        refine ⟨?_, ?_, ?_, ?_⟩
        · intro u hu
          rcases List.mem_or_eq_of_mem_set hu with hu | rfl
          · exact h.full u hu
          · exact hf
        · intro u hu
          rcases List.mem_or_eq_of_mem_set hu with hu | rfl
          · exact knows_zero (h0 ▸ h.knows u hu)
          · exact ⟨rfl, fun e => hf (List.length_eq_zero_iff.1 e)⟩
        · intro r hr'; simp only [hr] at hr'; cases hr'
        · intro hne; exact absurd hr hne
      · rename_i h0; exact hsame _ hf ⟨rfl, h0⟩
    | upPut ok id v n cur =>
      simp only [advance]
      split
      · exact hsame _ trivial trivial
      · rename_i w hw
        split
        · obtain ⟨g1, g2, g3, g4⟩ := hsame (.done .stored) trivial trivial
          refine ⟨g1, g2, ?_, fun _ => hk.2⟩
          intro r hr
          simp only [put] at hr
          rcases List.mem_append.1 hr with hr | hr
          · exact h.rows r (List.mem_filter.1 hr).1
          · rw [List.mem_singleton] at hr
            subst hr
            exact (C14_length _ _ _ _ _ _ hw).trans hk.1
        · exact hsame _ trivial trivial
    | se q n => exact hsame _ trivial (.inr rfl)
    | seCheck q n d =>
      simp only [advance]
      split
      · exact hsame _ trivial trivial
      · split
        · exact hsame _ trivial trivial
        · split <;> exact hsame _ trivial trivial
    | done o => exact hsame _ trivial trivial

theorem good_run {s : State} (h : Good s) (l : List Nat) : Good (run s l) := by
  induction l using List.reverseRecOn with
  | nil => exact h
  | append_singleton l i ih => rw [run_snoc]; exact good_step ih i

theorem fresh_knows {d : Nat} {t : Phase} (h : Fresh t) : Knows d t := by cases t <;> simp_all [Fresh, Knows]

/-- C206: goroutines write vectors of any lengths into a store that has no record yet: at every moment of every schedule all stored vectors have the
one dimension of the store, under every policy. No written vector may be empty. -/
theorem C206_rows_partial {s : State} (hf : ∀ t ∈ s.threads, Fresh t ∧ NonEmpty t) (hr : ∀ r ∈ s.rows, r.2.length = s.dim)
    (h0 : s.rows ≠ [] → s.dim ≠ 0) (l : List Nat) : ∀ r ∈ (run s l).rows, r.2.length = (run s l).dim :=
  (good_run ⟨fun t ht => (hf t ht).2, fun t ht => fresh_knows (hf t ht).1, hr, h0⟩ l).rows

/-- C206: an empty vector written first leaves the dimension open, and the store then has two lengths, even under the strict policy. -/
theorem C206_empty_violated (p : Policy) (n : Nat → ℝ) (x : ℝ) :
    let s := run ⟨p, 0, [], [.up true "a" [] n, .up true "b" [x] n]⟩ [0, 0, 0, 1, 1, 1]
    s.rows = [("a", []), ("b", [x])] ∧ s.threads = [.done .stored, .done .stored] := by
  simp [run, step, advance, adaptVector, put]

/-- The id a call writes. -/
def writes : Phase → Option String
  | .up _ id _ _ => some id
  | .upLock _ id _ _ => some id
  | .upPut _ id _ _ _ => some id
  | _ => none

theorem writes_step (s : State) (i j : Nat) (t : Phase) (h : (step s i).threads[j]? = some t) :
    ∃ t', s.threads[j]? = some t' ∧ (writes t = none ∨ writes t = writes t') := by
  unfold step at h
  cases hi : s.threads[i]? with
  | none => rw [hi] at h; exact ⟨t, h, .inr rfl⟩
  | some u =>
    rw [hi] at h
    simp only at h
    have hlt : i < s.threads.length := (List.getElem?_eq_some_iff.1 hi).1
    by_cases e : i = j
    · subst e
      rw [List.getElem?_set_self hlt, Option.some.injEq] at h
      refine ⟨u, hi, ?_⟩
      subst h
      cases u with
      | up ok id v n => simp only [advance]; split <;> exact .inr rfl
      | upLock ok id v n => simp only [advance]; split <;> exact .inr rfl
      | upPut ok id v n cur =>
        simp only [advance]
        split
        · exact .inl rfl
        · split <;> exact .inl rfl
      | se q n => exact .inl rfl
      | seCheck q n d =>
        simp only [advance]
        split
        · exact .inl rfl
        · split_ifs <;> exact .inl rfl
      | done o => exact .inl rfl
    · rw [List.getElem?_set_ne e] at h
      exact ⟨t, h, .inr rfl⟩

/-- A step of a call that does not write the id leaves its row alone. -/
theorem rows_other (p : Policy) (dim : Nat) (rows : List (String × List ℝ)) (t : Phase) (id : String) (h : writes t ≠ some id) :
    (advance p dim rows t).2.1.filter (fun r => r.1 = id) = rows.filter (fun r => r.1 = id) := by
  cases t with
  | up ok id' v n => simp only [advance]; split <;> rfl
  | upLock ok id' v n => simp only [advance]; split <;> rfl
  | se q n => rfl
  | done o => rfl
  | seCheck q n d =>
    simp only [advance]
    split
    · rfl
    · split_ifs <;> rfl
  | upPut ok id' v n cur =>
    have hne : id' ≠ id := fun e => h (by rw [e]; rfl)
    simp only [advance]
    split
    · rfl
    · rename_i w _
      split
      · simp only [put, List.filter_append, List.filter_filter]
        have h1 : List.filter (fun r : String × List ℝ => decide (r.1 = id)) [(id', w)] = [] := by simp [hne]
        rw [h1, List.append_nil]
        apply List.filter_congr
        intro r _
        by_cases e : r.1 = id
        · have : r.1 ≠ id' := fun k => hne (k.symm.trans e)
          have h2 : ¬ id = id' := fun k => hne k.symm
          simp [e, h2]
        · simp [e]
      · rfl

/-- C206: in every schedule a writer of an id nobody else writes that is told its record is stored finds exactly its own vector there, fitted to
some dimension; one that is told otherwise, or is not done yet, has changed nothing under its id. It is told that the record is stored only if the
database took it. -/
theorem C206_success (s : State) (i : Nat) (ok : Bool) (id : String) (v : List ℝ) (n : Nat → ℝ)
    (hi : s.threads[i]? = some (.up ok id v n)) (hother : ∀ j t, j ≠ i → s.threads[j]? = some t → writes t ≠ some id) (l : List Nat) :
    let mine := (run s l).rows.filter (fun r => r.1 = id)
    ((run s l).threads[i]? = some (.done .stored) → ok = true ∧
      ∃ d w, adaptVector s.policy n v v.length d = .ok w ∧ mine = [(id, w)]) ∧
    ((run s l).threads[i]? ≠ some (.done .stored) → mine = s.rows.filter (fun r => r.1 = id)) := by
  have key : (∀ j t, j ≠ i → (run s l).threads[j]? = some t → writes t ≠ some id) ∧
      ((((run s l).threads[i]? = some (.up ok id v n) ∨ (run s l).threads[i]? = some (.upLock ok id v n) ∨
        (∃ c, (run s l).threads[i]? = some (.upPut ok id v n c)) ∨ ∃ o, o ≠ .stored ∧ (run s l).threads[i]? = some (.done o)) ∧
        (run s l).rows.filter (fun r => r.1 = id) = s.rows.filter (fun r => r.1 = id)) ∨
      ((run s l).threads[i]? = some (.done .stored) ∧ ok = true ∧ ∃ d w, adaptVector s.policy n v v.length d = .ok w ∧
        (run s l).rows.filter (fun r => r.1 = id) = [(id, w)])) := by
    induction l using List.reverseRecOn with
    | nil => exact ⟨hother, .inl ⟨.inl hi, rfl⟩⟩
    | append_singleton l k ih =>
      obtain ⟨ih1, ih2⟩ := ih
      rw [run_snoc]
      have hpol := run_policy s l
      generalize run s l = u at *
      constructor
      · intro j t hj ht
        obtain ⟨t', h1, h2⟩ := writes_step u k j t ht
        rcases h2 with h2 | h2
        · rw [h2]; simp
        · rw [h2]; exact ih1 j t' hj h1
      · by_cases hk : k = i
        · subst hk
          have st : ∀ t, u.threads[k]? = some t → (step u k).threads[k]? = some (advance u.policy u.dim u.rows t).2.2 ∧
              (step u k).rows = (advance u.policy u.dim u.rows t).2.1 := by
            intro t ht
            unfold step
            rw [ht]
            exact ⟨List.getElem?_set_self (List.getElem?_eq_some_iff.1 ht).1, rfl⟩
          rcases ih2 with ⟨h1 | h1 | ⟨c, h1⟩ | ⟨o, ho, h1⟩, hr⟩ | ⟨h1, h2⟩
          · obtain ⟨e1, e2⟩ := st _ h1
            rw [e1, e2]
            simp only [advance]
            split
            · exact .inl ⟨.inr (.inl rfl), hr⟩
            · exact .inl ⟨.inr (.inr (.inl ⟨_, rfl⟩)), hr⟩
          · obtain ⟨e1, e2⟩ := st _ h1
            rw [e1, e2]
            simp only [advance]
            split
            · exact .inl ⟨.inr (.inr (.inl ⟨_, rfl⟩)), hr⟩
            · exact .inl ⟨.inr (.inr (.inl ⟨_, rfl⟩)), hr⟩
          · obtain ⟨e1, e2⟩ := st _ h1
            rw [e1, e2]
            simp only [advance]
            cases ha : adaptVector u.policy n v v.length c with
            | error e => exact .inl ⟨.inr (.inr (.inr ⟨.refused, by simp, rfl⟩)), hr⟩
            | ok w =>
              cases ok with
              | false => exact .inl ⟨.inr (.inr (.inr ⟨.failed, by simp, rfl⟩)), hr⟩
              | true =>
                refine .inr ⟨rfl, rfl, c, w, by rw [← hpol]; exact ha, ?_⟩
                simp [put, List.filter_append, List.filter_filter]
          · obtain ⟨e1, e2⟩ := st _ h1
            rw [e1, e2]
            exact .inl ⟨.inr (.inr (.inr ⟨o, ho, rfl⟩)), hr⟩
          · obtain ⟨e1, e2⟩ := st _ h1
            rw [e1, e2]
            exact .inr ⟨rfl, h2⟩
        · have e1 : (step u k).threads[i]? = u.threads[i]? := by
            unfold step
            split
            · rfl
            · exact List.getElem?_set_ne hk
          have e2 : (step u k).rows.filter (fun r => r.1 = id) = u.rows.filter (fun r => r.1 = id) := by
            unfold step
            split
            · rfl
            · rename_i t ht
              exact rows_other _ _ _ t id (ih1 k t hk ht)
          rw [e1, e2]
          exact ih2
  simp only
  rcases key.2 with ⟨h1, h2⟩ | ⟨h1, h2, h3⟩
  · refine ⟨fun h => ?_, fun _ => h2⟩
    rcases h1 with h1 | h1 | ⟨c, h1⟩ | ⟨o, ho, h1⟩
    · rw [h1] at h; cases h
    · rw [h1] at h; cases h
    · rw [h1] at h; cases h
    · rw [h1] at h
      injection h with h
      injection h with h
      exact absurd h ho
  · exact ⟨fun _ => ⟨h2, h3⟩, fun h => absurd h1 h⟩

/-- The policy adapts. -/
def Adapts (p : Policy) : Prop := p = .smart ∨ p = .truncate ∨ p = .pad

theorem adapts_ok {p : Policy} (h : Adapts p) (n : Nat → ℝ) (v : List ℝ) (t : Nat) : ∃ w, adaptVector p n v v.length t = .ok w := by
  unfold adaptVector
  rw [if_neg (by simp)]
  split
  · exact ⟨_, rfl⟩
  · rcases h with rfl | rfl | rfl <;> exact ⟨_, rfl⟩

/-- C206: under an adapting policy no schedule makes a write fail because of the lengths others write. -/
theorem C206_accepted {s : State} (hp : Adapts s.policy) (hf : ∀ t ∈ s.threads, ∃ id v n, t = .up true id v n) (l : List Nat) :
    ∀ o, .done o ∈ (run s l).threads → o = .stored := by
  have : ∀ t ∈ (run s l).threads, (∃ id v n, t = .up true id v n) ∨ (∃ id v n, t = .upLock true id v n) ∨
      (∃ id v n c, t = .upPut true id v n c) ∨ t = .done .stored := by
    induction l using List.reverseRecOn with
    | nil => exact fun t ht => .inl (hf t ht)
    | append_singleton l i ih =>
      rw [run_snoc]
      unfold step
      cases hi : (run s l).threads[i]? with
      | none => exact ih
      | some t =>
        intro u hu
        rcases List.mem_or_eq_of_mem_set hu with hu | rfl
        · exact ih u hu
        · rcases ih t (List.mem_of_getElem? hi) with ⟨id, v, n, rfl⟩ | ⟨id, v, n, rfl⟩ | ⟨id, v, n, c, rfl⟩ | rfl
          · simp only [advance]
            split
            · exact .inr (.inl ⟨_, _, _, rfl⟩)
            · exact .inr (.inr (.inl ⟨_, _, _, _, rfl⟩))
          · simp only [advance]
            split <;> exact .inr (.inr (.inl ⟨_, _, _, _, rfl⟩))
          · rw [← run_policy s l] at hp
            obtain ⟨w, hw⟩ := adapts_ok hp n v c
            simp only [advance, hw, if_true]
            exact .inr (.inr (.inr trivial))
          · exact .inr (.inr (.inr rfl))
  intro o ho
  rcases this _ ho with ⟨_, _, _, h⟩ | ⟨_, _, _, h⟩ | ⟨_, _, _, _, h⟩ | h
  · cases h
  · cases h
  · cases h
  · injection h

/-- C206: in a store whose dimension is known a search is answered in every schedule with the query it is answered with when it runs alone. -/
theorem C206_search_partial {s : State} (h0 : s.dim ≠ 0) {i : Nat} {q : List ℝ} {n : Nat → ℝ} (hi : s.threads[i]? = some (.se q n)) (l : List Nat) {o : Outcome}
    (hd : (run s l).threads[i]? = some (.done o)) :
    (∀ w, adaptQuery s.policy n q s.dim = .ok w → w ≠ [] → o = .answered w) ∧
    (∀ e, adaptQuery s.policy n q s.dim = .error e → o = .refused) := by
  have key : ∀ l, (run s l).dim = s.dim ∧ ((run s l).threads[i]? = some (.se q n) ∨ (run s l).threads[i]? = some (.seCheck q n s.dim) ∨
      ∃ o, (run s l).threads[i]? = some (.done o) ∧ (∀ w, adaptQuery s.policy n q s.dim = .ok w → w ≠ [] → o = .answered w) ∧
        (∀ e, adaptQuery s.policy n q s.dim = .error e → o = .refused)) := by
    intro l
    induction l using List.reverseRecOn with
    | nil => exact ⟨rfl, .inl hi⟩
    | append_singleton l j ih =>
      obtain ⟨e, ih⟩ := ih
      rw [run_snoc]
      refine ⟨(step_dim _ _ (by rw [e]; exact h0)).trans e, ?_⟩
      unfold step
      cases hj : (run s l).threads[j]? with
      | none => exact ih
      | some t =>
        simp only
        have hlt : j < (run s l).threads.length := by
          rcases Nat.lt_or_ge j (run s l).threads.length with h | h
          · exact h
          · rw [List.getElem?_eq_none h] at hj; cases hj
        by_cases hij : j = i
        · subst hij
          rw [hj] at ih
          rw [List.getElem?_set_self hlt]
          rcases ih with ih | ih | ⟨o, ih, h2⟩ <;> rw [Option.some.injEq] at ih <;> subst ih
          · right; left; simp only [advance]; rw [e]
          · right; right
            simp only [advance, run_policy, e]
            cases hq : adaptQuery s.policy n q s.dim with
            | error x => exact ⟨.refused, rfl, (fun _ h => nomatch h), fun _ _ => rfl⟩
            | ok w =>
              have hlen : w.length = s.dim := by
                unfold adaptQuery at hq
                split at hq
                · exact C14_length _ _ _ _ _ _ hq
                · rename_i h; cases hq
                  by_contra hne
                  exact h ⟨Nat.pos_of_ne_zero h0, hne⟩
              have hne : w ≠ [] := by rintro rfl; exact h0 hlen.symm
              simp only [if_neg hne, hlen, or_true, if_true]
              exact ⟨_, rfl, (fun _ h _ => by cases h; rfl), (fun _ h => nomatch h)⟩
          · exact .inr (.inr ⟨o, rfl, h2⟩)
        · rw [List.getElem?_set_ne hij]
          exact ih
  rcases (key l).2 with h | h | ⟨o', h, h2⟩
  · rw [hd] at h; cases h
  · rw [hd] at h; cases h
  · rw [hd, Option.some.injEq, Phase.done.injEq] at h
    rw [h]; exact h2

/-- C206: while the first record is being written, a search of another length that the policy would adapt is refused, although it is answered both
when it comes before the write and when it comes after it. -/
theorem C206_search_violated (n : Nat → ℝ) (x y z : ℝ) :
    (run ⟨.pad, 0, [], [.up true "a" [x] n, .se [y, z] n]⟩ [1, 0, 0, 0, 1]).threads = [.done .stored, .done .refused] ∧
    (∃ w, (run ⟨.pad, 0, [], [.up true "a" [x] n, .se [y, z] n]⟩ [1, 1, 0, 0, 0]).threads = [.done .stored, .done (.answered w)]) ∧
    ∃ w, (run ⟨.pad, 0, [], [.up true "a" [x] n, .se [y, z] n]⟩ [0, 0, 0, 1, 1]).threads = [.done .stored, .done (.answered w)] := by
  refine ⟨?_, ⟨[y, z], ?_⟩, ⟨padVector [y, z] 1, ?_⟩⟩
  · simp [run, step, advance, adaptVector, adaptQuery, put]
  · simp [run, step, advance, adaptVector, adaptQuery, put]
  · have hl : (padVector [y, z] 1).length = 1 := C14_length .pad n [y, z] 2 1 _ rfl
    have hne : padVector [y, z] 1 ≠ [] := by intro h; rw [h] at hl; cases hl
    simp [run, step, advance, adaptVector, adaptQuery, put, hl, hne]

/-! ### The hypotheses can be met -/

/-- Two goroutines that write vectors of different lengths into an empty store under the strict policy: one of them fixes the dimension and the other
is refused. -/
example (n : Nat → ℝ) :
    (∀ t ∈ [Phase.up true "a" [1, 2] n, .up true "b" [3] n], Fresh t ∧ NonEmpty t) ∧
    (run ⟨.strict, 0, [], [.up true "a" [1, 2] n, .up true "b" [3] n]⟩ [0, 1, 1, 0, 0, 1]).rows = [("b", [3])] ∧
    (run ⟨.strict, 0, [], [.up true "a" [1, 2] n, .up true "b" [3] n]⟩ [0, 1, 1, 0, 0, 1]).threads = [.done .refused, .done .stored] := by
  refine ⟨by simp [Fresh, NonEmpty], ?_, ?_⟩ <;> simp [run, step, advance, adaptVector, put]

example (n : Nat → ℝ) : Adapts Policy.pad ∧ ∀ t ∈ [Phase.up true "a" [1, 2] n, .up true "b" [3] n], ∃ id v m, t = .up true id v m := by
  refine ⟨.inr (.inr rfl), ?_⟩
  simp

/-- A search of a store of dimension one. -/
example (n : Nat → ℝ) : (run ⟨.strict, 1, [], [.se [5] n, .up true "b" [3] n]⟩ [0, 1, 0, 1]).threads[0]? = some (.done (.answered [5])) := by
  simp [run, step, advance, adaptVector, adaptQuery, put]

/-- One writer whose id the other does not write; the database takes its record. -/
example (n : Nat → ℝ) : let s : State := ⟨.pad, 0, [], [.up true "a" [1, 2] n, .up false "b" [3] n]⟩
    s.threads[0]? = some (.up true "a" [1, 2] n) ∧ (∀ j t, j ≠ 0 → s.threads[j]? = some t → writes t ≠ some "a") ∧
    (run s [0, 1, 1, 0, 0, 1]).threads = [.done .stored, .done .failed] := by
  refine ⟨rfl, ?_, by simp [run, step, advance, adaptVector]⟩
  intro j t hj ht
  match j, hj with
  | 1, _ => simp only [List.getElem?_cons_succ, List.getElem?_cons_zero, Option.some.injEq] at ht; subst ht; simp [writes]
  | j + 2, _ => simp at ht

end Verif.DimRace
