import Verif.Model.Interleave
import Mathlib.Data.List.Basic
import Mathlib.Data.List.Induction

/-!
Properties of calls that run at the same time: C203, C204.
-/
namespace Verif.Interleave

variable {V : Type}

/-- The ids a call names. -/
def Call.ids : Call V → List String
  | .upsert _ id _ => [id]
  | .upsertBatch _ rs => rs.map Prod.fst
  | .delete _ id => [id]

/-- The call may remove the record. -/
def Call.removes (x : String) : Call V → Prop
  | .delete _ id => id = x
  | _ => False

/-- The call may write the record. -/
def Call.writes (x : String) : Call V → Prop
  | .upsert _ id _ => id = x
  | .upsertBatch _ rs => x ∈ rs.map Prod.fst
  | .delete _ _ => False

/-- The record is searchable through the index. -/
def Live (w : World V) (x : String) : Prop := ∃ v, w.held x = some (v, false)

/-- The goroutines at their start. -/
def begin (w : World V) (cs : List (List (Call V))) : State V := ⟨w, cs.map start⟩

/-! ### One goroutine and its ids -/

/-- The ids an action touches. -/
def Act.ids : Act V → List String
  | .put _ rs => rs.map Prod.fst
  | .insert id _ => [id]
  | .remove _ id => [id]
  | .drop id => [id]

def Agree (P : String → Prop) (w w' : World V) : Prop := ∀ id, P id → w.rows id = w'.rows id ∧ w.held id = w'.held id

theorem put_out (rs : List (String × V)) (m : String → Option V) (id : String) (h : id ∉ rs.map Prod.fst) : putRows m rs id = m id := by
  unfold putRows
  induction rs generalizing m with
  | nil => rfl
  | cons r rs ih =>
    simp only [List.map_cons, List.mem_cons, not_or] at h
    rw [List.foldl_cons, ih _ h.2, if_neg h.1]

theorem put_agree (rs : List (String × V)) (m m' : String → Option V) (id : String) (h : m id = m' id) : putRows m rs id = putRows m' rs id := by
  unfold putRows
  induction rs generalizing m m' with
  | nil => exact h
  | cons r rs ih =>
    rw [List.foldl_cons, List.foldl_cons]
    apply ih
    split
    · rfl
    · exact h

theorem put_in (rs : List (String × V)) (m : String → Option V) (h : (rs.map Prod.fst).Nodup) {r : String × V} (hr : r ∈ rs) :
    putRows m rs r.1 = some r.2 := by
  induction rs generalizing m with
  | nil => cases hr
  | cons a rs ih =>
    rw [List.map_cons, List.nodup_cons] at h
    rcases List.mem_cons.1 hr with rfl | hr
    · show putRows _ rs r.1 = _
      rw [put_out _ _ _ h.1]
      exact if_pos rfl
    · exact ih _ h.2 hr

theorem exec_out (w : World V) (a : Act V) (id : String) (h : id ∉ a.ids) : (exec w a).1.rows id = w.rows id ∧ (exec w a).1.held id = w.held id := by
  cases a with
  | put ok rs =>
    cases ok with
    | false => exact ⟨rfl, rfl⟩
    | true => exact ⟨put_out rs _ id h, rfl⟩
  | insert j v =>
    simp only [Act.ids, List.mem_singleton] at h
    unfold exec; simp only
    split
    · exact ⟨rfl, rfl⟩
    · exact ⟨rfl, if_neg h⟩
  | remove ok j =>
    simp only [Act.ids, List.mem_singleton] at h
    unfold exec; simp only
    split
    · exact ⟨if_neg h, rfl⟩
    · exact ⟨rfl, rfl⟩
  | drop j =>
    simp only [Act.ids, List.mem_singleton] at h
    unfold exec; simp only
    split
    · exact ⟨rfl, if_neg h⟩
    · exact ⟨rfl, rfl⟩

theorem exec_agree {P : String → Prop} {w w' : World V} (h : Agree P w w') (a : Act V) (ha : ∀ id ∈ a.ids, P id) :
    (exec w a).2 = (exec w' a).2 ∧ Agree P (exec w a).1 (exec w' a).1 := by
  cases a with
  | put ok rs =>
    cases ok with
    | false => exact ⟨rfl, h⟩
    | true => exact ⟨rfl, fun id hid => ⟨put_agree rs _ _ id (h id hid).1, (h id hid).2⟩⟩
  | insert j v =>
    have hj := (h j (ha j (by simp [Act.ids]))).2
    unfold exec; simp only
    rw [hj]
    cases w'.held j with
    | some x => exact ⟨rfl, h⟩
    | none =>
      refine ⟨rfl, fun id hid => ⟨(h id hid).1, ?_⟩⟩
      simp only
      split
      · rfl
      · exact (h id hid).2
  | remove ok j =>
    have hj := (h j (ha j (by simp [Act.ids]))).1
    unfold exec; simp only
    rw [hj]
    cases ok <;> cases w'.rows j
    · exact ⟨rfl, h⟩
    · exact ⟨rfl, h⟩
    · exact ⟨rfl, h⟩
    · refine ⟨rfl, fun id hid => ⟨?_, (h id hid).2⟩⟩
      simp only
      split
      · rfl
      · exact (h id hid).1
  | drop j =>
    have hj := (h j (ha j (by simp [Act.ids]))).2
    unfold exec; simp only
    rw [hj]
    cases w'.held j with
    | none => exact ⟨rfl, h⟩
    | some x =>
      refine ⟨rfl, fun id hid => ⟨(h id hid).1, ?_⟩⟩
      simp only
      split
      · rfl
      · exact (h id hid).2

/-- All actions left of a goroutine are about these ids. -/
def Owns (P : String → Prop) (t : Thread V) : Prop := ∀ as ∈ t.todo, ∀ a ∈ as, ∀ id ∈ a.ids, P id

theorem advance_owns {P : String → Prop} {w : World V} {t : Thread V} (h : Owns P t) : Owns P (advance w t).2 := by
  obtain ⟨todo, log⟩ := t
  unfold Owns at h ⊢
  unfold advance
  match todo with
  | [] => exact h
  | [] :: cs => exact fun as has => h as (List.mem_cons_of_mem _ has)
  | (a :: as) :: cs =>
    simp only at h ⊢
    match exec w a with
    | (w', true) =>
      intro bs hbs b hb
      rcases List.mem_cons.1 hbs with rfl | hbs
      · exact h _ List.mem_cons_self b (List.mem_cons_of_mem _ hb)
      · exact h bs (List.mem_cons_of_mem _ hbs) b hb
    | (w', false) => exact fun bs hbs => h bs (List.mem_cons_of_mem _ hbs)

theorem advance_out {P : String → Prop} {w : World V} {t : Thread V} (h : Owns P t) (id : String) (hid : ¬ P id) :
    (advance w t).1.rows id = w.rows id ∧ (advance w t).1.held id = w.held id := by
  obtain ⟨todo, log⟩ := t
  unfold Owns at h
  unfold advance
  match todo with
  | [] => exact ⟨rfl, rfl⟩
  | [] :: cs => exact ⟨rfl, rfl⟩
  | (a :: as) :: cs =>
    simp only at h ⊢
    have := exec_out w a id (fun hm => hid (h _ List.mem_cons_self a List.mem_cons_self id hm))
    match hx : exec w a with
    | (w', true) => rw [hx] at this; exact this
    | (w', false) => rw [hx] at this; exact this

theorem advance_agree {P : String → Prop} {w w' : World V} {t : Thread V} (h : Owns P t) (hw : Agree P w w') :
    (advance w t).2 = (advance w' t).2 ∧ Agree P (advance w t).1 (advance w' t).1 := by
  obtain ⟨todo, log⟩ := t
  unfold Owns at h
  unfold advance
  match todo with
  | [] => exact ⟨rfl, hw⟩
  | [] :: cs => exact ⟨rfl, hw⟩
  | (a :: as) :: cs =>
    simp only at h ⊢
    obtain ⟨h1, h2⟩ := exec_agree hw a (h _ List.mem_cons_self a List.mem_cons_self)
    match hx : exec w a, hy : exec w' a with
    | (v, true), (v', true) => rw [hx, hy] at h2; exact ⟨rfl, h2⟩
    | (v, false), (v', false) => rw [hx, hy] at h2; exact ⟨rfl, h2⟩
    | (v, true), (v', false) => rw [hx, hy] at h1; cases h1
    | (v, false), (v', true) => rw [hx, hy] at h1; cases h1

/-- A goroutine alone. -/
def solo (w : World V) (t : Thread V) : Nat → World V × Thread V
  | 0 => (w, t)
  | n + 1 => advance (solo w t n).1 (solo w t n).2

theorem solo_owns {P : String → Prop} {w : World V} {t : Thread V} (h : Owns P t) (n : Nat) : Owns P (solo w t n).2 := by
  induction n with
  | zero => exact h
  | succ n ih => exact advance_owns ih

theorem solo_stable {w : World V} {t : Thread V} {n : Nat} (h : (solo w t n).2.todo = []) (k : Nat) : solo w t (n + k) = solo w t n := by
  induction k with
  | zero => rfl
  | succ k ih =>
    show advance (solo w t (n + k)).1 (solo w t (n + k)).2 = _
    rw [ih]
    unfold advance
    rw [h]

theorem solo_end {w : World V} {t : Thread V} {n m : Nat} (h : (solo w t n).2.todo = []) (h' : (solo w t m).2.todo = []) :
    solo w t n = solo w t m := by
  rcases Nat.le_total n m with hl | hl
  · obtain ⟨k, rfl⟩ := Nat.exists_eq_add_of_le hl
    exact (solo_stable h k).symm
  · obtain ⟨k, rfl⟩ := Nat.exists_eq_add_of_le hl
    exact solo_stable h' k

theorem run_snoc (s : State V) (l : List Nat) (i : Nat) : run s (l ++ [i]) = step (run s l) i := by
  unfold run; rw [List.foldl_append]; rfl

/-- When goroutines have ids of their own, each of them sees exactly what it would see alone. -/
theorem run_solo {w : World V} {ts : List (Thread V)} {P : Nat → String → Prop} (ho : ∀ i t, ts[i]? = some t → Owns (P i) t)
    (hd : ∀ i j id, i ≠ j → P i id → ¬ P j id) (l : List Nat) :
    (run ⟨w, ts⟩ l).threads.length = ts.length ∧
    (∀ (i : Nat) t, ts[i]? = some t → (run ⟨w, ts⟩ l).threads[i]? = some (solo w t (l.count i)).2 ∧
      Agree (P i) (run ⟨w, ts⟩ l).world (solo w t (l.count i)).1) ∧
    ∀ id, (∀ i, i < ts.length → ¬ P i id) → (run ⟨w, ts⟩ l).world.rows id = w.rows id ∧ (run ⟨w, ts⟩ l).world.held id = w.held id := by
  induction l using List.reverseRecOn with
  | nil => exact ⟨rfl, fun i t ht => ⟨ht, fun id _ => ⟨rfl, rfl⟩⟩, fun id _ => ⟨rfl, rfl⟩⟩
  | append_singleton l j ih =>
    obtain ⟨i1, i2, i3⟩ := ih
    rw [run_snoc]
    set s := run ⟨w, ts⟩ l with hs
    unfold step
    cases hj : s.threads[j]? with
    | none =>
      refine ⟨i1, fun i t ht => ?_, i3⟩
      have hne : i ≠ j := by
        rintro rfl
        rw [(i2 i t ht).1] at hj; cases hj
      rw [List.count_append, List.count_singleton, if_neg (by simpa using fun h => hne h.symm)]
      exact i2 i t ht
    | some t' =>
      have hlt : j < ts.length := by
        rw [← i1]
        rcases Nat.lt_or_ge j s.threads.length with h | h
        · exact h
        · rw [List.getElem?_eq_none h] at hj; cases hj
      obtain ⟨a1, a2⟩ := i2 j _ (List.getElem?_eq_getElem hlt)
      rw [hj, Option.some.injEq] at a1
      have hown : Owns (P j) t' := a1 ▸ solo_owns (ho j _ (List.getElem?_eq_getElem hlt)) _
      refine ⟨by simp [i1], ?_, ?_⟩
      · intro i t ht
        by_cases hij : i = j
        · subst hij
          have : ts[i] = t := by rw [List.getElem?_eq_getElem hlt, Option.some.injEq] at ht; exact ht
          subst this
          obtain ⟨b1, b2⟩ := advance_agree hown a2
          rw [List.count_append, List.count_singleton, if_pos (by simp)]
          refine ⟨?_, ?_⟩
          · simp only
            rw [List.getElem?_set_self (by rw [i1]; exact hlt), b1, a1]
            rfl
          · rw [a1] at b2
            rw [a1]
            exact b2
        · rw [List.count_append, List.count_singleton, if_neg (by simpa using fun h => hij h.symm)]
          obtain ⟨c1, c2⟩ := i2 i t ht
          refine ⟨by simp only; rw [List.getElem?_set_ne (fun h => hij h.symm)]; exact c1, ?_⟩
          intro id hid
          obtain ⟨d1, d2⟩ := advance_out (w := s.world) hown id (hd i j id hij hid)
          exact ⟨d1.trans (c2 id hid).1, d2.trans (c2 id hid).2⟩
      · intro id hid
        obtain ⟨d1, d2⟩ := advance_out (w := s.world) hown id (hid j hlt)
        exact ⟨d1.trans (i3 id hid).1, d2.trans (i3 id hid).2⟩

theorem acts_ids {c : Call V} : ∀ a ∈ c.acts, ∀ id ∈ a.ids, id ∈ c.ids := by
  cases c with
  | upsert ok id v => simp [Call.acts, Act.ids, Call.ids]
  | upsertBatch ok rs =>
    intro a ha id hid
    simp only [Call.acts] at ha
    split at ha
    · cases ha
    · rcases List.mem_cons.1 ha with rfl | ha
      · exact hid
      · obtain ⟨r, hr, rfl⟩ := List.mem_map.1 ha
        simp only [Act.ids, List.mem_singleton] at hid
        subst hid
        exact List.mem_map_of_mem hr
  | delete ok id =>
    intro a ha j hj
    simp only [Call.acts] at ha
    split at ha
    · rw [List.mem_singleton] at ha; subst ha; exact hj
    · rcases List.mem_cons.1 ha with rfl | ha
      · exact hj
      · rw [List.mem_singleton] at ha; subst ha; exact hj

theorem start_owns (cs : List (Call V)) : Owns (fun id => ∃ c ∈ cs, id ∈ c.ids) (start cs) := by
  intro as has a ha id hid
  obtain ⟨c, hc, rfl⟩ := List.mem_map.1 has
  exact ⟨c, hc, acts_ids a ha id hid⟩

/-- The goroutines have ids of their own. -/
def Apart (cs : List (List (Call V))) : Prop :=
  ∀ (i j : Nat) ci cj, i ≠ j → cs[i]? = some ci → cs[j]? = some cj → ∀ c ∈ ci, ∀ c' ∈ cj, ∀ id ∈ c.ids, id ∉ c'.ids

theorem begin_solo {w : World V} {cs : List (List (Call V))} (hd : Apart cs) (l : List Nat) :
    (run (begin w cs) l).threads.length = cs.length ∧
    (∀ (i : Nat) c, cs[i]? = some c → (run (begin w cs) l).threads[i]? = some (solo w (start c) (l.count i)).2 ∧
      Agree (fun id => ∃ x ∈ c, id ∈ x.ids) (run (begin w cs) l).world (solo w (start c) (l.count i)).1) ∧
    ∀ id, (∀ c ∈ cs, ∀ x ∈ c, id ∉ x.ids) → (run (begin w cs) l).world.rows id = w.rows id ∧ (run (begin w cs) l).world.held id = w.held id := by
  have := run_solo (w := w) (ts := cs.map start) (P := fun i id => ∃ c, cs[i]? = some c ∧ ∃ x ∈ c, id ∈ x.ids) ?_ ?_ l
  · obtain ⟨h1, h2, h3⟩ := this
    refine ⟨by rw [List.length_map] at h1; exact h1, ?_, ?_⟩
    · intro i c hc
      obtain ⟨a, b⟩ := h2 i (start c) (by rw [List.getElem?_map, hc]; rfl)
      exact ⟨a, fun id hid => b id ⟨c, hc, hid⟩⟩
    · intro id hid
      refine h3 id ?_
      rintro i - ⟨c, hc, x, hx, hm⟩
      exact hid c (List.mem_of_getElem? hc) x hx hm
  · intro i t ht
    rw [List.getElem?_map] at ht
    obtain ⟨c, hc, rfl⟩ := Option.map_eq_some_iff.1 ht
    intro as has a ha id hid
    exact ⟨c, hc, start_owns c as has a ha id hid⟩
  · rintro i j id hij ⟨ci, hci, x, hx, hm⟩ ⟨cj, hcj, y, hy, hm'⟩
    exact hd i j ci cj hij hci hcj x hx y hy id hm hm'

/-! ### C203 -/

/-- C203: calls of goroutines that name different ids have the same effect in every schedule: the same rows, the same entries of the index and the
same outcomes of the calls, so the effect of running the goroutines one after the other. -/
theorem C203_apart_partial {w : World V} {cs : List (List (Call V))} (hd : Apart cs) (l l' : List Nat)
    (h : Done (run (begin w cs) l)) (h' : Done (run (begin w cs) l')) :
    (∀ id, (run (begin w cs) l).world.rows id = (run (begin w cs) l').world.rows id ∧
      (run (begin w cs) l).world.held id = (run (begin w cs) l').world.held id) ∧
    (run (begin w cs) l).threads.map Thread.log = (run (begin w cs) l').threads.map Thread.log := by
  obtain ⟨a1, a2, a3⟩ := begin_solo (w := w) hd l
  obtain ⟨b1, b2, b3⟩ := begin_solo (w := w) hd l'
  have hsame : ∀ (i : Nat) c, cs[i]? = some c → solo w (start c) (l.count i) = solo w (start c) (l'.count i) := by
    intro i c hc
    exact solo_end (h _ (List.mem_of_getElem? (a2 i c hc).1)) (h' _ (List.mem_of_getElem? (b2 i c hc).1))
  constructor
  · intro id
    by_cases hx : ∃ c ∈ cs, ∃ x ∈ c, id ∈ x.ids
    · obtain ⟨c, hc, x, hx, hm⟩ := hx
      obtain ⟨i, hi⟩ := List.mem_iff_getElem?.1 hc
      obtain ⟨c1, c2⟩ := (a2 i c hi).2 id ⟨x, hx, hm⟩
      obtain ⟨d1, d2⟩ := (b2 i c hi).2 id ⟨x, hx, hm⟩
      rw [c1, c2, d1, d2, hsame i c hi]
      exact ⟨rfl, rfl⟩
    · push Not at hx
      obtain ⟨c1, c2⟩ := a3 id hx
      obtain ⟨d1, d2⟩ := b3 id hx
      rw [c1, c2, d1, d2]
      exact ⟨rfl, rfl⟩
  · apply List.ext_getElem?
    intro i
    rw [List.getElem?_map, List.getElem?_map]
    cases hc : cs[i]? with
    | none =>
      rw [List.getElem?_eq_none_iff] at hc
      rw [List.getElem?_eq_none (by omega), List.getElem?_eq_none (by omega)]
    | some c => rw [(a2 i c hc).1, (b2 i c hc).1, hsame i c hc]

/-- Only insertions into the index are left of a call. -/
def Inserts (as : List (Act V)) : Prop := ∀ b ∈ as, ∃ id v, b = Act.insert id v

/-- What may be left of a call that does not remove the record. -/
def Shape (x : String) (as : List (Act V)) : Prop :=
  Inserts as ∨ (∃ ok rs bs, as = .put ok rs :: bs ∧ Inserts bs ∧ (x ∈ rs.map Prod.fst → ∃ v, .insert x v ∈ bs)) ∨
    ∀ a ∈ as, ∃ id, id ≠ x ∧ (a = .drop id ∨ ∃ ok, a = .remove ok id)

/-- Some goroutine is in a call of which such actions are left. -/
def Pend (Q : List (Act V) → Prop) (ts : List (Thread V)) : Prop :=
  ∃ (i : Nat) (t : Thread V) (as : List (Act V)) (cs : List (List (Act V))), ts[i]? = some t ∧ t.todo = as :: cs ∧ Q as

theorem pend_set {Q : List (Act V) → Prop} {R : Prop} {ts : List (Thread V)} {i : Nat} {t t' : Thread V} (hi : ts[i]? = some t) (hp : Pend Q ts)
    (ht : ∀ as cs, t.todo = as :: cs → Q as → R ∨ ∃ bs ds, t'.todo = bs :: ds ∧ Q bs) : R ∨ Pend Q (ts.set i t') := by
  have hlt : i < ts.length := by
    rcases Nat.lt_or_ge i ts.length with h | h
    · exact h
    · rw [List.getElem?_eq_none h] at hi; cases hi
  obtain ⟨j, u, as, cs, hj, hu, hq⟩ := hp
  by_cases hij : i = j
  · subst hij
    rw [hi, Option.some.injEq] at hj
    subst hj
    rcases ht as cs hu hq with h | ⟨bs, ds, h1, h2⟩
    · exact .inl h
    · exact .inr ⟨i, t', bs, ds, List.getElem?_set_self hlt, h1, h2⟩
  · exact .inr ⟨j, u, as, cs, by rw [List.getElem?_set_ne hij]; exact hj, hu, hq⟩

/-- What goes on for one record that no call removes. -/
structure Writing (x : String) (s : State V) : Prop where
  shape : ∀ t ∈ s.threads, ∀ as ∈ t.todo, Shape x as
  kept : ∀ v, s.world.held x ≠ some (v, true)
  held : (s.world.rows x).isSome → Live s.world x ∨ Pend (fun as => Inserts as ∧ ∃ v, Act.insert x v ∈ as) s.threads

theorem shape_tail {x : String} {a : Act V} {as : List (Act V)} (h : Shape x (a :: as)) : Shape x as := by
  rcases h with h | ⟨ok, rs, bs, h, h1, _⟩ | h
  · exact .inl fun b hb => h b (List.mem_cons_of_mem _ hb)
  · rw [List.cons.injEq] at h
    exact .inl (h.2 ▸ h1)
  · exact .inr (.inr fun b hb => h b (List.mem_cons_of_mem _ hb))

/-- The step of a goroutine, taken apart. -/
theorem advance_cases (w : World V) (t : Thread V) :
    (t.todo = [] ∧ advance w t = (w, t)) ∨
    (∃ cs, t.todo = [] :: cs ∧ advance w t = (w, ⟨cs, true :: t.log⟩)) ∨
    (∃ a as cs, t.todo = (a :: as) :: cs ∧ (exec w a).2 = true ∧ advance w t = ((exec w a).1, ⟨as :: cs, t.log⟩)) ∨
    ∃ a as cs, t.todo = (a :: as) :: cs ∧ (exec w a).2 = false ∧ advance w t = ((exec w a).1, ⟨cs, false :: t.log⟩) := by
  obtain ⟨todo, log⟩ := t
  unfold advance
  match todo with
  | [] => exact .inl ⟨rfl, rfl⟩
  | [] :: cs => exact .inr (.inl ⟨cs, rfl, rfl⟩)
  | (a :: as) :: cs =>
    simp only
    match hx : exec w a with
    | (w', true) => exact .inr (.inr (.inl ⟨a, as, cs, rfl, by rw [hx], by rw [hx]⟩))
    | (w', false) => exact .inr (.inr (.inr ⟨a, as, cs, rfl, by rw [hx], by rw [hx]⟩))

theorem writing_step {x : String} {s : State V} (h : Writing x s) (i : Nat) : Writing x (step s i) := by
  unfold step
  cases hi : s.threads[i]? with
  | none => exact h
  | some t =>
    have hsh := h.shape t (List.mem_of_getElem? hi)
    have hset : ∀ {t' : Thread V}, (∀ as ∈ t'.todo, Shape x as) → ∀ u ∈ s.threads.set i t', ∀ as ∈ u.todo, Shape x as := by
      intro t' ht' u hu
      rcases List.mem_or_eq_of_mem_set hu with hu | rfl
      · exact h.shape u hu
      · exact ht'
    simp only
    rcases advance_cases s.world t with ⟨_, e⟩ | ⟨cs, ht, e⟩ | ⟨a, as, cs, ht, hx, e⟩ | ⟨a, as, cs, ht, hx, e⟩ <;> rw [e]
    · refine ⟨hset hsh, h.kept, fun hr => ?_⟩
      rcases h.held hr with hl | hp
      · exact .inl hl
      · exact pend_set hi hp fun as cs h1 h2 => .inr ⟨as, cs, h1, h2⟩
    · refine ⟨hset fun as has => hsh as (by rw [ht]; exact List.mem_cons_of_mem _ has), h.kept, fun hr => ?_⟩
      rcases h.held hr with hl | hp
      · exact .inl hl
      · refine pend_set hi hp fun as ds h1 h2 => ?_
        rw [ht, List.cons.injEq] at h1
        obtain ⟨-, v, hv⟩ := h2
        rw [← h1.1] at hv
        cases hv
    · have hsa : Shape x (a :: as) := hsh _ (by rw [ht]; exact List.mem_cons_self)
      have hshape := hset (t' := ⟨as :: cs, t.log⟩) fun bs hbs => by
        rcases List.mem_cons.1 hbs with rfl | hbs
        · exact shape_tail hsa
        · exact hsh bs (by rw [ht]; exact List.mem_cons_of_mem _ hbs)
      have hins : ∀ j v, a = .insert j v → Writing x ⟨(exec s.world a).1, s.threads.set i ⟨as :: cs, t.log⟩⟩ := by
        rintro j v rfl
        have hrows : (exec s.world (.insert j v)).1.rows = s.world.rows := by
          unfold exec; simp only; split <;> rfl
        have hheld : (exec s.world (.insert j v)).1.held x = s.world.held x ∨
            x = j ∧ (exec s.world (.insert j v)).1.held x = some (v, false) := by
          by_cases hxj : x = j
          · subst hxj
            unfold exec; simp only
            split
            · exact .inl rfl
            · exact .inr ⟨trivial, if_pos rfl⟩
          · exact .inl (exec_out _ _ _ (by simpa [Act.ids] using hxj)).2
        have hlive : x = j → Live (exec s.world (.insert j v)).1 x := by
          rintro rfl
          unfold Live exec; simp only
          cases hh : s.world.held x with
          | none => exact ⟨v, if_pos rfl⟩
          | some p =>
            obtain ⟨u, b⟩ := p
            cases b with
            | false => exact ⟨u, hh⟩
            | true => exact absurd hh (h.kept u)
        refine ⟨hshape, ?_, fun hr => ?_⟩
        · intro u
          rcases hheld with e | ⟨-, e⟩
          · simp only; rw [e]; exact h.kept u
          · simp only; rw [e]; simp
        · simp only [hrows] at hr
          rcases h.held hr with hl | hp
          · left
            rcases hheld with e | ⟨-, e⟩
            · obtain ⟨u, hu⟩ := hl
              exact ⟨u, e.trans hu⟩
            · exact ⟨v, e⟩
          · refine pend_set hi hp fun bs ds h1 h2 => ?_
            rw [ht, List.cons.injEq] at h1
            obtain ⟨h2, u, hu⟩ := h2
            rw [← h1.1] at hu h2
            rcases List.mem_cons.1 hu with hu | hu
            · injection hu with hu _
              exact .inl (hlive hu)
            · exact .inr ⟨as, cs, rfl, fun b hb => h2 b (List.mem_cons_of_mem _ hb), u, hu⟩
      have hno : ∀ (w' : World V), w'.rows x = s.world.rows x → w'.held x = s.world.held x → (∀ j v, a ≠ .insert j v) →
          Writing x ⟨w', s.threads.set i ⟨as :: cs, t.log⟩⟩ := by
        intro w' e1 e2 hna
        refine ⟨hshape, by simp only; rw [e2]; exact h.kept, fun hr => ?_⟩
        simp only [e1] at hr
        rcases h.held hr with hl | hp
        · left; unfold Live; simp only; rw [e2]; exact hl
        · refine pend_set hi hp fun bs ds h1 h2 => ?_
          rw [ht, List.cons.injEq] at h1
          obtain ⟨j, v, hj⟩ := h2.1 a (by rw [← h1.1]; exact List.mem_cons_self)
          exact absurd hj (hna j v)
      rcases hsa with h1 | ⟨ok, rs, bs, h1, h2, h3⟩ | h1
      · obtain ⟨j, v, hj⟩ := h1 a List.mem_cons_self
        exact hins j v hj
      · rw [List.cons.injEq] at h1
        obtain ⟨rfl, rfl⟩ := h1
        by_cases hm : x ∈ rs.map Prod.fst
        · cases ok with
          | false => cases hx
          | true =>
            refine ⟨hshape, h.kept, fun _ => .inr ⟨i, _, as, cs, List.getElem?_set_self ?_, rfl, h2, h3 hm⟩⟩
            rcases Nat.lt_or_ge i s.threads.length with h | h
            · exact h
            · rw [List.getElem?_eq_none h] at hi; cases hi
        · obtain ⟨e1, e2⟩ := exec_out s.world (.put ok rs) x hm
          exact hno _ e1 e2 (by simp)
      · obtain ⟨j, hj, ha⟩ := h1 a List.mem_cons_self
        obtain ⟨e1, e2⟩ := exec_out s.world a x (by rcases ha with rfl | ⟨ok, rfl⟩ <;> simpa [Act.ids] using fun e => hj e.symm)
        exact hno _ e1 e2 (by rcases ha with rfl | ⟨ok, rfl⟩ <;> simp)
    · have hw : (exec s.world a).1 = s.world := by
        cases a with
        | put ok rs => cases ok <;> first | rfl | cases hx
        | insert j v => unfold exec at hx; simp only at hx; split at hx <;> cases hx
        | remove ok j => unfold exec at hx ⊢; simp only at hx ⊢; split at hx <;> first | rfl | cases hx
        | drop j => unfold exec at hx; simp only at hx; split at hx <;> cases hx
      rw [hw]
      refine ⟨hset fun as has => hsh as (by rw [ht]; exact List.mem_cons_of_mem _ has), h.kept, fun hr => ?_⟩
      rcases h.held hr with hl | hp
      · exact .inl hl
      · refine pend_set hi hp fun bs ds h1 h2 => ?_
        rw [ht, List.cons.injEq] at h1
        obtain ⟨j, v, rfl⟩ := h2.1 a (by rw [← h1.1]; exact List.mem_cons_self)
        unfold exec at hx; simp only at hx; split at hx <;> cases hx

theorem inserts_map (rs : List (String × V)) : Inserts (rs.map fun r => Act.insert r.1 r.2) := by
  intro b hb
  obtain ⟨r, -, rfl⟩ := List.mem_map.1 hb
  exact ⟨r.1, r.2, rfl⟩

theorem shape_start {x : String} {c : Call V} (h : ¬ c.removes x) : Shape x c.acts := by
  cases c with
  | upsert ok id v =>
    refine .inr (.inl ⟨ok, [(id, v)], [.insert id v], rfl, inserts_map [(id, v)], ?_⟩)
    intro hx
    simp only [List.map_cons, List.map_nil, List.mem_singleton] at hx
    subst hx
    exact ⟨v, List.mem_singleton.2 rfl⟩
  | upsertBatch ok rs =>
    simp only [Call.acts]
    split
    · exact .inl fun b hb => by cases hb
    · refine .inr (.inl ⟨ok, rs, _, rfl, inserts_map rs, ?_⟩)
      intro hx
      obtain ⟨r, hr, rfl⟩ := List.mem_map.1 hx
      exact ⟨r.2, List.mem_map.2 ⟨r, hr, rfl⟩⟩
  | delete ok id =>
    refine .inr (.inr ?_)
    simp only [Call.acts]
    have hne : id ≠ x := h
    split
    · intro a ha
      rw [List.mem_singleton] at ha
      exact ⟨id, hne, .inr ⟨_, ha⟩⟩
    · intro a ha
      rcases List.mem_cons.1 ha with rfl | ha
      · exact ⟨id, hne, .inr ⟨_, rfl⟩⟩
      · rw [List.mem_singleton] at ha
        exact ⟨id, hne, .inl ha⟩

/-- C203: a record that some goroutines write, again and again and at the same time, and that no goroutine removes is in the index when the calls
have returned, whatever the schedule, provided it was not removed before. -/
theorem C203_written_partial {w : World V} {cs : List (List (Call V))} {x : String} (hc : ∀ c ∈ cs, ∀ k ∈ c, ¬ k.removes x)
    (hk : ∀ v, w.held x ≠ some (v, true)) (hw : (w.rows x).isSome → Live w x) (l : List Nat) (hdone : Done (run (begin w cs) l))
    (hr : ((run (begin w cs) l).world.rows x).isSome) : Live (run (begin w cs) l).world x := by
  have : ∀ l, Writing x (run (begin w cs) l) := by
    intro l
    induction l using List.reverseRecOn with
    | nil =>
      refine ⟨?_, hk, fun hr => .inl (hw hr)⟩
      intro t ht as has
      obtain ⟨c, hcm, rfl⟩ := List.mem_map.1 ht
      obtain ⟨k, hkm, rfl⟩ := List.mem_map.1 has
      exact shape_start (hc c hcm k hkm)
    | append_singleton l j ih => rw [run_snoc]; exact writing_step ih j
  rcases (this l).held hr with h | ⟨i, t, as, ds, hi, ht, -⟩
  · exact h
  · rw [hdone t (List.mem_of_getElem? hi)] at ht
    cases ht

/-- What may be left of a call that does not write the record. -/
def Shape' (x : String) (as : List (Act V)) : Prop :=
  (∀ a ∈ as, x ∉ a.ids) ∨ as = [.remove false x] ∨ (∃ ok, as = [.remove ok x, .drop x]) ∨ as = [.drop x]

/-- What goes on for one record that no call writes. -/
structure Removing (x : String) (s : State V) : Prop where
  shape : ∀ t ∈ s.threads, ∀ as ∈ t.todo, Shape' x as
  held : Live s.world x → (s.world.rows x).isSome ∨ Pend (fun as => as = [Act.drop x]) s.threads

theorem shape_tail' {x : String} {a : Act V} {as : List (Act V)} (h : Shape' x (a :: as)) : Shape' x as := by
  rcases h with h | h | ⟨ok, h⟩ | h
  · exact .inl fun b hb => h b (List.mem_cons_of_mem _ hb)
  all_goals rw [List.cons.injEq] at h
  · rw [h.2]; exact .inl fun b hb => by cases hb
  · rw [h.2]; exact .inr (.inr (.inr rfl))
  · rw [h.2]; exact .inl fun b hb => by cases hb

theorem removing_step {x : String} {s : State V} (h : Removing x s) (i : Nat) : Removing x (step s i) := by
  unfold step
  cases hi : s.threads[i]? with
  | none => exact h
  | some t =>
    have hsh := h.shape t (List.mem_of_getElem? hi)
    have hset : ∀ {t' : Thread V}, (∀ as ∈ t'.todo, Shape' x as) → ∀ u ∈ s.threads.set i t', ∀ as ∈ u.todo, Shape' x as := by
      intro t' ht' u hu
      rcases List.mem_or_eq_of_mem_set hu with hu | rfl
      · exact h.shape u hu
      · exact ht'
    simp only
    rcases advance_cases s.world t with ⟨_, e⟩ | ⟨cs, ht, e⟩ | ⟨a, as, cs, ht, hx, e⟩ | ⟨a, as, cs, ht, hx, e⟩ <;> rw [e]
    · refine ⟨hset hsh, fun hr => ?_⟩
      rcases h.held hr with hl | hp
      · exact .inl hl
      · exact pend_set hi hp fun as cs h1 h2 => .inr ⟨as, cs, h1, h2⟩
    · refine ⟨hset fun as has => hsh as (by rw [ht]; exact List.mem_cons_of_mem _ has), fun hr => ?_⟩
      rcases h.held hr with hl | hp
      · exact .inl hl
      · refine pend_set hi hp fun as ds h1 h2 => ?_
        rw [ht, List.cons.injEq] at h1
        rw [h2] at h1
        cases h1.1
    · have hsa : Shape' x (a :: as) := hsh _ (by rw [ht]; exact List.mem_cons_self)
      refine ⟨hset (t' := ⟨as :: cs, t.log⟩) fun bs hbs => ?_, fun hr => ?_⟩
      · rcases List.mem_cons.1 hbs with rfl | hbs
        · exact shape_tail' hsa
        · exact hsh bs (by rw [ht]; exact List.mem_cons_of_mem _ hbs)
      · simp only at hr ⊢
        rcases hsa with h1 | h1 | ⟨ok, h1⟩ | h1
        · obtain ⟨e1, e2⟩ := exec_out s.world a x (h1 a List.mem_cons_self)
          rw [e1]
          unfold Live at hr
          rw [e2] at hr
          rcases h.held hr with hl | hp
          · exact .inl hl
          · refine pend_set hi hp fun bs ds g1 g2 => ?_
            rw [ht, List.cons.injEq, g2, List.cons.injEq] at g1
            exact absurd (by rw [g1.1.1]; exact List.mem_singleton.2 rfl) (h1 a List.mem_cons_self)
        · rw [List.cons.injEq] at h1
          rw [h1.1] at hx
          cases hx
        · rw [List.cons.injEq] at h1
          refine .inr ⟨i, _, as, cs, List.getElem?_set_self ?_, rfl, h1.2⟩
          rcases Nat.lt_or_ge i s.threads.length with h | h
          · exact h
          · rw [List.getElem?_eq_none h] at hi; cases hi
        · rw [List.cons.injEq] at h1
          obtain ⟨rfl, -⟩ := h1
          obtain ⟨v, hv⟩ := hr
          unfold exec at hv
          simp only at hv
          split at hv
          · simp at hv
          · rename_i hn
            simp only [hn] at hv
            cases hv
    · have hw : (exec s.world a).1 = s.world := by
        cases a with
        | put ok rs => cases ok <;> first | rfl | cases hx
        | insert j v => unfold exec at hx; simp only at hx; split at hx <;> cases hx
        | remove ok j => unfold exec at hx ⊢; simp only at hx ⊢; split at hx <;> first | rfl | cases hx
        | drop j => unfold exec at hx; simp only at hx; split at hx <;> cases hx
      rw [hw]
      refine ⟨hset fun as has => hsh as (by rw [ht]; exact List.mem_cons_of_mem _ has), fun hr => ?_⟩
      rcases h.held hr with hl | hp
      · exact .inl hl
      · refine pend_set hi hp fun bs ds h1 h2 => ?_
        rw [ht, List.cons.injEq, h2, List.cons.injEq] at h1
        rw [h1.1.1] at hx
        unfold exec at hx; simp only at hx; split at hx <;> cases hx

theorem shape_start' {x : String} {c : Call V} (h : ¬ c.writes x) : Shape' x c.acts := by
  cases c with
  | upsert ok id v => exact .inl fun a ha hx => h (by simpa [Call.ids, Call.writes, eq_comm] using acts_ids a ha x hx)
  | upsertBatch ok rs => exact .inl fun a ha hx => h (acts_ids a ha x hx)
  | delete ok id =>
    by_cases hid : id = x
    · subst hid
      simp only [Call.acts]
      split
      · exact .inr (.inl rfl)
      · exact .inr (.inr (.inl ⟨ok, rfl⟩))
    · exact .inl fun a ha hx => hid (by simpa [Call.ids, eq_comm] using acts_ids a ha x hx)

/-- C203: a record that some goroutines remove, at the same time, and that no goroutine writes is found by the index when the calls have returned
only if it is still in the table, whatever the schedule. -/
theorem C203_removed_partial {w : World V} {cs : List (List (Call V))} {x : String} (hc : ∀ c ∈ cs, ∀ k ∈ c, ¬ k.writes x)
    (hw : Live w x → (w.rows x).isSome) (l : List Nat) (hdone : Done (run (begin w cs) l))
    (hr : Live (run (begin w cs) l).world x) : ((run (begin w cs) l).world.rows x).isSome := by
  have : ∀ l, Removing x (run (begin w cs) l) := by
    intro l
    induction l using List.reverseRecOn with
    | nil =>
      refine ⟨?_, fun hr => .inl (hw hr)⟩
      intro t ht as has
      obtain ⟨c, hcm, rfl⟩ := List.mem_map.1 ht
      obtain ⟨k, hkm, rfl⟩ := List.mem_map.1 has
      exact shape_start' (hc c hcm k hkm)
    | append_singleton l j ih => rw [run_snoc]; exact removing_step ih j
  rcases (this l).held hr with h | ⟨i, t, as, ds, hi, ht, -⟩
  · exact h
  · rw [hdone t (List.mem_of_getElem? hi)] at ht
    cases ht

/-- C203: a write and a removal of the same new record, from two goroutines: in this order of their steps both succeed, and afterwards the table
is without the record while the index holds it for good. In no order of whole calls does this happen. -/
theorem C203_ghost_violated (w : World V) (id : String) (v : V) (hid : id ≠ "") (hr : w.rows id = none) (hh : w.held id = none) :
    let s := run (begin w [[.upsert true id v], [.delete true id]]) [0, 1, 1, 1, 0, 0]
    Done s ∧ s.threads.map Thread.log = [[true], [true]] ∧ s.world.rows id = none ∧ Live s.world id := by
  simp [run, begin, start, step, advance, exec, Call.acts, putRows, hid, hr, hh, Done, Live]

/-- Beside it: with the calls one after the other, in either order, the index never holds a record the table is without. -/
theorem C203_serial (w : World V) (id : String) (v : V) (hid : id ≠ "") (hr : w.rows id = none) (hh : w.held id = none) :
    (let s := run (begin w [[.upsert true id v], [.delete true id]]) [0, 0, 0, 1, 1, 1]
     Done s ∧ s.threads.map Thread.log = [[true], [true]] ∧ s.world.rows id = none ∧ ¬ Live s.world id) ∧
    (let s := run (begin w [[.upsert true id v], [.delete true id]]) [1, 0, 0, 0]
     Done s ∧ s.threads.map Thread.log = [[true], [false]] ∧ s.world.rows id = some v ∧ Live s.world id) := by
  simp [run, begin, start, step, advance, exec, Call.acts, putRows, hid, hr, hh, Done, Live]

/-- C203: the other way round the record is in the table and no search through the index ever finds it, although its row was written after the old row was removed. -/
theorem C203_lost_violated (w : World V) (id : String) (u v : V) (hid : id ≠ "") (hr : w.rows id = some u) (hh : w.held id = some (u, false)) :
    let s := run (begin w [[.upsert true id v], [.delete true id]]) [1, 0, 0, 1, 0, 1]
    Done s ∧ s.threads.map Thread.log = [[true], [true]] ∧ s.world.rows id = some v ∧ ¬ Live s.world id := by
  simp [run, begin, start, step, advance, exec, Call.acts, putRows, hid, hr, hh, Done, Live]

/-! ### C204 -/

theorem insert_rows (w : World V) (id : String) (v : V) : (exec w (.insert id v)).1.rows = w.rows := by
  unfold exec; simp only; split <;> rfl

theorem solo_batch {w : World V} {ok : Bool} {rs : List (String × V)} (hne : rs ≠ []) (n : Nat) :
    (solo w (start [.upsertBatch ok rs]) (n + 1)).1.rows = (if ok then putRows w.rows rs else w.rows) ∧
    ((solo w (start [.upsertBatch ok rs]) (n + 1)).2.todo = [] ∨ ∃ as, (solo w (start [.upsertBatch ok rs]) (n + 1)).2.todo = [as] ∧ Inserts as) := by
  induction n with
  | zero =>
    have he : rs.isEmpty = false := by cases rs with | nil => exact absurd rfl hne | cons _ _ => rfl
    cases ok with
    | false => simp [solo, start, Call.acts, he, advance, exec]
    | true =>
      refine ⟨by simp [solo, start, Call.acts, he, advance, exec], .inr ⟨rs.map fun r => Act.insert r.1 r.2, ?_, inserts_map rs⟩⟩
      simp [solo, start, Call.acts, he, advance, exec]
  | succ n ih =>
    obtain ⟨h1, h2⟩ := ih
    show (advance (solo w (start [.upsertBatch ok rs]) (n + 1)).1 (solo w (start [.upsertBatch ok rs]) (n + 1)).2).1.rows = _ ∧
      ((advance (solo w (start [.upsertBatch ok rs]) (n + 1)).1 (solo w (start [.upsertBatch ok rs]) (n + 1)).2).2.todo = [] ∨ ∃ as,
      (advance (solo w (start [.upsertBatch ok rs]) (n + 1)).1 (solo w (start [.upsertBatch ok rs]) (n + 1)).2).2.todo = [as] ∧ Inserts as)
    rw [← h1]
    generalize (solo w (start [.upsertBatch ok rs]) (n + 1)) = p at h1 h2 ⊢
    rcases h2 with h2 | ⟨as, h2, h3⟩
    · unfold advance; rw [h2]; exact ⟨rfl, .inl h2⟩
    · match as, h3 with
      | [], _ => unfold advance; rw [h2]; exact ⟨rfl, .inl rfl⟩
      | a :: as, h3 =>
        obtain ⟨j, v, rfl⟩ := h3 a List.mem_cons_self
        have e := insert_rows p.1 j v
        have e2 : (exec p.1 (.insert j v)).2 = true := by unfold exec; simp only; split <;> rfl
        unfold advance; rw [h2]; simp only
        match hx : exec p.1 (.insert j v) with
        | (w', true) =>
          rw [hx] at e
          exact ⟨e, .inr ⟨as, rfl, fun b hb => h3 b (List.mem_cons_of_mem _ hb)⟩⟩
        | (w', false) => rw [hx] at e2; cases e2

/-- C204: at any moment of any schedule a search of the table sees all records of a batch that is being written or none of them, when the other
goroutines use other ids. -/
theorem C204_linear_partial {w : World V} {cs : List (List (Call V))} (hd : Apart cs) {i : Nat} {ok : Bool} {rs : List (String × V)}
    (hi : cs[i]? = some [.upsertBatch ok rs]) (hn : (rs.map Prod.fst).Nodup) (l : List Nat) :
    (∀ r ∈ rs, linearSees (run (begin w cs) l).world r.1 = linearSees w r.1) ∨
    (ok = true ∧ ∀ r ∈ rs, linearSees (run (begin w cs) l).world r.1 = some r.2) := by
  obtain ⟨-, h2, -⟩ := begin_solo (w := w) hd l
  obtain ⟨-, h3⟩ := h2 i _ hi
  have hids : ∀ r ∈ rs, ∃ x ∈ [Call.upsertBatch ok rs], r.1 ∈ x.ids :=
    fun r hr => ⟨_, List.mem_singleton.2 rfl, List.mem_map_of_mem hr⟩
  cases hc : l.count i with
  | zero =>
    left
    intro r hr
    have := (h3 r.1 (hids r hr)).1
    rw [hc] at this
    exact this
  | succ n =>
    rw [hc] at h3
    by_cases hne : rs = []
    · subst hne; exact .inl fun r hr => by cases hr
    · obtain ⟨g, -⟩ := solo_batch (w := w) (ok := ok) hne n
      cases ok with
      | false =>
        left
        intro r hr
        have := (h3 r.1 (hids r hr)).1
        rw [g] at this
        exact this
      | true =>
        refine .inr ⟨rfl, fun r hr => ?_⟩
        have := (h3 r.1 (hids r hr)).1
        rw [g] at this
        exact this.trans (put_in rs w.rows hn hr)

/-- C204: a search through the index sees a part of a batch: between two insertions the first record is found and the second is not, although the
batch is in the table. -/
theorem C204_index_violated (w : World V) (a b : String) (u v : V) (hab : a ≠ b) (ha : w.held a = none) (hb : w.held b = none) :
    let s := run (begin w [[.upsertBatch true [(a, u), (b, v)]]]) [0, 0]
    linearSees s.world a = some u ∧ linearSees s.world b = some v ∧
    indexSees s.world s.world a = some u ∧ indexSees s.world s.world b = none := by
  have hba : b ≠ a := fun h => hab h.symm
  simp [run, begin, start, step, advance, exec, Call.acts, putRows, linearSees, indexSees, ha, hb, hab, hba]

/-- C204: what a search through the index reports is a row of the table whose entry was not removed when the index was asked. -/
theorem C204_sound (w w' : World V) (id : String) (v : V) (h : indexSees w w' id = some v) :
    Live w id ∧ linearSees w' id = some v := by
  unfold indexSees at h
  split at h
  · rename_i u hu
    exact ⟨⟨u, hu⟩, h⟩
  · cases h

/-! ### C205 -/

theorem solo_run (w : World V) (t : Thread V) (n : Nat) : run ⟨w, [t]⟩ (List.replicate n 0) = ⟨(solo w t n).1, [(solo w t n).2]⟩ := by
  induction n with
  | zero => rfl
  | succ n ih => rw [List.replicate_succ', run_snoc, ih]; rfl

/-- A goroutine with one call, alone, until the call has returned. -/
theorem solo_done {w : World V} {c : Call V} {n : Nat} (h : (solo w (start [c]) n).2.todo = []) :
    Done (run (begin w [[c]]) (List.replicate n 0)) ∧ (run (begin w [[c]]) (List.replicate n 0)).world = (solo w (start [c]) n).1 := by
  have e : run (begin w [[c]]) (List.replicate n 0) = _ := solo_run w (start [c]) n
  rw [e]
  refine ⟨fun t ht => ?_, rfl⟩
  rw [List.mem_singleton] at ht
  rw [ht]; exact h

/-- C205: once a batch has returned without error, every goroutine finds each of its records, in the table and through the index, whatever the other
goroutines do with other records; the records must not have been removed earlier. -/
theorem C205_written_partial {w : World V} {cs : List (List (Call V))} (hd : Apart cs) {i : Nat} {rs : List (String × V)}
    (hi : cs[i]? = some [.upsertBatch true rs]) (hn : (rs.map Prod.fst).Nodup) (hh : ∀ r ∈ rs, ∀ v, w.held r.1 ≠ some (v, true))
    (hw : ∀ r ∈ rs, (w.rows r.1).isSome → Live w r.1) (l : List Nat) {t : Thread V} (ht : (run (begin w cs) l).threads[i]? = some t)
    (hret : t.todo = []) : ∀ r ∈ rs, linearSees (run (begin w cs) l).world r.1 = some r.2 ∧
      indexSees (run (begin w cs) l).world (run (begin w cs) l).world r.1 = some r.2 := by
  intro r hr
  obtain ⟨-, h2, -⟩ := begin_solo (w := w) hd l
  obtain ⟨h3, h4⟩ := h2 i _ hi
  rw [ht, Option.some.injEq] at h3
  rw [h3] at hret
  obtain ⟨e1, e2⟩ := h4 r.1 ⟨_, List.mem_singleton.2 rfl, List.mem_map_of_mem hr⟩
  have hne : rs ≠ [] := by rintro rfl; cases hr
  have hrow : (solo w (start [.upsertBatch true rs]) (l.count i)).1.rows r.1 = some r.2 := by
    cases hc : l.count i with
    | zero => rw [hc] at hret; exact absurd hret (by simp [solo, start])
    | succ n =>
      rw [(solo_batch hne n).1]
      exact put_in rs w.rows hn hr
  have hlive : Live (solo w (start [.upsertBatch true rs]) (l.count i)).1 r.1 := by
    obtain ⟨d1, d2⟩ := solo_done hret
    have := C203_written_partial (w := w) (cs := [[.upsertBatch true rs]]) (x := r.1)
      (by intro c hc k hk; rw [List.mem_singleton] at hc; subst hc; rw [List.mem_singleton] at hk; subst hk; exact id)
      (hh r hr) (hw r hr) _ d1
    rw [d2] at this
    exact this (by rw [hrow]; rfl)
  obtain ⟨v, hv⟩ := hlive
  refine ⟨e1.trans hrow, ?_⟩
  unfold indexSees
  rw [e2, hv]
  exact e1.trans hrow

/-- C205: once a removal has returned without error, no goroutine finds the record any more, in the table or through the index. -/
theorem C205_removed {w : World V} {cs : List (List (Call V))} (hd : Apart cs) {i : Nat} {id : String} {ok : Bool}
    (hi : cs[i]? = some [.delete ok id]) (l : List Nat) {t : Thread V} (ht : (run (begin w cs) l).threads[i]? = some t)
    (hret : t.todo = []) (hok : t.log = [true]) : linearSees (run (begin w cs) l).world id = none ∧
      ∀ w', indexSees (run (begin w cs) l).world w' id = none := by
  obtain ⟨-, h2, -⟩ := begin_solo (w := w) hd l
  obtain ⟨h3, h4⟩ := h2 i _ hi
  rw [ht, Option.some.injEq] at h3
  subst h3
  obtain ⟨e1, e2⟩ := h4 id ⟨_, List.mem_singleton.2 rfl, List.mem_singleton.2 rfl⟩
  have hrun : (solo w (start [.delete ok id]) 3).2.todo = [] := by
    by_cases h0 : id = ""
    · simp [solo, start, Call.acts, advance, exec, h0]
    · cases ok <;> cases hr : w.rows id <;> cases hh : w.held id <;> simp [solo, start, Call.acts, advance, exec, h0, hr, hh]
  rw [solo_end hret hrun] at e1 e2 hok
  have : (solo w (start [.delete ok id]) 3).1.rows id = none ∧ ¬ Live (solo w (start [.delete ok id]) 3).1 id := by
    by_cases h0 : id = ""
    · simp [solo, start, Call.acts, advance, exec, h0] at hok
    · cases ok <;> cases hr : w.rows id <;> cases hh : w.held id <;> simp [solo, start, Call.acts, advance, exec, h0, hr, hh] at hok <;>
        simp [solo, start, Call.acts, advance, exec, h0, hr, hh, Live]
  refine ⟨e1.trans this.1, fun w' => ?_⟩
  unfold indexSees
  rw [e2]
  split
  · rename_i v hv
    exact absurd ⟨v, hv⟩ this.2
  · rfl

/-- C205: a record written again after it was removed stays out of the index, whoever searches: the guard of `C205_written_partial` is needed. -/
theorem C205_again_violated (w : World V) (id : String) (u v : V) (hh : w.held id = some (u, true)) :
    let s := run (begin w [[.upsert true id v]]) [0, 0, 0]
    Done s ∧ linearSees s.world id = some v ∧ indexSees s.world s.world id = none := by
  simp [run, begin, start, step, advance, exec, Call.acts, putRows, hh, Done, linearSees, indexSees]

/-! ### The hypotheses can be met -/

def w0 : World Nat := ⟨fun id => if id = "old" then some 1 else none, fun id => if id = "old" then some (1, false) else none⟩

/-- Two goroutines with ids of their own, in two schedules that both end. -/
example : Apart [[Call.upsert true "a" 3, .delete true "a"], [.upsertBatch true [("b", 4), ("c", 5)]]] ∧
    Done (run (begin w0 [[.upsert true "a" 3, .delete true "a"], [.upsertBatch true [("b", 4), ("c", 5)]]]) [0, 0, 0, 0, 0, 0, 1, 1, 1, 1]) ∧
    Done (run (begin w0 [[.upsert true "a" 3, .delete true "a"], [.upsertBatch true [("b", 4), ("c", 5)]]]) [1, 0, 1, 0, 0, 1, 0, 1, 0, 0]) ∧
    (run (begin w0 [[.upsert true "a" 3, .delete true "a"], [.upsertBatch true [("b", 4), ("c", 5)]]]) [1, 0, 1, 0, 0, 1, 0, 1, 0, 0]).world.rows "c" = some 5 := by
  refine ⟨?_, ?_, ?_, by decide⟩
  · intro i j ci cj hij hi hj
    match i, j with
    | 0, 0 => exact absurd rfl hij
    | 0, 1 => cases hi; cases hj; decide
    | 1, 0 => cases hi; cases hj; decide
    | 1, 1 => exact absurd rfl hij
    | 0, j + 2 => cases hj
    | 1, j + 2 => cases hj
    | i + 2, _ => cases hi
  · show ∀ t ∈ _, _; decide
  · show ∀ t ∈ _, _; decide

/-- Two goroutines that write the same record while a third removes another one. -/
example : (∀ c ∈ [[Call.upsert true "a" 3], [.upsertBatch true [("a", 4), ("b", 5)]], [.delete true "old"]], ∀ k ∈ c, ¬ k.removes "a") ∧
    (∀ v, w0.held "a" ≠ some (v, true)) ∧ ((w0.rows "a").isSome → Live w0 "a") ∧
    Done (run (begin w0 [[.upsert true "a" 3], [.upsertBatch true [("a", 4), ("b", 5)]], [.delete true "old"]]) [0, 1, 2, 1, 0, 2, 1, 0, 2, 1]) ∧
    ((run (begin w0 [[.upsert true "a" 3], [.upsertBatch true [("a", 4), ("b", 5)]], [.delete true "old"]]) [0, 1, 2, 1, 0, 2, 1, 0, 2, 1]).world.rows "a").isSome := by
  refine ⟨by simp [Call.removes], by simp [w0], by simp [w0], ?_, by decide⟩
  show ∀ t ∈ _, _; decide

/-- A goroutine whose removal the database refuses: the record stays. -/
example : (∀ c ∈ [[Call.delete false "old"], [.upsert true "a" 3]], ∀ k ∈ c, ¬ k.writes "old") ∧ (Live w0 "old" → (w0.rows "old").isSome) ∧
    Done (run (begin w0 [[.delete false "old"], [.upsert true "a" 3]]) [0, 1, 1, 1]) ∧
    Live (run (begin w0 [[.delete false "old"], [.upsert true "a" 3]]) [0, 1, 1, 1]).world "old" := by
  refine ⟨by simp [Call.writes], by simp [w0], ?_, 1, by decide⟩
  show ∀ t ∈ _, _; decide

/-- A batch that has returned while another goroutine is still at work, and a removal that has returned. -/
example : ((run (begin w0 [[.upsertBatch true [("b", 4), ("c", 5)]], [.upsert true "a" 3]]) [0, 1, 0, 0, 0]).threads[0]?.map Thread.todo) = some [] ∧
    ((run (begin w0 [[.upsertBatch true [("b", 4), ("c", 5)]], [.upsert true "a" 3]]) [0, 1, 0, 0, 0]).threads[1]?.map Thread.todo) ≠ some [] ∧
    (∀ r ∈ [("b", 4), ("c", 5)], ∀ v, w0.held r.1 ≠ some (v, true)) ∧
    ((run (begin w0 [[.delete true "old"], [.upsert true "a" 3]]) [0, 1, 0, 0]).threads[0]?.map Thread.todo) = some [] ∧
    ((run (begin w0 [[.delete true "old"], [.upsert true "a" 3]]) [0, 1, 0, 0]).threads[0]?.map Thread.log) = some [true] := by
  refine ⟨by decide, by decide, by simp [w0], by decide, by decide⟩

example : w0.rows "new" = none ∧ w0.held "new" = none ∧ w0.rows "old" = some 1 ∧ w0.held "old" = some (1, false) := by decide

end Verif.Interleave
