import Verif.Model.Recover
import Mathlib.Tactic.Common

/-!
# Crashes, snapshots and reopening: C29
-/

namespace Verif.Recover

variable {V : Type}

/-! ## Specification -/

/-- A search can reach the record: the index in use has a live entry for it (an untrained index is
not used, every row is compared then). -/
def Findable (m : Mem V) (id : String) : Prop :=
  m.trained = true → ∃ e ∈ m.entries, e.id = id ∧ e.deleted = false

/-- Every committed record can be found. -/
def Complete (s : State V) : Prop := ∀ r ∈ s.rows, Findable s.mem r.1

/-- The index holds exactly the committed records with their vectors. -/
def Exact (s : State V) : Prop :=
  (∀ r ∈ s.rows, (⟨r.1, r.2, false⟩ : Entry V) ∈ s.mem.entries) ∧
    ∀ e ∈ s.mem.entries, e.deleted = false ∧ (e.id, e.vec) ∈ s.rows

/-- Identifiers are unique among the rows. -/
def Unique (rows : List (String × V)) : Prop := (rows.map Prod.fst).Nodup

/-! ## Rows -/

theorem mem_putRow {rows : List (String × V)} {r x : String × V} :
    x ∈ putRow rows r ↔ (x ∈ rows ∧ x.1 ≠ r.1) ∨ x = r := by
  simp [putRow]

theorem unique_filter {rows : List (String × V)} (p : String × V → Bool) (h : Unique rows) :
    Unique (rows.filter p) := by
  unfold Unique at *
  exact (List.filter_sublist.map _).nodup h

theorem unique_putRow {rows : List (String × V)} (r : String × V) (h : Unique rows) :
    Unique (putRow rows r) := by
  unfold putRow
  have h1 := unique_filter (fun x => x.1 != r.1) h
  unfold Unique at *
  rw [List.map_append, List.nodup_append]
  refine ⟨h1, by simp, ?_⟩
  intro a ha b hb
  simp only [List.mem_map, List.mem_filter] at ha
  obtain ⟨x, ⟨_, hx⟩, rfl⟩ := ha
  simp only [List.map_cons, List.map_nil, List.mem_singleton] at hb
  subst hb
  simpa using hx

theorem unique_put {rs rows : List (String × V)} (h : Unique rows) : Unique (rs.foldl putRow rows) := by
  induction rs generalizing rows with
  | nil => exact h
  | cons r rs ih => exact ih (unique_putRow r h)

theorem mem_put_ids {rs rows : List (String × V)} {x : String × V} (h : x ∈ rs.foldl putRow rows) :
    x ∈ rows ∨ x ∈ rs := by
  induction rs generalizing rows with
  | nil => exact Or.inl h
  | cons r rs ih =>
    rcases ih h with h | h
    · rcases mem_putRow.1 h with h | h
      · exact Or.inl h.1
      · exact Or.inr (by simp [h])
    · exact Or.inr (by simp [h])

/-! ## Without snapshots -/

theorem build_exact : ∀ (rows : List (String × V)) (es : List (Entry V)),
    (rows.map Prod.fst).Nodup → (∀ e ∈ es, ∀ r ∈ rows, e.id ≠ r.1) →
    rows.foldl (fun es r => (insert .hnsw ⟨es, true⟩ r).entries) es
      = es ++ rows.map fun r => ⟨r.1, r.2, false⟩
  | [], es, _, _ => by simp
  | r :: rows, es, hn, hd => by
    simp only [List.map_cons, List.nodup_cons] at hn
    simp only [List.foldl_cons]
    have hno : es.any (fun e => e.id == r.1) = false := by
      simp only [List.any_eq_false, beq_iff_eq]
      exact fun e he => hd e he r (by simp)
    have hins : (insert .hnsw ⟨es, true⟩ r).entries = es ++ [⟨r.1, r.2, false⟩] := by
      simp [insert, hno]
    rw [hins, build_exact rows _ hn.2]
    · simp
    · intro e he r' hr'
      rcases List.mem_append.1 he with he | he
      · exact hd e he r' (by simp [hr'])
      · simp only [List.mem_singleton] at he
        subst he
        intro heq
        simp only at heq
        rw [heq] at hn
        exact hn.1 (List.mem_map_of_mem hr')

/-- Events that write no snapshot. -/
def Event.plain : Event V → Bool
  | .saveWrite | .closeSave => false
  | _ => true

theorem plain_step (k : Kind) (s : State V) (e : Event V) (he : e.plain = true) (hs : s.snap = none)
    (hu : Unique s.rows) : (step k s e).snap = none ∧ Unique (step k s e).rows := by
  cases e with
  | write rs =>
    simp only [step]; split
    · exact ⟨hs, unique_put hu⟩
    · exact ⟨hs, hu⟩
  | writeCrash rs =>
    simp only [step]; split
    · exact ⟨hs, unique_put hu⟩
    · exact ⟨hs, hu⟩
  | remove ids =>
    simp only [step]; split
    · exact ⟨hs, unique_filter _ hu⟩
    · exact ⟨hs, hu⟩
  | removeRows ids =>
    simp only [step]; split
    · exact ⟨hs, unique_filter _ hu⟩
    · exact ⟨hs, hu⟩
  | train => simp only [step]; split <;> exact ⟨hs, hu⟩
  | saveStart => simp only [step]; split <;> exact ⟨hs, hu⟩
  | saveWrite => simp [Event.plain] at he
  | closeSave => simp [Event.plain] at he
  | closeDone => simp only [step]; split <;> exact ⟨hs, hu⟩
  | crash => exact ⟨hs, hu⟩
  | reopen => simp only [step]; split <;> exact ⟨hs, hu⟩

theorem plain_run (k : Kind) : ∀ (es : List (Event V)) (s : State V), (∀ e ∈ es, e.plain = true) →
    s.snap = none → Unique s.rows → (run k s es).snap = none ∧ Unique (run k s es).rows
  | [], s, _, hs, hu => ⟨hs, hu⟩
  | e :: es, s, he, hs, hu => by
    have := plain_step k s e (he e (by simp)) hs hu
    exact plain_run k es (step k s e) (fun e' h => he e' (by simp [h])) this.1 this.2

/-- **C29 (partial).** Whatever was written and removed, and wherever the process died, a store
that has never written a snapshot of its index reopens with every committed record in it, and for
HNSW with exactly the committed records and vectors. -/
theorem C29_rebuild_partial (k : Kind) (es : List (Event V)) (he : ∀ e ∈ es, e.plain = true) :
    let s := run k init (es ++ [.crash, .reopen])
    s.up = true ∧ s.rows = (run k init es).rows ∧ Complete s ∧ (k = .hnsw → Exact s) := by
  have h := plain_run k es init he rfl (by simp [Unique, init])
  have hrun : run k init (es ++ [.crash, .reopen])
      = step k (step k (run k init es) .crash) .reopen := by
    simp [run, List.foldl_append]
  simp only [hrun]
  generalize run k init es = t at h
  obtain ⟨hs, hu⟩ := h
  have hmem : (step k (step k t .crash) .reopen).mem = fresh k t.rows := by
    simp [step, load, hs]
  have hrows : (step k (step k t .crash) .reopen).rows = t.rows := by simp [step]
  refine ⟨by simp [step], hrows, ?_, ?_⟩
  · intro r hr
    rw [hrows] at hr
    rw [hmem]
    cases k with
    | ivf => intro ht; simp [fresh] at ht
    | hnsw =>
      intro _
      refine ⟨⟨r.1, r.2, false⟩, ?_, rfl, rfl⟩
      simp only [fresh]
      rw [build_exact _ _ hu (by simp)]
      simp only [List.nil_append, List.mem_map]
      exact ⟨r, hr, rfl⟩
  · rintro rfl
    have : (step .hnsw (step .hnsw t .crash) .reopen).mem.entries
        = t.rows.map fun r => ⟨r.1, r.2, false⟩ := by
      rw [hmem]; simp only [fresh]; rw [build_exact _ _ hu (by simp)]; simp
    refine ⟨?_, ?_⟩
    · intro r hr
      rw [hrows] at hr
      rw [this]
      exact List.mem_map.2 ⟨r, hr, rfl⟩
    · intro e he
      rw [this] at he
      obtain ⟨r, hr, rfl⟩ := List.mem_map.1 he
      exact ⟨rfl, by rw [hrows]; exact hr⟩

example : ∃ es : List (Event Nat), (∀ e ∈ es, e.plain = true) ∧
    (run .hnsw init es).rows = [("b", 2), ("a", 3)] ∧ (run .hnsw init es).up = false :=
  ⟨[.reopen, .write [("a", 1), ("b", 2)], .remove ["a"], .writeCrash [("a", 3)]], by decide, by decide, by decide⟩

/-! ## Clean restarts -/

/-- What happens to a store that is never killed and whose auto-save is not running while it is
closed. -/
inductive Clean (V : Type) where
  | write (rs : List (String × V))
  | remove (ids : List String)
  | removeRows (ids : List String)
  | train
  | autoSave
  | restart
  deriving Repr

/-- The events it stands for. -/
def Clean.events : Clean V → List (Event V)
  | .write rs => [.write rs]
  | .remove ids => [.remove ids]
  | .removeRows ids => [.removeRows ids]
  | .train => [.train]
  | .autoSave => [.saveStart, .saveWrite]
  | .restart => [.closeSave, .closeDone, .reopen]

/-- No identifier is written again after it was removed. -/
def NoReuse : List String → List (Clean V) → Prop
  | _, [] => True
  | gone, .write rs :: cs => (∀ r ∈ rs, r.1 ∉ gone) ∧ NoReuse gone cs
  | gone, .remove ids :: cs => NoReuse (gone ++ ids) cs
  | gone, _ :: cs => NoReuse gone cs

/-- What holds between clean events. -/
structure Ready (k : Kind) (gone : List String) (s : State V) : Prop where
  up : s.up = true
  closing : s.closing = false
  saving : s.saving = none
  complete : Complete s
  dead : ∀ e ∈ s.mem.entries, e.deleted = true → e.id ∈ gone
  live : ∀ r ∈ s.rows, r.1 ∉ gone ∨ k = .ivf
  trained : k = .hnsw → s.mem.trained = true
  ivf : k = .ivf → ∀ e ∈ s.mem.entries, e.deleted = false
  snap : s.mem.trained = false → s.snap = none

theorem insert_trained (k : Kind) (m : Mem V) (r : String × V) : (insert k m r).trained = m.trained := by
  cases k <;> simp only [insert] <;> split <;> rfl

theorem insert_keeps (k : Kind) (m : Mem V) (r : String × V) (e : Entry V) (h : e ∈ m.entries) :
    e ∈ (insert k m r).entries := by
  cases k <;> simp only [insert] <;> split <;> simp [h]

theorem insert_entry (k : Kind) (m : Mem V) (r : String × V) (e : Entry V)
    (h : e ∈ (insert k m r).entries) : e ∈ m.entries ∨ e = ⟨r.1, r.2, false⟩ := by
  cases k <;> simp only [insert] at h <;> split at h <;>
    first
    | exact Or.inl h
    | simpa using h

theorem insert_findable (k : Kind) (m : Mem V) (r : String × V)
    (hd : ∀ e ∈ m.entries, e.deleted = true → e.id ≠ r.1) : Findable (insert k m r) r.1 := by
  intro ht
  rw [insert_trained] at ht
  cases k with
  | ivf => exact ⟨⟨r.1, r.2, false⟩, by simp [insert, ht], rfl, rfl⟩
  | hnsw =>
    by_cases ha : m.entries.any (fun e => e.id == r.1) = true
    · simp only [List.any_eq_true, beq_iff_eq] at ha
      obtain ⟨e, he, hid⟩ := ha
      refine ⟨e, insert_keeps _ _ _ _ he, hid, ?_⟩
      by_contra hdel
      exact hd e he (by simpa using hdel) hid
    · exact ⟨⟨r.1, r.2, false⟩, by simp [insert, ha], rfl, rfl⟩

theorem write_ready (k : Kind) (gone : List String) : ∀ (rs : List (String × V)) (rows : List (String × V)) (m : Mem V),
    (∀ r ∈ rows, Findable m r.1) → (∀ e ∈ m.entries, e.deleted = true → e.id ∈ gone) →
    (k = .ivf → ∀ e ∈ m.entries, e.deleted = false) →
    (∀ r ∈ rs, r.1 ∉ gone ∨ k = .ivf) →
    (∀ r ∈ rs.foldl putRow rows, Findable (rs.foldl (insert k) m) r.1) ∧
    (∀ e ∈ (rs.foldl (insert k) m).entries, e.deleted = true → e.id ∈ gone) ∧
    (k = .ivf → ∀ e ∈ (rs.foldl (insert k) m).entries, e.deleted = false) ∧
    (rs.foldl (insert k) m).trained = m.trained
  | [], rows, m, h, hd, hi, _ => ⟨h, hd, hi, rfl⟩
  | r :: rs, rows, m, h, hd, hi, hr => by
    have hnew : ∀ e ∈ (insert k m r).entries, e.deleted = true → e.id ∈ gone := by
      intro e he hde
      rcases insert_entry k m r e he with he | rfl
      · exact hd e he hde
      · simp at hde
    have hi' : k = .ivf → ∀ e ∈ (insert k m r).entries, e.deleted = false := by
      intro hk e he
      rcases insert_entry k m r e he with he | rfl
      · exact hi hk e he
      · rfl
    have hf : ∀ x ∈ putRow rows r, Findable (insert k m r) x.1 := by
      intro x hx
      rcases mem_putRow.1 hx with ⟨hx, _⟩ | rfl
      · intro ht
        rw [insert_trained] at ht
        obtain ⟨e, he, hid, hdel⟩ := h x hx ht
        exact ⟨e, insert_keeps _ _ _ _ he, hid, hdel⟩
      · refine insert_findable k m x ?_
        intro e he hde heq
        rcases hr x (by simp) with hg | hk
        · exact hg (heq ▸ hd e he hde)
        · rw [hi hk e he] at hde; simp at hde
    have := write_ready k gone rs (putRow rows r) (insert k m r) hf hnew hi' (fun r' h' => hr r' (by simp [h']))
    refine ⟨this.1, this.2.1, this.2.2.1, ?_⟩
    rw [List.foldl_cons, this.2.2.2, insert_trained]

theorem delete_trained (k : Kind) (m : Mem V) (id : String) : (delete k m id).trained = m.trained := by
  cases k <;> simp only [delete]
  split <;> rfl

theorem mem_eraseP_of_ne {α : Type*} {p : α → Bool} {l : List α} {a : α} (h : a ∈ l) (hp : p a = false) :
    a ∈ l.eraseP p := (List.mem_eraseP_of_neg (by simp [hp])).2 h

theorem delete_ready (k : Kind) : ∀ (ids : List String) (m : Mem V),
    (∀ x, x ∉ ids → Findable m x → Findable (ids.foldl (delete k) m) x) ∧
    (∀ e ∈ (ids.foldl (delete k) m).entries, e.deleted = true →
      e.id ∈ ids ∨ ∃ e' ∈ m.entries, e'.id = e.id ∧ e'.deleted = true) ∧
    (k = .ivf → (∀ e ∈ m.entries, e.deleted = false) →
      ∀ e ∈ (ids.foldl (delete k) m).entries, e.deleted = false) ∧
    (ids.foldl (delete k) m).trained = m.trained
  | [], m => ⟨fun _ _ h => h, fun e he hd => Or.inr ⟨e, he, rfl, hd⟩, fun _ h => h, rfl⟩
  | id :: ids, m => by
    have ih := delete_ready k ids (delete k m id)
    refine ⟨?_, ?_, ?_, ?_⟩
    · intro x hx hf
      refine ih.1 x (fun h => hx (by simp [h])) ?_
      intro ht
      rw [delete_trained] at ht
      obtain ⟨e, he, hid, hdel⟩ := hf ht
      have hne : e.id ≠ id := fun h => hx (by simp [← hid, h])
      refine ⟨e, ?_, hid, hdel⟩
      cases k with
      | hnsw =>
        simp only [delete, List.mem_map]
        exact ⟨e, he, by simp [hne]⟩
      | ivf =>
        simp only [delete, ht, if_true]
        exact mem_eraseP_of_ne he (by simp [hne])
    · intro e he hd
      rcases ih.2.1 e he hd with h | ⟨e', he', hid, hd'⟩
      · exact Or.inl (by simp [h])
      · cases k with
        | hnsw =>
          simp only [delete, List.mem_map] at he'
          obtain ⟨e0, he0, rfl⟩ := he'
          by_cases hid0 : e0.id = id
          · left
            have : e.id = id := by rw [← hid]; simp [hid0]
            simp [this]
          · right
            refine ⟨e0, he0, ?_, ?_⟩
            · simpa [hid0] using hid
            · simpa [hid0] using hd'
        | ivf =>
          right
          simp only [delete] at he'
          split at he'
          · exact ⟨e', List.mem_of_mem_eraseP he', hid, hd'⟩
          · exact ⟨e', he', hid, hd'⟩
    · intro hk hall
      refine ih.2.2.1 hk ?_
      subst hk
      intro e he
      simp only [delete] at he
      split at he
      · exact hall e (List.mem_of_mem_eraseP he)
      · exact hall e he
    · rw [List.foldl_cons, ih.2.2.2, delete_trained]

theorem ready_step (k : Kind) (gone : List String) (s : State V) (c : Clean V) (cs : List (Clean V))
    (h : Ready k gone s) (hn : k = .hnsw → NoReuse gone (c :: cs)) :
    ∃ gone', Ready k gone' (run k s c.events) ∧ (k = .hnsw → NoReuse gone' cs) := by
  obtain ⟨hup, hcl, hsv, hco, hde, hli, htr, hiv, hsn⟩ := h
  cases c with
  | write rs =>
    refine ⟨gone, ?_, fun hk => (hn hk).2⟩
    have hr : ∀ r ∈ rs, r.1 ∉ gone ∨ k = .ivf := by
      intro r hr
      cases k with
      | hnsw => exact Or.inl ((hn rfl).1 r hr)
      | ivf => exact Or.inr rfl
    have hw := write_ready k gone rs s.rows s.mem hco hde hiv hr
    have hrun : run k s (Clean.write rs).events
        = { s with rows := rs.foldl putRow s.rows, mem := rs.foldl (insert k) s.mem } := by
      simp [run, Clean.events, step, hup, hcl]
    rw [hrun]
    refine ⟨hup, hcl, hsv, hw.1, hw.2.1, ?_, fun hk => by simp only; rw [hw.2.2.2]; exact htr hk, hw.2.2.1, ?_⟩
    · intro r hr'
      rcases mem_put_ids hr' with hr' | hr'
      · exact hli r hr'
      · exact hr r hr'
    · simp only; rw [hw.2.2.2]; exact hsn
  | remove ids =>
    refine ⟨gone ++ ids, ?_, hn⟩
    have hd := delete_ready k ids s.mem
    have hrun : run k s (Clean.remove ids).events
        = { s with rows := s.rows.filter (fun r => !ids.contains r.1), mem := ids.foldl (delete k) s.mem } := by
      simp [run, Clean.events, step, hup, hcl]
    rw [hrun]
    refine ⟨hup, hcl, hsv, ?_, ?_, ?_, fun hk => by simp only; rw [hd.2.2.2]; exact htr hk,
      fun hk => hd.2.2.1 hk (hiv hk), ?_⟩
    · intro r hr
      simp only [List.mem_filter, Bool.not_eq_true', List.contains_eq_mem, decide_eq_false_iff_not] at hr
      exact hd.1 r.1 hr.2 (hco r hr.1)
    · intro e he hdel
      rcases hd.2.1 e he hdel with h | ⟨e', he', hid, hd'⟩
      · simp [h]
      · have := hde e' he' hd'
        rw [hid] at this
        simp [this]
    · intro r hr
      simp only [List.mem_filter, Bool.not_eq_true', List.contains_eq_mem, decide_eq_false_iff_not] at hr
      rcases hli r hr.1 with h | h
      · left; simp [h, hr.2]
      · exact Or.inr h
    · simp only; rw [hd.2.2.2]; exact hsn
  | removeRows ids =>
    refine ⟨gone, ?_, hn⟩
    have hrun : run k s (Clean.removeRows ids).events
        = { s with rows := s.rows.filter (fun r => !ids.contains r.1) } := by
      simp [run, Clean.events, step, hup, hcl]
    rw [hrun]
    exact ⟨hup, hcl, hsv, fun r hr => hco r (List.mem_filter.1 hr).1, hde,
      fun r hr => hli r (List.mem_filter.1 hr).1, htr, hiv, hsn⟩
  | train =>
    refine ⟨gone, ?_, hn⟩
    cases k with
    | hnsw =>
      have hrun : run .hnsw s (Clean.train).events = s := by
        simp [run, Clean.events, step]
      rw [hrun]
      exact ⟨hup, hcl, hsv, hco, hde, hli, htr, hiv, hsn⟩
    | ivf =>
      by_cases he : s.rows.isEmpty = true
      · have hrun : run .ivf s (Clean.train).events = s := by
          simp [run, Clean.events, step, he]
        rw [hrun]
        exact ⟨hup, hcl, hsv, hco, hde, hli, htr, hiv, hsn⟩
      · have hrun : run .ivf s (Clean.train).events
            = { s with mem := ⟨s.rows.map fun r => ⟨r.1, r.2, false⟩, true⟩ } := by
          simp [run, Clean.events, step, hup, hcl, he]
        rw [hrun]
        refine ⟨hup, hcl, hsv, ?_, ?_, hli, fun hk => by simp at hk, ?_, fun ht => by simp at ht⟩
        · intro r hr _
          exact ⟨⟨r.1, r.2, false⟩, List.mem_map.2 ⟨r, hr, rfl⟩, rfl, rfl⟩
        · intro e he' hd
          obtain ⟨r, _, rfl⟩ := List.mem_map.1 he'
          simp at hd
        · intro _ e he'
          obtain ⟨r, _, rfl⟩ := List.mem_map.1 he'
          rfl
  | autoSave =>
    refine ⟨gone, ?_, hn⟩
    by_cases hs : savable k s = true
    · have hrun : run k s (Clean.autoSave).events = { s with snap := some s.mem.entries } := by
        simp [run, Clean.events, step, hup, hs, hsv]
      rw [hrun]
      refine ⟨hup, hcl, hsv, hco, hde, hli, htr, hiv, ?_⟩
      intro ht
      cases k with
      | hnsw => have := htr rfl; simp only at ht; rw [this] at ht; simp at ht
      | ivf => simp only [savable] at hs; simp only at ht; rw [hs] at ht; simp at ht
    · have hrun : run k s (Clean.autoSave).events = s := by
        simp [run, Clean.events, step, hup, hs, hsv]
      rw [hrun]
      exact ⟨hup, hcl, hsv, hco, hde, hli, htr, hiv, hsn⟩
  | restart =>
    refine ⟨gone, ?_, hn⟩
    by_cases hs : savable k s = true
    · have ht : s.mem.trained = true := by
        cases k with
        | hnsw => exact htr rfl
        | ivf => exact hs
      have hrun : run k s (Clean.restart).events = { s with snap := some s.mem.entries } := by
        simp [run, Clean.events, step, hup, hcl, hs, load, hsv]
        cases hm : s.mem
        simp [hm] at ht ⊢
        exact ht
      rw [hrun]
      exact ⟨hup, hcl, hsv, hco, hde, hli, htr, hiv, fun h => by simp only at h; rw [ht] at h; simp at h⟩
    · have hk : k = .ivf := by
        cases k with
        | hnsw => simp [savable] at hs
        | ivf => rfl
      subst hk
      have ht : s.mem.trained = false := by simpa [savable] using hs
      have hrun : run .ivf s (Clean.restart).events = { s with mem := ⟨[], false⟩ } := by
        simp [run, Clean.events, step, hup, hcl, hs, load, hsn ht, fresh, hsv]
      rw [hrun]
      exact ⟨hup, hcl, hsv, fun r _ h => by simp at h, fun e he => by simp at he, hli,
        fun h => by simp at h, fun _ e he => by simp at he, fun _ => hsn ht⟩

theorem ready_run (k : Kind) : ∀ (cs : List (Clean V)) (gone : List String) (s : State V),
    Ready k gone s → (k = .hnsw → NoReuse gone cs) →
    ∃ gone', Ready k gone' (run k s (cs.flatMap Clean.events))
  | [], gone, s, h, _ => ⟨gone, h⟩
  | c :: cs, gone, s, h, hn => by
    obtain ⟨g1, h1, hn1⟩ := ready_step k gone s c cs h hn
    obtain ⟨g2, h2⟩ := ready_run k cs g1 _ h1 hn1
    refine ⟨g2, ?_⟩
    simpa [run, List.foldl_append] using h2

/-- **C29 (partial).** A new store, after any history of writes, removals, trainings, saves and
clean restarts in which auto-save is not running while the store closes, and in which (for HNSW)
no identifier is written again after it was removed, has every committed record in its index. -/
theorem C29_clean_history_partial (k : Kind) (cs : List (Clean V)) (hn : k = .hnsw → NoReuse [] cs) :
    let s := run k init (.reopen :: cs.flatMap Clean.events)
    s.up = true ∧ Complete s := by
  have h0 : Ready k [] (step k init (.reopen : Event V)) := by
    cases k
    · exact ⟨rfl, rfl, rfl, fun r hr => by simp [step, init] at hr,
        fun e he => by simp [step, init, load, fresh] at he, fun r hr => by simp [step, init] at hr,
        fun _ => rfl, fun h => by simp at h, fun h => by simp [step, init, load, fresh] at h⟩
    · exact ⟨rfl, rfl, rfl, fun r hr => by simp [step, init] at hr,
        fun e he => by simp [step, init, load, fresh] at he, fun r hr => by simp [step, init] at hr,
        fun h => by simp at h, fun _ e he => by simp [step, init, load, fresh] at he,
        fun _ => by simp [step, init]⟩
  obtain ⟨g, h⟩ := ready_run k cs [] _ h0 hn
  have : run k init (.reopen :: cs.flatMap Clean.events)
      = run k (step k init .reopen) (cs.flatMap Clean.events) := rfl
  simp only [this]
  exact ⟨h.up, h.complete⟩

example : NoReuse [] ([.write [("a", 1), ("b", 2)], .autoSave, .remove ["a"], .restart, .write [("c", 3)],
    .restart] : List (Clean Nat)) ∧
    (run .hnsw init (.reopen :: ([.write [("a", 1), ("b", 2)], .autoSave, .remove ["a"], .restart, .write [("c", 3)],
      .restart] : List (Clean Nat)).flatMap Clean.events)).rows = [("b", 2), ("c", 3)] := by
  constructor
  · simp [NoReuse]
  · decide

/-! ## What is lost -/

/-- Nothing in memory, in the snapshot or being saved knows the record. -/
def Unknown (x : String) (s : State V) : Prop :=
  (∀ e ∈ s.mem.entries, e.id ≠ x) ∧ (∀ es, s.snap = some es → ∀ e ∈ es, e.id ≠ x) ∧
    ∀ es, s.saving = some es → ∀ e ∈ es, e.id ≠ x

/-- **C29, violated.** Once a snapshot exists, every record first written after it is missing from
the index when the process dies before the next snapshot, although its row is committed. -/
theorem C29_snapshot_loses_violated (k : Kind) (s : State V) (es : List (Entry V)) (x : String) (v : V)
    (hup : s.up = true) (hcl : s.closing = false) (hsn : s.snap = some es) (hx : ∀ e ∈ es, e.id ≠ x) :
    let t := run k s [.write [(x, v)], .crash, .reopen]
    t.up = true ∧ (x, v) ∈ t.rows ∧ t.mem.trained = true ∧ Unknown x t ∧ ¬ Complete t := by
  have ht : run k s [.write [(x, v)], .crash, .reopen]
      = { s with rows := putRow s.rows (x, v), mem := ⟨es, true⟩, saving := none } := by
    simp [run, step, hup, hcl, load, hsn]
  rw [ht]
  refine ⟨hup, mem_putRow.2 (Or.inr rfl), rfl, ⟨hx, ?_, by simp⟩, ?_⟩
  · intro es' h
    rw [hsn] at h
    simp only [Option.some.injEq] at h
    exact h ▸ hx
  · intro hc
    obtain ⟨e, he, hid, _⟩ := hc (x, v) (mem_putRow.2 (Or.inr rfl)) rfl
    exact hx e he hid

example : ∃ es : List (Event Nat), ∃ snap, (run .hnsw init es).snap = some snap ∧
    (run .hnsw init es).up = true ∧ (run .hnsw init es).closing = false :=
  ⟨[.reopen, .write [("a", 1)], .saveStart, .saveWrite], _, rfl, rfl, rfl⟩

/-- Events that do not write the record. -/
def Event.avoids (x : String) : Event V → Prop
  | .write rs => ∀ r ∈ rs, r.1 ≠ x
  | .writeCrash rs => ∀ r ∈ rs, r.1 ≠ x
  | _ => True

/-- **C29, violated.** … and no later history repairs it: with an HNSW index and a snapshot, as
long as the record is not written again it stays out of the index, however often the store is
saved, closed and reopened. -/
theorem C29_never_repaired_violated (x : String) : ∀ (es : List (Event V)) (s : State V),
    Unknown x s → s.snap ≠ none → (∀ e ∈ es, e.avoids x) →
    Unknown x (run .hnsw s es) ∧ (run .hnsw s es).snap ≠ none
  | [], s, h, hs, _ => ⟨h, hs⟩
  | e :: es, s, h, hs, ha => by
    have hstep : Unknown x (step .hnsw s e) ∧ (step .hnsw s e).snap ≠ none := by
      obtain ⟨h1, h2, h3⟩ := h
      have hav := ha e (by simp)
      cases e with
      | write rs =>
        simp only [step]
        split
        · refine ⟨⟨?_, h2, h3⟩, hs⟩
          simp only [Event.avoids] at hav
          clear ha
          have : ∀ (rs : List (String × V)) (m : Mem V), (∀ r ∈ rs, r.1 ≠ x) → (∀ e ∈ m.entries, e.id ≠ x) →
              ∀ e ∈ (rs.foldl (insert .hnsw) m).entries, e.id ≠ x := by
            intro rs
            induction rs with
            | nil => exact fun m _ h => h
            | cons r rs ih =>
              intro m hr hm
              refine ih _ (fun r' h' => hr r' (by simp [h'])) ?_
              intro e he
              rcases insert_entry _ _ _ _ he with he | rfl
              · exact hm e he
              · exact hr r (by simp)
          exact this rs s.mem hav h1
        · exact ⟨⟨h1, h2, h3⟩, hs⟩
      | writeCrash rs =>
        simp only [step]
        split
        · exact ⟨⟨h1, h2, by simp⟩, hs⟩
        · exact ⟨⟨h1, h2, h3⟩, hs⟩
      | remove ids =>
        simp only [step]
        split
        · refine ⟨⟨?_, h2, h3⟩, hs⟩
          have : ∀ (ids : List String) (m : Mem V), (∀ e ∈ m.entries, e.id ≠ x) →
              ∀ e ∈ (ids.foldl (delete .hnsw) m).entries, e.id ≠ x := by
            intro ids
            induction ids with
            | nil => exact fun m h => h
            | cons id ids ih =>
              intro m hm
              refine ih _ ?_
              intro e he
              simp only [delete, List.mem_map] at he
              obtain ⟨e0, he0, rfl⟩ := he
              have := hm e0 he0
              split <;> exact this
          exact this ids s.mem h1
        · exact ⟨⟨h1, h2, h3⟩, hs⟩
      | removeRows ids => simp only [step]; split <;> exact ⟨⟨h1, h2, h3⟩, hs⟩
      | train => simp [step]; exact ⟨⟨h1, h2, h3⟩, hs⟩
      | saveStart =>
        simp only [step]
        split
        · refine ⟨⟨h1, h2, ?_⟩, hs⟩
          intro es' he; simp only [Option.some.injEq] at he; exact he ▸ h1
        · exact ⟨⟨h1, h2, h3⟩, hs⟩
      | saveWrite =>
        simp only [step]
        split
        · split
          · rename_i es' hsv
            refine ⟨⟨h1, ?_, by simp⟩, by simp⟩
            intro es'' he; simp only [Option.some.injEq] at he; exact he ▸ h3 es' hsv
          · exact ⟨⟨h1, h2, h3⟩, hs⟩
        · exact ⟨⟨h1, h2, h3⟩, hs⟩
      | closeSave =>
        simp only [step]
        split
        · refine ⟨⟨h1, ?_, h3⟩, by simp [savable]⟩
          intro es' he; simp [savable] at he; exact he ▸ h1
        · exact ⟨⟨h1, h2, h3⟩, hs⟩
      | closeDone =>
        simp only [step]
        split
        · exact ⟨⟨h1, h2, by simp⟩, hs⟩
        · exact ⟨⟨h1, h2, h3⟩, hs⟩
      | crash => exact ⟨⟨h1, h2, by simp [step]⟩, hs⟩
      | reopen =>
        simp only [step]
        split
        · exact ⟨⟨h1, h2, h3⟩, hs⟩
        · refine ⟨⟨?_, h2, by simp⟩, hs⟩
          simp only [load]
          split
          · rename_i es' he'
            exact h2 es' he'
          · rename_i hnone
            exact absurd hnone hs
    exact C29_never_repaired_violated x es _ hstep.1 hstep.2 (fun e' h' => ha e' (by simp [h']))

/-- **C29, violated.** Even a clean close loses records: when auto-save has serialised the index
before a record was written and writes its snapshot after `Close` wrote its own, the reopened
index lacks the record. -/
theorem C29_autosave_overwrites_violated (s : State V) (x : String) (v : V)
    (hup : s.up = true) (hcl : s.closing = false) (hx : ∀ e ∈ s.mem.entries, e.id ≠ x) :
    let t := run .hnsw s [.saveStart, .write [(x, v)], .closeSave, .saveWrite, .closeDone, .reopen]
    t.up = true ∧ (x, v) ∈ t.rows ∧ ¬ Complete t := by
  have ht : run .hnsw s [.saveStart, .write [(x, v)], .closeSave, .saveWrite, .closeDone, .reopen]
      = { s with rows := putRow s.rows (x, v), mem := ⟨s.mem.entries, true⟩, snap := some s.mem.entries,
                 saving := none } := by
    simp [run, step, hup, hcl, load, savable]
  simp only [ht]
  refine ⟨hup, mem_putRow.2 (Or.inr rfl), ?_⟩
  intro hc
  obtain ⟨e, he, hid, _⟩ := hc (x, v) (mem_putRow.2 (Or.inr rfl)) rfl
  exact hx e he hid

/-- **C29, violated.** A record that is removed and written again is not in the HNSW index, without
any crash. -/
theorem C29_rewritten_missing_violated (s : State V) (x : String) (v : V)
    (hup : s.up = true) (hcl : s.closing = false) (ht : s.mem.trained = true)
    (hx : ∃ e ∈ s.mem.entries, e.id = x) :
    let t := run .hnsw s [.remove [x], .write [(x, v)]]
    (x, v) ∈ t.rows ∧ ¬ Complete t := by
  obtain ⟨e0, he0, hid0⟩ := hx
  have hany : (delete .hnsw s.mem x).entries.any (fun e => e.id == x) = true := by
    simp only [delete, List.any_map, List.any_eq_true, Function.comp_apply]
    exact ⟨e0, he0, by simp [hid0]⟩
  have htt : run .hnsw s [.remove [x], .write [(x, v)]]
      = { s with rows := putRow (s.rows.filter fun r => !([x] : List String).contains r.1) (x, v),
                 mem := delete .hnsw s.mem x } := by
    simp only [run, List.foldl_cons, List.foldl_nil, step, hup, hcl, Bool.not_false, Bool.and_self,
      if_true]
    congr 1
    simp [insert, hany]
  simp only [htt]
  refine ⟨mem_putRow.2 (Or.inr rfl), ?_⟩
  intro hc
  obtain ⟨e, he, hid, hdel⟩ := hc (x, v) (mem_putRow.2 (Or.inr rfl)) (by simpa [delete] using ht)
  simp only [delete, List.mem_map] at he
  obtain ⟨e1, _, rfl⟩ := he
  by_cases h1 : e1.id = x
  · simp [h1] at hdel
  · simp [h1] at hid

end Verif.Recover
