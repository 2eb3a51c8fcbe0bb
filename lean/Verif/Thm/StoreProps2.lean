import Verif.Thm.StoreProps

/-! C13, C15, C16, C17: dimensions, closing, collections and documents of the record store. -/
namespace Verif.Thm.StoreProps
open Verif.Model.Store Verif.Thm.Store

variable {W HI VI : Type}

/-! ### Where rows come from -/

/-- Row `r` is what this write makes of one of the records it was given. -/
def NewRow (env : Env W HI VI) (s : St W HI VI) (op : Op W HI VI) (r : Row W) : Prop :=
  match op with
  | .upsert fk _ e => ∃ v, prepareRow s.db { e with vector := v } = .ok r ∧ (fk = true → fkHolds s.db r = true) ∧
      (if s.dim = 0 ∨ s.dim = (e.vector.getD []).length then v = e.vector
       else env.adapt (e.vector.getD []) (e.vector.getD []).length s.dim = v)
  | .upsertBatch fk _ es => ∃ e ∈ es, prepareRow s.db e = .ok r ∧ (fk = true → fkHolds s.db r = true)
  | _ => False

theorem insertRow_fk {fk : Bool} {db db' : DB W} {r : Row W} (h : insertRow fk db r = .ok db') :
    fk = true → fkHolds db r = true := by
  intro hfk
  unfold insertRow at h
  split at h
  · cases h
  · rename_i hc
    simpa [hfk] using hc

theorem batchLoop_rows {fk : Bool} {fault : Option Nat} {committed : DB W} {n : Nat} {tx tx' : DB W} {es : List (Emb W)}
    (h : batchLoop fk fault committed n tx es = .ok tx') (hc : tx.collections = committed.collections)
    (hd : tx.documents = committed.documents) (r : Row W) (hr : r ∈ tx'.embeddings) :
    r ∈ tx.embeddings ∨ ∃ e ∈ es, prepareRow committed e = .ok r ∧ (fk = true → fkHolds committed r = true) := by
  induction es generalizing n tx with
  | nil =>
    simp only [batchLoop] at h
    split at h
    · cases h
    · injection h with h; subst h; exact Or.inl hr
  | cons e es ih =>
    simp only [batchLoop] at h
    split at h
    · cases h
    · rename_i row hrow
      split at h
      · cases h
      · split at h
        · cases h
        · rename_i tx1 hins
          have htx1 := insertRow_ok hins
          rcases ih h (by rw [htx1]; exact hc) (by rw [htx1]; exact hd) with h' | ⟨e', he', hp⟩
          · rw [htx1] at h'
            simp only [List.mem_append, List.mem_filter, List.mem_singleton] at h'
            rcases h' with h' | rfl
            · exact Or.inl h'.1
            · refine Or.inr ⟨e, by simp, hrow, fun hfk => ?_⟩
              have := insertRow_fk hins hfk
              unfold fkHolds at this ⊢
              rwa [hc, hd] at this
          · exact Or.inr ⟨e', by simp [he'], hp⟩

/-- Every row after a step was there before or was made by this step from one of its arguments. -/
theorem step_rows (env : Env W HI VI) (s : St W HI VI) (op : Op W HI VI) (r : Row W)
    (hr : r ∈ (step env s op).1.db.embeddings) : r ∈ s.db.embeddings ∨ NewRow env s op r := by
  cases op with
  | upsert fk f e =>
    simp only [step, upsert] at hr
    split at hr
    · exact Or.inl hr
    · generalize hs1 : (if s.dim = 0 then { s with dim := (e.vector.getD []).length } else s) = s1 at hr
      have hdb : s1.db = s.db := by rw [← hs1]; split <;> rfl
      simp only [hdb] at hr
      split at hr
      · simp only [hdb] at hr; exact Or.inl hr
      · rename_i v hv
        split at hr
        · simp only [hdb] at hr; exact Or.inl hr
        · rename_i row hrow
          split at hr
          · simp only [hdb] at hr; exact Or.inl hr
          · split at hr
            · simp only [hdb] at hr; exact Or.inl hr
            · rename_i db' hins
              simp only at hr
              rw [insertRow_ok hins] at hr
              simp only [List.mem_append, List.mem_filter, List.mem_singleton] at hr
              rcases hr with hr | rfl
              · exact Or.inl hr.1
              · refine Or.inr ⟨v, hrow, insertRow_fk hins, ?_⟩
                by_cases h0 : s.dim = 0
                · rw [if_pos (Or.inl h0)]
                  rw [if_pos h0] at hs1
                  rw [← hs1] at hv
                  simp at hv; exact hv.symm
                · rw [if_neg h0] at hs1
                  subst hs1
                  by_cases h1 : s.dim = (e.vector.getD []).length
                  · rw [if_pos (Or.inr h1)]
                    rw [if_neg (by simp [h1])] at hv
                    injection hv with hv; exact hv.symm
                  · rw [if_neg (by simp [h0, h1])]
                    rw [if_pos (fun h => h1 h.symm)] at hv
                    cases ha : env.adapt (e.vector.getD []) (e.vector.getD []).length s.dim with
                    | none => rw [ha] at hv; cases hv
                    | some w => rw [ha] at hv; simpa using hv
  | upsertBatch fk f es =>
    simp only [step, upsertBatch] at hr
    split at hr
    · exact Or.inl hr
    · split at hr
      · exact Or.inl hr
      · split at hr
        · exact Or.inl hr
        · rename_i db' hb
          exact (batchLoop_rows hb rfl rfl r hr).imp id id
  | delete f id =>
    left
    simp only [step, delete] at hr
    repeat' split at hr
    all_goals first | exact hr | exact (List.mem_filter.1 hr).1
  | deleteByDocID f d =>
    left
    simp only [step, deleteByDocID] at hr
    repeat' split at hr
    all_goals first | exact hr | exact (List.mem_filter.1 hr).1
  | deleteBatch f ids =>
    left
    obtain ⟨g, _, hg, _⟩ := deleteChunks_eq f 0 s.db.embeddings 0 (ids.filter (fun i => !isBlank i))
    simp only [step, deleteBatch] at hr
    repeat' split at hr
    all_goals first
      | exact hr
      | (simp only [hg] at hr; exact (List.mem_filter.1 hr).1)
  | deleteByFilter f sel =>
    left
    simp only [step, deleteByFilter] at hr
    repeat' split at hr
    all_goals first | exact hr | exact (List.mem_filter.1 hr).1
  | clear f =>
    left
    simp only [step, clear] at hr
    repeat' split at hr
    all_goals first | exact hr | (simp at hr)
  | clearByDocID f ds =>
    left
    simp only [step, clearByDocID, clearRows_eq] at hr
    repeat' split at hr
    all_goals first | exact hr | exact (List.mem_filter.1 hr).1
  | createCollection f n d =>
    left
    simp only [step, createCollection] at hr
    repeat' split at hr
    all_goals exact hr
  | deleteCollection f n =>
    left
    simp only [step, deleteCollection] at hr
    repeat' split at hr
    all_goals first | exact hr | exact (List.mem_filter.1 hr).1
  | createDocument f d =>
    left
    simp only [step, createDocument] at hr
    repeat' split at hr
    all_goals exact hr
  | updateDocument f d =>
    left
    simp only [step, updateDocument] at hr
    repeat' split at hr
    all_goals exact hr
  | deleteDocument fk f d =>
    left
    simp only [step, deleteDocument] at hr
    repeat' split at hr
    all_goals first | exact hr | exact (List.mem_filter.1 hr).1
  | close => exact Or.inl hr
  | reopen d h v =>
    left
    simp only [step, reopen, ensureDefault] at hr
    split at hr <;> exact hr

/-! ### C13 -/

/-- The calls under which the claim holds: batches carry only vectors of the store's fixed dimension, the store is
reopened with the dimension it had, and the vector that fixes the dimension is not empty. -/
def Admissible (s : St W HI VI) (op : Op W HI VI) : Prop :=
  match op with
  | .upsert _ _ e => s.dim = 0 → e.vector ≠ some []
  | .upsertBatch _ _ es => s.dim ≠ 0 ∧ ∀ e ∈ es, ∀ v, e.vector = some v → v.length = s.dim
  | .reopen d _ _ => d = s.dim
  | _ => True

/-- The dimension after a step. -/
theorem step_dim (env : Env W HI VI) (s : St W HI VI) (op : Op W HI VI) (hadm : Admissible s op) :
    (step env s op).1.dim = s.dim ∨
      (s.dim = 0 ∧ ∃ fk f e, op = .upsert fk f e ∧ (step env s op).1.dim = (e.vector.getD []).length) := by
  cases op with
  | upsert fk f e =>
    simp only [step, upsert]
    split
    · exact Or.inl rfl
    · by_cases h0 : s.dim = 0
      · right
        refine ⟨h0, fk, f, e, rfl, ?_⟩
        simp only [if_pos h0]
        repeat' split
        all_goals rfl
      · left
        simp only [if_neg h0]
        repeat' split
        all_goals rfl
  | reopen d h v => exact Or.inl hadm
  | _ =>
    left
    simp only [step, upsertBatch, delete, deleteByDocID, deleteBatch, deleteByFilter, clear, clearByDocID,
      createCollection, deleteCollection, createDocument, updateDocument, deleteDocument, close]
    repeat' split
    all_goals rfl

/-- C13, part: under the strict policy and admissible calls every stored vector has the store's dimension, whatever the
history. Missing for the full claim: the calls excluded by `Admissible`, on which the code violates it. -/
theorem C13_strict_partial (env : Env W HI VI) (hstrict : ∀ v a b, a ≠ b → env.adapt v a b = none)
    (dim : Nat) (h : Option HI) (v : Option VI) (ops : List (Op W HI VI))
    (hadm : ∀ pre op post, ops = pre ++ op :: post → Admissible (run env (init dim h v) pre) op) :
    ∀ r ∈ (run env (init dim h v) ops).db.embeddings, r.vector.length = (run env (init dim h v) ops).dim := by
  suffices hh : (∀ r ∈ (run env (init dim h v) ops).db.embeddings, r.vector.length = (run env (init dim h v) ops).dim) ∧
      ((run env (init dim h v) ops).dim = 0 → (run env (init dim h v) ops).db.embeddings = []) from hh.1
  induction ops using List.reverseRecOn with
  | nil => simp [run, init, ensureDefault]
  | append_singleton ops op ih =>
    have ih' := ih (fun pre op' post hp => hadm pre op' (post ++ [op]) (by rw [hp]; simp))
    have ha := hadm ops op [] rfl
    rw [run_append]
    show (∀ r ∈ (step env (run env (init dim h v) ops) op).1.db.embeddings,
      r.vector.length = (step env (run env (init dim h v) ops) op).1.dim) ∧ _
    generalize run env (init dim h v) ops = s at ih' ha
    obtain ⟨hlen, hz⟩ := ih'
    -- the length of every row afterwards
    have key : ∀ r ∈ (step env s op).1.db.embeddings, r.vector.length = (step env s op).1.dim ∧ r.vector ≠ [] := by
      intro r hr
      rcases step_rows env s op r hr with hold | hnew
      · have hne : s.dim ≠ 0 := fun h0 => by rw [hz h0] at hold; cases hold
        rcases step_dim env s op ha with hd | ⟨h0, _⟩
        · rw [hd]
          refine ⟨hlen r hold, fun hnil => hne ?_⟩
          rw [← hlen r hold, hnil]; rfl
        · exact absurd h0 hne
      · cases op with
        | upsert fk f e =>
          obtain ⟨w, hp, _, hw⟩ := hnew
          have hv := (prepareRow_ok hp).2.1
          simp only at hv
          by_cases h0 : s.dim = 0
          · rw [if_pos (Or.inl h0)] at hw
            rw [hw] at hv
            have hne : r.vector ≠ [] := fun hn => (ha h0) (by rw [hv, hn])
            refine ⟨?_, hne⟩
            rcases step_dim env s (.upsert fk f e) ha with hd | ⟨_, fk', f', e', heq, hd⟩
            · -- the dimension was fixed by this very write
              exfalso
              have : (step env s (.upsert fk f e)).1.dim = s.dim → s.closed = true ∨ (e.vector.getD []).length = 0 := by
                intro hd
                by_cases hc : s.closed = true
                · exact Or.inl hc
                · right
                  have hd2 : (step env s (.upsert fk f e)).1.dim = (e.vector.getD []).length := by
                    simp only [step, upsert, if_neg hc, if_pos h0]
                    repeat' split
                    all_goals rfl
                  rw [← hd2, hd, h0]
              rcases this hd with hc | hl
              · simp only [step, upsert, if_pos hc] at hr
                rw [hz h0] at hr; cases hr
              · rw [hv] at hl
                exact hne (List.length_eq_zero_iff.1 (by simpa using hl))
            · injection heq with _ _ heq
              subst heq
              rw [hd, hv]; rfl
          · by_cases h1 : s.dim = (e.vector.getD []).length
            · rw [if_pos (Or.inr h1)] at hw
              rw [hw] at hv
              rw [hv] at h1
              simp only [Option.getD_some] at h1
              have hd : (step env s (.upsert fk f e)).1.dim = s.dim := by
                rcases step_dim env s (.upsert fk f e) ha with hd | ⟨h0', _⟩
                · exact hd
                · exact absurd h0' h0
              refine ⟨by rw [hd, h1], fun hn => h0 (by rw [h1, hn]; rfl)⟩
            · rw [if_neg (by simp [h0, h1])] at hw
              rw [hstrict _ _ _ (fun hh => h1 hh.symm)] at hw
              rw [← hw] at hv; cases hv
        | upsertBatch fk f es =>
          obtain ⟨e, he, hp, _⟩ := hnew
          have hv := (prepareRow_ok hp).2.1
          have hd : (step env s (.upsertBatch fk f es)).1.dim = s.dim := by
            rcases step_dim env s (.upsertBatch fk f es) ha with hd | ⟨h0', _⟩
            · exact hd
            · exact absurd h0' ha.1
          have hl := ha.2 e he r.vector hv
          refine ⟨by rw [hd, hl], fun hn => ha.1 (by rw [← hl, hn]; rfl)⟩
        | _ => exact absurd hnew (by simp [NewRow])
    refine ⟨fun r hr => (key r hr).1, ?_⟩
    intro h0
    by_contra hne
    obtain ⟨r, hr⟩ := List.exists_mem_of_ne_nil _ hne
    obtain ⟨h1, h2⟩ := key r hr
    apply h2
    apply List.length_eq_zero_iff.1
    rw [h1]; exact h0

/-- C13 is violated by a batch write: no dimension check. -/
theorem C13_batch_violated : ∃ ops : List (Op Nat Unit Unit),
    ∃ r ∈ (run env0 (init 2 none none) ops).db.embeddings, r.vector.length ≠ (run env0 (init 2 none none) ops).dim :=
  ⟨[.upsertBatch true none [{ id := "a", vector := some [1, 2, 3] }]],
    { id := "a", cid := 1, vector := [1, 2, 3], content := "", docID := none, metadata := none, acl := none }, by decide, by decide⟩

/-- C13 is violated by reopening with dimension auto-detection: the detected dimension is not kept in the file. -/
theorem C13_reopen_violated : ∃ ops : List (Op Nat Unit Unit),
    (∀ op ∈ ops, ∀ fk f es, op ≠ .upsertBatch fk f es) ∧
    ∃ r ∈ (run env0 (init 0 none none) ops).db.embeddings, r.vector.length ≠ (run env0 (init 0 none none) ops).dim ∧
      (run env0 (init 0 none none) ops).dim ≠ 0 :=
  ⟨[.upsert true false { id := "a", vector := some [1, 2] }, .reopen 0 none none,
    .upsert true false { id := "b", vector := some [1, 2, 3] }], by simp,
    { id := "a", cid := 1, vector := [1, 2], content := "", docID := none, metadata := none, acl := none }, by decide, by decide, by decide⟩

/-- C13 is violated by a first write with an empty vector: it is stored and fixes nothing. -/
theorem C13_empty_violated : ∃ ops : List (Op Nat Unit Unit),
    (∀ op ∈ ops, ∃ fk f e, op = .upsert fk f e) ∧
    ∃ r ∈ (run env0 (init 0 none none) ops).db.embeddings, r.vector.length ≠ (run env0 (init 0 none none) ops).dim ∧
      (run env0 (init 0 none none) ops).dim ≠ 0 :=
  ⟨[.upsert true false { id := "a", vector := some [] }, .upsert true false { id := "b", vector := some [1, 2, 3] }], by simp,
    { id := "a", cid := 1, vector := [], content := "", docID := none, metadata := none, acl := none }, by decide, by decide, by decide⟩

/-- Non-vacuity for C13: an admissible history with a single write, a batch and a reopening that stores rows. -/
example : (∀ pre op post, [Op.upsert true false embA, .upsertBatch true none [embB], .reopen 2 none none] = pre ++ op :: post →
      Admissible (run env0 (init 0 none none) pre) op) ∧
    (run env0 (init 0 none none) [Op.upsert true false embA, .upsertBatch true none [embB], .reopen 2 none none]).db.embeddings.length = 2 := by
  refine ⟨?_, by decide⟩
  intro pre op post h
  rcases pre with _ | ⟨a, pre⟩
  · simp only [List.nil_append, List.cons.injEq] at h
    rw [← h.1]; intro _; simp [embA]
  · rcases pre with _ | ⟨b, pre⟩
    · simp only [List.nil_append, List.cons_append, List.cons.injEq] at h
      rw [← h.2.1, ← h.1]
      refine ⟨by decide, ?_⟩
      intro e he w hw
      rw [List.mem_singleton] at he
      subst he
      simp only [embB, Option.some.injEq] at hw
      subst hw; decide
    · rcases pre with _ | ⟨c, pre⟩
      · simp only [List.nil_append, List.cons_append, List.cons.injEq] at h
        rw [← h.2.2.1, ← h.2.1, ← h.1]
        show 2 = _
        decide
      · simp at h

/-! ### C15 -/

/-- A call that opens or closes rather than uses the store. -/
def Lifecycle (op : Op W HI VI) : Prop := op = .close ∨ ∃ d h v, op = .reopen d h v

/-- C15: on a closed store every operation fails and changes nothing. The error is "closed", except that a filter delete
without a filter is refused for that reason first. -/
theorem C15_closed_refuses (env : Env W HI VI) (s : St W HI VI) (hc : s.closed = true) (op : Op W HI VI)
    (hop : ¬ Lifecycle op) :
    step env s op = (s, .err .closed) ∨ (∃ f, op = .deleteByFilter f none ∧ step env s op = (s, .err .emptyFilter)) := by
  cases op with
  | close => exact absurd (Or.inl rfl) hop
  | reopen d h v => exact absurd (Or.inr ⟨d, h, v, rfl⟩) hop
  | deleteByFilter f sel =>
    cases sel with
    | none => exact Or.inr ⟨f, rfl, rfl⟩
    | some p => left; simp [step, deleteByFilter, hc]
  | _ =>
    left
    simp [step, upsert, upsertBatch, delete, deleteByDocID, deleteBatch, clear, clearByDocID,
      createCollection, deleteCollection, createDocument, updateDocument, deleteDocument, hc]

/-- C15: `Close` may be repeated, always succeeds, and leaves data and indexes alone. -/
theorem C15_close (env : Env W HI VI) (s : St W HI VI) :
    (step env s .close).2 = .ok ∧ (step env s .close).1.closed = true ∧ (step env s .close).1.db = s.db ∧
      step env (step env s .close).1 .close = ((step env s .close).1, .ok) := ⟨rfl, rfl, rfl, rfl⟩

/-- C15: after `Close`, any number of further calls (short of opening the file again) leaves the data as it was. -/
theorem C15_stays (env : Env W HI VI) (s : St W HI VI) (ops : List (Op W HI VI))
    (hops : ∀ op ∈ ops, ∀ d h v, op ≠ .reopen d h v) :
    run env (step env s .close).1 ops = (step env s .close).1 := by
  induction ops with
  | nil => rfl
  | cons op ops ih =>
    have h1 : (step env (step env s .close).1 op).1 = (step env s .close).1 := by
      by_cases hl : op = .close
      · subst hl; rfl
      · rcases C15_closed_refuses env (step env s .close).1 rfl op (by
          rintro (h | ⟨d, h, v, hh⟩)
          · exact hl h
          · exact hops op (by simp) d h v hh) with h | ⟨_, _, h⟩ <;> rw [h]
    show run env ((step env (step env s .close).1 op).1) ops = _
    rw [h1]
    exact ih (fun o ho => hops o (by simp [ho]))

/-- C15: reads are refused as well. -/
theorem C15_read_refused (s : St W HI VI) (hc : s.closed = true) (id name : String) :
    getByID s id = .error .closed ∧ collectionCount s name = .error .closed := by
  simp [getByID, collectionCount, hc]

example : ¬ Lifecycle (Op.upsert true false embA : Op Nat Unit Unit) ∧ (step env0 store0 .close).1.closed = true :=
  ⟨(by rintro (h | ⟨_, _, _, h⟩) <;> cases h), rfl⟩

/-! ### C16 -/

/-- The record belongs to the collection of that name. -/
def InColl (db : DB W) (r : Row W) (name : String) : Prop := ∃ c ∈ db.collections, c.name = name ∧ c.id = r.cid

/-- C16: no two collections share a name (nor an internal id), after any history. -/
theorem C16_unique_names (env : Env W HI VI) (dim : Nat) (h : Option HI) (v : Option VI) (ops : List (Op W HI VI)) :
    ((run env (init dim h v) ops).db.collections.map (fun c => c.name)).Nodup ∧
    ((run env (init dim h v) ops).db.collections.map (fun c => c.id)).Nodup :=
  have wf := run_wf env (init dim h v) (init_wf dim h v) ops
  ⟨wf.collNames, wf.collIds⟩

/-- C16: creating a collection fails, changing nothing, exactly when the name is taken or the dimension is negative
(working storage, open store); otherwise there is one more, empty, collection of that name and the rows are the same. -/
theorem C16_create (env : Env W HI VI) (s : St W HI VI) (hopen : s.closed = false) (name : String) (dims : Int) :
    ((∃ c ∈ s.db.collections, c.name = name) → step env s (.createCollection false name dims) = (s, .err .exists_)) ∧
    ((¬ ∃ c ∈ s.db.collections, c.name = name) → dims < 0 →
      step env s (.createCollection false name dims) = (s, .err .negativeDims)) ∧
    ((¬ ∃ c ∈ s.db.collections, c.name = name) → 0 ≤ dims →
      (step env s (.createCollection false name dims)).2 = .ok ∧
      (∀ n, (∃ c ∈ (step env s (.createCollection false name dims)).1.db.collections, c.name = n) ↔
        n = name ∨ ∃ c ∈ s.db.collections, c.name = n) ∧
      (step env s (.createCollection false name dims)).1.db.embeddings = s.db.embeddings) := by
  have hany : (s.db.collections.any fun c => decide (c.name = name)) = true ↔ ∃ c ∈ s.db.collections, c.name = name := by
    simp [List.any_eq_true]
  refine ⟨?_, ?_, ?_⟩
  · intro h
    simp only [step, createCollection, hopen, hany.2 h]
    simp
  · intro h hd
    simp only [step, createCollection, hopen]
    rw [if_neg (by simp), if_neg (fun hh => h (hany.1 hh)), if_pos hd]
  · intro h hd
    have e : step env s (.createCollection false name dims) =
        ({ s with db := { s.db with
            collections := s.db.collections ++ [{ id := s.db.nextColl, name := name, dims := dims }]
            nextColl := s.db.nextColl + 1 } }, .ok) := by
      simp only [step, createCollection, hopen]
      rw [if_neg (by simp), if_neg (fun hh => h (hany.1 hh)), if_neg (by omega), if_neg (by simp)]
    rw [e]
    refine ⟨rfl, ?_, rfl⟩
    intro n
    simp only [List.mem_append, List.mem_singleton]
    constructor
    · rintro ⟨c, hc | rfl, hn⟩
      · exact Or.inr ⟨c, hc, hn⟩
      · exact Or.inl hn.symm
    · rintro (rfl | ⟨c, hc, hn⟩)
      · exact ⟨_, Or.inr rfl, rfl⟩
      · exact ⟨c, Or.inl hc, hn⟩

/-- C16: deleting a collection removes it and its records, no other collection and no other record; if the name is
unknown it fails and changes nothing. -/
theorem C16_delete (env : Env W HI VI) (s : St W HI VI) (wf : WF s.db) (hopen : s.closed = false) (name : String) :
    ((¬ ∃ c ∈ s.db.collections, c.name = name) → step env s (.deleteCollection false name) = (s, .err .noCollection)) ∧
    ((∃ c ∈ s.db.collections, c.name = name) →
      (step env s (.deleteCollection false name)).2 = .ok ∧
      (∀ r, r ∈ (step env s (.deleteCollection false name)).1.db.embeddings ↔ r ∈ s.db.embeddings ∧ ¬ InColl s.db r name) ∧
      (∀ c, c ∈ (step env s (.deleteCollection false name)).1.db.collections ↔ c ∈ s.db.collections ∧ c.name ≠ name)) := by
  constructor
  · intro h
    have : s.db.collections.find? (fun c => c.name = name) = none := by
      rw [List.find?_eq_none]; intro c hc; simpa using fun hn => h ⟨c, hc, hn⟩
    simp [step, deleteCollection, hopen, this]
  · rintro ⟨c, hc, hn⟩
    cases hf : s.db.collections.find? (fun c => decide (c.name = name)) with
    | none =>
      rw [List.find?_eq_none] at hf
      exact absurd hn (by simpa using hf c hc)
    | some c' =>
      have hc' := List.mem_of_find?_eq_some hf
      have hn' : c'.name = name := by simpa using List.find?_some hf
      have : c' = c := nodup_inj (fun c : Coll => c.name) wf.collNames hc' hc (by rw [hn', hn])
      subst this
      have e : step env s (.deleteCollection false name) = ({ s with db := { s.db with
            embeddings := s.db.embeddings.filter (fun r => r.cid ≠ c'.id)
            collections := s.db.collections.filter (fun x => x.id ≠ c'.id) } }, .ok) := by
        simp [step, deleteCollection, hopen, hf]
      rw [e]
      refine ⟨rfl, ?_, ?_⟩
      · intro r
        simp only [List.mem_filter, decide_eq_true_eq]
        constructor
        · rintro ⟨hr, hne⟩
          refine ⟨hr, ?_⟩
          rintro ⟨x, hx, hxn, hxi⟩
          have : x = c' := nodup_inj (fun c : Coll => c.name) wf.collNames hx hc' (by rw [hxn, hn'])
          subst this
          exact hne hxi.symm
        · rintro ⟨hr, hne⟩
          exact ⟨hr, fun heq => hne ⟨c', hc', hn', heq.symm⟩⟩
      · intro x
        simp only [List.mem_filter, decide_eq_true_eq]
        constructor
        · rintro ⟨hx, hne⟩
          refine ⟨hx, fun hxn => hne ?_⟩
          rw [nodup_inj (fun c : Coll => c.name) wf.collNames hx hc' (by rw [hxn, hn'])]
        · rintro ⟨hx, hne⟩
          refine ⟨hx, fun hxi => hne ?_⟩
          rw [nodup_inj (fun c : Coll => c.id) wf.collIds hx hc' hxi, hn']

open Classical in
/-- C16: the reported count is the number of records in the collection. -/
theorem C16_count (s : St W HI VI) (wf : WF s.db) (hopen : s.closed = false) (name : String) (n : Nat)
    (h : collectionCount s name = .ok n) : n = (s.db.embeddings.filter (fun r => InColl s.db r name)).length := by
  unfold collectionCount at h
  rw [if_neg (by simp [hopen])] at h
  split at h
  · cases h
  · rename_i c hf
    injection h with h
    rw [← h]
    have hc := List.mem_of_find?_eq_some hf
    have hn : c.name = name := by simpa using List.find?_some hf
    congr 2
    funext r
    have : r.cid = c.id ↔ InColl s.db r name := by
      constructor
      · intro hr; exact ⟨c, hc, hn, hr.symm⟩
      · rintro ⟨x, hx, hxn, hxi⟩
        rw [← hxi, nodup_inj (fun c : Coll => c.name) wf.collNames hx hc (by rw [hxn, hn])]
    simp [this]

/-- C16: a record shows the name of the collection it belongs to. -/
theorem C16_shown (db : DB W) (wf : WF db) (r : Row W) (name : String) (hname : name ≠ "") :
    (toRec db r).collection = name ↔ InColl db r name := by
  simp only [toRec]
  split
  · rename_i c hf
    have hc := List.mem_of_find?_eq_some hf
    have hi : c.id = r.cid := by simpa using List.find?_some hf
    constructor
    · intro hn; exact ⟨c, hc, hn, hi⟩
    · rintro ⟨x, hx, hxn, hxi⟩
      rw [← hxn, nodup_inj (fun c : Coll => c.id) wf.collIds hx hc (by rw [hxi, hi])]
  · rename_i hf
    rw [List.find?_eq_none] at hf
    constructor
    · intro h; exact absurd h.symm hname
    · rintro ⟨x, hx, _, hxi⟩
      exact absurd hxi (by simpa using hf x hx)

example : (step env0 (run env0 store0 [.createCollection false "c" 0, .upsert true false { embA with collection := "c" },
      .upsert true false embB]) (.deleteCollection false "c")).1.db.embeddings.length = 1 ∧
    collectionCount (run env0 store0 [.createCollection false "c" 0, .upsert true false { embA with collection := "c" }]) "c" = .ok 1 := by
  decide

/-! ### C17 -/

/-- Every stored chunk refers to stored rows only. -/
def Linked (db : DB W) : Prop :=
  ∀ r ∈ db.embeddings, (∃ c ∈ db.collections, c.id = r.cid) ∧ ∀ d, r.docID = some d → ∃ x ∈ db.documents, x.id = d

/-- The connection that executes the call enforces foreign keys. -/
def Enforced (op : Op W HI VI) : Prop :=
  match op with
  | .upsert fk _ _ => fk = true
  | .upsertBatch fk _ _ => fk = true
  | .deleteDocument fk _ _ => fk = true
  | _ => True

theorem fkHolds_iff (db : DB W) (r : Row W) : fkHolds db r = true ↔
    (∃ c ∈ db.collections, c.id = r.cid) ∧ ∀ d, r.docID = some d → ∃ x ∈ db.documents, x.id = d := by
  unfold fkHolds
  cases r.docID <;> simp

/-- Collections and documents that a row may refer to survive a step, unless the step removes the row as well. -/
theorem step_linked (env : Env W HI VI) (s : St W HI VI) (hl : Linked s.db) (op : Op W HI VI) (he : Enforced op) :
    Linked (step env s op).1.db := by
  -- a step that keeps both tables
  have same : (step env s op).1.db.collections = s.db.collections → (step env s op).1.db.documents = s.db.documents →
      Linked (step env s op).1.db := by
    intro hc hd r hr
    rw [hc, hd]
    rcases step_rows env s op r hr with hold | hnew
    · exact hl r hold
    · rw [← fkHolds_iff]
      cases op with
      | upsert fk f e => obtain ⟨_, _, hfk, _⟩ := hnew; exact hfk he
      | upsertBatch fk f es => obtain ⟨_, _, _, hfk⟩ := hnew; exact hfk he
      | _ => exact absurd hnew (by simp [NewRow])
  cases op with
  | upsertBatch fk f es =>
    apply same
    all_goals
      simp only [step, upsertBatch]
      repeat' split
      all_goals first | rfl | skip
    · rename_i db' hb; exact (batchLoop_spec hb).2.1
    · rename_i db' hb; exact (batchLoop_spec hb).2.2.1
  | upsert fk f e =>
    apply same
    all_goals
      simp only [step, upsert]
      split
      · rfl
      · generalize hs1 : (if s.dim = 0 then { s with dim := (e.vector.getD []).length } else s) = s1
        have hdb : s1.db = s.db := by rw [← hs1]; split <;> rfl
        split
        · simp only [hdb]
        · split
          · simp only [hdb]
          · split
            · simp only [hdb]
            · split
              · simp only [hdb]
              · rename_i hins
                simp only [insertRow_ok hins, hdb]
  | createCollection f n d =>
    have hsub : ∀ c ∈ s.db.collections, c ∈ (step env s (.createCollection f n d)).1.db.collections := by
      intro c hc
      simp only [step, createCollection]
      repeat' split
      all_goals first | exact hc | exact List.mem_append_left _ hc
    have hdocs : (step env s (.createCollection f n d)).1.db.documents = s.db.documents := by
      simp only [step, createCollection]
      repeat' split
      all_goals rfl
    intro r hr
    rcases step_rows env s _ r hr with hold | hnew
    · obtain ⟨⟨c, hc, hi⟩, hd⟩ := hl r hold
      exact ⟨⟨c, hsub c hc, hi⟩, by rw [hdocs]; exact hd⟩
    · exact absurd hnew (by simp [NewRow])
  | deleteCollection f n =>
    simp only [step, deleteCollection]
    repeat' split
    all_goals first | exact hl | skip
    intro r hr
    simp only [List.mem_filter, decide_eq_true_eq] at hr
    obtain ⟨⟨c, hc, hi⟩, hd⟩ := hl r hr.1
    refine ⟨⟨c, ?_, hi⟩, hd⟩
    simp only [List.mem_filter, decide_eq_true_eq]
    exact ⟨hc, by rw [hi]; exact hr.2⟩
  | createDocument f d =>
    simp only [step, createDocument]
    repeat' split
    all_goals first | exact hl | skip
    intro r hr
    obtain ⟨hc, hd⟩ := hl r hr
    refine ⟨hc, fun y hy => ?_⟩
    obtain ⟨x, hx, hxy⟩ := hd y hy
    exact ⟨x, List.mem_append_left _ hx, hxy⟩
  | updateDocument f d =>
    simp only [step, updateDocument]
    repeat' split
    all_goals first | exact hl | skip
    intro r hr
    obtain ⟨hc, hd⟩ := hl r hr
    refine ⟨hc, fun y hy => ?_⟩
    obtain ⟨x, hx, hxy⟩ := hd y hy
    refine ⟨_, List.mem_map_of_mem hx, ?_⟩
    by_cases h : x.id = d.id
    · rw [if_pos h, ← h, hxy]
    · rw [if_neg h, hxy]
  | deleteDocument fk f d =>
    have hfk : fk = true := he
    subst hfk
    simp only [step, deleteDocument]
    repeat' split
    all_goals first | exact hl | skip
    · intro r hr
      simp only [List.mem_filter, decide_eq_true_eq] at hr
      obtain ⟨hc, hd⟩ := hl r hr.1
      refine ⟨hc, fun y hy => ?_⟩
      obtain ⟨x, hx, hxy⟩ := hd y hy
      refine ⟨x, ?_, hxy⟩
      simp only [List.mem_filter, decide_eq_true_eq]
      refine ⟨hx, fun hxd => hr.2 ?_⟩
      rw [hy, ← hxy, hxd]
    · rename_i hno
      intro r hr
      obtain ⟨hc, hd⟩ := hl r hr
      refine ⟨hc, fun y hy => ?_⟩
      obtain ⟨x, hx, hxy⟩ := hd y hy
      refine ⟨x, ?_, hxy⟩
      simp only [List.mem_filter, decide_eq_true_eq]
      refine ⟨hx, fun hxd => hno ?_⟩
      simp only [Bool.true_and, List.any_eq_true]
      exact ⟨x, hx, by simp [hxd]⟩
  | reopen d h v =>
    simp only [step, reopen, ensureDefault]
    split
    · exact hl
    · intro r hr
      obtain ⟨⟨c, hc, hi⟩, hd⟩ := hl r hr
      exact ⟨⟨c, List.mem_append_left _ hc, hi⟩, hd⟩
  | _ =>
    apply same
    all_goals
      simp only [step, delete, deleteByDocID, deleteBatch, deleteByFilter, clear, clearByDocID, close]
      repeat' split
      all_goals rfl

/-- C17, part: as long as every write runs on an enforcing connection no stored chunk ever refers to a missing document or
collection. Missing for the full claim: connections on which the pragma was never executed, see `C17_violated`. -/
theorem C17_linked_partial (env : Env W HI VI) (dim : Nat) (h : Option HI) (v : Option VI) (ops : List (Op W HI VI))
    (he : ∀ op ∈ ops, Enforced op) : Linked (run env (init dim h v) ops).db := by
  have h0 : Linked (init (W := W) (HI := HI) (VI := VI) dim h v).db := by
    intro r hr; simp [init, ensureDefault] at hr
  generalize init (W := W) dim h v = s at h0
  induction ops generalizing s with
  | nil => exact h0
  | cons op ops ih =>
    exact ih (fun o ho => he o (by simp [ho])) _ (step_linked env s h0 op (he op (by simp)))

/-- C17, part: on an enforcing connection deleting a stored document removes it and exactly the chunks that refer to it. -/
theorem C17_delete_partial (env : Env W HI VI) (s : St W HI VI) (hopen : s.closed = false) (d : String)
    (hd : ∃ x ∈ s.db.documents, x.id = d) :
    (step env s (.deleteDocument true false d)).2 = .ok ∧
    (∀ r, r ∈ (step env s (.deleteDocument true false d)).1.db.embeddings ↔ r ∈ s.db.embeddings ∧ r.docID ≠ some d) ∧
    (∀ x, x ∈ (step env s (.deleteDocument true false d)).1.db.documents ↔ x ∈ s.db.documents ∧ x.id ≠ d) := by
  have hany : (s.db.documents.any fun x => decide (x.id = d)) = true := by simpa [List.any_eq_true] using hd
  simp [step, deleteDocument, hopen, hany]

/-- C17 is violated: on a pooled connection without the pragma a chunk may refer to a missing document, and deleting a
document leaves its chunks. -/
theorem C17_violated :
    (∃ ops : List (Op Nat Unit Unit), (∀ op ∈ ops, ∃ f e, op = .upsert false f e) ∧
      ¬ Linked (run env0 store0 ops).db) ∧
    (∃ s : St Nat Unit Unit, Linked s.db ∧ (∃ x ∈ s.db.documents, x.id = "d") ∧
      (step env0 s (.deleteDocument false false "d")).2 = .ok ∧
      ∃ r ∈ (step env0 s (.deleteDocument false false "d")).1.db.embeddings, r.docID = some "d") := by
  constructor
  · refine ⟨[.upsert false false { embA with docID := "d" }], by simp, ?_⟩
    intro hl
    have := (hl { id := "a", cid := 1, vector := [1, 2], content := "x", docID := some "d", metadata := none, acl := none }
      (by decide)).2 "d" rfl
    revert this; decide
  · refine ⟨run env0 store0 [.createDocument false { id := "d", body := "" }, .upsert true false { embA with docID := "d" }], ?_, ?_, by decide, ?_⟩
    · exact C17_linked_partial env0 2 none none _ (by simp [Enforced])
    · exact ⟨{ id := "d", body := "" }, by decide, rfl⟩
    · exact ⟨{ id := "a", cid := 1, vector := [1, 2], content := "x", docID := some "d", metadata := none, acl := none },
        by decide, rfl⟩

example : ∀ op ∈ ([.createDocument false { id := "d", body := "" }, .upsert true false { embA with docID := "d" },
    .deleteDocument true false "d"] : List (Op Nat Unit Unit)), Enforced op := by simp [Enforced]

end Verif.Thm.StoreProps
