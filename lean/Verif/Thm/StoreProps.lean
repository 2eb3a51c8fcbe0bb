import Verif.Thm.Store
import Mathlib.Data.List.Induction

/-! C03, C04, C05, C06, C13, C15, C16, C17: properties of the record store. -/
namespace Verif.Thm.StoreProps
open Verif.Model.Store Verif.Thm.Store

variable {W HI VI : Type}

/-- An environment and a store used for non-vacuity: strict dimension policy, no index. -/
def env0 : Env Nat Unit Unit :=
  { adapt := fun _ _ _ => none, hInsert := fun h _ _ => h, hDelete := fun h _ => h,
    vAdd := fun v _ _ => v, vDelete := fun v _ => v, vTrained := fun _ => false }

def store0 : St Nat Unit Unit := init 2 none none

def embA : Emb Nat := { id := "a", vector := some [1, 2], content := "x" }
def embB : Emb Nat := { id := "b", vector := some [3, 4], content := "y" }

/-! ### C03 -/

/-- C03, soundness: whatever `GetByID` answers is the last successful write to that id in the history. -/
theorem C03_last_write (env : Env W HI VI) (dim : Nat) (h : Option HI) (v : Option VI) (ops : List (Op W HI VI))
    (id : String) (r : Rec W) (hget : getByID (run env (init dim h v) ops) id = .ok r) :
    ∃ pre op post, ops = pre ++ op :: post ∧ Writes env (run env (init dim h v) pre) op id (recPayload r) ∧
      ∀ mid op' post', post = mid ++ op' :: post' →
        ¬ ∃ p, Writes env (run env (init dim h v) (pre ++ op :: mid)) op' id p := by
  have hopen : (run env (init dim h v) ops).closed = false := by
    unfold getByID at hget
    split at hget
    · cases hget
    · rename_i hc; simpa using hc
  have hl := (getByID_payload _ hopen id r).1 hget
  have hp : payload (run env (init dim h v) ops) id = some (recPayload r) := by simp [payload, hl]
  clear hget hopen hl
  generalize recPayload r = p at hp
  induction ops using List.reverseRecOn with
  | nil =>
    rw [payload_eq] at hp
    simp [run, init, ensureDefault, find] at hp
  | append_singleton ops op ih =>
    rw [run_append] at hp
    rcases (step_cases env _ (run_wf env _ (init_wf dim h v) ops) op id).2 with ⟨p', hw, hp'⟩ | ⟨hnw, heq⟩ | ⟨_, hnone, _⟩
    · have : p' = p := by
        have : some p' = some p := by rw [← hp', ← hp]; rfl
        injection this
      subst this
      refine ⟨ops, op, [], by simp, hw, ?_⟩
      intro mid op' post' hpost; simp at hpost
    · have hp2 : payload (run env (init dim h v) ops) id = some p := by rw [← heq, ← hp]; rfl
      obtain ⟨pre, op0, post, he, hw, hlast⟩ := ih hp2
      refine ⟨pre, op0, post ++ [op], by simp [he], hw, ?_⟩
      intro mid op' post' hpost
      rcases List.eq_nil_or_concat post' with rfl | ⟨q, x, rfl⟩
      · have : post = mid ∧ op = op' := by
          have := List.append_inj' (s₁ := post) (t₁ := [op]) (s₂ := mid) (t₂ := [op']) hpost rfl
          simpa using this
        obtain ⟨rfl, rfl⟩ := this
        rw [he] at hnw
        exact hnw
      · have : post = mid ++ op' :: q := by
          have := List.append_inj' (s₁ := post) (t₁ := [op]) (s₂ := mid ++ op' :: q) (t₂ := [x])
            (by rw [hpost]; simp) rfl
          exact this.1
        exact hlast mid op' q this
    · have : (none : Option (Payload W)) = some p := by rw [← hnone, ← hp]; rfl
      cases this

/-- C03, completeness: a successful write stays visible as long as no later call writes that id or asks for the removal of
that record. In particular calls about other ids never change it. -/
theorem C03_kept (env : Env W HI VI) (dim : Nat) (h : Option HI) (v : Option VI) (pre post : List (Op W HI VI))
    (op : Op W HI VI) (id : String) (p : Payload W) (hw : Writes env (run env (init dim h v) pre) op id p)
    (hlater : ∀ mid op' post', post = mid ++ op' :: post' →
      (¬ ∃ p', Writes env (run env (init dim h v) (pre ++ op :: mid)) op' id p') ∧
      ∀ r, lookup (run env (init dim h v) (pre ++ op :: mid)) id = some r → ¬ AsksRemoval op' id r)
    (hopen : (run env (init dim h v) (pre ++ op :: post)).closed = false) :
    ∃ r, getByID (run env (init dim h v) (pre ++ op :: post)) id = .ok r ∧ recPayload r = p := by
  have key : payload (run env (init dim h v) (pre ++ op :: post)) id = some p := by
    clear hopen
    induction post using List.reverseRecOn with
    | nil =>
      rw [run_append]
      rcases (step_cases env _ (run_wf env _ (init_wf dim h v) pre) op id).2 with ⟨p', hw', hp'⟩ | ⟨hnw, _⟩ | ⟨hnw, _⟩
      · have : p' = p := by
          obtain ⟨_, hm'⟩ := hw'
          obtain ⟨_, hm⟩ := hw
          cases op <;> simp only at hm hm'
          · obtain ⟨_, v', rfl, hv'⟩ := hm'
            obtain ⟨_, v, rfl, hv⟩ := hm
            split at hv <;> rename_i hc
            · rw [if_pos hc] at hv'
              rw [hv] at hv'; injection hv' with hv'; rw [hv']
            · rw [if_neg hc] at hv'
              rw [hv] at hv'; injection hv' with hv'; rw [hv']
          · rename_i fk f es
            obtain ⟨p1, e1, q1, v1, a1, b1, c1, d1, rfl⟩ := hm'
            obtain ⟨p2, e2, q2, v2, a2, b2, c2, d2, rfl⟩ := hm
            have : e1 = e2 := by
              have e := a1.symm.trans a2
              rcases List.append_eq_append_iff.1 e with ⟨as, h1, h2⟩ | ⟨as, h1, h2⟩
              · cases as with
                | nil => simp at h2; exact h2.1
                | cons x xs =>
                  simp only [List.cons_append, List.cons.injEq] at h2
                  exact absurd b2 (c1 e2 (by rw [h2.2]; simp))
              · cases as with
                | nil => simp at h2; exact h2.1.symm
                | cons x xs =>
                  simp only [List.cons_append, List.cons.injEq] at h2
                  exact absurd b1 (c2 e1 (by rw [h2.2]; simp))
            subst this
            rw [d1] at d2; injection d2 with d2; rw [d2]
        subst this; exact hp'
      · exact absurd ⟨p, hw⟩ hnw
      · exact absurd ⟨p, hw⟩ hnw
    | append_singleton post op1 ih =>
      have ih' := ih (fun mid op' post' hp => hlater mid op' (post' ++ [op1]) (by rw [hp]; simp))
      have hl := hlater post op1 [] rfl
      have e : pre ++ op :: (post ++ [op1]) = (pre ++ op :: post) ++ [op1] := by simp
      rw [e, run_append]
      rcases (step_cases env _ (run_wf env _ (init_wf dim h v) (pre ++ op :: post)) op1 id).2 with
        ⟨p', hw', _⟩ | ⟨_, heq⟩ | ⟨_, _, r, hr, hask⟩
      · exact absurd ⟨p', hw'⟩ hl.1
      · rw [← ih', ← heq]; rfl
      · exact absurd hask (hl.2 r hr)
  unfold payload at key
  rw [Option.map_eq_some_iff] at key
  obtain ⟨r, hr, hp⟩ := key
  exact ⟨r, (getByID_payload _ hopen id r).2 hr, hp⟩

/-- C03: on an open store the only error `GetByID` gives is not-found. -/
theorem C03_error_is_not_found (s : St W HI VI) (hopen : s.closed = false) (id : String) (e : Err)
    (h : getByID s id = .error e) : e = .notFound := by
  unfold getByID at h
  rw [hopen] at h
  simp only [Bool.false_eq_true, if_false] at h
  split at h
  · injection h with h; exact h.symm
  · cases h

/-- C03: a successful call that asks for the removal of a record removes it. A blank id in a bulk delete is ignored by the
code, a record whose collection row is missing shows the empty collection name, and deleting a document removes chunks
only through an enforced cascade (see C17); these three are excluded here. -/
theorem C03_removed (env : Env W HI VI) (s : St W HI VI) (wf : WF s.db) (op : Op W HI VI) (id : String) (r : Rec W)
    (hr : lookup s id = some r) (hask : AsksRemoval op id r) (hok : (step env s op).2 = .ok)
    (hblank : ∀ f ids, op = .deleteBatch f ids → isBlank id = false)
    (hcoll : ∀ f n, op = .deleteCollection f n → n ≠ "")
    (hcasc : ∀ fk f d, op = .deleteDocument fk f d → fk = true ∧ ∃ x ∈ s.db.documents, x.id = d) :
    lookup (step env s op).1 id = none := by
  -- the row behind the lookup
  obtain ⟨row, hrow, rfl⟩ : ∃ row, find s.db id = some row ∧ toRec s.db row = r := by
    unfold lookup getByID at hr
    simp only [Bool.false_eq_true, if_false] at hr
    cases hf : s.db.embeddings.find? (fun r => r.id = id) with
    | none => simp [hf] at hr
    | some row => simp [hf] at hr; exact ⟨row, hf, hr⟩
  have hid : row.id = id := by simpa using List.find?_some hrow
  have hnone : ∀ (s' : St W HI VI) (q : Row W → Bool), s'.db.embeddings = s.db.embeddings.filter q → q row = false →
      lookup s' id = none := by
    intro s' q hq hqr
    have hf := find_some_of_filter hq wf id
    rw [hrow] at hf
    simp only [Option.filter, hqr] at hf
    unfold lookup getByID
    unfold find at hf
    simp only [Bool.false_eq_true, if_false] at hf ⊢
    rw [hf]
  cases op with
  | upsert | upsertBatch | createCollection | createDocument | updateDocument | close | reopen => exact absurd hask (by simp [AsksRemoval])
  | delete f i =>
    simp only [step, delete] at hok ⊢
    split at hok
    · cases hok
    · rename_i h1
      rw [if_neg h1]
      split at hok
      · cases hok
      · rename_i h2
        rw [if_neg h2]
        split at hok
        · cases hok
        · rename_i h3
          rw [if_neg h3]
          split at hok
          · rename_i h4
            rw [if_pos h4]
            exact hnone _ _ rfl (by simp only [AsksRemoval] at hask; simp [hid, hask])
          · cases hok
  | deleteByDocID f d =>
    simp only [step, deleteByDocID] at hok ⊢
    split at hok
    · cases hok
    · rename_i h1
      rw [if_neg h1]
      split at hok
      · cases hok
      · rename_i h2
        rw [if_neg h2]
        split at hok
        · cases hok
        · rename_i h3
          rw [if_neg h3]
          refine hnone _ _ rfl ?_
          simp only [AsksRemoval, toRec] at hask
          cases hdoc : row.docID with
          | none => rw [hdoc] at hask; simp at hask
          | some x => rw [hdoc] at hask; simp at hask; simp [hask.2]
  | deleteBatch f ids =>
    simp only [step, deleteBatch] at hok ⊢
    have hnb := hblank f ids rfl
    simp only [AsksRemoval] at hask
    have hv : id ∈ ids.filter (fun i => !isBlank i) := List.mem_filter.2 ⟨hask, by simp [hnb]⟩
    obtain ⟨g, hg1, hg2, _, hg4⟩ := deleteChunks_eq f 0 s.db.embeddings 0 (ids.filter (fun i => !isBlank i))
    split at hok
    · cases hok
    · rename_i h1
      rw [if_neg h1]
      split at hok
      · rename_i h2
        rw [List.length_eq_zero_iff.1 h2] at hask; simp at hask
      · rename_i h2
        rw [if_neg h2]
        split at hok
        · rename_i h3
          rw [List.length_eq_zero_iff.1 h3] at hv; simp at hv
        · rename_i h3
          rw [if_neg h3]
          split at hok
          · cases hok
          · rename_i h4
            rw [if_neg h4]
            split at hok
            · cases hok
            · rename_i h5
              rw [if_neg h5]
              refine hnone _ _ hg2 ?_
              have := hg4 (by simpa using h4) id hv
              simp [hid, this]
  | deleteByFilter f sel =>
    cases sel with
    | none => exact absurd hask (by simp [AsksRemoval])
    | some sel =>
      simp only [step, deleteByFilter] at hok ⊢
      simp only [AsksRemoval, toRec] at hask
      split at hok
      · cases hok
      · rename_i h1
        rw [if_neg h1]
        split at hok
        · cases hok
        rename_i h0
        rw [if_neg h0]
        split at hok
        · rename_i h2
          exfalso
          have : row ∈ s.db.embeddings.filter (fun r => sel r.metadata == some true) :=
            List.mem_filter.2 ⟨List.mem_of_find?_eq_some hrow, by simp [hask]⟩
          rw [List.length_map, List.length_eq_zero_iff] at h2
          rw [h2] at this; simp at this
        · rename_i h2
          rw [if_neg h2]
          split at hok
          · cases hok
          · rename_i h3
            rw [if_neg h3]
            exact hnone _ _ rfl (by simp [hask])
  | clear f =>
    simp only [step, clear] at hok ⊢
    split at hok
    · cases hok
    · rename_i h1
      rw [if_neg h1]
      split at hok
      · cases hok
      · rename_i h2
        rw [if_neg h2]
        exact hnone _ (fun _ => false) (by simp) rfl
  | clearByDocID f ds =>
    simp only [step, clearByDocID] at hok ⊢
    simp only [AsksRemoval] at hask
    split at hok
    · cases hok
    · rename_i h1
      rw [if_neg h1]
      split at hok
      · rename_i h2
        rw [List.length_eq_zero_iff.1 h2] at hask; simp at hask
      · rename_i h2
        rw [if_neg h2]
        split at hok
        · cases hok
        · rename_i h3
          rw [if_neg h3]
          refine hnone _ _ (clearRows_eq ds s.db.embeddings) ?_
          simp only [toRec] at hask
          cases hdoc : row.docID with
          | none => rw [hdoc] at hask; simp at hask
          | some x =>
            rw [hdoc] at hask
            simp only [Option.getD_some] at hask
            simp only [Bool.not_eq_false', List.any_eq_true]
            exact ⟨x, hask.2, by simp [hask.1]⟩
  | deleteCollection f name =>
    simp only [step, deleteCollection] at hok ⊢
    split at hok
    · cases hok
    · rename_i h1
      rw [if_neg h1]
      split at hok
      · cases hok
      · rename_i c hc
        split at hok
        · cases hok
        · rename_i h3
          rw [if_neg h3]
          refine hnone _ _ rfl ?_
          simp only [AsksRemoval, toRec] at hask
          have hcm := List.mem_of_find?_eq_some hc
          have hcn : c.name = name := by simpa using List.find?_some hc
          split at hask
          · rename_i c' hc'
            have h1 := List.mem_of_find?_eq_some hc'
            have h2 : c'.id = row.cid := by simpa using List.find?_some hc'
            have := nodup_inj (fun c : Coll => c.name) wf.collNames h1 hcm (by rw [hask, hcn])
            subst this
            simp [h2]
          · -- a row without a collection shows the empty name
            exact absurd hask.symm (hcoll f name rfl)
  | deleteDocument fk f d =>
    obtain ⟨hfk, x, hx, hxd⟩ := hcasc fk f d rfl
    simp only [step, deleteDocument] at hok ⊢
    split at hok
    · cases hok
    · rename_i h1
      rw [if_neg h1]
      split at hok
      · cases hok
      · rename_i h2
        rw [if_neg h2]
        have hany : (fk && s.db.documents.any (fun x => x.id = d)) = true := by
          simp only [hfk, Bool.true_and, List.any_eq_true]
          exact ⟨x, hx, by simp [hxd]⟩
        refine hnone _ (fun r => decide (r.docID ≠ some d)) (by simp only [hany, if_true]) ?_
        simp only [AsksRemoval, toRec] at hask
        cases hdoc : row.docID with
        | none => rw [hdoc] at hask; simp at hask
        | some y => rw [hdoc] at hask; simp at hask; simp [hask.2]

/-- Non-vacuity for C03: a history with two writes and a delete of another id, and a successful lookup. -/
example : (∃ r, getByID (run env0 store0 [.upsert true false embA, .upsert true false embB, .delete false "b"]) "a" = .ok r) ∧
    Writes env0 store0 (.upsert true false embA) "a" (written embA [1, 2]) ∧
    AsksRemoval (W := Nat) (HI := Unit) (VI := Unit) (.delete false "b") "b" ⟨[3, 4], "y", "", none, [], "default"⟩ := by
  refine ⟨⟨⟨[1, 2], "x", "", none, [], "default"⟩, by decide⟩, ⟨by decide, rfl, [1, 2], rfl, ?_⟩, rfl⟩
  rw [if_pos (Or.inr (by decide))]; rfl

/-! ### C04 -/

/-- C04: a batch upsert that reports an error changes neither rows, nor the other tables, nor the indexes; one that reports
success has stored every record of the batch (of several with the same id, the last) and touched no other id. -/
theorem C04_all_or_nothing (env : Env W HI VI) (s : St W HI VI) (wf : WF s.db) (fk : Bool) (fault : Option Nat)
    (es : List (Emb W)) :
    (∃ e, step env s (.upsertBatch fk fault es) = (s, .err e)) ∨
    ((step env s (.upsertBatch fk fault es)).2 = .ok ∧
      (∀ pre e post, es = pre ++ e :: post → (∀ x ∈ post, x.id ≠ e.id) →
        ∃ v, e.vector = some v ∧ payload (step env s (.upsertBatch fk fault es)).1 e.id = some (written e v)) ∧
      (∀ id, (∀ e ∈ es, e.id ≠ id) → payload (step env s (.upsertBatch fk fault es)).1 id = payload s id)) := by
  by_cases hok : (step env s (.upsertBatch fk fault es)).2 = .ok
  · right
    refine ⟨hok, ?_, ?_⟩
    · intro pre e post hes hpost
      rcases (step_cases env s wf (.upsertBatch fk fault es) e.id).2 with ⟨p, ⟨_, hm⟩, hp⟩ | ⟨hnw, _⟩ | ⟨_, _, r, _, hask⟩
      · simp only at hm
        obtain ⟨pre', e', post', v, a, b, c, d, rfl⟩ := hm
        have : e' = e := by
          rcases List.append_eq_append_iff.1 (a.symm.trans hes) with ⟨as, h1, h2⟩ | ⟨as, h1, h2⟩
          · cases as with
            | nil => simp at h2; exact h2.1
            | cons x xs =>
              simp only [List.cons_append, List.cons.injEq] at h2
              exact absurd rfl (c e (by rw [h2.2]; simp))
          · cases as with
            | nil => simp at h2; exact h2.1.symm
            | cons x xs =>
              simp only [List.cons_append, List.cons.injEq] at h2
              exact absurd b (hpost e' (by rw [h2.2]; simp))
        subst this
        exact ⟨v, d, hp⟩
      · exfalso
        apply hnw
        have hb : ∃ db', batchLoop fk fault s.db 0 s.db es = .ok db' := by
          simp only [step, upsertBatch] at hok
          split at hok
          · cases hok
          · split at hok
            · rename_i h0
              rw [List.length_eq_zero_iff.1 h0] at hes; simp at hes
            · split at hok
              · cases hok
              · rename_i db' hb; exact ⟨db', hb⟩
        obtain ⟨db', hb⟩ := hb
        rcases (batchLoop_spec hb).2.2.2 e.id with ⟨pre', e', post', v, a, b, c, d, _⟩ | ⟨hno, _⟩
        · exact ⟨_, hok, pre', e', post', v, a, b, c, d, rfl⟩
        · exact absurd rfl (hno e (by rw [hes]; simp))
      · exact absurd hask (by simp [AsksRemoval])
    · intro id hid
      rcases (step_cases env s wf (.upsertBatch fk fault es) id).2 with ⟨p, ⟨_, hm⟩, hp⟩ | ⟨hnw, heq⟩ | ⟨_, _, r, _, hask⟩
      · simp only at hm
        obtain ⟨pre', e', post', v, a, b, _⟩ := hm
        exact absurd b (hid e' (by rw [a]; simp))
      · exact heq
      · exact absurd hask (by simp [AsksRemoval])
  · left
    simp only [step, upsertBatch] at hok ⊢
    split
    · exact ⟨_, rfl⟩
    · rename_i h1
      rw [if_neg h1] at hok
      split
      · rename_i h2; rw [if_pos h2] at hok; exact absurd rfl hok
      · rename_i h2
        rw [if_neg h2] at hok
        split
        · exact ⟨_, rfl⟩
        · rename_i db' hb
          rw [hb] at hok; exact absurd rfl hok

theorem batchLoop_bad (fk : Bool) (fault : Option Nat) (committed : DB W) (n : Nat) (tx : DB W) (es : List (Emb W))
    (hbad : (∃ k, n ≤ k ∧ k ≤ n + es.length ∧ fault = some k) ∨
      (∃ e ∈ es, ∀ r, prepareRow committed e ≠ .ok r) ∨
      (fk = true ∧ ∃ e ∈ es, e.docID ≠ "" ∧ ∀ d ∈ tx.documents, d.id ≠ e.docID)) :
    ∃ er, batchLoop fk fault committed n tx es = .error er := by
  induction es generalizing n tx with
  | nil =>
    rcases hbad with ⟨k, h1, h2, h3⟩ | ⟨e, he, _⟩ | ⟨_, e, he, _⟩
    · have : k = n := by simp at h2; omega
      subst this
      exact ⟨_, by simp [batchLoop, h3]; rfl⟩
    · simp at he
    · simp at he
  | cons e es ih =>
    simp only [batchLoop]
    cases hp : prepareRow committed e with
    | error er => exact ⟨er, rfl⟩
    | ok row =>
      simp only
      by_cases hf : fault = some n
      · exact ⟨_, by rw [if_pos hf]⟩
      · rw [if_neg hf]
        cases hi : insertRow fk tx row with
        | error er => exact ⟨er, rfl⟩
        | ok tx' =>
          simp only
          apply ih
          rcases hbad with ⟨k, h1, h2, h3⟩ | ⟨e', he, hbad⟩ | ⟨hfk, e', he, hd, hno⟩
          · left
            have : k ≠ n := fun hh => hf (by rw [h3, hh])
            simp only [List.length_cons] at h2
            exact ⟨k, by omega, by omega, h3⟩
          · rcases List.mem_cons.1 he with rfl | he
            · exact absurd hp (hbad row)
            · exact Or.inr (Or.inl ⟨e', he, hbad⟩)
          · rcases List.mem_cons.1 he with rfl | he
            · exfalso
              unfold insertRow at hi
              split at hi
              · cases hi
              · rename_i hc
                apply hc
                have hdoc : row.docID = some e'.docID := by
                  unfold prepareRow at hp
                  split at hp
                  · cases hp
                  · split at hp
                    · cases hp
                    · injection hp with hp; subst hp; simp [hd]
                simp only [hfk, Bool.true_and, Bool.not_eq_true', fkHolds, hdoc]
                have : (tx.documents.any fun x => decide (x.id = e'.docID)) = false := by
                  rw [List.any_eq_false]; intro x hx; simpa using hno x hx
                rw [this]; simp
            · right; right
              refine ⟨hfk, e', he, hd, ?_⟩
              rw [insertRow_ok hi]; exact hno

/-- C04: a record that is rejected anywhere in the batch (no vector, unknown collection, unknown document under
enforced foreign keys) or a storage failure at any position, the commit included, leaves everything as it was. -/
theorem C04_rejected_anywhere (env : Env W HI VI) (s : St W HI VI) (fk : Bool) (fault : Option Nat) (es : List (Emb W))
    (hne : es ≠ [])
    (hbad : (∃ k, k ≤ es.length ∧ fault = some k) ∨
      (∃ e ∈ es, e.vector = none) ∨
      (∃ e ∈ es, e.collectionID = 0 ∧ e.collection ≠ "" ∧ ∀ c ∈ s.db.collections, c.name ≠ e.collection) ∨
      (fk = true ∧ ∃ e ∈ es, e.docID ≠ "" ∧ ∀ d ∈ s.db.documents, d.id ≠ e.docID)) :
    ∃ e, step env s (.upsertBatch fk fault es) = (s, .err e) := by
  simp only [step, upsertBatch]
  split
  · exact ⟨_, rfl⟩
  · rw [if_neg (fun h => hne (List.length_eq_zero_iff.1 h))]
    have : ∃ er, batchLoop fk fault s.db 0 s.db es = .error er := by
      apply batchLoop_bad
      rcases hbad with ⟨k, h1, h2⟩ | ⟨e, he, hv⟩ | ⟨e, he, h0, hc, hno⟩ | h
      · exact Or.inl ⟨k, Nat.zero_le _, by omega, h2⟩
      · refine Or.inr (Or.inl ⟨e, he, ?_⟩)
        intro r hr
        have := (prepareRow_ok hr).2.1
        rw [hv] at this; cases this
      · refine Or.inr (Or.inl ⟨e, he, ?_⟩)
        intro r hr
        have hres := (prepareRow_ok hr).2.2.2.2.2.2.2
        unfold resolveCollection at hres
        rw [if_neg (by simp [h0]), if_pos hc] at hres
        have : s.db.collections.find? (fun c => c.name = e.collection) = none := by
          rw [List.find?_eq_none]; simpa using hno
        rw [this] at hres; cases hres
      · exact Or.inr (Or.inr h)
    obtain ⟨er, her⟩ := this
    rw [her]
    exact ⟨er, rfl⟩

/-- Non-vacuity for C04: a good batch is stored, one with a bad second record is rejected. -/
example : (step env0 store0 (.upsertBatch true none [embA, embB])).2 = .ok ∧
    (step env0 store0 (.upsertBatch true none [embA, { embB with vector := none }])).2 = .err .invalidVector := by
  decide

/-! ### C05 -/

/-- C05: deleting a non-empty id on an open store with a working storage layer succeeds exactly when the id is stored. -/
theorem C05_reports_absence (env : Env W HI VI) (s : St W HI VI) (hopen : s.closed = false) (id : String) (hid : id ≠ "") :
    ((step env s (.delete false id)).2 = .ok ↔ ∃ r, getByID s id = .ok r) ∧
    ((step env s (.delete false id)).2 = .err .notFound ↔ getByID s id = .error .notFound) := by
  simp only [step, delete, getByID, hopen, hid, Bool.false_eq_true, if_false]
  cases hf : s.db.embeddings.find? (fun r => r.id = id) with
  | none =>
    rw [List.find?_eq_none] at hf
    have : (s.db.embeddings.any fun r => decide (r.id = id)) = false := by
      rw [List.any_eq_false]; simpa using hf
    simp [this]
  | some r =>
    have h1 := List.mem_of_find?_eq_some hf
    have h2 : r.id = id := by simpa using List.find?_some hf
    have : (s.db.embeddings.any fun r => decide (r.id = id)) = true := by
      rw [List.any_eq_true]; exact ⟨r, h1, by simp [h2]⟩
    simp [this]

/-- C05: a successful delete removes that record and no other, and leaves collections and documents alone. -/
theorem C05_removes_exactly (env : Env W HI VI) (s : St W HI VI) (wf : WF s.db) (fault : Bool) (id : String)
    (hok : (step env s (.delete fault id)).2 = .ok) :
    getByID (step env s (.delete fault id)).1 id = .error .notFound ∧
    (∀ other, other ≠ id → getByID (step env s (.delete fault id)).1 other = getByID s other) ∧
    (step env s (.delete fault id)).1.db.collections = s.db.collections ∧
    (step env s (.delete fault id)).1.db.documents = s.db.documents := by
  simp only [step, delete] at hok ⊢
  split at hok
  · cases hok
  · rename_i h1
    rw [if_neg h1]
    split at hok
    · cases hok
    · rename_i h2
      rw [if_neg h2]
      split at hok
      · cases hok
      · rename_i h3
        rw [if_neg h3]
        split at hok
        · rename_i h4
          rw [if_pos h4]
          have hfind := fun i => find_filter (fun r : Row W => r.id) (fun r => decide (r.id ≠ id)) wf.embIds i
          refine ⟨?_, ?_, rfl, rfl⟩
          · simp only [getByID, h1]
            rw [hfind id]
            cases hf : s.db.embeddings.find? (fun r => decide (r.id = id)) with
            | none => simp
            | some r =>
              have : r.id = id := by simpa using List.find?_some hf
              simp [Option.filter, this]
          · intro other ho
            simp only [getByID, h1]
            rw [hfind other]
            cases hf : s.db.embeddings.find? (fun r => decide (r.id = other)) with
            | none => simp
            | some r =>
              have : r.id = other := by simpa using List.find?_some hf
              simp [Option.filter, this, ho, toRec]
        · cases hok

/-- C05: a delete that fails changes nothing at all. -/
theorem C05_failed_unchanged (env : Env W HI VI) (s : St W HI VI) (fault : Bool) (id : String)
    (hfail : (step env s (.delete fault id)).2 ≠ .ok) : (step env s (.delete fault id)).1 = s := by
  simp only [step, delete] at hfail ⊢
  split
  · rfl
  · rename_i h1
    split
    · rfl
    · rename_i h2
      split
      · rfl
      · rename_i h3
        split
        · rename_i h4; exact absurd (by rw [if_neg h1, if_neg h2, if_neg h3, if_pos h4]) hfail
        · rfl

/-- C05, after a delete: the id stays unknown to lookups until some later call writes it again. -/
theorem C05_stays_deleted (env : Env W HI VI) (s : St W HI VI) (wf : WF s.db) (fault : Bool) (id : String)
    (hok : (step env s (.delete fault id)).2 = .ok) (ops : List (Op W HI VI))
    (hno : ∀ pre op post, ops = pre ++ op :: post →
      ¬ ∃ p, Writes env (run env (step env s (.delete fault id)).1 pre) op id p) :
    lookup (run env (step env s (.delete fault id)).1 ops) id = none := by
  have h0 : payload (step env s (.delete fault id)).1 id = none := by
    have h := (C05_removes_exactly env s wf fault id hok).1
    have hcl : (step env s (.delete fault id)).1.closed = false := by
      unfold getByID at h
      by_contra hc
      rw [if_pos (by simpa using hc)] at h
      cases h
    unfold payload lookup
    have e : { (step env s (.delete fault id)).1 with closed := false } = (step env s (.delete fault id)).1 := by
      cases hh : (step env s (.delete fault id)).1; simp_all
    rw [e, h]; rfl
  have wf' := (step_cases env s wf (.delete fault id) id).1
  generalize (step env s (.delete fault id)).1 = t at h0 wf' hno
  have : payload (run env t ops) id = none := by
    induction ops using List.reverseRecOn with
    | nil => exact h0
    | append_singleton ops op ih =>
      have ih' := ih (fun pre op' post hp => hno pre op' (post ++ [op]) (by rw [hp]; simp))
      rw [run_append]
      rcases (step_cases env _ (run_wf env t wf' ops) op id).2 with ⟨p, hw, _⟩ | ⟨_, heq⟩ | ⟨_, hn, _⟩
      · exact absurd ⟨p, hw⟩ (hno ops op [] rfl)
      · rw [← ih', ← heq]; rfl
      · rw [← hn]; rfl
  unfold payload at this
  simpa using this

/-- C05 fails for the empty id: `Upsert` stores it, `Delete` refuses it. -/
theorem C05_empty_id_violated :
    ∃ s : St Nat Unit Unit, s.closed = false ∧ (∃ r, getByID s "" = .ok r) ∧
      (step env0 s (.delete false "")).2 ≠ .ok :=
  ⟨run env0 store0 [.upsert true false { embA with id := "" }], by decide,
    ⟨⟨[1, 2], "x", "", none, [], "default"⟩, by decide⟩, by decide⟩

example : (step env0 (run env0 store0 [.upsert true false embA]) (.delete false "a")).2 = .ok := by decide

/-! ### C06 -/

set_option maxRecDepth 4000 in
theorem deleteChunks_nofault (fault : Option Nat) (k : Nat) (rows : List (Row W)) (total : Nat) (ids : List String)
    (hf : ∀ j, fault = some j → j < k ∨ k * 500 + ids.length ≤ j * 500) :
    (deleteChunks fault k rows total ids).2.2 = false := by
  induction hn : ids.length using Nat.strongRecOn generalizing ids k rows total with
  | _ n ih =>
    unfold deleteChunks
    split
    · rfl
    · rename_i h0
      have hpos : ids.length ≠ 0 := fun h => h0 (List.length_eq_zero_iff.1 h)
      split
      · rename_i hfk
        rcases hf k hfk with h | h <;> omega
      · simp only
        apply ih (ids.drop 500).length (by simp only [List.length_drop]; omega) _ _ _ _ _ rfl
        intro j hj
        have hjk : j ≠ k := fun h => by rename_i hne; exact hne (by rw [hj, h])
        rcases hf j hj with h | h
        · exact Or.inl (by omega)
        · by_cases hlt : j < k + 1
          · exact Or.inl hlt
          · right
            have harith : ∀ a b n : Nat, a * 500 + n ≤ b * 500 → ¬ b < a + 1 → (a + 1) * 500 + (n - 500) ≤ b * 500 := by
              intro a b n _ _; omega
            have := harith k j ids.length h hlt
            rw [List.length_drop]
            exact this

/-- C06: without a storage failure a bulk delete removes exactly the listed (non-blank) ids, reports not-found exactly when
the list names some id but none is stored, and success otherwise. -/
theorem C06_removes_exactly (env : Env W HI VI) (s : St W HI VI) (hopen : s.closed = false) (ids : List String) :
    (step env s (.deleteBatch none ids)).1.db.embeddings =
      s.db.embeddings.filter (fun r => !(decide (r.id ∈ ids) && !isBlank r.id)) ∧
    (step env s (.deleteBatch none ids)).1.db.collections = s.db.collections ∧
    (step env s (.deleteBatch none ids)).1.db.documents = s.db.documents ∧
    ((step env s (.deleteBatch none ids)).2 = .err .notFound ↔
      (∃ i ∈ ids, isBlank i = false) ∧ ∀ r ∈ s.db.embeddings, ¬ (r.id ∈ ids ∧ isBlank r.id = false)) ∧
    ((step env s (.deleteBatch none ids)).2 = .ok ∨ (step env s (.deleteBatch none ids)).2 = .err .notFound) := by
  simp only [step, deleteBatch, hopen, Bool.false_eq_true, if_false]
  obtain ⟨g, hg1, hg2, hg3, hg4⟩ := deleteChunks_eq none 0 s.db.embeddings 0 (ids.filter (fun i => !isBlank i))
  have hnf := deleteChunks_nofault none 0 s.db.embeddings 0 (ids.filter (fun i => !isBlank i)) (by simp)
  have hrows : (deleteChunks none 0 s.db.embeddings 0 (ids.filter (fun i => !isBlank i))).1 =
      s.db.embeddings.filter (fun r => !(decide (r.id ∈ ids) && !isBlank r.id)) := by
    rw [hg2]
    congr 1; funext r
    have hiff : r.id ∈ g ↔ r.id ∈ ids ∧ isBlank r.id = false := by
      constructor
      · intro h; simpa using List.mem_filter.1 (hg1 _ h)
      · intro h; exact hg4 hnf _ (List.mem_filter.2 ⟨h.1, by simp [h.2]⟩)
    by_cases h : r.id ∈ g
    · have := hiff.1 h; simp [h, this]
    · have h' := fun hh => h (hiff.2 hh)
      simp only [List.contains_eq_mem, h, decide_false, Bool.not_false]
      by_cases ha : r.id ∈ ids
      · have : isBlank r.id = true := by
          by_contra hb; exact h' ⟨ha, by simpa using hb⟩
        simp [this]
      · simp [ha]
  have hdead : (∀ r ∈ s.db.embeddings, ¬ (r.id ∈ ids ∧ isBlank r.id = false)) ↔
      (deleteChunks none 0 s.db.embeddings 0 (ids.filter (fun i => !isBlank i))).2.1 = 0 := by
    rw [hg3, hrows]
    have hle := List.length_filter_le (fun r : Row W => !(decide (r.id ∈ ids) && !isBlank r.id)) s.db.embeddings
    constructor
    · intro h
      have : s.db.embeddings.filter (fun r => !(decide (r.id ∈ ids) && !isBlank r.id)) = s.db.embeddings := by
        rw [List.filter_eq_self]
        intro r hr
        have := h r hr
        by_cases ha : r.id ∈ ids
        · have hb : isBlank r.id = true := by
            by_contra hb; exact this ⟨ha, by simpa using hb⟩
          simp [hb]
        · simp [ha]
      rw [this]; omega
    · intro h
      have hlen : (s.db.embeddings.filter (fun r => !(decide (r.id ∈ ids) && !isBlank r.id))).length = s.db.embeddings.length := by
        omega
      rw [List.length_filter_eq_length_iff] at hlen
      intro r hr ⟨ha, hb⟩
      have := hlen r hr
      simp [ha, hb] at this
  have hvalid : (ids.filter (fun i => !isBlank i)).length = 0 ↔ ¬ ∃ i ∈ ids, isBlank i = false := by
    rw [List.length_eq_zero_iff, List.filter_eq_nil_iff]
    constructor
    · rintro h ⟨i, hi, hb⟩; have := h i hi; simp [hb] at this
    · intro h i hi hb
      exact h ⟨i, hi, by simpa using hb⟩
  have hallblank : (¬ ∃ i ∈ ids, isBlank i = false) →
      s.db.embeddings.filter (fun r => !(decide (r.id ∈ ids) && !isBlank r.id)) = s.db.embeddings := by
    intro h
    rw [List.filter_eq_self]
    intro r hr
    by_cases ha : r.id ∈ ids
    · have hb : isBlank r.id = true := by
        by_contra hb; exact h ⟨r.id, ha, by simpa using hb⟩
      simp [hb]
    · simp [ha]
  split
  · rename_i h0
    have hn : ¬ ∃ i ∈ ids, isBlank i = false := by
      rw [List.length_eq_zero_iff.1 h0]; simp
    exact ⟨(hallblank hn).symm, rfl, rfl, ⟨fun h => (by cases h), fun h => absurd h.1 hn⟩, Or.inl rfl⟩
  · split
    · rename_i h1
      have hn := hvalid.1 h1
      exact ⟨(hallblank hn).symm, rfl, rfl, ⟨fun h => (by cases h), fun h => absurd h.1 hn⟩, Or.inl rfl⟩
    · rename_i h1
      have hex : ∃ i ∈ ids, isBlank i = false := by
        by_contra hn; exact h1 (hvalid.2 hn)
      rw [if_neg (by simp [hnf])]
      split
      · rename_i h2
        exact ⟨hrows, rfl, rfl, ⟨fun _ => ⟨hex, hdead.2 h2⟩, fun _ => rfl⟩, Or.inr rfl⟩
      · rename_i h2
        exact ⟨hrows, rfl, rfl, ⟨fun h => (by cases h), fun h => absurd (hdead.1 h.2) h2⟩, Or.inl rfl⟩

/-- C06, part: a bulk delete of at most 500 (non-blank) ids that fails has removed nothing. Missing for the full claim:
longer lists, see `C06_violated`. -/
theorem C06_failed_unchanged_partial (env : Env W HI VI) (s : St W HI VI) (fault : Option Nat) (ids : List String)
    (hshort : (ids.filter (fun i => !isBlank i)).length ≤ 500) (e : Err)
    (hfail : (step env s (.deleteBatch fault ids)).2 = .err e) : (step env s (.deleteBatch fault ids)).1 = s := by
  obtain ⟨g, hg1, hg2, hg3, hg4⟩ := deleteChunks_eq fault 0 s.db.embeddings 0 (ids.filter (fun i => !isBlank i))
  simp only [step, deleteBatch] at hfail ⊢
  split
  · rfl
  · rename_i h1
    rw [if_neg h1] at hfail
    split
    · rfl
    · rename_i h2
      rw [if_neg h2] at hfail
      split
      · rfl
      · rename_i h3
        rw [if_neg h3] at hfail
        split
        · rename_i h4
          -- the only chunk failed
          have hrows : (deleteChunks fault 0 s.db.embeddings 0 (ids.filter (fun i => !isBlank i))).1 = s.db.embeddings := by
            generalize ids.filter (fun i => !isBlank i) = valid at *
            by_cases hf : fault = some 0
            · unfold deleteChunks
              split
              · rfl
              · rfl
            · exfalso
              have := deleteChunks_nofault fault 0 s.db.embeddings 0 valid (by
                intro j hj
                right
                have : j ≠ 0 := fun h => hf (by rw [hj, h])
                omega)
              rw [this] at h4; cases h4
          rw [hrows]
        · rename_i h4
          rw [if_neg h4] at hfail
          split
          · rename_i h5
            -- nothing was deleted
            have hrows : (deleteChunks fault 0 s.db.embeddings 0 (ids.filter (fun i => !isBlank i))).1 = s.db.embeddings := by
              rw [h5] at hg3
              rw [hg2] at hg3 ⊢
              have hle := List.length_filter_le (fun r : Row W => !g.contains r.id) s.db.embeddings
              rw [List.filter_eq_self]
              apply List.length_filter_eq_length_iff.1
              omega
            rw [hrows]
          · rename_i h5
            rw [if_neg h5] at hfail; cases hfail

/-- C06 is violated: 501 ids make two statements; when the second fails the error is reported but the first is done. -/
theorem C06_violated : ∃ (s : St Nat Unit Unit) (ids : List String) (fault : Option Nat),
    (∃ r, getByID s "a" = .ok r) ∧ (step env0 s (.deleteBatch fault ids)).2 = .err .io ∧
      getByID (step env0 s (.deleteBatch fault ids)).1 "a" = .error .notFound := by
  obtain ⟨l, hlen, hl⟩ : ∃ l : List String, l.length = 500 ∧ ∀ i ∈ l, i = "b" :=
    ⟨List.replicate 500 "b", List.length_replicate, fun _ hi => (List.mem_replicate.1 hi).2⟩
  refine ⟨run env0 store0 [.upsert true false embA], "a" :: l, some 1, ⟨⟨[1, 2], "x", "", none, [], "default"⟩, by decide⟩, ?_⟩
  have hvalid : ("a" :: l).filter (fun i => !isBlank i) = "a" :: l := by
    rw [List.filter_eq_self]
    intro i hi
    rcases List.mem_cons.1 hi with rfl | hi
    · decide
    · rw [hl i hi]; decide
  have hemb : (run env0 store0 [.upsert true false embA]).db.embeddings =
      [{ id := "a", cid := 1, vector := [1, 2], content := "x", docID := none, metadata := none, acl := none }] := by decide
  have hch : deleteChunks (some 1) 0 (run env0 store0 [.upsert true false embA]).db.embeddings 0 ("a" :: l) = ([], 1, true) := by
    rw [hemb]
    unfold deleteChunks
    rw [dif_neg (by simp), if_neg (by simp)]
    have hdrop : ("a" :: l).drop 500 ≠ [] := by
      intro h
      have := congrArg List.length h
      rw [List.length_drop, List.length_cons, hlen] at this
      cases this
    have htake : ("a" :: l).take 500 = "a" :: l.take 499 := rfl
    simp only [htake]
    generalize ("a" :: l).drop 500 = d at hdrop
    unfold deleteChunks
    rw [dif_neg hdrop]
    simp
  have hcl : (run env0 store0 [.upsert true false embA]).closed = false := by decide
  have hstep : step env0 (run env0 store0 [.upsert true false embA]) (.deleteBatch (some 1) ("a" :: l)) =
      ({ run env0 store0 [.upsert true false embA] with
          db := { (run env0 store0 [.upsert true false embA]).db with embeddings := [] } }, .err .io) := by
    simp only [step, deleteBatch, hvalid, hch, hcl]
    simp
  rw [hstep]
  exact ⟨rfl, by simp [getByID, hcl]⟩

example : (step env0 (run env0 store0 [.upsert true false embA]) (.deleteBatch (some 0) ["a"])).2 = .err .io := by
  simp [step, deleteBatch, deleteChunks, show isBlank "a" = false by decide,
    show (run env0 store0 [.upsert true false embA]).closed = false by decide]

end Verif.Thm.StoreProps
