import Verif.Thm.TextSearch
import Verif.Thm.StoreProps

/-!
# C244: repeating a call

A caller that gets no answer repeats the call.  What the second call changes is stated with the reads of `Thm/Store`.
-/

namespace Verif.Thm.Retry
open Verif.Model.Store Verif.Thm.Store
open Verif.Facade (upsert_dim)

variable {W HI VI : Type}

/-- The calls that are not writes of records. -/
def NoWrite : Op W HI VI → Prop
  | .upsert .. => False
  | .upsertBatch .. => False
  | _ => True

theorem filter_filter_self {α : Type} (l : List α) (p : α → Bool) : (l.filter p).filter p = l.filter p := by
  rw [List.filter_filter]; congr 1; funext x; simp

theorem deleteChunks_again (f : Option Nat) (rows : List (Row W)) (ids : List String)
    (h : (deleteChunks f 0 rows 0 ids).2.2 = false) :
    (deleteChunks f 0 (deleteChunks f 0 rows 0 ids).1 0 ids).1 = (deleteChunks f 0 rows 0 ids).1 ∧
    (deleteChunks f 0 (deleteChunks f 0 rows 0 ids).1 0 ids).2.1 = 0 := by
  obtain ⟨g, hg, he, _, hall⟩ := deleteChunks_eq f 0 rows 0 ids
  obtain ⟨g2, hg2, he2, hn2, _⟩ := deleteChunks_eq f 0 (deleteChunks f 0 rows 0 ids).1 0 ids
  have : (deleteChunks f 0 (deleteChunks f 0 rows 0 ids).1 0 ids).1 = (deleteChunks f 0 rows 0 ids).1 := by
    rw [he2, List.filter_eq_self]
    intro r hr
    rw [he, List.mem_filter] at hr
    have h1 := hr.2
    simp only [Bool.not_eq_true', List.contains_eq_mem, decide_eq_false_iff_not] at h1 ⊢
    exact fun hm => h1 (hall h _ (hg2 _ hm))
  refine ⟨this, ?_⟩
  rw [hn2, this]; omega

/-- **C244**: repeating a call that removes or creates something, or writes a document, leaves all tables as the first call
left them. -/
theorem C244_tables (env : Env W HI VI) (s : St W HI VI) (wf : WF s.db) (op : Op W HI VI) (hn : NoWrite op)
    (hok : (step env s op).2 = .ok) : (step env (step env s op).1 op).1.db = (step env s op).1.db := by
  cases op with
  | upsert => exact hn.elim
  | upsertBatch => exact hn.elim
  | delete f id =>
    simp only [step, delete] at hok ⊢
    split at hok <;> rename_i h1
    · cases hok
    split at hok <;> rename_i h2
    · cases hok
    split at hok <;> rename_i h3
    · cases hok
    split at hok <;> rename_i h4
    · simp [h1, h2, h3, h4, List.any_filter]
    · cases hok
  | deleteByDocID f d =>
    simp only [step, deleteByDocID] at hok ⊢
    split at hok <;> rename_i h1
    · cases hok
    split at hok <;> rename_i h2
    · cases hok
    split at hok <;> rename_i h3
    · cases hok
    simp [h1, h2, h3]
  | deleteBatch f ids =>
    simp only [step, deleteBatch] at hok ⊢
    split at hok <;> rename_i h1
    · cases hok
    split at hok <;> rename_i h2
    · simp [h1, h2]
    split at hok <;> rename_i h3
    · simp only [h1, h2, h3, Bool.false_eq_true, if_false, if_true]
    split at hok <;> rename_i h4
    · cases hok
    split at hok <;> rename_i h5
    · cases hok
    simp only [h1, h2, h3, h4, h5, Bool.false_eq_true, if_false]
    have h4' : (deleteChunks f 0 s.db.embeddings 0 (ids.filter fun i => !isBlank i)).2.2 = false := by simpa using h4
    have := (deleteChunks_again f s.db.embeddings _ h4').1
    split
    · simp only [this]
    · split
      · simp only [this]
      · simp only [this]
  | deleteByFilter f sel =>
    cases sel with
    | none => cases hok
    | some p =>
      simp only [step, deleteByFilter] at hok ⊢
      split at hok <;> rename_i h1
      · cases hok
      split at hok <;> rename_i h2
      · cases hok
      split at hok <;> rename_i h3
      · simp only [h1, h2, h3, Bool.false_eq_true, if_false, if_true]
      split at hok <;> rename_i h4
      · cases hok
      simp only [h1, h2, h3, h4, Bool.false_eq_true, if_false]
      split
      · rfl
      · split
        · rfl
        · exact congrArg (fun l => { s.db with embeddings := l }) (filter_filter_self _ _)
  | clear f =>
    simp only [step, clear] at hok ⊢
    split at hok <;> rename_i h1
    · cases hok
    split at hok <;> rename_i h2
    · cases hok
    simp [h1, h2]
  | clearByDocID f ds =>
    simp only [step, clearByDocID] at hok ⊢
    split at hok <;> rename_i h1
    · cases hok
    split at hok <;> rename_i h2
    · simp [h1, h2]
    split at hok <;> rename_i h3
    · cases hok
    simp only [h1, h2, h3, Bool.false_eq_true, if_false, clearRows_eq, filter_filter_self]
  | createCollection f n d =>
    simp only [step, createCollection] at hok ⊢
    split at hok <;> rename_i h1
    · cases hok
    split at hok <;> rename_i h2
    · cases hok
    split at hok <;> rename_i h3
    · cases hok
    split at hok <;> rename_i h4
    · cases hok
    simp [h1, h2, h3, h4]
  | deleteCollection f n =>
    simp only [step, deleteCollection] at hok ⊢
    split at hok <;> rename_i h1
    · cases hok
    split at hok
    · cases hok
    · rename_i c hc
      split at hok <;> rename_i h2
      · cases hok
      simp only [h1, hc, h2, Bool.false_eq_true, if_false]
      have : (s.db.collections.filter fun x => decide (x.id ≠ c.id)).find? (fun x => decide (x.name = n)) = none := by
        rw [List.find?_eq_none]
        intro x hx hxn
        rw [List.mem_filter] at hx
        have hcm := List.mem_of_find?_eq_some hc
        have hcn := List.find?_some hc
        simp only [decide_eq_true_eq] at hcn hxn
        have := nodup_inj (fun c : Coll => c.name) wf.collNames hx.1 hcm (by simp [hxn, hcn])
        subst this
        simp at hx
      rw [this]
  | createDocument f d =>
    simp only [step, createDocument] at hok ⊢
    split at hok <;> rename_i h1
    · cases hok
    split at hok <;> rename_i h2
    · cases hok
    split at hok <;> rename_i h3
    · cases hok
    simp [h1, h2, h3]
  | updateDocument f d =>
    simp only [step, updateDocument] at hok ⊢
    split at hok <;> rename_i h1
    · cases hok
    split at hok <;> rename_i h2
    · cases hok
    split at hok <;> rename_i h3
    · simp only [h1, h2, h3, Bool.false_eq_true, if_false, if_true]
      split
      · simp only [List.map_map]
        congr 1
        apply List.map_congr_left
        intro x _
        simp only [Function.comp]
        split <;> simp_all
      · rfl
    · cases hok
  | deleteDocument fk f id =>
    simp only [step, deleteDocument] at hok ⊢
    split at hok <;> rename_i h1
    · cases hok
    split at hok <;> rename_i h2
    · cases hok
    simp only [h1, h2, Bool.false_eq_true, if_false, filter_filter_self]
    have : (s.db.documents.filter fun x => decide (x.id ≠ id)).any (fun x => decide (x.id = id)) = false := by
      rw [List.any_eq_false]
      intro x hx
      rw [List.mem_filter] at hx
      simpa using hx.2
    simp [this]
  | close => rfl
  | reopen d h v =>
    simp only [step, reopen]
    unfold ensureDefault
    split
    · rename_i h; simp [h]
    · simp

theorem prepareRow_congr {db db' : DB W} (e : Emb W) (h : db'.collections = db.collections) : prepareRow db' e = prepareRow db e := by
  unfold prepareRow resolveCollection; rw [h]

theorem fkHolds_congr {db db' : DB W} (r : Row W) (h : db'.collections = db.collections) (h2 : db'.documents = db.documents) :
    fkHolds db' r = fkHolds db r := by
  unfold fkHolds; rw [h, h2]

/-- The dimension against which a write is checked. -/
def needDim (s : St W HI VI) (e : Emb W) : Nat := if s.dim = 0 then (e.vector.getD []).length else s.dim

/-- The answer of a write depends on the state only through its being closed, its dimension, collections and documents. -/
theorem upsert_answer (env : Env W HI VI) (s t : St W HI VI) (fk f : Bool) (e : Emb W) (hc : t.closed = s.closed)
    (hd : needDim t e = needDim s e) (hl : t.db.collections = s.db.collections) (hk : t.db.documents = s.db.documents) :
    (upsert env t fk f e).2 = (upsert env s fk f e).2 := by
  have hs : ∀ u : St W HI VI, (if u.dim = 0 then { u with dim := (e.vector.getD []).length } else u).dim = needDim u e := by
    intro u; unfold needDim; split <;> rfl
  have hs2 : ∀ u : St W HI VI, (if u.dim = 0 then { u with dim := (e.vector.getD []).length } else u).db = u.db := by
    intro u; split <;> rfl
  unfold upsert
  simp only [hs, hs2, hd, prepareRow_congr _ hl]
  rw [hc]
  split
  · rfl
  · split
    · rfl
    · rename_i v _
      cases prepareRow s.db { e with vector := v } with
      | error er => rfl
      | ok row =>
        simp only
        split
        · rfl
        · unfold insertRow
          rw [fkHolds_congr _ hl hk]
          cases hfk : fk && !fkHolds s.db row <;> simp

theorem upsert_keeps (env : Env W HI VI) (s : St W HI VI) (fk f : Bool) (e : Emb W) :
    (upsert env s fk f e).1.closed = s.closed ∧ (upsert env s fk f e).1.db.collections = s.db.collections ∧
    (upsert env s fk f e).1.db.documents = s.db.documents := by
  unfold upsert
  split
  · simp
  · have hs1 : ∀ (n : Nat), (if s.dim = 0 then { s with dim := n } else s).closed = s.closed := by intro n; split <;> rfl
    have hs2 : ∀ (n : Nat), (if s.dim = 0 then { s with dim := n } else s).db = s.db := by intro n; split <;> rfl
    simp only []
    split
    · simp only [hs1, hs2]; simp
    · split
      · simp only [hs1, hs2]; simp
      · split
        · simp only [hs1, hs2]; simp
        · split
          · simp only [hs1, hs2]; simp
          · rename_i db' hi
            rw [hs2] at hi
            unfold insertRow at hi
            split at hi
            · cases hi
            · cases hi
              simp only [hs1]; simp

/-- **C244**: repeating a write that succeeded changes nothing a lookup shows, whatever becomes of the second write, and the
second write is accepted like the first when nothing fails and foreign keys are treated alike. -/
theorem C244_upsert (env : Env W HI VI) (s : St W HI VI) (wf : WF s.db) (fk f : Bool) (e : Emb W)
    (hok : (step env s (.upsert fk f e)).2 = .ok) :
    (∀ fk' f' id, payload (step env (step env s (.upsert fk f e)).1 (.upsert fk' f' e)).1 id =
      payload (step env s (.upsert fk f e)).1 id) ∧
    (step env (step env s (.upsert fk f e)).1 (.upsert fk f e)).2 = .ok := by
  have hd := upsert_dim env s fk f e hok
  have hk := upsert_keeps env s fk f e
  have hneed : needDim (upsert env s fk f e).1 e = needDim s e := by
    unfold needDim
    rw [hd.1]
    split
    · split
      · rfl
      · rfl
    · rename_i h0; simp [h0]
  refine ⟨fun fk' f' id => ?_, ?_⟩
  · have h1 := step_cases env s wf (.upsert fk f e) id
    have h2 := step_cases env _ h1.1 (.upsert fk' f' e) id
    rcases h2.2 with ⟨p2, hw2, hp2⟩ | ⟨_, h⟩ | ⟨_, _, r, _, ha⟩
    · rw [hp2]
      obtain ⟨_, hid, v2, hv2, hc2⟩ := hw2
      rcases h1.2 with ⟨p1, hw1, hp1⟩ | ⟨hno, _⟩ | ⟨_, _, r, _, ha⟩
      · rw [hp1]
        obtain ⟨_, _, v1, hv1, hc1⟩ := hw1
        have : v1 = v2 := by
          change ite _ _ _ at hc2
          rw [show (step env s (.upsert fk f e)).1.dim = _ from hd.1] at hc2
          by_cases h0 : s.dim = 0
          · simp only [h0, if_true, or_true, true_or] at hc1 hc2
            rw [hc1] at hc2; exact Option.some.inj hc2
          · simp only [h0, if_false, false_or] at hc1 hc2
            split at hc1 <;> rename_i h3
            · rw [if_pos h3] at hc2; rw [hc1] at hc2; exact Option.some.inj hc2
            · rw [if_neg h3] at hc2; rw [hc1] at hc2; exact Option.some.inj hc2
        rw [hv1, hv2, this]
      · exfalso
        rcases h1.2 with ⟨p1, hw1, hp1⟩ | ⟨_, hu⟩ | ⟨_, _, r, _, ha⟩
        · exact hno ⟨p1, hw1⟩
        · apply hno
          by_cases h3 : s.dim = 0 ∨ s.dim = (e.vector.getD []).length
          · cases hv : e.vector with
            | some v => exact ⟨written e v, hok, hid, v, rfl, by rw [if_pos (by rw [hv] at h3; simpa [hv] using h3)]; exact hv⟩
            | none =>
              exfalso
              change ite _ _ _ at hc2
              rw [show (step env s (.upsert fk f e)).1.dim = _ from hd.1] at hc2
              rw [if_pos (by rcases h3 with h3 | h3 <;> simp [h3])] at hc2
              rw [hv] at hc2; cases hc2
          · refine ⟨written e v2, hok, hid, v2, rfl, ?_⟩
            rw [if_neg h3]
            change ite _ _ _ at hc2
            rw [show (step env s (.upsert fk f e)).1.dim = _ from hd.1] at hc2
            push Not at h3
            rw [if_neg h3.1, if_neg (by push Not; exact h3)] at hc2
            exact hc2
        · exact ha
      · exact ha.elim
    · exact h
    · exact ha.elim
  · change (upsert env (upsert env s fk f e).1 fk f e).2 = .ok
    rw [upsert_answer env s _ fk f e hk.1 hneed hk.2.1 hk.2.2]
    exact hok

theorem batchLoop_answer {fk : Bool} {f : Option Nat} {c c' : DB W} (hcc : c'.collections = c.collections) :
    ∀ (es : List (Emb W)) (n : Nat) (tx tx' out : DB W), tx'.collections = tx.collections → tx'.documents = tx.documents →
      batchLoop fk f c n tx es = .ok out → ∃ out', batchLoop fk f c' n tx' es = .ok out'
  | [], n, tx, tx', out, _, _, h => by
    unfold batchLoop at h ⊢
    split at h
    · cases h
    · rename_i hf; exact ⟨tx', by rw [if_neg hf]⟩
  | e :: es, n, tx, tx', out, hl, hk, h => by
    unfold batchLoop at h ⊢
    rw [prepareRow_congr e hcc]
    cases hp : prepareRow c e with
    | error er => rw [hp] at h; cases h
    | ok row =>
      rw [hp] at h
      simp only at h ⊢
      split at h <;> rename_i hf
      · cases h
      rw [if_neg hf]
      unfold insertRow at h ⊢
      rw [fkHolds_congr _ hl hk]
      split at h
      · cases h
      · rename_i tx1 hi
        split at hi
        · cases hi
        rename_i hne
        cases hi
        rw [if_neg hne]
        refine batchLoop_answer hcc es (n + 1) _ _ out ?_ ?_ h
        · exact hl
        · exact hk

/-- **C244**: the same for a batch. -/
theorem C244_batch (env : Env W HI VI) (s : St W HI VI) (wf : WF s.db) (fk : Bool) (f : Option Nat) (es : List (Emb W))
    (hok : (step env s (.upsertBatch fk f es)).2 = .ok) :
    (∀ fk' f' id, payload (step env (step env s (.upsertBatch fk f es)).1 (.upsertBatch fk' f' es)).1 id =
      payload (step env s (.upsertBatch fk f es)).1 id) ∧
    (step env (step env s (.upsertBatch fk f es)).1 (.upsertBatch fk f es)).2 = .ok := by
  refine ⟨fun fk' f' id => ?_, ?_⟩
  · have h1 := step_cases env s wf (.upsertBatch fk f es) id
    have h2 := step_cases env _ h1.1 (.upsertBatch fk' f' es) id
    rcases h2.2 with ⟨p2, hw2, hp2⟩ | ⟨_, h⟩ | ⟨_, _, r, _, ha⟩
    · rw [hp2]
      obtain ⟨_, pre, e, post, v, he, hid, hpost, hv, hp⟩ := hw2
      rcases h1.2 with ⟨p1, hw1, hp1⟩ | ⟨hno, _⟩ | ⟨_, _, r, _, ha⟩
      · rw [hp1]
        obtain ⟨_, pre', e', post', v', he', hid', hpost', hv', hp'⟩ := hw1
        have hee : e = e' := by
          rw [he] at he'
          rcases List.append_eq_append_iff.1 he' with ⟨a, h1, h2⟩ | ⟨a, h1, h2⟩
          · cases a with
            | nil => simp at h2; exact h2.1
            | cons x a =>
              simp only [List.cons_append, List.cons.injEq] at h2
              exact absurd hid' (hpost e' (by rw [h2.2]; simp))
          · cases a with
            | nil => simp at h2; exact h2.1.symm
            | cons x a =>
              simp only [List.cons_append, List.cons.injEq] at h2
              exact absurd hid (hpost' e (by rw [h2.2]; simp))
        subst hee
        rw [hv] at hv'; cases hv'
        rw [hp, hp']
      · exact absurd ⟨p2, hok, pre, e, post, v, he, hid, hpost, hv, hp⟩ hno
      · exact ha.elim
    · exact h
    · exact ha.elim
  · simp only [step] at hok ⊢
    unfold upsertBatch at hok ⊢
    split at hok <;> rename_i h1
    · cases hok
    split at hok <;> rename_i h2
    · simp [h1, h2]
    split at hok
    · cases hok
    rename_i db' hb
    simp only [h1, h2, hb, Bool.false_eq_true, if_false]
    have hspec := batchLoop_spec hb
    obtain ⟨out', ho⟩ := batchLoop_answer (c' := db') hspec.2.1 es 0 s.db db' db' hspec.2.1 hspec.2.2.1 hb
    rw [ho]

/-- **C244**: how a repeated call is answered: what is gone is not found, what exists cannot be created again, everything else
succeeds again. -/
theorem C244_answers (env : Env W HI VI) (s : St W HI VI) (wf : WF s.db) :
    (∀ f id, (step env s (.delete f id)).2 = .ok → (step env (step env s (.delete f id)).1 (.delete f id)).2 = .err .notFound) ∧
    (∀ f ids, (step env s (.deleteBatch f ids)).2 = .ok →
      (step env (step env s (.deleteBatch f ids)).1 (.deleteBatch f ids)).2 =
        if ids.all isBlank then .ok else .err .notFound) ∧
    (∀ f n d, (step env s (.createCollection f n d)).2 = .ok →
      (step env (step env s (.createCollection f n d)).1 (.createCollection f n d)).2 = .err .exists_) ∧
    (∀ f n, (step env s (.deleteCollection f n)).2 = .ok →
      (step env (step env s (.deleteCollection f n)).1 (.deleteCollection f n)).2 = .err .noCollection) ∧
    (∀ f d, (step env s (.createDocument f d)).2 = .ok →
      (step env (step env s (.createDocument f d)).1 (.createDocument f d)).2 = .err .constraint) ∧
    (∀ op, (∃ f d, op = .deleteByDocID f d) ∨ (∃ f p, op = .deleteByFilter f p) ∨ (∃ f, op = .clear f) ∨
        (∃ f ds, op = .clearByDocID f ds) ∨ (∃ f d, op = .updateDocument f d) ∨ (∃ fk f d, op = .deleteDocument fk f d) →
      (step env s op).2 = .ok → (step env (step env s op).1 op).2 = .ok) := by
  refine ⟨fun f id hok => ?_, fun f ids hok => ?_, fun f n d hok => ?_, fun f n hok => ?_, fun f d hok => ?_, fun op hop hok => ?_⟩
  · simp only [step, delete] at hok ⊢
    split at hok <;> rename_i h1
    · cases hok
    split at hok <;> rename_i h2
    · cases hok
    split at hok <;> rename_i h3
    · cases hok
    split at hok <;> rename_i h4
    · simp [h1, h2, h3, h4]
    · cases hok
  · simp only [step, deleteBatch] at hok ⊢
    have hblank : ids.all isBlank = true ↔ (ids.filter fun i => !isBlank i).length = 0 := by
      rw [List.length_eq_zero_iff, List.filter_eq_nil_iff, List.all_eq_true]
      simp
    split at hok <;> rename_i h1
    · cases hok
    split at hok <;> rename_i h2
    · have : ids = [] := List.length_eq_zero_iff.1 h2
      subst this
      simp [h1]
    split at hok <;> rename_i h3
    · rw [if_pos (hblank.2 h3)]
      simp only [h1, h2, h3, Bool.false_eq_true, if_false, if_true]
    split at hok <;> rename_i h4
    · cases hok
    split at hok <;> rename_i h5
    · cases hok
    rw [if_neg (fun h => h3 (hblank.1 h))]
    simp only [h1, h2, h3, h4, h5, Bool.false_eq_true, if_false]
    have h4' : (deleteChunks f 0 s.db.embeddings 0 (ids.filter fun i => !isBlank i)).2.2 = false := by simpa using h4
    have h6 := (deleteChunks_again f s.db.embeddings _ h4').2
    split
    · rename_i h7
      exfalso
      have key : ∀ (g : Option Nat) (n : Nat) (l : List String) (k : Nat) (r r' : List (Row W)) (t t' : Nat), l.length = n →
          (deleteChunks g k r t l).2.2 = (deleteChunks g k r' t' l).2.2 := by
        intro g n
        induction n using Nat.strongRecOn with
        | _ n ih =>
          intro l k r r' t t' hl
          rw [deleteChunks.eq_def g k r t l, deleteChunks.eq_def g k r' t' l]
          split
          · rfl
          · rename_i hne
            split
            · rfl
            · simp only []
              refine ih _ ?_ _ _ _ _ _ _ rfl
              have : l.length ≠ 0 := fun h => hne (List.length_eq_zero_iff.1 h)
              simp only [List.length_drop]; omega
      rw [key f _ _ 0 _ s.db.embeddings 0 0 rfl, h4'] at h7
      cases h7
    · simp [h6]
  · simp only [step, createCollection] at hok ⊢
    split at hok <;> rename_i h1
    · cases hok
    split at hok <;> rename_i h2
    · cases hok
    split at hok <;> rename_i h3
    · cases hok
    split at hok <;> rename_i h4
    · cases hok
    simp [h1, h2, h3, h4]
  · simp only [step, deleteCollection] at hok ⊢
    split at hok <;> rename_i h1
    · cases hok
    split at hok
    · cases hok
    · rename_i c hc
      split at hok <;> rename_i h2
      · cases hok
      simp only [h1, hc, h2, Bool.false_eq_true, if_false]
      have : (s.db.collections.filter fun x => decide (x.id ≠ c.id)).find? (fun x => decide (x.name = n)) = none := by
        rw [List.find?_eq_none]
        intro x hx hxn
        rw [List.mem_filter] at hx
        have hcm := List.mem_of_find?_eq_some hc
        have hcn := List.find?_some hc
        simp only [decide_eq_true_eq] at hcn hxn
        have := nodup_inj (fun c : Coll => c.name) wf.collNames hx.1 hcm (by simp [hxn, hcn])
        subst this
        simp at hx
      rw [this]
  · simp only [step, createDocument] at hok ⊢
    split at hok <;> rename_i h1
    · cases hok
    split at hok <;> rename_i h2
    · cases hok
    split at hok <;> rename_i h3
    · cases hok
    simp [h1, h2, h3]
  · rcases hop with ⟨f, d, rfl⟩ | ⟨f, p, rfl⟩ | ⟨f, rfl⟩ | ⟨f, ds, rfl⟩ | ⟨f, d, rfl⟩ | ⟨fk, f, d, rfl⟩
    · simp only [step, deleteByDocID] at hok ⊢
      split at hok <;> rename_i h1
      · cases hok
      split at hok <;> rename_i h2
      · cases hok
      split at hok <;> rename_i h3
      · cases hok
      simp [h1, h2, h3]
    · cases p with
      | none => cases hok
      | some p =>
        simp only [step, deleteByFilter] at hok ⊢
        split at hok <;> rename_i h1
        · cases hok
        split at hok <;> rename_i h2
        · cases hok
        split at hok <;> rename_i h3
        · simp only [h1, h2, h3, Bool.false_eq_true, if_false, if_true]
        split at hok <;> rename_i h4
        · cases hok
        simp only [h1, h2, h3, h4, Bool.false_eq_true, if_false]
        have ha : (s.db.embeddings.filter (fun r => !(p r.metadata == some true))).any (fun r => p r.metadata == none) = false := by
          rw [List.any_eq_false]
          intro x hx
          simp only [Bool.not_eq_true, List.any_eq_false] at h2
          have := h2 x (List.mem_filter.1 hx).1
          simpa [← Option.isSome_iff_ne_none] using this
        rw [ha]
        simp [List.filter_filter]
    · simp only [step, clear] at hok ⊢
      split at hok <;> rename_i h1
      · cases hok
      split at hok <;> rename_i h2
      · cases hok
      simp [h1, h2]
    · simp only [step, clearByDocID] at hok ⊢
      split at hok <;> rename_i h1
      · cases hok
      split at hok <;> rename_i h2
      · simp [h1, h2]
      split at hok <;> rename_i h3
      · cases hok
      simp [h1, h2, h3]
    · simp only [step, updateDocument] at hok ⊢
      split at hok <;> rename_i h1
      · cases hok
      split at hok <;> rename_i h2
      · cases hok
      split at hok <;> rename_i h3
      · simp only [h1, h2, h3, Bool.false_eq_true, if_false, if_true]
        rw [if_pos]
        rw [List.any_eq_true] at h3 ⊢
        obtain ⟨x, hx, hxd⟩ := h3
        refine ⟨d, List.mem_map.2 ⟨x, hx, ?_⟩, by simp⟩
        simp only [decide_eq_true_eq] at hxd
        simp [hxd]
      · cases hok
    · simp only [step, deleteDocument] at hok ⊢
      split at hok <;> rename_i h1
      · cases hok
      split at hok <;> rename_i h2
      · cases hok
      simp [h1, h2]

/-! ### The hypotheses can be met -/

open Verif.Thm.StoreProps in
example : (step env0 store0 (.upsert true false embA)).2 = .ok ∧ WF store0.db ∧
    (step env0 (step env0 store0 (.upsert true false embA)).1 (.delete false "a")).2 = .ok :=
  ⟨by decide, init_wf _ _ _, by decide⟩

open Verif.Thm.StoreProps in
example : (step env0 store0 (.upsertBatch true none [embA, embB])).2 = .ok ∧
    (step env0 store0 (.createCollection false "c" 2)).2 = .ok := ⟨by decide, by decide⟩

end Verif.Thm.Retry
