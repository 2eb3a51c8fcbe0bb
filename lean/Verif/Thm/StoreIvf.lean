import Verif.Thm.StoreIndex
import Verif.Thm.Ivf

/-! C162: the store's inverted file index against its table, over histories of writes. -/
namespace Verif.Thm.StoreIvf
open Verif.Model.Store Verif.Thm.Store Verif.Thm.StoreIndex

variable {W HI VI : Type}

/-! ### Specification -/

/-- How a trained inverted file behaves: it appends whatever id comes, if the vector has the right dimension
(/repo/pkg/index/ivf.go:110-134), and a removal takes out the first entry under the id (lines 398-435). `ivf_laws` below
shows this of the index of `Model/Ivf`. -/
structure Laws (env : Env W HI VI) (fits : List W → Prop) (ids : VI → List String) : Prop where
  add : ∀ i x v, env.vTrained i = true → fits v → ids (env.vAdd i x v) = ids i ++ [x]
  delete : ∀ i x, env.vTrained i = true → ids (env.vDelete i x) = (ids i).erase x
  trainedAdd : ∀ i x v, env.vTrained (env.vAdd i x v) = env.vTrained i
  trainedDelete : ∀ i x, env.vTrained (env.vDelete i x) = env.vTrained i

/-- The index lists every stored record once and nothing else. -/
def Exact (env : Env W HI VI) (ids : VI → List String) (s : St W HI VI) : Prop :=
  ∀ i, s.ivf = some i → env.vTrained i = true → ∀ j, (ids i).count j = if (find s.db j).isSome then 1 else 0

/-- Calls that leave the index equal to the table: writes under new ids of vectors of the right dimension, removals
that reach the index, removals that remove nothing. -/
def Tracks (env : Env W HI VI) (fits : List W → Prop) (ids : VI → List String) (s : St W HI VI) : Op W HI VI → Prop
  | .upsert fk f e => find s.db e.id = none ∧ ∀ r ∈ (upsert env s fk f e).1.db.embeddings, fits r.vector
  | .upsertBatch _ _ es => (es.map (fun e => e.id)).Nodup ∧
      ∀ e ∈ es, find s.db e.id = none ∧ fits (e.vector.getD [])
  | .deleteBatch f ids => (deleteBatch env s f ids).2 ≠ .err .io
  | .deleteDocument fk fault id => s.closed = true ∨ Takes s fk fault id
  | .reopen _ _ v => ∀ x, v = some x → env.vTrained x = true →
      ∀ j, (ids x).count j = if (find s.db j).isSome then 1 else 0
  | .deleteByDocID _ d => ∀ r ∈ s.db.embeddings, r.docID ≠ some d
  | .clear _ => s.db.embeddings = []
  | .clearByDocID _ ds => ∀ d ∈ ds, ∀ r ∈ s.db.embeddings, r.docID ≠ some d
  | .deleteCollection _ n => ∀ c ∈ s.db.collections, c.name = n → ∀ r ∈ s.db.embeddings, r.cid ≠ c.id
  | _ => True

/-! ### One step -/

theorem fold_trained {env : Env W HI VI} {fits : List W → Prop} {ids : VI → List String} (L : Laws env fits ids)
    (l : List String) (i : VI) : env.vTrained (l.foldl env.vDelete i) = env.vTrained i := by
  induction l generalizing i with
  | nil => rfl
  | cons x l ih => rw [List.foldl_cons, ih, L.trainedDelete]

theorem fold_delete {env : Env W HI VI} {fits : List W → Prop} {ids : VI → List String} (L : Laws env fits ids)
    (l : List String) (i : VI) (ht : env.vTrained i = true) (h1 : ∀ j, (ids i).count j ≤ 1) (j : String) :
    (ids (l.foldl env.vDelete i)).count j = if j ∈ l then 0 else (ids i).count j := by
  induction l generalizing i with
  | nil => simp
  | cons x l ih =>
    have hd := L.delete i x ht
    have h1' : ∀ j, (ids (env.vDelete i x)).count j ≤ 1 := fun j => by
      rw [hd]; exact Nat.le_trans (List.erase_sublist.count_le j) (h1 j)
    rw [List.foldl_cons, ih _ (by rw [L.trainedDelete]; exact ht) h1', hd, List.count_erase]
    have := h1 j
    by_cases h2 : j ∈ l <;> by_cases h3 : x = j
    · simp [h2]
    · simp [h2]
    · subst h3; simp [h2]; omega
    · have h4 : ¬ j = x := fun h => h3 h.symm
      simp [h2, h3, h4]

theorem add_trained {env : Env W HI VI} {fits : List W → Prop} {ids : VI → List String} (L : Laws env fits ids)
    (es : List (Emb W)) (i : VI) :
    env.vTrained (es.foldl (fun i e => env.vAdd i e.id (e.vector.getD [])) i) = env.vTrained i := by
  induction es generalizing i with
  | nil => rfl
  | cons x l ih => rw [List.foldl_cons, ih, L.trainedAdd]

theorem fold_add {env : Env W HI VI} {fits : List W → Prop} {ids : VI → List String} (L : Laws env fits ids)
    (es : List (Emb W)) (i : VI) (ht : env.vTrained i = true) (hf : ∀ e ∈ es, fits (e.vector.getD [])) :
    ids (es.foldl (fun i e => env.vAdd i e.id (e.vector.getD [])) i) = ids i ++ es.map (fun e => e.id) := by
  induction es generalizing i with
  | nil => simp
  | cons e es ih =>
    rw [List.foldl_cons, ih _ (by rw [L.trainedAdd]; exact ht) (fun x hx => hf x (List.mem_cons_of_mem _ hx)),
      L.add i _ _ ht (hf e List.mem_cons_self)]
    simp

theorem upsert_split (env : Env W HI VI) (s : St W HI VI) (fk f : Bool) (e : Emb W) :
    ((upsert env s fk f e).2 ≠ .ok ∧ (upsert env s fk f e).1.db = s.db ∧ (upsert env s fk f e).1.ivf = s.ivf) ∨
    (∃ row : Row W, row.id = e.id ∧
      (upsert env s fk f e).1.db = { s.db with embeddings := s.db.embeddings.filter (fun x => x.id ≠ row.id) ++ [row] } ∧
      (upsert env s fk f e).1.ivf =
        s.ivf.map (fun i => if env.vTrained i then env.vAdd i row.id row.vector else i)) := by
  have hs1 : ∀ s1 : St W HI VI, s1 = (if s.dim = 0 then { s with dim := (e.vector.getD []).length } else s) →
      s1.db = s.db ∧ s1.ivf = s.ivf := by
    intro s1 h; subst h; split <;> exact ⟨rfl, rfl⟩
  obtain ⟨h1, h2⟩ := hs1 _ rfl
  unfold upsert
  split
  · exact Or.inl ⟨nofun, rfl, rfl⟩
  · simp only []
    split
    · exact Or.inl ⟨nofun, h1, h2⟩
    · split
      · exact Or.inl ⟨nofun, h1, h2⟩
      · rename_i row hrow
        split
        · exact Or.inl ⟨nofun, h1, h2⟩
        · split
          · exact Or.inl ⟨nofun, h1, h2⟩
          · rename_i db' hins
            refine Or.inr ⟨row, (prepareRow_ok hrow).1, ?_, ?_⟩
            · rw [h1] at hins; exact insertRow_ok hins
            · show Option.map _ _ = _
              rw [h2]

theorem batch_split (env : Env W HI VI) (s : St W HI VI) (fk : Bool) (f : Option Nat) (es : List (Emb W)) :
    ((upsertBatch env s fk f es).1 = s) ∨
    (batchLoop fk f s.db 0 s.db es = .ok (upsertBatch env s fk f es).1.db ∧
      (upsertBatch env s fk f es).1.ivf = s.ivf.map (fun i =>
        if env.vTrained i then es.foldl (fun i e => env.vAdd i e.id (e.vector.getD [])) i else i)) := by
  unfold upsertBatch
  split
  · exact Or.inl rfl
  · split
    · exact Or.inl rfl
    · split
      · exact Or.inl rfl
      · rename_i db' h
        exact Or.inr ⟨h, rfl⟩

theorem deleteDocument_split (env : Env W HI VI) (s : St W HI VI) (fk f : Bool) (id : String)
    (hk : s.closed = true ∨ Takes s fk f id) :
    ((deleteDocument env s fk f id).1.db.embeddings = s.db.embeddings.filter (fun r => r.docID ≠ some id) ∧
      (deleteDocument env s fk f id).1.ivf = s.ivf.map (fun h =>
        ((s.db.embeddings.filter (fun r => r.docID = some id)).map (fun r => r.id)).foldl env.vDelete h)) ∨
    ((deleteDocument env s fk f id).1 = s) := by
  by_cases hc : s.closed = true
  · exact Or.inr (by unfold deleteDocument; rw [if_pos hc])
  · left
    rcases hk with h | h
    · exact absurd h hc
    · unfold deleteDocument
      rw [if_neg hc]
      rcases h with ⟨rfl, rfl, d, hd, he⟩ | h
      · have : (s.db.documents.any fun x => x.id = id) = true := List.any_eq_true.2 ⟨d, hd, by simp [he]⟩
        simp [this]
      · have hf : s.db.embeddings.filter (fun r => r.docID ≠ some id) = s.db.embeddings :=
          List.filter_eq_self.2 fun r hr => by simpa using h r hr
        simp only []
        split
        · exact ⟨hf.symm, rfl⟩
        · refine ⟨?_, rfl⟩
          show (if _ then _ else _) = _
          split
          · rfl
          · exact hf.symm

theorem deleteBatch_split (env : Env W HI VI) (s : St W HI VI) (f : Option Nat) (ids : List String)
    (hio : (deleteBatch env s f ids).2 ≠ .err .io) :
    ((deleteBatch env s f ids).1.db.embeddings = s.db.embeddings ∧ (deleteBatch env s f ids).1.ivf = s.ivf) ∨
    (∃ gone : List String, (∀ i, i ∈ gone ↔ i ∈ ids ∧ isBlank i = false) ∧
      (deleteBatch env s f ids).1.db.embeddings = s.db.embeddings.filter (fun r => !gone.contains r.id) ∧
      (deleteBatch env s f ids).1.ivf =
          s.ivf.map (fun h => (ids.filter (fun i => !isBlank i)).foldl env.vDelete h)) := by
  unfold deleteBatch at hio ⊢
  split
  · exact Or.inl ⟨rfl, rfl⟩
  · rename_i hc
    rw [if_neg hc] at hio
    split
    · exact Or.inl ⟨rfl, rfl⟩
    · rename_i hl
      rw [if_neg hl] at hio
      simp only [] at hio ⊢
      split
      · exact Or.inl ⟨rfl, rfl⟩
      · rename_i hv
        rw [if_neg hv] at hio
        obtain ⟨gone, h1, h2, h3, h4⟩ := deleteChunks_eq f 0 s.db.embeddings 0 (ids.filter (fun i => !isBlank i))
        split
        · rename_i hf; rw [if_pos hf] at hio; exact absurd rfl hio
        · rename_i hf
          split
          · rename_i hz
            left
            refine ⟨?_, rfl⟩
            show (deleteChunks _ _ _ _ _).1 = _
            rw [hz] at h3
            have : (deleteChunks f 0 s.db.embeddings 0 (ids.filter (fun i => !isBlank i))).1.length ≤
                s.db.embeddings.length := by rw [h2]; exact List.length_filter_le _ _
            have heq : (deleteChunks f 0 s.db.embeddings 0 (ids.filter (fun i => !isBlank i))).1.length =
                s.db.embeddings.length := by omega
            rw [h2] at heq ⊢
            exact List.filter_eq_self.2 (List.length_filter_eq_length_iff.1 heq)
          · refine Or.inr ⟨gone, fun i => ⟨fun hi => by simpa using h1 i hi, fun hi => ?_⟩, h2, rfl⟩
            exact h4 (by simpa using hf) i (List.mem_filter.2 ⟨hi.1, by simp [hi.2]⟩)

theorem exact_rows {env : Env W HI VI} {ids : VI → List String} {s s' : St W HI VI} (H : Exact env ids s)
    (hh : s'.ivf = s.ivf) (hs : s'.db.embeddings = s.db.embeddings) : Exact env ids s' := by
  intro i hi ht j
  have : find s'.db j = find s.db j := by unfold find; rw [hs]
  rw [this]; exact H i (hh ▸ hi) ht j

theorem exact_delete {env : Env W HI VI} {fits : List W → Prop} {ids : VI → List String} (L : Laws env fits ids)
    {s s' : St W HI VI} (H : Exact env ids s) (l : List String)
    (hh : s'.ivf = s.ivf.map (fun h => l.foldl env.vDelete h))
    (hs : ∀ j, find s'.db j = if j ∈ l then none else find s.db j) : Exact env ids s' := by
  intro h he ht j
  rw [hh] at he
  obtain ⟨h0, h1, rfl⟩ := Option.map_eq_some_iff.1 he
  rw [fold_trained L] at ht
  have h2 := H h0 h1 ht
  rw [fold_delete L l h0 ht (fun j => by rw [h2 j]; split <;> omega), hs j]
  split
  · simp
  · exact h2 j

theorem step_exact {env : Env W HI VI} {fits : List W → Prop} {ids : VI → List String} (L : Laws env fits ids)
    (s : St W HI VI) (wf : WF s.db) (op : Op W HI VI) (hk : Tracks env fits ids s op) (H : Exact env ids s) :
    Exact env ids (step env s op).1 := by
  cases op with
  | upsert fk f e =>
    rcases upsert_split env s fk f e with ⟨_, h1, h2⟩ | ⟨row, hid, h1, h2⟩
    · exact exact_rows H h2 (by rw [step, h1])
    · intro h he ht j
      rw [step, h2] at he
      obtain ⟨h0, h3, rfl⟩ := Option.map_eq_some_iff.1 he
      have hf : find (step env s (.upsert fk f e)).1.db j = if j = row.id then some row else find s.db j := by
        rw [step, h1]; exact find_upsert (fun r : Row W => r.id) s.db.embeddings row j
      have htr : env.vTrained h0 = true := by
        cases hb : env.vTrained h0 with
        | true => rfl
        | false => simp [hb] at ht
      have hfit : fits row.vector := hk.2 row (by rw [h1]; simp)
      rw [htr, if_pos rfl, L.add h0 _ _ htr hfit, List.count_append, H h0 h3 htr j, hf]
      by_cases hj : j = row.id
      · subst hj
        have hn : find s.db row.id = none := by rw [hid]; exact hk.1
        simp [hn]
      · have : ¬ row.id = j := fun h => hj h.symm
        simp [hj, this, List.count_cons]
  | upsertBatch fk f es =>
    rcases batch_split env s fk f es with h1 | ⟨h1, h2⟩
    · rw [step, h1]; exact H
    · intro h he ht j
      rw [step, h2] at he
      obtain ⟨h0, h3, rfl⟩ := Option.map_eq_some_iff.1 he
      have htr : env.vTrained h0 = true := by
        cases hb : env.vTrained h0 with
        | true => rfl
        | false => simp [hb] at ht
      rw [htr, if_pos rfl, fold_add L es h0 htr (fun e he => (hk.2 e he).2), List.count_append, H h0 h3 htr j, step]
      obtain ⟨_, _, _, hf⟩ := batchLoop_spec h1
      rcases hf j with ⟨pre, e, post, v, he2, hid, _, hv, hp⟩ | ⟨hno, heq⟩
      · have hin : e ∈ es := by rw [he2]; simp
        have hn : find s.db j = none := by rw [← hid]; exact (hk.2 e hin).1
        have hc : (es.map (fun e => e.id)).count j = 1 :=
          List.count_eq_one_of_mem hk.1 (List.mem_map.2 ⟨e, hin, hid⟩)
        obtain ⟨r, hr, _⟩ := Option.map_eq_some_iff.1 hp
        rw [hn, hc, hr]; rfl
      · have hc : (es.map (fun e => e.id)).count j = 0 :=
          List.count_eq_zero_of_not_mem fun hm => by
            obtain ⟨e, he, hej⟩ := List.mem_map.1 hm
            exact hno e he hej
        rw [hc, heq, Nat.add_zero]
  | delete f id =>
    rw [step]
    unfold delete
    split
    · exact H
    · split
      · exact H
      · split
        · exact H
        · split
          · refine exact_delete L H [id] rfl ?_
            exact find_drop wf rfl [id] (fun r _ => by simp)
          · exact H
  | deleteByDocID f d =>
    rw [step]; unfold deleteByDocID
    split
    · exact H
    · split
      · exact H
      · split
        · exact H
        · refine exact_rows H rfl ?_
          exact List.filter_eq_self.2 fun r hr => by simpa using hk r hr
  | deleteBatch f l =>
    rw [step]
    rcases deleteBatch_split env s f l hk with ⟨h1, h2⟩ | ⟨gone, h1, h2, h3⟩
    · exact exact_rows H h2 h1
    · refine exact_delete L H _ h3 ?_
      refine find_drop wf h2 _ ?_
      intro r _
      simp only [List.contains_eq_mem, List.mem_filter, Bool.not_eq_true', Bool.not_eq_false', decide_eq_true_eq]
      exact h1 r.id
  | deleteByFilter f sel =>
    rw [step]; unfold deleteByFilter
    split
    · exact H
    · split
      · exact H
      · split
        · exact H
        · simp only []
          split
          · exact H
          · split
            · exact H
            · refine exact_delete L H _ rfl ?_
              refine find_drop wf rfl _ ?_
              intro r hr
              constructor
              · intro hq
                exact List.mem_map.2 ⟨r, List.mem_filter.2 ⟨hr, by simpa using hq⟩, rfl⟩
              · intro hin
                obtain ⟨x, hx, he⟩ := List.mem_map.1 hin
                obtain ⟨h3, h4⟩ := List.mem_filter.1 hx
                have := nodup_inj (fun r : Row W => r.id) wf.embIds h3 hr he
                subst this
                simpa using h4
  | clear f =>
    rw [step]; unfold clear
    split
    · exact H
    · split
      · exact H
      · exact exact_rows H rfl (Eq.symm hk)
  | clearByDocID f ds =>
    rw [step]; unfold clearByDocID
    split
    · exact H
    · split
      · exact H
      · split
        · exact H
        · refine exact_rows H rfl ?_
          simp only []
          rw [clearRows_eq]
          refine List.filter_eq_self.2 fun r hr => ?_
          simp only [Bool.not_eq_true', List.any_eq_false]
          intro d hd
          have := hk d hd r hr
          simp [this]
  | createCollection f n d =>
    rw [step]; unfold createCollection
    split
    · exact H
    · split
      · exact H
      · split
        · exact H
        · split <;> exact H
  | deleteCollection f n =>
    rw [step]; unfold deleteCollection
    split
    · exact H
    · split
      · exact H
      · rename_i c hc
        split
        · exact H
        · refine exact_rows H rfl ?_
          refine List.filter_eq_self.2 fun r hr => ?_
          have := hk c (List.mem_of_find?_eq_some hc) (by simpa using List.find?_some hc) r hr
          simpa using this
  | createDocument f d =>
    rw [step]; unfold createDocument
    split
    · exact H
    · split
      · exact H
      · split <;> exact H
  | updateDocument f d =>
    rw [step]; unfold updateDocument
    split
    · exact H
    · split
      · exact H
      · split <;> exact H
  | deleteDocument fk f id =>
    rw [step]
    rcases deleteDocument_split env s fk f id hk with ⟨h1, h2⟩ | h
    · refine exact_delete L H _ h2 ?_
      refine find_drop wf h1 _ ?_
      intro r hr
      constructor
      · intro hq
        exact List.mem_map.2 ⟨r, List.mem_filter.2 ⟨hr, by simpa using hq⟩, rfl⟩
      · intro hin
        obtain ⟨x, hx, he⟩ := List.mem_map.1 hin
        obtain ⟨h5, h6⟩ := List.mem_filter.1 hx
        have := nodup_inj (fun r : Row W => r.id) wf.embIds h5 hr he
        subst this
        simpa using h6
    · rw [h]; exact H
  | close => exact H
  | reopen d h v =>
    intro x hx ht j
    show _ = if (find (ensureDefault s.db d) j).isSome then 1 else 0
    rw [ensureDefault_find]
    exact hk x hx ht j

/-! ### C162 -/

/-- After any history of writes under new ids and removals that reach the index, a trained inverted file lists every
stored record once and nothing else. -/
theorem C162_exact_partial {env : Env W HI VI} {fits : List W → Prop} {ids : VI → List String} (L : Laws env fits ids)
    (ops : List (Op W HI VI)) (s : St W HI VI) (wf : WF s.db) (H : Exact env ids s)
    (hk : Along env (Tracks env fits ids) s ops) : Exact env ids (run env s ops) := by
  induction ops generalizing s with
  | nil => exact H
  | cons op ops ih =>
    exact ih (step env s op).1 (run_wf env s wf [op]) (step_exact L s wf op hk.1 H) hk.2

/-- Replacing a stored record lists it a second time, with the old vector still there; removing it then leaves one
entry behind: the index lists a record that does not exist. -/
theorem C162_update_violated {env : Env W HI VI} {fits : List W → Prop} {ids : VI → List String} (L : Laws env fits ids)
    (s : St W HI VI) (i : VI) (hs : s.ivf = some i) (ht : env.vTrained i = true) (fk f f' : Bool) (e : Emb W)
    (hin : e.id ∈ ids i) (hu : (step env s (.upsert fk f e)).2 = .ok)
    (hfit : ∀ r, find (step env s (.upsert fk f e)).1.db e.id = some r → fits r.vector)
    (hd : (step env (step env s (.upsert fk f e)).1 (.delete f' e.id)).2 = .ok) :
    find (run env s [.upsert fk f e, .delete f' e.id]).db e.id = none ∧
    ∃ i', (run env s [.upsert fk f e, .delete f' e.id]).ivf = some i' ∧ e.id ∈ ids i' := by
  have h1 : ∃ i1, (step env s (.upsert fk f e)).1.ivf = some i1 ∧ ids i1 = ids i ++ [e.id] ∧
      env.vTrained i1 = true := by
    rcases upsert_split env s fk f e with ⟨h1, _⟩ | ⟨row, hid, h1, h2⟩
    · exact absurd hu h1
    · have hf : find (step env s (.upsert fk f e)).1.db e.id = some row := by
        rw [step, h1, ← hid]
        have := find_upsert (fun r : Row W => r.id) s.db.embeddings row row.id
        rw [if_pos rfl] at this
        exact this
      refine ⟨env.vAdd i row.id row.vector, by rw [step, h2, hs]; simp [ht], ?_, ?_⟩
      · rw [L.add i _ _ ht (hfit row hf), hid]
      · rw [L.trainedAdd]; exact ht
  obtain ⟨i1, h2, h3, h4⟩ := h1
  show find (step env (step env s (.upsert fk f e)).1 (.delete f' e.id)).1.db e.id = none ∧
    ∃ i', (step env (step env s (.upsert fk f e)).1 (.delete f' e.id)).1.ivf = some i' ∧ e.id ∈ ids i'
  generalize (step env s (.upsert fk f e)).1 = t at h2 hd
  rw [step] at hd ⊢
  unfold delete at hd ⊢
  split at hd
  · cases hd
  · split at hd
    · cases hd
    · split at hd
      · cases hd
      · split at hd
        · rename_i g1 g2 g3 g4
          rw [if_neg g1, if_neg g2, if_neg g3, if_pos g4]
          refine ⟨?_, env.vDelete i1 e.id, by simp [h2], ?_⟩
          · rw [find_none]; intro r hr
            simpa using (List.mem_filter.1 hr).2
          · rw [L.delete i1 _ h4, h3, List.erase_append, if_pos hin]
            simp
        · cases hd

/-! ### The index of `Model/Ivf` -/

/-- The lists of a trained index cover its centroids, and its dimension is `d`. -/
def Shape (d : Nat) (ix : Ivf.Index (List W)) : Prop :=
  ix.dimension = d ∧ (ix.trained = true → 0 < ix.inv.length ∧ ix.centroids.length ≤ ix.inv.length)

/-- The index after a call whose error is only logged. -/
def kept (ix : Ivf.Index (List W)) : Except Ivf.Fail (Ivf.Index (List W)) → Ivf.Index (List W)
  | .ok x => x
  | .error _ => ix

theorem shape_add {d : Nat} (E : Ivf.Env (List W)) (ix : Ivf.Index (List W)) (h : Shape d ix) (id : String)
    (v : List W) : Shape d (kept ix (Ivf.add E ix id v)) := by
  unfold Ivf.add
  split
  · exact h
  · split
    · exact h
    · split
      · exact h
      · refine ⟨h.1, fun ht => ?_⟩
        simpa [kept] using h.2 ht

theorem shape_delete {d : Nat} (ix : Ivf.Index (List W)) (h : Shape d ix) (id : String) :
    Shape d (kept ix (Ivf.delete ix id)) := by
  unfold Ivf.delete
  split
  · exact h
  · split
    · exact h
    · refine ⟨h.1, fun ht => ?_⟩
      simpa [kept] using h.2 ht

/-- The environment whose index is the inverted file of `Model/Ivf`. -/
def ivfEnv (adapt : List W → Nat → Nat → Option (List W)) (d : Nat) (E : Ivf.Env (List W)) :
    Env W Unit { ix : Ivf.Index (List W) // Shape d ix } where
  adapt := adapt
  hInsert := fun h _ _ => h
  hDelete := fun h _ => h
  vAdd := fun i id v => ⟨kept i.1 (Ivf.add E i.1 id v), shape_add E i.1 i.2 id v⟩
  vDelete := fun i id => ⟨kept i.1 (Ivf.delete i.1 id), shape_delete i.1 i.2 id⟩
  vTrained := fun i => i.1.trained

theorem erase_findIdx (l : List String) (x : String) :
    (match l.findIdx? (fun y => decide (y = x)) with | none => l | some i => l.eraseIdx i) = l.erase x := by
  induction l with
  | nil => rfl
  | cons a l ih =>
    rw [List.findIdx?_cons]
    by_cases h : a = x
    · subst h; simp
    · simp only [h, decide_false, Bool.false_eq_true, if_false, List.erase_cons, beq_iff_eq]
      rw [← ih]
      cases l.findIdx? (fun y => decide (y = x)) <;> rfl

theorem ivf_laws (adapt : List W → Nat → Nat → Option (List W)) (d : Nat) (E : Ivf.Env (List W)) :
    Laws (ivfEnv adapt d E) (fun v => E.dim v = d) (fun i => i.1.ids) where
  add := by
    intro i x v ht hf
    have ht : i.1.trained = true := ht
    obtain ⟨h1, h2⟩ := i.2.2 ht
    have hlt : Ivf.nearest E i.1 v < i.1.inv.length :=
      Ivf.nearest_lt E v i.1.inv.length i.1.centroids 0 E.maxFloat 0 h1 (by omega)
    show (kept i.1 (Ivf.add E i.1 x v)).ids = _
    unfold Ivf.add
    rw [if_neg (by simp [ht]), if_neg (by rw [hf, i.2.1]; simp), List.getElem?_eq_getElem hlt]
    rfl
  delete := by
    intro i x ht
    have ht : i.1.trained = true := ht
    show (kept i.1 (Ivf.delete i.1 x)).ids = _
    rw [← erase_findIdx]
    unfold Ivf.delete
    rw [if_neg (by simp [ht])]
    cases i.1.ids.findIdx? (fun y => decide (y = x)) <;> rfl
  trainedAdd := by
    intro i x v
    show (kept i.1 (Ivf.add E i.1 x v)).trained = i.1.trained
    unfold Ivf.add
    split
    · rfl
    · split
      · rfl
      · split <;> rfl
  trainedDelete := by
    intro i x
    show (kept i.1 (Ivf.delete i.1 x)).trained = i.1.trained
    unfold Ivf.delete
    split
    · rfl
    · split <;> rfl

/-! ### Concrete cases -/

def demoIvf : Ivf.Env (List Nat) :=
  ⟨List.length, fun a b => ((a.sum - b.sum + (b.sum - a.sum) : Nat) : ℚ), 1000, id, fun vs n => vs.take n⟩

def demoEnv : Env Nat Unit { ix : Ivf.Index (List Nat) // Shape 1 ix } :=
  ivfEnv (fun v _ n => some (v.take n)) 1 demoIvf

/-- A store with an index trained to two cells. -/
def demoStart : St Nat Unit { ix : Ivf.Index (List Nat) // Shape 1 ix } :=
  init 1 none (some ⟨⟨2, 1, [[1], [9]], [[], []], [], [], true, 1⟩, rfl, fun _ => by decide⟩)

def demoRecord (id : String) (v : Nat) : Emb Nat := { id := id, vector := some [v] }

def demoWrites : List (Op Nat Unit { ix : Ivf.Index (List Nat) // Shape 1 ix }) :=
  [.upsert true false (demoRecord "a" 1), .upsertBatch true none [demoRecord "b" 5, demoRecord "c" 9],
    .deleteBatch none ["a"]]

/-- The hypotheses of `C162_exact_partial` hold of a history of writes and a removal. -/
example : Along demoEnv (Tracks demoEnv (fun v => v.length = 1) (fun i => i.1.ids)) demoStart demoWrites ∧
    Laws demoEnv (fun v => v.length = 1) (fun i => i.1.ids) ∧ Exact demoEnv (fun i => i.1.ids) demoStart ∧
    (run demoEnv demoStart demoWrites).ivf.map (fun i => i.1.ids) = some ["b", "c"] := by
  refine ⟨⟨?_, ?_, ?_, trivial⟩, ivf_laws _ _ demoIvf, ?_, ?_⟩
  · exact ⟨rfl, by decide +kernel⟩
  · exact ⟨by decide +kernel, by decide +kernel⟩
  · show _ ≠ _
    decide +kernel
  · intro i hi _ j; cases hi; rfl
  · decide +kernel

/-- The hypotheses of `C162_update_violated` hold after one write. -/
example : ∃ i, (run demoEnv demoStart [.upsert true false (demoRecord "a" 1)]).ivf = some i ∧
    demoEnv.vTrained i = true ∧ "a" ∈ i.1.ids ∧
    (step demoEnv (run demoEnv demoStart [.upsert true false (demoRecord "a" 1)])
      (.upsert true false (demoRecord "a" 2))).2 = .ok ∧
    (step demoEnv (step demoEnv (run demoEnv demoStart [.upsert true false (demoRecord "a" 1)])
      (.upsert true false (demoRecord "a" 2))).1 (.delete false "a")).2 = .ok := by
  refine ⟨_, rfl, ?_, ?_, ?_, ?_⟩ <;> decide +kernel

end Verif.Thm.StoreIvf
