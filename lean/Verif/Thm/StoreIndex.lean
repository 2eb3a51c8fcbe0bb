import Verif.Thm.Store
import Verif.Thm.Hnsw

/-! C161: the store's vector index against its table, over histories of writes. -/
namespace Verif.Thm.StoreIndex
open Verif.Model.Store Verif.Thm.Store

variable {W HI VI : Type}

/-! ### Specification -/

/-- What the index of the store holds for an id, with the mark of a removed entry. -/
abbrev Look (W HI : Type) := HI → String → Option (List W × Bool)

/-- How the index behaves: an insert under an id it has ever held is refused, also after a removal
(/repo/pkg/index/hnsw.go:178-180); a removal only marks the entry (lines 488-514). `keep` is what the quantizer leaves of
a vector. `index_laws` below shows this of the index of `Model/Hnsw`. -/
structure Laws (env : Env W HI VI) (keep : List W → List W) (look : Look W HI) : Prop where
  insert : ∀ h i v j, look (env.hInsert h i v) j = if j = i then (look h i).or (some (keep v, false)) else look h j
  delete : ∀ h i j, look (env.hDelete h i) j = if j = i then (look h i).map (fun p => (p.1, true)) else look h j

/-- The vector a search can reach under an id. -/
def live (look : Look W HI) (h : HI) (j : String) : Option (List W) :=
  (look h j).bind (fun p => if p.2 then none else some p.1)

/-- Every stored record can be reached through the index. -/
def Held (look : Look W HI) (s : St W HI VI) : Prop :=
  ∀ h, s.hnsw = some h → ∀ r ∈ s.db.embeddings, (live look h r.id).isSome

/-- The index holds the stored records, with their vectors, and nothing else. -/
def Exact (keep : List W → List W) (look : Look W HI) (s : St W HI VI) : Prop :=
  ∀ h, s.hnsw = some h → ∀ j, live look h j = (find s.db j).map (fun r => keep r.vector)

/-- No entry under the id was removed from the index. -/
def NotRemoved (look : Look W HI) (s : St W HI VI) (id : String) : Prop :=
  ∀ h, s.hnsw = some h → ∀ v, look h id ≠ some (v, true)

/-- The index never held the id. -/
def Never (look : Look W HI) (s : St W HI VI) (id : String) : Prop :=
  ∀ h, s.hnsw = some h → look h id = none

/-- `P` holds of every call of a history, at the state it is made in. -/
def Along (env : Env W HI VI) (P : St W HI VI → Op W HI VI → Prop) : St W HI VI → List (Op W HI VI) → Prop
  | _, [] => True
  | s, op :: ops => P s op ∧ Along env P (step env s op).1 ops

/-- A document removal that takes its chunks with it: no storage failure, the document row exists and the connection
enforces foreign keys; or there are no chunks. -/
def Takes (s : St W HI VI) (fk fault : Bool) (id : String) : Prop :=
  (fk = true ∧ fault = false ∧ ∃ d ∈ s.db.documents, d.id = id) ∨ ∀ r ∈ s.db.embeddings, r.docID ≠ some id

/-- Calls that never drop the index entry of a record that stays: no write under an id whose entry was removed, no
document removal that leaves chunks behind. -/
def Keeps (look : Look W HI) (s : St W HI VI) : Op W HI VI → Prop
  | .upsert _ _ e => NotRemoved look s e.id
  | .upsertBatch _ _ es => ∀ e ∈ es, NotRemoved look s e.id
  | .deleteDocument fk fault id => s.closed = true ∨ Takes s fk fault id
  | .reopen _ h _ => ∀ x, h = some x → ∀ r ∈ s.db.embeddings, (live look x r.id).isSome
  | _ => True

/-- Calls that leave the index equal to the table: writes under new ids, removals that reach the index, removals that
remove nothing. -/
def Tracks (env : Env W HI VI) (keep : List W → List W) (look : Look W HI) (s : St W HI VI) : Op W HI VI → Prop
  | .upsert _ _ e => Never look s e.id
  | .upsertBatch _ _ es => (es.map (fun e => e.id)).Nodup ∧ ∀ e ∈ es, Never look s e.id
  | .deleteBatch f ids => (deleteBatch env s f ids).2 ≠ .err .io
  | .deleteDocument fk fault id => s.closed = true ∨ Takes s fk fault id
  | .reopen _ h _ => ∀ x, h = some x → ∀ j, live look x j = (find s.db j).map (fun r => keep r.vector)
  | .deleteByDocID _ d => ∀ r ∈ s.db.embeddings, r.docID ≠ some d
  | .clear _ => s.db.embeddings = []
  | .clearByDocID _ ds => ∀ d ∈ ds, ∀ r ∈ s.db.embeddings, r.docID ≠ some d
  | .deleteCollection _ n => ∀ c ∈ s.db.collections, c.name = n → ∀ r ∈ s.db.embeddings, r.cid ≠ c.id
  | _ => True

/-! ### Folds -/

theorem fold_delete {env : Env W HI VI} {keep : List W → List W} {look : Look W HI} (L : Laws env keep look)
    (ids : List String) (h : HI) (j : String) :
    look (ids.foldl env.hDelete h) j = if j ∈ ids then (look h j).map (fun p => (p.1, true)) else look h j := by
  induction ids generalizing h with
  | nil => simp
  | cons i ids ih =>
    rw [List.foldl_cons, ih, L.delete]
    by_cases h1 : j ∈ ids <;> by_cases h2 : j = i
    · subst h2; cases look h j <;> simp [h1]
    · simp [h1, h2]
    · subst h2; simp [h1]
    · simp [h1, h2]

theorem live_delete {env : Env W HI VI} {keep : List W → List W} {look : Look W HI} (L : Laws env keep look)
    (ids : List String) (h : HI) (j : String) :
    live look (ids.foldl env.hDelete h) j = if j ∈ ids then none else live look h j := by
  unfold live
  rw [fold_delete L]
  split
  · cases look h j <;> simp
  · rfl

theorem fold_insert {env : Env W HI VI} {keep : List W → List W} {look : Look W HI} (L : Laws env keep look)
    (es : List (Emb W)) (h : HI) (j : String) :
    look (es.foldl (fun h e => env.hInsert h e.id (e.vector.getD [])) h) j =
      (look h j).or ((es.find? (fun e => e.id = j)).map (fun e => (keep (e.vector.getD []), false))) := by
  induction es generalizing h with
  | nil => simp
  | cons e es ih =>
    rw [List.foldl_cons, ih, L.insert]
    by_cases h2 : j = e.id
    · subst h2
      cases hv : look h e.id <;> simp
    · have : ¬ e.id = j := fun x => h2 x.symm
      simp [h2, List.find?_cons, this]

theorem live_or {look : Look W HI} {h h' : HI} {j : String} {o : Option (List W)}
    (hl : look h' j = (look h j).or (o.map (fun v => (v, false)))) (hn : ∀ v, look h j ≠ some (v, true)) :
    live look h' j = (live look h j).or o := by
  unfold live
  rw [hl]
  cases hv : look h j with
  | none => cases o <;> rfl
  | some p =>
    obtain ⟨v, b⟩ := p
    cases b with
    | false => simp
    | true => exact absurd hv (hn v)

theorem live_insert {env : Env W HI VI} {keep : List W → List W} {look : Look W HI} (L : Laws env keep look) (h : HI)
    (i : String) (v : List W) (hn : ∀ v, look h i ≠ some (v, true)) (j : String) :
    live look (env.hInsert h i v) j = if j = i then (live look h i).or (some (keep v)) else live look h j := by
  split
  · rename_i hj
    subst hj
    exact live_or (o := some (keep v)) (by rw [L.insert, if_pos rfl]; rfl) hn
  · rename_i hj
    unfold live; rw [L.insert, if_neg hj]

theorem live_inserts {env : Env W HI VI} {keep : List W → List W} {look : Look W HI} (L : Laws env keep look)
    (es : List (Emb W)) (h : HI) (hn : ∀ e ∈ es, ∀ v, look h e.id ≠ some (v, true)) (j : String) :
    live look (es.foldl (fun h e => env.hInsert h e.id (e.vector.getD [])) h) j =
      (live look h j).or ((es.find? (fun e => e.id = j)).map (fun e => keep (e.vector.getD []))) := by
  cases hf : es.find? (fun e => e.id = j) with
  | none =>
    unfold live
    rw [fold_insert L, hf]; simp
  | some e =>
    refine live_or ?_ ?_
    · rw [fold_insert L, hf]; rfl
    · have h1 := List.mem_of_find?_eq_some hf
      have h2 : e.id = j := by simpa using List.find?_some hf
      rw [← h2]; exact hn e h1

theorem find_mem {db : DB W} {j : String} {r : Row W} (h : find db j = some r) : r ∈ db.embeddings ∧ r.id = j := by
  unfold find at h
  exact ⟨List.mem_of_find?_eq_some h, by simpa using List.find?_some h⟩

theorem mem_find {db : DB W} (wf : WF db) {r : Row W} (h : r ∈ db.embeddings) : find db r.id = some r := by
  cases hf : find db r.id with
  | none =>
    unfold find at hf
    have := List.find?_eq_none.1 hf r h
    simp at this
  | some x =>
    obtain ⟨hx, he⟩ := find_mem hf
    exact congrArg some (nodup_inj (fun r : Row W => r.id) wf.embIds hx h he)

theorem find_none {db : DB W} {j : String} : find db j = none ↔ ∀ r ∈ db.embeddings, r.id ≠ j := by
  unfold find; simp

/-! ### One step -/

theorem upsert_split (env : Env W HI VI) (s : St W HI VI) (fk f : Bool) (e : Emb W) :
    ((upsert env s fk f e).2 ≠ .ok ∧ (upsert env s fk f e).1.db = s.db ∧ (upsert env s fk f e).1.hnsw = s.hnsw) ∨
    ((upsert env s fk f e).2 = .ok ∧ ∃ row : Row W, row.id = e.id ∧ resolveCollection s.db e = .ok row.cid ∧
      (upsert env s fk f e).1.db = { s.db with embeddings := s.db.embeddings.filter (fun x => x.id ≠ row.id) ++ [row] } ∧
      (upsert env s fk f e).1.hnsw = s.hnsw.map (fun h => env.hInsert h row.id row.vector)) := by
  have hs1 : ∀ s1 : St W HI VI, s1 = (if s.dim = 0 then { s with dim := (e.vector.getD []).length } else s) →
      s1.db = s.db ∧ s1.hnsw = s.hnsw := by
    intro s1 h; subst h; split <;> exact ⟨rfl, rfl⟩
  obtain ⟨h1, h2⟩ := hs1 _ rfl
  unfold upsert
  split
  · exact Or.inl ⟨nofun, rfl, rfl⟩
  · simp only []
    split
    · exact Or.inl ⟨nofun, h1, h2⟩
    · split
      · exact Or.inl ⟨nofun, h1, h2⟩
      · rename_i row hrow
        split
        · exact Or.inl ⟨nofun, h1, h2⟩
        · split
          · exact Or.inl ⟨nofun, h1, h2⟩
          · rename_i db' hins
            have hcol := (prepareRow_ok hrow).2.2.2.2.2.2.2
            rw [h1] at hcol
            refine Or.inr ⟨rfl, row, (prepareRow_ok hrow).1, hcol, ?_, ?_⟩
            · rw [h1] at hins; exact insertRow_ok hins
            · show Option.map _ _ = _
              rw [h2]

theorem batch_split (env : Env W HI VI) (s : St W HI VI) (fk : Bool) (f : Option Nat) (es : List (Emb W)) :
    ((upsertBatch env s fk f es).1 = s) ∨
    (batchLoop fk f s.db 0 s.db es = .ok (upsertBatch env s fk f es).1.db ∧
      (upsertBatch env s fk f es).1.hnsw =
        s.hnsw.map (fun h => es.foldl (fun h e => env.hInsert h e.id (e.vector.getD [])) h)) := by
  unfold upsertBatch
  split
  · exact Or.inl rfl
  · split
    · exact Or.inl rfl
    · split
      · exact Or.inl rfl
      · rename_i db' h
        exact Or.inr ⟨h, rfl⟩

theorem deleteDocument_split (env : Env W HI VI) (s : St W HI VI) (fk f : Bool) (id : String)
    (hk : s.closed = true ∨ Takes s fk f id) :
    ((deleteDocument env s fk f id).1.db.embeddings = s.db.embeddings.filter (fun r => r.docID ≠ some id) ∧
      (deleteDocument env s fk f id).1.hnsw = s.hnsw.map (fun h =>
        ((s.db.embeddings.filter (fun r => r.docID = some id)).map (fun r => r.id)).foldl env.hDelete h)) ∨
    ((deleteDocument env s fk f id).1 = s) := by
  by_cases hc : s.closed = true
  · exact Or.inr (by unfold deleteDocument; rw [if_pos hc])
  · left
    rcases hk with h | h
    · exact absurd h hc
    · unfold deleteDocument
      rw [if_neg hc]
      rcases h with ⟨rfl, rfl, d, hd, he⟩ | h
      · have : (s.db.documents.any fun x => x.id = id) = true := List.any_eq_true.2 ⟨d, hd, by simp [he]⟩
        simp [this]
      · have hf : s.db.embeddings.filter (fun r => r.docID ≠ some id) = s.db.embeddings :=
          List.filter_eq_self.2 fun r hr => by simpa using h r hr
        simp only []
        split
        · exact ⟨hf.symm, rfl⟩
        · refine ⟨?_, rfl⟩
          show (if _ then _ else _) = _
          split
          · rfl
          · exact hf.symm

theorem deleteBatch_split (env : Env W HI VI) (s : St W HI VI) (f : Option Nat) (ids : List String) :
    ((deleteBatch env s f ids).1 = s) ∨
    (∃ gone : List String, (∀ i ∈ gone, i ∈ ids ∧ isBlank i = false) ∧
      (deleteBatch env s f ids).1.db.embeddings = s.db.embeddings.filter (fun r => !gone.contains r.id) ∧
      (((deleteBatch env s f ids).2 = .err .io ∧ (deleteBatch env s f ids).1.hnsw = s.hnsw) ∨
       ((deleteBatch env s f ids).2 = .err .notFound ∧ (deleteBatch env s f ids).1.hnsw = s.hnsw ∧
         (deleteBatch env s f ids).1.db.embeddings.length = s.db.embeddings.length) ∨
       ((deleteBatch env s f ids).2 = .ok ∧ (∀ i ∈ ids, isBlank i = false → i ∈ gone) ∧
         (deleteBatch env s f ids).1.hnsw =
          s.hnsw.map (fun h => (ids.filter (fun i => !isBlank i)).foldl env.hDelete h)))) := by
  unfold deleteBatch
  split
  · exact Or.inl rfl
  · split
    · exact Or.inl rfl
    · simp only []
      split
      · exact Or.inl rfl
      · right
        obtain ⟨gone, h1, h2, h3, h4⟩ := deleteChunks_eq f 0 s.db.embeddings 0 (ids.filter (fun i => !isBlank i))
        refine ⟨gone, fun i hi => by simpa using h1 i hi, ?_, ?_⟩
        · split
          · exact h2
          · split <;> exact h2
        · split
          · exact Or.inl ⟨rfl, rfl⟩
          · rename_i hf
            split
            · rename_i hz
              refine Or.inr (Or.inl ⟨rfl, rfl, ?_⟩)
              show (deleteChunks _ _ _ _ _).1.length = _
              rw [hz] at h3
              have : (deleteChunks f 0 s.db.embeddings 0 (ids.filter (fun i => !isBlank i))).1.length ≤
                  s.db.embeddings.length := by rw [h2]; exact List.length_filter_le _ _
              omega
            · refine Or.inr (Or.inr ⟨rfl, ?_, rfl⟩)
              intro i hi hb
              exact h4 (by simpa using hf) i (List.mem_filter.2 ⟨hi, by simp [hb]⟩)

theorem held_filter {look : Look W HI} {s s' : St W HI VI} (H : Held look s)
    (hh : s'.hnsw = s.hnsw) (hs : ∀ r ∈ s'.db.embeddings, r ∈ s.db.embeddings) : Held look s' :=
  fun h he r hr => H h (hh ▸ he) r (hs r hr)

theorem held_delete {env : Env W HI VI} {keep : List W → List W} {look : Look W HI} (L : Laws env keep look) {s s' : St W HI VI}
    (H : Held look s) (ids : List String) (hh : s'.hnsw = s.hnsw.map (fun h => ids.foldl env.hDelete h))
    (hs : ∀ r ∈ s'.db.embeddings, r ∈ s.db.embeddings ∧ r.id ∉ ids) : Held look s' := by
  intro h he r hr
  rw [hh] at he
  obtain ⟨h0, h1, rfl⟩ := Option.map_eq_some_iff.1 he
  rw [live_delete L, if_neg (hs r hr).2]
  exact H h0 h1 r (hs r hr).1

theorem step_held {env : Env W HI VI} {keep : List W → List W} {look : Look W HI} (L : Laws env keep look) (s : St W HI VI)
    (wf : WF s.db) (op : Op W HI VI) (hk : Keeps look s op) (H : Held look s) : Held look (step env s op).1 := by
  cases op with
  | upsert fk f e =>
    rcases upsert_split env s fk f e with ⟨_, h1, h2⟩ | ⟨_, row, hid, _, h1, h2⟩
    · exact held_filter H h2 (fun r hr => by rw [step, h1] at hr; exact hr)
    · intro h he r hr
      rw [step, h2] at he
      rw [step, h1] at hr
      obtain ⟨h0, h3, rfl⟩ := Option.map_eq_some_iff.1 he
      rw [live_insert L _ _ _ (by rw [hid]; exact hk h0 h3)]
      split
      · cases live look h0 row.id <;> rfl
      · rename_i hn
        rcases List.mem_append.1 hr with hr | hr
        · exact H h0 h3 r (List.mem_filter.1 hr).1
        · exact absurd (by rw [List.mem_singleton.1 hr]) hn
  | upsertBatch fk f es =>
    rcases batch_split env s fk f es with h1 | ⟨h1, h2⟩
    · rw [step, h1]; exact H
    · intro h he r hr
      rw [step, h2] at he
      rw [step] at hr
      obtain ⟨h0, h3, rfl⟩ := Option.map_eq_some_iff.1 he
      rw [live_inserts L _ _ (fun e he => hk e he h0 h3)]
      obtain ⟨w, _, _, hf⟩ := batchLoop_spec h1
      rcases hf r.id with ⟨pre, e, post, v, he2, hid, _⟩ | ⟨_, heq⟩
      · cases hv : live look h0 r.id with
        | some x => simp
        | none =>
          cases hfd : es.find? (fun e => e.id = r.id) with
          | some x => simp
          | none =>
            have := List.find?_eq_none.1 hfd e (by rw [he2]; simp)
            simp [hid] at this
      · rw [mem_find (w wf) hr] at heq
        have := H h0 h3 r (find_mem heq.symm).1
        cases hv : live look h0 r.id with
        | some x => simp
        | none => simp [hv] at this
  | delete f id =>
    rw [step]
    unfold delete
    split
    · exact H
    · split
      · exact H
      · split
        · exact H
        · split
          · refine held_delete L H [id] rfl ?_
            intro r hr
            simpa using hr
          · exact H
  | deleteByDocID f d =>
    rw [step]; unfold deleteByDocID
    split
    · exact H
    · split
      · exact H
      · split
        · exact H
        · exact held_filter H rfl (fun r hr => (List.mem_filter.1 hr).1)
  | deleteBatch f ids =>
    rw [step]
    rcases deleteBatch_split env s f ids with h | ⟨gone, h1, h2, h3⟩
    · rw [h]; exact H
    · rcases h3 with ⟨_, h⟩ | ⟨_, h, _⟩ | ⟨_, hg, h⟩
      · exact held_filter H h (fun r hr => by rw [h2] at hr; exact (List.mem_filter.1 hr).1)
      · exact held_filter H h (fun r hr => by rw [h2] at hr; exact (List.mem_filter.1 hr).1)
      · refine held_delete L H _ h ?_
        intro r hr
        rw [h2] at hr
        obtain ⟨h5, h6⟩ := List.mem_filter.1 hr
        refine ⟨h5, fun hin => ?_⟩
        obtain ⟨h7, h8⟩ := List.mem_filter.1 hin
        have := hg r.id h7 (by simpa using h8)
        simp [this] at h6
  | deleteByFilter f sel =>
    rw [step]; unfold deleteByFilter
    split
    · exact H
    · split
      · exact H
      · split
        · exact H
        · simp only []
          split
          · exact H
          · split
            · exact H
            · refine held_delete L H _ rfl ?_
              intro r hr
              obtain ⟨h1, h2⟩ := List.mem_filter.1 hr
              refine ⟨h1, fun hin => ?_⟩
              obtain ⟨x, hx, he⟩ := List.mem_map.1 hin
              obtain ⟨h3, h4⟩ := List.mem_filter.1 hx
              have := nodup_inj (fun r : Row W => r.id) wf.embIds h3 h1 he
              subst this
              simp [h4] at h2
  | clear f =>
    rw [step]; unfold clear
    split
    · exact H
    · split
      · exact H
      · exact held_filter H rfl (fun r hr => nomatch hr)
  | clearByDocID f ds =>
    rw [step]; unfold clearByDocID
    split
    · exact H
    · split
      · exact H
      · split
        · exact H
        · refine held_filter H rfl (fun r hr => ?_)
          simp only [] at hr
          rw [clearRows_eq] at hr
          exact (List.mem_filter.1 hr).1
  | createCollection f n d =>
    rw [step]; unfold createCollection
    split
    · exact H
    · split
      · exact H
      · split
        · exact H
        · split <;> exact H
  | deleteCollection f n =>
    rw [step]; unfold deleteCollection
    split
    · exact H
    · split
      · exact H
      · split
        · exact H
        · exact held_filter H rfl (fun r hr => (List.mem_filter.1 hr).1)
  | createDocument f d =>
    rw [step]; unfold createDocument
    split
    · exact H
    · split
      · exact H
      · split <;> exact H
  | updateDocument f d =>
    rw [step]; unfold updateDocument
    split
    · exact H
    · split
      · exact H
      · split <;> exact H
  | deleteDocument fk f id =>
    rw [step]
    rcases deleteDocument_split env s fk f id hk with ⟨h1, h2⟩ | h
    · refine held_delete L H _ h2 ?_
      intro r hr
      rw [h1] at hr
      obtain ⟨h3, h4⟩ := List.mem_filter.1 hr
      refine ⟨h3, fun hin => ?_⟩
      obtain ⟨x, hx, he⟩ := List.mem_map.1 hin
      obtain ⟨h5, h6⟩ := List.mem_filter.1 hx
      have := nodup_inj (fun r : Row W => r.id) wf.embIds h5 h3 he
      subst this
      simp at h4 h6
      exact h4 h6
    · rw [h]; exact H
  | close => exact H
  | reopen d h v =>
    intro x hx r hr
    refine hk x hx r ?_
    have : (step env s (.reopen d h v)).1.db.embeddings = s.db.embeddings := by
      show (ensureDefault s.db d).embeddings = _
      unfold ensureDefault; split <;> rfl
    rw [this] at hr; exact hr

theorem exact_same {keep : List W → List W} {look : Look W HI} {s s' : St W HI VI} (H : Exact keep look s)
    (hh : s'.hnsw = s.hnsw) (hs : ∀ j, find s'.db j = find s.db j) : Exact keep look s' :=
  fun h he j => by rw [hs j]; exact H h (hh ▸ he) j

theorem exact_rows {keep : List W → List W} {look : Look W HI} {s s' : St W HI VI} (H : Exact keep look s)
    (hh : s'.hnsw = s.hnsw) (hs : s'.db.embeddings = s.db.embeddings) : Exact keep look s' :=
  exact_same H hh fun j => by unfold find; rw [hs]

theorem exact_delete {env : Env W HI VI} {keep : List W → List W} {look : Look W HI} (L : Laws env keep look) {s s' : St W HI VI}
    (H : Exact keep look s) (ids : List String) (hh : s'.hnsw = s.hnsw.map (fun h => ids.foldl env.hDelete h))
    (hs : ∀ j, find s'.db j = if j ∈ ids then none else find s.db j) : Exact keep look s' := by
  intro h he j
  rw [hh] at he
  obtain ⟨h0, h1, rfl⟩ := Option.map_eq_some_iff.1 he
  rw [live_delete L, hs j]
  split
  · rfl
  · exact H h0 h1 j

theorem find_drop {db db' : DB W} (wf : WF db) {q : Row W → Bool} (h : db'.embeddings = db.embeddings.filter q)
    (ids : List String) (hq : ∀ r ∈ db.embeddings, q r = false ↔ r.id ∈ ids) (j : String) :
    find db' j = if j ∈ ids then none else find db j := by
  rw [find_some_of_filter h wf]
  cases hf : find db j with
  | none => simp
  | some r =>
    obtain ⟨h1, h2⟩ := find_mem hf
    subst h2
    have := hq r h1
    by_cases hm : r.id ∈ ids
    · simp [hm, this.2 hm, Option.filter]
    · have hqr : q r = true := by
        cases hh : q r with
        | true => rfl
        | false => exact absurd (this.1 hh) hm
      simp [hm, hqr, Option.filter]

theorem step_exact {env : Env W HI VI} {keep : List W → List W} {look : Look W HI} (L : Laws env keep look) (s : St W HI VI)
    (wf : WF s.db) (op : Op W HI VI) (hk : Tracks env keep look s op) (H : Exact keep look s) : Exact keep look (step env s op).1 := by
  cases op with
  | upsert fk f e =>
    rcases upsert_split env s fk f e with ⟨_, h1, h2⟩ | ⟨_, row, hid, _, h1, h2⟩
    · exact exact_rows H h2 (by rw [step, h1])
    · intro h he j
      rw [step, h2] at he
      obtain ⟨h0, h3, rfl⟩ := Option.map_eq_some_iff.1 he
      have hf : find (step env s (.upsert fk f e)).1.db j = if j = row.id then some row else find s.db j := by
        rw [step, h1]; exact find_upsert (fun r : Row W => r.id) s.db.embeddings row j
      have hk' : look h0 row.id = none := by rw [hid]; exact hk h0 h3
      have hl : live look h0 row.id = none := by unfold live; rw [hk']; rfl
      rw [live_insert L _ _ _ (by rw [hk']; exact nofun), hf, hl, H h0 h3 j]
      split <;> rfl
  | upsertBatch fk f es =>
    rcases batch_split env s fk f es with h1 | ⟨h1, h2⟩
    · rw [step, h1]; exact H
    · intro h he j
      rw [step, h2] at he
      obtain ⟨h0, h3, rfl⟩ := Option.map_eq_some_iff.1 he
      rw [live_inserts L _ _ (fun e he => by rw [hk.2 e he h0 h3]; exact nofun)]
      obtain ⟨_, _, _, hf⟩ := batchLoop_spec h1
      rcases hf j with ⟨pre, e, post, v, he2, hid, _, hv, hp⟩ | ⟨hno, heq⟩
      · have hin : e ∈ es := by rw [he2]; simp
        have hn : live look h0 j = none := by unfold live; rw [← hid, hk.2 e hin h0 h3]; rfl
        have hfe : es.find? (fun x => x.id = j) = some e := by
          cases hfd : es.find? (fun x => x.id = j) with
          | none => have := List.find?_eq_none.1 hfd e hin; simp [hid] at this
          | some x =>
            have hx := List.mem_of_find?_eq_some hfd
            have hxj : x.id = j := by simpa using List.find?_some hfd
            exact congrArg some (nodup_inj (fun e : Emb W => e.id) hk.1 hx hin (hxj.trans hid.symm))
        rw [hn, hfe]
        rw [step]
        obtain ⟨r, hr, hpr⟩ := Option.map_eq_some_iff.1 hp
        rw [hr]
        have : r.vector = v := congrArg Payload.vector hpr
        simp [hv, this]
      · have hfe : es.find? (fun x => x.id = j) = none := List.find?_eq_none.2 fun x hx => by simpa using hno x hx
        rw [hfe, step, heq, H h0 h3 j]; simp
  | delete f id =>
    rw [step]
    unfold delete
    split
    · exact H
    · split
      · exact H
      · split
        · exact H
        · split
          · refine exact_delete L H [id] rfl ?_
            exact find_drop wf rfl [id] (fun r _ => by simp)
          · exact H
  | deleteByDocID f d =>
    rw [step]; unfold deleteByDocID
    split
    · exact H
    · split
      · exact H
      · split
        · exact H
        · refine exact_rows H rfl ?_
          exact List.filter_eq_self.2 fun r hr => by simpa using hk r hr
  | deleteBatch f ids =>
    rw [step]
    rcases deleteBatch_split env s f ids with h | ⟨gone, h1, h2, h3⟩
    · rw [h]; exact H
    · rcases h3 with ⟨h, _⟩ | ⟨_, h, hl⟩ | ⟨_, hg, h⟩
      · exact absurd h hk
      · refine exact_rows H h ?_
        rw [h2] at hl ⊢
        exact List.filter_eq_self.2 (List.length_filter_eq_length_iff.1 hl)
      · refine exact_delete L H _ h ?_
        refine find_drop wf h2 _ ?_
        intro r _
        simp only [List.contains_eq_mem, List.mem_filter, Bool.not_eq_true', Bool.not_eq_false', decide_eq_true_eq]
        exact ⟨fun hr => h1 r.id hr, fun hr => hg r.id hr.1 hr.2⟩
  | deleteByFilter f sel =>
    rw [step]; unfold deleteByFilter
    split
    · exact H
    · split
      · exact H
      · split
        · exact H
        · simp only []
          split
          · exact H
          · split
            · exact H
            · refine exact_delete L H _ rfl ?_
              refine find_drop wf rfl _ ?_
              intro r hr
              constructor
              · intro hq
                exact List.mem_map.2 ⟨r, List.mem_filter.2 ⟨hr, by simpa using hq⟩, rfl⟩
              · intro hin
                obtain ⟨x, hx, he⟩ := List.mem_map.1 hin
                obtain ⟨h3, h4⟩ := List.mem_filter.1 hx
                have := nodup_inj (fun r : Row W => r.id) wf.embIds h3 hr he
                subst this
                simpa using h4
  | clear f =>
    rw [step]; unfold clear
    split
    · exact H
    · split
      · exact H
      · exact exact_rows H rfl (Eq.symm hk)
  | clearByDocID f ds =>
    rw [step]; unfold clearByDocID
    split
    · exact H
    · split
      · exact H
      · split
        · exact H
        · refine exact_rows H rfl ?_
          simp only []
          rw [clearRows_eq]
          refine List.filter_eq_self.2 fun r hr => ?_
          simp only [Bool.not_eq_true', List.any_eq_false]
          intro d hd
          have := hk d hd r hr
          simp [this]
  | createCollection f n d =>
    rw [step]; unfold createCollection
    split
    · exact H
    · split
      · exact H
      · split
        · exact H
        · split <;> exact H
  | deleteCollection f n =>
    rw [step]; unfold deleteCollection
    split
    · exact H
    · split
      · exact H
      · rename_i c hc
        split
        · exact H
        · refine exact_rows H rfl ?_
          refine List.filter_eq_self.2 fun r hr => ?_
          have := hk c (List.mem_of_find?_eq_some hc) (by simpa using List.find?_some hc) r hr
          simpa using this
  | createDocument f d =>
    rw [step]; unfold createDocument
    split
    · exact H
    · split
      · exact H
      · split <;> exact H
  | updateDocument f d =>
    rw [step]; unfold updateDocument
    split
    · exact H
    · split
      · exact H
      · split <;> exact H
  | deleteDocument fk f id =>
    rw [step]
    rcases deleteDocument_split env s fk f id hk with ⟨h1, h2⟩ | h
    · refine exact_delete L H _ h2 ?_
      refine find_drop wf h1 _ ?_
      intro r hr
      constructor
      · intro hq
        exact List.mem_map.2 ⟨r, List.mem_filter.2 ⟨hr, by simpa using hq⟩, rfl⟩
      · intro hin
        obtain ⟨x, hx, he⟩ := List.mem_map.1 hin
        obtain ⟨h5, h6⟩ := List.mem_filter.1 hx
        have := nodup_inj (fun r : Row W => r.id) wf.embIds h5 hr he
        subst this
        simpa using h6
    · rw [h]; exact H
  | close => exact H
  | reopen d h v =>
    intro x hx j
    show _ = (find (ensureDefault s.db d) j).map _
    rw [ensureDefault_find]
    exact hk x hx j

/-! ### C161 -/

/-- After any history whose document removals take their chunks with them, every stored record is in the index: no
record is lost to search because a write did not reach the index. -/
theorem C161_held_partial {env : Env W HI VI} {keep : List W → List W} {look : Look W HI} (L : Laws env keep look)
    (ops : List (Op W HI VI)) (s : St W HI VI) (wf : WF s.db) (H : Held look s)
    (hk : Along env (Keeps look) s ops) : Held look (run env s ops) := by
  induction ops generalizing s with
  | nil => exact H
  | cons op ops ih =>
    exact ih (step env s op).1 (run_wf env s wf [op]) (step_held L s wf op hk.1 H) hk.2

/-- After any history of writes under new ids and removals that reach the index, the index holds exactly the stored
records with exactly their vectors. -/
theorem C161_exact_partial {env : Env W HI VI} {keep : List W → List W} {look : Look W HI} (L : Laws env keep look)
    (ops : List (Op W HI VI)) (s : St W HI VI) (wf : WF s.db) (H : Exact keep look s)
    (hk : Along env (Tracks env keep look) s ops) : Exact keep look (run env s ops) := by
  induction ops generalizing s with
  | nil => exact H
  | cons op ops ih =>
    exact ih (step env s op).1 (run_wf env s wf [op]) (step_exact L s wf op hk.1 H) hk.2

/-- A record removed by id is no longer in the index, and no other entry changes. -/
theorem C161_delete {env : Env W HI VI} {keep : List W → List W} {look : Look W HI} (L : Laws env keep look) (s : St W HI VI)
    (f : Bool) (id : String) (hok : (step env s (.delete f id)).2 = .ok) (h : HI) (hs : s.hnsw = some h) :
    ∃ h', (step env s (.delete f id)).1.hnsw = some h' ∧ live look h' id = none ∧
      ∀ j, j ≠ id → look h' j = look h j := by
  rw [step] at hok ⊢
  unfold delete at hok ⊢
  split at hok
  · cases hok
  · split at hok
    · cases hok
    · split at hok
      · cases hok
      · split at hok
        · rename_i h1 h2 h3 h4
          rw [if_neg h1, if_neg h2, if_neg h3, if_pos h4]
          refine ⟨env.hDelete h id, by simp [hs], ?_, ?_⟩
          · unfold live; rw [L.delete, if_pos rfl]; cases look h id <;> rfl
          · intro j hj; rw [L.delete, if_neg hj]
        · cases hok

/-- Records removed by a list of ids are no longer in the index, and no other entry changes. -/
theorem C161_deleteBatch {env : Env W HI VI} {keep : List W → List W} {look : Look W HI} (L : Laws env keep look)
    (s : St W HI VI) (f : Option Nat) (ids : List String) (hok : (step env s (.deleteBatch f ids)).2 = .ok)
    (h : HI) (hs : s.hnsw = some h) (i : String) (hi : i ∈ ids) (hb : isBlank i = false) (r : Row W)
    (hr : find s.db i = some r) :
    find (step env s (.deleteBatch f ids)).1.db i = none ∧
    ∃ h', (step env s (.deleteBatch f ids)).1.hnsw = some h' ∧ live look h' i = none ∧
      ∀ j, j ∉ ids → look h' j = look h j := by
  have hc : s.closed = false := by
    cases hc : s.closed with
    | false => rfl
    | true => rw [step] at hok; unfold deleteBatch at hok; rw [if_pos hc] at hok; cases hok
  have hv : (ids.filter (fun i => !isBlank i)).length ≠ 0 := by
    intro h0
    have : i ∈ ids.filter (fun i => !isBlank i) := List.mem_filter.2 ⟨hi, by simp [hb]⟩
    rw [List.length_eq_zero_iff.1 h0] at this; cases this
  have hl : ids.length ≠ 0 := fun h0 => by rw [List.length_eq_zero_iff.1 h0] at hi; cases hi
  rw [step] at hok ⊢
  rcases deleteBatch_split env s f ids with h0 | ⟨gone, h1, h2, h3⟩
  · exfalso
    unfold deleteBatch at h0 hok
    simp only [hc, Bool.false_eq_true, if_false, hl, hv] at h0 hok
    split at hok
    · cases hok
    · rename_i hnf
      split at hok
      · cases hok
      · rename_i hz
        rw [if_neg hnf, if_neg hz] at h0
        have hrows := congrArg (fun s : St W HI VI => s.db.embeddings) h0
        simp only at hrows
        obtain ⟨gone, _, g2, _, g4⟩ := deleteChunks_eq f 0 s.db.embeddings 0 (ids.filter (fun i => !isBlank i))
        rw [g2] at hrows
        have hm := (find_mem hr).1
        rw [← hrows] at hm
        have h6 := (List.mem_filter.1 hm).2
        rw [(find_mem hr).2] at h6
        have := g4 (by simpa using hnf) i (List.mem_filter.2 ⟨hi, by simp [hb]⟩)
        simp [this] at h6
  · rcases h3 with ⟨h4, _⟩ | ⟨h4, _⟩ | ⟨_, hg, h4⟩
    · rw [h4] at hok; cases hok
    · rw [h4] at hok; cases hok
    · refine ⟨?_, _, by rw [h4, hs]; rfl, ?_, ?_⟩
      · rw [find_none]
        intro x hx he
        rw [h2] at hx
        have h6 := (List.mem_filter.1 hx).2
        rw [he] at h6
        simp [hg i hi hb] at h6
      · rw [live_delete L, if_pos (List.mem_filter.2 ⟨hi, by simp [hb]⟩)]
      · intro j hj
        rw [fold_delete L, if_neg (fun hm => hj (List.mem_filter.1 hm).1)]

/-- A record removed by a metadata filter is no longer in the index; a record that stays keeps its entry. -/
theorem C161_deleteByFilter {env : Env W HI VI} {keep : List W → List W} {look : Look W HI} (L : Laws env keep look)
    (s : St W HI VI) (wf : WF s.db) (f : Bool) (p : Option Meta → Option Bool)
    (hok : (step env s (.deleteByFilter f (some p))).2 = .ok) (h : HI) (hs : s.hnsw = some h) (r : Row W)
    (hr : r ∈ s.db.embeddings) :
    ∃ h', (step env s (.deleteByFilter f (some p))).1.hnsw = some h' ∧
      (p r.metadata = some true → live look h' r.id = none) ∧
      (p r.metadata ≠ some true → look h' r.id = look h r.id) := by
  rw [step] at hok ⊢
  unfold deleteByFilter at hok ⊢
  simp only [] at hok ⊢
  split at hok
  · cases hok
  · split at hok
    · cases hok
    · rename_i h1 h2
      rw [if_neg h1, if_neg h2]
      split
      · rename_i h3
        have h3 := List.length_eq_zero_iff.1 h3
        have hnot : p r.metadata ≠ some true := by
          intro ht
          have : r.id ∈ (s.db.embeddings.filter (fun r => p r.metadata == some true)).map (fun r => r.id) :=
            List.mem_map.2 ⟨r, List.mem_filter.2 ⟨hr, by simp [ht]⟩, rfl⟩
          rw [h3] at this; cases this
        exact ⟨h, hs, fun ht => absurd ht hnot, fun _ => rfl⟩
      · rename_i h3
        rw [if_neg h3] at hok
        split
        · rename_i h4; rw [if_pos h4] at hok; cases hok
        · refine ⟨_, by simp [hs]; rfl, ?_, ?_⟩
          · intro ht
            rw [live_delete L, if_pos (List.mem_map.2 ⟨r, List.mem_filter.2 ⟨hr, by simp [ht]⟩, rfl⟩)]
          · intro ht
            rw [fold_delete L, if_neg]
            intro hm
            obtain ⟨x, hx, he⟩ := List.mem_map.1 hm
            obtain ⟨h5, h6⟩ := List.mem_filter.1 hx
            have := nodup_inj (fun r : Row W => r.id) wf.embIds h5 hr he
            subst this
            exact ht (by simpa using h6)

/-- Replacing the vector of a stored record does not reach the index: whatever the new vector, the index keeps the old
one. -/
theorem C161_update_violated {env : Env W HI VI} {keep : List W → List W} {look : Look W HI} (L : Laws env keep look)
    (s : St W HI VI) (fk f : Bool) (e : Emb W) (h : HI) (old : List W) (hs : s.hnsw = some h)
    (hold : live look h e.id = some old) :
    ∃ h', (step env s (.upsert fk f e)).1.hnsw = some h' ∧ live look h' e.id = some old := by
  rw [step]
  rcases upsert_split env s fk f e with ⟨_, _, h2⟩ | ⟨_, row, hid, _, _, h2⟩
  · exact ⟨h, by rw [h2, hs], hold⟩
  · refine ⟨_, by rw [h2, hs]; rfl, ?_⟩
    rw [hid]
    unfold live at hold ⊢
    rw [L.insert, if_pos rfl]
    cases hl : look h e.id with
    | none => rw [hl] at hold; cases hold
    | some p => rw [hl] at hold; exact hold

/-- A record that was removed and is then written again is stored but can not be reached through the index: whatever the
state, the index refuses it. -/
theorem C161_rewrite_violated {env : Env W HI VI} {keep : List W → List W} {look : Look W HI} (L : Laws env keep look)
    (s : St W HI VI) (f fk f' : Bool) (e : Emb W) (h : HI) (hs : s.hnsw = some h) (hl : (look h e.id).isSome)
    (hd : (step env s (.delete f e.id)).2 = .ok)
    (hu : (step env (step env s (.delete f e.id)).1 (.upsert fk f' e)).2 = .ok) :
    (∃ r, find (run env s [.delete f e.id, .upsert fk f' e]).db e.id = some r) ∧
    ∃ h', (run env s [.delete f e.id, .upsert fk f' e]).hnsw = some h' ∧ live look h' e.id = none := by
  have hd1 : ∃ h1, (step env s (.delete f e.id)).1.hnsw = some h1 ∧ ∃ v, look h1 e.id = some (v, true) := by
    rw [step] at hd ⊢
    unfold delete at hd ⊢
    split at hd
    · cases hd
    · split at hd
      · cases hd
      · split at hd
        · cases hd
        · split at hd
          · rename_i h1 h2 h3 h4
            rw [if_neg h1, if_neg h2, if_neg h3, if_pos h4]
            refine ⟨env.hDelete h e.id, by simp [hs], ?_⟩
            rw [L.delete, if_pos rfl]
            obtain ⟨p, hp⟩ := Option.isSome_iff_exists.1 hl
            exact ⟨p.1, by rw [hp]; rfl⟩
          · cases hd
  obtain ⟨h1, h2, v, h3⟩ := hd1
  show (∃ r, find (step env (step env s (.delete f e.id)).1 (.upsert fk f' e)).1.db e.id = some r) ∧
    ∃ h', (step env (step env s (.delete f e.id)).1 (.upsert fk f' e)).1.hnsw = some h' ∧ live look h' e.id = none
  generalize (step env s (.delete f e.id)).1 = t at h2 hu
  rw [step] at hu ⊢
  rcases upsert_split env t fk f' e with ⟨h4, _⟩ | ⟨_, row, hid, _, h4, h5⟩
  · exact absurd hu h4
  · refine ⟨⟨row, ?_⟩, _, by rw [h5, h2]; rfl, ?_⟩
    · rw [h4, ← hid]
      have := find_upsert (fun r : Row W => r.id) t.db.embeddings row row.id
      rw [if_pos rfl] at this
      exact this
    · rw [hid]
      unfold live
      rw [L.insert, if_pos rfl, h3]; rfl

/-- Removing all records, the records of documents or a collection does not reach the index: it keeps every entry. -/
theorem C161_bulk_violated (env : Env W HI VI) (s : St W HI VI) (f : Bool) :
    (∀ d, (step env s (.deleteByDocID f d)).1.hnsw = s.hnsw) ∧ (step env s (.clear f)).1.hnsw = s.hnsw ∧
    (∀ ds, (step env s (.clearByDocID f ds)).1.hnsw = s.hnsw) ∧
    ∀ n, (step env s (.deleteCollection f n)).1.hnsw = s.hnsw := by
  refine ⟨fun d => ?_, ?_, fun ds => ?_, fun n => ?_⟩
  · rw [step]; unfold deleteByDocID; repeat' split
    all_goals rfl
  · rw [step]; unfold clear; repeat' split
    all_goals rfl
  · rw [step]; unfold clearByDocID; repeat' split
    all_goals rfl
  · rw [step]; unfold deleteCollection; repeat' split
    all_goals rfl

/-- Removing a document whose row is gone, on a connection without foreign keys, or with a failing storage layer, takes
its chunks out of the index while the table keeps them: they are stored and cannot be found. -/
theorem C161_document_violated {env : Env W HI VI} {keep : List W → List W} {look : Look W HI} (L : Laws env keep look)
    (s : St W HI VI) (hc : s.closed = false) (fk f : Bool) (id : String)
    (hbad : fk = false ∨ f = true ∨ ∀ d ∈ s.db.documents, d.id ≠ id) (h : HI) (hs : s.hnsw = some h) (r : Row W)
    (hr : r ∈ s.db.embeddings) (hd : r.docID = some id) :
    r ∈ (step env s (.deleteDocument fk f id)).1.db.embeddings ∧
    ∃ h', (step env s (.deleteDocument fk f id)).1.hnsw = some h' ∧ live look h' r.id = none := by
  have hin : r.id ∈ (s.db.embeddings.filter (fun r => r.docID = some id)).map (fun r => r.id) :=
    List.mem_map.2 ⟨r, List.mem_filter.2 ⟨hr, by simp [hd]⟩, rfl⟩
  rw [step]; unfold deleteDocument
  simp only [hc, Bool.false_eq_true, if_false]
  split
  · exact ⟨hr, _, by simp only [hs]; rfl, by rw [live_delete L, if_pos hin]⟩
  · rename_i hf
    refine ⟨?_, _, by simp only [hs]; rfl, by rw [live_delete L, if_pos hin]⟩
    show r ∈ (if _ then _ else _)
    rw [if_neg]
    · exact hr
    · intro hcas
      simp only [Bool.and_eq_true, List.any_eq_true, decide_eq_true_eq] at hcas
      rcases hbad with h0 | h0 | h0
      · rw [h0] at hcas; exact absurd hcas.1 (by simp)
      · exact hf h0
      · obtain ⟨d, h1, h2⟩ := hcas.2; exact h0 d h1 h2

/-! ### The index of `Model/Hnsw` -/

/-- The environment whose index is the HNSW index of `Model/Hnsw`: `lv` draws the levels, `order` is the order in which
the map of nodes is visited when the entry point is removed. -/
def hnswEnv (adapt : List W → Nat → Nat → Option (List W)) (E : Hnsw.Env (List W)) (lv : String → Nat)
    (order : List (Hnsw.Node (List W)) → List (Hnsw.Node (List W))) (ho : ∀ l, (order l).Perm l) :
    Env W { h : Hnsw.Index (List W) // Hnsw.Inv h } Unit where
  adapt := adapt
  hInsert := fun h id v => match hi : Hnsw.insert E h.1 id v (lv id) with
    | none => h
    | some (h', e) => ⟨h', by
        obtain ⟨h2, b1, b2, _⟩ := Hnsw.insertAll_spec E true [(id, v, lv id)] h.1 h.2
        obtain ⟨h3, e3, c1, c2, _⟩ := Hnsw.insert_some E h.1 id v (lv id) h.2
        rw [c1] at hi
        have : h3 = h' := by injection hi with hi; exact congrArg Prod.fst hi
        rw [c2] at b1
        have h32 : h3 = h2 := by injection b1
        rw [← this, h32]; exact b2⟩
  hDelete := fun h id => ⟨(Hnsw.delete order h.1 id).1, (Hnsw.delete_spec order ho h.1 id h.2).2.1⟩
  vAdd := fun i _ _ => i
  vDelete := fun i _ => i
  vTrained := fun _ => false

theorem index_laws (adapt : List W → Nat → Nat → Option (List W)) (E : Hnsw.Env (List W)) (lv : String → Nat)
    (order : List (Hnsw.Node (List W)) → List (Hnsw.Node (List W))) (ho : ∀ l, (order l).Perm l) :
    Laws (hnswEnv adapt E lv order ho) E.keep (fun h => Hnsw.look h.1) where
  insert := by
    intro h i v j
    obtain ⟨h2, b1, b2, b3, b4, _⟩ := Hnsw.insertAll_spec E true [(i, v, lv i)] h.1 h.2
    obtain ⟨h3, e3, c1, c2, _⟩ := Hnsw.insert_some E h.1 i v (lv i) h.2
    have h32 : h3 = h2 := by rw [c2] at b1; injection b1
    have : ((hnswEnv adapt E lv order ho).hInsert h i v).1 = h3 := by
      simp only [hnswEnv]
      split
      · rename_i hh; rw [c1] at hh; cases hh
      · rename_i h' e hh
        rw [c1] at hh
        injection hh with hh
        exact (congrArg Prod.fst hh).symm
    show Hnsw.look ((hnswEnv adapt E lv order ho).hInsert h i v).1 j = _
    rw [this, h32, b4 j]
    by_cases hj : j = i
    · subst hj; simp [Hnsw.firstOf]
    · have : ¬ i = j := fun h => hj h.symm
      simp [Hnsw.firstOf, hj, this]
  delete := by
    intro h i j
    have := (Hnsw.delete_spec order ho h.1 i h.2).2.2.2.1 j
    show Hnsw.look (Hnsw.delete order h.1 i).1 j = _
    rw [this]
    split
    · rename_i hj; rw [hj]
    · rfl

/-! ### Concrete cases -/

def demoEnv : Env Nat { h : Hnsw.Index (List Nat) // Hnsw.Inv h } Unit :=
  hnswEnv (fun v _ n => some (v.take n)) ⟨fun a b => ((a.sum - b.sum + (b.sum - a.sum) : Nat) : ℚ), id⟩ (fun _ => 0)
    id (fun _ => List.Perm.refl _)

def demoStart : St Nat { h : Hnsw.Index (List Nat) // Hnsw.Inv h } Unit :=
  init 1 (some ⟨Hnsw.new (List Nat) 4 10, Hnsw.inv_empty 4 8 10⟩) none

def demoLook : Look Nat { h : Hnsw.Index (List Nat) // Hnsw.Inv h } := fun h => Hnsw.look h.1

def demoRecord (id : String) (v : Nat) : Emb Nat := { id := id, vector := some [v] }

def demoWrites : List (Op Nat { h : Hnsw.Index (List Nat) // Hnsw.Inv h } Unit) :=
  [.upsert true false (demoRecord "a" 1), .upsert true false (demoRecord "b" 5), .delete false "a"]

theorem demo_laws : Laws demoEnv id demoLook := index_laws _ _ _ _ _

theorem demo_exact : Exact id demoLook demoStart := by
  intro h hh j
  cases hh
  rfl

/-- The hypotheses of `C161_exact_partial` hold of a history of two writes and a removal, and the index it leaves holds
the remaining record. -/
example : Along demoEnv (Tracks demoEnv id demoLook) demoStart demoWrites ∧
    ∃ h, (run demoEnv demoStart demoWrites).hnsw = some h ∧ live demoLook h "b" = some [5] ∧
      live demoLook h "a" = none := by
  have ht : Along demoEnv (Tracks demoEnv id demoLook) demoStart demoWrites := by
    refine ⟨?_, ?_, trivial, trivial⟩
    · intro h hh; cases hh; rfl
    · intro h hh; cases hh; decide +kernel
  refine ⟨ht, _, rfl, ?_, ?_⟩
  · rw [C161_exact_partial demo_laws demoWrites demoStart (init_wf 1 _ _) demo_exact ht _ rfl]; decide +kernel
  · rw [C161_exact_partial demo_laws demoWrites demoStart (init_wf 1 _ _) demo_exact ht _ rfl]; decide +kernel

/-- The hypotheses of `C161_held_partial` hold of the same writes. -/
example : Along demoEnv (Keeps demoLook) demoStart demoWrites ∧ Held demoLook demoStart := by
  refine ⟨⟨?_, ?_, trivial, trivial⟩, fun h hh r hr => nomatch hr⟩
  · intro h hh; cases hh; exact nofun
  · intro h hh; cases hh
    intro v hv
    exact absurd (Option.isSome_iff_exists.2 ⟨_, hv⟩) (by decide +kernel)

/-- The hypotheses of `C161_rewrite_violated`, `C161_update_violated` and `C161_delete` hold after one write. -/
example : ∃ h, (run demoEnv demoStart [.upsert true false (demoRecord "a" 1)]).hnsw = some h ∧
    (demoLook h "a").isSome ∧ live demoLook h "a" = some [1] ∧
    (step demoEnv (run demoEnv demoStart [.upsert true false (demoRecord "a" 1)]) (.delete false "a")).2 = .ok ∧
    (step demoEnv (step demoEnv (run demoEnv demoStart [.upsert true false (demoRecord "a" 1)])
      (.delete false "a")).1 (.upsert true false (demoRecord "a" 2))).2 = .ok := by
  refine ⟨_, rfl, ?_, ?_, ?_, ?_⟩ <;> decide +kernel

/-- The hypotheses of `C161_deleteBatch` and `C161_deleteByFilter` hold after one write. -/
example : (step demoEnv (run demoEnv demoStart [.upsert true false (demoRecord "a" 1)])
      (.deleteBatch none ["a", " "])).2 = .ok ∧ isBlank "a" = false ∧
    (step demoEnv (run demoEnv demoStart [.upsert true false (demoRecord "a" 1)])
      (.deleteByFilter false (some fun _ => some true))).2 = .ok ∧
    (run demoEnv demoStart [.upsert true false (demoRecord "a" 1)]).db.embeddings ≠ [] := by
  refine ⟨?_, ?_, ?_, ?_⟩ <;> decide +kernel

/-- The hypotheses of `C161_document_violated` hold of a chunk whose document was never registered. -/
example : ∃ r ∈ (run demoEnv demoStart [.upsert false false { demoRecord "c" 1 with docID := "d" }]).db.embeddings,
    r.docID = some "d" := ⟨_, List.mem_singleton.2 rfl, by decide +kernel⟩

end Verif.Thm.StoreIndex
