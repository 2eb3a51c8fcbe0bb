import Verif.Thm.StoreIndex

/-! C163: the collection a written record ends up in. -/
namespace Verif.Thm.StoreColl
open Verif.Model.Store Verif.Thm.Store Verif.Thm.StoreIndex

variable {W HI VI : Type}

/-! ### Specification -/

/-- The collection id the caller asks for: an explicit id, else the collection of that name, else the first. -/
def Asked (db : DB W) (e : Emb W) (c : Int) : Prop :=
  (e.collectionID ≠ 0 ∧ c = e.collectionID) ∨
  (e.collectionID = 0 ∧ e.collection ≠ "" ∧ ∃ k ∈ db.collections, k.name = e.collection ∧ k.id = c) ∨
  (e.collectionID = 0 ∧ e.collection = "" ∧ c = 1)

theorem resolve_asked {db : DB W} {e : Emb W} {c : Int} (h : resolveCollection db e = .ok c) : Asked db e c := by
  unfold resolveCollection at h
  split at h
  · rename_i h0; injection h with h; exact Or.inl ⟨h0, h.symm⟩
  · rename_i h0
    have h0 : e.collectionID = 0 := by simpa using h0
    split at h
    · rename_i h1
      split at h
      · rename_i k hk
        injection h with h
        exact Or.inr (Or.inl ⟨h0, h1, k, List.mem_of_find?_eq_some hk, by simpa using List.find?_some hk, h⟩)
      · cases h
    · rename_i h1
      injection h with h
      exact Or.inr (Or.inr ⟨h0, by simpa using h1, h.symm⟩)

theorem batch_colls {fk : Bool} {fault : Option Nat} {committed : DB W} {n : Nat} {tx tx' : DB W} {es : List (Emb W)}
    (h : batchLoop fk fault committed n tx es = .ok tx') (pre post : List (Emb W)) (e : Emb W)
    (hes : es = pre ++ e :: post) (hlast : ∀ x ∈ post, x.id ≠ e.id) :
    ∃ r, find tx' e.id = some r ∧ Asked committed e r.cid := by
  induction es generalizing n tx pre with
  | nil => simp at hes
  | cons x es ih =>
    simp only [batchLoop] at h
    split at h
    · cases h
    · rename_i row hrow
      split at h
      · cases h
      · split at h
        · cases h
        · rename_i tx1 hins
          cases pre with
          | cons y pre =>
            injection hes with h1 h2
            exact ih h pre h2
          | nil =>
            injection hes with h1 h2
            subst h1; subst h2
            obtain ⟨_, _, _, hf⟩ := batchLoop_spec h
            obtain ⟨hid, _, _, _, _, _, _, hc⟩ := prepareRow_ok hrow
            rcases hf x.id with ⟨p, y, q, _, hs, hy, _⟩ | ⟨_, heq⟩
            · exact absurd hy (hlast y (by rw [hs]; simp))
            · refine ⟨row, ?_, resolve_asked hc⟩
              rw [heq, insertRow_ok hins, ← hid]
              have := find_upsert (fun r : Row W => r.id) tx.embeddings row row.id
              rw [if_pos rfl] at this
              exact this

/-! ### C163 -/

/-- A record that was written is in the collection the caller asked for. -/
theorem C163_upsert (env : Env W HI VI) (s : St W HI VI) (fk f : Bool) (e : Emb W)
    (hok : (step env s (.upsert fk f e)).2 = .ok) :
    ∃ r, find (step env s (.upsert fk f e)).1.db e.id = some r ∧ Asked s.db e r.cid := by
  rw [step] at hok ⊢
  rcases upsert_split env s fk f e with ⟨h2, _⟩ | ⟨_, row, hid, hcol, h2, _⟩
  · exact absurd hok h2
  · refine ⟨row, ?_, resolve_asked hcol⟩
    rw [h2, ← hid]
    have := find_upsert (fun r : Row W => r.id) s.db.embeddings row row.id
    rw [if_pos rfl] at this
    exact this

/-- The same for every record of a batch that no later record of the batch replaces. -/
theorem C163_upsertBatch (env : Env W HI VI) (s : St W HI VI) (fk : Bool) (f : Option Nat) (es pre post : List (Emb W))
    (e : Emb W) (hes : es = pre ++ e :: post) (hlast : ∀ x ∈ post, x.id ≠ e.id)
    (hok : (step env s (.upsertBatch fk f es)).2 = .ok) :
    ∃ r, find (step env s (.upsertBatch fk f es)).1.db e.id = some r ∧ Asked s.db e r.cid := by
  rw [step] at hok ⊢
  unfold upsertBatch at hok ⊢
  split at hok
  · cases hok
  · rename_i hc
    rw [if_neg hc]
    split at hok
    · rename_i hl; rw [hes] at hl; simp at hl
    · rename_i hl
      rw [if_neg hl]
      split at hok
      · cases hok
      · rename_i db' hb
        exact batch_colls hb pre post e hes hlast

/-- What a reader sees: a record written under the name of a collection shows that name. -/
theorem C163_shown (env : Env W HI VI) (s : St W HI VI) (wf : WF s.db) (hc : s.closed = false) (fk f : Bool) (e : Emb W)
    (h0 : e.collectionID = 0) (h1 : e.collection ≠ "") (hok : (step env s (.upsert fk f e)).2 = .ok) :
    ∃ r, getByID (step env s (.upsert fk f e)).1 e.id = .ok r ∧ r.collection = e.collection := by
  obtain ⟨r, hr, ha⟩ := C163_upsert env s fk f e hok
  have hcl : (step env s (.upsert fk f e)).1.closed = false := by
    rw [step]; unfold upsert
    split
    · exact hc
    · simp only []
      repeat' split
      all_goals exact hc
  have hcol : (step env s (.upsert fk f e)).1.db.collections = s.db.collections := by
    rw [step]
    rcases upsert_split env s fk f e with ⟨_, h2, _⟩ | ⟨_, row, _, _, h2, _⟩ <;> rw [h2]
  refine ⟨toRec (step env s (.upsert fk f e)).1.db r, ?_, ?_⟩
  · unfold find at hr
    simp [getByID, hcl, hr]
  · rcases ha with ⟨h, _⟩ | ⟨_, _, k, hk, hn, hi⟩ | ⟨_, h, _⟩
    · exact absurd h0 h
    · simp only [toRec, hcol]
      have : s.db.collections.find? (fun c => c.id = r.cid) = some k := by
        cases hf : s.db.collections.find? (fun c => c.id = r.cid) with
        | none => have := List.find?_eq_none.1 hf k hk; simp [hi] at this
        | some x =>
          have h3 : x.id = r.cid := by simpa using List.find?_some hf
          exact congrArg some (nodup_inj (fun c : Coll => c.id) wf.collIds (List.mem_of_find?_eq_some hf) hk
            (h3.trans hi.symm))
      rw [this]; exact hn
    · exact absurd h h1

/-- A record under the name of a collection that does not exist is refused and the table does not change. -/
theorem C163_unknown_refused (env : Env W HI VI) (s : St W HI VI) (fk f : Bool) (e : Emb W) (h0 : e.collectionID = 0)
    (h1 : e.collection ≠ "") (hn : ∀ k ∈ s.db.collections, k.name ≠ e.collection) :
    (step env s (.upsert fk f e)).2 ≠ .ok ∧ (step env s (.upsert fk f e)).1.db = s.db := by
  rw [step]
  rcases upsert_split env s fk f e with ⟨h2, h3, _⟩ | ⟨_, row, hid, hcol, h2, _⟩
  · exact ⟨h2, h3⟩
  · rcases resolve_asked hcol with ⟨h, _⟩ | ⟨_, _, k, hk, hkn, _⟩ | ⟨_, h, _⟩
    · exact absurd h0 h
    · exact absurd hkn (hn k hk)
    · exact absurd h h1

/-- On a connection that enforces foreign keys a written record is in a collection that exists. -/
theorem C163_exists_partial (env : Env W HI VI) (s : St W HI VI) (f : Bool) (e : Emb W)
    (hok : (step env s (.upsert true f e)).2 = .ok) :
    ∃ r, find (step env s (.upsert true f e)).1.db e.id = some r ∧ ∃ k ∈ s.db.collections, k.id = r.cid := by
  have hs1 : ∀ s1 : St W HI VI, s1 = (if s.dim = 0 then { s with dim := (e.vector.getD []).length } else s) →
      s1.db = s.db := by
    intro s1 h; subst h; split <;> rfl
  have hdb := hs1 _ rfl
  rw [step] at hok ⊢
  unfold upsert at hok ⊢
  split at hok
  · cases hok
  · rename_i hc
    rw [if_neg hc]
    simp only [] at hok ⊢
    split at hok
    · cases hok
    · rename_i v hv
      split at hok
      · cases hok
      · rename_i row hrow
        split at hok
        · cases hok
        · rename_i hf
          split at hok
          · cases hok
          · rename_i db' hins
            have hid := (prepareRow_ok hrow).1
            refine ⟨row, ?_, ?_⟩
            · simp only [hrow, hf, hins, if_false, Bool.false_eq_true]
              rw [insertRow_ok hins, ← show row.id = e.id from hid]
              have := find_upsert (fun r : Row W => r.id)
                ((if s.dim = 0 then { s with dim := (e.vector.getD []).length } else s).db.embeddings) row row.id
              rw [if_pos rfl] at this
              exact this
            · rw [hdb] at hins
              unfold insertRow at hins
              split at hins
              · cases hins
              · rename_i hfk
                simp only [Bool.true_and, Bool.not_eq_true', Bool.not_eq_false] at hfk
                unfold fkHolds at hfk
                have := (Bool.and_eq_true_iff.1 hfk).1
                obtain ⟨k, hk, he⟩ := List.any_eq_true.1 this
                exact ⟨k, hk, by simpa using he⟩

def demoEnv : Env Nat Unit Unit :=
  ⟨fun v _ n => some (v.take n), fun h _ _ => h, fun h _ => h, fun i _ _ => i, fun i _ => i, fun _ => false⟩

/-- On any other connection of the pool a record can be written into a collection that does not exist; a reader then
sees a record without a collection. -/
theorem C163_exists_violated :
    ∃ (s : St Nat Unit Unit) (e : Emb Nat), WF s.db ∧ (step demoEnv s (.upsert false false e)).2 = .ok ∧
      (∀ k ∈ s.db.collections, k.id ≠ e.collectionID) ∧
      ∃ r, getByID (step demoEnv s (.upsert false false e)).1 e.id = .ok r ∧ r.collection = "" :=
  ⟨init 1 none none, { id := "a", collectionID := 7, vector := some [1] }, init_wf 1 none none, by decide +kernel,
    by decide +kernel, _, rfl, by decide +kernel⟩

/-- The hypotheses of the theorems hold of a record written under the name of a collection that was created. -/
example : (step demoEnv (run demoEnv (init 1 none none) [.createCollection false "docs" 1])
      (.upsert true false { id := "a", collection := "docs", vector := some [1] })).2 = .ok ∧
    (step demoEnv (run demoEnv (init 1 none none) [.createCollection false "docs" 1])
      (.upsertBatch true none [{ id := "a", collection := "docs", vector := some [1] },
        { id := "b", vector := some [1] }])).2 = .ok ∧
    (step demoEnv (init 1 none none) (.upsert true false { id := "a", collection := "no", vector := some [1] })).2 =
      .err .noCollection := by
  refine ⟨?_, ?_, ?_⟩ <;> decide +kernel

end Verif.Thm.StoreColl
