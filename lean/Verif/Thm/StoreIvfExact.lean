import Verif.Thm.StoreIvf
import Verif.Thm.StoreExact
import Verif.Thm.Train

/-!
C214: searching a store through its trained inverted file with all cells probed is exact: over a history of writes the index holds
the vector of every stored record (sharpening `C162_exact_partial` from ids to vectors), the index finds the nearest of what it
holds (`Ivf.search_spec`), and the search ranks what the index proposes.
-/
namespace Verif.Thm.StoreIvfExact
open Verif.Model.Store Verif.Model.Search Verif.Spec Verif.Base Verif.Thm.Search Verif.Thm.StoreIndex Verif.Thm.StoreIvf
open Verif.Thm.Store (WF run_wf init_wf find nodup_inj batchLoop_spec find_upsert ensureDefault_find clearRows_eq rowPayload written)
open Verif.Thm.StoreProps (InColl)
open Verif.Thm.StoreExact (topK_via filter_hits asked_pos)

variable {W : Type}

abbrev Iv (W : Type) (d : Nat) := { ix : Ivf.Index (List W) // Shape d ix }

/-! ### Specification -/

/-- The vector stored under an id. -/
def stored (db : DB W) (j : String) : Option (List W) := (find db j).map (fun r => r.vector)

/-- A trained index that lists exactly the vectors of `look`, each id once. -/
structure Good {d : Nat} (i : Iv W d) (look : String → Option (List W)) : Prop where
  trained : i.1.trained = true
  inv : Ivf.Inv i.1
  nodup : ((Ivf.entries i.1).map Prod.fst).Nodup
  mem : ∀ j v, (j, v) ∈ Ivf.entries i.1 ↔ look j = some v

/-- The index of the store, if there is one, is trained and lists exactly the stored vectors. -/
def Held {d : Nat} (s : St W Unit (Iv W d)) : Prop := ∀ i, s.ivf = some i → Good i (stored s.db)

/-- Each removal takes out the last entry of its cell. -/
def TidyAll {d : Nat} (env : Env W Unit (Iv W d)) : Iv W d → List String → Prop
  | _, [] => True
  | i, x :: xs => Ivf.Tidy i.1 (.delete x) ∧ TidyAll env (env.vDelete i x) xs

/-- Calls that leave the index equal to the table: writes under new ids of vectors of the right dimension, removals that reach the
index and take the last entry of a cell, removals that remove nothing, reopening with an index equal to the table. -/
def Follows {d : Nat} (env : Env W Unit (Iv W d)) (E : Ivf.Env (List W)) (s : St W Unit (Iv W d)) : Op W Unit (Iv W d) → Prop
  | .upsert fk f e => find s.db e.id = none ∧ ∀ r ∈ (upsert env s fk f e).1.db.embeddings, E.dim r.vector = d
  | .upsertBatch _ _ es => (es.map (fun e => e.id)).Nodup ∧ ∀ e ∈ es, find s.db e.id = none ∧ E.dim (e.vector.getD []) = d
  | .delete _ id => ∀ i, s.ivf = some i → TidyAll env i [id]
  | .deleteBatch f ids => (deleteBatch env s f ids).2 ≠ .err .io ∧
      ∀ i, s.ivf = some i → TidyAll env i (ids.filter (fun x => !isBlank x))
  | .deleteByFilter _ sel => ∀ p, sel = some p → ∀ i, s.ivf = some i →
      TidyAll env i ((s.db.embeddings.filter (fun r => p r.metadata == some true)).map (fun r => r.id))
  | .deleteDocument fk fault id => (s.closed = true ∨ Takes s fk fault id) ∧
      ∀ i, s.ivf = some i → TidyAll env i ((s.db.embeddings.filter (fun r => r.docID = some id)).map (fun r => r.id))
  | .reopen _ _ v => ∀ x, v = some x → Good x (stored s.db)
  | .deleteByDocID _ d => ∀ r ∈ s.db.embeddings, r.docID ≠ some d
  | .clear _ => s.db.embeddings = []
  | .clearByDocID _ ds => ∀ d ∈ ds, ∀ r ∈ s.db.embeddings, r.docID ≠ some d
  | .deleteCollection _ n => ∀ c ∈ s.db.collections, c.name = n → ∀ r ∈ s.db.embeddings, r.cid ≠ c.id
  | _ => True

/-! ### One index operation -/

variable {d : Nat} (adapt : List W → Nat → Nat → Option (List W)) (E : Ivf.Env (List W))

theorem good_look {i : Iv W d} {look look' : String → Option (List W)} (h : Good i look) (he : ∀ j, look' j = look j) :
    Good i look' := ⟨h.trained, h.inv, h.nodup, fun j v => by rw [he]; exact h.mem j v⟩

theorem good_add {i : Iv W d} {look : String → Option (List W)} (h : Good i look) (x : String) (v : List W) (hx : look x = none)
    (hv : E.dim v = d) : Good ((ivfEnv adapt d E).vAdd i x v) (fun j => if j = x then some v else look j) := by
  obtain ⟨ix', a1, a2, a3, a4, -, -, -⟩ := Ivf.add_spec E i.1 x v h.inv h.trained (hv.trans i.2.1.symm)
  have he : ((ivfEnv adapt d E).vAdd i x v).1 = ix' := by simp [ivfEnv, a1, kept]
  refine ⟨by rw [he]; exact a4, by rw [he]; exact a2, ?_, ?_⟩
  · rw [he, a3, List.map_append, List.nodup_append]
    refine ⟨h.nodup, by simp, ?_⟩
    intro a ha b hb hab
    simp only [List.map_cons, List.map_nil, List.mem_singleton] at hb
    subst hb; subst hab
    obtain ⟨⟨j, w⟩, hm, rfl⟩ := List.mem_map.1 ha
    have := (h.mem j w).1 hm
    rw [hx] at this; cases this
  · intro j w
    rw [he, a3, List.mem_append, List.mem_singleton, h.mem j w]
    by_cases hj : j = x
    · subst hj
      simp only [hx, if_true, Prod.mk.injEq, true_and, Option.some.injEq, reduceCtorEq, false_or]
      exact eq_comm
    · simp [hj]

theorem good_delete (hE : E.Sound) {i : Iv W d} {look : String → Option (List W)} (h : Good i look) (x : String)
    (ht : Ivf.Tidy i.1 (.delete x)) : Good ((ivfEnv adapt d E).vDelete i x) (fun j => if j = x then none else look j) := by
  obtain ⟨ix', a1, a2, ⟨a3, a4⟩, -, -⟩ := Ivf.step_spec E hE i.1 (.delete x) ⟨true, Ivf.entries i.1⟩ h.inv ⟨h.trained, rfl⟩ ht
  have he : ((ivfEnv adapt d E).vDelete i x).1 = ix' := by
    show kept i.1 (Ivf.delete i.1 x) = ix'
    simp only [Ivf.step] at a1
    cases hd : Ivf.delete i.1 x with
    | ok y => rw [hd] at a1; exact Option.some.inj a1
    | error f =>
      rw [hd] at a1
      cases f with
      | err => exact Option.some.inj a1
      | panic => cases a1
  simp only [Ivf.effect, if_true] at a3 a4
  have hp : (Ivf.entries i.1).Pairwise (fun a b => a.1 ≠ b.1) := List.pairwise_map.1 h.nodup
  refine ⟨by rw [he]; exact a3, by rw [he]; exact a2, ?_, ?_⟩
  · rw [he, a4]
    exact h.nodup.sublist ((List.eraseP_sublist).map _)
  · intro j w
    rw [he, a4]
    have key : ∀ l : List (String × List W), l.Pairwise (fun a b => a.1 ≠ b.1) →
        ((j, w) ∈ l.eraseP (fun e => decide (e.1 = x)) ↔ (j, w) ∈ l ∧ j ≠ x) := by
      intro l
      induction l with
      | nil => simp
      | cons a l ih =>
        intro hl
        rw [List.pairwise_cons] at hl
        rw [List.eraseP_cons]
        by_cases ha : a.1 = x
        · simp only [ha, decide_true, cond_true, List.mem_cons]
          constructor
          · intro hm
            refine ⟨Or.inr hm, fun hj => hl.1 _ hm ?_⟩
            rw [ha]; exact hj.symm
          · rintro ⟨rfl | hm, hj⟩
            · exact absurd ha hj
            · exact hm
        · simp only [ha, decide_false, cond_false, List.mem_cons, ih hl.2]
          constructor
          · rintro (rfl | hm)
            · exact ⟨Or.inl rfl, ha⟩
            · exact ⟨Or.inr hm.1, hm.2⟩
          · rintro ⟨rfl | hm, hj⟩
            · exact Or.inl rfl
            · exact Or.inr ⟨hm, hj⟩
    rw [key _ hp, h.mem]
    by_cases hj : j = x <;> simp [hj]

theorem good_fold_delete (hE : E.Sound) (l : List String) : ∀ {i : Iv W d} {look : String → Option (List W)}, Good i look →
    TidyAll (ivfEnv adapt d E) i l → Good (l.foldl (ivfEnv adapt d E).vDelete i) (fun j => if j ∈ l then none else look j) := by
  induction l with
  | nil => intro i look h _; exact good_look h (fun j => by simp)
  | cons x l ih =>
    intro i look h ht
    refine good_look (ih (good_delete adapt E hE h x ht.1) ht.2) (fun j => ?_)
    by_cases h1 : j ∈ l <;> by_cases h2 : j = x <;> simp [h1, h2]

theorem good_fold_add (es : List (Emb W)) : ∀ {i : Iv W d} {look : String → Option (List W)}, Good i look →
    (es.map (fun e => e.id)).Nodup → (∀ e ∈ es, look e.id = none ∧ E.dim (e.vector.getD []) = d) →
    Good (es.foldl (fun i e => (ivfEnv adapt d E).vAdd i e.id (e.vector.getD [])) i)
      (fun j => match es.find? (fun e => e.id = j) with | some e => some (e.vector.getD []) | none => look j) := by
  induction es with
  | nil => intro i look h _ _; exact good_look h (fun j => by simp)
  | cons e es ih =>
    intro i look h hn he
    rw [List.map_cons, List.nodup_cons] at hn
    obtain ⟨h1, h2⟩ := he e List.mem_cons_self
    have := ih (good_add adapt E h e.id _ h1 h2) hn.2 (fun x hx => by
      refine ⟨?_, (he x (List.mem_cons_of_mem _ hx)).2⟩
      have : x.id ≠ e.id := fun heq => hn.1 (List.mem_map.2 ⟨x, hx, heq⟩)
      rw [if_neg this]; exact (he x (List.mem_cons_of_mem _ hx)).1)
    refine good_look this (fun j => ?_)
    rw [List.find?_cons]
    by_cases hj : e.id = j
    · subst hj
      have : es.find? (fun x => decide (x.id = e.id)) = none := by
        rw [List.find?_eq_none]
        intro x hx hxe
        exact hn.1 (List.mem_map.2 ⟨x, hx, by simpa using hxe⟩)
      simp [this]
    · have hj' : ¬ j = e.id := fun h => hj h.symm
      simp [hj, hj']

/-! ### One step of the store -/

theorem held_same {s s' : St W Unit (Iv W d)} (H : Held s) (hi : s'.ivf = s.ivf) (hs : ∀ j, find s'.db j = find s.db j) : Held s' := by
  intro i hh
  exact good_look (H i (hi ▸ hh)) (fun j => by unfold stored; rw [hs])

theorem held_rows {s s' : St W Unit (Iv W d)} (H : Held s) (hi : s'.ivf = s.ivf) (hs : s'.db.embeddings = s.db.embeddings) : Held s' :=
  held_same H hi (fun j => by unfold find; rw [hs])

theorem held_delete (hE : E.Sound) {s s' : St W Unit (Iv W d)} (H : Held s) (l : List String)
    (hi : s'.ivf = s.ivf.map (fun h => l.foldl (ivfEnv adapt d E).vDelete h))
    (hs : ∀ j, find s'.db j = if j ∈ l then none else find s.db j)
    (ht : ∀ i, s.ivf = some i → TidyAll (ivfEnv adapt d E) i l) : Held s' := by
  intro i hh
  rw [hi] at hh
  obtain ⟨i0, h0, rfl⟩ := Option.map_eq_some_iff.1 hh
  refine good_look (good_fold_delete adapt E hE l (H i0 h0) (ht i0 h0)) (fun j => ?_)
  unfold stored
  rw [hs]
  split <;> rfl

theorem step_held (hE : E.Sound) (s : St W Unit (Iv W d)) (wf : WF s.db) (op : Op W Unit (Iv W d))
    (hk : Follows (ivfEnv adapt d E) E s op) (H : Held s) : Held (step (ivfEnv adapt d E) s op).1 := by
  cases op with
  | upsert fk f e =>
    rcases StoreIvf.upsert_split (ivfEnv adapt d E) s fk f e with ⟨_, h1, h2⟩ | ⟨row, hid, h1, h2⟩
    · exact held_rows H h2 (by rw [step, h1])
    · intro i hi
      rw [step, h2] at hi
      obtain ⟨i0, h3, rfl⟩ := Option.map_eq_some_iff.1 hi
      have g := H i0 h3
      have hf : ∀ j, find (step (ivfEnv adapt d E) s (.upsert fk f e)).1.db j = if j = row.id then some row else find s.db j := by
        intro j
        rw [step, h1]; exact find_upsert (fun r : Row W => r.id) s.db.embeddings row j
      have htr : (ivfEnv adapt d E).vTrained i0 = true := g.trained
      rw [htr, if_pos rfl]
      have hn : stored s.db row.id = none := by
        unfold stored; rw [hid, hk.1]; rfl
      refine good_look (good_add adapt E g row.id row.vector hn (hk.2 row (by rw [h1]; simp))) (fun j => ?_)
      unfold stored
      rw [hf]
      split <;> rfl
  | upsertBatch fk f es =>
    rcases StoreIvf.batch_split (ivfEnv adapt d E) s fk f es with h1 | ⟨h1, h2⟩
    · rw [step, h1]; exact H
    · intro i hi
      rw [step, h2] at hi
      obtain ⟨i0, h3, rfl⟩ := Option.map_eq_some_iff.1 hi
      have g := H i0 h3
      have htr : (ivfEnv adapt d E).vTrained i0 = true := g.trained
      rw [htr, if_pos rfl]
      refine good_look (good_fold_add adapt E es g hk.1 (fun e he => ⟨?_, (hk.2 e he).2⟩)) (fun j => ?_)
      · unfold stored; rw [(hk.2 e he).1]; rfl
      · obtain ⟨_, _, _, hf⟩ := batchLoop_spec h1
        unfold stored
        rw [step]
        rcases hf j with ⟨pre, e, post, v, he2, hid, hpost, hv, hp⟩ | ⟨hno, heq⟩
        · have hfind : es.find? (fun e => decide (e.id = j)) = some e := by
            have hnd := hk.1
            rw [he2] at hnd ⊢
            rw [List.map_append, List.map_cons, List.nodup_append] at hnd
            rw [List.find?_append]
            have : pre.find? (fun e => decide (e.id = j)) = none := by
              rw [List.find?_eq_none]
              intro x hx hxe
              exact hnd.2.2 x.id (List.mem_map.2 ⟨x, hx, rfl⟩) e.id List.mem_cons_self ((of_decide_eq_true hxe).trans hid.symm)
            simp [this, hid]
          rw [hfind]
          obtain ⟨r, hr, hrp⟩ := Option.map_eq_some_iff.1 hp
          rw [hr]
          simp only [Option.map_some, hv, Option.getD_some, Option.some.injEq]
          exact congrArg Verif.Thm.Store.Payload.vector hrp
        · have : es.find? (fun e => decide (e.id = j)) = none := by
            rw [List.find?_eq_none]
            intro x hx hxe
            exact hno x hx (of_decide_eq_true hxe)
          rw [this, heq]
  | delete f id =>
    rw [step]
    unfold delete
    split
    · exact H
    · split
      · exact H
      · split
        · exact H
        · split
          · refine held_delete adapt E hE H [id] rfl ?_ hk
            exact find_drop wf rfl [id] (fun r _ => by simp)
          · exact H
  | deleteByDocID f d =>
    rw [step]; unfold deleteByDocID
    split
    · exact H
    · split
      · exact H
      · split
        · exact H
        · refine held_rows H rfl ?_
          exact List.filter_eq_self.2 fun r hr => by simpa using hk r hr
  | deleteBatch f l =>
    rw [step]
    rcases StoreIvf.deleteBatch_split (ivfEnv adapt d E) s f l hk.1 with ⟨h1, h2⟩ | ⟨gone, h1, h2, h3⟩
    · exact held_rows H h2 h1
    · refine held_delete adapt E hE H _ h3 ?_ hk.2
      refine find_drop wf h2 _ ?_
      intro r _
      simp only [List.contains_eq_mem, List.mem_filter, Bool.not_eq_true', Bool.not_eq_false', decide_eq_true_eq]
      exact h1 r.id
  | deleteByFilter f sel =>
    rw [step]; unfold deleteByFilter
    split
    · exact H
    · rename_i p
      split
      · exact H
      · split
        · exact H
        · simp only []
          split
          · exact H
          · split
            · exact H
            · refine held_delete adapt E hE H _ rfl ?_ (hk p rfl)
              refine find_drop wf rfl _ ?_
              intro r hr
              constructor
              · intro hq
                exact List.mem_map.2 ⟨r, List.mem_filter.2 ⟨hr, by simpa using hq⟩, rfl⟩
              · intro hin
                obtain ⟨x, hx, he⟩ := List.mem_map.1 hin
                obtain ⟨h3, h4⟩ := List.mem_filter.1 hx
                have := nodup_inj (fun r : Row W => r.id) wf.embIds h3 hr he
                subst this
                simpa using h4
  | clear f =>
    rw [step]; unfold clear
    split
    · exact H
    · split
      · exact H
      · exact held_rows H rfl (Eq.symm hk)
  | clearByDocID f ds =>
    rw [step]; unfold clearByDocID
    split
    · exact H
    · split
      · exact H
      · split
        · exact H
        · refine held_rows H rfl ?_
          simp only []
          rw [clearRows_eq]
          refine List.filter_eq_self.2 fun r hr => ?_
          simp only [Bool.not_eq_true', List.any_eq_false]
          intro d hd
          have := hk d hd r hr
          simp [this]
  | createCollection f n d =>
    rw [step]; unfold createCollection
    repeat' split
    all_goals exact H
  | deleteCollection f n =>
    rw [step]; unfold deleteCollection
    split
    · exact H
    · split
      · exact H
      · rename_i c hc
        split
        · exact H
        · refine held_rows H rfl ?_
          refine List.filter_eq_self.2 fun r hr => ?_
          have := hk c (List.mem_of_find?_eq_some hc) (by simpa using List.find?_some hc) r hr
          simpa using this
  | createDocument f d =>
    rw [step]; unfold createDocument
    repeat' split
    all_goals exact H
  | updateDocument f d =>
    rw [step]; unfold updateDocument
    repeat' split
    all_goals exact H
  | deleteDocument fk f id =>
    rw [step]
    rcases StoreIvf.deleteDocument_split (ivfEnv adapt d E) s fk f id hk.1 with ⟨h1, h2⟩ | h
    · refine held_delete adapt E hE H _ h2 ?_ hk.2
      refine find_drop wf h1 _ ?_
      intro r hr
      constructor
      · intro hq
        exact List.mem_map.2 ⟨r, List.mem_filter.2 ⟨hr, by simpa using hq⟩, rfl⟩
      · intro hin
        obtain ⟨x, hx, he⟩ := List.mem_map.1 hin
        obtain ⟨h5, h6⟩ := List.mem_filter.1 hx
        have := nodup_inj (fun r : Row W => r.id) wf.embIds h5 hr he
        subst this
        simpa using h6
    · rw [h]; exact H
  | close => exact H
  | reopen dim h v =>
    intro x hx
    refine good_look (hk x hx) (fun j => ?_)
    show stored (ensureDefault s.db dim) j = _
    unfold stored
    rw [ensureDefault_find]

/-- C214 (partial): after any history of writes under new ids and removals of the last entry of a cell, the trained index lists the
vector of every stored record, once, and nothing else. Missing: rewritten ids (`C162_update_violated`), removals from the middle of a
cell (`C34_delete_loses_next_violated`) and removals that do not reach the index. -/
theorem C214_vectors_partial (hE : E.Sound) (ops : List (Op W Unit (Iv W d))) (s : St W Unit (Iv W d)) (wf : WF s.db) (H : Held s)
    (hk : Along (ivfEnv adapt d E) (Follows (ivfEnv adapt d E) E) s ops) : Held (run (ivfEnv adapt d E) s ops) := by
  induction ops generalizing s with
  | nil => exact H
  | cons op ops ih =>
    exact ih (step (ivfEnv adapt d E) s op).1 (run_wf _ s wf [op]) (step_held adapt E hE s wf op hk.1 H) hk.2

/-- C214: training is a start for such histories: on an open store in inverted-file mode with at least as many records as cells, all of
the store's dimension, training succeeds, whatever the random numbers and whatever the index before, and leaves an index that lists
exactly the stored vectors. -/
theorem C214_trained (E : Ivf.Env (List ℚ)) (hE : E.dim = List.length) (R : Train.Rand) (db : DB ℚ) (wf : WF db) (t : Train.St)
    (hrows : t.rows = db.embeddings.map (fun r => (r.id, r.vector))) (num : Int) (hcl : t.closed = false) (hm : t.ivfMode = true)
    (hd : 0 < t.dim) (hf : Train.Fits t) (hle : Train.centroidsOr num t.cfgCent ≤ db.embeddings.length)
    (hv : ∀ r ∈ db.embeddings, r.vector.length = t.dim) (hR : R.Fair (t.rows.map Prod.snd)) :
    (Train.trainIndex E R true t num).1 = .ok ∧ (Train.trainIndex E R true t num).2.rows = t.rows ∧
    ∃ i : Iv ℚ (Train.trainIndex E R true t num).2.dim, (Train.trainIndex E R true t num).2.ivf = some i.1 ∧ Good i (stored db) := by
  obtain ⟨h1, ⟨ix, h2, h3, h4⟩, h5, h6⟩ := Train.C169_trained E hE R t num hcl hm hd hf (by rw [hrows]; simpa using hle)
    (by rw [hrows]; intro r hr; obtain ⟨x, hx, rfl⟩ := List.mem_map.1 hr; exact hv x hx) hR
  refine ⟨h1, h5, ?_⟩
  obtain ⟨hi, hdim⟩ := h6 ix h2
  have hshape : Shape (Train.trainIndex E R true t num).2.dim ix :=
    ⟨hdim, fun ht => ⟨by rw [hi.lists]; exact hi.pos, by rw [hi.lists, hi.cents ht]⟩⟩
  refine ⟨⟨ix, hshape⟩, h2, h3, hi, ?_, ?_⟩
  · show ((Ivf.entries ix).map Prod.fst).Nodup
    rw [h4, hrows, List.map_map]
    exact wf.embIds
  · intro j v
    show (j, v) ∈ Ivf.entries ix ↔ _
    rw [h4, hrows, List.mem_map]
    unfold stored
    constructor
    · rintro ⟨r, hr, he⟩
      cases he
      rw [mem_find wf hr]; rfl
    · intro h
      obtain ⟨r, hr, rfl⟩ := Option.map_eq_some_iff.1 h
      exact ⟨r, (find_mem hr).1, by rw [(find_mem hr).2]⟩

/-! ### The search -/

/-- What the index proposes, `none` for an error. -/
def proposals (i : Iv W d) (q : List W) (k : Int) : Option (List String) :=
  match Ivf.search E i.1 q k.toNat with
  | .ok out => some (out.map Prod.fst)
  | .error _ => none

theorem proposals_spec (hE : E.Sound) (db : DB W) (wf : WF db) (i : Iv W d) (g : Good i (stored db))
    (hprobe : i.1.ncent ≤ i.1.nprobe) (q : List W) (k : Int) :
    Ivf.search E i.1 q k.toNat ≠ .error .panic ∧ ∀ ids, proposals E i q k = some ids →
      min k.toNat db.embeddings.length ≤ (db.embeddings.filter (fun r => decide (r.id ∈ ids))).length ∧
      ∀ r ∈ db.embeddings, r.id ∉ ids → ∀ x ∈ db.embeddings, x.id ∈ ids → E.dist q x.vector ≤ E.dist q r.vector := by
  by_cases hd : E.dim q = i.1.dimension
  swap
  · have he : Ivf.search E i.1 q k.toNat = .error .err := by
      unfold Ivf.search
      rw [if_neg (by rw [g.trained]; decide), if_pos hd]
    exact ⟨by rw [he]; simp, fun ids h => by unfold proposals at h; rw [he] at h; cases h⟩
  obtain ⟨out, pool, b1, -, b3, b4⟩ := Ivf.search_spec E hE i.1 q k.toNat g.inv g.trained hd
  have b4 := b4 hprobe
  refine ⟨by rw [b1]; simp, fun ids h => ?_⟩
  unfold proposals at h
  rw [b1] at h
  obtain rfl : out.map Prod.fst = ids := Option.some.inj h
  have hpool : ∀ x : String × ℚ, x ∈ pool ↔ ∃ r ∈ db.embeddings, r.id = x.1 ∧ x.2 = E.dist q r.vector := by
    intro x
    rw [b4.mem_iff, List.mem_map]
    constructor
    · rintro ⟨⟨j, v⟩, hm, rfl⟩
      have := (g.mem j v).1 hm
      obtain ⟨r, hr, rfl⟩ := Option.map_eq_some_iff.1 this
      exact ⟨r, (find_mem hr).1, (find_mem hr).2, rfl⟩
    · rintro ⟨r, hr, h1, h2⟩
      refine ⟨(r.id, r.vector), (g.mem _ _).2 ?_, Prod.ext h1 h2.symm⟩
      unfold stored
      rw [mem_find wf hr]; rfl
  obtain ⟨rest, hp, hbest⟩ := b3.best
  have hnodup : (pool.map Prod.fst).Nodup := by
    have h1 := b4.map Prod.fst
    rw [h1.nodup_iff, List.map_map]
    exact g.nodup
  have hnd : (out.map Prod.fst).Nodup := by
    have : ((out ++ rest).map Prod.fst).Nodup := ((hp.map Prod.fst).nodup_iff).2 hnodup
    rw [List.map_append] at this
    exact (List.nodup_append.1 this).1
  have hmem : ∀ x ∈ out, ∃ r ∈ db.embeddings, r.id = x.1 ∧ x.2 = E.dist q r.vector :=
    fun x hx => (hpool x).1 (hp.mem_iff.1 (List.mem_append_left _ hx))
  refine ⟨?_, ?_⟩
  · have e1 : (out.map Prod.fst).length ≤
        ((db.embeddings.filter (fun r => decide (r.id ∈ out.map Prod.fst))).map (fun r => r.id)).length := by
      refine (List.subperm_of_subset hnd ?_).length_le
      intro j hj
      obtain ⟨t, ht, rfl⟩ := List.mem_map.1 hj
      obtain ⟨r, hr, hid, -⟩ := hmem t ht
      refine List.mem_map.2 ⟨r, List.mem_filter.2 ⟨hr, ?_⟩, hid⟩
      rw [decide_eq_true_eq, hid]
      exact hj
    have e2 : (db.embeddings.map (fun r => r.id)).length ≤ (pool.map Prod.fst).length := by
      refine (List.subperm_of_subset wf.embIds ?_).length_le
      intro j hj
      obtain ⟨r, hr, rfl⟩ := List.mem_map.1 hj
      exact List.mem_map.2 ⟨(r.id, _), (hpool _).2 ⟨r, hr, rfl, rfl⟩, rfl⟩
    have e3 := b3.size
    simp only [List.length_map] at e1 e2
    omega
  · intro r hr hrp x hxm hxp
    obtain ⟨t, ht, hid⟩ := List.mem_map.1 hxp
    obtain ⟨x', hx', hid', hd'⟩ := hmem t ht
    obtain rfl : x' = x := nodup_inj (fun r : Row W => r.id) wf.embIds hx' hxm (hid'.trans hid)
    have hin : (r.id, E.dist q r.vector) ∈ out ++ rest := hp.mem_iff.2 ((hpool _).2 ⟨r, hr, rfl, rfl⟩)
    rcases List.mem_append.1 hin with hin | hin
    · exact absurd (List.mem_map.2 ⟨_, hin, rfl⟩) hrp
    · have := hbest _ hin t ht
      simp only [hd'] at this
      linarith

theorem defaultK_idem (k : Int) : defaultK (defaultK k) = defaultK k := by by_cases h : k ≤ 0 <;> simp [defaultK, h]

theorem linear_default (c : Cfg W) (db : DB W) (q : List W) (o : Opts) :
    searchLinear c db q { o with topK := defaultK o.topK } = searchLinear c db q o := by
  unfold searchLinear scoreCandidates fetchCandidates
  simp only [defaultK_idem]
  rfl

/-- The search through the inverted file is the linear search when the index answers nothing, and the search among the proposals
otherwise. -/
theorem through {HI VI : Type} (c : Cfg W) (s : St W HI VI) (p : List W → Int → Option (List String)) (query q : List W) (o : Opts)
    (hq : prepareQuery c s query = .ok q) :
    ((p q (defaultK o.topK * 4) = none ∨ p q (defaultK o.topK * 4) = some []) ∧
        search c (.ivf p) s query o = search c .linear s query o) ∨
      ∃ ids, p q (defaultK o.topK * 4) = some ids ∧ ids ≠ [] ∧
        search c (.ivf p) s query o = search c (.hnsw (fun _ _ => ids)) s query o := by
  unfold search
  rw [hq]
  simp only [serve, searchWithIVF, searchWithHNSW]
  cases hp : p q (defaultK o.topK * 4) with
  | none => left; exact ⟨Or.inl rfl, by rw [linear_default]⟩
  | some ids =>
    cases ids with
    | nil => left; exact ⟨Or.inr rfl, by simp [linear_default]⟩
    | cons a l => right; exact ⟨a :: l, rfl, by simp, by simp⟩

theorem asked_four (o : Opts) : (defaultK o.topK * 4).toNat = 4 * asked o := by
  unfold defaultK asked; split <;> omega

open Classical in
/-- C214 (partial): a store whose index holds the stored vectors, searched through the index with all cells probed and without
collection, filter, threshold or text weight, returns exactly the `k` best of all stored records, if a vector nearer for the index is
never less similar for the store; the index never panics. Missing: fewer cells probed (`C214_probe_violated`) and the histories
excluded by `Follows`. -/
theorem C214_exact_partial (hE : E.Sound) (ops : List (Op W Unit (Iv W d))) (s0 : St W Unit (Iv W d)) (wf0 : WF s0.db) (H0 : Held s0)
    (hk : Along (ivfEnv adapt d E) (Follows (ivfEnv adapt d E) E) s0 ops)
    (i : Iv W d) (hi : (run (ivfEnv adapt d E) s0 ops).ivf = some i) (hprobe : i.1.ncent ≤ i.1.nprobe)
    (c : Cfg W) (hsort : SortsDesc c.sort) (hts : c.textSim = none) (hsim : ∀ q a b, E.dist q a ≤ E.dist q b → c.sim q b ≤ c.sim q a)
    (query : List W) (o : Opts) (hc : o.collection = "") (hf : o.filter = []) (hth : o.threshold ≤ 0) (out : List (Hit W))
    (hs : search c (.ivf (proposals E i)) (run (ivfEnv adapt d E) s0 ops) query o = .ok out) :
    ∃ q, prepareQuery c (run (ivfEnv adapt d E) s0 ops) query = .ok q ∧
      Ivf.search E i.1 q (4 * asked o) ≠ .error .panic ∧
      IsTopK (fun x : Hit W => x.score)
        ((run (ivfEnv adapt d E) s0 ops).db.embeddings.map (hitOf c (run (ivfEnv adapt d E) s0 ops).db o q)) (asked o) out ∧
      ∀ x ∈ out, x.score = c.sim q x.vector := by
  have H := C214_vectors_partial adapt E hE ops s0 wf0 H0 hk
  have wf := run_wf (ivfEnv adapt d E) s0 wf0 ops
  generalize run (ivfEnv adapt d E) s0 ops = s at *
  have hscore : ∀ q x, combine c o q x = c.sim q x.vector := by
    intro q x; simp [combine, hts]
  obtain ⟨q, hq, -⟩ := prepared hs
  obtain ⟨hpanic, hprop⟩ := proposals_spec E hE s.db wf i (H i hi) hprobe q (defaultK o.topK * 4)
  rw [asked_four] at hpanic hprop
  refine ⟨q, hq, hpanic, ?_⟩
  have hall : IsTopK (fun x : Hit W => x.score) (s.db.embeddings.map (hitOf c s.db o q)) (asked o) out := by
    rcases through c s (proposals E i) query q o hq with ⟨-, he⟩ | ⟨ids, hp, hne, he⟩
    · rw [he] at hs
      obtain ⟨q', hq', t⟩ := C09_linear_topK c hsort s wf query o out hs
      obtain rfl : q' = q := by rw [hq] at hq'; injection hq' with h; exact h.symm
      rwa [List.filter_eq_self.2] at t
      intro r _
      simp [InScope, FilterOK, hc, hf, not_lt.2 hth]
    · rw [he] at hs
      have t := C09_index_topK c hsort s wf (fun _ _ => ids) query q o out hq hne hs
      have hpool : (s.db.embeddings.filter (fun r => r.id ∈ ids ∧
          (o.collection ≠ "" → InColl s.db r o.collection) ∧
          (∀ kv ∈ o.filter, kv.1 ≠ "doc_id" → MetaHas r.metadata kv.1 kv.2) ∧
          (0 < o.threshold → o.threshold ≤ combine c o q (scan s.db r)))) =
          s.db.embeddings.filter (fun r => decide (r.id ∈ ids)) := by
        apply List.filter_congr
        intro r _
        rw [Bool.eq_iff_iff]
        simp [hc, hf, not_lt.2 hth]
      rw [hpool, ← filter_hits] at t
      obtain ⟨p2, p3⟩ := hprop ids hp
      refine topK_via _ _ _ _ (4 * asked o) (by omega) out t ?_ ?_
      · rw [filter_hits, List.length_map, List.length_map]; exact p2
      · intro r hr hrp x hxm hxp
        obtain ⟨r', hr', rfl⟩ := List.mem_map.1 hr
        obtain ⟨x', hx', rfl⟩ := List.mem_map.1 hxm
        show combine c o q _ ≤ combine c o q _
        rw [hscore, hscore]
        exact hsim q _ _ (p3 r' hr' (of_decide_eq_false hrp) x' hx' (of_decide_eq_true hxp))
  refine ⟨hall, ?_⟩
  intro x hxo
  obtain ⟨rest, hp, -⟩ := hall.best
  obtain ⟨r, -, rfl⟩ := List.mem_map.1 (hp.mem_iff.1 (List.mem_append_left _ hxo))
  exact hscore q _

open Classical in
/-- C214 (partial): when four times the number of results asked for reaches the number of stored records, the index proposes all of
them, so that the search returns exactly the best records of the collection that match the filter and the threshold, whatever the
similarity. Missing: as above, and the filter key `doc_id`, which the index path ignores. -/
theorem C214_scope_partial (hE : E.Sound) (ops : List (Op W Unit (Iv W d))) (s0 : St W Unit (Iv W d)) (wf0 : WF s0.db) (H0 : Held s0)
    (hk : Along (ivfEnv adapt d E) (Follows (ivfEnv adapt d E) E) s0 ops)
    (i : Iv W d) (hi : (run (ivfEnv adapt d E) s0 ops).ivf = some i) (hprobe : i.1.ncent ≤ i.1.nprobe)
    (c : Cfg W) (hsort : SortsDesc c.sort) (query : List W) (o : Opts)
    (hbig : (run (ivfEnv adapt d E) s0 ops).db.embeddings.length ≤ 4 * asked o)
    (hdoc : ∀ kv ∈ o.filter, kv.1 ≠ "doc_id") (out : List (Hit W))
    (hs : search c (.ivf (proposals E i)) (run (ivfEnv adapt d E) s0 ops) query o = .ok out) :
    ∃ q, prepareQuery c (run (ivfEnv adapt d E) s0 ops) query = .ok q ∧
      IsTopK (fun x : Hit W => x.score)
        (((run (ivfEnv adapt d E) s0 ops).db.embeddings.filter (fun r =>
            InScope (run (ivfEnv adapt d E) s0 ops).db o r ∧
            (0 < o.threshold → o.threshold ≤ combine c o q (scan (run (ivfEnv adapt d E) s0 ops).db r)))).map
          (hitOf c (run (ivfEnv adapt d E) s0 ops).db o q)) (asked o) out := by
  have H := C214_vectors_partial adapt E hE ops s0 wf0 H0 hk
  have wf := run_wf (ivfEnv adapt d E) s0 wf0 ops
  generalize run (ivfEnv adapt d E) s0 ops = s at *
  obtain ⟨q, hq, -⟩ := prepared hs
  obtain ⟨-, hprop⟩ := proposals_spec E hE s.db wf i (H i hi) hprobe q (defaultK o.topK * 4)
  rw [asked_four] at hprop
  refine ⟨q, hq, ?_⟩
  rcases through c s (proposals E i) query q o hq with ⟨-, he⟩ | ⟨ids, hp, hne, he⟩
  · rw [he] at hs
    obtain ⟨q', hq', t⟩ := C09_linear_topK c hsort s wf query o out hs
    obtain rfl : q' = q := by rw [hq] at hq'; injection hq' with h; exact h.symm
    exact t
  · rw [he] at hs
    have t := C09_index_topK c hsort s wf (fun _ _ => ids) query q o out hq hne hs
    obtain ⟨p2, -⟩ := hprop ids hp
    have hin : ∀ r ∈ s.db.embeddings, r.id ∈ ids := by
      intro r hr
      have := List.length_filter_eq_length_iff.1 (le_antisymm (List.length_filter_le _ _) (by omega :
        s.db.embeddings.length ≤ (s.db.embeddings.filter (fun r => decide (r.id ∈ ids))).length)) r hr
      simpa using this
    have hpool : (s.db.embeddings.filter (fun r => r.id ∈ ids ∧
          (o.collection ≠ "" → InColl s.db r o.collection) ∧
          (∀ kv ∈ o.filter, kv.1 ≠ "doc_id" → MetaHas r.metadata kv.1 kv.2) ∧
          (0 < o.threshold → o.threshold ≤ combine c o q (scan s.db r)))) =
        s.db.embeddings.filter (fun r => InScope s.db o r ∧ (0 < o.threshold → o.threshold ≤ combine c o q (scan s.db r))) := by
      apply List.filter_congr
      intro r hr
      rw [Bool.eq_iff_iff]
      simp only [decide_eq_true_eq, InScope, filterOK_iff]
      constructor
      · rintro ⟨-, h1, h2, h3⟩
        exact ⟨⟨h1, fun kv hk hd => absurd hd (hdoc kv hk), h2⟩, h3⟩
      · rintro ⟨⟨h1, -, h2⟩, h3⟩
        exact ⟨hin r hr, h1, h2, h3⟩
    rw [hpool] at t
    exact t

/-! ### A concrete case -/

def lineIvf : Ivf.Env (List Nat) :=
  ⟨List.length, fun a b => ((a.sum - b.sum + (b.sum - a.sum) : Nat) : ℚ), 1000, fun l => insertSort (fun r => -r.2) l,
    fun vs n => vs.take n⟩

theorem lineIvf_sound : lineIvf.Sound := by
  constructor
  · intro l
    obtain ⟨h1, h2⟩ := insertSort_sorts (fun r : Nat × ℚ => -r.2) l
    exact ⟨h1, h2.imp (fun h => by linarith)⟩
  · intro vs k h
    simp [lineIvf, h]

def lineEnv : Env Nat Unit (Iv Nat 1) := ivfEnv (fun v _ n => some (v.take n)) 1 lineIvf

/-- A store with an index trained to two cells, both searched. -/
def lineStart : St Nat Unit (Iv Nat 1) :=
  init 1 none (some ⟨⟨2, 1, [[1], [9]], [[], []], [], [], true, 2⟩, rfl, fun _ => by decide⟩)

def lineOps : List (Op Nat Unit (Iv Nat 1)) :=
  [.upsert true false (StoreIvf.demoRecord "a" 1), .upsertBatch true none [StoreIvf.demoRecord "b" 5, StoreIvf.demoRecord "c" 9],
    .delete false "c"]

def lineCfg : Cfg Nat := { cfg0 with sim := fun a b => -((a.sum - b.sum + (b.sum - a.sum) : Nat) : ℚ) }

/-- The hypotheses hold of three writes and a removal, and the nearest record is returned. -/
example : Held lineStart ∧ Along lineEnv (Follows lineEnv lineIvf) lineStart lineOps ∧
    (∀ q a b, lineIvf.dist q a ≤ lineIvf.dist q b → lineCfg.sim q b ≤ lineCfg.sim q a) ∧
    ∃ i, (run lineEnv lineStart lineOps).ivf = some i ∧ i.1.ncent ≤ i.1.nprobe ∧
      ∃ out, search lineCfg (.ivf (proposals lineIvf i)) (run lineEnv lineStart lineOps) [8] { topK := 1 } = .ok out ∧
        out.map (fun x => x.id) = ["b"] := by
  refine ⟨?_, ⟨?_, ?_, ?_, trivial⟩, ?_, _, rfl, ?_, _, rfl, ?_⟩
  · intro i hi
    cases hi
    refine ⟨rfl, ⟨by decide, rfl, fun _ => rfl, rfl, by decide, by decide⟩, by decide, ?_⟩
    intro j v
    simp [Ivf.entries, stored, lineStart, init, find, ensureDefault]
  · exact ⟨rfl, by decide +kernel⟩
  · exact ⟨by decide +kernel, by decide +kernel⟩
  · intro i hi
    cases hi
    refine ⟨?_, trivial⟩
    intro vi hvi
    have : vi = 2 := by
      have : some vi = some 2 := hvi.symm.trans (by decide +kernel)
      exact Option.some.inj this
    subst this
    decide +kernel
  · intro q a b h
    exact neg_le_neg h
  · decide +kernel
  · decide +kernel

def trainDb : DB ℚ :=
  { collections := [⟨1, "default", 2⟩], nextColl := 2, documents := []
    embeddings := [⟨"a", 1, [5, 1], "", none, none, none⟩, ⟨"b", 1, [5, 3], "", none, none, none⟩, ⟨"c", 1, [9, 1], "", none, none, none⟩] }

/-- The hypotheses of `C214_trained` hold of the example of `C169_trained`. -/
example : Train.sampleStore.rows = trainDb.embeddings.map (fun r => (r.id, r.vector)) ∧
    (trainDb.embeddings.map (fun r => r.id)).Nodup ∧ (∀ r ∈ trainDb.embeddings, r.vector.length = Train.sampleStore.dim) ∧
    Train.centroidsOr 0 Train.sampleStore.cfgCent ≤ trainDb.embeddings.length := by
  refine ⟨rfl, by decide, by decide, by decide⟩

/-- The same store, searching the nearest cell only. -/
def narrowStart : St Nat Unit (Iv Nat 1) :=
  init 1 none (some ⟨⟨2, 1, [[1], [9]], [[], []], [], [], true, 1⟩, rfl, fun _ => by decide⟩)

/-- C214 is violated when not all cells are searched: of two stored records the search for one result returns the one that is
farther from the query, because the nearer one lies in the other cell. -/
theorem C214_probe_violated : ∃ i, (run lineEnv narrowStart [.upsert true false (StoreIvf.demoRecord "a" 1),
      .upsert true false (StoreIvf.demoRecord "b" 6)]).ivf = some i ∧
    ∃ out, search lineCfg (.ivf (proposals lineIvf i)) (run lineEnv narrowStart [.upsert true false (StoreIvf.demoRecord "a" 1),
      .upsert true false (StoreIvf.demoRecord "b" 6)]) [4] { topK := 1 } = .ok out ∧
      out.map (fun x => x.id) = ["a"] ∧ lineCfg.sim [4] [1] < lineCfg.sim [4] [6] := by
  refine ⟨_, rfl, _, rfl, ?_, ?_⟩ <;> decide +kernel

end Verif.Thm.StoreIvfExact
