import Verif.Model.Knowledge
import Verif.Thm.RagChunk

/-!
C69: what a failed save keeps. C85: what a successful save leaves. C86: re-ingesting a document. C87: deleting.
C71: grouping of hits.
-/
namespace Verif.Knowledge
open Verif.Base Verif.Rag Verif.Spec

/-! ### Lemmas about the steps -/

/-- What the calls keep true: chunk ids are those of their document, no id twice. -/
structure WF (s : State) : Prop where
  docs : (s.docs.map (·.id)).Nodup
  rows : (s.rows.map (·.id)).Nodup
  ids : ∀ r ∈ s.rows, ∃ i, r.id = chunkId r.doc i

theorem chunkRows_doc {sp : Char → Bool} {o : IngestOpts} {id c : Text} {r : Row} (h : r ∈ chunkRows sp o id c) :
    r.doc = id ∧ ∃ i, i < (ingestChunks sp c o).length ∧ r.id = chunkId id i := by
  unfold chunkRows at h
  obtain ⟨p, hp, rfl⟩ := List.mem_map.1 h
  have := List.mem_zipIdx hp
  exact ⟨rfl, p.2, by omega, rfl⟩

theorem zipIdx_ids {α : Type*} (f : Nat → Text) (l : List α) : ∀ k, (l.zipIdx k).map (fun p => f p.2) =
    (List.range' k l.length).map f := by
  induction l with
  | nil => simp
  | cons a l ih => intro k; simp [List.zipIdx_cons, ih, List.range'_succ]

theorem chunkRows_ids (sp : Char → Bool) (o : IngestOpts) (id c : Text) :
    (chunkRows sp o id c).map (·.id) = (List.range (ingestChunks sp c o).length).map (chunkId id) := by
  unfold chunkRows
  rw [List.map_map]
  have := zipIdx_ids (chunkId id) (ingestChunks sp c o) 0
  rw [List.range_eq_range']
  exact this

theorem chunkRows_nodup (sp : Char → Bool) (o : IngestOpts) (id c : Text) :
    ((chunkRows sp o id c).map (·.id)).Nodup := by
  rw [chunkRows_ids]; exact C72_document_chunks _ _

theorem putRows_eq (rs : List Row) (hn : (rs.map (·.id)).Nodup) : ∀ rows : List Row,
    rs.foldl putRow rows = rows.filter (fun x => !(rs.map (·.id)).contains x.id) ++ rs := by
  induction rs with
  | nil => intro rows; simp
  | cons r rs ih =>
    intro rows
    simp only [List.map_cons, List.nodup_cons] at hn
    rw [List.foldl_cons, ih hn.2, putRow, List.filter_append, List.filter_filter]
    have h1 : [r].filter (fun x => !(rs.map (·.id)).contains x.id) = [r] := by
      simp only [List.filter_cons, List.filter_nil]
      rw [if_pos]
      simpa using hn.1
    rw [h1]
    simp only [List.map_cons, List.append_assoc, List.singleton_append]
    congr 1
    apply List.filter_congr
    intro x _
    by_cases hx : x.id = r.id <;> simp [hx]

theorem foldl_addNode (rs : List Row) : ∀ s : State,
    (rs.foldl (fun s r => addNode r.id s) s).docs = s.docs ∧ (rs.foldl (fun s r => addNode r.id s) s).rows = s.rows := by
  induction rs with
  | nil => intro s; exact ⟨rfl, rfl⟩
  | cons r rs ih =>
    intro s
    have h : (addNode r.id s).docs = s.docs ∧ (addNode r.id s).rows = s.rows := by
      unfold addNode; split <;> exact ⟨rfl, rfl⟩
    rw [List.foldl_cons]
    exact ⟨(ih _).1.trans h.1, (ih _).2.trans h.2⟩

/-! ### Other items -/

/-- What a caller sees of the item `k`: its document and its chunks. -/
def view (s : State) (k : Text) : Option Doc × List Row := (getDoc s k, chunksOf s k)

/-- A step that leaves the view of every other item alone, on well formed states, and keeps them well formed. -/
def Local (id : Text) (f : Step) : Prop := ∀ s, WF s → WF (f s) ∧ ∀ k, k ≠ id → view (f s) k = view s k

theorem local_id (id : Text) : Local id _root_.id := fun _ h => ⟨h, fun _ _ => rfl⟩

theorem local_nodes (id : Text) (f : Step) (hd : ∀ s, (f s).docs = s.docs) (hr : ∀ s, (f s).rows = s.rows) :
    Local id f := by
  intro s h
  refine ⟨⟨by rw [hd]; exact h.docs, by rw [hr]; exact h.rows, by rw [hr]; exact h.ids⟩, fun k _ => ?_⟩
  simp [view, getDoc, chunksOf, hd, hr]

theorem find?_map_other {l : List Doc} (f : Doc → Doc) (k : Text) (h1 : ∀ d, (f d).id = d.id)
    (h2 : ∀ d, d.id = k → f d = d) : (l.map f).find? (fun d => d.id == k) = l.find? (fun d => d.id == k) := by
  induction l with
  | nil => rfl
  | cons a l ih =>
    simp only [List.map_cons, List.find?_cons, h1]
    by_cases ha : a.id = k
    · simp [ha, h2 a ha]
    · have hb : (a.id == k) = false := by simpa using ha
      simp only [hb, ih]

theorem local_docs_map (id : Text) (g : Doc → Doc) (h1 : ∀ d, (g d).id = d.id) (h2 : ∀ d, d.id ≠ id → g d = d)
    (s : State) (h : WF s) : WF { s with docs := s.docs.map g } ∧
      ∀ k, k ≠ id → view { s with docs := s.docs.map g } k = view s k := by
  refine ⟨⟨?_, h.rows, h.ids⟩, fun k hk => ?_⟩
  · have : (s.docs.map g).map (·.id) = s.docs.map (·.id) := by
      rw [List.map_map]; exact List.map_congr_left (fun d _ => h1 d)
    show ((s.docs.map g).map (·.id)).Nodup
    rw [this]; exact h.docs
  · simp only [view, getDoc, chunksOf]
    rw [find?_map_other g k h1 (fun d hd => h2 d (hd ▸ hk))]

theorem local_docs_add (d : Doc) (s : State) (h : WF s) (hn : s.docs.any (fun x => x.id == d.id) = false) :
    WF { s with docs := s.docs ++ [d] } ∧
      ∀ k, k ≠ d.id → view { s with docs := s.docs ++ [d] } k = view s k := by
  refine ⟨⟨?_, h.rows, h.ids⟩, fun k hk => ?_⟩
  · show ((s.docs ++ [d]).map (·.id)).Nodup
    rw [List.map_append, List.nodup_append]
    refine ⟨h.docs, by simp, ?_⟩
    intro a ha b hb
    obtain ⟨x, hx, rfl⟩ := List.mem_map.1 ha
    have := List.any_eq_false.1 hn x hx
    simp at hb this
    rw [hb]; exact this
  · have : d.id ≠ k := fun e => hk e.symm
    simp [view, getDoc, chunksOf, List.find?_append, this]

theorem local_docRecord (id t c : Text) : Local id (upsertDocRecord id t c) := by
  intro s h
  unfold upsertDocRecord
  by_cases ha : (s.docs.any fun d => d.id == id) = true
  · rw [if_pos ha]
    apply local_docs_map id _ _ _ s h
    · intro d; by_cases hd : d.id = id <;> simp [hd]
    · intro d hd; simp [hd]
  · rw [if_neg ha]
    exact local_docs_add ⟨id, t, c, 1⟩ s h (by simpa using ha)

theorem local_upsertRecord (d : Doc) : Local d.id (upsertRecord d) := by
  intro s h
  unfold upsertRecord
  by_cases ha : (s.docs.any fun x => x.id == d.id) = true
  · rw [if_pos ha]
    apply local_docs_map d.id _ _ _ s h
    · intro x; by_cases hx : x.id = d.id <;> simp [hx]
    · intro x hx; simp [hx]
  · rw [if_neg ha]
    exact local_docs_add d s h (by simpa using ha)

theorem local_dropDoc (fk : Bool) (id : Text) : Local id (dropDoc fk id) := by
  intro s h
  have hrows : ∀ r ∈ (dropDoc fk id s).rows, r ∈ s.rows := by
    intro r hr
    unfold dropDoc at hr
    cases fk
    · simpa using hr
    · simp at hr; exact hr.1
  refine ⟨⟨?_, ?_, fun r hr => h.ids r (hrows r hr)⟩, fun k hk => ?_⟩
  · exact h.docs.sublist (List.Sublist.map _ List.filter_sublist)
  · unfold dropDoc
    cases fk
    · exact h.rows
    · exact h.rows.sublist (List.Sublist.map _ List.filter_sublist)
  · have h1 : getDoc (dropDoc fk id s) k = getDoc s k := by
      simp only [getDoc, dropDoc, List.find?_filter]
      congr 1; funext d
      by_cases hd : d.id = k <;> simp [hd, hk]
    have h2 : chunksOf (dropDoc fk id s) k = chunksOf s k := by
      simp only [chunksOf, dropDoc]
      cases fk
      · rfl
      · simp only [if_true, List.filter_filter]
        apply List.filter_congr
        intro r _
        by_cases hr : r.doc = k <;> simp [hr, hk]
    simp [view, h1, h2]

theorem local_putRows (sp : Char → Bool) (o : IngestOpts) (id c : Text) :
    Local id (putRows (chunkRows sp o id c)) := by
  intro s h
  have he : (putRows (chunkRows sp o id c) s).rows =
      s.rows.filter (fun x => !((chunkRows sp o id c).map (·.id)).contains x.id) ++ chunkRows sp o id c :=
    putRows_eq _ (chunkRows_nodup _ _ _ _) _
  refine ⟨⟨h.docs, ?_, ?_⟩, fun k hk => ?_⟩
  · rw [he, List.map_append, List.nodup_append]
    refine ⟨h.rows.sublist (List.Sublist.map _ List.filter_sublist), chunkRows_nodup _ _ _ _, ?_⟩
    intro a ha b hb hab
    obtain ⟨x, hx, rfl⟩ := List.mem_map.1 ha
    have := (List.mem_filter.1 hx).2
    subst hab
    simp only [Bool.not_eq_true', List.contains_eq_mem, decide_eq_false_iff_not] at this
    exact this hb
  · rw [he]
    intro r hr
    rcases List.mem_append.1 hr with hr | hr
    · exact h.ids r (List.mem_filter.1 hr).1
    · obtain ⟨h1, i, _, h2⟩ := chunkRows_doc hr
      exact ⟨i, by rw [h1, h2]⟩
  · have h1 : chunksOf (putRows (chunkRows sp o id c) s) k = chunksOf s k := by
      simp only [chunksOf]
      rw [he, List.filter_append, List.filter_filter]
      have : (chunkRows sp o id c).filter (fun r => r.doc == k) = [] := by
        apply List.filter_eq_nil_iff.2
        intro r hr
        simp [(chunkRows_doc hr).1, Ne.symm hk]
      rw [this, List.append_nil]
      apply List.filter_congr
      intro r hr
      by_cases hd : r.doc = k
      · have : r.id ∉ (chunkRows sp o id c).map (·.id) := by
          intro hm
          obtain ⟨x, hx, hxe⟩ := List.mem_map.1 hm
          obtain ⟨_, i, _, hi⟩ := chunkRows_doc hx
          obtain ⟨j, hj⟩ := h.ids r hr
          rw [hi, hj] at hxe
          exact hk ((hd ▸ (C72_chunk_ids _ _ _ _ hxe).1).symm)
        simp only [List.contains_eq_mem, decide_eq_false this, Bool.not_false, Bool.and_true]
      · simp [hd]
    simp only [view, h1]
    rfl

theorem local_list {id : Text} {steps : List Step} (hs : ∀ f ∈ steps, Local id f) : ∀ s, WF s →
    WF (steps.foldl (fun s f => f s) s) ∧ ∀ k, k ≠ id → view (steps.foldl (fun s f => f s) s) k = view s k := by
  induction steps with
  | nil => intro s h; exact ⟨h, fun _ _ => rfl⟩
  | cons f fs ih =>
    intro s h
    have h1 := hs f List.mem_cons_self s h
    have h2 := ih (fun g hg => hs g (List.mem_cons_of_mem _ hg)) (f s) h1.1
    exact ⟨h2.1, fun k hk => (h2.2 k hk).trans (h1.2 k hk)⟩

theorem local_exec {id : Text} {steps : List Step} (hs : ∀ f ∈ steps, Local id f) (fault : Option Nat) (s : State)
    (h : WF s) : WF (exec steps fault s).1 ∧ ∀ k, k ≠ id → view (exec steps fault s).1 k = view s k := by
  unfold exec
  cases fault with
  | none => exact local_list hs s h
  | some n =>
    show WF (if n < steps.length then _ else _ : State × Bool).1 ∧ _
    by_cases hn : n < steps.length
    · simp only [hn, if_true]
      exact local_list (fun f hf => hs f (List.mem_of_mem_take hf)) s h
    · simp only [hn, if_false]
      exact local_list hs s h

theorem local_ingest (sp : Char → Bool) (o : IngestOpts) (id t c : Text) :
    ∀ f ∈ ingestSteps sp o id t c, Local id f := by
  intro f hf
  simp only [ingestSteps, List.mem_cons, List.not_mem_nil, or_false] at hf
  rcases hf with rfl | rfl | rfl | rfl | rfl | rfl | rfl
  · exact local_id _
  · exact local_docRecord _ _ _
  · apply local_nodes <;> intro s <;> unfold addNode <;> split <;> rfl
  · exact local_id _
  · exact local_putRows _ _ _ _
  · exact local_nodes _ _ (fun s => (foldl_addNode _ s).1) (fun s => (foldl_addNode _ s).2)
  · exact local_id _

theorem local_cleanup (fk : Bool) (s : State) (id : Text) : ∀ f ∈ cleanupSteps fk s id, Local id f := by
  intro f hf
  simp only [cleanupSteps, List.mem_cons, List.not_mem_nil, or_false] at hf
  rcases hf with rfl | rfl | rfl | rfl
  · exact local_id _
  · exact local_id _
  · exact local_nodes _ _ (fun _ => rfl) (fun _ => rfl)
  · exact local_dropDoc _ _

/-- The item a call is about. -/
def Op.target : Op → Text
  | .save q _ => q.id
  | .update q _ => q.id
  | .delete id _ => id
  | .ingest _ id _ _ _ => id

theorem local_step (sp : Char → Bool) (fk : Bool) (s : State) (op : Op) (h : WF s) :
    WF (step sp fk s op) ∧ ∀ k, k ≠ op.target → view (step sp fk s op) k = view s k := by
  have triv : ∀ t : Text, WF s ∧ ∀ k, k ≠ t → view s k = view s k := fun _ => ⟨h, fun _ _ => rfl⟩
  cases op with
  | save q f =>
    simp only [step, save, Op.target]
    split
    · exact triv _
    split
    · exact triv _
    apply local_exec _ _ _ h
    intro g hg
    simp only [saveSteps, List.mem_append, List.mem_singleton] at hg
    rcases hg with ((rfl | hg) | hg) | rfl
    · exact local_id _
    · cases hd : getDoc s q.id with
      | none => simp [hd] at hg
      | some d => rw [hd] at hg; exact local_cleanup _ _ _ g hg
    · exact local_ingest _ _ _ _ _ g hg
    · exact local_upsertRecord ⟨q.id, _, _, _⟩
  | update q f =>
    simp only [step, update, Op.target]
    split
    · exact triv _
    split
    · exact triv _
    rename_i d _
    have hfull : ∀ t c v, ∀ g ∈ [_root_.id] ++ cleanupSteps fk s q.id ++ ingestSteps sp q.opts q.id t c ++
        [upsertRecord ⟨q.id, t, c, v⟩], Local q.id g := by
      intro t c v g hg
      simp only [List.mem_append, List.mem_singleton] at hg
      rcases hg with ((rfl | hg) | hg) | rfl
      · exact local_id _
      · exact local_cleanup _ _ _ g hg
      · exact local_ingest _ _ _ _ _ g hg
      · exact local_upsertRecord ⟨q.id, _, _, _⟩
    split
    · split
      · exact triv _
      · exact local_exec (hfull _ _ _) _ _ h
    · split
      · exact local_exec (hfull _ _ _) _ _ h
      · apply local_exec _ _ _ h
        intro g hg
        simp only [List.mem_cons, List.not_mem_nil, or_false] at hg
        rcases hg with rfl | rfl
        · exact local_id _
        · exact local_upsertRecord ⟨q.id, _, _, _⟩
  | delete id f =>
    simp only [step, delete, Op.target]
    split
    · exact triv _
    split
    · exact triv _
    exact local_exec (local_cleanup _ _ _) _ _ h
  | ingest o id t c f =>
    simp only [step, insertGraphDocument, Op.target]
    split
    · exact triv _
    split
    · exact triv _
    split
    · exact triv _
    exact local_exec (local_ingest _ _ _ _ _) _ _ h

theorem wf_init : WF init := ⟨by simp [init], by simp [init], by simp [init]⟩

theorem wf_run (sp : Char → Bool) (fk : Bool) (ops : List Op) : ∀ s, WF s → WF (run sp fk s ops) := by
  induction ops with
  | nil => intro s h; exact h
  | cons op ops ih => intro s h; exact ih _ (local_step sp fk s op h).1

/-! ### C69 -/

/-- C69, proved part: whatever call is made, at whatever step it fails (or not), every item other than the one named
in the call keeps its document and its chunks. Ranges over all histories of calls and faults. The full C69 (the named
item also survives a failure) is false, see `C69_violated`. -/
theorem C69_others_partial (sp : Char → Bool) (fk : Bool) (hist : List Op) (op : Op) (k : Text) (hk : k ≠ op.target) :
    view (step sp fk (run sp fk init hist) op) k = view (run sp fk init hist) k :=
  (local_step sp fk _ op (wf_run sp fk hist init wf_init)).2 k hk

/-- C69, proved part: a save that fails in validation, or before the old item's removal starts, changes nothing. The
removal of the document is step 4, so up to there document and chunks are untouched (the graph nodes go at step 3). -/
theorem C69_early_partial (sp : Char → Bool) (fk : Bool) (s : State) (q : SaveReq) (d : Doc) (n : Nat)
    (hd : getDoc s q.id = some d) (hn : n ≤ 4) (k : Text) :
    (save sp fk (some n) s q).2 = false ∧ view (save sp fk (some n) s q).1 k = view s k ∧
      (n ≤ 3 → (save sp fk (some n) s q).1 = s) := by
  unfold save
  split
  · exact ⟨rfl, rfl, fun _ => rfl⟩
  split
  · exact ⟨rfl, rfl, fun _ => rfl⟩
  have hl : n < (saveSteps sp fk s q).length := by
    simp [saveSteps, hd, cleanupSteps, ingestSteps]; omega
  simp only [exec, hl, if_true]
  have h5 : n = 0 ∨ n = 1 ∨ n = 2 ∨ n = 3 ∨ n = 4 := by omega
  rcases h5 with rfl | rfl | rfl | rfl | rfl <;>
    (simp only [saveSteps, hd, cleanupSteps]; simp [view, getDoc, chunksOf, dropNodes])

/-- C69, proved part: an invalid request, or one for which nothing was stored under the id and no step ran, changes
nothing. -/
theorem C69_validation_partial (sp : Char → Bool) (fk : Bool) (f : Option Nat) (s : State) (q : SaveReq)
    (h : q.id = [] ∨ trim sp q.content = []) : save sp fk f s q = (s, false) := by
  unfold save
  rcases h with h | h
  · rw [if_pos h]
  · split
    · rfl
    · rfl

/-- C69 is violated for every stored item: a valid save of new content whose embedding call fails (step 5) leaves
nothing under the id, neither document nor (with cascades) chunks. -/
theorem C69_violated (sp : Char → Bool) (s : State) (q : SaveReq) (d : Doc) (hd : getDoc s q.id = some d)
    (h1 : q.id ≠ []) (h2 : trim sp q.content ≠ []) :
    (save sp true (some 5) s q).2 = false ∧ view (save sp true (some 5) s q).1 q.id = (none, []) := by
  unfold save
  rw [if_neg h1, if_neg h2]
  have hl : 5 < (saveSteps sp true s q).length := by
    simp [saveSteps, hd, cleanupSteps, ingestSteps]
  simp only [exec, hl, if_true]
  simp only [saveSteps, hd, cleanupSteps]
  simp [view, getDoc, chunksOf, dropNodes, dropDoc, List.find?_eq_none, List.filter_eq_nil_iff]

/-! ### C85 -/

theorem getDoc_upsertRecord (d : Doc) (s : State) : getDoc (upsertRecord d s) d.id = some d := by
  unfold upsertRecord
  by_cases ha : (s.docs.any fun x => x.id == d.id) = true
  · rw [if_pos ha]
    simp only [getDoc]
    generalize s.docs = l at ha
    induction l with
    | nil => simp at ha
    | cons a l ih =>
      by_cases hx : a.id = d.id
      · simp [hx]
      · simp only [List.any_cons, beq_eq_false_iff_ne.2 hx, Bool.false_or] at ha
        simp only [List.map_cons, List.find?_cons, beq_eq_false_iff_ne.2 hx]
        simpa [beq_eq_false_iff_ne.2 hx] using ih ha
  · rw [if_neg ha]
    have : s.docs.find? (fun x => x.id == d.id) = none := by
      rw [List.find?_eq_none]; intro x hx
      have hall : ∀ x ∈ s.docs, ¬ x.id = d.id := by simpa using ha
      simpa using hall x hx
    simp [getDoc, List.find?_append, this]

theorem upsertRecord_rows (d : Doc) (s : State) : (upsertRecord d s).rows = s.rows := by
  unfold upsertRecord; split <;> rfl

theorem upsertDocRecord_rows (id t c : Text) (s : State) : (upsertDocRecord id t c s).rows = s.rows := by
  unfold upsertDocRecord; split <;> rfl

theorem addNode_rows (n : Text) (s : State) : (addNode n s).rows = s.rows := by
  unfold addNode; split <;> rfl

theorem ingest_rows (sp : Char → Bool) (o : IngestOpts) (id t c : Text) (s : State) :
    ((ingestSteps sp o id t c).foldl (fun s f => f s) s).rows =
      s.rows.filter (fun x => !((chunkRows sp o id c).map (·.id)).contains x.id) ++ chunkRows sp o id c := by
  simp only [ingestSteps, List.foldl_cons, List.foldl_nil, _root_.id]
  rw [(foldl_addNode _ _).2]
  simp only [putRows]
  rw [putRows_eq _ (chunkRows_nodup _ _ _ _), addNode_rows, upsertDocRecord_rows]

theorem chunksOf_of_rows {s : State} {l : List Row} {rs : List Row} {id : Text} (h : s.rows = l ++ rs)
    (hl : ∀ r ∈ l, r.doc ≠ id) (hr : ∀ r ∈ rs, r.doc = id) : chunksOf s id = rs := by
  simp only [chunksOf, h, List.filter_append]
  have h1 : l.filter (fun r => r.doc == id) = [] := List.filter_eq_nil_iff.2 (by simpa using hl)
  have h2 : rs.filter (fun r => r.doc == id) = rs := List.filter_eq_self.2 (by simpa using hr)
  rw [h1, h2]; rfl

/-- The chunks of an item have a document, in a database where deletions cascade. -/
def Owned (s : State) : Prop := ∀ r ∈ s.rows, (getDoc s r.doc).isSome

/-- C85: after a successful save the item is exactly what was saved: title, content, next version, and its chunks are
exactly those of the new content (none of the old ones), whatever was stored before. For every state in which
each chunk has its document. -/
theorem C85_save (sp : Char → Bool) (s : State) (q : SaveReq) (fault : Option Nat) (ho : Owned s)
    (hok : (save sp true fault s q).2 = true) :
    getDoc (save sp true fault s q).1 q.id =
      some ⟨q.id, q.title, q.content, match getDoc s q.id with | some d => d.version + 1 | none => 1⟩ ∧
    chunksOf (save sp true fault s q).1 q.id = chunkRows sp q.opts q.id q.content := by
  have hex : (save sp true fault s q) = ((saveSteps sp true s q).foldl (fun s f => f s) s, true) := by
    unfold save at hok ⊢
    split at hok
    · simp at hok
    rename_i h1
    split at hok
    · simp at hok
    rename_i h2
    rw [if_neg h1, if_neg h2]
    unfold exec at hok ⊢
    cases fault with
    | none => rfl
    | some n =>
      simp only at hok ⊢
      split at hok
      · simp at hok
      · rename_i h3; rw [if_neg h3]
  rw [hex]
  simp only [saveSteps, List.foldl_append, List.foldl_cons, List.foldl_nil, _root_.id]
  refine ⟨getDoc_upsertRecord ⟨q.id, _, _, _⟩ _, ?_⟩
  have hrs : ∀ r ∈ chunkRows sp q.opts q.id q.content, r.doc = q.id := fun r hr => (chunkRows_doc hr).1
  refine chunksOf_of_rows ((upsertRecord_rows _ _).trans (ingest_rows _ _ _ _ _ _)) ?_ hrs
  intro r hr
  have hr := (List.mem_filter.1 hr).1
  cases hd : getDoc s q.id with
  | some d =>
    rw [hd] at hr
    simp only [cleanupSteps, List.foldl_cons, List.foldl_nil, _root_.id, dropDoc, dropNodes, if_true,
      List.mem_filter] at hr
    simpa using hr.2
  | none =>
    rw [hd] at hr
    intro he
    have := ho r hr
    rw [he, hd] at this
    simp at this

/-! ### C86 -/

/-- C86, proved part: ingesting a document again through `InsertGraphDocument` leaves exactly the chunks of the new
text, provided the new text has at least as many chunks as the stored one. Without the proviso it is false, see
`C86_violated`. -/
theorem C86_reingest_partial (sp : Char → Bool) (o : IngestOpts) (s : State) (id t c : Text)
    (hids : ∀ r ∈ s.rows, r.doc = id → ∃ i, i < (ingestChunks sp c o).length ∧ r.id = chunkId id i)
    (hok : (insertGraphDocument sp o none s id t c).2 = true) :
    chunksOf (insertGraphDocument sp o none s id t c).1 id = chunkRows sp o id c := by
  have hex : (insertGraphDocument sp o none s id t c) = ((ingestSteps sp o id t c).foldl (fun s f => f s) s, true) := by
    unfold insertGraphDocument at hok ⊢
    split at hok
    · simp at hok
    rename_i h1
    split at hok
    · simp at hok
    rename_i h2
    split at hok
    · simp at hok
    rename_i h3
    rw [if_neg h1, if_neg h2, if_neg h3]
    rfl
  rw [hex]
  refine chunksOf_of_rows (ingest_rows _ _ _ _ _ _) ?_ (fun r hr => (chunkRows_doc hr).1)
  intro r hr he
  obtain ⟨h1, h2⟩ := List.mem_filter.1 hr
  obtain ⟨i, hi, hri⟩ := hids r h1 he
  have : r.id ∈ (chunkRows sp o id c).map (·.id) := by
    rw [chunkRows_ids]
    exact List.mem_map.2 ⟨i, List.mem_range.2 hi, hri.symm⟩
  simp only [List.contains_eq_mem, decide_eq_true this, Bool.not_true] at h2
  exact absurd h2 (by simp)

/-- A state with the document `d`, whose text `x y` was ingested in chunks of one word. -/
def twoChunks : State :=
  (insertGraphDocument (· == ' ') { chunkSize := 1, chunkOverlap := 0 } none init ['d'] ['t'] ['x', ' ', 'y']).1

/-- C86 is violated: ingesting the shorter text `z` under the same id succeeds and the chunk `y` of the old text is
still stored under the document. -/
theorem C86_violated :
    (insertGraphDocument (· == ' ') { chunkSize := 1, chunkOverlap := 0 } none twoChunks ['d'] ['t'] ['z']).2 = true ∧
    (chunksOf (insertGraphDocument (· == ' ') { chunkSize := 1, chunkOverlap := 0 } none twoChunks ['d'] ['t'] ['z']).1
      ['d']).map (·.content) = [['y'], ['z']] := by
  decide +kernel

/-! ### C87 -/

/-- C87: a successful delete leaves no document, no chunk and no document or chunk node of the item. -/
theorem C87_delete (s : State) (id : Text) (fault : Option Nat) (hok : (delete true fault s id).2 = true) :
    view (delete true fault s id).1 id = (none, []) ∧ docNodeId id ∉ (delete true fault s id).1.nodes ∧
      ∀ r ∈ chunksOf s id, r.id ∉ (delete true fault s id).1.nodes := by
  have hex : (delete true fault s id) = ((cleanupSteps true s id).foldl (fun s f => f s) s, true) := by
    unfold delete at hok ⊢
    split at hok
    · simp at hok
    rename_i h1
    rw [if_neg h1]
    split at hok
    · simp at hok
    rename_i hd
    unfold exec at hok ⊢
    cases fault with
    | none => rfl
    | some n =>
      simp only at hok ⊢
      split at hok
      · simp at hok
      · rename_i h3; rw [if_neg h3]
  rw [hex]
  refine ⟨?_, ?_, ?_⟩
  · simp [cleanupSteps, view, getDoc, chunksOf, dropNodes, dropDoc, List.find?_eq_none, List.filter_eq_nil_iff]
  · simp [cleanupSteps, dropNodes, dropDoc]
  · intro r hr
    simp only [cleanupSteps, List.foldl_cons, List.foldl_nil, _root_.id, dropDoc, dropNodes, List.mem_filter, not_and]
    intro _
    have : r.id ∈ docNodeId id :: (chunksOf s id).map (·.id) :=
      List.mem_cons_of_mem _ (List.mem_map.2 ⟨r, hr, rfl⟩)
    simp only [List.contains_eq_mem, decide_eq_true this, Bool.not_true]
    simp

/-! ### Non-vacuity -/

/-- The item `d` saved with the text `x y`. -/
def saved : State := (save (· == ' ') true none init ⟨['d'], ['t'], ['x', ' ', 'y'], { chunkSize := 1, chunkOverlap := 0 }⟩).1

example : getDoc saved ['d'] = some ⟨['d'], ['t'], ['x', ' ', 'y'], 1⟩ ∧
    (chunksOf saved ['d']).map (·.content) = [['x'], ['y']] := by decide +kernel

/-- A save of `z` over it: meets the hypotheses of `C85_save`; the version goes up and one chunk is left. -/
example : (save (· == ' ') true none saved ⟨['d'], ['t'], ['z'], { chunkSize := 1, chunkOverlap := 0 }⟩).2 = true ∧
    (∀ r ∈ saved.rows, (getDoc saved r.doc).isSome) ∧
    getDoc (save (· == ' ') true none saved ⟨['d'], ['t'], ['z'], { chunkSize := 1, chunkOverlap := 0 }⟩).1 ['d'] =
      some ⟨['d'], ['t'], ['z'], 2⟩ ∧
    ((chunksOf (save (· == ' ') true none saved ⟨['d'], ['t'], ['z'], { chunkSize := 1, chunkOverlap := 0 }⟩).1
      ['d']).map (·.content)) = [['z']] := by decide +kernel

/-- The same save with the embedder failing: the hypotheses of `C69_violated` are met and the item is gone. -/
example : view (save (· == ' ') true (some 5) saved ⟨['d'], ['t'], ['z'], { chunkSize := 1, chunkOverlap := 0 }⟩).1 ['d'] =
    (none, []) := by decide +kernel

/-- A second item is untouched by a failing save of the first (`C69_others_partial`). -/
example : view (step (· == ' ') true (step (· == ' ') true saved
      (.save ⟨['e'], ['u'], ['w'], { chunkSize := 1, chunkOverlap := 0 }⟩ none))
      (.save ⟨['d'], ['t'], ['z'], { chunkSize := 1, chunkOverlap := 0 }⟩ (some 5))) ['e'] =
    (some ⟨['e'], ['u'], ['w'], 1⟩, [⟨chunkId ['e'] 0, ['e'], ['w']⟩]) := by decide +kernel

example : (delete true none saved ['d']).2 = true ∧ docNodeId ['d'] ∈ saved.nodes ∧
    (delete true none saved ['d']).1.nodes = [] := by decide +kernel

/-! ### C71 -/

section Grouping
variable {I S : Type*} [DecidableEq I] [LinearOrder S]

/-- The hits of one document. -/
def hitsOf (hits : List (Hit I S)) (k : I) : List (Hit I S) := hits.filter (fun h => decide (keyOf h = k))

/-- What grouping has to deliver for the hits seen so far. -/
structure Good (hits : List (Hit I S)) (gs : List (Group I S)) : Prop where
  once : (gs.map (·.id)).Nodup
  keys : ∀ k, k ∈ gs.map (·.id) ↔ ∃ h ∈ hits, keyOf h = k
  best : ∀ g ∈ gs, (∃ h ∈ hits, keyOf h = g.id ∧ h.score = g.score) ∧
    ∀ h ∈ hits, keyOf h = g.id → h.score ≤ g.score
  chunks : ∀ g ∈ gs, g.chunks.Nodup ∧ ∀ c, c ∈ g.chunks ↔ ∃ h ∈ hits, keyOf h = g.id ∧ h.id = c
  entities : ∀ g ∈ gs, g.entities.Nodup ∧ ∀ e, e ∈ g.entities ↔ ∃ h ∈ hits, keyOf h = g.id ∧ e ∈ h.entities

theorem addNew_nodup {l : List I} (h : l.Nodup) (x : I) : (addNew l x).Nodup := by
  unfold addNew
  split
  · exact h
  · rename_i hx
    rw [List.nodup_append]
    exact ⟨h, by simp, by intro a ha b hb; simp at hb; rw [hb]; rintro rfl; exact hx ha⟩

theorem mem_addNew {l : List I} {x y : I} : y ∈ addNew l x ↔ y ∈ l ∨ y = x := by
  unfold addNew
  split
  · rename_i hx
    constructor
    · exact Or.inl
    · rintro (h | rfl)
      · exact h
      · exact hx
  · simp

theorem addNews (xs : List I) : ∀ l : List I, l.Nodup →
    (xs.foldl addNew l).Nodup ∧ ∀ y, y ∈ xs.foldl addNew l ↔ y ∈ l ∨ y ∈ xs := by
  induction xs with
  | nil => intro l h; simp [h]
  | cons x xs ih =>
    intro l h
    have := ih _ (addNew_nodup h x)
    refine ⟨this.1, fun y => ?_⟩
    rw [List.foldl_cons, this.2, mem_addNew]
    simp only [List.mem_cons]
    tauto

theorem good_addHit {hits : List (Hit I S)} {gs : List (Group I S)} (hg : Good hits gs) (h : Hit I S) :
    Good (hits ++ [h]) (addHit gs h) := by
  -- the list with the group of `h` present
  set gs' := if gs.any (fun g => decide (g.id = keyOf h)) then gs else gs ++ [⟨keyOf h, h.score, [], []⟩] with hgs'
  set upd : Group I S → Group I S := fun g => if g.id = keyOf h then
    { g with score := if h.score > g.score then h.score else g.score
             chunks := addNew g.chunks h.id
             entities := h.entities.foldl addNew g.entities } else g with hupd
  have hadd : addHit gs h = gs'.map upd := rfl
  have huid : ∀ g, (upd g).id = g.id := by intro g; simp only [hupd]; split <;> rfl
  have hids : (addHit gs h).map (·.id) = gs'.map (·.id) := by
    rw [hadd, List.map_map]; exact List.map_congr_left (fun g _ => huid g)
  by_cases ha : gs.any (fun g => decide (g.id = keyOf h)) = true
  · -- the group exists
    have e : gs' = gs := by rw [hgs', if_pos ha]
    obtain ⟨g0, hg0, hk0⟩ := List.any_eq_true.1 ha
    have hk0 := of_decide_eq_true hk0
    refine ⟨by rw [hids, e]; exact hg.once, ?_, ?_, ?_, ?_⟩
    · intro k
      rw [hids, e, hg.keys k]
      constructor
      · rintro ⟨x, hx, rfl⟩; exact ⟨x, List.mem_append_left _ hx, rfl⟩
      · rintro ⟨x, hx, rfl⟩
        rcases List.mem_append.1 hx with hx | hx
        · exact ⟨x, hx, rfl⟩
        · simp only [List.mem_singleton] at hx
          subst hx
          exact (hg.keys _).1 (List.mem_map.2 ⟨g0, hg0, hk0⟩)
    all_goals
      intro g hgm
      rw [hadd, e] at hgm
      obtain ⟨a, ham, rfl⟩ := List.mem_map.1 hgm
      rw [huid]
      by_cases hak : a.id = keyOf h
    · obtain ⟨⟨x, hx, hxk, hxs⟩, hb⟩ := hg.best a ham
      have hs : (upd a).score = if h.score > a.score then h.score else a.score := by simp [hupd, hak]
      rw [hs]
      split
      · rename_i hlt
        refine ⟨⟨h, by simp, hak.symm, rfl⟩, ?_⟩
        intro y hy hyk
        rcases List.mem_append.1 hy with hy | hy
        · exact le_trans (hb y hy hyk) (le_of_lt hlt)
        · simp at hy; rw [hy]
      · rename_i hlt
        refine ⟨⟨x, List.mem_append_left _ hx, hxk, hxs⟩, ?_⟩
        intro y hy hyk
        rcases List.mem_append.1 hy with hy | hy
        · exact hb y hy hyk
        · simp at hy; rw [hy]; exact not_lt.1 hlt
    · obtain ⟨⟨x, hx, hxk, hxs⟩, hb⟩ := hg.best a ham
      have hs : upd a = a := by simp [hupd, hak]
      rw [hs]
      refine ⟨⟨x, List.mem_append_left _ hx, hxk, hxs⟩, ?_⟩
      intro y hy hyk
      rcases List.mem_append.1 hy with hy | hy
      · exact hb y hy hyk
      · simp at hy; rw [hy] at hyk; exact absurd hyk.symm hak
    · obtain ⟨hn, hm⟩ := hg.chunks a ham
      have hs : (upd a).chunks = addNew a.chunks h.id := by simp [hupd, hak]
      rw [hs]
      refine ⟨addNew_nodup hn _, fun c => ?_⟩
      rw [mem_addNew, hm]
      constructor
      · rintro (⟨x, hx, h1, h2⟩ | rfl)
        · exact ⟨x, List.mem_append_left _ hx, h1, h2⟩
        · exact ⟨h, by simp, hak.symm, rfl⟩
      · rintro ⟨x, hx, h1, h2⟩
        rcases List.mem_append.1 hx with hx | hx
        · exact Or.inl ⟨x, hx, h1, h2⟩
        · simp at hx; subst hx; exact Or.inr h2.symm
    · obtain ⟨hn, hm⟩ := hg.chunks a ham
      have hs : upd a = a := by simp [hupd, hak]
      rw [hs]
      refine ⟨hn, fun c => ?_⟩
      rw [hm]
      constructor
      · rintro ⟨x, hx, h1, h2⟩; exact ⟨x, List.mem_append_left _ hx, h1, h2⟩
      · rintro ⟨x, hx, h1, h2⟩
        rcases List.mem_append.1 hx with hx | hx
        · exact ⟨x, hx, h1, h2⟩
        · simp at hx; subst hx; exact absurd h1.symm hak
    · obtain ⟨hn, hm⟩ := hg.entities a ham
      have hs : (upd a).entities = h.entities.foldl addNew a.entities := by simp [hupd, hak]
      rw [hs]
      obtain ⟨hu1, hu2⟩ := addNews h.entities _ hn
      refine ⟨hu1, fun c => ?_⟩
      rw [hu2, hm]
      constructor
      · rintro (⟨x, hx, h1, h2⟩ | hc)
        · exact ⟨x, List.mem_append_left _ hx, h1, h2⟩
        · exact ⟨h, by simp, hak.symm, hc⟩
      · rintro ⟨x, hx, h1, h2⟩
        rcases List.mem_append.1 hx with hx | hx
        · exact Or.inl ⟨x, hx, h1, h2⟩
        · simp at hx; rw [hx] at h2; exact Or.inr h2
    · obtain ⟨hn, hm⟩ := hg.entities a ham
      have hs : upd a = a := by simp [hupd, hak]
      rw [hs]
      refine ⟨hn, fun c => ?_⟩
      rw [hm]
      constructor
      · rintro ⟨x, hx, h1, h2⟩; exact ⟨x, List.mem_append_left _ hx, h1, h2⟩
      · rintro ⟨x, hx, h1, h2⟩
        rcases List.mem_append.1 hx with hx | hx
        · exact ⟨x, hx, h1, h2⟩
        · simp at hx; subst hx; exact absurd h1.symm hak
  · -- a new group
    have hno : ∀ g ∈ gs, g.id ≠ keyOf h := by
      intro g hgm he
      exact ha (List.any_eq_true.2 ⟨g, hgm, decide_eq_true he⟩)
    have hnew : ∀ x ∈ hits, keyOf x ≠ keyOf h := by
      intro x hx he
      obtain ⟨g, hgm, hge⟩ := List.mem_map.1 ((hg.keys (keyOf h)).2 ⟨x, hx, he⟩)
      exact hno g hgm hge
    have e : gs' = gs ++ [⟨keyOf h, h.score, [], []⟩] := by rw [hgs', if_neg ha]
    have hout : addHit gs h = gs ++ [⟨keyOf h, h.score, [h.id], h.entities.foldl addNew []⟩] := by
      rw [hadd, e, List.map_append]
      congr 1
      · conv_rhs => rw [← List.map_id gs]
        apply List.map_congr_left
        intro g hgm
        simp [hupd, hno g hgm]
      · simp [hupd, addNew]
    obtain ⟨he1, he2⟩ := addNews h.entities [] List.nodup_nil
    refine ⟨?_, ?_, ?_, ?_, ?_⟩
    · rw [hids, e, List.map_append, List.nodup_append]
      refine ⟨hg.once, by simp, ?_⟩
      intro a ha b hb
      obtain ⟨g, hgm, rfl⟩ := List.mem_map.1 ha
      simp at hb
      rw [hb]; exact hno g hgm
    · intro k
      rw [hids, e, List.map_append, List.mem_append, hg.keys k]
      simp only [List.map_cons, List.map_nil, List.mem_singleton, List.mem_append]
      constructor
      · rintro (⟨x, hx, rfl⟩ | rfl)
        · exact ⟨x, Or.inl hx, rfl⟩
        · exact ⟨h, Or.inr rfl, rfl⟩
      · rintro ⟨x, hx | rfl, rfl⟩
        · exact Or.inl ⟨x, hx, rfl⟩
        · exact Or.inr rfl
    all_goals
      intro g hgm
      rw [hout] at hgm
      rcases List.mem_append.1 hgm with hgm | hgm
    · obtain ⟨⟨x, hx, hxk, hxs⟩, hb⟩ := hg.best g hgm
      refine ⟨⟨x, List.mem_append_left _ hx, hxk, hxs⟩, ?_⟩
      intro y hy hyk
      rcases List.mem_append.1 hy with hy | hy
      · exact hb y hy hyk
      · simp at hy; rw [hy] at hyk; exact absurd hyk.symm (hno g hgm)
    · simp only [List.mem_singleton] at hgm
      subst hgm
      refine ⟨⟨h, by simp, rfl, rfl⟩, ?_⟩
      intro y hy hyk
      rcases List.mem_append.1 hy with hy | hy
      · exact absurd hyk (hnew y hy)
      · simp at hy; rw [hy]
    · obtain ⟨hn, hm⟩ := hg.chunks g hgm
      refine ⟨hn, fun c => ?_⟩
      rw [hm]
      constructor
      · rintro ⟨x, hx, h1, h2⟩; exact ⟨x, List.mem_append_left _ hx, h1, h2⟩
      · rintro ⟨x, hx, h1, h2⟩
        rcases List.mem_append.1 hx with hx | hx
        · exact ⟨x, hx, h1, h2⟩
        · simp at hx; rw [hx] at h1; exact absurd h1.symm (hno g hgm)
    · simp only [List.mem_singleton] at hgm
      subst hgm
      refine ⟨by simp, fun c => ?_⟩
      simp only [List.mem_singleton]
      constructor
      · rintro rfl; exact ⟨h, by simp, rfl, rfl⟩
      · rintro ⟨x, hx, h1, h2⟩
        rcases List.mem_append.1 hx with hx | hx
        · exact absurd h1 (hnew x hx)
        · simp at hx; rw [← h2, hx]
    · obtain ⟨hn, hm⟩ := hg.entities g hgm
      refine ⟨hn, fun c => ?_⟩
      rw [hm]
      constructor
      · rintro ⟨x, hx, h1, h2⟩; exact ⟨x, List.mem_append_left _ hx, h1, h2⟩
      · rintro ⟨x, hx, h1, h2⟩
        rcases List.mem_append.1 hx with hx | hx
        · exact ⟨x, hx, h1, h2⟩
        · simp at hx; rw [hx] at h1; exact absurd h1.symm (hno g hgm)
    · simp only [List.mem_singleton] at hgm
      subst hgm
      refine ⟨he1, fun c => ?_⟩
      rw [he2]
      constructor
      · rintro (hc | hc)
        · simp at hc
        · exact ⟨h, by simp, rfl, hc⟩
      · rintro ⟨x, hx, h1, h2⟩
        rcases List.mem_append.1 hx with hx | hx
        · exact absurd h1 (hnew x hx)
        · simp at hx; rw [hx] at h2; exact Or.inr h2

theorem good_fold (hits : List (Hit I S)) : ∀ (pre : List (Hit I S)) (gs : List (Group I S)), Good pre gs →
    Good (pre ++ hits) (hits.foldl addHit gs) := by
  induction hits with
  | nil => intro pre gs h; simpa using h
  | cons h hits ih =>
    intro pre gs hg
    have := ih _ _ (good_addHit hg h)
    simpa [List.append_assoc] using this

/-- Before in the result: higher score, or the same score and smaller id. -/
def groupLe [LinearOrder I] (a b : Group I S) : Prop := b.score < a.score ∨ (a.score = b.score ∧ a.id ≤ b.id)

/-- C71: the grouped hits list each document once (keyed by the chunk when it has no document), with the best of its
chunks' scores, exactly the ids of its chunks and entities, each once, in descending score with ties by id; and the
order is unique. For all hits and every sort that sorts. -/
theorem C71_groups {I S : Type*} [LinearOrder I] [LinearOrder S] (known : I → Bool)
    (sort : List (Group I S) → List (Group I S)) (hsort : ∀ l, SortedFrom groupLe l (sort l))
    (hits : List (Hit I S)) (out : List (Group I S)) (h : aggregate known sort hits = some out) :
    Good hits out ∧ out.Pairwise (fun a b => b.score < a.score ∨ (a.score = b.score ∧ a.id < b.id)) := by
  unfold aggregate at h
  split at h
  · simp only [Option.some.injEq] at h
    subst h
    have hg : Good hits (hits.foldl addHit []) := by
      have h0 : Good ([] : List (Hit I S)) [] := ⟨by simp, by simp, by simp, by simp, by simp⟩
      simpa using good_fold hits [] [] h0
    obtain ⟨hp, hs⟩ := hsort (hits.foldl addHit [])
    have hmem : ∀ g, g ∈ sort (hits.foldl addHit []) → g ∈ hits.foldl addHit [] := fun g => hp.mem_iff.1
    have honce : ((sort (hits.foldl addHit [])).map (·.id)).Nodup := (hp.map _).nodup_iff.2 hg.once
    refine ⟨⟨honce, ?_, fun g hm => hg.best g (hmem g hm), fun g hm => hg.chunks g (hmem g hm),
      fun g hm => hg.entities g (hmem g hm)⟩, ?_⟩
    · intro k
      rw [(hp.map (fun g => g.id)).mem_iff, hg.keys]
    · have hne : (sort (hits.foldl addHit [])).Pairwise (fun a b => a.id ≠ b.id) := by
        rw [List.nodup_iff_pairwise_ne, List.pairwise_map] at honce
        exact honce
      refine (hs.and hne).imp ?_
      rintro a b ⟨h1 | ⟨h1, h2⟩, h3⟩
      · exact Or.inl h1
      · exact Or.inr ⟨h1, lt_of_le_of_ne h2 h3⟩
  · simp at h

/-- C71: the call fails exactly when some hit's document cannot be loaded. -/
theorem C71_missing_document (known : I → Bool) (sort : List (Group I S) → List (Group I S)) (hits : List (Hit I S)) :
    aggregate known sort hits = none ↔ ∃ h ∈ hits, ∃ d, h.doc = some d ∧ known d = false := by
  unfold aggregate
  split
  · rename_i ha
    rw [List.all_eq_true] at ha
    simp only [reduceCtorEq, false_iff]
    rintro ⟨h, hm, d, hd, hk⟩
    have := ha h hm
    rw [hd] at this
    simp [hk] at this
  · rename_i ha
    simp only [true_iff]
    rw [List.all_eq_true] at ha
    simp only [not_forall] at ha
    obtain ⟨h, hm, hx⟩ := ha
    refine ⟨h, hm, ?_⟩
    cases hd : h.doc with
    | none => rw [hd] at hx; simp at hx
    | some d => rw [hd] at hx; exact ⟨d, rfl, by simpa using hx⟩

end Grouping

/-- Three hits of two documents, chunk 11 found twice. -/
def sampleHits : List (Hit Nat Int) :=
  [⟨11, some 1, 5, [7]⟩, ⟨21, some 2, 9, []⟩, ⟨12, some 1, 8, [7, 8]⟩, ⟨11, some 1, 2, []⟩]

example : aggregate (fun _ => true) (fun l => l) sampleHits =
    some [⟨1, 8, [11, 12], [7, 8]⟩, ⟨2, 9, [21], []⟩] := by decide +kernel

end Verif.Knowledge
