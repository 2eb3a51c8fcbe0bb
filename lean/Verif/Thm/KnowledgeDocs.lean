import Verif.Thm.Knowledge

/-!
C85 for updates, and C86 for the record of the document.
-/
namespace Verif.Knowledge
open Verif.Base Verif.Rag

theorem exec_ok (steps : List Step) (fault : Option Nat) (s : State) (h : (exec steps fault s).2 = true) :
    exec steps fault s = (steps.foldl (fun s f => f s) s, true) := by
  unfold exec at h ⊢
  cases fault with
  | none => rfl
  | some n =>
    simp only at h ⊢
    split at h
    · simp at h
    · rename_i h3; rw [if_neg h3]

/-- C85 for updates: after a successful update the item has the title and content of the request, or the old ones where it
names none, and the next version. When it names one of them the chunks are exactly those of the text now in force, otherwise
they are the same as before. -/
theorem C85_update (sp : Char → Bool) (s : State) (q : UpdateReq) (fault : Option Nat) (d : Doc) (hd : getDoc s q.id = some d)
    (hok : (update sp true fault s q).2 = true) :
    getDoc (update sp true fault s q).1 q.id = some ⟨q.id, q.title.getD d.title, q.content.getD d.content, d.version + 1⟩ ∧
    chunksOf (update sp true fault s q).1 q.id =
      if q.title.isSome ∨ q.content.isSome then chunkRows sp q.opts q.id (q.content.getD d.content) else chunksOf s q.id := by
  have hrep : ∀ (t c : Text) (v : Nat), let s' := (([_root_.id] : List Step) ++ cleanupSteps true s q.id ++ ingestSteps sp q.opts q.id t c ++
      [upsertRecord ⟨q.id, t, c, v⟩]).foldl (fun (s : State) (f : Step) => f s) s
      getDoc s' q.id = some ⟨q.id, t, c, v⟩ ∧ chunksOf s' q.id = chunkRows sp q.opts q.id c := by
    intro t c v
    simp only [List.foldl_append, List.foldl_cons, List.foldl_nil, _root_.id]
    refine ⟨getDoc_upsertRecord ⟨q.id, _, _, _⟩ _, ?_⟩
    have hrs : ∀ r ∈ chunkRows sp q.opts q.id c, r.doc = q.id := fun r hr => (chunkRows_doc hr).1
    refine chunksOf_of_rows ((upsertRecord_rows _ _).trans (ingest_rows _ _ _ _ _ _)) ?_ hrs
    intro r hr
    have hr := (List.mem_filter.1 hr).1
    simp only [cleanupSteps, List.foldl_cons, List.foldl_nil, _root_.id, dropDoc, dropNodes, if_true,
      List.mem_filter] at hr
    simpa using hr.2
  unfold update at hok ⊢
  by_cases h0 : q.id = []
  · rw [if_pos h0] at hok; cases hok
  rw [if_neg h0, hd] at hok ⊢
  simp only at hok ⊢
  cases hc : q.content with
  | some c =>
    rw [hc] at hok
    simp only at hok ⊢
    split at hok
    · cases hok
    rename_i hb
    rw [if_neg hb, exec_ok _ _ _ hok]
    simpa using hrep (q.title.getD d.title) c (d.version + 1)
  | none =>
    rw [hc] at hok
    simp only at hok ⊢
    split at hok
    · rename_i ht
      rw [if_pos ht, exec_ok _ _ _ hok]
      simpa [ht] using hrep (q.title.getD d.title) d.content (d.version + 1)
    · rename_i ht
      rw [if_neg ht, exec_ok _ _ _ hok]
      simp only [List.foldl_cons, List.foldl_nil, _root_.id]
      refine ⟨by simpa using getDoc_upsertRecord ⟨q.id, q.title.getD d.title, d.content, d.version + 1⟩ s, ?_⟩
      simp only [ht, Option.isSome_none, Bool.false_eq_true, or_self, if_false]
      simp only [chunksOf, upsertRecord_rows]

theorem getDoc_addNode (n : Text) (s : State) (k : Text) : getDoc (addNode n s) k = getDoc s k := by
  unfold addNode; split <;> rfl

theorem getDoc_upsertDocRecord (s : State) (id t c : Text) :
    getDoc (upsertDocRecord id t c s) id = some ⟨id, t, c, match getDoc s id with | some d => d.version + 1 | none => 1⟩ := by
  unfold upsertDocRecord
  by_cases ha : (s.docs.any fun x => x.id == id) = true
  · rw [if_pos ha]
    simp only [getDoc]
    generalize s.docs = l at ha
    induction l with
    | nil => simp at ha
    | cons a l ih =>
      by_cases hx : a.id = id
      · simp [hx]
      · simp only [List.any_cons, beq_eq_false_iff_ne.2 hx, Bool.false_or] at ha
        simp only [List.map_cons, List.find?_cons, beq_eq_false_iff_ne.2 hx]
        simpa [beq_eq_false_iff_ne.2 hx] using ih ha
  · rw [if_neg ha]
    have : s.docs.find? (fun x => x.id == id) = none := by
      rw [List.find?_eq_none]; intro x hx
      have hall : ∀ x ∈ s.docs, ¬ x.id = id := by simpa using ha
      simpa using hall x hx
    simp [getDoc, List.find?_append, this]

/-- C86 for the document itself: ingesting it (again) gives it the new title and content and the next version, whatever became of
the chunks. -/
theorem C86_record (sp : Char → Bool) (o : IngestOpts) (s : State) (id t c : Text) (fault : Option Nat)
    (hok : (insertGraphDocument sp o fault s id t c).2 = true) :
    getDoc (insertGraphDocument sp o fault s id t c).1 id =
      some ⟨id, t, c, match getDoc s id with | some d => d.version + 1 | none => 1⟩ := by
  unfold insertGraphDocument at hok ⊢
  split at hok
  · cases hok
  rename_i h1
  rw [if_neg h1]
  split at hok
  · cases hok
  rename_i h2
  rw [if_neg h2]
  split at hok
  · cases hok
  rename_i h3
  rw [if_neg h3, exec_ok _ _ _ hok]
  simp only [ingestSteps, List.foldl_cons, List.foldl_nil, _root_.id]
  have hfold : ∀ (rs : List Row) (s : State), getDoc (rs.foldl (fun s r => addNode r.id s) s) id = getDoc s id := by
    intro rs
    induction rs with
    | nil => intro s; rfl
    | cons r rs ih => intro s; rw [List.foldl_cons, ih, getDoc_addNode]
  rw [hfold]
  have hp : ∀ rs (s : State), getDoc (putRows rs s) id = getDoc s id := fun _ _ => rfl
  rw [hp, getDoc_addNode, getDoc_upsertDocRecord]

/-- A title is changed and the text kept, then the document is ingested again. -/
example : (update (· == ' ') true none ⟨[⟨['d'], ['t'], ['x'], 3⟩], [], []⟩ ⟨['d'], some ['u'], none, { chunkSize := 1, chunkOverlap := 0 }⟩).2 = true ∧
    (insertGraphDocument (· == ' ') { chunkSize := 1, chunkOverlap := 0 } none ⟨[⟨['d'], ['t'], ['x'], 3⟩], [], []⟩ ['d'] ['u'] ['y']).2 = true := by
  decide +kernel

end Verif.Knowledge
