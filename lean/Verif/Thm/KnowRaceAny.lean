import Verif.Thm.KnowRace

/-!
The violations of C209 for all states and requests.
-/
namespace Verif.Knowledge
open Verif.Base Verif.Rag

/-- A goroutine that is not interrupted. -/
theorem runAll_block (ts : List Prog) (s : State) (i : Nat) (p : Prog) (n : Nat) (hi : i < ts.length) :
    runAll adv (s, ts.set i p) (List.replicate n i) = ((alone adv s p n).1, ts.set i (alone adv s p n).2) := by
  induction n with
  | zero => rfl
  | succ n ih =>
    rw [List.replicate_succ', runAll_snoc, ih]
    simp [stepAt, alone, hi]

theorem alone_acts (fs : List Step) (k : Prog) (m : Nat) : ∀ s : State,
    alone adv s (.acts fs k) (fs.length + m) = alone adv (fs.foldl (fun s f => f s) s) k m := by
  induction fs with
  | nil => intro s; simp [Prog.acts]
  | cons f fs ih =>
    intro s
    rw [show (f :: fs).length + m = (fs.length + m) + 1 by simp; omega, alone_succ]
    exact ih _

/-- Ingesting, uninterrupted. -/
def ingested (sp : Char → Bool) (q : SaveReq) (s : State) : State :=
  (ingestSteps sp q.opts q.id q.title q.content).foldl (fun s f => f s) s

theorem ingestSteps_length (sp : Char → Bool) (o : IngestOpts) (id t c : Text) : (ingestSteps sp o id t c).length = 7 := rfl

theorem alone_store (sp : Char → Bool) (q : SaveReq) (v : Nat) (s : State) :
    alone adv s (storeProg sp q.opts ⟨q.id, q.title, q.content, v⟩) 8 =
      (upsertRecord ⟨q.id, q.title, q.content, v⟩ (ingested sp q s), .done) :=
  alone_acts (ingestSteps sp q.opts q.id q.title q.content) (.act (upsertRecord ⟨q.id, q.title, q.content, v⟩) .done) 1 s

theorem alone_store7 (sp : Char → Bool) (q : SaveReq) (v : Nat) (s : State) :
    alone adv s (storeProg sp q.opts ⟨q.id, q.title, q.content, v⟩) 7 =
      (ingested sp q s, .act (upsertRecord ⟨q.id, q.title, q.content, v⟩) .done) :=
  alone_acts (ingestSteps sp q.opts q.id q.title q.content) (.act (upsertRecord ⟨q.id, q.title, q.content, v⟩) .done) 0 s

/-- C209 is violated in every state: two goroutines save an item that is not stored yet, and the text of the first has more chunks than
that of the second. There is a schedule in which both calls return, the document is the one of the second, with version 1, and each
chunk of the first beyond the chunks of the second is still stored under it. -/
theorem C209_any_mixed_violated (sp : Char → Bool) (fk : Bool) (s : State) (q q' : SaveReq) (hid : q'.id = q.id) (h0 : q.id ≠ [])
    (h1 : trim sp q.content ≠ []) (h2 : trim sp q'.content ≠ []) (hn : getDoc s q.id = none) (i : Nat)
    (hlt : i < (ingestChunks sp q.content q.opts).length) (hge : (ingestChunks sp q'.content q'.opts).length ≤ i) :
    ∃ sched, Returned (race sp fk s [.save q, .save q'] sched).2 ∧
      getDoc (race sp fk s [.save q, .save q'] sched).1 q.id = some ⟨q.id, q'.title, q'.content, 1⟩ ∧
      ∃ r ∈ chunksOf (race sp fk s [.save q, .save q'] sched).1 q.id, r.id = chunkId q.id i ∧
        r.content = (ingestChunks sp q.content q.opts)[i] := by
  have hrace : race sp fk s [.save q, .save q'] ([0, 1] ++ (List.replicate 8 0 ++ List.replicate 8 1)) =
      (upsertRecord ⟨q'.id, q'.title, q'.content, 1⟩ (ingested sp q' (upsertRecord ⟨q.id, q.title, q.content, 1⟩ (ingested sp q s))),
        [.done, .done]) := by
    have e0 : race sp fk s [.save q, .save q'] [0, 1] =
        (s, [storeProg sp q.opts ⟨q.id, q.title, q.content, 1⟩, storeProg sp q'.opts ⟨q'.id, q'.title, q'.content, 1⟩]) := by
      have h0' : q'.id ≠ [] := by rw [hid]; exact h0
      simp [race, runAll, stepAt, progOf, h0, h0', h1, h2, adv, hn, hid]
    unfold race at e0 ⊢
    unfold runAll at e0 ⊢
    rw [List.foldl_append, e0, List.foldl_append]
    have b0 := runAll_block [storeProg sp q.opts ⟨q.id, q.title, q.content, 1⟩, storeProg sp q'.opts ⟨q'.id, q'.title, q'.content, 1⟩] s 0
      (storeProg sp q.opts ⟨q.id, q.title, q.content, 1⟩) 8 (by simp)
    rw [alone_store] at b0
    unfold runAll at b0
    simp only [List.set_cons_zero] at b0
    rw [b0]
    have b1 := runAll_block [.done, storeProg sp q'.opts ⟨q'.id, q'.title, q'.content, 1⟩]
      (upsertRecord ⟨q.id, q.title, q.content, 1⟩ (ingested sp q s)) 1
      (storeProg sp q'.opts ⟨q'.id, q'.title, q'.content, 1⟩) 8 (by simp)
    rw [alone_store] at b1
    unfold runAll at b1
    simpa using b1
  refine ⟨[0, 1] ++ (List.replicate 8 0 ++ List.replicate 8 1), ?_, ?_, ?_⟩
  · rw [hrace]; simp [Returned]
  · rw [hrace]
    have := getDoc_upsertRecord ⟨q'.id, q'.title, q'.content, 1⟩ (ingested sp q' (upsertRecord ⟨q.id, q.title, q.content, 1⟩ (ingested sp q s)))
    simp only [hid] at this ⊢
    exact this
  · rw [hrace]
    refine ⟨⟨chunkId q.id i, q.id, (ingestChunks sp q.content q.opts)[i]⟩, ?_, rfl, rfl⟩
    simp only [chunksOf, upsertRecord_rows, List.mem_filter, beq_self_eq_true, and_true]
    unfold ingested
    rw [ingest_rows, upsertRecord_rows, ingest_rows]
    refine List.mem_append_left _ (List.mem_filter.2 ⟨List.mem_append_right _ ?_, ?_⟩)
    · unfold chunkRows
      refine List.mem_map.2 ⟨((ingestChunks sp q.content q.opts)[i], i), ?_, rfl⟩
      exact List.mem_zipIdx_iff_getElem?.2 (by simp)
    · simp only [Bool.not_eq_true', List.contains_eq_mem, decide_eq_false_iff_not]
      intro hc
      obtain ⟨r, hr, he⟩ := List.mem_map.1 hc
      obtain ⟨_, j, hj, hje⟩ := chunkRows_doc hr
      have he' : chunkId q.id j = chunkId q.id i := by rw [← hid, ← hje, he, hid]
      have hinj := C72_document_chunks q.id ((max i j) + 1)
      have := List.inj_on_of_nodup_map hinj (by simp; omega) (by simp; omega) he'
      omega

/-- C209 is violated in every state that holds the item: the delete falls between the ingest of a save and its record. Both calls return
without error; the item exists, with the text of the save, and has no chunks: no search ever finds it. -/
theorem C209_any_delete_violated (sp : Char → Bool) (s : State) (q : SaveReq) (d : Doc) (h0 : q.id ≠ []) (h1 : trim sp q.content ≠ [])
    (hd : getDoc s q.id = some d) :
    ∃ sched, Returned (race sp true s [.delete q.id, .save q] sched).2 ∧
      getDoc (race sp true s [.delete q.id, .save q] sched).1 q.id = some ⟨q.id, q.title, q.content, d.version + 1⟩ ∧
      chunksOf (race sp true s [.delete q.id, .save q] sched).1 q.id = [] := by
  -- look of the delete, the save up to its record, the rest of the delete, the record
  have e1 : ∃ w, alone adv s (progOf sp true (.save q)) 12 =
      (w, .act (upsertRecord ⟨q.id, q.title, q.content, d.version + 1⟩) .done) := by
    simp only [progOf, if_neg h0, if_neg h1]
    rw [show (12 : Nat) = 11 + 1 from rfl, alone_succ]
    simp only [adv, hd, cleanupProg]
    rw [show (11 : Nat) = 10 + 1 from rfl, alone_succ, show (10 : Nat) = 9 + 1 from rfl, alone_succ, show (9 : Nat) = 8 + 1 from rfl,
      alone_succ, show (8 : Nat) = 7 + 1 from rfl, alone_succ]
    simp only [adv]
    exact ⟨_, alone_store7 sp q _ _⟩
  obtain ⟨w, e1⟩ := e1
  have e2 : ∃ w', alone adv w (cleanupProg true q.id .done) 4 = (w', .done) ∧ chunksOf w' q.id = [] := by
    refine ⟨_, rfl, ?_⟩
    exact (view_dropDoc true q.id _).2
  obtain ⟨w', e2, e3⟩ := e2
  have hrace : race sp true s [.delete q.id, .save q] (([0] ++ List.replicate 12 1) ++ (List.replicate 4 0 ++ [1])) =
      (upsertRecord ⟨q.id, q.title, q.content, d.version + 1⟩ w', [.done, .done]) := by
    have a0 : race sp true s [.delete q.id, .save q] [0] = (s, [cleanupProg true q.id .done, progOf sp true (.save q)]) := by
      simp [race, runAll, stepAt, progOf, h0, adv, hd]
    unfold race runAll at a0 ⊢
    rw [List.foldl_append, List.foldl_append (l := [0]), a0, List.foldl_append]
    have b0 := runAll_block [cleanupProg true q.id .done, progOf sp true (.save q)] s 1 (progOf sp true (.save q)) 12 (by simp)
    rw [e1] at b0
    unfold runAll at b0
    simp only [List.set_cons_succ, List.set_cons_zero] at b0
    rw [b0]
    have b1 := runAll_block [cleanupProg true q.id .done, .act (upsertRecord ⟨q.id, q.title, q.content, d.version + 1⟩) .done] w 0
      (cleanupProg true q.id .done) 4 (by simp)
    rw [e2] at b1
    unfold runAll at b1
    simp only [List.set_cons_zero] at b1
    rw [b1]
    rfl
  refine ⟨([0] ++ List.replicate 12 1) ++ (List.replicate 4 0 ++ [1]), ?_, ?_, ?_⟩
  · rw [hrace]; simp [Returned]
  · rw [hrace]; exact getDoc_upsertRecord _ _
  · rw [hrace]
    simp only [chunksOf, upsertRecord_rows] at e3 ⊢
    exact e3

/-- A save that is not interrupted, of an item that is stored, or is not: 13 or 9 statements. -/
theorem alone_save13 (sp : Char → Bool) (q : SaveReq) (d : Doc) (s : State) (h0 : q.id ≠ []) (h1 : trim sp q.content ≠ [])
    (hd : getDoc s q.id = some d) : ∃ w, alone adv s (progOf sp true (.save q)) 12 =
      (w, .act (upsertRecord ⟨q.id, q.title, q.content, d.version + 1⟩) .done) ∧
      (getDoc w q.id).isSome ∧ chunksOf w q.id = chunkRows sp q.opts q.id q.content := by
  simp only [progOf, if_neg h0, if_neg h1]
  rw [show (12 : Nat) = 11 + 1 from rfl, alone_succ]
  simp only [adv, hd, cleanupProg]
  rw [show (11 : Nat) = 10 + 1 from rfl, alone_succ, show (10 : Nat) = 9 + 1 from rfl, alone_succ, show (9 : Nat) = 8 + 1 from rfl,
    alone_succ, show (8 : Nat) = 7 + 1 from rfl, alone_succ]
  simp only [adv]
  refine ⟨_, alone_store7 sp q _ _, ?_, ?_⟩
  · unfold ingested
    simp only [ingestSteps, List.foldl_cons, List.foldl_nil, _root_.id]
    simp only [getDoc, (foldl_addNode _ _).1, putRows]
    have : ∀ (w : State) (n : Text), (addNode n w).docs = w.docs := fun w n => by unfold addNode; split <;> rfl
    rw [this]
    rw [← getDoc, getDoc_upsertDocRecord]
    simp
  · refine chunksOf_of_rows (ingest_rows _ _ _ _ _ _) ?_ (fun r hr => (chunkRows_doc hr).1)
    intro r hr
    have := (List.mem_filter.1 hr).1
    simp only [dropDoc, if_true, List.mem_filter, bne_iff_ne, ne_eq] at this
    exact this.2

/-- C209 is violated in every state that holds the item, for all saves of it: one goroutine is about to write its record when the other
one replaces everything; then it writes the record. Both calls return; the document is the one of the first, and the chunks are exactly
those of the second. -/
theorem C209_any_crossed_violated (sp : Char → Bool) (s : State) (q q' : SaveReq) (d : Doc) (hid : q'.id = q.id) (h0 : q.id ≠ [])
    (h1 : trim sp q.content ≠ []) (h2 : trim sp q'.content ≠ []) (hd : getDoc s q.id = some d) :
    ∃ sched, Returned (race sp true s [.save q, .save q'] sched).2 ∧
      getDoc (race sp true s [.save q, .save q'] sched).1 q.id = some ⟨q.id, q.title, q.content, d.version + 1⟩ ∧
      chunksOf (race sp true s [.save q, .save q'] sched).1 q.id = chunkRows sp q'.opts q.id q'.content := by
  obtain ⟨w, e1, e2, _⟩ := alone_save13 sp q d s h0 h1 hd
  obtain ⟨d', hd'⟩ := Option.isSome_iff_exists.1 e2
  obtain ⟨w', f1, _, f3⟩ := alone_save13 sp q' d' w (by rw [hid]; exact h0) h2 (by rw [hid]; exact hd')
  have f4 : alone adv w (progOf sp true (.save q')) 13 = (upsertRecord ⟨q'.id, q'.title, q'.content, d'.version + 1⟩ w', .done) := by
    rw [alone, f1]; rfl
  have hrace : race sp true s [.save q, .save q'] (List.replicate 12 0 ++ (List.replicate 13 1 ++ [0])) =
      (upsertRecord ⟨q.id, q.title, q.content, d.version + 1⟩ (upsertRecord ⟨q'.id, q'.title, q'.content, d'.version + 1⟩ w'),
        [.done, .done]) := by
    unfold race runAll
    rw [List.foldl_append, List.foldl_append]
    have b0 := runAll_block [progOf sp true (.save q), progOf sp true (.save q')] s 0 (progOf sp true (.save q)) 12 (by simp)
    rw [e1] at b0
    unfold runAll at b0
    simp only [List.set_cons_zero] at b0
    simp only [List.map_cons, List.map_nil]
    rw [b0]
    have b1 := runAll_block [.act (upsertRecord ⟨q.id, q.title, q.content, d.version + 1⟩) .done, progOf sp true (.save q')] w 1
      (progOf sp true (.save q')) 13 (by simp)
    rw [f4] at b1
    unfold runAll at b1
    simp only [List.set_cons_succ, List.set_cons_zero] at b1
    rw [b1]
    rfl
  refine ⟨List.replicate 12 0 ++ (List.replicate 13 1 ++ [0]), ?_, ?_, ?_⟩
  · rw [hrace]; simp [Returned]
  · rw [hrace]; exact getDoc_upsertRecord _ _
  · rw [hrace]
    simp only [chunksOf, upsertRecord_rows] at f3 ⊢
    rw [hid] at f3
    exact f3

/-- C86, exactly: ingesting a document again leaves, in every state, the chunks of the new text and all the old ones whose number is
beyond them, in this order: a shorter text never replaces the end of a longer one. -/
theorem C86_leftover_violated (sp : Char → Bool) (o : IngestOpts) (s : State) (id t c : Text)
    (hok : (insertGraphDocument sp o none s id t c).2 = true) :
    chunksOf (insertGraphDocument sp o none s id t c).1 id =
      (chunksOf s id).filter (fun r => decide (∀ i, i < (ingestChunks sp c o).length → r.id ≠ chunkId id i)) ++ chunkRows sp o id c := by
  have hex : (insertGraphDocument sp o none s id t c) = ((ingestSteps sp o id t c).foldl (fun s f => f s) s, true) := by
    unfold insertGraphDocument at hok ⊢
    split at hok
    · cases hok
    rename_i h1
    split at hok
    · cases hok
    rename_i h2
    split at hok
    · cases hok
    rename_i h3
    rw [if_neg h1, if_neg h2, if_neg h3]; rfl
  rw [hex]
  unfold chunksOf
  rw [ingest_rows, List.filter_append, List.filter_filter, List.filter_filter]
  congr 1
  · refine List.filter_congr fun r _ => ?_
    rw [chunkRows_ids]
    rw [Bool.and_comm]
    congr 1
    rw [Bool.eq_iff_iff]
    simp only [Bool.not_eq_true', List.contains_eq_mem, decide_eq_false_iff_not, decide_eq_true_eq, List.mem_map, List.mem_range,
      not_exists, not_and]
    exact ⟨fun h i hi he => h i hi he.symm, fun h i hi he => h i hi he.symm⟩
  · exact List.filter_eq_self.2 (fun r hr => by simpa using (chunkRows_doc hr).1)

/-! ### The hypotheses can be met -/

example : (insertGraphDocument (· == ' ') { chunkSize := 1, chunkOverlap := 0 } none twoChunks ['d'] ['t'] ['z']).2 = true ∧
    (chunksOf twoChunks ['d']).map (·.id) = [chunkId ['d'] 0, chunkId ['d'] 1] ∧
    (ingestChunks (· == ' ') ['z'] { chunkSize := 1, chunkOverlap := 0 }).length = 1 := by decide +kernel


example : 1 < (ingestChunks (· == ' ') saveLong.content saveLong.opts).length ∧
    (ingestChunks (· == ' ') saveShort.content saveShort.opts).length ≤ 1 ∧ getDoc init saveLong.id = none ∧
    trim (· == ' ') saveLong.content ≠ [] ∧ trim (· == ' ') saveShort.content ≠ [] ∧
    getDoc (save (· == ' ') true none init saveShort).1 saveLong.id = some ⟨['d'], ['s'], ['z'], 1⟩ := by decide +kernel

end Verif.Knowledge
