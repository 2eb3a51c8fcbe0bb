import Verif.Model.KnowRace
import Verif.Thm.KnowledgeDocs

/-!
C209: calls of the knowledge API from several goroutines. Calls on different items do not disturb each other, at any moment of any
schedule. Saves of one item leave the text of one of them, but not its chunks.
-/
namespace Verif.Knowledge
open Verif.Base Verif.Rag

/-! ### One goroutine alone -/

theorem alone_succ {W T : Type*} (a : W → T → W × T) (w : W) (t : T) (n : Nat) :
    alone a w t (n + 1) = alone a (a w t).1 (a w t).2 n := by
  induction n with
  | zero => rfl
  | succ n ih => rw [alone, ih]; rfl

theorem alone_done (s : State) (n : Nat) : alone adv s .done n = (s, .done) := by
  induction n with
  | zero => rfl
  | succ n ih => rw [alone, ih]; rfl

/-- `p`, started in `s`, carries out the steps `fs` and no others. -/
def Sim (s : State) (p : Prog) (fs : List Step) : Prop :=
  ∀ n, (alone adv s p n).1 = (fs.take n).foldl (fun s f => f s) s ∧
    ((alone adv s p n).2 = .done → (alone adv s p n).1 = fs.foldl (fun s f => f s) s)

theorem sim_done (s : State) : Sim s .done [] := fun n => by rw [alone_done]; simp

theorem sim_act {s : State} {f : Step} {k : Prog} {fs : List Step} (h : Sim (f s) k fs) : Sim s (.act f k) (f :: fs) := by
  intro n
  cases n with
  | zero => exact ⟨rfl, fun h => by simp [alone] at h⟩
  | succ n => rw [alone_succ]; exact h n

theorem sim_look {s : State} {id : Text} {k : Option Doc × List Row → Prog} {fs : List Step}
    (h : Sim s (k (view s id)) fs) : Sim s (.look id k) (_root_.id :: fs) := by
  intro n
  cases n with
  | zero => exact ⟨rfl, fun h => by simp [alone] at h⟩
  | succ n => rw [alone_succ]; exact h n

theorem sim_acts {k : Prog} {gs : List Step} : ∀ (fs : List Step) (s : State),
    Sim (fs.foldl (fun s f => f s) s) k gs → Sim s (.acts fs k) (fs ++ gs) := by
  intro fs
  induction fs with
  | nil => intro s h; exact h
  | cons f fs ih => intro s h; exact sim_act (ih (f s) h)

theorem sim_store (sp : Char → Bool) (o : IngestOpts) (d : Doc) (s : State) :
    Sim s (storeProg sp o d) (ingestSteps sp o d.id d.title d.content ++ [upsertRecord d]) :=
  sim_acts _ _ (sim_act (sim_done _))

theorem sim_cleanup (fk : Bool) (s : State) (id : Text) {k : Prog} {gs : List Step} (h : ∀ s, Sim s k gs) :
    Sim s (cleanupProg fk id k) (cleanupSteps fk s id ++ gs) :=
  sim_act (sim_look (sim_act (sim_act (h _))))

/-- The call as an operation of the sequential model, with the fault that meets it. -/
def Call.op (f : Option Nat) : Call → Op
  | .save q => .save q f
  | .update q => .update q f
  | .delete id => .delete id f
  | .ingest o id t c => .ingest o id t c f

/-- The item a call is about. -/
def Call.target : Call → Text
  | .save q => q.id
  | .update q => q.id
  | .delete id => id
  | .ingest _ id _ _ => id

theorem exec_some (steps : List Step) (n : Nat) (s : State) :
    (exec steps (some n) s).1 = (steps.take n).foldl (fun s f => f s) s := by
  unfold exec
  simp only
  split
  · rfl
  · rw [List.take_of_length_le (by omega)]

theorem exec_ids (f : Option Nat) (s : State) : (exec [_root_.id] f s).1 = s := by
  cases f with
  | none => rfl
  | some n => rw [exec_some]; cases n <;> simp

/-- A goroutine alone does what the sequential call does, cut off where it stands. -/
theorem alone_call (sp : Char → Bool) (fk : Bool) (c : Call) (s : State) (n : Nat) :
    (∃ fault, (alone adv s (progOf sp fk c) n).1 = step sp fk s (c.op fault)) ∧
    ((alone adv s (progOf sp fk c) n).2 = .done → (alone adv s (progOf sp fk c) n).1 = step sp fk s (c.op none)) := by
  have key : ∀ (p : Prog) (fs : List Step), Sim s p fs → (∀ f, step sp fk s (c.op f) = (exec fs f s).1) →
      (∃ fault, (alone adv s p n).1 = step sp fk s (c.op fault)) ∧
      ((alone adv s p n).2 = .done → (alone adv s p n).1 = step sp fk s (c.op none)) := by
    intro p fs h1 h2
    refine ⟨⟨some n, ?_⟩, fun hd => ?_⟩
    · rw [h2, exec_some]; exact (h1 n).1
    · rw [h2]; exact (h1 n).2 hd
  have triv : (∀ f, step sp fk s (c.op f) = s) →
      (∃ fault, (alone adv s Prog.done n).1 = step sp fk s (c.op fault)) ∧
      ((alone adv s Prog.done n).2 = .done → (alone adv s Prog.done n).1 = step sp fk s (c.op none)) := by
    intro h; rw [alone_done]; exact ⟨⟨none, (h none).symm⟩, fun _ => (h none).symm⟩
  cases c with
  | save q =>
    simp only [progOf]
    by_cases h1 : q.id = []
    · rw [if_pos h1]; exact triv (fun f => by simp [step, Call.op, save, h1])
    by_cases h2 : trim sp q.content = []
    · rw [if_neg h1, if_pos h2]; exact triv (fun f => by simp [step, Call.op, save, h2])
    rw [if_neg h1, if_neg h2]
    cases hd : getDoc s q.id with
    | none =>
      refine key _ _ (sim_look (by simp only [view, hd]; exact sim_store _ _ _ _)) (fun f => ?_)
      simp [step, Call.op, save, h1, h2, saveSteps, hd]
    | some d =>
      refine key _ _ (sim_look (by simp only [view, hd]; exact sim_cleanup _ _ _ (fun _ => sim_store _ _ _ _))) (fun f => ?_)
      simp [step, Call.op, save, h1, h2, saveSteps, hd]
  | update q =>
    simp only [progOf]
    by_cases h1 : q.id = []
    · rw [if_pos h1]; exact triv (fun f => by simp [step, Call.op, update, h1])
    rw [if_neg h1]
    cases hd : getDoc s q.id with
    | none =>
      refine key _ _ (sim_look (by simp only [view, hd]; exact sim_done _)) (fun f => ?_)
      simp only [step, Call.op, update, h1, hd, if_false]
      rw [exec_ids]
    | some d =>
      cases hc : q.content with
      | some c =>
        by_cases h2 : trim sp c = []
        · refine key _ _ (sim_look (by simp only [view, hd]; rw [if_pos h2]; exact sim_done _)) (fun f => ?_)
          simp only [step, Call.op, update, h1, hd, if_false, hc, h2, if_true]
          rw [exec_ids]
        · refine key _ _ (sim_look (by
            simp only [view, hd]; rw [if_neg h2]; exact sim_cleanup _ _ _ (fun _ => sim_store _ _ _ _))) (fun f => ?_)
          simp [step, Call.op, update, h1, h2, hd, hc]
      | none =>
        by_cases h2 : q.title.isSome = true
        · refine key _ _ (sim_look (by
            simp only [view, hd]; rw [if_pos h2]; exact sim_cleanup _ _ _ (fun _ => sim_store _ _ _ _))) (fun f => ?_)
          simp [step, Call.op, update, h1, h2, hd, hc]
        · refine key _ _ (sim_look (by
            simp only [view, hd]; rw [if_neg h2]; exact sim_act (sim_done _))) (fun f => ?_)
          simp [step, Call.op, update, h1, h2, hd, hc]
  | delete id =>
    simp only [progOf]
    by_cases h1 : id = []
    · rw [if_pos h1]; exact triv (fun f => by simp [step, Call.op, delete, h1])
    rw [if_neg h1]
    cases hd : getDoc s id with
    | none =>
      refine key _ _ (sim_look (by simp only [view, hd]; exact sim_done _)) (fun f => ?_)
      simp only [step, Call.op, delete, h1, hd, if_false]
      rw [exec_ids]
    | some d =>
      have hs : Sim s (.look id (fun v => match v.1 with | none => .done | some _ => cleanupProg fk id .done))
          (_root_.id :: cleanupSteps fk s id) := by
        have := sim_cleanup fk s id (k := .done) (gs := []) (fun _ => sim_done _)
        rw [List.append_nil] at this
        exact sim_look (by simp only [view, hd]; exact this)
      have hst : ∀ f, step sp fk s (Call.op f (.delete id)) = (exec (cleanupSteps fk s id) f s).1 := by
        intro f; simp [step, Call.op, delete, h1, hd]
      refine ⟨⟨some (n - 1), ?_⟩, fun hdn => ?_⟩
      · rw [hst, exec_some]
        refine (hs n).1.trans ?_
        cases n with
        | zero => rfl
        | succ n => rfl
      · rw [hst]; exact (hs n).2 hdn
  | ingest o id t c =>
    simp only [progOf]
    by_cases h1 : id = []
    · rw [if_pos h1]; exact triv (fun f => by simp [step, Call.op, insertGraphDocument, h1])
    by_cases h2 : trim sp c = []
    · rw [if_neg h1, if_pos h2]; exact triv (fun f => by simp [step, Call.op, insertGraphDocument, h2])
    by_cases h3 : ingestChunks sp c o = []
    · rw [if_neg h1, if_neg h2, if_pos h3]; exact triv (fun f => by simp [step, Call.op, insertGraphDocument, h3])
    rw [if_neg h1, if_neg h2, if_neg h3]
    refine key _ _ (sim_acts _ _ (sim_done _)) (fun f => ?_)
    simp [step, Call.op, insertGraphDocument, h1, h2, h3]

/-! ### Own part and the parts of others -/

/-- The step leaves other items alone and what it makes of `id` depends on `id` alone. -/
def Own (id : Text) (f : Step) : Prop :=
  Local id f ∧ ∀ s s', view s id = view s' id → view (f s) id = view (f s') id

theorem own_id (id : Text) : Own id _root_.id := ⟨local_id id, fun _ _ h => h⟩

theorem own_nodes (id : Text) (f : Step) (hd : ∀ s, (f s).docs = s.docs) (hr : ∀ s, (f s).rows = s.rows) : Own id f := by
  refine ⟨local_nodes id f hd hr, fun s s' h => ?_⟩
  simpa [view, getDoc, chunksOf, hd, hr] using h

theorem view_eq {s s' : State} {id : Text} : view s id = view s' id ↔ getDoc s id = getDoc s' id ∧ chunksOf s id = chunksOf s' id := by
  simp [view]

theorem own_docRecord (id t c : Text) : Own id (upsertDocRecord id t c) := by
  refine ⟨local_docRecord _ _ _, fun s s' h => ?_⟩
  rw [view_eq] at h ⊢
  rw [getDoc_upsertDocRecord, getDoc_upsertDocRecord, h.1]
  refine ⟨rfl, ?_⟩
  simp only [chunksOf, upsertDocRecord_rows]
  exact h.2

theorem own_upsertRecord (d : Doc) : Own d.id (upsertRecord d) := by
  refine ⟨local_upsertRecord d, fun s s' h => ?_⟩
  rw [view_eq] at h ⊢
  rw [getDoc_upsertRecord, getDoc_upsertRecord]
  refine ⟨rfl, ?_⟩
  simp only [chunksOf, upsertRecord_rows]
  exact h.2

theorem view_dropDoc (fk : Bool) (id : Text) (s : State) :
    getDoc (dropDoc fk id s) id = none ∧ chunksOf (dropDoc fk id s) id = if fk then [] else chunksOf s id := by
  constructor
  · simp [getDoc, dropDoc, List.find?_eq_none]
  · cases fk <;> simp [chunksOf, dropDoc, List.filter_eq_nil_iff]

theorem own_dropDoc (fk : Bool) (id : Text) : Own id (dropDoc fk id) := by
  refine ⟨local_dropDoc fk id, fun s s' h => ?_⟩
  rw [view_eq] at h ⊢
  rw [(view_dropDoc fk id s).1, (view_dropDoc fk id s').1, (view_dropDoc fk id s).2, (view_dropDoc fk id s').2, h.2]
  exact ⟨rfl, rfl⟩

theorem chunksOf_putRows (sp : Char → Bool) (o : IngestOpts) (id c : Text) (s : State) :
    chunksOf (putRows (chunkRows sp o id c) s) id =
      (chunksOf s id).filter (fun x => !((chunkRows sp o id c).map (·.id)).contains x.id) ++ chunkRows sp o id c := by
  have he : (putRows (chunkRows sp o id c) s).rows =
      s.rows.filter (fun x => !((chunkRows sp o id c).map (·.id)).contains x.id) ++ chunkRows sp o id c :=
    putRows_eq _ (chunkRows_nodup _ _ _ _) _
  simp only [chunksOf]
  rw [he, List.filter_append]
  have : (chunkRows sp o id c).filter (fun r => r.doc == id) = chunkRows sp o id c := by
    rw [List.filter_eq_self]
    intro r hr
    simp [(chunkRows_doc hr).1]
  rw [this, List.filter_filter, List.filter_filter]
  congr 1
  apply List.filter_congr
  intro r _
  rw [Bool.and_comm]

theorem own_putRows (sp : Char → Bool) (o : IngestOpts) (id c : Text) : Own id (putRows (chunkRows sp o id c)) := by
  refine ⟨local_putRows _ _ _ _, fun s s' h => ?_⟩
  rw [view_eq] at h ⊢
  rw [chunksOf_putRows, chunksOf_putRows, h.2]
  exact ⟨h.1, rfl⟩

theorem own_ingest (sp : Char → Bool) (o : IngestOpts) (id t c : Text) : ∀ f ∈ ingestSteps sp o id t c, Own id f := by
  intro f hf
  simp only [ingestSteps, List.mem_cons, List.not_mem_nil, or_false] at hf
  rcases hf with rfl | rfl | rfl | rfl | rfl | rfl | rfl
  · exact own_id _
  · exact own_docRecord _ _ _
  · apply own_nodes <;> intro s <;> unfold addNode <;> split <;> rfl
  · exact own_id _
  · exact own_putRows _ _ _ _
  · exact own_nodes _ _ (fun s => (foldl_addNode _ s).1) (fun s => (foldl_addNode _ s).2)
  · exact own_id _

/-- All the statements of the program are about `id`. -/
inductive About (id : Text) : Prog → Prop
  | done : About id .done
  | act {f k} (hf : Own id f) (hk : About id k) : About id (.act f k)
  | look {k} (hk : ∀ v, About id (k v)) : About id (.look id k)

theorem about_acts {id : Text} {k : Prog} (hk : About id k) : ∀ fs : List Step, (∀ f ∈ fs, Own id f) → About id (.acts fs k)
  | [], _ => hk
  | _ :: fs, h => .act (h _ List.mem_cons_self) (about_acts hk fs (fun g hg => h g (List.mem_cons_of_mem _ hg)))

theorem about_store (sp : Char → Bool) (o : IngestOpts) (d : Doc) : About d.id (storeProg sp o d) :=
  about_acts (.act (own_upsertRecord d) .done) _ (own_ingest _ _ _ _ _)

theorem about_cleanup (fk : Bool) (id : Text) {k : Prog} (hk : About id k) : About id (cleanupProg fk id k) :=
  .act (own_id _) (.look fun _ => .act (own_nodes _ _ (fun _ => rfl) (fun _ => rfl)) (.act (own_dropDoc _ _) hk))

theorem about_prog (sp : Char → Bool) (fk : Bool) (c : Call) : About c.target (progOf sp fk c) := by
  cases c with
  | save q =>
    simp only [progOf]
    split
    · exact .done
    split
    · exact .done
    refine .look fun v => ?_
    split
    · exact about_cleanup _ _ (about_store sp q.opts ⟨q.id, _, _, _⟩)
    · exact about_store sp q.opts ⟨q.id, _, _, _⟩
  | update q =>
    simp only [progOf]
    split
    · exact .done
    refine .look fun v => ?_
    split
    · exact .done
    split
    · split
      · exact .done
      · exact about_cleanup _ _ (about_store sp q.opts ⟨q.id, _, _, _⟩)
    · split
      · exact about_cleanup _ _ (about_store sp q.opts ⟨q.id, _, _, _⟩)
      · exact .act (own_upsertRecord ⟨q.id, _, _, _⟩) .done
  | delete id =>
    simp only [progOf]
    split
    · exact .done
    refine .look fun v => ?_
    split
    · exact .done
    · exact about_cleanup _ _ .done
  | ingest o id t c =>
    simp only [progOf]
    split
    · exact .done
    split
    · exact .done
    split
    · exact .done
    exact about_acts .done _ (own_ingest _ _ _ _ _)

theorem about_adv {id : Text} {p : Prog} (h : About id p) (s : State) (hs : WF s) :
    WF (adv s p).1 ∧ About id (adv s p).2 ∧ ∀ k, k ≠ id → view (adv s p).1 k = view s k := by
  cases h with
  | done => exact ⟨hs, .done, fun _ _ => rfl⟩
  | act hf hk => exact ⟨(hf.1 s hs).1, hk, (hf.1 s hs).2⟩
  | look hk => exact ⟨hs, hk _, fun _ _ => rfl⟩

theorem about_same {id : Text} {p : Prog} (h : About id p) (s s' : State) (hv : view s id = view s' id) :
    (adv s p).2 = (adv s' p).2 ∧ view (adv s p).1 id = view (adv s' p).1 id := by
  cases h with
  | done => exact ⟨rfl, hv⟩
  | act hf hk => exact ⟨rfl, hf.2 _ _ hv⟩
  | @look k hk =>
    refine ⟨?_, hv⟩
    show k (view s id) = k (view s' id)
    rw [hv]

/-! ### C209 -/

/-- C209, proved part: calls on different items. At every moment of every schedule, each item named in a call is as the call by
itself, cut off at some step, leaves it; once the call has returned, as the whole call by itself leaves it; and every other item is
as it was. For all items, calls, schedules and all well formed starting states. Without "different items" it is false, see
`C209_mixed_violated`. -/
theorem C209_apart_partial (sp : Char → Bool) (fk : Bool) (s : State) (calls : List Call) (sched : List Nat) (hs : WF s)
    (hne : (calls.map Call.target).Nodup) :
    (∀ (i : Nat) (c : Call), calls[i]? = some c →
      (∃ fault, view (race sp fk s calls sched).1 c.target = view (step sp fk s (c.op fault)) c.target) ∧
      ((race sp fk s calls sched).2[i]? = some Prog.done →
        view (race sp fk s calls sched).1 c.target = view (step sp fk s (c.op none)) c.target)) ∧
    ∀ k, k ∉ calls.map Call.target → view (race sp fk s calls sched).1 k = view s k := by
  constructor
  · have h := runAll_alone adv WF (fun i p => ∃ c, calls[i]? = some c ∧ About (Call.target c) p)
      (fun i s => (calls[i]?).map (fun c => view s (Call.target c))) calls.length ?_ ?_ ?_ ?_ s (calls.map (progOf sp fk)) (by simp) hs ?_ sched
    · intro i c hc
      have ht : (calls.map (progOf sp fk))[i]? = some (progOf sp fk c) := by simp [hc]
      obtain ⟨h1, h2, _, _⟩ := h.2.2 i _ ht
      simp only [hc, Option.map_some, Option.some.injEq] at h2
      obtain ⟨⟨f, ha⟩, hb⟩ := alone_call sp fk c s (sched.count i)
      refine ⟨⟨f, ?_⟩, fun hd => ?_⟩
      · unfold race; rw [h2, ha]
      · unfold race at hd ⊢
        rw [h1, Option.some.injEq] at hd
        rw [h2, hb hd]
    · rintro i w p hw ⟨c, hc, hp⟩
      exact (about_adv hp w hw).1
    · rintro i w p hw ⟨c, hc, hp⟩
      exact ⟨c, hc, (about_adv hp w hw).2.1⟩
    · rintro i w w' p hw hw' ⟨c, hc, hp⟩ hv
      simp only [hc, Option.map_some, Option.some.injEq] at hv ⊢
      exact about_same hp w w' hv
    · rintro i j w p hi hj hij hw ⟨c, hc, hp⟩
      rw [List.getElem?_eq_getElem hi]
      simp only [Option.map_some, Option.some.injEq]
      refine (about_adv hp w hw).2.2 _ (fun he => hij ?_)
      have hj' := List.getElem?_eq_some_iff.1 hc
      refine (List.Nodup.getElem_inj_iff hne (hi := by simpa using hi) (hj := by simpa using hj)).1 ?_
      simp only [List.getElem_map]
      rw [he, hj'.2]
    · intro i p hp
      rw [List.getElem?_map] at hp
      obtain ⟨c, hc, rfl⟩ := Option.map_eq_some_iff.1 hp
      exact ⟨c, hc, about_prog sp fk c⟩
  · intro k hk
    refine (runAll_induct adv (fun w ts => WF w ∧ view w k = view s k ∧ ∀ p ∈ ts, ∃ id, id ≠ k ∧ About id p) ?_ s _
      ⟨hs, rfl, ?_⟩ sched).2.1
    · rintro w ts i p ⟨h1, h2, h3⟩ hp
      obtain ⟨id, hid, ha⟩ := h3 p (List.mem_of_getElem? hp)
      obtain ⟨b1, b2, b3⟩ := about_adv ha w h1
      refine ⟨b1, (b3 k (Ne.symm hid)).trans h2, fun q hq => ?_⟩
      rcases List.mem_or_eq_of_mem_set hq with hq | rfl
      · exact h3 q hq
      · exact ⟨id, hid, b2⟩
    · intro p hp
      obtain ⟨c, hc, rfl⟩ := List.mem_map.1 hp
      exact ⟨c.target, fun he => hk (he ▸ List.mem_map.2 ⟨c, hc, rfl⟩), about_prog sp fk c⟩

/-! ### Saves of one item -/

/-- The program ends by writing the record of request `q`. -/
inductive Ends (q : SaveReq) : Prog → Prop
  | last (v : Nat) : Ends q (.act (upsertRecord ⟨q.id, q.title, q.content, v⟩) .done)
  | act {f k} (hk : Ends q k) : Ends q (.act f k)
  | look {id k} (hk : ∀ v, Ends q (k v)) : Ends q (.look id k)

theorem ends_acts {q : SaveReq} {k : Prog} (hk : Ends q k) : ∀ fs : List Step, Ends q (.acts fs k)
  | [] => hk
  | _ :: fs => .act (ends_acts hk fs)

theorem ends_save (sp : Char → Bool) (fk : Bool) (q : SaveReq) (h1 : q.id ≠ []) (h2 : trim sp q.content ≠ []) :
    Ends q (progOf sp fk (.save q)) := by
  simp only [progOf, if_neg h1, if_neg h2]
  refine .look fun v => ?_
  split
  · exact .act (.look fun _ => .act (.act (ends_acts (.last _) _)))
  · exact ends_acts (.last _) _

/-- The program will, before it ends, delete the document `id` with its chunks, if the document is there until then. -/
inductive Clears (id : Text) : Prog → Prop
  | drop {k} : Clears id (.act (dropDoc true id) k)
  | act {f k} (hf : ∀ s, (getDoc (f s) id).isSome = (getDoc s id).isSome) (hk : Clears id k) : Clears id (.act f k)
  | look {k} (hk : ∀ v, v.1.isSome → Clears id (k v)) : Clears id (.look id k)

theorem clears_save (sp : Char → Bool) (q : SaveReq) (h1 : q.id ≠ []) (h2 : trim sp q.content ≠ []) :
    Clears q.id (progOf sp true (.save q)) := by
  simp only [progOf, if_neg h1, if_neg h2]
  refine .look fun v hv => ?_
  split
  · exact .act (fun _ => rfl) (.look fun _ _ => .act (fun _ => rfl) .drop)
  · rename_i h; rw [h] at hv; cases hv

/-- Every statement leaves under `id` chunks it found there or chunks satisfying `P`. -/
inductive Puts (id : Text) (P : Row → Prop) : Prog → Prop
  | done : Puts id P .done
  | act {f k} (hf : ∀ s, ∀ r ∈ chunksOf (f s) id, r ∈ chunksOf s id ∨ P r) (hk : Puts id P k) : Puts id P (.act f k)
  | look {i k} (hk : ∀ v, Puts id P (k v)) : Puts id P (.look i k)

theorem puts_acts {id : Text} {P : Row → Prop} {k : Prog} (hk : Puts id P k) : ∀ fs : List Step,
    (∀ f ∈ fs, ∀ s, ∀ r ∈ chunksOf (f s) id, r ∈ chunksOf s id ∨ P r) → Puts id P (.acts fs k)
  | [], _ => hk
  | _ :: fs, h => .act (h _ List.mem_cons_self) (puts_acts hk fs (fun g hg => h g (List.mem_cons_of_mem _ hg)))

theorem puts_store (sp : Char → Bool) (o : IngestOpts) (d : Doc) :
    Puts d.id (· ∈ chunkRows sp o d.id d.content) (storeProg sp o d) := by
  have hrows : ∀ (f : Step), (∀ s, (f s).rows = s.rows) → ∀ s, ∀ r ∈ chunksOf (f s) d.id,
      r ∈ chunksOf s d.id ∨ r ∈ chunkRows sp o d.id d.content := by
    intro f hf s r hr
    simp only [chunksOf, hf] at hr
    exact Or.inl hr
  refine puts_acts (.act (hrows _ (upsertRecord_rows d)) .done) _ ?_
  intro f hf
  simp only [ingestSteps, List.mem_cons, List.not_mem_nil, or_false] at hf
  rcases hf with rfl | rfl | rfl | rfl | rfl | rfl | rfl
  · exact hrows _ (fun _ => rfl)
  · exact hrows _ (upsertDocRecord_rows _ _ _)
  · exact hrows _ (addNode_rows _)
  · exact hrows _ (fun _ => rfl)
  · intro s r hr
    rw [chunksOf_putRows] at hr
    rcases List.mem_append.1 hr with hr | hr
    · exact Or.inl (List.mem_filter.1 hr).1
    · exact Or.inr hr
  · exact hrows _ (fun s => (foldl_addNode _ s).2)
  · exact hrows _ (fun _ => rfl)

theorem puts_save (sp : Char → Bool) (q : SaveReq) :
    Puts q.id (· ∈ chunkRows sp q.opts q.id q.content) (progOf sp true (.save q)) := by
  simp only [progOf]
  split
  · exact .done
  split
  · exact .done
  refine .look fun v => ?_
  have hst := fun v => puts_store sp q.opts ⟨q.id, q.title, q.content, v⟩
  split
  · refine .act (fun _ _ h => Or.inl h) (.look fun _ => .act (fun _ _ h => Or.inl h) (.act ?_ (hst _)))
    intro s r hr
    rw [(view_dropDoc true q.id s).2] at hr
    simp at hr
  · exact hst _

theorem Puts.mono {id : Text} {P Q : Row → Prop} (h : ∀ r, P r → Q r) {p : Prog} (hp : Puts id P p) : Puts id Q p := by
  induction hp with
  | done => exact .done
  | act hf _ ih => exact .act (fun s r hr => (hf s r hr).imp_right (h r)) ih
  | look _ ih => exact .look ih

/-- C209, proved part: any number of goroutines save the same item (valid requests, deletions cascading). Once all have returned, in
every schedule, the stored document has title and content of one of the requests, whole, and every chunk stored under it is a chunk
of the text of one of the requests: nothing of what was stored before is left. That document and chunks come from the same request is
false, see `C209_mixed_violated`. -/
theorem C209_sources_partial (sp : Char → Bool) (s : State) (id : Text) (qs : List SaveReq) (sched : List Nat) (ho : Owned s)
    (hid : ∀ q ∈ qs, q.id = id) (h1 : id ≠ []) (h2 : ∀ q ∈ qs, trim sp q.content ≠ []) (hne : qs ≠ [])
    (hret : Returned (race sp true s (qs.map .save) sched).2) :
    (∃ q ∈ qs, ∃ v, getDoc (race sp true s (qs.map .save) sched).1 id = some ⟨id, q.title, q.content, v⟩) ∧
    ∀ r ∈ chunksOf (race sp true s (qs.map .save) sched).1 id, ∃ q ∈ qs, r ∈ chunkRows sp q.opts id q.content := by
  let GoodDoc : State → Prop := fun w => ∃ q ∈ qs, ∃ v, getDoc w id = some ⟨id, q.title, q.content, v⟩
  let P : Row → Prop := fun r => ∃ q ∈ qs, r ∈ chunkRows sp q.opts id q.content
  let GoodRows : State → Prop := fun w => ∀ r ∈ chunksOf w id, P r
  have key := runAll_induct adv (fun w ts => ts ≠ [] ∧
      (∀ p ∈ ts, p = .done ∨ ∃ q ∈ qs, Ends q p) ∧ (GoodDoc w ∨ ∃ p ∈ ts, p ≠ .done) ∧
      (∀ p ∈ ts, Puts id P p) ∧ (GoodRows w ∨ (getDoc w id).isSome ∧ ∀ p ∈ ts, Clears id p)) ?_ s
      ((qs.map .save).map (progOf sp true)) ?_ sched
  · obtain ⟨k0, _, k2, _, k4⟩ := key
    refine ⟨?_, ?_⟩
    · rcases k2 with h | ⟨p, hp, hnd⟩
      · exact h
      · exact absurd (hret p hp) hnd
    · rcases k4 with h | ⟨_, h⟩
      · exact h
      · exfalso
        obtain ⟨p, hp⟩ := List.exists_mem_of_ne_nil _ k0
        have hc := h p hp
        rw [hret p hp] at hc
        cases hc
  · rintro w ts i p ⟨k0, k1, k2, k3, k4⟩ hp
    have hpm := List.mem_of_getElem? hp
    have hset : ∀ {p'}, p' ∈ ts.set i p' := fun {p'} => by
      apply List.mem_of_getElem? (i := i)
      rw [List.getElem?_set_self (List.getElem?_eq_some_iff.1 hp).1]
    refine ⟨fun h => k0 (by simpa using h), fun p' hp' => ?_, ?_, fun p' hp' => ?_, ?_⟩
    · rcases List.mem_or_eq_of_mem_set hp' with hp' | rfl
      · exact k1 p' hp'
      · rcases k1 p hpm with rfl | ⟨q, hq, he⟩
        · exact Or.inl rfl
        · cases he with
          | last v => exact Or.inl rfl
          | act hk => exact Or.inr ⟨q, hq, hk⟩
          | look hk => exact Or.inr ⟨q, hq, hk _⟩
    · have hends : ∀ q ∈ qs, ∀ p', Ends q p' → p' ≠ .done := by
        intro q _ p' he hd; rw [hd] at he; cases he
      rcases k1 p hpm with rfl | ⟨q, hq, he⟩
      · have : ts.set i (adv w .done).2 = ts := by
          apply List.ext_getElem? 
          intro j
          by_cases hj : i = j
          · subst hj
            rw [List.getElem?_set_self (List.getElem?_eq_some_iff.1 hp).1, hp]; rfl
          · rw [List.getElem?_set_ne hj]
        rw [this]; exact k2
      · cases he with
        | last v =>
          refine Or.inl ⟨q, hq, v, ?_⟩
          have := getDoc_upsertRecord ⟨q.id, q.title, q.content, v⟩ w
          rw [hid q hq] at this
          simpa [adv, hid q hq] using this
        | act hk => exact Or.inr ⟨_, hset, hends q hq _ hk⟩
        | look hk => exact Or.inr ⟨_, hset, hends q hq _ (hk _)⟩
    · rcases List.mem_or_eq_of_mem_set hp' with hp' | rfl
      · exact k3 p' hp'
      · have hpp := k3 p hpm
        cases hpp with
        | done => exact .done
        | act hf hk => exact hk
        | look hk => exact hk _
    · rcases k4 with k4 | ⟨k4, k5⟩
      · refine Or.inl fun r hr => ?_
        have hpp := k3 p hpm
        cases hpp with
        | done => exact k4 r hr
        | act hf hk => exact (hf w r hr).elim (k4 r) (fun h => h)
        | look hk => exact k4 r hr
      · have hc := k5 p hpm
        have hothers : ∀ p', Clears id p' → ∀ x ∈ ts.set i p', Clears id x := by
          intro p' hp' x hx
          rcases List.mem_or_eq_of_mem_set hx with hx | rfl
          · exact k5 x hx
          · exact hp'
        cases hc with
        | drop =>
          refine Or.inl fun r hr => ?_
          simp only [adv, (view_dropDoc true id w).2] at hr
          simp at hr
        | act hf hk => exact Or.inr ⟨by simp only [adv, hf]; exact k4, hothers _ hk⟩
        | look hk => exact Or.inr ⟨k4, hothers _ (hk _ k4)⟩
  · have hmem : ∀ p ∈ (qs.map Call.save).map (progOf sp true), ∃ q ∈ qs, p = progOf sp true (.save q) := by
      intro p hp
      simp only [List.map_map, List.mem_map, Function.comp] at hp
      obtain ⟨q, hq, rfl⟩ := hp
      exact ⟨q, hq, rfl⟩
    have hq1 : ∀ q ∈ qs, q.id ≠ [] := fun q hq => by rw [hid q hq]; exact h1
    refine ⟨by simpa using hne, fun p hp => ?_, Or.inr ?_, fun p hp => ?_, ?_⟩
    · obtain ⟨q, hq, rfl⟩ := hmem p hp
      exact Or.inr ⟨q, hq, ends_save sp true q (hq1 q hq) (h2 q hq)⟩
    · obtain ⟨q, hq⟩ := List.exists_mem_of_ne_nil _ hne
      refine ⟨progOf sp true (.save q), by simpa using ⟨q, hq, rfl⟩, fun hd => ?_⟩
      have he := ends_save sp true q (hq1 q hq) (h2 q hq)
      rw [hd] at he
      cases he
    · obtain ⟨q, hq, rfl⟩ := hmem p hp
      have := puts_save sp q
      rw [hid q hq] at this
      exact this.mono (fun r hr => ⟨q, hq, hr⟩)
    · cases hd : getDoc s id with
      | none =>
        refine Or.inl fun r hr => ?_
        simp only [chunksOf, List.mem_filter, beq_iff_eq] at hr
        have := ho r hr.1
        rw [hr.2, hd] at this
        cases this
      | some d =>
        refine Or.inr ⟨rfl, fun p hp => ?_⟩
        obtain ⟨q, hq, rfl⟩ := hmem p hp
        have := clears_save sp q (hq1 q hq) (h2 q hq)
        rwa [hid q hq] at this

/-! ### What is false -/

/-- Chunks of one word. -/
def oneWord : IngestOpts := { chunkSize := 1, chunkOverlap := 0 }

def saveLong : SaveReq := ⟨['d'], ['l'], ['x', ' ', 'y'], oneWord⟩
def saveShort : SaveReq := ⟨['d'], ['s'], ['z'], oneWord⟩

/-- Decidable form of "has returned". -/
def Prog.isDone : Prog → Bool
  | .done => true
  | _ => false

/-- C209 is violated for a new item: two goroutines save a text of two chunks and one of a single chunk. Both find no such item; the
long one is stored, then the short one. Both calls succeed; the document holds the short text, and the second chunk of the long text
is still stored under it. The version is 1 after two saves. -/
theorem C209_mixed_violated :
    let r := race (· == ' ') true init [.save saveLong, .save saveShort] ([0, 1] ++ List.replicate 10 0 ++ List.replicate 10 1)
    r.2.all Prog.isDone = true ∧ getDoc r.1 ['d'] = some ⟨['d'], ['s'], ['z'], 1⟩ ∧
      (chunksOf r.1 ['d']).map (·.content) = [['y'], ['z']] := by
  decide +kernel

/-- C209 is violated for a stored item too: the goroutine with the short text is about to write its record when the other one
replaces everything; then it writes the record. The document holds the short text, all the chunks are those of the long one, so a
search over the chunks never finds the stored text. Three saves were made, the version is 2. -/
theorem C209_crossed_violated :
    let s := (save (· == ' ') true none init saveShort).1
    let r := race (· == ' ') true s [.save saveLong, .save saveShort] (List.replicate 12 1 ++ List.replicate 13 0 ++ [1])
    r.2.all Prog.isDone = true ∧ getDoc r.1 ['d'] = some ⟨['d'], ['s'], ['z'], 2⟩ ∧
      (chunksOf r.1 ['d']).map (·.content) = [['x'], ['y']] := by
  decide +kernel

/-- A save and a delete of a stored item: the delete falls between the ingest of the save and its record. Both succeed; the item
exists, without any chunk. -/
theorem C209_delete_violated :
    let s := (save (· == ' ') true none init saveShort).1
    let r := race (· == ' ') true s [.delete ['d'], .save saveLong] (List.replicate 12 1 ++ List.replicate 5 0 ++ [1])
    r.2.all Prog.isDone = true ∧ getDoc r.1 ['d'] = some ⟨['d'], ['l'], ['x', ' ', 'y'], 2⟩ ∧ chunksOf r.1 ['d'] = [] := by
  decide +kernel

/-! ### The hypotheses can be met -/

theorem isDone_iff (p : Prog) : p.isDone = true ↔ p = .done := by cases p <;> simp [Prog.isDone]

def saveOther : SaveReq := ⟨['e'], ['o'], ['u', ' ', 'v'], oneWord⟩

/-- Two different items, statements taken in turn: both as saved. -/
example :
    let r := race (· == ' ') true init [.save saveLong, .save saveOther] (List.flatten (List.replicate 9 [0, 1]))
    r.2.all Prog.isDone = true ∧ ([Call.save saveLong, .save saveOther].map Call.target).Nodup ∧
      (chunksOf r.1 ['d']).map (·.content) = [['x'], ['y']] ∧ (chunksOf r.1 ['e']).map (·.content) = [['u'], ['v']] := by
  decide +kernel

example : WF init := wf_init

/-- The hypotheses of `C209_sources_partial` in the crossed schedule. -/
example :
    let s := (save (· == ' ') true none init saveShort).1
    Returned (race (· == ' ') true s ([saveLong, saveShort].map .save) (List.replicate 12 1 ++ List.replicate 13 0 ++ [1])).2 ∧
      Owned s ∧ (∀ q ∈ [saveLong, saveShort], q.id = ['d']) ∧ ∀ q ∈ [saveLong, saveShort], trim (· == ' ') q.content ≠ [] := by
  refine ⟨fun p hp => ?_, ?_, ?_, ?_⟩
  · rw [← isDone_iff]
    exact List.all_eq_true.1 C209_crossed_violated.1 p hp
  · show ∀ r ∈ _, _
    decide +kernel
  · decide
  · decide +kernel

end Verif.Knowledge
