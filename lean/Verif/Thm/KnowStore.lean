import Verif.Model.KnowStore
import Verif.Thm.Knowledge

/-!
C238: knowledge items beside the store's and the graph's own calls.
-/
namespace Verif.Knowledge
open Verif.Base Verif.Rag

/-- The chunks of the item have chunk ids of the item. -/
def OwnIds (k : Text) (s : State) : Prop := ∀ r ∈ chunksOf s k, ∃ i, r.id = chunkId k i

/-- The call does not concern the item: it does not name it, writes no record of it and touches no id of a chunk of it. -/
def Apart (k : Text) : Mixed → Prop
  | .api op => op.target ≠ k
  | .raw (.upsert _ r) => r.doc ≠ k ∧ ∀ i, r.id ≠ chunkId k i
  | .raw (.delete id) => ∀ i, id ≠ chunkId k i
  | .raw (.deleteByDoc doc) => doc ≠ k
  | .raw (.deleteDocument _ id) => id ≠ k
  | .raw (.upsertNode _) => True
  | .raw (.deleteNode _) => True

theorem ownIds_of_view {k : Text} {s t : State} (h : view t k = view s k) (ho : OwnIds k s) : OwnIds k t := by
  have : chunksOf t k = chunksOf s k := congrArg Prod.snd h
  unfold OwnIds
  rw [this]; exact ho

/-- A step that keeps the item. -/
def Keeps (k : Text) (f : Step) : Prop := ∀ s, OwnIds k s → view (f s) k = view s k

theorem keeps_list {k : Text} : ∀ (steps : List Step), (∀ f ∈ steps, Keeps k f) → ∀ s, OwnIds k s →
    view (steps.foldl (fun s f => f s) s) k = view s k
  | [], _, _, _ => rfl
  | f :: fs, hs, s, h => by
    have h1 := hs f List.mem_cons_self s h
    exact (keeps_list fs (fun g hg => hs g (List.mem_cons_of_mem _ hg)) (f s) (ownIds_of_view h1 h)).trans h1

theorem keeps_exec {k : Text} {steps : List Step} (hs : ∀ f ∈ steps, Keeps k f) (fault : Option Nat) (s : State) (h : OwnIds k s) :
    view (exec steps fault s).1 k = view s k := by
  unfold exec
  cases fault with
  | none => exact keeps_list _ hs s h
  | some n =>
    by_cases hn : n < steps.length
    · simp only [hn, if_true]
      exact keeps_list _ (fun f hf => hs f (List.mem_of_mem_take hf)) s h
    · simp only [hn, if_false]
      exact keeps_list _ hs s h

theorem keeps_id (k : Text) : Keeps k _root_.id := fun _ _ => rfl

theorem keeps_nodes (k : Text) (f : Step) (hd : ∀ s, (f s).docs = s.docs) (hr : ∀ s, (f s).rows = s.rows) : Keeps k f := by
  intro s _
  simp only [view, getDoc, chunksOf, hd, hr]

theorem find_map_apart {k : Text} (g : Doc → Doc) (id : Text) (hk : id ≠ k) (hg : ∀ d, (g d).id = d.id) (l : List Doc) :
    (l.map (fun d => if d.id == id then g d else d)).find? (fun d => d.id == k) = l.find? (fun d => d.id == k) := by
  induction l with
  | nil => rfl
  | cons a l ih =>
    rw [List.map_cons, List.find?_cons, List.find?_cons, ih]
    by_cases ha : a.id = id
    · have h1 : a.id ≠ k := ha ▸ hk
      have h2 : (id == k) = false := by simpa using hk
      simp [ha, hg, h2]
    · simp [ha]

theorem keeps_docRecord (k id t c : Text) (hk : id ≠ k) : Keeps k (upsertDocRecord id t c) := by
  intro s _
  unfold upsertDocRecord
  split
  · simp only [view, getDoc, chunksOf]
    rw [find_map_apart _ id hk (by simp)]
  · simp [view, getDoc, chunksOf, List.find?_append, hk]

theorem keeps_upsertRecord (k : Text) (d : Doc) (hk : d.id ≠ k) : Keeps k (upsertRecord d) := by
  intro s _
  unfold upsertRecord
  split
  · simp only [view, getDoc, chunksOf]
    have : ∀ l : List Doc, (l.map (fun x => if x.id == d.id then d else x)).find? (fun d => d.id == k) =
        l.find? (fun d => d.id == k) := by
      intro l
      induction l with
      | nil => rfl
      | cons a l ih =>
        rw [List.map_cons, List.find?_cons, List.find?_cons, ih]
        by_cases ha : a.id = d.id
        · have h2 : (d.id == k) = false := by simpa using hk
          simp [ha, h2]
        · simp [ha]
    rw [this]
  · simp [view, getDoc, chunksOf, List.find?_append, hk]

theorem keeps_dropDoc (k : Text) (fk : Bool) (id : Text) (hk : id ≠ k) : Keeps k (dropDoc fk id) := by
  intro s _
  have h1 : (s.docs.filter (fun d => d.id != id)).find? (fun d => d.id == k) = s.docs.find? (fun d => d.id == k) := by
    rw [List.find?_filter]
    congr 1
    funext d
    by_cases h : d.id = k
    · simp [h, Ne.symm hk]
    · simp [h]
  have h2 : (s.rows.filter (fun r => r.doc != id)).filter (fun r => r.doc == k) = s.rows.filter (fun r => r.doc == k) := by
    rw [List.filter_filter]
    apply List.filter_congr
    intro r _
    by_cases h : r.doc = k
    · simp [h, Ne.symm hk]
    · simp [h]
  unfold dropDoc
  simp only [view, getDoc, chunksOf, h1]
  cases fk
  · simp
  · simp only [if_true, h2]

theorem keeps_putRows (sp : Char → Bool) (o : IngestOpts) (k id c : Text) (hk : id ≠ k) : Keeps k (putRows (chunkRows sp o id c)) := by
  intro s h
  have he : (putRows (chunkRows sp o id c) s).rows =
      s.rows.filter (fun x => !((chunkRows sp o id c).map (·.id)).contains x.id) ++ chunkRows sp o id c :=
    putRows_eq _ (chunkRows_nodup _ _ _ _) _
  have h1 : chunksOf (putRows (chunkRows sp o id c) s) k = chunksOf s k := by
    simp only [chunksOf]
    rw [he, List.filter_append, List.filter_filter]
    have : (chunkRows sp o id c).filter (fun r => r.doc == k) = [] := by
      apply List.filter_eq_nil_iff.2
      intro r hr
      simp [(chunkRows_doc hr).1, hk]
    rw [this, List.append_nil]
    apply List.filter_congr
    intro r hr
    by_cases hd : r.doc = k
    · have : r.id ∉ (chunkRows sp o id c).map (·.id) := by
        intro hm
        obtain ⟨x, hx, hxe⟩ := List.mem_map.1 hm
        obtain ⟨_, i, _, hi⟩ := chunkRows_doc hx
        obtain ⟨j, hj⟩ := h r (List.mem_filter.2 ⟨hr, by simp [hd]⟩)
        rw [hi, hj] at hxe
        exact hk (C72_chunk_ids _ _ _ _ hxe).1
      simp only [List.contains_eq_mem, decide_eq_false this, Bool.not_false, Bool.and_true]
    · simp [hd]
  simp only [view, h1]
  rfl

theorem keeps_ingest (sp : Char → Bool) (o : IngestOpts) (k id t c : Text) (hk : id ≠ k) :
    ∀ f ∈ ingestSteps sp o id t c, Keeps k f := by
  intro f hf
  simp only [ingestSteps, List.mem_cons, List.not_mem_nil, or_false] at hf
  rcases hf with rfl | rfl | rfl | rfl | rfl | rfl | rfl
  · exact keeps_id _
  · exact keeps_docRecord _ _ _ _ hk
  · apply keeps_nodes <;> intro s <;> unfold addNode <;> split <;> rfl
  · exact keeps_id _
  · exact keeps_putRows _ _ _ _ _ hk
  · exact keeps_nodes _ _ (fun s => (foldl_addNode _ s).1) (fun s => (foldl_addNode _ s).2)
  · exact keeps_id _

theorem keeps_cleanup (fk : Bool) (s : State) (k id : Text) (hk : id ≠ k) : ∀ f ∈ cleanupSteps fk s id, Keeps k f := by
  intro f hf
  simp only [cleanupSteps, List.mem_cons, List.not_mem_nil, or_false] at hf
  rcases hf with rfl | rfl | rfl | rfl
  · exact keeps_id _
  · exact keeps_id _
  · exact keeps_nodes _ _ (fun _ => rfl) (fun _ => rfl)
  · exact keeps_dropDoc _ _ _ hk

theorem keeps_step (sp : Char → Bool) (fk : Bool) (s : State) (op : Op) (k : Text) (hk : op.target ≠ k) (h : OwnIds k s) :
    view (step sp fk s op) k = view s k := by
  cases op with
  | save q f =>
    simp only [step, save]
    split
    · rfl
    split
    · rfl
    apply keeps_exec _ _ _ h
    intro g hg
    simp only [saveSteps, List.mem_append, List.mem_singleton] at hg
    rcases hg with ((rfl | hg) | hg) | rfl
    · exact keeps_id _
    · cases hd : getDoc s q.id with
      | none => simp [hd] at hg
      | some d => rw [hd] at hg; exact keeps_cleanup _ _ _ _ hk g hg
    · exact keeps_ingest _ _ _ _ _ _ hk g hg
    · exact keeps_upsertRecord _ ⟨q.id, _, _, _⟩ hk
  | update q f =>
    simp only [step, update]
    split
    · rfl
    split
    · rfl
    rename_i d _
    have hfull : ∀ t c v, ∀ g ∈ [_root_.id] ++ cleanupSteps fk s q.id ++ ingestSteps sp q.opts q.id t c ++
        [upsertRecord ⟨q.id, t, c, v⟩], Keeps k g := by
      intro t c v g hg
      simp only [List.mem_append, List.mem_singleton] at hg
      rcases hg with ((rfl | hg) | hg) | rfl
      · exact keeps_id _
      · exact keeps_cleanup _ _ _ _ hk g hg
      · exact keeps_ingest _ _ _ _ _ _ hk g hg
      · exact keeps_upsertRecord _ ⟨q.id, _, _, _⟩ hk
    split
    · split
      · rfl
      · exact keeps_exec (hfull _ _ _) _ _ h
    · split
      · exact keeps_exec (hfull _ _ _) _ _ h
      · apply keeps_exec _ _ _ h
        intro g hg
        simp only [List.mem_cons, List.not_mem_nil, or_false] at hg
        rcases hg with rfl | rfl
        · exact keeps_id _
        · exact keeps_upsertRecord _ ⟨q.id, _, _, _⟩ hk
  | delete id f =>
    simp only [step, delete]
    split
    · rfl
    split
    · rfl
    exact keeps_exec (keeps_cleanup _ _ _ _ hk) _ _ h
  | ingest o id t c f =>
    simp only [step, insertGraphDocument]
    split
    · rfl
    split
    · rfl
    split
    · rfl
    exact keeps_exec (keeps_ingest _ _ _ _ _ _ hk) _ _ h

theorem filter_apart {k : Text} {s : State} (p : Row → Bool) (hp : ∀ r ∈ chunksOf s k, p r = true) :
    (s.rows.filter p).filter (fun r => r.doc == k) = s.rows.filter (fun r => r.doc == k) := by
  rw [List.filter_filter]
  apply List.filter_congr
  intro r hr
  by_cases h : r.doc = k
  · simp [h, hp r (List.mem_filter.2 ⟨hr, by simp [h]⟩)]
  · simp [h]

theorem keeps_raw (s : State) (r : Raw) (k : Text) (hk : Apart k (.raw r)) (h : OwnIds k s) :
    view (rawStep s r).1 k = view s k := by
  cases r with
  | upsert fk r =>
    simp only [rawStep]
    split
    · rfl
    · have := filter_apart (s := s) (k := k) (fun x => x.id != r.id) (by
        intro x hx
        obtain ⟨i, hi⟩ := h x hx
        have := hk.2 i
        rw [hi]; simpa using fun e => this e.symm)
      have hd : (r.doc == k) = false := by simpa using hk.1
      simp only [view, getDoc, chunksOf, putRow, List.filter_append, this]
      simp [hd]
  | delete id =>
    simp only [rawStep]
    split
    · rfl
    split
    · have := filter_apart (s := s) (k := k) (fun x => x.id != id) (by
        intro x hx
        obtain ⟨i, hi⟩ := h x hx
        have := hk i
        rw [hi]; simpa using fun e => this e.symm)
      simp only [view, getDoc, chunksOf, this]
    · rfl
  | deleteByDoc doc =>
    simp only [rawStep]
    split
    · rfl
    · have := filter_apart (s := s) (k := k) (fun x => x.doc != doc) (by
        intro x hx
        have h1 : x.doc = k := by simpa using (List.mem_filter.1 hx).2
        rw [h1]; simpa using fun e => hk e.symm)
      simp only [view, getDoc, chunksOf, this]
  | deleteDocument fk id => exact keeps_dropDoc k fk id hk s h
  | upsertNode n =>
    simp only [rawStep]
    split
    · rfl
    · exact keeps_nodes k (addNode n) (fun s => by unfold addNode; split <;> rfl) (fun s => by unfold addNode; split <;> rfl) s h
  | deleteNode n =>
    simp only [rawStep]
    split
    · exact keeps_nodes k (dropNodes [n]) (fun _ => rfl) (fun _ => rfl) s h
    · rfl

/-- C238, proved part: a knowledge item keeps its document and its chunks through every history of calls of the knowledge API, the store
and the graph none of which concerns it: none names it, writes a record of it or uses an id of a chunk of it. For every state in which the
chunks of the item carry its chunk ids, every fault, with and without foreign keys. -/
theorem C238_apart_partial (sp : Char → Bool) (fk : Bool) (k : Text) (cs : List Mixed) (s : State) (h : OwnIds k s)
    (ha : ∀ c ∈ cs, Apart k c) : view (mixedRun sp fk s cs) k = view s k ∧ OwnIds k (mixedRun sp fk s cs) := by
  induction cs generalizing s with
  | nil => exact ⟨rfl, h⟩
  | cons c cs ih =>
    have h1 : view (mixedStep sp fk s c) k = view s k := by
      have hc := ha c List.mem_cons_self
      cases c with
      | api op => exact keeps_step sp fk s op k hc h
      | raw r => exact keeps_raw s r k hc h
    obtain ⟨h2, h3⟩ := ih (mixedStep sp fk s c) (ownIds_of_view h1 h) (fun x hx => ha x (List.mem_cons_of_mem _ hx))
    exact ⟨h2.trans h1, h3⟩

/-- The hypothesis holds after every history of the knowledge API alone. -/
theorem ownIds_run (sp : Char → Bool) (fk : Bool) (ops : List Op) (k : Text) : OwnIds k (run sp fk init ops) := by
  intro r hr
  obtain ⟨i, hi⟩ := (wf_run sp fk ops init wf_init).ids r (List.mem_filter.1 hr).1
  have : r.doc = k := by simpa using (List.mem_filter.1 hr).2
  exact ⟨i, this ▸ hi⟩

/-- C238, proved part: a save that succeeds leaves exactly what was saved, whatever else the store and the graph were made to hold,
provided the item had a document or no chunks. Foreign keys are enforced. -/
theorem C238_save_partial (sp : Char → Bool) (s : State) (q : SaveReq) (fault : Option Nat)
    (ho : getDoc s q.id = none → chunksOf s q.id = []) (hok : (save sp true fault s q).2 = true) :
    getDoc (save sp true fault s q).1 q.id =
      some ⟨q.id, q.title, q.content, match getDoc s q.id with | some d => d.version + 1 | none => 1⟩ ∧
    chunksOf (save sp true fault s q).1 q.id = chunkRows sp q.opts q.id q.content := by
  have hex : (save sp true fault s q) = ((saveSteps sp true s q).foldl (fun s f => f s) s, true) := by
    unfold save at hok ⊢
    split at hok
    · simp at hok
    rename_i h1
    split at hok
    · simp at hok
    rename_i h2
    rw [if_neg h1, if_neg h2]
    unfold exec at hok ⊢
    cases fault with
    | none => rfl
    | some n =>
      simp only at hok ⊢
      split at hok
      · simp at hok
      · rename_i h3; rw [if_neg h3]
  rw [hex]
  simp only [saveSteps, List.foldl_append, List.foldl_cons, List.foldl_nil, _root_.id]
  refine ⟨getDoc_upsertRecord ⟨q.id, _, _, _⟩ _, ?_⟩
  have hrs : ∀ r ∈ chunkRows sp q.opts q.id q.content, r.doc = q.id := fun r hr => (chunkRows_doc hr).1
  refine chunksOf_of_rows ((upsertRecord_rows _ _).trans (ingest_rows _ _ _ _ _ _)) ?_ hrs
  intro r hr
  have hr := (List.mem_filter.1 hr).1
  cases hd : getDoc s q.id with
  | some d =>
    rw [hd] at hr
    simp only [cleanupSteps, List.foldl_cons, List.foldl_nil, _root_.id, dropDoc, dropNodes, if_true,
      List.mem_filter] at hr
    simpa using hr.2
  | none =>
    rw [hd] at hr
    intro he
    have : r ∈ chunksOf s q.id := List.mem_filter.2 ⟨hr, by simp [he]⟩
    rw [ho hd] at this
    simp at this

/-- C238 is violated: a record written to the store under the id of a chunk of an item, for another document or none, is accepted and
takes the chunk from the item, whose document stays as it was. For every state, item, chunk and text. -/
theorem C238_replaced_violated (s : State) (k : Text) (c : Row) (hc : c ∈ chunksOf s k) (e x : Text) (he : e ≠ k)
    (hok : e = [] ∨ (getDoc s e).isSome) :
    (rawStep s (.upsert true ⟨c.id, e, x⟩)).2 = true ∧
    getDoc (rawStep s (.upsert true ⟨c.id, e, x⟩)).1 k = getDoc s k ∧
    (∀ r ∈ chunksOf (rawStep s (.upsert true ⟨c.id, e, x⟩)).1 k, r.id ≠ c.id) ∧
    chunksOf (rawStep s (.upsert true ⟨c.id, e, x⟩)).1 k ≠ chunksOf s k := by
  have hcond : (true && (Row.mk c.id e x).doc != [] && (getDoc s (Row.mk c.id e x).doc).isNone) = false := by
    rcases hok with h | h
    · simp [h]
    · cases hg : getDoc s e with
      | none => rw [hg] at h; simp at h
      | some d => simp [hg]
  have h1 : rawStep s (.upsert true ⟨c.id, e, x⟩) = ({ s with rows := putRow s.rows ⟨c.id, e, x⟩ }, true) := by
    simp only [rawStep, hcond]; simp
  rw [h1]
  have h2 : ∀ r ∈ chunksOf { s with rows := putRow s.rows ⟨c.id, e, x⟩ } k, r.id ≠ c.id := by
    intro r hr
    obtain ⟨h3, h4⟩ := List.mem_filter.1 hr
    simp only [putRow, List.mem_append, List.mem_singleton, List.mem_filter] at h3
    rcases h3 with h3 | rfl
    · simpa using h3.2
    · simp only [beq_iff_eq] at h4
      exact absurd h4 he
  refine ⟨rfl, rfl, h2, fun heq => ?_⟩
  rw [← heq] at hc
  exact h2 c hc rfl

theorem addNode_sub (n : Text) (s : State) : ∀ x ∈ s.nodes, x ∈ (addNode n s).nodes := by
  intro x hx; unfold addNode; split
  · exact hx
  · simp [hx]

theorem foldl_addNode_sub (rs : List Row) : ∀ (s : State), ∀ x ∈ s.nodes, x ∈ (rs.foldl (fun s r => addNode r.id s) s).nodes := by
  induction rs with
  | nil => intro s x hx; exact hx
  | cons r rs ih => intro s x hx; exact ih _ x (addNode_sub _ _ _ hx)

theorem grow_list : ∀ (steps : List Step), (∀ f ∈ steps, ∀ s : State, ∀ x ∈ s.nodes, x ∈ (f s).nodes) → ∀ s : State, ∀ x ∈ s.nodes,
    x ∈ (steps.foldl (fun s f => f s) s).nodes
  | [], _, _, _, hx => hx
  | f :: fs, hs, s, x, hx =>
    grow_list fs (fun g hg => hs g (List.mem_cons_of_mem _ hg)) (f s) x (hs f List.mem_cons_self s x hx)

/-- A save under an id without a document removes no node. -/
theorem save_grow (sp : Char → Bool) (fk : Bool) (fault : Option Nat) (s : State) (q : SaveReq) (hd : getDoc s q.id = none) :
    ∀ x ∈ s.nodes, x ∈ (save sp fk fault s q).1.nodes := by
  have hall : ∀ f ∈ saveSteps sp fk s q, ∀ s : State, ∀ x ∈ s.nodes, x ∈ (f s).nodes := by
    intro f hf
    simp only [saveSteps, hd, ingestSteps, List.mem_append, List.mem_cons, List.not_mem_nil, or_false, false_or] at hf
    rcases hf with (rfl | rfl | rfl | rfl | rfl | rfl | rfl | rfl) | rfl
    · intro s x hx; exact hx
    · intro s x hx; exact hx
    · intro s x hx; unfold upsertDocRecord; split <;> exact hx
    · intro s x hx; exact addNode_sub _ _ _ hx
    · intro s x hx; exact hx
    · intro s x hx; exact hx
    · intro s x hx; exact foldl_addNode_sub _ _ _ hx
    · intro s x hx; exact hx
    · intro s x hx; unfold upsertRecord; split <;> exact hx
  intro x hx
  unfold save
  split
  · exact hx
  split
  · exact hx
  unfold exec
  cases fault with
  | none => exact grow_list _ hall s x hx
  | some n =>
    by_cases hn : n < (saveSteps sp fk s q).length
    · simp only [hn, if_true]
      exact grow_list _ (fun f hf => hall f (List.mem_of_mem_take hf)) s x hx
    · simp only [hn, if_false]
      exact grow_list _ hall s x hx

/-- C238 is violated: deleting the document of an item through the store succeeds and leaves every graph node of the item. The item can
then be neither deleted nor updated, whatever the request and the fault, and saving it again removes none of the nodes either. For every
state and id. -/
theorem C238_orphans_violated (sp : Char → Bool) (fk : Bool) (s : State) (k : Text) :
    (rawStep s (.deleteDocument fk k)).2 = true ∧ (rawStep s (.deleteDocument fk k)).1.nodes = s.nodes ∧
    (∀ f, delete fk f (rawStep s (.deleteDocument fk k)).1 k = ((rawStep s (.deleteDocument fk k)).1, false)) ∧
    (∀ f q, q.id = k → update sp fk f (rawStep s (.deleteDocument fk k)).1 q = ((rawStep s (.deleteDocument fk k)).1, false)) ∧
    (∀ f q, q.id = k → ∀ x ∈ s.nodes, x ∈ (save sp fk f (rawStep s (.deleteDocument fk k)).1 q).1.nodes) := by
  have hd : getDoc (rawStep s (.deleteDocument fk k)).1 k = none := by
    simp [rawStep, dropDoc, getDoc, List.find?_eq_none]
  refine ⟨rfl, rfl, fun f => ?_, fun f q hq => ?_, fun f q hq x hx => ?_⟩
  · unfold delete; rw [hd]; split <;> rfl
  · unfold update; rw [hq, hd]; split <;> rfl
  · exact save_grow sp fk f _ q (hq ▸ hd) x hx

/-! ### The hypotheses are met -/

/-- Two items, one with two chunks. -/
def twoItems : State :=
  ⟨[⟨"a".toList, [], "x y".toList, 1⟩, ⟨"b".toList, [], "z".toList, 1⟩],
   [⟨chunkId "a".toList 0, "a".toList, "x".toList⟩, ⟨chunkId "a".toList 1, "a".toList, "y".toList⟩,
    ⟨chunkId "b".toList 0, "b".toList, "z".toList⟩],
   [docNodeId "a".toList, chunkId "a".toList 0, chunkId "a".toList 1, docNodeId "b".toList, chunkId "b".toList 0]⟩

example : OwnIds "a".toList twoItems ∧ (chunksOf twoItems "a".toList).length = 2 := by
  refine ⟨?_, by decide +kernel⟩
  intro r hr
  have : r = ⟨chunkId "a".toList 0, "a".toList, "x".toList⟩ ∨ r = ⟨chunkId "a".toList 1, "a".toList, "y".toList⟩ := by
    have h : chunksOf twoItems "a".toList =
        [⟨chunkId "a".toList 0, "a".toList, "x".toList⟩, ⟨chunkId "a".toList 1, "a".toList, "y".toList⟩] := by decide +kernel
    rw [h] at hr
    simpa using hr
  rcases this with rfl | rfl
  · exact ⟨0, rfl⟩
  · exact ⟨1, rfl⟩

/-- Calls apart from "a": deleting "b" both ways and writing a loose record. -/
example : ∀ c ∈ [Mixed.api (.delete "b".toList none), .raw (.deleteDocument true "b".toList), .raw (.upsert true ⟨"r".toList, [], "t".toList⟩)],
    Apart "a".toList c := by
  intro c hc
  simp only [List.mem_cons, List.not_mem_nil, or_false] at hc
  rcases hc with rfl | rfl | rfl
  · simp [Apart, Op.target]
  · simp [Apart]
  · refine ⟨by simp, fun i h => ?_⟩
    have := congrArg List.head? h
    simp [chunkId] at this

/-- A chunk that a loose record takes, and nodes that stay when the document goes. -/
example : (⟨chunkId "a".toList 0, "a".toList, "x".toList⟩ : Row) ∈ chunksOf twoItems "a".toList ∧
    docNodeId "a".toList ∈ (rawStep twoItems (.deleteDocument true "a".toList)).1.nodes ∧
    docNodeId "a".toList ∉ (delete true none twoItems "a".toList).1.nodes := by decide +kernel

end Verif.Knowledge
