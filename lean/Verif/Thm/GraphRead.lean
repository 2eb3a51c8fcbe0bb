import Verif.Model.GraphRead
import Verif.Thm.GraphStore

/-! C194: reads of several nodes or edges at once agree with the reads of one. -/
namespace Verif.Graph

/-! ### Identifiers are unique, whatever the connections enforce -/

theorem batchNode_unique (s : State) (h : Unique s) (n : Option Node) : Unique (batchNode s n).1 := by
  unfold batchNode
  split
  · exact h
  · split_ifs
    · exact h
    · exact ⟨putNode_nodup _ h.1, h.2⟩

theorem upsertEdge_unique (fk : Bool) (s : State) (h : Unique s) (e : Option Edge) : Unique (upsertEdge fk s e).1 := by
  unfold upsertEdge
  split
  · exact h
  · split_ifs
    · exact h
    · exact h
    · unfold writeEdge
      split_ifs
      · exact h
      · exact ⟨h.1, putEdge_nodup _ h.2⟩

theorem filter_ids {α : Type} (f : α → String) (p : α → Bool) {l : List α} (h : (l.map f).Nodup) :
    ((l.filter p).map f).Nodup := (List.filter_sublist.map f).nodup h

theorem dropNodes_unique (fk : Bool) {s : State} (h : Unique s) (ids : List String) : Unique (dropNodes fk s ids) := by
  refine ⟨filter_ids _ _ h.1, ?_⟩
  unfold dropNodes
  simp only
  split_ifs
  · exact filter_ids _ _ h.2
  · exact h.2

theorem step_unique (s : State) (h : Unique s) (o : Op) : Unique (step s o) := by
  cases o with
  | upsertNode n =>
    simp only [step, upsertNode]
    split
    · exact h
    · split_ifs
      · exact h
      · exact h
      · exact ⟨putNode_nodup _ h.1, h.2⟩
  | deleteNode fk id =>
    simp only [step, deleteNode]
    split_ifs
    · have := dropNodes_unique fk h [id]
      exact ⟨this.1, this.2⟩
    · exact h
  | upsertEdge fk e => exact upsertEdge_unique fk s h e
  | deleteEdge id =>
    simp only [step, deleteEdge]
    split_ifs
    · exact ⟨h.1, filter_ids _ _ h.2⟩
    · exact h
  | nodesBatch c ns =>
    simp only [step, upsertNodesBatch]
    split_ifs
    · exact h
    · exact h
    · exact loop_inv batchNode Unique batchNode_unique s h ns
  | deleteNodes fk c ids =>
    simp only [step, deleteNodesBatch]
    split_ifs
    · exact h
    · exact h
    · exact dropNodes_unique fk h ids
  | edgesBatch fk c es =>
    simp only [step, upsertEdgesBatch]
    split_ifs
    · exact h
    · exact h
    · exact loop_inv (batchEdge fk) Unique (upsertEdge_unique fk) s h es
  | deleteEdges c ids =>
    simp only [step, deleteEdgesBatch]
    split_ifs
    · exact h
    · exact h
    · exact ⟨h.1, filter_ids _ _ h.2⟩
  | execute fk c b =>
    simp only [step, executeBatch]
    split_ifs
    · exact h
    · have h1 := loop_inv batchNode Unique batchNode_unique s h b.nodeUpserts
      have h2 := dropNodes_unique fk h1 b.nodeDeletes
      have h3 := loop_inv (batchEdge fk) Unique (upsertEdge_unique fk) _ h2 b.edgeUpserts
      exact ⟨h3.1, filter_ids _ _ h3.2⟩
  | enable => exact h

theorem run_unique (ops : List Op) : Unique (run ops) := by
  unfold run
  suffices ∀ s, Unique s → Unique (ops.foldl step s) from this init (by simp [Unique, init])
  induction ops with
  | nil => intro s h; exact h
  | cons o ops ih => intro s h; exact ih _ (step_unique s h o)

/-! ### C194 -/

theorem find_unique {α : Type} (f : α → String) {l : List α} (h : (l.map f).Nodup) (x : α) :
    l.find? (fun y => decide (f y = f x)) = some x ↔ x ∈ l := by
  constructor
  · exact List.mem_of_find?_eq_some
  · intro hx
    induction l with
    | nil => simp at hx
    | cons y ys ih =>
      rw [List.map_cons, List.nodup_cons] at h
      rw [List.find?_cons]
      rcases List.mem_cons.1 hx with rfl | hx
      · simp
      · have : f y ≠ f x := fun e => h.1 (e ▸ List.mem_map_of_mem hx)
        simp [this, ih h.2 hx]

/-- C194: after any history, reading several nodes returns exactly the nodes that reading the ids one by one finds, each once
however often its id is given; ids that are not there are left out without an error. The only failure is a list of more ids
than a statement can bind. -/
theorem C194_nodes (lim : Nat) (ops : List Op) (ids : List String) :
    (nodesBatch lim (run ops) ids = none ↔ ids ≠ [] ∧ lim < ids.length) ∧
    ∀ out, nodesBatch lim (run ops) ids = some out →
      (out.map Node.id).Nodup ∧ ∀ n, n ∈ out ↔ n.id ∈ ids ∧ getNode (run ops) n.id = some n := by
  have hu := (run_unique ops).1
  unfold nodesBatch
  constructor
  · split_ifs with h1 h2
    · simp [List.length_eq_zero_iff.1 h1]
    · simp [h2, List.length_eq_zero_iff] at h1 ⊢; exact h1
    · simp [h2]
  · intro out h
    split_ifs at h with h1 h2
    · simp only [Option.some.injEq] at h
      subst h
      simp [List.length_eq_zero_iff.1 h1]
    · simp only [Option.some.injEq] at h
      subst h
      refine ⟨filter_ids _ _ hu, fun n => ?_⟩
      unfold getNode getNodesBatch
      rw [find_unique Node.id hu n, List.mem_filter, decide_eq_true_eq]
      exact and_comm

/-- C194 for edges: the edges are those found at their source. -/
theorem C194_edges (lim : Nat) (ops : List Op) (ids : List String) :
    (edgesBatch lim (run ops) ids = none ↔ ids ≠ [] ∧ lim < ids.length) ∧
    ∀ out, edgesBatch lim (run ops) ids = some out →
      (out.map Edge.id).Nodup ∧
      ∀ e, e ∈ out ↔ e.id ∈ ids ∧ ∃ es, getEdges (run ops) e.src .out = some es ∧ e ∈ es := by
  have hu := (run_unique ops).2
  unfold edgesBatch
  constructor
  · split_ifs with h1 h2
    · simp [List.length_eq_zero_iff.1 h1]
    · simp [h2, List.length_eq_zero_iff] at h1 ⊢; exact h1
    · simp [h2]
  · intro out h
    split_ifs at h with h1 h2
    · simp only [Option.some.injEq] at h
      subst h
      simp [List.length_eq_zero_iff.1 h1]
    · simp only [Option.some.injEq] at h
      subst h
      refine ⟨filter_ids _ _ hu, fun e => ?_⟩
      simp only [getEdges, Option.some.injEq, exists_eq_left', List.mem_filter, decide_eq_true_eq, and_true]
      exact and_comm

/-- C194: which ids are asked for matters, not their order or repetition. -/
theorem C194_set (lim : Nat) (s : State) (a b : List String) (hab : ∀ i, i ∈ a ↔ i ∈ b) (ha : a.length ≤ lim) (hb : b.length ≤ lim) :
    nodesBatch lim s a = nodesBatch lim s b ∧ edgesBatch lim s a = edgesBatch lim s b := by
  have hnil : a.length = 0 ↔ b.length = 0 := by
    rw [List.length_eq_zero_iff, List.length_eq_zero_iff, List.eq_nil_iff_forall_not_mem, List.eq_nil_iff_forall_not_mem]
    constructor
    · intro h x hx; exact h x ((hab x).2 hx)
    · intro h x hx; exact h x ((hab x).1 hx)
  unfold nodesBatch edgesBatch getNodesBatch
  by_cases h : a.length = 0
  · rw [if_pos h, if_pos (hnil.1 h), if_pos h, if_pos (hnil.1 h)]; exact ⟨rfl, rfl⟩
  · have h' : ¬ b.length = 0 := fun e => h (hnil.2 e)
    rw [if_neg h, if_neg h', if_neg h, if_neg h', if_neg (Nat.not_lt.2 ha), if_neg (Nat.not_lt.2 hb),
      if_neg (Nat.not_lt.2 ha), if_neg (Nat.not_lt.2 hb)]
    simp only [hab, and_self]

/-- C194: the lookups that paths and ranked results are built from give what reading the id alone gives. -/
theorem C194_lookups (lim : Nat) (ops : List Op) :
    (∀ ids m, nodesByIds lim (run ops) ids = some m → ∀ i, m.lookup i = if i ∈ ids then getNode (run ops) i else none) ∧
    ∀ e, edgeById (run ops) e.id = some e ↔ ∃ es, getEdges (run ops) e.src .out = some es ∧ e ∈ es := by
  have hu := run_unique ops
  constructor
  · intro ids m h i
    unfold nodesByIds at h
    split_ifs at h with h1 h2
    · simp only [Option.some.injEq] at h
      subst h
      simp [List.length_eq_zero_iff.1 h1]
    · simp only [Option.some.injEq] at h
      subst h
      unfold getNode
      induction (run ops).nodes with
      | nil => simp
      | cons n ns ih =>
        rw [List.filter_cons]
        by_cases hin : n.id ∈ ids
        · rw [if_pos (by simpa using hin), List.map_cons, List.lookup_cons, List.find?_cons]
          by_cases hi : n.id = i
          · subst hi; simp [hin]
          · have : (i == n.id) = false := by simpa using fun e => hi e.symm
            simp only [this, hi, decide_false]
            exact ih
        · rw [if_neg (by simpa using hin), ih, List.find?_cons]
          by_cases hi : n.id = i
          · subst hi; simp [hin]
          · simp [hi]
  · intro e
    unfold edgeById
    rw [find_unique Edge.id hu.2 e]
    simp [getEdges]

/-! ### Not vacuous -/

def twoNodes : List Op := [.upsertNode (some ⟨"a", [1], "", "", ""⟩), .upsertNode (some ⟨"b", [2], "", "", ""⟩),
  .upsertEdge true (some ⟨"e", "a", "b", "t", 0, "", []⟩)]

example : nodesBatch 4 (run twoNodes) ["b", "x", "b", "a"] = some [⟨"a", [1], "", "", ""⟩, ⟨"b", [2], "", "", ""⟩] ∧
    nodesBatch 3 (run twoNodes) ["b", "x", "b", "a"] = none ∧
    edgesBatch 4 (run twoNodes) ["e", "f"] = some [⟨"e", "a", "b", "t", 1, "", []⟩] ∧
    (nodesByIds 4 (run twoNodes) ["b"]).map (fun m => (m.lookup "a", (m.lookup "b").map Node.vec)) = some (none, some [2]) ∧
    (edgeById (run twoNodes) "e").map Edge.weight = some 1 := by decide +kernel

end Verif.Graph
