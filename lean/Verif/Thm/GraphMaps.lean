import Verif.Thm.GraphRead

/-!
# C228: a graph is two maps

The specification is a pair of maps, from ids to nodes and from ids to edges, and what the elementary writes do to them.  A call of
the API is a list of elementary writes; a batch that is not committed is none.
-/

namespace Verif.Graph

/-- What a reader of the graph sees. -/
structure Maps where
  node : String → Option Node
  edge : String → Option Edge

/-- Elementary writes; `fk` says whether the connection enforces foreign keys. -/
inductive Write where
  | node (n : Node)
  | dropNodes (fk : Bool) (ids : List String)
  | edge (fk : Bool) (e : Edge)
  | dropEdges (ids : List String)

/-- An edge ends at a stored node among the ids. -/
def Maps.touches (m : Maps) (ids : List String) (e : Edge) : Prop :=
  (e.src ∈ ids ∧ m.node e.src ≠ none) ∨ (e.dst ∈ ids ∧ m.node e.dst ≠ none)

open Classical in
/-- The specification of the elementary writes. -/
noncomputable def Maps.apply (m : Maps) : Write → Maps
  | .node n => if n.id = "" ∨ n.vec = [] then m else { m with node := fun i => if i = n.id then some n else m.node i }
  | .dropNodes fk ids =>
    { node := fun i => if i ∈ ids then none else m.node i
      edge := fun i => (m.edge i).filter fun e => decide ¬ (fk = true ∧ m.touches ids e) }
  | .edge fk e =>
    if e.id = "" ∨ e.src = "" ∨ e.dst = "" then m
    else if fk = true ∧ (m.node e.src = none ∨ m.node e.dst = none) then m
    else { m with edge := fun i => if i = e.id then some { e with weight := if e.weight = 0 then 1 else e.weight } else m.edge i }
  | .dropEdges ids => { m with edge := fun i => if i ∈ ids then none else m.edge i }

/-- The elementary writes of a call. -/
def Op.writes : Op → List Write
  | .upsertNode n => n.toList.map .node
  | .deleteNode fk id => [.dropNodes fk [id]]
  | .upsertEdge fk e => e.toList.map (.edge fk)
  | .deleteEdge id => [.dropEdges [id]]
  | .nodesBatch c ns => if c then (ns.filterMap id).map .node else []
  | .deleteNodes fk c ids => if c then [.dropNodes fk ids] else []
  | .edgesBatch fk c es => if c then (es.filterMap id).map (.edge fk) else []
  | .deleteEdges c ids => if c then [.dropEdges ids] else []
  | .execute fk c b =>
    if c then (b.nodeUpserts.filterMap id).map .node ++ [.dropNodes fk b.nodeDeletes] ++
      (b.edgeUpserts.filterMap id).map (.edge fk) ++ [.dropEdges b.edgeDeletes]
    else []
  | .enable => []

/-- The two maps after a history. -/
noncomputable def Maps.after (ops : List Op) : Maps := (ops.flatMap Op.writes).foldl Maps.apply ⟨fun _ => none, fun _ => none⟩

/-- The state shows the maps. -/
def Shows (s : State) (m : Maps) : Prop := (∀ i, getNode s i = m.node i) ∧ ∀ i, edgeById s i = m.edge i

/-! ### Helpers -/

theorem find_putOf {α : Type} (f : α → String) (l : List α) (n : α) (i : String) :
    (if l.any (fun x => decide (f x = f n)) then l.map (fun x => if f x = f n then n else x) else l ++ [n]).find?
      (fun x => decide (f x = i)) = if i = f n then some n else l.find? (fun x => decide (f x = i)) := by
  split_ifs with h hi hi
  · subst hi
    induction l with
    | nil => simp at h
    | cons x xs ih =>
      rw [List.map_cons, List.find?_cons]
      by_cases hx : f x = f n
      · simp [hx]
      · simp only [hx, if_false, decide_false]
        refine ih ?_
        simpa [hx] using h
  · clear h
    induction l with
    | nil => rfl
    | cons x xs ih =>
      rw [List.map_cons, List.find?_cons, List.find?_cons]
      by_cases hx : f x = f n
      · have h1 : ¬ f n = i := fun e => hi e.symm
        have h2 : ¬ f x = i := fun e => hi (by rw [← hx, e])
        simp [hx, h1, ih]
      · simp only [hx, if_false, ih]
  · subst hi
    rw [List.find?_append]
    have : l.find? (fun x => decide (f x = f n)) = none := by
      rw [List.find?_eq_none]
      intro x hx
      simp only [Bool.not_eq_true, List.any_eq_false] at h
      simpa using h x hx
    simp [this]
  · rw [List.find?_append]
    have h1 : ¬ f n = i := fun e => hi e.symm
    simp [h1]

theorem find_filter {α : Type} (f : α → String) {l : List α} (h : (l.map f).Nodup) (p : α → Bool) (i : String) :
    (l.filter p).find? (fun x => decide (f x = i)) = (l.find? fun x => decide (f x = i)).filter p := by
  induction l with
  | nil => rfl
  | cons x xs ih =>
    rw [List.map_cons, List.nodup_cons] at h
    rw [List.filter_cons, List.find?_cons]
    by_cases hx : f x = i
    · have hnone : (xs.filter p).find? (fun y => decide (f y = i)) = none := by
        rw [List.find?_eq_none]
        intro y hy hyi
        simp only [decide_eq_true_eq] at hyi
        exact h.1 (hx ▸ hyi ▸ List.mem_map_of_mem (List.mem_filter.1 hy).1)
      by_cases hp : p x = true
      · simp [hp, hx, Option.filter]
      · simp only [hp, hx, decide_true]
        simp [hnone, hp, Option.filter]
    · by_cases hp : p x = true
      · simp [hp, hx, ih h.2]
      · simp [hp, hx, ih h.2]

theorem hasNode_get (s : State) (i : String) : hasNode s.nodes i = true ↔ getNode s i ≠ none := by
  unfold hasNode getNode
  rw [List.any_eq_true, ← Option.isSome_iff_ne_none, List.find?_isSome]

theorem show_node (s : State) (m : Maps) (hs : Shows s m) (n : Node) (ix : Option (List (String × List ℚ))) :
    Shows { s with nodes := putNode s.nodes n, index := ix } { m with node := fun i => if i = n.id then some n else m.node i } := by
  refine ⟨fun i => ?_, hs.2⟩
  show (putNode s.nodes n).find? _ = _
  unfold putNode
  rw [find_putOf Node.id]
  simp only [← hs.1 i]
  rfl

theorem show_batchNode (s : State) (m : Maps) (hs : Shows s m) (n : Option Node) :
    Shows (batchNode s n).1 ((n.toList.map Write.node).foldl Maps.apply m) := by
  cases n with
  | none => exact hs
  | some n =>
    simp only [batchNode, Option.toList_some, List.map_cons, List.map_nil, List.foldl_cons, List.foldl_nil, Maps.apply]
    split
    · exact hs
    · exact show_node s m hs n _

theorem show_upsertNode (s : State) (m : Maps) (hs : Shows s m) (n : Option Node) :
    Shows (upsertNode s n).1 ((n.toList.map Write.node).foldl Maps.apply m) := by
  cases n with
  | none => exact hs
  | some n =>
    simp only [upsertNode, Option.toList_some, List.map_cons, List.map_nil, List.foldl_cons, List.foldl_nil, Maps.apply]
    by_cases h1 : n.id = ""
    · simp only [h1, true_or, if_true]; exact hs
    · by_cases h2 : n.vec = []
      · simp only [h1, h2, or_true, if_true, if_false]; exact hs
      · simp only [h1, h2, or_self, if_false]; exact show_node s m hs n _

theorem show_upsertEdge (fk : Bool) (s : State) (m : Maps) (hs : Shows s m) (e : Option Edge) :
    Shows (upsertEdge fk s e).1 ((e.toList.map (Write.edge fk)).foldl Maps.apply m) := by
  cases e with
  | none => exact hs
  | some e =>
    simp only [upsertEdge, Option.toList_some, List.map_cons, List.map_nil, List.foldl_cons, List.foldl_nil, Maps.apply]
    by_cases h1 : e.id = ""
    · simp only [h1, true_or, if_true]; exact hs
    by_cases h2 : e.src = "" ∨ e.dst = ""
    · simp only [h1, h2, or_true, if_true, if_false]; exact hs
    simp only [h1, h2, or_self, if_false]
    unfold writeEdge
    have hids : (normEdge e).src = e.src ∧ (normEdge e).dst = e.dst ∧ (normEdge e).id = e.id := by
      unfold normEdge; split <;> exact ⟨rfl, rfl, rfl⟩
    have hb : ∀ i, hasNode s.nodes i = false ↔ m.node i = none := by
      intro i
      rw [← hs.1 i, ← not_iff_not, Bool.not_eq_false]
      exact hasNode_get s i
    rw [hids.1, hids.2.1]
    simp only [hb]
    split
    · exact hs
    · refine ⟨hs.1, fun i => ?_⟩
      show (putEdge s.edges (normEdge e)).find? _ = _
      unfold putEdge
      rw [find_putOf Edge.id, hids.2.2]
      simp only [← hs.2 i]
      have : normEdge e = { e with weight := if e.weight = 0 then 1 else e.weight } := by
        unfold normEdge; split <;> rfl
      rw [this]
      rfl

theorem show_dropNodes (fk : Bool) (s : State) (hu : Unique s) (m : Maps) (hs : Shows s m) (ids : List String)
    (ix : Option (List (String × List ℚ))) :
    Shows { dropNodes fk s ids with index := ix } (m.apply (.dropNodes fk ids)) := by
  classical
  refine ⟨fun i => ?_, fun i => ?_⟩
  · show (s.nodes.filter (fun x => decide (x.id ∉ ids))).find? (fun x => decide (x.id = i)) = _
    rw [find_filter Node.id hu.1]
    have h := hs.1 i
    unfold getNode at h
    rw [h]
    simp only [Maps.apply]
    cases hm : m.node i with
    | none => simp
    | some n =>
      have hid : n.id = i := by
        rw [hm] at h
        simpa using List.find?_some h
      by_cases hi : i ∈ ids <;> simp [Option.filter, hid, hi]
  · show (if fk = true then s.edges.filter (fun e => decide (e.src ∉ ids.filter (hasNode s.nodes) ∧
      e.dst ∉ ids.filter (hasNode s.nodes))) else s.edges).find? (fun x => decide (x.id = i)) = _
    have h := hs.2 i
    unfold edgeById at h
    simp only [Maps.apply]
    cases fk with
    | false => rw [if_neg (by simp), h]; cases m.edge i <;> simp [Option.filter]
    | true =>
      rw [if_pos rfl, find_filter Edge.id hu.2, h]
      congr 1
      funext e
      have key : ∀ j, j ∈ ids.filter (hasNode s.nodes) ↔ j ∈ ids ∧ m.node j ≠ none := by
        intro j
        rw [List.mem_filter, hasNode_get, hs.1 j]
      simp only [key, Maps.touches, true_and, not_or]

theorem show_dropEdges (s : State) (hu : Unique s) (m : Maps) (hs : Shows s m) (ids : List String) :
    Shows { s with edges := s.edges.filter (fun x => decide (x.id ∉ ids)) } (m.apply (.dropEdges ids)) := by
  refine ⟨hs.1, fun i => ?_⟩
  show (s.edges.filter (fun x => decide (x.id ∉ ids))).find? (fun x => decide (x.id = i)) = _
  rw [find_filter Edge.id hu.2]
  have h := hs.2 i
  unfold edgeById at h
  rw [h]
  simp only [Maps.apply]
  cases hm : m.edge i with
  | none => simp
  | some n =>
    have hid : n.id = i := by
      rw [hm] at h
      simpa using List.find?_some h
    by_cases hi : i ∈ ids <;> simp [Option.filter, hid, hi]

theorem show_loop {α : Type} (f : State → Option α → State × Bool) (w : α → Write)
    (hf : ∀ s m, Shows s m → ∀ a, Shows (f s a).1 ((a.toList.map w).foldl Maps.apply m)) (l : List (Option α)) :
    ∀ s m, Shows s m → Shows (loop f s l).1 (((l.filterMap id).map w).foldl Maps.apply m) := by
  induction l with
  | nil => intro s m hs; exact hs
  | cons a l ih =>
    intro s m hs
    have h1 := ih _ _ (hf s m hs a)
    cases a with
    | none => simpa [loop] using h1
    | some a => simpa [loop] using h1

theorem loop_unique {α : Type} (f : State → α → State × Bool) (hf : ∀ s, Unique s → ∀ a, Unique (f s a).1) (l : List α) (s : State)
    (h : Unique s) : Unique (loop f s l).1 := loop_inv f Unique hf s h l

theorem show_step (s : State) (hu : Unique s) (m : Maps) (hs : Shows s m) (o : Op) :
    Shows (step s o) (o.writes.foldl Maps.apply m) := by
  cases o with
  | upsertNode n => exact show_upsertNode s m hs n
  | deleteNode fk id =>
    simp only [step, deleteNode, Op.writes, List.foldl_cons, List.foldl_nil]
    split
    · exact show_dropNodes fk s hu m hs [id] _
    · rename_i h
      have hnone : m.node id = none := by
        rw [← hs.1 id]
        by_contra hc
        exact h ((hasNode_get s id).2 hc)
      refine ⟨fun i => ?_, fun i => ?_⟩
      · rw [hs.1 i]
        simp only [Maps.apply, List.mem_singleton]
        split
        · rename_i hi; rw [hi, hnone]
        · rfl
      · rw [hs.2 i]
        simp only [Maps.apply, Maps.touches, List.mem_singleton]
        cases m.edge i with
        | none => rfl
        | some e =>
          have : ¬ (fk = true ∧ (e.src = id ∧ m.node e.src ≠ none ∨ e.dst = id ∧ m.node e.dst ≠ none)) := by
            rintro ⟨_, ⟨h1, h2⟩ | ⟨h1, h2⟩⟩
            · rw [h1] at h2; exact h2 hnone
            · rw [h1] at h2; exact h2 hnone
          simp only [Option.filter, this, not_false_eq_true, decide_true, if_true]
  | upsertEdge fk e => exact show_upsertEdge fk s m hs e
  | deleteEdge id =>
    simp only [step, deleteEdge, Op.writes, List.foldl_cons, List.foldl_nil]
    have := show_dropEdges s hu m hs [id]
    split
    · simpa using this
    · rename_i h
      have he : s.edges.filter (fun x => decide (x.id ∉ [id])) = s.edges := by
        rw [List.filter_eq_self]
        intro x hx
        simp only [List.any_eq_true, decide_eq_true_eq, not_exists, not_and] at h
        simpa using h x hx
      rw [he] at this
      exact this
  | nodesBatch c ns =>
    simp only [step, upsertNodesBatch, Op.writes]
    have := show_loop batchNode Write.node show_batchNode ns s m hs
    cases c with
    | false => split <;> simpa using hs
    | true =>
      split
      · rename_i h; subst h; exact hs
      · simpa using this
  | deleteNodes fk c ids =>
    simp only [step, deleteNodesBatch, Op.writes]
    cases c with
    | false => split <;> simpa using hs
    | true =>
      have := show_dropNodes fk s hu m hs ids s.index
      split
      · rename_i h
        subst h
        refine ⟨fun i => by rw [hs.1 i]; simp [Maps.apply], fun i => ?_⟩
        rw [hs.2 i]
        simp only [if_true, List.foldl_cons, List.foldl_nil, Maps.apply, Maps.touches]
        cases m.edge i <;> simp [Option.filter]
      · exact this
  | edgesBatch fk c es =>
    simp only [step, upsertEdgesBatch, Op.writes]
    have := show_loop (batchEdge fk) (Write.edge fk) (show_upsertEdge fk) es s m hs
    cases c with
    | false => split <;> simpa using hs
    | true =>
      split
      · rename_i h; subst h; exact hs
      · simpa using this
  | deleteEdges c ids =>
    simp only [step, deleteEdgesBatch, Op.writes]
    cases c with
    | false => split <;> simpa using hs
    | true =>
      have := show_dropEdges s hu m hs ids
      split
      · rename_i h
        subst h
        exact ⟨hs.1, fun i => by rw [hs.2 i]; simp [Maps.apply]⟩
      · simpa [deleteEdgesTx] using this
  | execute fk c b =>
    simp only [step, executeBatch, Op.writes]
    cases c with
    | false => simpa using hs
    | true =>
      simp only [Bool.true_eq_false, if_false, if_true, List.foldl_append, List.foldl_cons, List.foldl_nil]
      have s1 := show_loop batchNode Write.node show_batchNode b.nodeUpserts s m hs
      have u1 := loop_unique batchNode batchNode_unique b.nodeUpserts s hu
      have s2 := show_dropNodes fk _ u1 _ s1 b.nodeDeletes (loop batchNode s b.nodeUpserts).1.index
      have u2 := dropNodes_unique fk u1 b.nodeDeletes
      have s3 := show_loop (batchEdge fk) (Write.edge fk) (show_upsertEdge fk) b.edgeUpserts _ _ s2
      have u3 := loop_unique (batchEdge fk) (fun s h a => upsertEdge_unique fk s h a) b.edgeUpserts _ u2
      exact show_dropEdges _ u3 _ s3 b.edgeDeletes
  | enable => exact ⟨hs.1, hs.2⟩

/-- After any history of calls, whatever the connections enforce and whichever batches commit, the graph shows exactly the two maps
of the specification: a node or an edge is what was last written under its id and not deleted since, and deletions of nodes take along
the edges at them where foreign keys are enforced. -/
theorem C228_maps (ops : List Op) :
    (∀ i, getNode (run ops) i = (Maps.after ops).node i) ∧ (∀ i, edgeById (run ops) i = (Maps.after ops).edge i) ∧
    (∀ id e, (∃ es, getEdges (run ops) id .out = some es ∧ e ∈ es) ↔ (Maps.after ops).edge e.id = some e ∧ e.src = id) ∧
    (∀ id e, (∃ es, getEdges (run ops) id .in_ = some es ∧ e ∈ es) ↔ (Maps.after ops).edge e.id = some e ∧ e.dst = id) := by
  have key : ∀ (ops : List Op) (s : State) (m : Maps), Unique s → Shows s m →
      Shows (ops.foldl step s) ((ops.flatMap Op.writes).foldl Maps.apply m) := by
    intro ops
    induction ops with
    | nil => intro s m _ hs; exact hs
    | cons o ops ih =>
      intro s m hu hs
      rw [List.foldl_cons, List.flatMap_cons, List.foldl_append]
      exact ih _ _ (step_unique s hu o) (show_step s hu m hs o)
  have hall := key ops init ⟨fun _ => none, fun _ => none⟩ ⟨by simp [init], by simp [init]⟩ ⟨fun _ => rfl, fun _ => rfl⟩
  have hu := (run_unique ops).2
  refine ⟨hall.1, hall.2, fun id e => ?_, fun id e => ?_⟩
  · have h2 : edgeById (run ops) e.id = (Maps.after ops).edge e.id := hall.2 e.id
    rw [← h2]
    unfold edgeById
    rw [find_unique Edge.id hu e]
    simp [getEdges]
  · have h2 : edgeById (run ops) e.id = (Maps.after ops).edge e.id := hall.2 e.id
    rw [← h2]
    unfold edgeById
    rw [find_unique Edge.id hu e]
    simp [getEdges]

/-- What the calls answer: a write of a node is accepted exactly when it has an id and a vector, a write of an edge when it has its
three ids and, where foreign keys are enforced, both ends are stored; a deletion succeeds exactly when there is something under the
id.  A refused call leaves both maps as they were. -/
theorem C228_answers (ops : List Op) (fk : Bool) :
    (∀ n, (upsertNode (run ops) n).2 = true ↔ ∃ x, n = some x ∧ x.id ≠ "" ∧ x.vec ≠ []) ∧
    (∀ id, (deleteNode fk (run ops) id).2 = true ↔ (Maps.after ops).node id ≠ none) ∧
    (∀ e, (upsertEdge fk (run ops) e).2 = true ↔ ∃ x, e = some x ∧ x.id ≠ "" ∧ x.src ≠ "" ∧ x.dst ≠ "" ∧
      (fk = true → (Maps.after ops).node x.src ≠ none ∧ (Maps.after ops).node x.dst ≠ none)) ∧
    (∀ id, (deleteEdge (run ops) id).2 = true ↔ (Maps.after ops).edge id ≠ none) ∧
    (∀ n, (upsertNode (run ops) n).2 = false → (upsertNode (run ops) n).1 = run ops) ∧
    (∀ id, (deleteNode fk (run ops) id).2 = false → (deleteNode fk (run ops) id).1 = run ops) ∧
    (∀ e, (upsertEdge fk (run ops) e).2 = false → (upsertEdge fk (run ops) e).1 = run ops) ∧
    (∀ id, (deleteEdge (run ops) id).2 = false → (deleteEdge (run ops) id).1 = run ops) := by
  obtain ⟨hn, he, _, _⟩ := C228_maps ops
  refine ⟨fun n => ?_, fun id => ?_, fun e => ?_, fun id => ?_, fun n => ?_, fun id => ?_, fun e => ?_, fun id => ?_⟩
  · cases n with
    | none => simp [upsertNode]
    | some n =>
      simp only [upsertNode]
      split_ifs with h1 h2 <;> simp [*]
  · rw [← hn id, ← hasNode_get]
    unfold deleteNode
    split_ifs with h <;> simp [h]
  · cases e with
    | none => simp [upsertEdge]
    | some e =>
      have hids : (normEdge e).src = e.src ∧ (normEdge e).dst = e.dst := by
        unfold normEdge; split <;> exact ⟨rfl, rfl⟩
      simp only [← hn, ← hasNode_get, upsertEdge, writeEdge, hids.1, hids.2]
      split_ifs with h1 h2 h3
      · simp [h1]
      · simp only [Bool.false_eq_true, false_iff, not_exists, not_and, Option.some.injEq]
        rintro x rfl _ h4 h5
        rcases h2 with h2 | h2 <;> contradiction
      · simp only [Bool.false_eq_true, false_iff, not_exists, not_and, Option.some.injEq]
        rintro x rfl _ _ _ h6
        obtain ⟨h7, h8⟩ := h6 h3.1
        rcases h3.2 with h | h <;> simp_all
      · simp only [true_iff]
        rw [not_or] at h2
        refine ⟨e, rfl, h1, h2.1, h2.2, fun hfk => ?_⟩
        simp only [hfk, true_and, not_or, Bool.not_eq_false] at h3
        exact h3
  · rw [← he id]
    unfold deleteEdge edgeById
    rw [← Option.isSome_iff_ne_none, List.find?_isSome]
    split_ifs with h
    · simpa using h
    · simpa using h
  · cases n with
    | none => simp [upsertNode]
    | some n => simp only [upsertNode]; split_ifs <;> simp
  · unfold deleteNode; split_ifs <;> simp
  · cases e with
    | none => simp [upsertEdge]
    | some e => simp only [upsertEdge, writeEdge]; split_ifs <;> simp
  · unfold deleteEdge; split_ifs <;> simp

/-- An edge left behind by a deletion on a connection that does not enforce foreign keys is still there, and shows up at the node
when a node of the same id is written again. -/
theorem C228_resurrected_violated (ops : List Op) (e : Edge) (n : Node) (h : (Maps.after ops).edge e.id = some e)
    (hn : n.id = e.src) (h1 : n.id ≠ "") (h2 : n.vec ≠ []) :
    getNode (run (ops ++ [.deleteNode false e.src])) e.src = none ∧
    getNode (run (ops ++ [.deleteNode false e.src, .upsertNode (some n)])) e.src = some n ∧
    ∃ es, getEdges (run (ops ++ [.deleteNode false e.src, .upsertNode (some n)])) n.id .out = some es ∧ e ∈ es := by
  have ha : Maps.after (ops ++ [.deleteNode false e.src]) = (Maps.after ops).apply (.dropNodes false [e.src]) := by
    simp [Maps.after, Op.writes]
  have hb : Maps.after (ops ++ [.deleteNode false e.src, .upsertNode (some n)]) =
      ((Maps.after ops).apply (.dropNodes false [e.src])).apply (.node n) := by
    simp [Maps.after, Op.writes]
  refine ⟨?_, ?_, ?_⟩
  · rw [(C228_maps _).1, ha]; simp [Maps.apply]
  · rw [(C228_maps _).1, hb]; rw [hn] at h1; simp [Maps.apply, h1, h2, hn]
  · refine ((C228_maps _).2.2.1 n.id e).2 ⟨?_, hn.symm⟩
    rw [hb]
    simp [Maps.apply, h1, h2, h, Option.filter]

/-! ### The hypotheses can be met -/

example : getNode (run [.upsertNode (some ⟨"a", [1], "x", "t", ""⟩), .upsertNode (some ⟨"b", [1], "x", "t", ""⟩),
      .upsertEdge true (some ⟨"e", "a", "b", "r", 0, "", []⟩), .upsertNode (some ⟨"a", [2], "y", "t", ""⟩)]) "a" =
      some ⟨"a", [2], "y", "t", ""⟩ ∧
    edgeById (run [.upsertNode (some ⟨"a", [1], "x", "t", ""⟩), .upsertNode (some ⟨"b", [1], "x", "t", ""⟩),
      .upsertEdge true (some ⟨"e", "a", "b", "r", 0, "", []⟩), .upsertNode (some ⟨"a", [2], "y", "t", ""⟩)]) "e" =
      some ⟨"e", "a", "b", "r", 1, "", []⟩ := by decide +kernel

example : (Maps.after [.upsertNode (some ⟨"a", [1], "x", "t", ""⟩), .upsertNode (some ⟨"b", [1], "x", "t", ""⟩),
    .upsertEdge true (some ⟨"e", "a", "b", "r", 1, "", []⟩)]).edge "e" = some ⟨"e", "a", "b", "r", 1, "", []⟩ := by
  rw [← (C228_maps _).2.1]; decide +kernel

end Verif.Graph
