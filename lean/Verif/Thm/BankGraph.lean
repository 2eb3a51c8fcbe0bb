import Verif.Model.BankGraph

/-!
# C233: the memory system and the graph of one database

`M` says which node ids the memory system uses: ids of banks and names of entities.
-/
namespace Verif.BankGraph
open Verif.Graph
open Verif.Hindsight (Bank)

/-- A write of the graph that names no node of the memory system and makes no bank. -/
def FairNode (M : String → Bool) (n : Node) : Prop := M n.id = false ∧ n.ntype ≠ "bank"

def FairEdge (M : String → Bool) (e : Edge) : Prop := M e.src = false ∧ M e.dst = false

def FairOp (M : String → Bool) : Op → Prop
  | .upsertNode n => ∀ x ∈ n, FairNode M x
  | .deleteNode _ id => M id = false
  | .upsertEdge _ e => ∀ x ∈ e, FairEdge M x
  | .deleteEdge _ => True
  | .nodesBatch _ ns => ∀ n ∈ ns, ∀ x ∈ n, FairNode M x
  | .deleteNodes _ _ ids => ∀ i ∈ ids, M i = false
  | .edgesBatch _ _ es => ∀ e ∈ es, ∀ x ∈ e, FairEdge M x
  | .deleteEdges _ _ => True
  | .execute _ _ b => (∀ n ∈ b.nodeUpserts, ∀ x ∈ n, FairNode M x) ∧ (∀ i ∈ b.nodeDeletes, M i = false) ∧
      ∀ e ∈ b.edgeUpserts, ∀ x ∈ e, FairEdge M x
  | .enable => True

/-- The memory system uses its own ids and the graph's callers others. -/
def Fair (M : String → Bool) : Call → Prop
  | .graph o => FairOp M o
  | .retain es => ∀ e ∈ es, M e = true
  | .create _ _ b => M b.id = true
  | .get id => M id = true
  | .delete _ id => M id = true
  | .restart => True

/-! ### Helpers -/

/-- `s` is the shared graph, `t` the graph without the memory system, `l` the nodes of the memory system without the graph. -/
structure Split (M : String → Bool) (s t : Graph.State) (l : List Node) : Prop where
  nodes : t.nodes = s.nodes.filter (fun n => !M n.id)
  edges : t.edges = s.edges
  mem : l = s.nodes.filter (fun n => M n.id)
  ends : ∀ e ∈ s.edges, FairEdge M e
  kind : ∀ n ∈ s.nodes, M n.id = false → n.ntype ≠ "bank"

theorem any_keep (l : List Node) (K : String → Bool) (i : String) (h : K i = true) :
    (l.filter (fun n => K n.id)).any (fun x => decide (x.id = i)) = l.any (fun x => decide (x.id = i)) := by
  rw [Bool.eq_iff_iff]
  simp only [List.any_eq_true, List.mem_filter, decide_eq_true_eq]
  exact ⟨fun ⟨x, hx, he⟩ => ⟨x, hx.1, he⟩, fun ⟨x, hx, he⟩ => ⟨x, ⟨hx, by rw [he]; exact h⟩, he⟩⟩

theorem put_keep (l : List Node) (K : String → Bool) (n : Node) (h : K n.id = true) :
    (putNode l n).filter (fun x => K x.id) = putNode (l.filter (fun x => K x.id)) n := by
  unfold putNode
  rw [any_keep l K n.id h]
  split
  · rw [List.filter_map]
    congr 1
    refine List.filter_congr fun x _ => ?_
    by_cases hx : x.id = n.id
    · simp [hx]
    · simp [hx]
  · simp [List.filter_append, h]

theorem put_drop (l : List Node) (K : String → Bool) (n : Node) (h : K n.id = false) :
    (putNode l n).filter (fun x => K x.id) = l.filter (fun x => K x.id) := by
  unfold putNode
  have hm : ((l.map fun x => if x.id = n.id then n else x).filter fun x => K x.id) = l.filter fun x => K x.id := by
    induction l with
    | nil => rfl
    | cons y l ih =>
      by_cases hy : y.id = n.id
      · simp [hy, h, ih]
      · simp [List.filter_cons, hy, ih]
  split
  · exact hm
  · simp [List.filter_append, h]

theorem mem_putNode {l : List Node} {n x : Node} (h : x ∈ putNode l n) : x = n ∨ x ∈ l := by
  unfold putNode at h
  split at h
  · obtain ⟨y, hy, rfl⟩ := List.mem_map.1 h
    split
    · exact Or.inl rfl
    · exact Or.inr hy
  · rcases List.mem_append.1 h with h | h
    · exact Or.inr h
    · exact Or.inl (by simpa using h)

theorem mem_putEdge {l : List Edge} {n x : Edge} (h : x ∈ putEdge l n) : x = n ∨ x ∈ l := by
  unfold putEdge at h
  split at h
  · obtain ⟨y, hy, rfl⟩ := List.mem_map.1 h
    split
    · exact Or.inl rfl
    · exact Or.inr hy
  · rcases List.mem_append.1 h with h | h
    · exact Or.inr h
    · exact Or.inl (by simpa using h)

theorem Split.hasNode {M : String → Bool} {s t : Graph.State} {l : List Node} (h : Split M s t l) {i : String} (hi : M i = false) :
    Graph.hasNode t.nodes i = Graph.hasNode s.nodes i := by
  rw [h.nodes]
  exact any_keep s.nodes (fun i => !M i) i (by simp [hi])

/-- A node of a caller of the graph. -/
theorem split_node {M : String → Bool} {s t : Graph.State} {l : List Node} (h : Split M s t l) (n : Node) (hn : FairNode M n)
    (i j : Option (List (String × List ℚ))) :
    Split M { s with nodes := putNode s.nodes n, index := i } { t with nodes := putNode t.nodes n, index := j } l where
  nodes := by rw [h.nodes]; exact (put_keep s.nodes (fun i => !M i) n (by simp [hn.1])).symm
  edges := h.edges
  mem := by rw [h.mem]; exact (put_drop s.nodes M n hn.1).symm
  ends := h.ends
  kind := fun x hx hm => by
    rcases mem_putNode hx with rfl | hx
    · exact hn.2
    · exact h.kind x hx hm

/-- A node of the memory system. -/
theorem split_own {M : String → Bool} {s t : Graph.State} {l : List Node} (h : Split M s t l) (n : Node) (hn : M n.id = true)
    (i : Option (List (String × List ℚ))) :
    Split M { s with nodes := putNode s.nodes n, index := i } t (putNode l n) where
  nodes := by rw [h.nodes]; exact (put_drop s.nodes (fun i => !M i) n (by simp [hn])).symm
  edges := h.edges
  mem := by rw [h.mem]; exact (put_keep s.nodes M n hn).symm
  ends := h.ends
  kind := fun x hx hm => by
    rcases mem_putNode hx with rfl | hx
    · rw [hn] at hm; cases hm
    · exact h.kind x hx hm

theorem split_batchNode {M : String → Bool} {s t : Graph.State} {l : List Node} (h : Split M s t l) (n : Option Node)
    (hn : ∀ x ∈ n, FairNode M x) : Split M (batchNode s n).1 (batchNode t n).1 l := by
  cases n with
  | none => exact h
  | some n =>
    unfold batchNode
    simp only
    split
    · exact h
    · exact split_node h n (hn n rfl) s.index t.index

theorem split_upsertNode {M : String → Bool} {s t : Graph.State} {l : List Node} (h : Split M s t l) (n : Option Node)
    (hn : ∀ x ∈ n, FairNode M x) : Split M (upsertNode s n).1 (upsertNode t n).1 l := by
  cases n with
  | none => exact h
  | some n =>
    unfold upsertNode
    simp only
    split
    · exact h
    split
    · exact h
    · exact split_node h n (hn n rfl) _ _

theorem split_upsertEdge {M : String → Bool} {s t : Graph.State} {l : List Node} (h : Split M s t l) (fk : Bool) (e : Option Edge)
    (he : ∀ x ∈ e, FairEdge M x) : Split M (upsertEdge fk s e).1 (upsertEdge fk t e).1 l := by
  cases e with
  | none => exact h
  | some e =>
    have hf := he e rfl
    have hn : FairEdge M (normEdge e) := by unfold normEdge; split <;> exact hf
    unfold upsertEdge
    simp only
    split
    · exact h
    split
    · exact h
    unfold writeEdge
    rw [h.hasNode hn.1, h.hasNode hn.2, h.edges]
    split
    · exact h
    · exact ⟨h.nodes, rfl, h.mem, fun x hx => by
        rcases mem_putEdge hx with rfl | hx
        · exact hn
        · exact h.ends x hx, h.kind⟩

theorem split_drop {M : String → Bool} {s t : Graph.State} {l : List Node} (h : Split M s t l) (fk : Bool) (ids : List String)
    (hi : ∀ i ∈ ids, M i = false) (a b : Option (List (String × List ℚ))) :
    Split M { dropNodes fk s ids with index := a } { dropNodes fk t ids with index := b } l where
  nodes := by
    show t.nodes.filter _ = (s.nodes.filter _).filter _
    rw [h.nodes, List.filter_filter, List.filter_filter]
    exact List.filter_congr fun x _ => Bool.and_comm _ _
  edges := by
    have hg : ids.filter (Graph.hasNode t.nodes) = ids.filter (Graph.hasNode s.nodes) :=
      List.filter_congr fun i hx => h.hasNode (hi i hx)
    simp only [dropNodes, hg, h.edges]
  mem := by
    show l = (s.nodes.filter _).filter _
    rw [h.mem, List.filter_filter]
    refine List.filter_congr fun x _ => ?_
    by_cases hx : x.id ∈ ids
    · simp [hi _ hx]
    · simp [hx]
  ends := fun e he => by
    simp only [dropNodes] at he
    split at he
    · exact h.ends e (List.mem_filter.1 he).1
    · exact h.ends e he
  kind := fun n hn => h.kind n (List.mem_filter.1 hn).1

theorem split_dropEdges {M : String → Bool} {s t : Graph.State} {l : List Node} (h : Split M s t l) (p : Edge → Bool) :
    Split M { s with edges := s.edges.filter p } { t with edges := t.edges.filter p } l :=
  ⟨h.nodes, by simp only [h.edges], h.mem, fun e he => h.ends e (List.mem_filter.1 he).1, h.kind⟩

theorem split_loop {M : String → Bool} {α : Type} (f : Graph.State → α → Graph.State × Bool) (P : α → Prop)
    (hf : ∀ s t l a, Split M s t l → P a → Split M (f s a).1 (f t a).1 l) (as : List α) :
    ∀ s t l, Split M s t l → (∀ a ∈ as, P a) → Split M (loop f s as).1 (loop f t as).1 l := by
  induction as with
  | nil => intro s t l h _; exact h
  | cons a as ih =>
    intro s t l h hp
    exact ih _ _ _ (hf s t l a h (hp a List.mem_cons_self)) (fun x hx => hp x (List.mem_cons_of_mem _ hx))

theorem split_graph {M : String → Bool} {s t : Graph.State} {l : List Node} (h : Split M s t l) (o : Op) (ho : FairOp M o) :
    Split M (Graph.step s o) (Graph.step t o) l := by
  cases o with
  | upsertNode n => exact split_upsertNode h n ho
  | deleteNode fk id =>
    simp only [Graph.step, deleteNode]
    rw [h.hasNode ho]
    split
    · exact split_drop h fk [id] (fun i hi => by rw [List.mem_singleton.1 hi]; exact ho) _ _
    · exact h
  | upsertEdge fk e => exact split_upsertEdge h fk e ho
  | deleteEdge id =>
    have he : t.edges.any (fun e => decide (e.id = id)) = s.edges.any (fun e => decide (e.id = id)) := by rw [h.edges]
    simp only [Graph.step, deleteEdge, he]
    split
    · exact split_dropEdges h _
    · exact h
  | nodesBatch c ns =>
    simp only [Graph.step, upsertNodesBatch]
    split
    · exact h
    split
    · exact h
    · exact split_loop batchNode (fun n => ∀ x ∈ n, FairNode M x) (fun _ _ _ a h ha => split_batchNode h a ha) ns _ _ _ h ho
  | deleteNodes fk c ids =>
    simp only [Graph.step, deleteNodesBatch]
    split
    · exact h
    split
    · exact h
    · exact split_drop h fk ids ho _ _
  | edgesBatch fk c es =>
    simp only [Graph.step, upsertEdgesBatch]
    split
    · exact h
    split
    · exact h
    · exact split_loop (batchEdge fk) (fun n => ∀ x ∈ n, FairEdge M x) (fun _ _ _ a h ha => split_upsertEdge h fk a ha) es _ _ _ h ho
  | deleteEdges c ids =>
    simp only [Graph.step, deleteEdgesBatch]
    split
    · exact h
    split
    · exact h
    · exact split_dropEdges h _
  | execute fk c b =>
    simp only [Graph.step, executeBatch]
    split
    · exact h
    · exact split_dropEdges (split_loop (batchEdge fk) (fun n => ∀ x ∈ n, FairEdge M x) (fun _ _ _ a h ha => split_upsertEdge h fk a ha) _
        _ _ _ (split_drop (split_loop batchNode (fun n => ∀ x ∈ n, FairNode M x) (fun _ _ _ a h ha => split_batchNode h a ha) _ _ _ _ h
          ho.1) fk _ ho.2.1 _ _) ho.2.2) _
  | enable => exact ⟨h.nodes, h.edges, h.mem, h.ends, h.kind⟩

/-- A write of the memory system, on the shared graph `s` and on the graph `u` of the memory system alone. -/
theorem split_upsertOwn {M : String → Bool} {s t u : Graph.State} (h : Split M s t u.nodes) (n : Node) (hn : M n.id = true) :
    Split M (upsertNode s (some n)).1 t (upsertNode u (some n)).1.nodes := by
  unfold upsertNode
  simp only
  split
  · exact h
  split
  · exact h
  · exact split_own h n hn _

theorem split_deleteOwn {M : String → Bool} {s t u : Graph.State} (h : Split M s t u.nodes) (fk : Bool) (id : String) (hi : M id = true) :
    Split M (deleteNode fk s id).1 t (deleteNode fk u id).1.nodes := by
  have hh : hasNode u.nodes id = hasNode s.nodes id := by
    rw [h.mem]; exact any_keep s.nodes M id hi
  unfold deleteNode
  rw [hh]
  split
  · refine ⟨?_, ?_, ?_, ?_, ?_⟩
    · show t.nodes = (s.nodes.filter _).filter _
      rw [h.nodes, List.filter_filter]
      refine List.filter_congr fun x _ => ?_
      by_cases hx : x.id = id
      · simp [hx, hi]
      · simp [hx]
    · show t.edges = if fk then _ else _
      rw [h.edges]
      split
      · refine (List.filter_eq_self.2 fun e he => ?_).symm
        obtain ⟨h1, h2⟩ := h.ends e he
        have h3 : e.src ≠ id := fun hx => by rw [hx, hi] at h1; cases h1
        have h4 : e.dst ≠ id := fun hx => by rw [hx, hi] at h2; cases h2
        simp [h3, h4]
      · rfl
    · show u.nodes.filter _ = (s.nodes.filter _).filter _
      rw [h.mem, List.filter_filter, List.filter_filter]
      exact List.filter_congr fun x _ => Bool.and_comm _ _
    · intro e he
      simp only [dropNodes] at he
      split at he
      · exact h.ends e (List.mem_filter.1 he).1
      · exact h.ends e he
    · exact fun n hn => h.kind n (List.mem_filter.1 hn).1
  · exact h

theorem split_retain {M : String → Bool} (es : List String) : ∀ {s t u : Graph.State}, Split M s t u.nodes → (∀ e ∈ es, M e = true) →
    Split M (es.foldl (fun g e => (upsertNode g (some (entityNode e))).1) s) t
      (es.foldl (fun g e => (upsertNode g (some (entityNode e))).1) u).nodes := by
  induction es with
  | nil => intro s t u h _; exact h
  | cons e es ih =>
    intro s t u h he
    exact ih (split_upsertOwn h (entityNode e) (he e List.mem_cons_self)) (fun x hx => he x (List.mem_cons_of_mem _ hx))

theorem find_keep (l : List Node) (K : String → Bool) (i : String) (h : K i = true) :
    (l.filter (fun n => K n.id)).find? (fun x => decide (x.id = i)) = l.find? (fun x => decide (x.id = i)) := by
  induction l with
  | nil => rfl
  | cons x l ih =>
    by_cases hx : x.id = i
    · simp [List.filter_cons, hx, h]
    · by_cases hk : K x.id = true
      · simp [List.filter_cons, hk, hx, ih]
      · simp [List.filter_cons, hk, hx, ih]

/-- The shared database `s`, the graph `t` alone and the memory system `u` alone. -/
def Rel (M : String → Bool) (s : State) (t : Graph.State) (u : State) : Prop := Split M s.g t u.g.nodes ∧ u.banks = s.banks

theorem rel_step {M : String → Bool} {s u : State} {t : Graph.State} (h : Rel M s t u) (c : Call) (hc : Fair M c) :
    Rel M (step s c) ((c.op.map (Graph.step t)).getD t) (if c.op.isSome then u else step u c) := by
  obtain ⟨hs, hb⟩ := h
  have hfb : ∀ i, findBank u i = findBank s i := fun i => by unfold findBank; rw [hb]
  cases c with
  | graph o => exact ⟨split_graph hs o hc, hb⟩
  | retain es => exact ⟨split_retain es hs hc, hb⟩
  | create d p b =>
    show Rel M (createBank d p s b).1 t (createBank d p u b).1
    unfold createBank
    rw [hfb]
    split
    · exact ⟨hs, hb⟩
    cases b.disposition with
    | none => exact ⟨hs, hb⟩
    | some x => exact ⟨split_upsertOwn hs (bankNode d p b) hc, by simp [hb]⟩
  | get id =>
    show Rel M (getBank s id).1 t (getBank u id).1
    have hg : Graph.getNode u.g id = Graph.getNode s.g id := by
      unfold Graph.getNode
      rw [hs.mem]
      exact find_keep s.g.nodes M id hc
    unfold getBank
    rw [hfb, hg]
    cases findBank s id with
    | some b => exact ⟨hs, hb⟩
    | none =>
      cases Graph.getNode s.g id with
      | none => exact ⟨hs, hb⟩
      | some n =>
        simp only
        split
        · exact ⟨hs, by simp [hb]⟩
        · exact ⟨hs, hb⟩
  | delete fk id =>
    show Rel M (deleteBank fk s id).1 t (deleteBank fk u id).1
    unfold deleteBank
    rw [hfb]
    split
    · exact ⟨split_deleteOwn hs fk id hc, by simp [hb]⟩
    · exact ⟨hs, hb⟩
  | restart =>
    refine ⟨⟨hs.nodes, hs.edges, hs.mem, hs.ends, hs.kind⟩, ?_⟩
    show (u.g.nodes.filter _).map toBank = (s.g.nodes.filter _).map toBank
    rw [hs.mem, List.filter_filter]
    congr 1
    refine List.filter_congr fun n hn => ?_
    cases hm : M n.id with
    | true => simp
    | false => simp [hs.kind n hn hm]

theorem rel_run {M : String → Bool} (cs : List Call) : ∀ {s u : State} {t : Graph.State}, Rel M s t u → (∀ c ∈ cs, Fair M c) →
    Rel M (cs.foldl step s) ((cs.filterMap Call.op).foldl Graph.step t) ((cs.filter (fun c => !c.op.isSome)).foldl step u) := by
  induction cs with
  | nil => intro s u t h _; exact h
  | cons c cs ih =>
    intro s u t h hf
    have h1 := ih (rel_step h c (hf c List.mem_cons_self)) (fun x hx => hf x (List.mem_cons_of_mem _ hx))
    cases ho : c.op with
    | none => simpa [List.filter_cons, List.filterMap_cons, ho] using h1
    | some o => simpa [List.filter_cons, List.filterMap_cons, ho] using h1

/-! ### Property theorems -/

/-- C233, proved part: any history of calls of the memory system and of the graph in which the ids of banks and the names of entities
(`M`) are not ids of the graph's own nodes, and no caller of the graph writes a node of type `bank`. Every node of the graph outside `M`
and every edge is then what it would be without the memory system, and the banks, and which of them a restart finds, are what they would
be without the other calls. Without the provisos it is false, see the theorems below. -/
theorem C233_apart_partial (M : String → Bool) (cs : List Call) (hf : ∀ c ∈ cs, Fair M c) :
    (∀ i, M i = false → getNode (run cs).g i = getNode (Graph.run (cs.filterMap Call.op)) i) ∧
    (∀ i d, getEdges (run cs).g i d = getEdges (Graph.run (cs.filterMap Call.op)) i d) ∧
    (run cs).banks = (run (cs.filter (fun c => !c.op.isSome))).banks ∧
    ∀ i, M i = true → (getBank (restart (run cs)) i).2 = (getBank (restart (run (cs.filter (fun c => !c.op.isSome)))) i).2 := by
  have h0 : Rel M init Graph.init init := ⟨⟨rfl, rfl, rfl, fun e he => by simp [init, Graph.init] at he,
    fun n hn => by simp [init, Graph.init] at hn⟩, rfl⟩
  have h := rel_run cs h0 hf
  have hr := rel_step h .restart trivial
  have e1 : cs.foldl step init = run cs := rfl
  have e2 : (cs.filterMap Call.op).foldl Graph.step Graph.init = Graph.run (cs.filterMap Call.op) := rfl
  have e3 : (cs.filter (fun c => !c.op.isSome)).foldl step init = run (cs.filter (fun c => !c.op.isSome)) := rfl
  rw [e1, e2, e3] at h hr
  refine ⟨fun i hi => ?_, fun i d => ?_, h.2.symm, fun i hi => ?_⟩
  · unfold getNode
    rw [h.1.nodes]
    exact (find_keep _ (fun i => !M i) i (by simp [hi])).symm
  · unfold getEdges
    rw [h.1.edges]
  · have hb : (restart (run (cs.filter (fun c => !c.op.isSome)))).banks = (restart (run cs)).banks := hr.2
    have hg : Graph.getNode (restart (run (cs.filter (fun c => !c.op.isSome)))).g i = Graph.getNode (restart (run cs)).g i := by
      have hm : (restart (run (cs.filter (fun c => !c.op.isSome)))).g.nodes = _ := hr.1.mem
      unfold Graph.getNode
      rw [hm]
      exact find_keep _ M i hi
    unfold getBank findBank
    rw [hb, hg]
    cases (restart (run cs)).banks.find? (fun b => decide (b.id = i)) with
    | some b => rfl
    | none =>
      cases Graph.getNode (restart (run cs)).g i with
      | none => rfl
      | some n => simp only; split <;> rfl

theorem get_put (g : Graph.State) (n : Node) (h : n.id ≠ "") (hv : n.vec ≠ []) : getNode (upsertNode g (some n)).1 n.id = some n := by
  simp only [upsertNode, h, hv, if_false, getNode]
  unfold putNode
  split
  · rename_i ha
    obtain ⟨x, hx, he⟩ := List.any_eq_true.1 ha
    have he : x.id = n.id := by simpa using he
    generalize g.nodes = l at hx
    clear ha
    induction l with
    | nil => cases hx
    | cons y l ih =>
      by_cases hy : y.id = n.id
      · simp [hy]
      · rw [List.map_cons, if_neg hy, List.find?_cons_of_neg (by simpa using hy)]
        rcases List.mem_cons.1 hx with rfl | hx
        · exact absurd he hy
        · exact ih hx
  · rename_i ha
    rw [List.find?_append]
    have : g.nodes.find? (fun x => decide (x.id = n.id)) = none := by
      rw [List.find?_eq_none]
      intro x hx hd
      exact ha (List.any_eq_true.2 ⟨x, hx, hd⟩)
    rw [this]
    simp

theorem get_other (g : Graph.State) (n : Node) (i : String) (hi : i ≠ n.id) : getNode (upsertNode g (some n)).1 i = getNode g i := by
  simp only [upsertNode]
  split
  · rfl
  split
  · rfl
  · simp only [getNode]
    rw [← find_keep (putNode g.nodes n) (fun j => decide (j = i)) i (by simp), put_drop _ (fun j => decide (j = i)) n (by simp [Ne.symm hi]),
      find_keep _ (fun j => decide (j = i)) i (by simp)]

/-- C233 is violated by retaining a memory about an entity that has the id of a node of the graph: in every state, whatever the node was,
it now has the type `entity`, its id as content, three zeros as vector and no properties. -/
theorem C233_retain_violated (s : State) (es : List String) (i : String) (hi : i ∈ es) (h0 : i ≠ "") :
    getNode (retain s es).g i = some (entityNode i) := by
  have h : ∀ (es : List String) (g : Graph.State), (i ∈ es ∨ getNode g i = some (entityNode i)) →
      getNode (es.foldl (fun g e => (upsertNode g (some (entityNode e))).1) g) i = some (entityNode i) := by
    intro es
    induction es with
    | nil => intro g h; simpa using h
    | cons e es ih =>
      intro g h
      rw [List.foldl_cons]
      apply ih
      by_cases he : i = e
      · subst he
        exact Or.inr (get_put g (entityNode i) h0 (by simp [entityNode]))
      · rw [get_other g (entityNode e) i he]
        rcases h with h | h
        · exact Or.inl ((List.mem_cons.1 h).resolve_left he)
        · exact Or.inr h
  exact h es s.g (Or.inl hi)

/-- C233 is violated by creating a bank with the id of a node of the graph: the call succeeds and the node is replaced, in every state in
which no bank of that id is known. -/
theorem C233_create_violated (d : Nat) (p : String) (s : State) (b : Bank) (h0 : b.id ≠ "") (hd : b.disposition ≠ none)
    (hb : findBank s b.id = none) :
    (createBank d p s b).2 = .ok ∧ getNode (createBank d p s b).1.g b.id = some (bankNode d p b) := by
  obtain ⟨x, hx⟩ := Option.ne_none_iff_exists'.1 hd
  have : createBank d p s b = (⟨(upsertNode s.g (some (bankNode d p b))).1, s.banks ++ [b]⟩, .ok) := by
    simp [createBank, hb, hx]
  rw [this]
  exact ⟨rfl, get_put s.g (bankNode d p b) h0 (by simp [bankNode])⟩

/-- C233 is violated by deleting a bank: the node of its id is gone whatever it was, and on a connection with foreign keys every edge that
callers of the graph put at it. -/
theorem C233_delete_violated (s : State) (id : String) (hb : findBank s id ≠ none) (hn : hasNode s.g.nodes id = true) :
    getNode (deleteBank true s id).1.g id = none ∧
      ∀ e ∈ (deleteBank true s id).1.g.edges, e.src ≠ id ∧ e.dst ≠ id := by
  have hs : (findBank s id).isSome = true := Option.isSome_iff_ne_none.2 hb
  simp only [deleteBank, hs, if_true, deleteNode, hn]
  refine ⟨?_, fun e he => ?_⟩
  · simp only [getNode, dropNodes]
    rw [List.find?_eq_none]
    intro x hx
    have := (List.mem_filter.1 hx).2
    simpa using this
  · have := (List.mem_filter.1 he).2
    simpa [hn] using this

/-- C233 is violated by callers of the graph: a node of type `bank` is a bank from the next start on, under the node's id and content. -/
theorem C233_invented_violated (s : State) (n : Node) (h0 : n.id ≠ "") (hv : n.vec ≠ []) (ht : n.ntype = "bank") :
    toBank n ∈ (restart (step s (.graph (.upsertNode (some n))))).banks := by
  have h := get_put s.g n h0 hv
  refine List.mem_map.2 ⟨n, List.mem_filter.2 ⟨?_, by simp [ht]⟩, rfl⟩
  exact List.mem_of_find?_eq_some h

/-- C233 is violated by deleting the node of a bank through the graph: the bank is there until the next start, and then it is not. -/
theorem C233_forgotten_violated (s : State) (b : Bank) (fk : Bool) (hb : findBank s b.id = some b) :
    (getBank (step s (.graph (.deleteNode fk b.id))) b.id).2 = some b ∧
      (getBank (restart (step s (.graph (.deleteNode fk b.id)))) b.id).2 = none := by
  constructor
  · have : findBank (step s (.graph (.deleteNode fk b.id))) b.id = some b := hb
    simp [getBank, this]
  · have hn : ∀ n ∈ (restart (step s (.graph (.deleteNode fk b.id)))).g.nodes, n.id ≠ b.id := by
      intro n hn
      have hn : n ∈ (deleteNode fk s.g b.id).1.nodes := hn
      unfold deleteNode at hn
      split at hn
      · have := (List.mem_filter.1 hn).2
        simpa using this
      · rename_i hh
        intro he
        exact hh (List.any_eq_true.2 ⟨n, hn, by simp [he]⟩)
    have h1 : findBank (restart (step s (.graph (.deleteNode fk b.id)))) b.id = none := by
      unfold findBank
      rw [List.find?_eq_none]
      intro x hx
      obtain ⟨n, hn', rfl⟩ := List.mem_map.1 hx
      have := hn n (List.mem_filter.1 hn').1
      simp [toBank, Hindsight.bankOfNode, this]
    have h2 : getNode (restart (step s (.graph (.deleteNode fk b.id)))).g b.id = none := by
      unfold getNode
      rw [List.find?_eq_none]
      intro x hx
      simpa using hn x hx
    simp [getBank, h1, h2]

/-! ### The hypotheses can be met -/

/-- A bank with a memory about Ann, and two people of the graph who know each other. -/
def demoCalls : List Call :=
  [.create 2 "{}" ⟨"bank1", "B", "", "", some ⟨3, 3, 3⟩⟩, .graph (.upsertNode (some ⟨"p1", [1, 0], "Ann", "person", ""⟩)), .retain ["Ann"],
   .graph (.upsertNode (some ⟨"p2", [0, 1], "Bob", "person", ""⟩)), .graph (.upsertEdge true (some ⟨"e", "p1", "p2", "knows", 1, "", []⟩)),
   .restart]

example : ∀ c ∈ demoCalls, Fair (fun i => i == "bank1" || i == "Ann") c := by
  simp only [demoCalls, List.forall_mem_cons, Fair, FairOp, FairNode, FairEdge, List.not_mem_nil, false_implies, implies_true, and_true,
    Option.mem_def, Option.some.injEq, forall_eq']
  decide +kernel

example : (run demoCalls).banks = [⟨"bank1", "B", "B", "", none⟩] ∧ (run demoCalls).g.edges.length = 1 ∧
    (run demoCalls).g.nodes.length = 4 ∧ hasNode (run demoCalls).g.nodes "bank1" = true ∧ (findBank (run demoCalls) "bank1").isSome ∧
    findBank (run demoCalls) "p1" = none := by decide +kernel

end Verif.BankGraph
