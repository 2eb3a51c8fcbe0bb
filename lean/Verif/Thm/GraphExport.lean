import Verif.Model.GraphExport
import Verif.Thm.GraphStore
import Mathlib.Data.List.Perm.Basic
import Mathlib.Data.List.Forall2
import Mathlib.Data.List.Infix

/-! C50 and C107: exporting a graph, importing it again, and telling the formats apart. -/
namespace Verif.Graph

/-! ### Specification -/

/-- The same property map: a nil and an empty map have the same entries. -/
def SameProps (p q : String) : Prop := p = q ∨ ((p = "" ∨ p = "{}") ∧ (q = "" ∨ q = "{}"))

structure SameNode (n m : Node) : Prop where
  id : m.id = n.id
  vec : m.vec = n.vec
  content : m.content = n.content
  ntype : m.ntype = n.ntype
  props : SameProps n.props m.props

structure SameEdge (e f : Edge) : Prop where
  id : f.id = e.id
  src : f.src = e.src
  dst : f.dst = e.dst
  etype : f.etype = e.etype
  weight : f.weight = e.weight
  vec : f.vec = e.vec
  props : SameProps e.props f.props

/-- The second store holds the nodes and edges of the first, once each and nothing else. -/
def Restores (s t : State) : Prop :=
  (∃ l, l.Perm t.nodes ∧ List.Forall₂ SameNode s.nodes l) ∧ ∃ l, l.Perm t.edges ∧ List.Forall₂ SameEdge s.edges l

/-- Every character survives XML. -/
def Plain (t : String) : Prop := ∀ c ∈ t.toList, xmlChar c = true

/-- What a store holds after any history. -/
structure Rows (s : State) : Prop where
  node : ∀ n ∈ s.nodes, n.id ≠ "" ∧ n.vec ≠ []
  edge : ∀ e ∈ s.edges, e.id ≠ "" ∧ e.src ≠ "" ∧ e.dst ≠ "" ∧ e.weight ≠ 0

/-! ### Rows of a store -/

theorem mem_putNode {l : List Node} {n m : Node} (h : m ∈ putNode l n) : m = n ∨ m ∈ l := by
  unfold putNode at h
  split_ifs at h
  · obtain ⟨x, hx, rfl⟩ := List.mem_map.1 h
    split_ifs
    · exact Or.inl rfl
    · exact Or.inr hx
  · rcases List.mem_append.1 h with h | h
    · exact Or.inr h
    · exact Or.inl (List.mem_singleton.1 h)

theorem putNode_rows {s : State} (h : Rows s) (n : Node) (i : Option (List (String × List ℚ))) (h1 : n.id ≠ "") (h2 : n.vec ≠ []) :
    Rows { s with nodes := putNode s.nodes n, index := i } := by
  refine ⟨?_, h.edge⟩
  intro m hm
  rcases mem_putNode hm with rfl | hm
  · exact ⟨h1, h2⟩
  · exact h.node m hm

theorem batchNode_rows (s : State) (h : Rows s) (n : Option Node) : Rows (batchNode s n).1 := by
  cases n with
  | none => exact h
  | some n =>
    simp only [batchNode]
    split_ifs with h1
    · exact h
    · push Not at h1
      exact putNode_rows h n s.index h1.1 h1.2

theorem normEdge_weight (e : Edge) : (normEdge e).weight ≠ 0 := by
  unfold normEdge
  split_ifs with h
  · simp
  · exact h

theorem upsertEdge_rows (fk : Bool) (s : State) (h : Rows s) (e : Option Edge) : Rows (upsertEdge fk s e).1 := by
  cases e with
  | none => exact h
  | some e =>
    simp only [upsertEdge]
    split_ifs with h1 h2
    · exact h
    · exact h
    · push Not at h2
      unfold writeEdge
      split_ifs
      · exact h
      · refine ⟨h.node, ?_⟩
        intro f hf
        rcases mem_putEdge hf with rfl | hf
        · have e1 : (normEdge e).id = e.id := by unfold normEdge; split_ifs <;> rfl
          have e2 : (normEdge e).src = e.src := by unfold normEdge; split_ifs <;> rfl
          have e3 : (normEdge e).dst = e.dst := by unfold normEdge; split_ifs <;> rfl
          rw [e1, e2, e3]
          exact ⟨h1, h2.1, h2.2, normEdge_weight e⟩
        · exact h.edge f hf

theorem dropNodes_rows (fk : Bool) {s : State} (h : Rows s) (ids : List String) : Rows (dropNodes fk s ids) := by
  refine ⟨fun n hn => h.node n (List.mem_of_mem_filter hn), ?_⟩
  intro e he
  simp only [dropNodes] at he
  split_ifs at he
  · exact h.edge e (List.mem_of_mem_filter he)
  · exact h.edge e he

theorem dropEdges_rows {s : State} (h : Rows s) (p : Edge → Bool) : Rows { s with edges := s.edges.filter p } :=
  ⟨h.node, fun e he => h.edge e (List.mem_of_mem_filter he)⟩

theorem step_rows (s : State) (h : Rows s) (o : Op) : Rows (step s o) := by
  cases o with
  | upsertNode n =>
    simp only [step, upsertNode]
    cases n with
    | none => exact h
    | some n =>
      simp only
      split_ifs with h1 h2
      · exact h
      · exact h
      · exact putNode_rows h n _ h1 h2
  | deleteNode fk id =>
    simp only [step, deleteNode]
    split_ifs
    · exact ⟨(dropNodes_rows fk h [id]).node, (dropNodes_rows fk h [id]).edge⟩
    · exact h
  | upsertEdge fk e => exact upsertEdge_rows fk s h e
  | deleteEdge id =>
    simp only [step, deleteEdge]
    split_ifs
    · exact dropEdges_rows h _
    · exact h
  | nodesBatch c ns =>
    simp only [step, upsertNodesBatch]
    split_ifs
    · exact h
    · exact h
    · exact loop_inv batchNode Rows batchNode_rows s h ns
  | deleteNodes fk c ids =>
    simp only [step, deleteNodesBatch]
    split_ifs
    · exact h
    · exact h
    · exact dropNodes_rows fk h ids
  | edgesBatch fk c es =>
    simp only [step, upsertEdgesBatch]
    split_ifs
    · exact h
    · exact h
    · exact loop_inv (batchEdge fk) Rows (upsertEdge_rows fk) s h es
  | deleteEdges c ids =>
    simp only [step, deleteEdgesBatch]
    split_ifs
    · exact h
    · exact h
    · exact dropEdges_rows h _
  | execute fk c b =>
    simp only [step, executeBatch]
    split_ifs
    · exact h
    · refine dropEdges_rows ?_ _
      refine loop_inv (batchEdge fk) Rows (upsertEdge_rows fk) _ ?_ _
      exact dropNodes_rows fk (loop_inv batchNode Rows batchNode_rows s h _) _
  | enable => exact ⟨h.node, h.edge⟩

theorem run_rows (ops : List Op) : Rows (run ops) := by
  have key : ∀ s, Rows s → Rows (ops.foldl step s) := by
    induction ops with
    | nil => exact fun _ hs => hs
    | cons o l ih => exact fun s hs => ih _ (step_rows s hs o)
  exact key init ⟨by simp [init], by simp [init]⟩

/-! ### The edges that are exported -/

theorem firstEdges_id (l : List Edge) : ∀ seen, (l.map Edge.id).Nodup → (∀ e ∈ l, e.id ∉ seen) → firstEdges seen l = l := by
  induction l with
  | nil => intro _ _ _; rfl
  | cons e l ih =>
    intro seen hn hs
    rw [List.map_cons, List.nodup_cons] at hn
    rw [firstEdges, if_neg (hs e List.mem_cons_self), ih _ hn.2]
    intro f hf hmem
    rcases List.mem_cons.1 hmem with h | h
    · exact hn.1 (h ▸ List.mem_map_of_mem hf)
    · exact hs f (List.mem_cons_of_mem _ hf) h

theorem group_perm (es : List Edge) (ks : List String) (hk : ks.Nodup) :
    (ks.flatMap (fun k => es.filter (fun e => decide (e.src = k)))).Perm (es.filter (fun e => decide (e.src ∈ ks))) := by
  induction ks with
  | nil => simp
  | cons k ks ih =>
    rw [List.nodup_cons] at hk
    rw [List.flatMap_cons]
    have h1 := List.filter_append_perm (fun e : Edge => decide (e.src = k)) (es.filter (fun e => decide (e.src ∈ k :: ks)))
    refine List.Perm.trans (List.Perm.append_left _ (ih hk.2)) (List.Perm.trans (List.Perm.of_eq ?_) h1)
    rw [List.filter_filter, List.filter_filter]
    congr 1
    · apply List.filter_congr
      intro e _
      by_cases h : e.src = k <;> simp [h]
    · apply List.filter_congr
      intro e _
      by_cases h : e.src = k
      · simp [h, hk.1]
      · simp [h]

theorem exportEdges_perm (s : State) (h : Inv s) : (exportEdges s).Perm s.edges := by
  have h1 : (s.nodes.flatMap (fun n => s.edges.filter (fun e => decide (e.src = n.id)))).Perm s.edges := by
    have h2 := group_perm s.edges (s.nodes.map Node.id) h.2.1
    rw [List.flatMap_map] at h2
    refine h2.trans (List.Perm.of_eq ?_)
    rw [List.filter_eq_self]
    intro e he
    obtain ⟨n, hn, hne⟩ := (h.1 e he).1
    simp only [decide_eq_true_eq]
    exact List.mem_map.2 ⟨n, hn, hne⟩
  unfold exportEdges
  rw [firstEdges_id _ [] ((h1.map Edge.id).nodup_iff.2 h.2.2) (by simp)]
  exact h1

/-! ### Importing into an empty store -/

theorem loop_fresh_nodes (ns : List Node) : ∀ s : State, ((s.nodes ++ ns).map Node.id).Nodup → (∀ n ∈ ns, n.id ≠ "" ∧ n.vec ≠ []) →
    (loop batchNode s (ns.map some)).1 = { s with nodes := s.nodes ++ ns } := by
  induction ns with
  | nil => intro s _ _; simp [loop]
  | cons n ns ih =>
    intro s hn hv
    rw [List.map_cons, loop]
    simp only
    have hfresh : putNode s.nodes n = s.nodes ++ [n] := by
      unfold putNode
      rw [if_neg]
      simp only [List.any_eq_true, decide_eq_true_eq, not_exists, not_and]
      intro x hx hxn
      rw [List.map_append, List.nodup_append] at hn
      exact hn.2.2 x.id (List.mem_map_of_mem hx) n.id (by simp) hxn
    have hb : batchNode s (some n) = ({ s with nodes := s.nodes ++ [n] }, true) := by
      have := hv n List.mem_cons_self
      simp only [batchNode]
      rw [if_neg (by push Not; exact this), hfresh]
    rw [hb, ih _ (by simpa using hn) (fun m hm => hv m (List.mem_cons_of_mem _ hm))]
    simp

theorem loop_fresh_edges (fk : Bool) (es : List Edge) : ∀ s : State, ((s.edges ++ es).map Edge.id).Nodup →
    (∀ e ∈ es, e.id ≠ "" ∧ e.src ≠ "" ∧ e.dst ≠ "" ∧ e.weight ≠ 0) →
    (∀ e ∈ es, (∃ n ∈ s.nodes, n.id = e.src) ∧ (∃ n ∈ s.nodes, n.id = e.dst)) →
    (loop (batchEdge fk) s (es.map some)).1 = { s with edges := s.edges ++ es } := by
  induction es with
  | nil => intro s _ _ _; simp [loop]
  | cons e es ih =>
    intro s hn hv hc
    rw [List.map_cons, loop]
    simp only
    have hfresh : putEdge s.edges e = s.edges ++ [e] := by
      unfold putEdge
      rw [if_neg]
      simp only [List.any_eq_true, decide_eq_true_eq, not_exists, not_and]
      intro x hx hxn
      rw [List.map_append, List.nodup_append] at hn
      exact hn.2.2 x.id (List.mem_map_of_mem hx) e.id (by simp) hxn
    obtain ⟨v1, v2, v3, v4⟩ := hv e List.mem_cons_self
    have hst : storedEdge e = e := by unfold storedEdge; rw [if_neg v4]
    have hb : batchEdge fk s (some e) = ({ s with edges := s.edges ++ [e] }, true) := by
      unfold batchEdge
      rw [upsertEdge_ok fk s e ⟨v1, v2, v3, fun _ => hc e List.mem_cons_self⟩, hst, hfresh]
    rw [hb]
    simp only
    rw [ih { s with edges := s.edges ++ [e] } (by simpa using hn) (fun m hm => hv m (List.mem_cons_of_mem _ hm))
      (fun m hm => hc m (List.mem_cons_of_mem _ hm))]
    simp

theorem import_fresh (fk : Bool) (ns : List Node) (es : List Edge) (h : Inv ⟨ns, es, none⟩) (hr : Rows ⟨ns, es, none⟩) :
    importBatches fk true true init ns es = (⟨ns, es, none⟩, true) := by
  have h1 : ∃ c, upsertNodesBatch true init (ns.map some) = (⟨ns, [], none⟩, some c) := by
    unfold upsertNodesBatch
    by_cases h0 : ns.map some = []
    · rw [if_pos h0]
      rw [List.map_eq_nil_iff] at h0
      subst h0
      exact ⟨_, rfl⟩
    · rw [if_neg h0, if_neg (by simp)]
      simp only
      rw [loop_fresh_nodes ns init (by simpa [init] using h.2.1) hr.node]
      exact ⟨_, Prod.ext (by simp [init]) rfl⟩
  have h2 : ∃ c, upsertEdgesBatch fk true ⟨ns, [], none⟩ (es.map some) = (⟨ns, es, none⟩, some c) := by
    unfold upsertEdgesBatch
    by_cases h0 : es.map some = []
    · rw [if_pos h0]
      rw [List.map_eq_nil_iff] at h0
      subst h0
      exact ⟨_, rfl⟩
    · rw [if_neg h0, if_neg (by simp)]
      simp only
      rw [loop_fresh_edges fk es ⟨ns, [], none⟩ (by simpa using h.2.2) hr.edge h.1]
      exact ⟨_, Prod.ext (by simp) rfl⟩
  obtain ⟨c1, h1⟩ := h1
  obtain ⟨c2, h2⟩ := h2
  unfold importBatches
  rw [h1]
  simp only
  rw [h2]

/-- Importing images of all nodes and exported edges that change nothing but the form of empty properties. -/
theorem import_images (fk : Bool) (s : State) (h : Inv s) (hr : Rows s) (f : Node → Node) (g : Edge → Edge)
    (hf : ∀ n ∈ s.nodes, SameNode n (f n)) (hg : ∀ e ∈ s.edges, SameEdge e (g e)) :
    (importBatches fk true true init (s.nodes.map f) ((exportEdges s).map g)).2 = true ∧
      Restores s (importBatches fk true true init (s.nodes.map f) ((exportEdges s).map g)).1 := by
  have hp := exportEdges_perm s h
  have hin : ∀ e, e ∈ exportEdges s ↔ e ∈ s.edges := fun e => hp.mem_iff
  have hnid : (s.nodes.map f).map Node.id = s.nodes.map Node.id := by
    rw [List.map_map]
    exact List.map_congr_left (fun n hn => (hf n hn).id)
  have heid : ((exportEdges s).map g).map Edge.id = (exportEdges s).map Edge.id := by
    rw [List.map_map]
    exact List.map_congr_left (fun e he => (hg e ((hin e).1 he)).id)
  have hnode : ∀ i, (∃ n ∈ s.nodes, n.id = i) → ∃ n ∈ s.nodes.map f, n.id = i := by
    rintro i ⟨n, hn, rfl⟩
    exact ⟨f n, List.mem_map_of_mem hn, (hf n hn).id⟩
  have hinv : Inv ⟨s.nodes.map f, (exportEdges s).map g, none⟩ := by
    refine ⟨?_, ?_, ?_⟩
    · intro e he
      obtain ⟨e0, he0, rfl⟩ := List.mem_map.1 he
      have he1 := (hin e0).1 he0
      have hc := h.1 e0 he1
      rw [(hg e0 he1).src, (hg e0 he1).dst]
      exact ⟨hnode _ hc.1, hnode _ hc.2⟩
    · simp only
      rw [hnid]; exact h.2.1
    · simp only
      rw [heid]; exact (hp.map Edge.id).nodup_iff.2 h.2.2
  have hrows : Rows ⟨s.nodes.map f, (exportEdges s).map g, none⟩ := by
    refine ⟨?_, ?_⟩
    · intro n hn
      obtain ⟨n0, hn0, rfl⟩ := List.mem_map.1 hn
      rw [(hf n0 hn0).id, (hf n0 hn0).vec]
      exact hr.node n0 hn0
    · intro e he
      obtain ⟨e0, he0, rfl⟩ := List.mem_map.1 he
      have he1 := (hin e0).1 he0
      rw [(hg e0 he1).id, (hg e0 he1).src, (hg e0 he1).dst, (hg e0 he1).weight]
      exact hr.edge e0 he1
  rw [import_fresh fk _ _ hinv hrows]
  refine ⟨rfl, ⟨s.nodes.map f, List.Perm.refl _, ?_⟩, ⟨s.edges.map g, (hp.map g).symm, ?_⟩⟩
  · rw [List.forall₂_map_right_iff, List.forall₂_same]
    exact hf
  · rw [List.forall₂_map_right_iff, List.forall₂_same]
    exact hg

theorem omit_same (p : String) : SameProps p (omitProps p) := by
  unfold omitProps
  split_ifs with h
  · exact Or.inr ⟨Or.inr h, Or.inl rfl⟩
  · exact Or.inl rfl

/-- C50 (JSON): after every history with foreign keys enforced, exporting the graph as JSON and importing it into an empty
store reports success and restores every node and edge with all its fields. -/
theorem C50_json_round_trip_partial (ops : List Op) (h : ∀ o ∈ ops, Enforced o) (fk : Bool) :
    (importJSON fk true true init (tripJSON (run ops))).2 = true ∧
      Restores (run ops) (importJSON fk true true init (tripJSON (run ops))).1 := by
  apply import_images fk (run ops) (C41_edges_join_stored_nodes_partial ops h) (run_rows ops)
  · exact fun n _ => ⟨rfl, rfl, rfl, rfl, omit_same n.props⟩
  · exact fun e _ => ⟨rfl, rfl, rfl, rfl, rfl, rfl, omit_same e.props⟩

/-! ### The XML formats -/

theorem xmlText_plain {t : String} (h : Plain t) : xmlText t = t := by
  unfold xmlText
  have : t.toList.map (fun c => if xmlChar c then c else '�') = t.toList := by
    conv_rhs => rw [← List.map_id t.toList]
    apply List.map_congr_left
    intro c hc
    rw [if_pos (h c hc)]
    rfl
  rw [this]
  exact String.ofList_toList

/-- What the JSON library must do on the texts of a store. -/
structure Reads (L : Lib) (s : State) : Prop where
  vec : ∀ n ∈ s.nodes, L.readVec (L.showVec n.vec) = some n.vec
  nodeProps : ∀ n ∈ s.nodes, n.props ≠ "" → L.readProps n.props = some n.props
  edgeProps : ∀ e ∈ s.edges, e.props ≠ "" → L.readProps e.props = some e.props

/-- All texts of a store pass through XML. -/
structure PlainStore (L : Lib) (s : State) : Prop where
  node : ∀ n ∈ s.nodes, Plain n.id ∧ Plain n.content ∧ Plain n.ntype ∧ Plain n.props ∧ Plain (L.showVec n.vec)
  edge : ∀ e ∈ s.edges, Plain e.id ∧ Plain e.src ∧ Plain e.dst ∧ Plain e.etype ∧ Plain e.props

theorem readField_content (L : Lib) (n : Node) (v : String) : readField L n "content" v = { n with content := v } := by simp [readField]
theorem readField_type (L : Lib) (n : Node) (v : String) : readField L n "type" v = { n with ntype := v } := by simp [readField]
theorem readField_vector (L : Lib) (n : Node) (v : String) : readField L n "vector" v = { n with vec := (L.readVec v).getD [0, 0, 0] } := by
  simp [readField]
theorem readField_props (L : Lib) (n : Node) (v : String) : readField L n "properties" v = { n with props := (L.readProps v).getD n.props } := by
  simp [readField]
theorem readEdgeField_type (L : Lib) (e : Edge) (v : String) : readEdgeField L e "type" v = { e with etype := v } := by simp [readEdgeField]
theorem readEdgeField_props (L : Lib) (e : Edge) (v : String) :
    readEdgeField L e "properties" v = { e with props := (L.readProps v).getD e.props } := by simp [readEdgeField]

theorem xml_d0 : xmlText "d0" = "d0" := by decide +kernel
theorem xml_d1 : xmlText "d1" = "d1" := by decide +kernel
theorem xml_d2 : xmlText "d2" = "d2" := by decide +kernel
theorem xml_d3 : xmlText "d3" = "d3" := by decide +kernel
theorem xml_d4 : xmlText "d4" = "d4" := by decide +kernel
theorem xml_d6 : xmlText "d6" = "d6" := by decide +kernel
theorem xml_0 : xmlText "0" = "0" := by decide +kernel
theorem xml_1 : xmlText "1" = "1" := by decide +kernel
theorem xml_2 : xmlText "2" = "2" := by decide +kernel
theorem xml_3 : xmlText "3" = "3" := by decide +kernel
theorem key_d0 : lookupLast mlKeys "d0" = "content" := by decide +kernel
theorem key_d1 : lookupLast mlKeys "d1" = "type" := by decide +kernel
theorem key_d2 : lookupLast mlKeys "d2" = "vector" := by decide +kernel
theorem key_d3 : lookupLast mlKeys "d3" = "properties" := by decide +kernel
theorem key_d4 : lookupLast mlKeys "d4" = "type" := by decide +kernel
theorem key_d6 : lookupLast mlKeys "d6" = "properties" := by decide +kernel
theorem attr_0 : lookupLast xfAttrs "0" = "content" := by decide +kernel
theorem attr_1 : lookupLast xfAttrs "1" = "type" := by decide +kernel
theorem attr_2 : lookupLast xfAttrs "2" = "vector" := by decide +kernel
theorem attr_3 : lookupLast xfAttrs "3" = "properties" := by decide +kernel
theorem trip_keys : mlKeys.map (fun x => (xmlText x.1, xmlText x.2)) = mlKeys := by decide +kernel
theorem trip_attrs : xfAttrs.map (fun x => (xmlText x.1, xmlText x.2)) = xfAttrs := by decide +kernel

/-- A node on its way through GraphML. -/
def mlNodeTrip (L : Lib) (n : Node) : Node :=
  readMlNode L mlKeys ⟨xmlText (mlNode L n).id, (mlNode L n).data.map (fun x => (xmlText x.1, xmlText x.2))⟩

def mlEdgeTrip (L : Lib) (e : Edge) : Edge :=
  readMlEdge L mlKeys (⟨xmlText (mlEdge e).1.id, xmlText (mlEdge e).1.src, xmlText (mlEdge e).1.dst,
    (mlEdge e).1.data.map (fun x => (xmlText x.1, xmlText x.2))⟩, (mlEdge e).2)

def xfNodeTrip (L : Lib) (n : Node) : Node :=
  readXfNode L xfAttrs ⟨xmlText (xfNode L n).id, xmlText (xfNode L n).label, (xfNode L n).attrs.map (fun x => (xmlText x.1, xmlText x.2))⟩

def xfEdgeTrip (e : Edge) : Edge :=
  readXfEdge ⟨xmlText (xfEdge e).id, xmlText (xfEdge e).src, xmlText (xfEdge e).dst, (xfEdge e).weight, xmlText (xfEdge e).etype⟩

theorem importML_eq (L : Lib) (fk c1 c2 : Bool) (t s : State) : importML L fk c1 c2 t (tripML (exportML L s)) =
    importBatches fk c1 c2 t (s.nodes.map (mlNodeTrip L)) ((exportEdges s).map (mlEdgeTrip L)) := by
  simp only [importML, tripML, exportML, trip_keys, List.map_map, Function.comp_def]
  rfl

theorem importXF_eq (L : Lib) (fk c1 c2 : Bool) (t s : State) : importXF L fk c1 c2 t (tripXF (exportXF L s)) =
    importBatches fk c1 c2 t (s.nodes.map (xfNodeTrip L)) ((exportEdges s).map xfEdgeTrip) := by
  simp only [importXF, tripXF, exportXF, trip_attrs, List.map_map, Function.comp_def]
  rfl

theorem mlNodeTrip_eq (L : Lib) (s : State) (hr : Rows s) (hL : Reads L s) (hp : PlainStore L s) (n : Node) (hn : n ∈ s.nodes) :
    mlNodeTrip L n = { n with props := if n.props = "" then "{}" else n.props } := by
  obtain ⟨p1, p2, p3, p4, p5⟩ := hp.node n hn
  have hv := (hr.node n hn).2
  by_cases h : n.props = ""
  · simp [mlNodeTrip, mlNode, readMlNode, h, hv, xml_d0, xml_d1, xml_d2, key_d0, key_d1, key_d2, xmlText_plain p1, xmlText_plain p2,
      xmlText_plain p3, xmlText_plain p5, readField_content, readField_type, readField_vector, hL.vec n hn, fillVec]
  · simp [mlNodeTrip, mlNode, readMlNode, h, hv, xml_d0, xml_d1, xml_d2, xml_d3, key_d0, key_d1, key_d2, key_d3, xmlText_plain p1,
      xmlText_plain p2, xmlText_plain p3, xmlText_plain p4, xmlText_plain p5, readField_content, readField_type, readField_vector,
      readField_props, hL.vec n hn, hL.nodeProps n hn h, fillVec]

theorem xfNodeTrip_eq (L : Lib) (s : State) (hr : Rows s) (hL : Reads L s) (hp : PlainStore L s) (n : Node) (hn : n ∈ s.nodes) :
    xfNodeTrip L n = { n with props := if n.props = "" then "{}" else n.props } := by
  obtain ⟨p1, p2, p3, p4, p5⟩ := hp.node n hn
  have hv := (hr.node n hn).2
  by_cases h : n.props = ""
  · simp [xfNodeTrip, xfNode, readXfNode, h, hv, xml_0, xml_1, xml_2, attr_0, attr_1, attr_2, xmlText_plain p1, xmlText_plain p2,
      xmlText_plain p3, xmlText_plain p5, readField_content, readField_type, readField_vector, hL.vec n hn, fillVec]
  · simp [xfNodeTrip, xfNode, readXfNode, h, hv, xml_0, xml_1, xml_2, xml_3, attr_0, attr_1, attr_2, attr_3, xmlText_plain p1,
      xmlText_plain p2, xmlText_plain p3, xmlText_plain p4, xmlText_plain p5, readField_content, readField_type, readField_vector,
      readField_props, hL.vec n hn, hL.nodeProps n hn h, fillVec]

theorem mlEdgeTrip_eq (L : Lib) (s : State) (hL : Reads L s) (hp : PlainStore L s) (e : Edge) (he : e ∈ s.edges) :
    mlEdgeTrip L e = { e with props := if e.props = "" then "{}" else e.props, vec := [], weight := sixDecimals e.weight } := by
  obtain ⟨p1, p2, p3, p4, p5⟩ := hp.edge e he
  by_cases h : e.props = ""
  · simp [mlEdgeTrip, mlEdge, readMlEdge, h, xml_d4, key_d4, xmlText_plain p1, xmlText_plain p2, xmlText_plain p3, xmlText_plain p4,
      readEdgeField_type]
  · simp [mlEdgeTrip, mlEdge, readMlEdge, h, xml_d4, xml_d6, key_d4, key_d6, xmlText_plain p1, xmlText_plain p2, xmlText_plain p3,
      xmlText_plain p4, xmlText_plain p5, readEdgeField_type, readEdgeField_props, hL.edgeProps e he h]

theorem norm_same (p : String) : SameProps p (if p = "" then "{}" else p) := by
  split_ifs with h
  · exact Or.inr ⟨Or.inl h, Or.inr rfl⟩
  · exact Or.inl rfl

/-- C50 (GraphML, guarded): the round trip restores the graph when every text passes through XML, no edge carries a vector and
every edge weight has at most six decimals. -/
theorem C50_graphml_round_trip_partial (L : Lib) (ops : List Op) (h : ∀ o ∈ ops, Enforced o) (fk : Bool)
    (hL : Reads L (run ops)) (hp : PlainStore L (run ops))
    (he : ∀ e ∈ (run ops).edges, e.vec = [] ∧ sixDecimals e.weight = e.weight) :
    (importML L fk true true init (tripML (exportML L (run ops)))).2 = true ∧
      Restores (run ops) (importML L fk true true init (tripML (exportML L (run ops)))).1 := by
  rw [importML_eq]
  apply import_images fk (run ops) (C41_edges_join_stored_nodes_partial ops h) (run_rows ops)
  · intro n hn
    rw [mlNodeTrip_eq L _ (run_rows ops) hL hp n hn]
    exact ⟨rfl, rfl, rfl, rfl, norm_same n.props⟩
  · intro e hem
    rw [mlEdgeTrip_eq L _ hL hp e hem]
    exact ⟨rfl, rfl, rfl, rfl, (he e hem).2, (he e hem).1.symm, norm_same e.props⟩

/-- C50 (GEXF, guarded): the round trip restores the graph when every text passes through XML and no edge carries a vector or
properties. -/
theorem C50_gexf_round_trip_partial (L : Lib) (ops : List Op) (h : ∀ o ∈ ops, Enforced o) (fk : Bool)
    (hL : Reads L (run ops)) (hp : PlainStore L (run ops))
    (he : ∀ e ∈ (run ops).edges, e.vec = [] ∧ (e.props = "" ∨ e.props = "{}")) :
    (importXF L fk true true init (tripXF (exportXF L (run ops)))).2 = true ∧
      Restores (run ops) (importXF L fk true true init (tripXF (exportXF L (run ops)))).1 := by
  rw [importXF_eq]
  apply import_images fk (run ops) (C41_edges_join_stored_nodes_partial ops h) (run_rows ops)
  · intro n hn
    rw [xfNodeTrip_eq L _ (run_rows ops) hL hp n hn]
    exact ⟨rfl, rfl, rfl, rfl, norm_same n.props⟩
  · intro e hem
    obtain ⟨p1, p2, p3, p4, p5⟩ := hp.edge e hem
    have hw := ((run_rows ops).edge e hem).2.2.2
    refine ⟨?_, ?_, ?_, ?_, ?_, (he e hem).1.symm, Or.inr ⟨(he e hem).2, Or.inr rfl⟩⟩
    · exact xmlText_plain p1
    · exact xmlText_plain p2
    · exact xmlText_plain p3
    · exact xmlText_plain p4
    · simp [xfEdgeTrip, readXfEdge, xfEdge, hw]

/-! ### What the formats lose -/

theorem loop_edge_mem (fk : Bool) (es : List Edge) : ∀ (s : State) (e : Edge), e ∈ (loop (batchEdge fk) s (es.map some)).1.edges →
    e ∈ s.edges ∨ ∃ e0 ∈ es, e = normEdge e0 := by
  induction es with
  | nil => intro s e he; exact Or.inl he
  | cons a es ih =>
    intro s e he
    rw [List.map_cons, loop] at he
    rcases ih _ e he with h1 | ⟨e0, h0, h1⟩
    · have : e ∈ s.edges ∨ e = normEdge a := by
        simp only [batchEdge, upsertEdge, writeEdge] at h1
        split_ifs at h1
        · exact Or.inl h1
        · exact Or.inl h1
        · exact Or.inl h1
        · exact (mem_putEdge h1).symm
      rcases this with h2 | h2
      · exact Or.inl h2
      · exact Or.inr ⟨a, List.mem_cons_self, h2⟩
    · exact Or.inr ⟨e0, List.mem_cons_of_mem _ h0, h1⟩

theorem import_edge_mem (fk c1 c2 : Bool) (ns : List Node) (es : List Edge) (e : Edge)
    (he : e ∈ (importBatches fk c1 c2 init ns es).1.edges) : ∃ e0 ∈ es, e = normEdge e0 := by
  have hnodes : ∀ l (s : State), (loop batchNode s l).1.edges = s.edges := by
    intro l
    induction l with
    | nil => intro s; rfl
    | cons a l ih =>
      intro s
      rw [loop, ih]
      cases a with
      | none => rfl
      | some a => simp only [batchNode]; split_ifs <;> rfl
  have h1 : (upsertNodesBatch c1 init (ns.map some)).1.edges = [] := by
    unfold upsertNodesBatch
    split_ifs
    · rfl
    · rfl
    · simp only [hnodes]; rfl
  unfold importBatches at he
  rcases hu : upsertNodesBatch c1 init (ns.map some) with ⟨s1, o⟩
  rw [hu] at he h1
  simp only at h1
  cases o with
  | none => simp only at he; rw [h1] at he; simp at he
  | some c =>
    simp only at he
    have h2 : e ∈ (upsertEdgesBatch fk c2 s1 (es.map some)).1.edges := by
      rcases hv : upsertEdgesBatch fk c2 s1 (es.map some) with ⟨s2, o2⟩
      rw [hv] at he
      cases o2 <;> exact he
    unfold upsertEdgesBatch at h2
    split_ifs at h2
    · rw [h1] at h2; simp at h2
    · rw [h1] at h2; simp at h2
    · rcases loop_edge_mem fk es s1 e h2 with h3 | h3
      · rw [h1] at h3; simp at h3
      · exact h3

theorem fold_vec (L : Lib) (keys : List (String × String)) (l : List (String × String)) : ∀ e : Edge,
    (l.foldl (fun e d => readEdgeField L e (lookupLast keys d.1) d.2) e).vec = e.vec := by
  induction l with
  | nil => intro e; rfl
  | cons d l ih =>
    intro e
    rw [List.foldl_cons, ih]
    unfold readEdgeField
    split_ifs <;> rfl

theorem normEdge_vec (e : Edge) : (normEdge e).vec = e.vec ∧ (normEdge e).props = e.props := by
  unfold normEdge
  split_ifs <;> exact ⟨rfl, rfl⟩

/-- C50: whatever graph is exported, no edge that comes back from GraphML or GEXF carries a vector, and none that comes back
from GEXF carries properties. -/
theorem C50_edge_fields_lost_violated (L : Lib) (fk c1 c2 : Bool) (s : State) :
    (∀ e ∈ (importML L fk c1 c2 init (tripML (exportML L s))).1.edges, e.vec = []) ∧
    (∀ e ∈ (importXF L fk c1 c2 init (tripXF (exportXF L s))).1.edges, e.vec = [] ∧ e.props = "{}") := by
  refine ⟨?_, ?_⟩
  · intro e he
    rw [importML_eq] at he
    obtain ⟨e0, h0, rfl⟩ := import_edge_mem fk c1 c2 _ _ e he
    obtain ⟨e1, -, rfl⟩ := List.mem_map.1 h0
    rw [(normEdge_vec _).1]
    unfold mlEdgeTrip readMlEdge
    rw [fold_vec]
  · intro e he
    rw [importXF_eq] at he
    obtain ⟨e0, h0, rfl⟩ := import_edge_mem fk c1 c2 _ _ e he
    obtain ⟨e1, -, rfl⟩ := List.mem_map.1 h0
    rw [(normEdge_vec _).1, (normEdge_vec _).2]
    exact ⟨rfl, rfl⟩

def sampleLib : Lib := ⟨fun v => if v = [1] then "[1]" else "[2]", fun t => if t = "[1]" then some [1] else some [2], some⟩

def sampleOps (w : ℚ) (content props : String) (v : List ℚ) : List Op :=
  [.upsertNode (some ⟨"a", [1], content, "t", "{\"k\":1}"⟩), .upsertNode (some ⟨"b", [2], "", "", ""⟩),
   .upsertEdge true (some ⟨"e", "a", "b", "knows", w, props, v⟩)]

/-- C50: in GraphML a weight of 1/10000000 comes back as 1, and a control character in a text comes back as another. -/
theorem C50_graphml_changes_values_violated :
    ((importML sampleLib true true true init (tripML (exportML sampleLib (run (sampleOps (1 / 10000000) "" "" []))))).1.edges.map Edge.weight) = [1] ∧
    ((importML sampleLib true true true init (tripML (exportML sampleLib (run (sampleOps 1 "\x01" "" []))))).1.nodes.map Node.content) =
      ["�", ""] := by
  decide +kernel

/-- An import whose second transaction fails reports failure but leaves the nodes behind. -/
theorem C50_failed_import_is_reported (fk c1 c2 : Bool) (s : State) (ns : List Node) (es : List Edge) (hn : ns ≠ []) (he : es ≠ []) :
    (importBatches fk c1 c2 s ns es).2 = true ↔ c1 = true ∧ c2 = true := by
  have h1 : ns.map some ≠ [] := by simpa using hn
  have h2 : es.map some ≠ [] := by simpa using he
  unfold importBatches upsertNodesBatch
  rw [if_neg h1]
  cases c1
  · simp
  · rw [if_neg (by simp)]
    simp only
    unfold upsertEdgesBatch
    rw [if_neg h2]
    cases c2 <;> simp

example : (∀ o ∈ sampleOps (1 / 2) "x" "{\"k\":2}" [], Enforced o) ∧ Reads sampleLib (run (sampleOps (1 / 2) "x" "{\"k\":2}" [])) ∧
    PlainStore sampleLib (run (sampleOps (1 / 2) "x" "{\"k\":2}" [])) ∧
    (∀ e ∈ (run (sampleOps (1 / 2) "x" "{\"k\":2}" [])).edges, e.vec = [] ∧ sixDecimals e.weight = e.weight) ∧
    (run (sampleOps (1 / 2) "x" "{\"k\":2}" [])).edges.length = 1 := by
  refine ⟨?_, ⟨?_, ?_, ?_⟩, ⟨?_, ?_⟩, ?_, ?_⟩
  · intro o ho
    simp only [sampleOps, List.mem_cons, List.not_mem_nil, or_false] at ho
    rcases ho with rfl | rfl | rfl <;> simp [Enforced]
  all_goals try unfold Plain
  all_goals decide +kernel

/-! ### Telling the formats apart -/

theorem containsText_iff (t l : List Char) : containsText t l = true ↔ t <:+: l := by
  induction l with
  | nil => simp [containsText]
  | cons c l ih =>
    rw [containsText, Bool.or_eq_true, ih, List.isPrefixOf_iff_prefix, List.infix_cons_iff]

theorem head_space {h : List Char} (hh : h.head? = some '<') (n : Nat) (rest : List Char) (hn : 0 < n) :
    skipSpace ((h ++ rest).take n) = (h ++ rest).take n := by
  obtain ⟨m, rfl⟩ : ∃ m, n = m + 1 := ⟨n - 1, by omega⟩
  cases h with
  | nil => simp at hh
  | cons c h =>
    simp only [List.head?_cons, Option.some.injEq] at hh
    subst hh
    rw [List.cons_append, List.take_succ_cons, skipSpace, if_neg (by decide)]

theorem take_prefix {l rest : List Char} {m n : Nat} (hm : m ≤ n) (hl : m ≤ l.length) : l.take m <+: (l ++ rest).take n := by
  have h1 : l.take m = (l ++ rest).take m := by rw [List.take_append_of_le_length hl]
  rw [h1]
  exact List.take_prefix_take_left hm

theorem detect_ml {t : List Char} (h0 : skipSpace t = t) (h1 : "<?xml".toList <+: t) (h2 : "graphml".toList <:+: t) :
    detect t = some .graphML := by
  rw [← List.isPrefixOf_iff_prefix] at h1
  rw [← containsText_iff] at h2
  unfold detect
  simp only [h0, h1, h2, Bool.true_or, Bool.and_self, if_true]

theorem detect_xf {t : List Char} (h0 : skipSpace t = t) (h1 : "<?xml".toList <+: t) (h2 : "gexf".toList <:+: t)
    (h3 : ¬ "graphml".toList <:+: t) : detect t = some .gexf := by
  rw [← List.isPrefixOf_iff_prefix] at h1
  rw [← containsText_iff] at h2
  rw [← containsText_iff, Bool.not_eq_true] at h3
  unfold detect
  simp only [h0, h1, h2, h3, Bool.true_or, Bool.and_self, Bool.and_false, if_true, Bool.false_eq_true, if_false]

theorem detect_js (t : List Char) : detect ('{' :: t) = some .json := by
  have h0 : skipSpace ('{' :: t) = '{' :: t := by rw [skipSpace, if_neg (by decide)]
  have h1 : "<?xml".toList.isPrefixOf ('{' :: t) = false := by
    rw [show "<?xml".toList = '<' :: "?xml".toList by decide +kernel]; simp [List.isPrefixOf]
  have h2 : "<graphml".toList.isPrefixOf ('{' :: t) = false := by
    rw [show "<graphml".toList = '<' :: "graphml".toList by decide +kernel]; simp [List.isPrefixOf]
  have h3 : "{".toList.isPrefixOf ('{' :: t) = true := by
    rw [show "{".toList = ['{'] by decide +kernel]; simp [List.isPrefixOf]
  unfold detect
  simp only [h0, h1, h2, h3, Bool.or_self, Bool.false_and, Bool.false_eq_true, if_false, if_true]

theorem ml_long : 48 ≤ mlHead.length := by decide +kernel
theorem ml_first : mlHead.head? = some '<' := by decide +kernel
theorem ml_xml : "<?xml".toList <+: mlHead.take 48 := by decide +kernel
theorem ml_word : "graphml".toList <:+: mlHead.take 48 := (containsText_iff _ _).1 (by decide +kernel)
theorem xf_long : 512 ≤ xfHead.length := by decide +kernel
theorem xf_first : xfHead.head? = some '<' := by decide +kernel
theorem xf_xml : "<?xml".toList <+: xfHead.take 44 := by decide +kernel
theorem xf_word : "gexf".toList <:+: xfHead.take 44 := (containsText_iff _ _).1 (by decide +kernel)
theorem xf_other : ¬ "graphml".toList <:+: xfHead := fun h => absurd ((containsText_iff _ _).2 h) (by decide +kernel)
theorem js_cons : jsHead = '{' :: "\n  \"edges\":".toList := by decide +kernel

/-- C107: whatever graph was exported, the format is recognised from its first characters: 48 of them are enough for GraphML,
44 for GEXF (up to the 512 that are read), one for JSON. -/
theorem C107_detects_exports_partial (rest : List Char) (n : Nat) (h512 : n ≤ 512) :
    (48 ≤ n → detect ((mlHead ++ rest).take n) = some .graphML) ∧
    (44 ≤ n → detect ((xfHead ++ rest).take n) = some .gexf) ∧
    (1 ≤ n → detect ((jsHead ++ rest).take n) = some .json) := by
  refine ⟨?_, ?_, ?_⟩
  · intro hn
    have hp : mlHead.take 48 <+: (mlHead ++ rest).take n := take_prefix hn ml_long
    exact detect_ml (head_space ml_first n rest (by omega)) (List.IsPrefix.trans ml_xml hp) (List.IsInfix.trans ml_word hp.isInfix)
  · intro hn
    have hlen : 512 ≤ xfHead.length := xf_long
    have hp : xfHead.take 44 <+: (xfHead ++ rest).take n := take_prefix hn (by omega)
    refine detect_xf (head_space xf_first n rest (by omega)) (List.IsPrefix.trans xf_xml hp) (List.IsInfix.trans xf_word hp.isInfix) ?_
    intro h
    rw [List.take_append_of_le_length (by omega)] at h
    exact xf_other (h.trans (List.take_prefix n xfHead).isInfix)
  · intro hn
    obtain ⟨m, rfl⟩ : ∃ m, n = m + 1 := ⟨n - 1, by omega⟩
    rw [js_cons, List.cons_append, List.take_succ_cons]
    exact detect_js _

/-- C107: one `Read` may deliver fewer characters; after 39 neither XML format is recognised, whatever follows. -/
theorem C107_short_read_violated (rest : List Char) :
    detect ((mlHead ++ rest).take 39) = none ∧ detect ((xfHead ++ rest).take 39) = none := by
  rw [List.take_append_of_le_length (by decide +kernel), List.take_append_of_le_length (by decide +kernel)]
  decide +kernel

end Verif.Graph
