import Verif.Model.GraphTools
import Verif.Thm.GraphStore
import Verif.Thm.GraphTraverse
import Verif.Thm.RagChunk

/-!
Properties of the graph tools: C141 to C146.
-/
namespace Verif.GraphTools
open Verif.Base Verif.Graph Verif.Spec

/-! ### Writing edges -/

theorem mem_put_edge (l : List Edge) (e x : Edge) : x ∈ putEdge l e ↔ x = e ∨ (x ∈ l ∧ x.id ≠ e.id) := by
  unfold putEdge
  split
  · rename_i h
    obtain ⟨y, hy, he⟩ := List.any_eq_true.1 h
    rw [decide_eq_true_eq] at he
    rw [List.mem_map]
    constructor
    · rintro ⟨z, hz, rfl⟩
      split
      · exact Or.inl rfl
      · rename_i hne; exact Or.inr ⟨hz, hne⟩
    · rintro (rfl | ⟨h1, h2⟩)
      · exact ⟨y, hy, if_pos he⟩
      · exact ⟨x, h1, if_neg h2⟩
  · rename_i h
    rw [List.mem_append, List.mem_singleton]
    constructor
    · rintro (h1 | rfl)
      · refine Or.inr ⟨h1, fun h2 => h (List.any_eq_true.2 ⟨x, h1, decide_eq_true h2⟩)⟩
      · exact Or.inl rfl
    · rintro (rfl | ⟨h1, _⟩)
      · exact Or.inr rfl
      · exact Or.inl h1

/-- What is stored after writing a list of edges: some edge of the list for each of its ids, and the old edges with other ids. -/
theorem puts_spec (es : List Edge) : ∀ l : List Edge,
    (∀ x ∈ es.foldl putEdge l, x ∈ es ∨ (x ∈ l ∧ x.id ∉ es.map Edge.id)) ∧
    (∀ x ∈ l, x.id ∉ es.map Edge.id → x ∈ es.foldl putEdge l) ∧
    (∀ e ∈ es, ∃ x ∈ es.foldl putEdge l, x ∈ es ∧ x.id = e.id) := by
  induction es with
  | nil => intro l; simp
  | cons a es ih =>
    intro l
    obtain ⟨h1, h2, h3⟩ := ih (putEdge l a)
    refine ⟨?_, ?_, ?_⟩
    · intro x hx
      rcases h1 x hx with h | ⟨h, h'⟩
      · exact Or.inl (List.mem_cons_of_mem _ h)
      · rcases (mem_put_edge l a x).1 h with rfl | ⟨h4, h5⟩
        · exact Or.inl List.mem_cons_self
        · right
          refine ⟨h4, ?_⟩
          rw [List.map_cons, List.mem_cons]
          rintro (h6 | h6)
          · exact h5 h6
          · exact h' h6
    · intro x hx hn
      rw [List.map_cons, List.mem_cons, not_or] at hn
      exact h2 x ((mem_put_edge l a x).2 (Or.inr ⟨hx, hn.1⟩)) hn.2
    · intro e he
      rcases List.mem_cons.1 he with rfl | he
      · by_cases hm : e.id ∈ es.map Edge.id
        · obtain ⟨e', h4, h5⟩ := List.mem_map.1 hm
          obtain ⟨x, h6, h7, h8⟩ := h3 e' h4
          exact ⟨x, h6, List.mem_cons_of_mem _ h7, h8.trans h5⟩
        · exact ⟨e, h2 e ((mem_put_edge l e e).2 (Or.inl rfl)) hm, List.mem_cons_self, rfl⟩
      · obtain ⟨x, h4, h5, h6⟩ := h3 e he
        exact ⟨x, h4, List.mem_cons_of_mem _ h5, h6⟩

/-- The edge can be written: with foreign keys both ends are stored. -/
def ends (fk : Bool) (s : State) (e : Edge) : Bool := !fk || (hasNode s.nodes e.src && hasNode s.nodes e.dst)

theorem edge_loop (fk : Bool) (es : List Edge) (hv : ∀ e ∈ es, e.id ≠ "" ∧ e.src ≠ "" ∧ e.dst ≠ "" ∧ e.weight ≠ 0) : ∀ s : State,
    (loop (batchEdge fk) s (es.map some)).1 = { s with edges := (es.filter (ends fk s)).foldl putEdge s.edges } := by
  induction es with
  | nil => intro s; rfl
  | cons e es ih =>
    intro s
    obtain ⟨h1, h2, h3, h4⟩ := hv e List.mem_cons_self
    have ih := ih (fun x hx => hv x (List.mem_cons_of_mem _ hx))
    rw [List.map_cons]
    have hb : (batchEdge fk s (some e)).1 = if ends fk s e then { s with edges := putEdge s.edges e } else s := by
      unfold batchEdge upsertEdge
      simp only [if_neg h1]
      rw [if_neg (by rintro (h | h); exacts [h2 h, h3 h])]
      unfold writeEdge normEdge ends
      rw [if_neg h4]
      cases fk <;> cases hasNode s.nodes e.src <;> cases hasNode s.nodes e.dst <;> simp
    have hl : (loop (batchEdge fk) s (some e :: es.map some)).1 = (loop (batchEdge fk) (batchEdge fk s (some e)).1 (es.map some)).1 := rfl
    rw [hl, hb]
    by_cases he : ends fk s e = true
    · rw [if_pos he, ih, List.filter_cons_of_pos he]
      rfl
    · rw [if_neg he, ih, List.filter_cons_of_neg he]

theorem edges_batch (fk : Bool) (es : List Edge) (hv : ∀ e ∈ es, e.id ≠ "" ∧ e.src ≠ "" ∧ e.dst ≠ "" ∧ e.weight ≠ 0) (s : State) :
    (upsertEdgesBatch fk true s (es.map some)).1 = { s with edges := (es.filter (ends fk s)).foldl putEdge s.edges } ∧
    ∃ c, (upsertEdgesBatch fk true s (es.map some)).2 = some c := by
  unfold upsertEdgesBatch
  cases es with
  | nil => exact ⟨rfl, _, rfl⟩
  | cons e es =>
    rw [if_neg (by simp), if_neg (by simp)]
    exact ⟨edge_loop fk (e :: es) hv s, _, rfl⟩

/-! ### C141: relations -/

theorem ofList_inj {a b : List Char} (h : String.ofList a = String.ofList b) : a = b := by
  have := congrArg String.toList h
  simpa using this

theorem relId_toList (f t ty : String) (i : Nat) : (relId f t ty i).toList =
    ("edge:relation:".toList ++ f.toList ++ [':'] ++ t.toList ++ [':'] ++ ty.toList) ++ ':' :: Verif.Rag.decimal i := by
  unfold relId dec
  simp only [String.toList_append, String.toList_ofList]
  simp

theorem relId_pos {f t ty f' t' ty' : String} {i j : Nat} (h : relId f t ty i = relId f' t' ty' j) : i = j := by
  have h := congrArg String.toList h
  rw [relId_toList, relId_toList] at h
  obtain ⟨-, h2⟩ := Verif.Rag.split_last _ _ _ _ (Verif.Rag.decimal_no_colon i) (Verif.Rag.decimal_no_colon j) h
  rw [← Verif.Rag.readDec_decimal i, h2, Verif.Rag.readDec_decimal]

/-- The edge the relation at position `i` stands for. -/
structure Stands (u : Uni) (r : RelIn) (i : Nat) (e : Edge) : Prop where
  src : e.src = resolve u "" r.src
  dst : e.dst = resolve u "" r.dst
  etype : e.etype = if blank u r.rtype then "related_to" else r.rtype
  weight : e.weight = if r.weight = 0 then 1 else r.weight
  props : e.props = r.props
  id : e.id = relId e.src e.dst e.etype i

theorem relEdge_some {u : Uni} {r : RelIn} {i : Nat} {e : Edge} (hb : blank u "related_to" = false) (h : relEdge u r i = some e) :
    Stands u r i e ∧ e.src ≠ "" ∧ e.dst ≠ "" ∧ e.weight ≠ 0 ∧ e.id ≠ "" := by
  unfold relEdge at h
  simp only at h
  split at h
  · cases h
  · rename_i hne
    rw [not_or] at hne
    simp only [Option.some.injEq] at h
    subst h
    refine ⟨⟨rfl, rfl, ?_, rfl, rfl, rfl⟩, hne.1, hne.2, ?_, ?_⟩
    · simp [firstNonEmpty, hb]
    · simp only
      split
      · exact one_ne_zero
      · assumption
    · intro h0
      have := congrArg String.toList h0
      simp only [relId_toList] at this
      simp at this

theorem relEdge_isSome {u : Uni} {r : RelIn} {i : Nat} (h1 : resolve u "" r.src ≠ "") (h2 : resolve u "" r.dst ≠ "") :
    ∃ e, relEdge u r i = some e := by
  unfold relEdge
  simp only
  rw [if_neg (by rintro (h | h); exacts [h1 h, h2 h])]
  exact ⟨_, rfl⟩

theorem relEdges_nodup (u : Uni) (rs : List RelIn) : ∀ k, (((rs.zipIdx k).filterMap (fun p => relEdge u p.1 p.2)).map Edge.id).Nodup ∧
    ∀ e ∈ (rs.zipIdx k).filterMap (fun p => relEdge u p.1 p.2), ∃ f t ty i, k ≤ i ∧ e.id = relId f t ty i := by
  induction rs with
  | nil => intro k; simp
  | cons r rs ih =>
    intro k
    rw [List.zipIdx_cons, List.filterMap_cons]
    obtain ⟨h1, h2⟩ := ih (k + 1)
    have h2' : ∀ e ∈ (rs.zipIdx (k + 1)).filterMap (fun p => relEdge u p.1 p.2), ∃ f t ty i, k ≤ i ∧ e.id = relId f t ty i := by
      intro e he
      obtain ⟨f, t, ty, i, hi, hid⟩ := h2 e he
      exact ⟨f, t, ty, i, by omega, hid⟩
    cases hr : relEdge u r k with
    | none => simp only; exact ⟨h1, h2'⟩
    | some e =>
      simp only
      have hid : ∃ f t ty, e.id = relId f t ty k := by
        unfold relEdge at hr
        simp only at hr
        split at hr
        · cases hr
        · simp only [Option.some.injEq] at hr
          subst hr
          exact ⟨_, _, _, rfl⟩
      obtain ⟨f, t, ty, hid⟩ := hid
      refine ⟨?_, ?_⟩
      · rw [List.map_cons, List.nodup_cons]
        refine ⟨?_, h1⟩
        intro hm
        obtain ⟨e', he', hee⟩ := List.mem_map.1 hm
        obtain ⟨f', t', ty', i, hi, hid'⟩ := h2 e' he'
        have := relId_pos (hid'.symm.trans (hee.trans hid))
        omega
      · intro e' he'
        rcases List.mem_cons.1 he' with rfl | he'
        · exact ⟨f, t, ty, k, le_rfl, hid⟩
        · exact h2' e' he'

theorem relEdges_valid {u : Uni} (hb : blank u "related_to" = false) (rs : List RelIn) :
    ∀ e ∈ relEdges u rs, e.id ≠ "" ∧ e.src ≠ "" ∧ e.dst ≠ "" ∧ e.weight ≠ 0 := by
  intro e he
  obtain ⟨p, -, hp⟩ := List.mem_filterMap.1 he
  obtain ⟨-, h1, h2, h3, h4⟩ := relEdge_some hb hp
  exact ⟨h4, h1, h2, h3⟩

theorem upsertRelations_eq {u : Uni} (hb : blank u "related_to" = false) (fk : Bool) (s : State) (rs : List RelIn) :
    upsertRelations u fk true s rs = ({ s with edges := ((relEdges u rs).filter (ends fk s)).foldl putEdge s.edges },
      some ((relEdges u rs).map Edge.id)) := by
  obtain ⟨h1, c, h2⟩ := edges_batch fk (relEdges u rs) (relEdges_valid hb rs) s
  unfold upsertRelations
  simp only [h2, h1]

theorem inj_of_nodup {l : List Edge} (h : (l.map Edge.id).Nodup) {a b : Edge} (ha : a ∈ l) (hb : b ∈ l) (he : a.id = b.id) : a = b :=
  List.inj_on_of_nodup_map h ha hb he

/-- C141: if the ends of all relations are stored (or foreign keys are not enforced), every relation with two named ends is stored with
its ends, type, weight and properties under an id the answer reports; the ids reported are all different and each is stored; no node and no
other edge changes. -/
theorem C141_relations_partial (u : Uni) (hb : blank u "related_to" = false) (fk : Bool) (s : State) (rs : List RelIn)
    (hends : ∀ r ∈ rs, resolve u "" r.src ≠ "" → resolve u "" r.dst ≠ "" → fk = true →
      (∃ n ∈ s.nodes, n.id = resolve u "" r.src) ∧ ∃ n ∈ s.nodes, n.id = resolve u "" r.dst) :
    ∃ s' ids, upsertRelations u fk true s rs = (s', some ids) ∧ ids.Nodup ∧ (∀ i ∈ ids, ∃ e ∈ s'.edges, e.id = i) ∧
      (∀ i r, rs[i]? = some r → resolve u "" r.src ≠ "" → resolve u "" r.dst ≠ "" → ∃ e ∈ s'.edges, Stands u r i e ∧ e.id ∈ ids) ∧
      s'.nodes = s.nodes ∧ ∀ e, e.id ∉ ids → (e ∈ s'.edges ↔ e ∈ s.edges) := by
  have hnd := (relEdges_nodup u rs 0).1
  have hall : (relEdges u rs).filter (ends fk s) = relEdges u rs := by
    rw [List.filter_eq_self]
    intro e he
    obtain ⟨p, hp1, hp⟩ := List.mem_filterMap.1 he
    obtain ⟨hst, h1, h2, -, -⟩ := relEdge_some hb hp
    have hmem : p.1 ∈ rs := by
      have := List.mem_map_of_mem (f := Prod.fst) hp1
      rwa [List.zipIdx_map_fst] at this
    unfold ends
    cases fk with
    | false => rfl
    | true =>
      obtain ⟨g1, g2⟩ := hends p.1 hmem (hst.src ▸ h1) (hst.dst ▸ h2) rfl
      rw [← hst.src] at g1
      rw [← hst.dst] at g2
      rw [(hasNode_iff _ _).2 g1, (hasNode_iff _ _).2 g2]; rfl
  obtain ⟨p1, p2, p3⟩ := puts_spec (relEdges u rs) s.edges
  have hin : ∀ e ∈ relEdges u rs, e ∈ (relEdges u rs).foldl putEdge s.edges := by
    intro e he
    obtain ⟨x, h1, h2, h3⟩ := p3 e he
    rwa [← inj_of_nodup hnd h2 he h3]
  refine ⟨_, _, upsertRelations_eq hb fk s rs, hnd, ?_, ?_, rfl, ?_⟩
  · intro i hi
    obtain ⟨e, he, rfl⟩ := List.mem_map.1 hi
    rw [hall]
    exact ⟨e, hin e he, rfl⟩
  · intro i r hir h1 h2
    obtain ⟨e, he⟩ := relEdge_isSome (i := i) h1 h2
    have hem : e ∈ relEdges u rs := by
      refine List.mem_filterMap.2 ⟨(r, i), ?_, he⟩
      rw [List.mem_zipIdx_iff_getElem?]
      exact hir
    rw [hall]
    exact ⟨e, hin e hem, (relEdge_some hb he).1, List.mem_map_of_mem hem⟩
  · intro e he
    rw [hall]
    constructor
    · intro h
      rcases p1 e h with h1 | ⟨h1, -⟩
      · exact absurd (List.mem_map_of_mem h1) he
      · exact h1
    · intro h; exact p2 e h he

/-- C141 is violated: with foreign keys enforced, a relation one of whose ends is not stored is reported under an id although nothing was
stored and no error is returned. -/
theorem C141_unknown_end_violated (u : Uni) (hb : blank u "related_to" = false) (s : State) (r : RelIn)
    (h1 : resolve u "" r.src ≠ "") (h2 : resolve u "" r.dst ≠ "")
    (h : (∀ n ∈ s.nodes, n.id ≠ resolve u "" r.src) ∨ ∀ n ∈ s.nodes, n.id ≠ resolve u "" r.dst) :
    ∃ i, upsertRelations u true true s [r] = (s, some [i]) := by
  obtain ⟨e, he⟩ := relEdge_isSome (i := 0) h1 h2
  obtain ⟨hst, -⟩ := relEdge_some hb he
  have hes : relEdges u [r] = [e] := by simp [relEdges, List.zipIdx_cons, he]
  have hends : ends true s e = false := by
    unfold ends
    simp only [Bool.not_true, Bool.false_or, Bool.and_eq_false_iff]
    rcases h with h | h
    · left
      rw [hst.src, ← Bool.not_eq_true, hasNode_iff]
      rintro ⟨n, hn, hne⟩; exact h n hn hne
    · right
      rw [hst.dst, ← Bool.not_eq_true, hasNode_iff]
      rintro ⟨n, hn, hne⟩; exact h n hn hne
  refine ⟨e.id, ?_⟩
  rw [upsertRelations_eq hb, hes, List.filter_cons_of_neg (by rw [hends]; simp)]
  rfl

/-! ### C142 -/

/-- C142: sending the same relations again changes nothing. -/
theorem C142_same_request_partial (u : Uni) (hb : blank u "related_to" = false) (fk : Bool) (s : State) (rs : List RelIn) :
    (upsertRelations u fk true (upsertRelations u fk true s rs).1 rs).1 = (upsertRelations u fk true s rs).1 := by
  rw [upsertRelations_eq hb, upsertRelations_eq hb]
  simp only
  have he : ends fk { s with edges := ((relEdges u rs).filter (ends fk s)).foldl putEdge s.edges } = ends fk s := rfl
  rw [he]
  set es := (relEdges u rs).filter (ends fk s) with hes
  have hnd : (es.map Edge.id).Nodup := List.Nodup.sublist (List.filter_sublist.map _) (relEdges_nodup u rs 0).1
  obtain ⟨p1, p2, p3⟩ := puts_spec es s.edges
  set l := es.foldl putEdge s.edges with hl
  have hput : ∀ e ∈ es, putEdge l e = l := by
    intro e hem
    obtain ⟨x, h1, h2, h3⟩ := p3 e hem
    have hxe := inj_of_nodup hnd h2 hem h3
    subst hxe
    unfold putEdge
    rw [if_pos (List.any_eq_true.2 ⟨x, h1, decide_eq_true rfl⟩)]
    conv_rhs => rw [← List.map_id l]
    apply List.map_congr_left
    intro y hy
    split
    · rename_i hid
      rcases p1 y hy with h4 | ⟨-, h4⟩
      · exact inj_of_nodup hnd hem h4 hid.symm
      · exact absurd (hid ▸ List.mem_map_of_mem hem) h4
    · rfl
  have hfold : ∀ es' : List Edge, (∀ e ∈ es', e ∈ es) → es'.foldl putEdge l = l := by
    intro es'
    induction es' with
    | nil => intro _; rfl
    | cons e es' ih =>
      intro h
      rw [List.foldl_cons, hput e (h e List.mem_cons_self)]
      exact ih (fun x hx => h x (List.mem_cons_of_mem _ hx))
  rw [hfold es (fun _ h => h)]

def uni0 : Uni := ⟨fun c => c.toLower, fun c => c.isAlphanum, fun c => c == ' '⟩

def vec0 (_ : String) : List ℚ := [1]

def ent (name etype : String) (chunks : List String) : EntityIn := ⟨"", name, etype, "", chunks, ""⟩

def rel (a b : String) : RelIn := ⟨a, b, "likes", 0, ""⟩

def twoEntities : State := (upsertEntities uni0 vec0 true true true init [ent "Ada" "" [], ent "Bob" "" [], ent "Cy" "" []]).1

example : twoEntities.nodes.map Node.id = ["entity:ada", "entity:bob", "entity:cy"] := by decide +kernel

/-- C142 is violated: the same relation recorded again, in a request that lists another one before it, is stored a second time. -/
theorem C142_position_violated :
    ((upsertRelations uni0 true true (upsertRelations uni0 true true twoEntities [rel "Ada" "Bob"]).1 [rel "Bob" "Cy", rel "Ada" "Bob"]).1.edges.map
      (fun e => (e.id, e.src, e.dst))) =
    [("edge:relation:entity:ada:entity:bob:likes:0", "entity:ada", "entity:bob"),
     ("edge:relation:entity:bob:entity:cy:likes:0", "entity:bob", "entity:cy"),
     ("edge:relation:entity:ada:entity:bob:likes:1", "entity:ada", "entity:bob")] := by
  decide +kernel

/-- The hypotheses of C141 hold for this request, and those of the violation for a relation to an unknown entity. -/
example : blank uni0 "related_to" = false ∧ (∀ r ∈ [rel "Bob" "Cy", rel "Ada" "Bob"],
    (∃ n ∈ twoEntities.nodes, n.id = resolve uni0 "" r.src) ∧ ∃ n ∈ twoEntities.nodes, n.id = resolve uni0 "" r.dst) ∧
    (∀ n ∈ twoEntities.nodes, n.id ≠ resolve uni0 "" "Dan") ∧ resolve uni0 "" "Dan" ≠ "" := by
  decide +kernel

/-! ### C141: entities -/

theorem isPrefix_append (a b : List Char) : a.isPrefixOf (a ++ b) = true := by
  rw [List.isPrefixOf_iff_prefix]; exact List.prefix_append a b

theorem entityNode_toList (u : Uni) (n : String) : ∃ t, (entityNode u n).toList = "entity:".toList ++ t := by
  unfold entityNode Verif.Rag.entityId
  exact ⟨_, String.toList_ofList⟩

theorem entityNode_ne (u : Uni) (n : String) : entityNode u n ≠ "" := by
  intro h
  obtain ⟨t, ht⟩ := entityNode_toList u n
  rw [h] at ht
  simp at ht

theorem isEntityId_ne {x : String} (h : isEntityId x = true) : x ≠ "" := by
  rintro rfl
  exact absurd h (by decide)

/-- An entity with a name or an id has a node id. -/
theorem resolve_ne (u : Uni) (id name : String) (h : blank u name = false ∨ blank u id = false) : resolve u id name ≠ "" := by
  unfold resolve
  split
  · rename_i h1; exact isEntityId_ne h1
  · split
    · rename_i h1; exact isEntityId_ne h1
    · split
      · exact entityNode_ne u _
      · split
        · exact entityNode_ne u _
        · rcases h with h | h <;> contradiction

theorem mem_named (u : Uni) (es : List EntityIn) (e : EntityIn) :
    e ∈ named u es ↔ e ∈ es ∧ (blank u e.name = false ∨ blank u e.id = false) := by
  unfold named
  rw [List.mem_filter]
  cases blank u e.name <;> cases blank u e.id <;> simp

theorem mem_put_node (l : List Node) (e x : Node) : x ∈ putNode l e ↔ x = e ∨ (x ∈ l ∧ x.id ≠ e.id) := by
  unfold putNode
  split
  · rename_i h
    obtain ⟨y, hy, he⟩ := List.any_eq_true.1 h
    rw [decide_eq_true_eq] at he
    rw [List.mem_map]
    constructor
    · rintro ⟨z, hz, rfl⟩
      split
      · exact Or.inl rfl
      · rename_i hne; exact Or.inr ⟨hz, hne⟩
    · rintro (rfl | ⟨h1, h2⟩)
      · exact ⟨y, hy, if_pos he⟩
      · exact ⟨x, h1, if_neg h2⟩
  · rename_i h
    rw [List.mem_append, List.mem_singleton]
    constructor
    · rintro (h1 | rfl)
      · refine Or.inr ⟨h1, fun h2 => h (List.any_eq_true.2 ⟨x, h1, decide_eq_true h2⟩)⟩
      · exact Or.inl rfl
    · rintro (rfl | ⟨h1, _⟩)
      · exact Or.inr rfl
      · exact Or.inl h1

theorem putNodes_spec (es : List Node) : ∀ l : List Node,
    (∀ x ∈ es.foldl putNode l, x ∈ es ∨ (x ∈ l ∧ x.id ∉ es.map Node.id)) ∧
    (∀ x ∈ l, x.id ∉ es.map Node.id → x ∈ es.foldl putNode l) ∧
    (∀ e ∈ es, ∃ x ∈ es.foldl putNode l, x ∈ es ∧ x.id = e.id) := by
  induction es with
  | nil => intro l; simp
  | cons a es ih =>
    intro l
    obtain ⟨h1, h2, h3⟩ := ih (putNode l a)
    refine ⟨?_, ?_, ?_⟩
    · intro x hx
      rcases h1 x hx with h | ⟨h, h'⟩
      · exact Or.inl (List.mem_cons_of_mem _ h)
      · rcases (mem_put_node l a x).1 h with rfl | ⟨h4, h5⟩
        · exact Or.inl List.mem_cons_self
        · right
          refine ⟨h4, ?_⟩
          rw [List.map_cons, List.mem_cons]
          rintro (h6 | h6)
          · exact h5 h6
          · exact h' h6
    · intro x hx hn
      rw [List.map_cons, List.mem_cons, not_or] at hn
      exact h2 x ((mem_put_node l a x).2 (Or.inr ⟨hx, hn.1⟩)) hn.2
    · intro e he
      rcases List.mem_cons.1 he with rfl | he
      · by_cases hm : e.id ∈ es.map Node.id
        · obtain ⟨e', h4, h5⟩ := List.mem_map.1 hm
          obtain ⟨x, h6, h7, h8⟩ := h3 e' h4
          exact ⟨x, h6, List.mem_cons_of_mem _ h7, h8.trans h5⟩
        · exact ⟨e, h2 e ((mem_put_node l e e).2 (Or.inl rfl)) hm, List.mem_cons_self, rfl⟩
      · obtain ⟨x, h4, h5, h6⟩ := h3 e he
        exact ⟨x, h4, List.mem_cons_of_mem _ h5, h6⟩

theorem node_loop (es : List Node) (hv : ∀ e ∈ es, e.id ≠ "" ∧ e.vec ≠ []) : ∀ s : State,
    (loop batchNode s (es.map some)).1 = { s with nodes := es.foldl putNode s.nodes } := by
  induction es with
  | nil => intro s; rfl
  | cons e es ih =>
    intro s
    obtain ⟨h1, h2⟩ := hv e List.mem_cons_self
    rw [List.map_cons]
    have hb : (batchNode s (some e)).1 = { s with nodes := putNode s.nodes e } := by
      unfold batchNode
      simp only
      rw [if_neg (by rintro (h | h); exacts [h1 h, h2 h])]
    have hl : (loop batchNode s (some e :: es.map some)).1 = (loop batchNode (batchNode s (some e)).1 (es.map some)).1 := rfl
    rw [hl, hb, ih (fun x hx => hv x (List.mem_cons_of_mem _ hx))]
    rfl

theorem nodes_batch (es : List Node) (hv : ∀ e ∈ es, e.id ≠ "" ∧ e.vec ≠ []) (s : State) :
    (upsertNodesBatch true s (es.map some)).1 = { s with nodes := es.foldl putNode s.nodes } ∧
    ∃ c, (upsertNodesBatch true s (es.map some)).2 = some c := by
  unfold upsertNodesBatch
  cases es with
  | nil => exact ⟨rfl, _, rfl⟩
  | cons e es =>
    rw [if_neg (by simp), if_neg (by simp)]
    exact ⟨node_loop (e :: es) hv s, _, rfl⟩

theorem mention_valid (u : Uni) (es : List EntityIn) :
    ∀ x ∈ (named u es).flatMap (mentionsOf u), x.id ≠ "" ∧ x.src ≠ "" ∧ x.dst ≠ "" ∧ x.weight ≠ 0 := by
  intro x hx
  obtain ⟨e, he, hx⟩ := List.mem_flatMap.1 hx
  obtain ⟨c, hc, rfl⟩ := List.mem_map.1 hx
  rw [List.mem_filter, decide_eq_true_eq] at hc
  refine ⟨?_, hc.2, resolve_ne u _ _ ((mem_named u es e).1 he).2, one_ne_zero⟩
  intro h
  have := congrArg String.toList h
  simp [mention, String.toList_append] at this

theorem upsertEntities_eq (u : Uni) (vec : String → List ℚ) (hvec : ∀ t, vec t ≠ []) (fk : Bool) (s : State) (es : List EntityIn)
    (hne : es ≠ []) :
    let ns := (named u es).map (nodeOf u vec)
    let s1 : State := { s with nodes := ns.foldl putNode s.nodes }
    upsertEntities u vec fk true true s es =
      ({ s1 with edges := (((named u es).flatMap (mentionsOf u)).filter (ends fk s1)).foldl putEdge s.edges },
        some (ns.map Node.id, ((named u es).flatMap (mentionsOf u)).length)) := by
  intro ns s1
  have hv : ∀ n ∈ ns, n.id ≠ "" ∧ n.vec ≠ [] := by
    intro n hn
    obtain ⟨e, he, rfl⟩ := List.mem_map.1 hn
    exact ⟨resolve_ne u _ _ ((mem_named u es e).1 he).2, hvec _⟩
  obtain ⟨h1, c1, h2⟩ := nodes_batch ns hv s
  obtain ⟨h3, c2, h4⟩ := edges_batch fk ((named u es).flatMap (mentionsOf u)) (mention_valid u es) s1
  unfold upsertEntities
  rw [if_neg hne]
  simp only
  rw [h2, h1]
  simp only
  rw [h4, h3]

/-- A node id that is the entity prefix and a text without a colon. -/
def Clean (i : String) : Prop := ∃ t : List Char, i.toList = "entity:".toList ++ t ∧ ':' ∉ t

/-- Ids made from names are of this form. -/
theorem clean_entityNode (u : Uni) (hu : u.letter ':' = false) (n : String) : Clean (entityNode u n) := by
  unfold entityNode Verif.Rag.entityId
  refine ⟨_, String.toList_ofList, ?_⟩
  split
  · decide
  · intro hm
    have h1 : ':' ∈ (((trim u.space n.toList).map u.lower).filterMap (fun r =>
        if u.letter r then some r else if r == ' ' || r == '-' || r == '_' then some '_' else none)) := by
      unfold trim at hm
      have h2 := (List.dropWhile_sublist (· == '_')).subset (List.mem_reverse.1 hm)
      exact (List.dropWhile_sublist (· == '_')).subset (List.mem_reverse.1 h2)
    obtain ⟨r, -, hr⟩ := List.mem_filterMap.1 h1
    split at hr
    · rename_i hl
      simp only [Option.some.injEq] at hr
      rw [hr, hu] at hl
      cases hl
    · split at hr
      · simp at hr
      · cases hr

theorem mention_inj {c c' i i' : String} (h1 : Clean i) (h2 : Clean i') (h : (mention c i).id = (mention c' i').id) : c = c' ∧ i = i' := by
  obtain ⟨t, ht, hn⟩ := h1
  obtain ⟨t', ht', hn'⟩ := h2
  have h := congrArg String.toList h
  simp only [mention, String.toList_append, ht, ht'] at h
  have e : ∀ (c : String) (t : List Char), "edge:mention:".toList ++ c.toList ++ ":".toList ++ ("entity:".toList ++ t) =
      ("edge:mention:".toList ++ (c.toList ++ ":entity".toList)) ++ ':' :: t := by intro c t; simp
  rw [e, e] at h
  obtain ⟨g1, g2⟩ := Verif.Rag.split_last _ _ _ _ hn hn' h
  rw [List.append_cancel_left_eq, List.append_cancel_right_eq] at g1
  refine ⟨String.toList_inj.1 g1, String.toList_inj.1 ?_⟩
  rw [ht, ht', g2]

/-- The node `n` says what the entity `e` of a request says. -/
structure Describes (u : Uni) (vec : String → List ℚ) (e : EntityIn) (n : Node) : Prop where
  vec : n.vec = vec (e.name ++ " " ++ e.desc)
  content : (blank u e.name = false → n.content = e.name) ∧ (blank u e.name = true → n.content = e.id)
  ntype : (blank u e.etype = false → n.ntype = e.etype) ∧ (blank u e.etype = true → n.ntype = "entity")
  props : n.props = e.props

/-- Writing a list of nodes leaves under each of their ids the last one of the list. -/
theorem putNodes_last (es : List Node) : ∀ l : List Node, ∀ x ∈ es.foldl putNode l, x.id ∈ es.map Node.id →
    ∃ pre post, es = pre ++ x :: post ∧ x.id ∉ post.map Node.id := by
  induction es with
  | nil => intro l x _ h; simp at h
  | cons a es ih =>
    intro l x hx hid
    by_cases hm : x.id ∈ es.map Node.id
    · obtain ⟨pre, post, h1, h2⟩ := ih (putNode l a) x hx hm
      exact ⟨a :: pre, post, by rw [h1]; rfl, h2⟩
    · rcases (putNodes_spec es (putNode l a)).1 x hx with h | ⟨h, -⟩
      · exact absurd (List.mem_map_of_mem h) hm
      · rcases (mem_put_node l a x).1 h with rfl | ⟨-, h3⟩
        · exact ⟨[], es, rfl, hm⟩
        · rw [List.map_cons, List.mem_cons] at hid
          exact absurd hid (by rintro (h | h); exacts [h3 h, hm h])

/-- C141: entities. If the chunks named are stored (or foreign keys are not enforced) and the node ids hold no further colon (as those made
from names), then every entity with a name or id has its node among the ids reported; the node stored under an id reported says what the last
entity of the request with that id says; every mention is stored as an edge from the chunk to the entity, and the number reported is the number
of mentions sent; no other node changes, and every other edge is one that was there before, which are all kept but those of a mention sent. -/
theorem C141_entities_partial (u : Uni) (he0 : blank u "entity" = false) (vec : String → List ℚ) (hvec : ∀ t, vec t ≠ []) (fk : Bool)
    (s : State) (es : List EntityIn)
    (hclean : ∀ e ∈ es, blank u e.name = false ∨ blank u e.id = false → Clean (resolve u e.id e.name))
    (hchunks : fk = true → ∀ e ∈ es, ∀ c ∈ e.chunks, c ≠ "" → ∃ n ∈ s.nodes, n.id = c) :
    ∃ s' ids, upsertEntities u vec fk true true s es = (s', some (ids, ((es.filter (fun e => blank u e.name = false ∨ blank u e.id = false)).map
        (fun e => (e.chunks.filter (fun c => decide (c ≠ ""))).length)).sum)) ∧
      (∀ e ∈ es, blank u e.name = false ∨ blank u e.id = false → resolve u e.id e.name ∈ ids) ∧
      (∀ i ∈ ids, ∃ n ∈ s'.nodes, n.id = i ∧ ∃ pre e post, es = pre ++ e :: post ∧ resolve u e.id e.name = i ∧ Describes u vec e n ∧
        ∀ x ∈ post, blank u x.name = false ∨ blank u x.id = false → resolve u x.id x.name ≠ i) ∧
      (∀ e ∈ es, blank u e.name = false ∨ blank u e.id = false → ∀ c ∈ e.chunks, c ≠ "" →
        ∃ x ∈ s'.edges, x.src = c ∧ x.dst = resolve u e.id e.name ∧ x.etype = "mentions" ∧ x.weight = 1) ∧
      (∀ n, n.id ∉ ids → (n ∈ s'.nodes ↔ n ∈ s.nodes)) ∧
      (∀ x ∈ s'.edges, x ∈ s.edges ∨ ∃ e ∈ es, (blank u e.name = false ∨ blank u e.id = false) ∧ x.src ∈ e.chunks ∧
        x.dst = resolve u e.id e.name ∧ x.etype = "mentions") ∧
      ∀ x ∈ s.edges, x ∈ s'.edges ∨ ∃ e ∈ es, ∃ c ∈ e.chunks, x.id = "edge:mention:" ++ c ++ ":" ++ resolve u e.id e.name := by
  have hnm : ∀ es : List EntityIn, es.filter (fun e => blank u e.name = false ∨ blank u e.id = false) = named u es := by
    intro es
    unfold named
    apply List.filter_congr
    intro e _
    cases blank u e.name <;> cases blank u e.id <;> rfl
  rw [hnm]
  by_cases hne : es = []
  · subst hne
    exact ⟨s, [], by simp [upsertEntities, named], by simp, by simp, by simp, by simp, fun x hx => Or.inl hx, fun x hx => Or.inl hx⟩
  have heq := upsertEntities_eq u vec hvec fk s es hne
  simp only at heq
  set ns := (named u es).map (nodeOf u vec) with hns
  set s1 : State := { s with nodes := ns.foldl putNode s.nodes } with hs1
  set ms := (named u es).flatMap (mentionsOf u) with hms
  obtain ⟨n1, n2, n3⟩ := putNodes_spec ns s.nodes
  have hid : ∀ i, (∃ n ∈ s.nodes, n.id = i) ∨ i ∈ ns.map Node.id → hasNode s1.nodes i = true := by
    intro i hi
    rw [hasNode_iff]
    by_cases hm : i ∈ ns.map Node.id
    · obtain ⟨n, hn, rfl⟩ := List.mem_map.1 hm
      obtain ⟨x, h1, -, h3⟩ := n3 n hn
      exact ⟨x, h1, h3⟩
    · rcases hi with ⟨n, hn, rfl⟩ | hi
      · exact ⟨n, n2 n hn hm, rfl⟩
      · exact absurd hi hm
  have hall : ms.filter (ends fk s1) = ms := by
    rw [List.filter_eq_self]
    intro x hx
    obtain ⟨e, he, hx⟩ := List.mem_flatMap.1 hx
    obtain ⟨c, hc, rfl⟩ := List.mem_map.1 hx
    rw [List.mem_filter, decide_eq_true_eq] at hc
    unfold ends
    cases fk with
    | false => rfl
    | true =>
      have g1 : hasNode s1.nodes c = true := hid c (Or.inl (hchunks rfl e ((mem_named u es e).1 he).1 c hc.1 hc.2))
      have g2 : hasNode s1.nodes (resolve u e.id e.name) = true :=
        hid _ (Or.inr (List.mem_map.2 ⟨nodeOf u vec e, List.mem_map_of_mem he, rfl⟩))
      simp only [mention, g1, g2]; rfl
  rw [hall] at heq
  obtain ⟨p1, p2, p3⟩ := puts_spec ms s.edges
  have hlen : ms.length = ((named u es).map (fun e => (e.chunks.filter (fun c => decide (c ≠ ""))).length)).sum := by
    rw [hms, List.length_flatMap]
    congr 1
    apply List.map_congr_left
    intro e _
    simp [mentionsOf]
  rw [hlen] at heq
  have hmem : ∀ x, x ∈ ms → ∃ e ∈ es, (blank u e.name = false ∨ blank u e.id = false) ∧ ∃ c ∈ e.chunks, x = mention c (resolve u e.id e.name) := by
    intro x hx
    obtain ⟨e, he, hx⟩ := List.mem_flatMap.1 hx
    obtain ⟨c, hc, rfl⟩ := List.mem_map.1 hx
    rw [List.mem_filter] at hc
    exact ⟨e, ((mem_named u es e).1 he).1, ((mem_named u es e).1 he).2, c, hc.1, rfl⟩
  refine ⟨_, _, heq, ?_, ?_, ?_, ?_, ?_, ?_⟩
  · intro e he hn
    exact List.mem_map.2 ⟨nodeOf u vec e, List.mem_map_of_mem ((mem_named u es e).2 ⟨he, hn⟩), rfl⟩
  · intro i hi
    obtain ⟨n, hn, rfl⟩ := List.mem_map.1 hi
    obtain ⟨x, h1, h2, h3⟩ := n3 n hn
    obtain ⟨pre, post, h4, h5⟩ := putNodes_last ns s.nodes x h1 (List.mem_map_of_mem h2)
    refine ⟨x, h1, h3, ?_⟩
    rw [hns, List.map_eq_append_iff] at h4
    obtain ⟨l1, l2, h6, -, h7⟩ := h4
    rw [List.map_eq_cons_iff] at h7
    obtain ⟨e, l3, rfl, h8, h9⟩ := h7
    unfold named at h6
    rw [List.filter_eq_append_iff] at h6
    obtain ⟨k1, k2, h10, -, h11⟩ := h6
    rw [List.filter_eq_cons_iff] at h11
    obtain ⟨k3, k4, h12, -, h13, h14⟩ := h11
    have hne' : blank u e.name = false ∨ blank u e.id = false := by
      revert h13
      cases blank u e.name <;> cases blank u e.id <;> simp
    refine ⟨k1 ++ k3, e, k4, by rw [h10, h12, List.append_assoc], ?_, ?_, ?_⟩
    · rw [← h3, ← h8]; rfl
    · rw [← h8]
      refine ⟨rfl, ⟨fun g => ?_, fun g => ?_⟩, ⟨fun g => ?_, fun g => ?_⟩, rfl⟩
      · simp [nodeOf, firstNonEmpty, g]
      · simp [nodeOf, firstNonEmpty, g, hne'.resolve_left (by simp [g])]
      · simp [nodeOf, firstNonEmpty, g]
      · simp [nodeOf, firstNonEmpty, g, he0]
    · intro y hy hyn hye
      apply h5
      rw [← h9, List.map_map, List.mem_map]
      refine ⟨y, ?_, ?_⟩
      · rw [← h14, List.mem_filter]
        refine ⟨hy, ?_⟩
        rcases hyn with g | g <;> simp [g]
      · exact hye.trans h3.symm
  · intro e he hn c hc hce
    have hm : mention c (resolve u e.id e.name) ∈ ms := by
      refine List.mem_flatMap.2 ⟨e, (mem_named u es e).2 ⟨he, hn⟩, List.mem_map.2 ⟨c, ?_, rfl⟩⟩
      rw [List.mem_filter, decide_eq_true_eq]; exact ⟨hc, hce⟩
    obtain ⟨x, h1, h2, h3⟩ := p3 _ hm
    obtain ⟨e', he', hn', c', hc', rfl⟩ := hmem x h2
    obtain ⟨g1, g2⟩ := mention_inj (hclean e' he' hn') (hclean e he hn) h3
    exact ⟨_, h1, g1, g2, rfl, rfl⟩
  · intro n hni
    refine ⟨fun hn => ?_, fun hn => n2 n hn hni⟩
    rcases n1 n hn with h | h
    · exact absurd (List.mem_map_of_mem h) hni
    · exact h.1
  · intro x hx
    rcases p1 x hx with h | h
    · obtain ⟨e, he, hn, c, hc, rfl⟩ := hmem x h
      exact Or.inr ⟨e, he, hn, hc, rfl, rfl⟩
    · exact Or.inl h.1
  · intro x hx
    by_cases hm : x.id ∈ ms.map Edge.id
    · obtain ⟨y, hy, hyx⟩ := List.mem_map.1 hm
      obtain ⟨e, he, -, c, hc, rfl⟩ := hmem y hy
      exact Or.inr ⟨e, he, c, hc, hyx.symm⟩
    · exact Or.inl (p2 x hx hm)

/-- C141 is violated for mentions: with foreign keys enforced, an entity said to be mentioned in a chunk that is not stored is answered with
one mention, and no edge was stored. -/
theorem C141_unknown_chunk_violated (u : Uni) (vec : String → List ℚ) (hvec : ∀ t, vec t ≠ []) (s : State) (e : EntityIn) (c : String)
    (hn : blank u e.name = false) (hc : e.chunks = [c]) (hce : c ≠ "") (hcs : ∀ n ∈ s.nodes, n.id ≠ c)
    (hcr : c ≠ resolve u e.id e.name) :
    ∃ s', upsertEntities u vec true true true s [e] = (s', some ([resolve u e.id e.name], 1)) ∧ s'.edges = s.edges := by
  have heq := upsertEntities_eq u vec hvec true s [e] (by simp)
  simp only at heq
  have hnamed : named u [e] = [e] := by simp [named, hn]
  have hm : [e].flatMap (mentionsOf u) = [mention c (resolve u e.id e.name)] := by simp [mentionsOf, hc, hce]
  rw [hnamed, hm] at heq
  refine ⟨_, heq, ?_⟩
  rw [List.filter_cons_of_neg]
  · rfl
  · have h1 : hasNode (([e].map (nodeOf u vec)).foldl putNode s.nodes) c = false := by
      rw [← Bool.not_eq_true, hasNode_iff]
      rintro ⟨n, h2, h3⟩
      rcases (putNodes_spec ([e].map (nodeOf u vec)) s.nodes).1 n h2 with h4 | ⟨h4, -⟩
      · obtain ⟨e', he', rfl⟩ := List.mem_map.1 h4
        rw [List.mem_singleton.1 he'] at h3
        exact hcr h3.symm
      · exact hcs n h4 h3
    simp only [ends, mention, h1]; simp

/-- The hypotheses of C141 hold for an entity with a stored chunk. -/
def withChunk : State := (upsertNode init (some ⟨"chunk:d:000", [1], "Ada met Bob", "chunk", ""⟩)).1

example : blank uni0 "entity" = false ∧ (∀ t, vec0 t ≠ []) ∧ Clean (resolve uni0 "" "Ada") ∧ (∃ n ∈ withChunk.nodes, n.id = "chunk:d:000") ∧
    (upsertEntities uni0 vec0 true true true withChunk [ent "Ada" "" ["chunk:d:000"]]).1.edges.map Edge.id =
      ["edge:mention:chunk:d:000:entity:ada"] := by
  refine ⟨by decide +kernel, fun _ => by simp [vec0], ?_, by decide +kernel, by decide +kernel⟩
  have : resolve uni0 "" "Ada" = entityNode uni0 "Ada" := by decide +kernel
  rw [this]
  exact clean_entityNode uni0 (by decide) _

end Verif.GraphTools
