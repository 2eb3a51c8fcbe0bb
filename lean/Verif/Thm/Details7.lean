import Verif.Thm.GraphTools

/-!
Details stated outright: which node an entity of a tool call stands for.
-/
namespace Verif.GraphTools
open Verif.Graph

/-- **C141.** The node of an entity: an id that begins with `entity:` is the node, else a name that begins so; anything else that is not
blank is made into a node id, the id before the name. -/
theorem C141_node (u : Uni) (id name : String) :
    (['e', 'n', 't', 'i', 't', 'y', ':'] <+: id.toList → resolve u id name = id) ∧
    (¬ ['e', 'n', 't', 'i', 't', 'y', ':'] <+: id.toList → ['e', 'n', 't', 'i', 't', 'y', ':'] <+: name.toList → resolve u id name = name) ∧
    (¬ ['e', 'n', 't', 'i', 't', 'y', ':'] <+: id.toList → ¬ ['e', 'n', 't', 'i', 't', 'y', ':'] <+: name.toList →
      (blank u id = false → resolve u id name = entityNode u id) ∧
      (blank u id = true → blank u name = false → resolve u id name = entityNode u name)) := by
  have key : ∀ x : String, isEntityId x = true ↔ ['e', 'n', 't', 'i', 't', 'y', ':'] <+: x.toList := by
    intro x
    unfold isEntityId
    rw [List.isPrefixOf_iff_prefix]
    rfl
  unfold resolve
  refine ⟨fun h => ?_, fun h1 h2 => ?_, fun h1 h2 => ⟨fun h3 => ?_, fun h3 h4 => ?_⟩⟩
  · rw [if_pos ((key id).2 h)]
  · rw [if_neg (fun h => h1 ((key id).1 h)), if_pos ((key name).2 h2)]
  · rw [if_neg (fun h => h1 ((key id).1 h)), if_neg (fun h => h2 ((key name).1 h)), if_pos h3]
  · rw [if_neg (fun h => h1 ((key id).1 h)), if_neg (fun h => h2 ((key name).1 h)), if_neg (by simp [h3]), if_pos h4]

example : ['e', 'n', 't', 'i', 't', 'y', ':'] <+: "entity:ada".toList ∧ ¬ ['e', 'n', 't', 'i', 't', 'y', ':'] <+: "ent:ada".toList ∧
    blank uni0 "ent:ada" = false := by decide +kernel

/-- **C141.** Relations that the database refuses to commit are an error, and nothing is stored. -/
theorem C141_refused (u : Uni) (fk : Bool) (s : State) (rs : List RelIn) (r : RelIn) (hr : r ∈ rs)
    (h1 : resolve u "" r.src ≠ "") (h2 : resolve u "" r.dst ≠ "") : upsertRelations u fk false s rs = (s, none) := by
  have hne : relEdges u rs ≠ [] := by
    obtain ⟨i, hi, hri⟩ := List.mem_iff_getElem.1 hr
    obtain ⟨e, he⟩ := relEdge_isSome (i := i) h1 h2
    intro h0
    have : e ∈ relEdges u rs := by
      refine List.mem_filterMap.2 ⟨(r, i), ?_, he⟩
      rw [List.mk_mem_zipIdx_iff_getElem?, List.getElem?_eq_getElem hi, hri]
    rw [h0] at this
    cases this
  unfold upsertRelations upsertEdgesBatch
  simp [hne]

/-- **C141.** Entities whose nodes the database refuses to commit are an error, and nothing is stored. -/
theorem C141_refused_nodes (u : Uni) (vec : String → List ℚ) (fk c2 : Bool) (s : State) (es : List EntityIn) (e : EntityIn) (he : e ∈ es)
    (hn : blank u e.name = false ∨ blank u e.id = false) : upsertEntities u vec fk false c2 s es = (s, none) := by
  have hne : named u es ≠ [] := by
    intro h0
    have : e ∈ named u es := (mem_named u es e).2 ⟨he, hn⟩
    rw [h0] at this
    cases this
  unfold upsertEntities upsertNodesBatch
  rw [if_neg (fun h => by rw [h] at he; cases he)]
  simp [hne]

/-- **C141.** When the nodes are committed and the mentions are refused, the call is an error although its nodes stay: the two are
not one transaction. -/
theorem C141_half (u : Uni) (vec : String → List ℚ) (fk : Bool) (s : State) (es : List EntityIn) (e : EntityIn) (he : e ∈ es)
    (hn : blank u e.name = false ∨ blank u e.id = false) (c : String) (hc : c ∈ e.chunks) (hc0 : c ≠ "") :
    upsertEntities u vec fk true false s es = ((upsertNodesBatch true s (((named u es).map (nodeOf u vec)).map some)).1, none) := by
  have hm : e ∈ named u es := (mem_named u es e).2 ⟨he, hn⟩
  have hne : named u es ≠ [] := List.ne_nil_of_mem hm
  have hed : (named u es).flatMap (mentionsOf u) ≠ [] := by
    have : mentionsOf u e ≠ [] := by
      unfold mentionsOf
      exact List.ne_nil_of_mem (List.mem_map_of_mem (List.mem_filter.2 ⟨hc, by simpa using hc0⟩))
    intro h0
    rw [List.flatMap_eq_nil_iff] at h0
    exact this (h0 e hm)
  unfold upsertEntities upsertNodesBatch upsertEdgesBatch
  rw [if_neg (fun h => by rw [h] at he; cases he)]
  simp only [List.map_eq_nil_iff, hne, hed, if_false]
  simp

-- a relation with both ends, an entity with a name, and a chunk it is mentioned in
example : resolve uni0 "" "Ada" ≠ "" ∧ blank uni0 "Ada" = false ∧ "c" ∈ ["c"] ∧ "c" ≠ "" := by decide +kernel

end Verif.GraphTools
