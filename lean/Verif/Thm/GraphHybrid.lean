import Verif.Model.GraphHybrid
import Verif.Base.Sort
import Verif.Thm.GraphTraverse
import Mathlib.Tactic.Linarith
import Mathlib.Tactic.Ring
import Mathlib.Tactic.FieldSimp

/-! C52, C102, C103 and C104: searches over vectors and graph together. -/
namespace Verif.Graph
open Verif.Spec Verif.Base

/-! ### Distances -/

/-- Following `n` stored edges of the wanted types from `a` leads to `b`; `w` is the product of their weights. -/
inductive WWalk (s : State) (types : List String) (a : String) : Nat → String → ℚ → Prop
  | nil : WWalk s types a 0 a 1
  | snoc {n b w} (e : Edge) : WWalk s types a n b w → e ∈ s.edges → e.src = b → (types = [] ∨ e.etype ∈ types) →
      WWalk s types a (n + 1) e.dst (w * e.weight)

/-- The invariant of the loop. -/
structure DInv (s : State) (types : List String) (M : Nat) (a : String) (r q : List GDist) : Prop where
  sorted : q.Pairwise (fun c c' => c.dist ≤ c'.dist)
  close : ∀ c ∈ q, ∀ c' ∈ q, c'.dist ≤ c.dist + 1
  below : ∀ g ∈ r, ∀ c ∈ q, g.dist ≤ c.dist
  nodup : (r.map GDist.node).Nodup
  rwalk : ∀ g ∈ r, WWalk s types a g.dist g.node g.weight
  qwalk : ∀ g ∈ q, WWalk s types a g.dist g.node g.weight
  depth : ∀ g ∈ r, g.dist ≤ M
  covered : ∀ g ∈ r, ∀ e ∈ s.edges, e.src = g.node → (types = [] ∨ e.etype ∈ types) → g.dist + 1 ≤ M →
    (∃ g' ∈ r, g'.node = e.dst ∧ g'.dist ≤ g.dist + 1) ∨ (∃ c ∈ q, c.node = e.dst ∧ c.dist ≤ g.dist + 1)
  start : (∃ g ∈ r, g.node = a ∧ g.dist = 0) ∨ (∃ c ∈ q, c.node = a ∧ c.dist = 0)

/-- What the distances say: one entry per node, a shortest walk of length at most `M`, and no node within reach is missing. -/
structure DistSpec (s : State) (types : List String) (M : Nat) (a : String) (r : List GDist) : Prop where
  nodup : (r.map GDist.node).Nodup
  walk : ∀ g ∈ r, WWalk s types a g.dist g.node g.weight
  depth : ∀ g ∈ r, g.dist ≤ M
  all : ∀ n b w, n ≤ M → WWalk s types a n b w → ∃ g ∈ r, g.node = b ∧ g.dist ≤ n

theorem distOf_some {r : List GDist} {u : String} {g : GDist} (h : distOf r u = some g) : g ∈ r ∧ g.node = u := by
  unfold distOf at h
  have h1 := List.find?_some h
  simp only [decide_eq_true_eq] at h1
  exact ⟨List.mem_of_find?_eq_some h, h1⟩

theorem distOf_none {r : List GDist} {u : String} (h : distOf r u = none) : ∀ g ∈ r, g.node ≠ u := by
  unfold distOf at h
  rw [List.find?_eq_none] at h
  intro g hg
  simpa using h g hg

theorem nodup_node_eq {r : List GDist} (hn : (r.map GDist.node).Nodup) {g g' : GDist} (hg : g ∈ r) (hg' : g' ∈ r)
    (h : g.node = g'.node) : g = g' := by
  induction r with
  | nil => simp at hg
  | cons x r ih =>
    rw [List.map_cons, List.nodup_cons] at hn
    rcases List.mem_cons.1 hg with h1 | h1
    · rcases List.mem_cons.1 hg' with h2 | h2
      · rw [h1, h2]
      · subst h1
        exact absurd (List.mem_map.2 ⟨g', h2, h.symm⟩) hn.1
    · rcases List.mem_cons.1 hg' with h2 | h2
      · subst h2
        exact absurd (List.mem_map.2 ⟨g, h1, h⟩) hn.1
      · exact ih hn.2 h1 h2

theorem distOf_mem {r : List GDist} (hn : (r.map GDist.node).Nodup) {g : GDist} (hg : g ∈ r) : distOf r g.node = some g := by
  cases h : distOf r g.node with
  | none => exact absurd rfl (distOf_none h g hg)
  | some g' =>
    obtain ⟨h1, h2⟩ := distOf_some h
    rw [nodup_node_eq hn h1 hg h2]

theorem mem_pushOut {s : State} {types : List String} {c g : GDist} : g ∈ pushOut s types c ↔
    ∃ e ∈ s.edges, e.src = c.node ∧ (types = [] ∨ e.etype ∈ types) ∧ g = ⟨e.dst, c.dist + 1, c.weight * e.weight⟩ := by
  unfold pushOut
  simp only [List.mem_map, List.mem_filter, decide_eq_true_eq]
  constructor
  · rintro ⟨e, ⟨⟨h1, h2⟩, h3⟩, rfl⟩; exact ⟨e, h1, h2, h3, rfl⟩
  · rintro ⟨e, h1, h2, h3, rfl⟩; exact ⟨e, ⟨⟨h1, h2⟩, h3⟩, rfl⟩

theorem DInv.spec {s : State} {types : List String} {M : Nat} {a : String} {r : List GDist} (h : DInv s types M a r []) :
    DistSpec s types M a r := by
  refine ⟨h.nodup, h.rwalk, h.depth, ?_⟩
  intro n b w hn hw
  induction hw with
  | nil =>
    rcases h.start with ⟨g, hg, h1, h2⟩ | ⟨c, hc, -⟩
    · exact ⟨g, hg, h1, h2.le⟩
    · simp at hc
  | snoc e _ he hs ht ih =>
    obtain ⟨g, hg, h1, h2⟩ := ih (by omega)
    rcases h.covered g hg e he (hs.trans h1.symm) ht (by omega) with ⟨g', hg', h3, h4⟩ | ⟨c, hc, -⟩
    · exact ⟨g', hg', h3, by omega⟩
    · simp at hc

/-- Dropping the head of the queue when it is not needed. -/
theorem DInv.drop {s : State} {types : List String} {M : Nat} {a : String} {r q : List GDist} {c : GDist}
    (h : DInv s types M a r (c :: q)) (hc : c.dist > M ∨ ∃ g ∈ r, g.node = c.node ∧ g.dist ≤ c.dist) : DInv s types M a r q := by
  have hsub : ∀ x ∈ q, x ∈ c :: q := fun x hx => List.mem_cons_of_mem _ hx
  refine ⟨(List.pairwise_cons.1 h.sorted).2, fun x hx y hy => h.close x (hsub x hx) y (hsub y hy),
    fun g hg x hx => h.below g hg x (hsub x hx), h.nodup, h.rwalk, fun g hg => h.qwalk g (hsub g hg), h.depth, ?_, ?_⟩
  · intro g hg e he hs ht hM
    rcases h.covered g hg e he hs ht hM with h1 | ⟨x, hx, h1, h2⟩
    · exact Or.inl h1
    · rcases List.mem_cons.1 hx with rfl | hx
      · rcases hc with hc | ⟨g', hg', h3, h4⟩
        · omega
        · exact Or.inl ⟨g', hg', h3.trans h1, by omega⟩
      · exact Or.inr ⟨x, hx, h1, h2⟩
  · rcases h.start with h1 | ⟨x, hx, h1, h2⟩
    · exact Or.inl h1
    · rcases List.mem_cons.1 hx with rfl | hx
      · rcases hc with hc | ⟨g', hg', h3, h4⟩
        · omega
        · exact Or.inl ⟨g', hg', h3.trans h1, by omega⟩
      · exact Or.inr ⟨x, hx, h1, h2⟩

theorem DInv.visit {s : State} {types : List String} {M : Nat} {a : String} {r q : List GDist} {c : GDist}
    (h : DInv s types M a r (c :: q)) (hc : c.dist ≤ M) (hr : ∀ g ∈ r, g.node ≠ c.node) :
    DInv s types M a (c :: r) (q ++ pushOut s types c) := by
  have hsub : ∀ x ∈ q, x ∈ c :: q := fun x hx => List.mem_cons_of_mem _ hx
  have hle : ∀ x ∈ q, c.dist ≤ x.dist := (List.pairwise_cons.1 h.sorted).1
  have hge : ∀ x ∈ q, x.dist ≤ c.dist + 1 := fun x hx => h.close c List.mem_cons_self x (hsub x hx)
  have hp : ∀ x ∈ pushOut s types c, x.dist = c.dist + 1 := by
    intro x hx
    obtain ⟨e, -, -, -, rfl⟩ := mem_pushOut.1 hx
    rfl
  refine ⟨?_, ?_, ?_, ?_, ?_, ?_, ?_, ?_, ?_⟩
  · rw [List.pairwise_append]
    refine ⟨(List.pairwise_cons.1 h.sorted).2, ?_, ?_⟩
    · apply List.Pairwise.imp_of_mem (R := fun _ _ => True)
      · intro x y hx hy _; rw [hp x hx, hp y hy]
      · exact List.pairwise_of_forall (fun _ _ => trivial)
    · intro x hx y hy; rw [hp y hy]; exact hge x hx
  · intro x hx y hy
    rcases List.mem_append.1 hx with hx | hx <;> rcases List.mem_append.1 hy with hy | hy
    · exact h.close x (hsub x hx) y (hsub y hy)
    · have := hle x hx; have := hp y hy; omega
    · have := hge y hy; have := hp x hx; omega
    · have := hp x hx; have := hp y hy; omega
  · intro g hg x hx
    rcases List.mem_cons.1 hg with rfl | hg <;> rcases List.mem_append.1 hx with hx | hx
    · exact hle x hx
    · have := hp x hx; omega
    · exact h.below g hg x (hsub x hx)
    · have := h.below g hg c List.mem_cons_self; have := hp x hx; omega
  · rw [List.map_cons, List.nodup_cons]
    refine ⟨?_, h.nodup⟩
    intro hm
    obtain ⟨g, hg, hgn⟩ := List.mem_map.1 hm
    exact hr g hg hgn
  · intro g hg
    rcases List.mem_cons.1 hg with rfl | hg
    · exact h.qwalk g List.mem_cons_self
    · exact h.rwalk g hg
  · intro g hg
    rcases List.mem_append.1 hg with hg | hg
    · exact h.qwalk g (hsub g hg)
    · obtain ⟨e, he, hs, ht, rfl⟩ := mem_pushOut.1 hg
      exact .snoc e (h.qwalk c List.mem_cons_self) he hs ht
  · intro g hg
    rcases List.mem_cons.1 hg with rfl | hg
    · exact hc
    · exact h.depth g hg
  · intro g hg e he hs ht hM
    rcases List.mem_cons.1 hg with rfl | hg
    · exact Or.inr ⟨_, List.mem_append_right _ (mem_pushOut.2 ⟨e, he, hs, ht, rfl⟩), rfl, le_refl _⟩
    · rcases h.covered g hg e he hs ht hM with ⟨g', hg', h1⟩ | ⟨x, hx, h1, h2⟩
      · exact Or.inl ⟨g', List.mem_cons_of_mem _ hg', h1⟩
      · rcases List.mem_cons.1 hx with rfl | hx
        · exact Or.inl ⟨x, List.mem_cons_self, h1, h2⟩
        · exact Or.inr ⟨x, List.mem_append_left _ hx, h1, h2⟩
  · rcases h.start with ⟨g', hg', h1⟩ | ⟨x, hx, h1, h2⟩
    · exact Or.inl ⟨g', List.mem_cons_of_mem _ hg', h1⟩
    · rcases List.mem_cons.1 hx with rfl | hx
      · exact Or.inl ⟨x, List.mem_cons_self, h1, h2⟩
      · exact Or.inr ⟨x, List.mem_append_left _ hx, h1, h2⟩

/-- The stored edges that leave a node without an entry. -/
def openEdges (s : State) (r : List GDist) : Nat := (s.edges.filter (fun e => decide (e.src ∉ r.map GDist.node))).length

theorem openEdges_visit (s : State) (types : List String) (r : List GDist) (c : GDist) (hr : ∀ g ∈ r, g.node ≠ c.node) :
    (pushOut s types c).length + openEdges s (c :: r) ≤ openEdges s r := by
  unfold pushOut openEdges
  rw [List.length_map]
  induction s.edges with
  | nil => simp
  | cons e es ih =>
    by_cases h1 : e.src = c.node
    · have h2 : e.src ∉ r.map GDist.node := by
        rintro hm
        obtain ⟨g, hg, hgn⟩ := List.mem_map.1 hm
        exact hr g hg (hgn.trans h1)
      have h3 : ¬ (e.src ∉ (c :: r).map GDist.node) := by simp [h1]
      rw [List.filter_cons_of_pos (p := fun e : Edge => decide (e.src = c.node)) (by simpa using h1),
        List.filter_cons_of_neg (p := fun e : Edge => decide (e.src ∉ (c :: r).map GDist.node)) (by simpa using h3),
        List.filter_cons_of_pos (p := fun e : Edge => decide (e.src ∉ r.map GDist.node)) (by simpa using h2)]
      rw [List.filter_cons]
      split_ifs
      · simp only [List.length_cons]; omega
      · simp only [List.length_cons]; omega
    · rw [List.filter_cons_of_neg (p := fun e : Edge => decide (e.src = c.node)) (by simpa using h1)]
      by_cases h2 : e.src ∉ r.map GDist.node
      · rw [List.filter_cons_of_pos (p := fun e : Edge => decide (e.src ∉ (c :: r).map GDist.node)) (by simp; exact ⟨h1, by simpa using h2⟩),
          List.filter_cons_of_pos (p := fun e : Edge => decide (e.src ∉ r.map GDist.node)) (by simpa using h2)]
        simp only [List.length_cons]; omega
      · rw [List.filter_cons_of_neg (p := fun e : Edge => decide (e.src ∉ (c :: r).map GDist.node)) (by
            simp only [decide_eq_true_eq, not_not] at h2 ⊢
            rw [List.map_cons]; exact List.mem_cons_of_mem _ h2),
          List.filter_cons_of_neg (p := fun e : Edge => decide (e.src ∉ r.map GDist.node)) (by simpa using h2)]
        exact ih

theorem distLoop_spec (s : State) (types : List String) (M : Nat) (a : String) : ∀ (fuel : Nat) (r q : List GDist),
    q.length + openEdges s r ≤ fuel → DInv s types M a r q →
    ∃ out, distLoop s types M fuel r q = some out ∧ DistSpec s types M a out := by
  intro fuel
  induction fuel with
  | zero =>
    intro r q hf h
    cases q with
    | nil => exact ⟨r, by rw [distLoop], h.spec⟩
    | cons c q => simp at hf
  | succ n ih =>
    intro r q hf h
    cases q with
    | nil => exact ⟨r, by rw [distLoop], h.spec⟩
    | cons c q =>
      rw [distLoop]
      rw [List.length_cons] at hf
      by_cases h1 : c.dist > M
      · rw [if_pos h1]
        exact ih r q (by omega) (h.drop (Or.inl h1))
      · rw [if_neg h1]
        cases hd : distOf r c.node with
        | some g =>
          obtain ⟨h2, h3⟩ := distOf_some hd
          have h4 := h.below g h2 c List.mem_cons_self
          rw [if_pos (by simpa using h4)]
          exact ih r q (by omega) (h.drop (Or.inr ⟨g, h2, h3, h4⟩))
        | none =>
          have h2 := distOf_none hd
          rw [if_neg (by simp)]
          have h3 : r.filter (fun g => decide (g.node ≠ c.node)) = r := by
            rw [List.filter_eq_self]
            intro g hg
            simpa using h2 g hg
          rw [h3]
          refine ih _ _ ?_ (h.visit (by omega) h2)
          have := openEdges_visit s types r c h2
          rw [List.length_append]
          omega

theorem distances_spec (s : State) (types : List String) (M : Nat) (a : String) :
    ∃ out, distLoop s types M (s.edges.length + 1) [] [⟨a, 0, 1⟩] = some out ∧ DistSpec s types M a out := by
  apply distLoop_spec
  · have : openEdges s [] ≤ s.edges.length := List.length_filter_le _ _
    simp only [List.length_singleton]
    omega
  · refine ⟨List.pairwise_singleton _ _, ?_, by simp, by simp, by simp, ?_, by simp, by simp, Or.inr ⟨_, List.mem_singleton_self _, rfl, rfl⟩⟩
    · intro c hc c' hc'; simp only [List.mem_singleton] at hc hc'; subst hc hc'; omega
    · intro g hg; simp only [List.mem_singleton] at hg; subst hg; exact .nil

/-- A node is asked for by the type filter. -/
def TypeOk (types : List String) (n : Node) : Prop := types = [] ∨ n.ntype ∈ types

/-- `d` is the number of edges on a shortest walk from `a` to `b`. -/
def Shortest (s : State) (types : List String) (a b : String) (d : Nat) : Prop :=
  (∃ w, WWalk s types a d b w) ∧ ∀ n w, WWalk s types a n b w → d ≤ n

/-- The depth in force: 3 unless a positive one is given. -/
def GFilter.effDepth (f : GFilter) : Nat := if f.maxDepth ≤ 0 then 3 else f.maxDepth.toNat

theorem depth_eff (f : GFilter) : f.depth = f.effDepth := by
  unfold GFilter.depth GFilter.effDepth
  split_ifs <;> first | rfl | omega

/-- The start is given and the node is within the depth of it. -/
def InReach (s : State) (q : HQuery) (b : String) : Prop :=
  q.start ≠ "" ∧ ∃ n w, n ≤ q.filter.effDepth ∧ WWalk s q.filter.edgeTypes q.start n b w

/-- The distances that the search works with, for the nodes that are stored. -/
theorem search_distances (s : State) (hu : Unique s) (q : HQuery) :
    ∃ dist, (if q.start = "" then some [] else graphDistances s q.start q.filter) = some dist ∧
      (dist.map GDist.node).Nodup ∧
      (∀ g ∈ dist, Shortest s q.filter.edgeTypes q.start g.node g.dist ∧
        WWalk s q.filter.edgeTypes q.start g.dist g.node g.weight ∧ g.dist ≤ q.filter.effDepth) ∧
      ∀ n ∈ s.nodes, (∃ g ∈ dist, g.node = n.id) ↔ TypeOk q.filter.nodeTypes n ∧ InReach s q n.id := by
  by_cases h0 : q.start = ""
  · rw [if_pos h0]
    refine ⟨[], rfl, by simp, by simp, ?_⟩
    intro n _
    simp [InReach, h0]
  · rw [if_neg h0]
    obtain ⟨out, h1, h2⟩ := distances_spec s q.filter.edgeTypes q.filter.depth q.start
    rw [depth_eff] at h2
    have hsub : (keepTypes s q.filter.nodeTypes out).Sublist out := by
      unfold keepTypes
      split_ifs
      · exact List.Sublist.refl _
      · exact List.filter_sublist
    refine ⟨keepTypes s q.filter.nodeTypes out, by rw [graphDistances, h1]; rfl, h2.nodup.sublist (hsub.map _), ?_, ?_⟩
    · intro g hg
      have hg' := hsub.mem hg
      refine ⟨⟨⟨_, h2.walk g hg'⟩, ?_⟩, h2.walk g hg', h2.depth g hg'⟩
      intro n w hw
      by_cases hn : n ≤ q.filter.effDepth
      · obtain ⟨g', h3, h4, h5⟩ := h2.all n g.node w hn hw
        rw [nodup_node_eq h2.nodup h3 hg' h4] at h5
        exact h5
      · have := h2.depth g hg'
        omega
    · intro n hn
      have hget := (getNode_mem s hu n.id n).2 ⟨hn, rfl⟩
      have hk : (∃ g ∈ keepTypes s q.filter.nodeTypes out, g.node = n.id) ↔ TypeOk q.filter.nodeTypes n ∧ ∃ g ∈ out, g.node = n.id := by
        unfold keepTypes TypeOk
        by_cases ht : q.filter.nodeTypes = []
        · simp [ht]
        · rw [if_neg ht]
          simp only [List.mem_filter]
          constructor
          · rintro ⟨g, ⟨hg, h3⟩, h4⟩
            rw [h4, hget] at h3
            simp only [decide_eq_true_eq] at h3
            exact ⟨Or.inr h3, g, hg, h4⟩
          · rintro ⟨h3, g, hg, h4⟩
            refine ⟨g, ⟨hg, ?_⟩, h4⟩
            rw [h4, hget]
            simp only [decide_eq_true_eq]
            exact h3.resolve_left ht
      rw [hk]
      apply and_congr_right
      intro _
      constructor
      · rintro ⟨g, hg, h3⟩
        exact ⟨h0, g.dist, g.weight, h2.depth g hg, h3 ▸ h2.walk g hg⟩
      · rintro ⟨-, k, w, hk, hw⟩
        obtain ⟨g, hg, h3, -⟩ := h2.all k n.id w hk hw
        exact ⟨g, hg, h3⟩

/-! ### C52 -/

/-- The index is asked and has an answer of a wanted type. -/
def IndexUsed (s : State) (index : Option (List String)) (q : HQuery) : Prop :=
  q.topK > 0 ∧ ∃ ids, index = some ids ∧ ∃ n ∈ s.nodes, n.id ∈ ids ∧ TypeOk q.filter.nodeTypes n

/-- A node counts as a vector match: a query vector is given, the node has a wanted type, is in the answer of the index when
that is used, and is similar enough. -/
def Hit (sim : List ℚ → List ℚ → ℚ) (s : State) (index : Option (List String)) (q : HQuery) (n : Node) : Prop :=
  q.vector ≠ [] ∧ TypeOk q.filter.nodeTypes n ∧ (IndexUsed s index q → ∀ ids, index = some ids → n.id ∈ ids) ∧
    (q.threshold = 0 ∨ q.threshold ≤ sim q.vector n.vec)

theorem mem_candidates (s : State) (hu : Unique s) (index : Option (List String)) (q : HQuery) (n : Node) :
    n ∈ vectorCandidates s index q ↔ n ∈ s.nodes ∧ TypeOk q.filter.nodeTypes n ∧
      (IndexUsed s index q → ∀ ids, index = some ids → n.id ∈ ids) := by
  have hall : n ∈ allNodes s q.filter.nodeTypes ↔ n ∈ s.nodes ∧ TypeOk q.filter.nodeTypes n := by
    unfold allNodes TypeOk
    simp
  unfold vectorCandidates
  cases index with
  | none => simp only [hall, IndexUsed]; simp
  | some ids =>
    simp only
    by_cases hk : q.topK > 0
    · rw [if_pos hk]
      have hm : ∀ x, x ∈ (ids.filterMap (getNode s)).filter (fun n => decide (q.filter.nodeTypes = [] ∨ n.ntype ∈ q.filter.nodeTypes)) ↔
          x ∈ s.nodes ∧ x.id ∈ ids ∧ TypeOk q.filter.nodeTypes x := by
        intro x
        simp only [List.mem_filter, List.mem_filterMap, decide_eq_true_eq, TypeOk]
        constructor
        · rintro ⟨⟨i, hi, hx⟩, ht⟩
          obtain ⟨h1, rfl⟩ := (getNode_mem s hu i x).1 hx
          exact ⟨h1, hi, ht⟩
        · rintro ⟨h1, hi, ht⟩
          exact ⟨⟨x.id, hi, (getNode_mem s hu x.id x).2 ⟨h1, rfl⟩⟩, ht⟩
      by_cases hne : (ids.filterMap (getNode s)).filter (fun n => decide (q.filter.nodeTypes = [] ∨ n.ntype ∈ q.filter.nodeTypes)) ≠ []
      · rw [if_pos hne, hm]
        have hused : IndexUsed s (some ids) q := by
          obtain ⟨x, hx⟩ := List.exists_mem_of_ne_nil _ hne
          obtain ⟨h1, h2, h3⟩ := (hm x).1 hx
          exact ⟨hk, ids, rfl, x, h1, h2, h3⟩
        constructor
        · rintro ⟨h1, h2, h3⟩
          refine ⟨h1, h3, ?_⟩
          intro _ ids' he
          obtain rfl := Option.some.inj he
          exact h2
        · rintro ⟨h1, h2, h3⟩
          exact ⟨h1, h3 hused ids rfl, h2⟩
      · rw [if_neg hne, hall]
        push Not at hne
        constructor
        · rintro ⟨h1, h2⟩
          refine ⟨h1, h2, ?_⟩
          rintro ⟨-, ids', he, x, h3, h4, h5⟩
          obtain rfl := Option.some.inj he
          have := (hm x).2 ⟨h3, h4, h5⟩
          rw [hne] at this
          simp at this
        · rintro ⟨h1, h2, -⟩; exact ⟨h1, h2⟩
    · rw [if_neg hk, hall]
      simp [IndexUsed, hk]

theorem mem_hits (sim : List ℚ → List ℚ → ℚ) (s : State) (hu : Unique s) (index : Option (List String)) (q : HQuery) (n : Node) :
    n ∈ vectorHits sim s index q ↔ n ∈ s.nodes ∧ Hit sim s index q n := by
  unfold vectorHits Hit
  by_cases hv : q.vector = []
  · simp [hv]
  · rw [if_neg hv]
    simp only [List.mem_dedup, List.mem_filter, mem_candidates s hu, decide_eq_true_eq, ge_iff_le]
    constructor
    · rintro ⟨⟨h1, h2, h3⟩, h4⟩; exact ⟨h1, hv, h2, h3, h4⟩
    · rintro ⟨h1, -, h2, h3, h4⟩; exact ⟨⟨h1, h2, h3⟩, h4⟩

theorem hits_nodup (sim : List ℚ → List ℚ → ℚ) (s : State) (hu : Unique s) (index : Option (List String)) (q : HQuery) :
    ((vectorHits sim s index q).map Node.id).Nodup := by
  have h1 : (vectorHits sim s index q).Nodup := by
    unfold vectorHits
    split_ifs
    · exact List.nodup_nil
    · exact List.nodup_dedup _
  refine h1.map_on ?_
  intro x hx y hy he
  have hx' := (getNode_mem s hu x.id x).2 ⟨((mem_hits sim s hu index q x).1 hx).1, rfl⟩
  have hy' := (getNode_mem s hu x.id y).2 ⟨((mem_hits sim s hu index q y).1 hy).1, he.symm⟩
  rw [hx'] at hy'
  exact Option.some.inj hy'

/-- The results before sorting. -/
theorem pool_spec (sim : List ℚ → List ℚ → ℚ) (s : State) (hu : Unique s) (index : Option (List String)) (q : HQuery) (w : Weights)
    (dist : List GDist) (hd : (dist.map GDist.node).Nodup) :
    ((hybridPool sim s q w (vectorHits sim s index q) dist).map (fun x => x.node.id)).Nodup ∧
    ∀ x, x ∈ hybridPool sim s q w (vectorHits sim s index q) dist ↔ x.node ∈ s.nodes ∧
      ((Hit sim s index q x.node ∧ x = vectorResult sim q w dist x.node) ∨
       (¬ Hit sim s index q x.node ∧ ∃ g ∈ dist, g.node = x.node.id ∧ x = graphResult sim q w g x.node)) := by
  have hidhit : ∀ n ∈ s.nodes, (n.id ∈ (vectorHits sim s index q).map Node.id ↔ Hit sim s index q n) := by
    intro n hn
    rw [List.mem_map]
    constructor
    · rintro ⟨m, hm, he⟩
      obtain ⟨h1, h2⟩ := (mem_hits sim s hu index q m).1 hm
      have ha := (getNode_mem s hu n.id m).2 ⟨h1, he⟩
      have hb := (getNode_mem s hu n.id n).2 ⟨hn, rfl⟩
      rw [ha] at hb
      rw [← Option.some.inj hb]
      exact h2
    · intro h
      exact ⟨n, (mem_hits sim s hu index q n).2 ⟨hn, h⟩, rfl⟩
  have hsecond : ∀ x, x ∈ dist.filterMap (fun g => if g.node ∈ (vectorHits sim s index q).map Node.id then none
        else (getNode s g.node).map (graphResult sim q w g)) ↔
      ∃ g ∈ dist, x.node ∈ s.nodes ∧ ¬ Hit sim s index q x.node ∧ g.node = x.node.id ∧ x = graphResult sim q w g x.node := by
    intro x
    rw [List.mem_filterMap]
    apply exists_congr
    intro g
    apply and_congr_right
    intro hg
    constructor
    · intro h
      split_ifs at h with hc
      · rw [Option.map_eq_some_iff] at h
        obtain ⟨n, hn, rfl⟩ := h
        obtain ⟨h1, h2⟩ := (getNode_mem s hu g.node n).1 hn
        refine ⟨h1, ?_, h2.symm, rfl⟩
        intro hh
        exact hc (h2 ▸ (hidhit n h1).2 hh)
    · rintro ⟨h1, h2, h3, h4⟩
      rw [if_neg (by rw [h3]; exact fun hc => h2 ((hidhit _ h1).1 hc)),
        (getNode_mem s hu g.node x.node).2 ⟨h1, h3.symm⟩, Option.map_some, ← h4]
  constructor
  · unfold hybridPool
    rw [List.map_append, List.nodup_append]
    refine ⟨?_, ?_, ?_⟩
    · rw [List.map_map]
      exact hits_nodup sim s hu index q
    · have : ((dist.filterMap (fun g => if g.node ∈ (vectorHits sim s index q).map Node.id then none
        else (getNode s g.node).map (graphResult sim q w g))).map (fun x => x.node.id)).Sublist (dist.map GDist.node) := by
        clear hd hsecond
        induction dist with
        | nil => simp
        | cons g l ih =>
          rw [List.filterMap_cons]
          split
          · exact ih.trans (List.sublist_cons_self _ _)
          · rename_i b hb
            rw [List.map_cons, List.map_cons]
            split_ifs at hb
            · rw [Option.map_eq_some_iff] at hb
              obtain ⟨n, hn, rfl⟩ := hb
              obtain ⟨-, h2⟩ := (getNode_mem s hu g.node n).1 hn
              have : (graphResult sim q w g n).node.id = g.node := h2
              rw [this]
              exact ih.cons_cons _
      exact hd.sublist this
    · intro a ha b hb hab
      obtain ⟨x, hx, rfl⟩ := List.mem_map.1 ha
      obtain ⟨n, hn, rfl⟩ := List.mem_map.1 hx
      obtain ⟨y, hy, rfl⟩ := List.mem_map.1 hb
      obtain ⟨g, hg, h1, h2, h3, h4⟩ := (hsecond y).1 hy
      apply h2
      rw [← hidhit _ h1, ← hab]
      exact List.mem_map_of_mem hn
  · intro x
    unfold hybridPool
    rw [List.mem_append, hsecond, List.mem_map]
    constructor
    · rintro (⟨n, hn, rfl⟩ | ⟨g, hg, h1, h2, h3, h4⟩)
      · obtain ⟨h1, h2⟩ := (mem_hits sim s hu index q n).1 hn
        exact ⟨h1, Or.inl ⟨h2, rfl⟩⟩
      · exact ⟨h1, Or.inr ⟨h2, g, hg, h3, h4⟩⟩
    · rintro ⟨h1, ⟨h2, h3⟩ | ⟨h2, g, hg, h3, h4⟩⟩
      · exact Or.inl ⟨x.node, (mem_hits sim s hu index q _).2 ⟨h1, h2⟩, h3.symm⟩
      · exact Or.inr ⟨g, hg, h1, h2, h3, h4⟩

/-- `out` is the best `k` of the pool, or the whole pool in order when no limit is given. -/
def BestOf {α : Type} (score : α → ℚ) (pool : List α) (k : Int) (out : List α) : Prop :=
  if k > 0 then IsTopK score pool k.toNat out else IsRanked score pool out

theorem bestOf_sort {α : Type} (score : α → ℚ) (sort : List α → List α)
    (hs : ∀ l, SortedFrom (fun a b => score b ≤ score a) l (sort l)) (pool : List α) (k : Int) :
    BestOf score pool k (if k > 0 then (sort pool).take k.toNat else sort pool) := by
  unfold BestOf
  split_ifs with h
  · exact isTopK_take _ _ _ _ (hs pool)
  · exact ⟨(hs pool).1, (hs pool).2⟩

theorem BestOf.sub {α : Type} {score : α → ℚ} {pool out : List α} {k : Int} (h : BestOf score pool k out) :
    ∃ rest, (out ++ rest).Perm pool := by
  unfold BestOf at h
  split_ifs at h
  · obtain ⟨rest, h1, -⟩ := h.best
    exact ⟨rest, h1⟩
  · exact ⟨[], by simpa using h.perm⟩

theorem BestOf.mem {α : Type} {score : α → ℚ} {pool out : List α} {k : Int} (h : BestOf score pool k out) {x : α} (hx : x ∈ out) :
    x ∈ pool := by
  obtain ⟨rest, h1⟩ := h.sub
  exact h1.mem_iff.1 (List.mem_append_left _ hx)

/-- C52 (ranking): for every graph, query, index answer and sort, hybrid search answers with the best `TopK` (all of them
when no limit is given) of a pool that holds, once each, exactly the stored nodes that match the vector or are within reach
of the start, best combined score first. -/
theorem C52_hybrid_search_ranks_partial (sim : List ℚ → List ℚ → ℚ) (sort : List HResult → List HResult)
    (hs : ∀ l, SortedFrom (fun a b => b.combined ≤ a.combined) l (sort l)) (s : State) (hu : Unique s)
    (index : Option (List String)) (q : HQuery) :
    ∃ out pool, hybridSearch sim sort s index q = some out ∧ BestOf HResult.combined pool q.topK out ∧
      (pool.map (fun x => x.node.id)).Nodup ∧ (out.map (fun x => x.node.id)).Nodup ∧
      ∀ n, (∃ x ∈ pool, x.node = n) ↔ n ∈ s.nodes ∧
        (Hit sim s index q n ∨ (TypeOk q.filter.nodeTypes n ∧ InReach s q n.id)) := by
  obtain ⟨dist, h1, h2, h3, h4⟩ := search_distances s hu q
  obtain ⟨p1, p2⟩ := pool_spec sim s hu index q (normWeights q.weights) dist h2
  have hb := bestOf_sort HResult.combined sort hs (hybridPool sim s q (normWeights q.weights) (vectorHits sim s index q) dist) q.topK
  refine ⟨_, _, by rw [hybridSearch, h1], hb, p1, ?_, ?_⟩
  · obtain ⟨rest, hr⟩ := hb.sub
    have := (hr.map (fun x => x.node.id)).nodup_iff.2 p1
    rw [List.map_append] at this
    exact (List.nodup_append.1 this).1
  · intro n
    constructor
    · rintro ⟨x, hx, rfl⟩
      obtain ⟨h5, ⟨h6, -⟩ | ⟨h6, g, hg, h7, -⟩⟩ := (p2 x).1 hx
      · exact ⟨h5, Or.inl h6⟩
      · exact ⟨h5, Or.inr ((h4 _ h5).1 ⟨g, hg, h7⟩)⟩
    · rintro ⟨h5, h6⟩
      by_cases hh : Hit sim s index q n
      · exact ⟨vectorResult sim q (normWeights q.weights) dist n, (p2 _).2 ⟨h5, Or.inl ⟨hh, rfl⟩⟩, rfl⟩
      · obtain ⟨g, hg, h7⟩ := (h4 n h5).2 (h6.resolve_left hh)
        exact ⟨graphResult sim q (normWeights q.weights) g n, (p2 _).2 ⟨h5, Or.inr ⟨hh, g, hg, h7, rfl⟩⟩, rfl⟩

/-- C52 (weights): the weights in force sum to one when none are given or when they are more than 0.001 off, and are never
more than 0.001 off. -/
theorem C52_weights_sum_partial (w : Weights) :
    |(normWeights w).vector + (normWeights w).graph + (normWeights w).edge - 1| ≤ 1 / 1000 ∧
    (w.vector + w.graph + w.edge = 0 ∨ 1 / 1000 < |w.vector + w.graph + w.edge - 1| →
      (normWeights w).vector + (normWeights w).graph + (normWeights w).edge = 1) := by
  unfold normWeights
  simp only
  by_cases h0 : w.vector + w.graph + w.edge = 0
  · rw [if_pos h0]; norm_num
  · rw [if_neg h0]
    by_cases h1 : |w.vector + w.graph + w.edge - 1| > 1 / 1000
    · rw [if_pos h1]
      have : w.vector / (w.vector + w.graph + w.edge) + w.graph / (w.vector + w.graph + w.edge) +
          w.edge / (w.vector + w.graph + w.edge) = 1 := by
        rw [← add_div, ← add_div, div_self h0]
      simp only [this]
      norm_num
    · rw [if_neg h1]
      refine ⟨not_lt.1 h1, ?_⟩
      rintro (h | h)
      · exact absurd h h0
      · exact absurd h h1

/-- C52: weights that are only slightly off are used as they are. -/
theorem C52_weights_sum_violated :
    (normWeights ⟨5005 / 10000, 3 / 10, 2 / 10⟩).vector + (normWeights ⟨5005 / 10000, 3 / 10, 2 / 10⟩).graph +
      (normWeights ⟨5005 / 10000, 3 / 10, 2 / 10⟩).edge ≠ 1 := by decide +kernel

/-! ### C102 -/

/-- C102: every result of hybrid search carries the similarity, the inverse of one more than the length of a shortest walk
from the start (0 when out of reach) and that length; its combined score is the weighted sum of the two, plus, only for nodes
that are not vector matches, the weighted product of the edge weights along a shortest walk. -/
theorem C102_combined_score_partial (sim : List ℚ → List ℚ → ℚ) (sort : List HResult → List HResult)
    (hs : ∀ l, SortedFrom (fun a b => b.combined ≤ a.combined) l (sort l)) (s : State) (hu : Unique s)
    (index : Option (List String)) (q : HQuery) (out : List HResult) (ho : hybridSearch sim sort s index q = some out) :
    ∀ x ∈ out, x.vectorScore = (if q.vector = [] then 0 else sim q.vector x.node.vec) ∧
      (∀ d, x.distance = some d → Shortest s q.filter.edgeTypes q.start x.node.id d ∧ x.graphScore = 1 / ((d : ℚ) + 1)) ∧
      (x.distance = none → x.graphScore = 0 ∧ ¬ InReach s q x.node.id) ∧
      (Hit sim s index q x.node →
        x.combined = x.vectorScore * (normWeights q.weights).vector + x.graphScore * (normWeights q.weights).graph) ∧
      (¬ Hit sim s index q x.node → ∃ d w, x.distance = some d ∧ WWalk s q.filter.edgeTypes q.start d x.node.id w ∧
        x.combined = x.vectorScore * (normWeights q.weights).vector + x.graphScore * (normWeights q.weights).graph +
          w * (normWeights q.weights).edge) := by
  obtain ⟨dist, h1, h2, h3, h4⟩ := search_distances s hu q
  obtain ⟨p1, p2⟩ := pool_spec sim s hu index q (normWeights q.weights) dist h2
  have hb := bestOf_sort HResult.combined sort hs (hybridPool sim s q (normWeights q.weights) (vectorHits sim s index q) dist) q.topK
  rw [hybridSearch, h1] at ho
  have ho' := Option.some.inj ho
  rw [ho'] at hb
  intro x hx
  obtain ⟨h5, ⟨h6, h7⟩ | ⟨h6, g, hg, h7, h8⟩⟩ := (p2 x).1 (hb.mem hx)
  · have hv : q.vector ≠ [] := h6.1
    cases hd : distOf dist x.node.id with
    | none =>
      have e1 : x.vectorScore = sim q.vector x.node.vec := by rw [h7]; rfl
      have e2 : x.graphScore = 0 := by rw [h7]; simp [vectorResult, hd, proximity]
      have e3 : x.distance = none := by rw [h7]; simp [vectorResult, hd]
      have e4 : x.combined = x.vectorScore * (normWeights q.weights).vector + x.graphScore * (normWeights q.weights).graph := by
        rw [h7]; rfl
      refine ⟨by rw [e1, if_neg hv], by rw [e3]; simp, ?_, fun _ => e4, fun h => absurd h6 h⟩
      intro _
      refine ⟨e2, ?_⟩
      intro hr
      obtain ⟨g, hg, h8⟩ := (h4 _ h5).2 ⟨h6.2.1, hr⟩
      exact distOf_none hd g hg h8
    | some g =>
      obtain ⟨hg, hgn⟩ := distOf_some hd
      have e1 : x.vectorScore = sim q.vector x.node.vec := by rw [h7]; rfl
      have e2 : x.graphScore = 1 / ((g.dist : ℚ) + 1) := by rw [h7]; simp [vectorResult, hd, proximity]
      have e3 : x.distance = some g.dist := by rw [h7]; simp [vectorResult, hd]
      have e4 : x.combined = x.vectorScore * (normWeights q.weights).vector + x.graphScore * (normWeights q.weights).graph := by
        rw [h7]; rfl
      refine ⟨by rw [e1, if_neg hv], ?_, by rw [e3]; simp, fun _ => e4, fun h => absurd h6 h⟩
      intro d hd'
      rw [e3] at hd'
      obtain rfl := Option.some.inj hd'
      exact ⟨hgn ▸ (h3 g hg).1, e2⟩
  · have e1 : x.vectorScore = if q.vector = [] then 0 else sim q.vector x.node.vec := by rw [h8]; rfl
    have e2 : x.graphScore = 1 / ((g.dist : ℚ) + 1) := by rw [h8]; rfl
    have e3 : x.distance = some g.dist := by rw [h8]; rfl
    have e4 : x.combined = x.vectorScore * (normWeights q.weights).vector + x.graphScore * (normWeights q.weights).graph +
        g.weight * (normWeights q.weights).edge := by rw [h8]; rfl
    refine ⟨e1, ?_, by rw [e3]; simp, fun h => absurd h h6, fun _ => ⟨g.dist, g.weight, e3, h7 ▸ (h3 g hg).2.1, e4⟩⟩
    intro d hd'
    rw [e3] at hd'
    obtain rfl := Option.some.inj hd'
    exact ⟨h7 ▸ (h3 g hg).1, e2⟩

def pair : State := ⟨[typed "a" "", typed "b" ""], [link "1" "a" "b"], none⟩
def query (t : ℚ) : HQuery := ⟨[1], "a", ⟨[], [], 0⟩, 0, t, ⟨5 / 10, 3 / 10, 2 / 10⟩⟩

/-- C102: the edge weight counts only for nodes that fail the similarity threshold, so raising the threshold raises the score
of the same node for the same query vector. -/
theorem C102_combined_score_violated :
    (hybridSearch (fun _ _ => 1 / 2) (insertSort HResult.combined) pair none (query 0)).map (List.map HResult.combined) =
      some [11 / 20, 4 / 10] ∧
    (hybridSearch (fun _ _ => 1 / 2) (insertSort HResult.combined) pair none (query (9 / 10))).map (List.map HResult.combined) =
      some [3 / 4, 6 / 10] := by
  constructor <;> decide +kernel

example : Unique pair ∧ Hit (fun _ _ => 1 / 2) pair none (query 0) (typed "b" "") ∧ InReach pair (query 0) "b" := by
  refine ⟨by unfold Unique; decide +kernel, ?_, ?_⟩
  · refine ⟨by decide, Or.inl rfl, ?_, Or.inl rfl⟩
    rintro ⟨-, ids, h, -⟩
    simp at h
  · exact ⟨by decide, 1, _, by decide, .snoc (link "1" "a" "b") .nil (by simp [pair]) rfl (Or.inl rfl)⟩

/-! ### C103 -/

/-- C103: `SimilarityInGraph` answers with the best `TopK` of exactly the other stored nodes that are similar enough, each
once, and fails for an unknown node. -/
theorem C103_similarity_in_graph (sim : List ℚ → List ℚ → ℚ) (sort : List HResult → List HResult)
    (hs : ∀ l, SortedFrom (fun a b => b.vectorScore ≤ a.vectorScore) l (sort l)) (s : State) (hu : Unique s) (n : Node)
    (hn : n ∈ s.nodes) (topK : Int) (threshold : ℚ) :
    ∃ out pool, similarityInGraph sim sort s n.id topK threshold = some out ∧ BestOf HResult.vectorScore pool topK out ∧
      (pool.map (fun x => x.node.id)).Nodup ∧
      ∀ m, (∃ x ∈ pool, x.node = m ∧ x.vectorScore = sim n.vec m.vec ∧ x.combined = sim n.vec m.vec) ↔
        m ∈ s.nodes ∧ m.id ≠ n.id ∧ (threshold = 0 ∨ threshold ≤ sim n.vec m.vec) := by
  have hg := (getNode_mem s hu n.id n).2 ⟨hn, rfl⟩
  refine ⟨_, _, by rw [similarityInGraph, hg], bestOf_sort _ _ hs _ _, ?_, ?_⟩
  · rw [List.map_map]
    have : ((((s.nodes.filter (fun m => decide (m.id ≠ n.id))).filter
        (fun m => decide (threshold = 0 ∨ sim n.vec m.vec ≥ threshold))).map
          ((fun x : HResult => x.node.id) ∘ fun m => plainResult (sim n.vec m.vec) m))).Sublist (s.nodes.map Node.id) :=
      (List.filter_sublist.trans List.filter_sublist).map Node.id
    exact hu.1.sublist this
  · intro m
    simp only [List.mem_map, List.mem_filter, decide_eq_true_eq, ge_iff_le]
    constructor
    · rintro ⟨x, ⟨m', ⟨⟨h1, h2⟩, h3⟩, rfl⟩, rfl, -⟩
      exact ⟨h1, h2, h3⟩
    · rintro ⟨h1, h2, h3⟩
      exact ⟨_, ⟨m, ⟨⟨h1, h2⟩, h3⟩, rfl⟩, rfl, rfl, rfl⟩

/-- C103: similarity to a node that is not stored is an error, not an empty answer. -/
theorem C103_unknown_node (sim : List ℚ → List ℚ → ℚ) (sort : List HResult → List HResult) (s : State) (i : String)
    (h : ∀ n ∈ s.nodes, n.id ≠ i) (topK : Int) (threshold : ℚ) : similarityInGraph sim sort s i topK threshold = none := by
  have : getNode s i = none := by
    unfold getNode
    rw [List.find?_eq_none]
    intro n hn
    simpa using h n hn
  rw [similarityInGraph, this]

example : (similarityInGraph (fun _ _ => 1) (insertSort HResult.vectorScore) small "a" 1 0).map (List.map (fun x => x.node.id)) =
    some ["b"] := by decide +kernel

/-! ### C104 -/

/-- C104: without a limit, `GraphVectorSearch` ranks by similarity exactly the start node and its neighbourhood. -/
theorem C104_neighbourhood_search_partial (sim : List ℚ → List ℚ → ℚ) (sort : List HResult → List HResult)
    (hs : ∀ l, SortedFrom (fun a b => b.vectorScore ≤ a.vectorScore) l (sort l)) (s : State) (hu : Unique s) (start : String)
    (v : List ℚ) (o : Opts) (hl : o.limit ≤ 0) (hd : GoodDir o.direction) :
    ∃ out, graphVectorSearch sim sort s start v o = some (some out) ∧
      out.Pairwise (fun a b => b.vectorScore ≤ a.vectorScore) ∧ (out.map (fun x => x.node.id)).Nodup ∧
      ∀ n, (∃ x ∈ out, x.node = n ∧ x.vectorScore = sim v n.vec) ↔ n ∈ s.nodes ∧
        (n.id = start ∨ ((o.nodeTypes = [] ∨ n.ntype ∈ o.nodeTypes) ∧ Within (Allowed s o) (effDepth o) start n.id)) := by
  obtain ⟨r, h1, h2, h3⟩ := C42_neighbors_exact_partial s hu start o hl hd
  refine ⟨_, by rw [graphVectorSearch, h1]; rfl, ?_⟩
  simp only
  rw [if_neg (by omega)]
  obtain ⟨hp, hord⟩ := hs (((getNode s start).toList ++ r).map (fun n => plainResult (sim v n.vec) n))
  have hmem : ∀ n, n ∈ (getNode s start).toList ++ r ↔ n ∈ s.nodes ∧
      (n.id = start ∨ ((o.nodeTypes = [] ∨ n.ntype ∈ o.nodeTypes) ∧ Within (Allowed s o) (effDepth o) start n.id)) := by
    intro n
    rw [List.mem_append, Option.mem_toList, getNode_mem s hu, h3]
    constructor
    · rintro (⟨h4, h5⟩ | ⟨h4, -, h5⟩)
      · exact ⟨h4, Or.inl h5⟩
      · exact ⟨h4, Or.inr h5⟩
    · rintro ⟨h4, h5⟩
      by_cases hi : n.id = start
      · exact Or.inl ⟨h4, hi⟩
      · exact Or.inr ⟨h4, hi, h5.resolve_left hi⟩
  refine ⟨hord, ?_, ?_⟩
  · refine (hp.map (fun x => x.node.id)).nodup_iff.2 ?_
    rw [List.map_map]
    change (((getNode s start).toList ++ r).map Node.id).Nodup
    rw [List.map_append, List.nodup_append]
    refine ⟨?_, h2, ?_⟩
    · cases getNode s start <;> simp
    · intro a ha b hb hab
      simp only [List.mem_map, Option.mem_toList, Option.mem_def] at ha hb
      obtain ⟨x, hx, rfl⟩ := ha
      obtain ⟨y, hy, rfl⟩ := hb
      have h4 := ((getNode_mem s hu start x).1 hx).2
      exact ((h3 y).1 hy).2.1 (hab.symm.trans h4)
  · intro n
    rw [← hmem]
    constructor
    · rintro ⟨x, hx, rfl, -⟩
      have := hp.mem_iff.1 hx
      rw [List.mem_map] at this
      obtain ⟨m, hm, rfl⟩ := this
      exact hm
    · intro hn
      exact ⟨plainResult (sim v n.vec) n, hp.mem_iff.2 (List.mem_map_of_mem hn), rfl, rfl⟩

/-- C104: with a limit and no node types, the results are the best `limit` of the start node and the first `limit` nodes met walking the graph
from it. Missing: a better node of the neighbourhood met later is left out. -/
theorem C104_limited_partial (sim : List ℚ → List ℚ → ℚ) (sort : List HResult → List HResult)
    (hs : ∀ l, SortedFrom (fun a b => b.vectorScore ≤ a.vectorScore) l (sort l)) (s : State) (hi : Inv s) (start : String)
    (v : List ℚ) (o : Opts) (hl : 0 < o.limit) (hd : GoodDir o.direction) (ht : o.nodeTypes = []) :
    ∃ all out, neighbors s start o.free = some (some all) ∧ graphVectorSearch sim sort s start v o = some (some out) ∧
      IsTopK (fun x => x.vectorScore)
        ((s.nodes.filter (fun n => decide (n.id = start)) ++ all.take o.limit.toNat).map (fun n => plainResult (sim v n.vec) n))
        o.limit.toNat out := by
  obtain ⟨all, h1, h2, -⟩ := C42_limit_counts_partial s hi start o hl hd ht
  refine ⟨all, _, h1, by rw [graphVectorSearch, h2]; rfl, ?_⟩
  have hf : ∀ l : List Node, (l.map Node.id).Nodup →
      l.filter (fun n => decide (n.id = start)) = (l.find? (fun n => decide (n.id = start))).toList := by
    intro l hn
    induction l with
    | nil => rfl
    | cons x l ih =>
      rw [List.map_cons, List.nodup_cons] at hn
      by_cases hx : x.id = start
      · rw [List.filter_cons_of_pos (by simpa using hx), List.find?_cons_of_pos (by simpa using hx)]
        have : l.filter (fun n => decide (n.id = start)) = [] := by
          rw [List.filter_eq_nil_iff]
          intro y hy hyx
          exact hn.1 (List.mem_map.2 ⟨y, hy, (of_decide_eq_true hyx).trans hx.symm⟩)
        rw [this]; rfl
      · rw [List.filter_cons_of_neg (by simpa using hx), List.find?_cons_of_neg (by simpa using hx), ih hn.2]
  rw [hf _ hi.2.1]
  simp only
  rw [if_pos hl]
  exact isTopK_take _ _ _ _ (hs _)

/-- C104: with a limit the neighbourhood is cut before it is ranked, so the best neighbour can be left out. -/
theorem C104_limit_violated :
    (graphVectorSearch (fun a b => if a = b then 1 else 0) (insertSort HResult.vectorScore)
      ⟨[⟨"a", [0], "", "", ""⟩, ⟨"b", [1], "", "", ""⟩, ⟨"c", [2], "", "", ""⟩], [link "1" "a" "b", link "2" "a" "c"], none⟩
      "a" [2] ⟨1, [], [], "out", 1⟩).map (Option.map (List.map (fun x => x.node.id))) = some (some ["a"]) := by decide +kernel

example : (graphVectorSearch (fun a b => if a = b then 1 else 0) (insertSort HResult.vectorScore)
      ⟨[⟨"a", [0], "", "", ""⟩, ⟨"b", [1], "", "", ""⟩, ⟨"c", [2], "", "", ""⟩], [link "1" "a" "b", link "2" "a" "c"], none⟩
      "a" [2] ⟨1, [], [], "out", 0⟩).map (Option.map (List.map (fun x => x.node.id))) = some (some ["c", "a", "b"]) := by decide +kernel

example : Inv (⟨[⟨"a", [0], "", "", ""⟩, ⟨"b", [1], "", "", ""⟩, ⟨"c", [2], "", "", ""⟩], [link "1" "a" "b", link "2" "a" "c"], none⟩ : State) := by
  unfold Inv Closed Unique; decide +kernel

end Verif.Graph
