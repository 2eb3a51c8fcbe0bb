import Verif.Thm.BankGraph
import Verif.Thm.KMeans
import Verif.Thm.RagSearch
import Verif.Thm.GraphTraverse
import Verif.Thm.GraphToolsRead

/-!
Details stated outright: the node of an entity and of a bank and what a restart makes of it, the first centroids of training, the entities
next to a chunk.
-/
namespace Verif.BankGraph
open Verif.Graph Verif.Hindsight

/-- **C233.** The node that retaining a memory about an entity writes: the entity's name as id and as content, the type `entity`, three
zeros, no properties; it is no bank for the next start. -/
theorem C233_entity_node (s : State) (es : List String) (i : String) (hi : i ∈ es) (h0 : i ≠ "") :
    ∃ n, getNode (retain s es).g i = some n ∧ n.id = i ∧ n.content = i ∧ n.ntype = "entity" ∧ n.vec = [0, 0, 0] ∧ n.props = "" :=
  ⟨_, C233_retain_violated s es i hi h0, rfl, rfl, rfl, rfl, rfl⟩

/-- **C233.** The node of a new bank: its id, its name as content, the type `bank`, the given properties, and a vector of the dimension of
the collection (1536 when there is none) whose first coordinate is 0.0001 and whose others are 0. -/
theorem C233_bank_node (d : Nat) (p : String) (s : State) (b : Bank) (h0 : b.id ≠ "") (hd : b.disposition ≠ none)
    (hb : findBank s b.id = none) :
    ∃ n, getNode (createBank d p s b).1.g b.id = some n ∧ n.content = b.name ∧ n.ntype = "bank" ∧ n.props = p ∧
      n.vec.length = (if d = 0 then 1536 else d) ∧ n.vec[0]? = some (1 / 10000) ∧ ∀ j x, 0 < j → n.vec[j]? = some x → x = 0 := by
  refine ⟨_, (C233_create_violated d p s b h0 hd hb).2, rfl, rfl, rfl, ?_, rfl, ?_⟩
  · simp only [bankNode, List.length_cons, List.length_replicate]
    split <;> split <;> omega
  · intro j x hj hx
    obtain ⟨k, rfl⟩ := Nat.exists_eq_succ_of_ne_zero (by omega : j ≠ 0)
    simp only [bankNode, Nat.succ_eq_add_one, List.getElem?_cons_succ] at hx
    exact List.eq_of_mem_replicate (List.mem_of_getElem? hx)

/-- **C233.** After a restart a bank that was created comes back under its id with its name, which is also its description now; the
background and the disposition are lost. -/
theorem C233_bank_back (d : Nat) (p : String) (s : State) (b : Bank) (h0 : b.id ≠ "") (hd : b.disposition ≠ none)
    (hb : findBank s b.id = none) :
    (getBank (restart (createBank d p s b).1) b.id).2 = some ⟨b.id, b.name, b.name, "", none⟩ := by
  have h : (createBank d p s b).1.g.nodes.find? (fun n => decide (n.id = b.id)) = some (bankNode d p b) :=
    (C233_create_violated d p s b h0 hd hb).2
  have hf : findBank (restart (createBank d p s b).1) b.id = some ⟨b.id, b.name, b.name, "", none⟩ := by
    unfold findBank restart
    rw [List.find?_map]
    have key : ∀ l : List Graph.Node, l.find? (fun n => decide (n.id = b.id)) = some (bankNode d p b) →
        (l.filter (fun n => decide (n.ntype = "bank"))).find? (fun n => decide (n.id = b.id)) = some (bankNode d p b) := by
      intro l
      induction l with
      | nil => intro h; cases h
      | cons x l ih =>
        intro h
        by_cases hx : x.id = b.id
        · simp only [List.find?_cons, hx, decide_true, Option.some.injEq] at h
          subst h
          simp [bankNode]
        · simp only [List.find?_cons, hx, decide_false] at h
          by_cases ht : x.ntype = "bank"
          · simp only [List.filter_cons, ht, decide_true, if_true, List.find?_cons, hx, decide_false]
            exact ih h
          · simp only [List.filter_cons, ht, decide_false, Bool.false_eq_true, if_false]
            exact ih h
    have := key _ h
    have e : ((fun b' : Bank => decide (b'.id = b.id)) ∘ toBank) = fun n : Graph.Node => decide (n.id = b.id) := rfl
    rw [e, this]
    rfl
  simp [getBank, hf]

end Verif.BankGraph

namespace Verif.Train
open Verif.Base

theorem fit_length (d : Nat) (v : Vec) : (fit d v).length = d := by simp [fit]; omega

theorem fit_co (d : Nat) (v : Vec) (j : Nat) (hj : j < d) : co (fit d v) j = co v j := by
  unfold co fit
  simp only [List.getD_eq_getElem?_getD]
  by_cases h : j < v.length
  · rw [List.getElem?_append_left (by simp; omega), List.getElem?_take_of_lt hj]
  · rw [List.getElem?_append_right (by simp; omega), List.getElem?_eq_none (by omega : v.length ≤ j)]
    rw [List.getElem?_replicate]
    split <;> rfl

theorem sqDist_none : ∀ (a b : Vec), b.length < a.length → sqDist a b = none
  | [], _, h => by simp at h
  | _ :: _, [], _ => rfl
  | x :: xs, y :: ys, h => by
    rw [sqDist, sqDist_none xs ys (by simpa using h)]; rfl

theorem allSome_none {α β : Type} (f : α → Option β) : ∀ l : List α, (∃ x ∈ l, f x = none) → allSome f l = none
  | [], h => by simp at h
  | x :: xs, h => by
    unfold allSome
    cases hx : f x with
    | none => rfl
    | some y =>
      obtain ⟨z, hz, e⟩ := h
      rcases List.mem_cons.1 hz with rfl | hz
      · rw [hx] at e; cases e
      · simp only [allSome_none f xs ⟨z, hz, e⟩, Option.map_none]

/-- C168 is violated by every collection in which some vector is longer than the first: training to two or more centroids panics, whatever
the random numbers are. -/
theorem C168_longer_violated (R : Rand) (v0 : Vec) (vs : List Vec) (k n : Nat) (hk : 2 ≤ k) (h : ∃ v ∈ vs, v0.length < v.length) :
    kMeans R (v0 :: vs) k n = none := by
  obtain ⟨m, rfl⟩ : ∃ m, k = m + 2 := ⟨k - 2, by omega⟩
  obtain ⟨v, hv, hl⟩ := h
  unfold kMeans
  simp only [Nat.add_eq_zero_iff, OfNat.ofNat_ne_zero, and_false, if_false, Nat.add_one_sub_one, Nat.reduceSubDiff]
  have hs : ∀ c : Vec, c.length = v0.length → seeds R v0.length (v0 :: vs) (m + 1) [c] = none := by
    intro c hc
    unfold seeds
    have : allSome (weight [c]) (v0 :: vs) = none := by
      refine allSome_none _ _ ⟨v, List.mem_cons_of_mem _ hv, ?_⟩
      unfold weight nearestFrom
      rw [sqDist_none v c (by omega)]
    rw [this]
  show (match seeds R v0.length (v0 :: vs) (m + 1) _ with | none => none | some cs => _) = none
  rw [hs _ (fit_length _ _)]

/-- C168 is violated by every collection in which some vector is shorter than the first: no round of averaging is ever finished. Training
panics or its answer is the choice of first centroids. -/
theorem C168_shorter_violated (R : Rand) (v0 : Vec) (vs : List Vec) (k n : Nat) (h : ∃ v ∈ vs, v.length < v0.length) :
    kMeans R (v0 :: vs) k n = none ∨ kMeans R (v0 :: vs) k n = kMeans R (v0 :: vs) k 0 := by
  obtain ⟨v, hv, hl⟩ := h
  have hu : ∀ as, update v0.length k (v0 :: vs) as = none := by
    intro as
    unfold update
    rw [if_pos]
    exact List.any_eq_true.2 ⟨v, List.mem_cons_of_mem _ hv, by simpa using hl⟩
  have hr : ∀ n cs as, rounds v0.length k (v0 :: vs) n cs as = none ∨ rounds v0.length k (v0 :: vs) n cs as = some cs := by
    intro n cs as
    cases n with
    | zero => exact Or.inr rfl
    | succ n =>
      unfold rounds
      split
      · exact Or.inl rfl
      split
      · exact Or.inr rfl
      · rw [hu]
        exact Or.inl rfl
  unfold kMeans
  simp only
  split
  · exact Or.inl rfl
  split
  · exact Or.inl rfl
  · exact hr _ _ _

/-- The answer has the length of the first vector and its coordinates are those of a stored vector; a coordinate that the stored vector does
not have is 0. -/
def Seed (d : Nat) (vs : List Vec) (c : Vec) : Prop := c.length = d ∧ ∃ v ∈ vs, ∀ j, j < d → co c j = co v j

theorem pick_lt (r : ℚ) : ∀ (ds : List ℚ) (s : ℚ) (i j : Nat), pick r ds s i = some j → j < i + ds.length
  | [], _, _, _, h => by cases h
  | d :: ds, s, i, j, h => by
    unfold pick at h
    split at h
    · cases h; simp
    · have := pick_lt r ds (s + d) (i + 1) j h
      simp only [List.length_cons]; omega

theorem allSome_length {α β : Type} (f : α → Option β) : ∀ (l : List α) (r : List β), allSome f l = some r → r.length = l.length
  | [], r, h => by cases h; rfl
  | x :: xs, r, h => by
    unfold allSome at h
    split at h
    · cases h
    · rw [Option.map_eq_some_iff] at h
      obtain ⟨t, ht, rfl⟩ := h
      simp [allSome_length f xs t ht]

theorem seeds_are (R : Rand) (d : Nat) (vs : List Vec) : ∀ (m : Nat) (cs out : List Vec), (∀ c ∈ cs, c = [] ∨ Seed d vs c) →
    seeds R d vs m cs = some out → ∀ c ∈ out, c = [] ∨ Seed d vs c := by
  intro m
  induction m with
  | zero => intro cs out h e; simp only [seeds, Option.some.injEq] at e; subst e; exact h
  | succ m ih =>
    intro cs out h e
    unfold seeds at e
    split at e
    · cases e
    · rename_i ws hw
      refine ih _ out ?_ e
      intro c hc
      rcases List.mem_append.1 hc with hc | hc
      · exact h c hc
      · rw [List.mem_singleton] at hc
        split at hc
        · exact Or.inl hc
        · rename_i j hj
          right
          subst hc
          refine ⟨fit_length _ _, ?_⟩
          have hlt := pick_lt _ _ _ _ _ hj
          rw [allSome_length _ _ _ hw, Nat.zero_add] at hlt
          refine ⟨vs[j], List.getElem_mem _, fun i hi => ?_⟩
          rw [fit_co d _ i hi, List.getElem?_eq_getElem hlt]
          rfl

/-- **C168.** Without a round of averaging, each centroid has the length of the first vector and the coordinates of a stored vector, with
zeros where that vector is too short; a centroid that was not chosen is empty. -/
theorem C168_first (R : Rand) (v0 : Vec) (vs out : List Vec) (k : Nat) (hR : R.first < (v0 :: vs).length)
    (h : kMeans R (v0 :: vs) k 0 = some out) : ∀ c ∈ out, c = [] ∨ Seed v0.length (v0 :: vs) c := by
  unfold kMeans at h
  simp only at h
  split at h
  · cases h
  split at h
  · cases h
  · rename_i cs hs
    simp only [rounds, Option.some.injEq] at h
    subst h
    refine seeds_are R _ _ _ _ _ ?_ hs
    intro c hc
    rw [List.mem_singleton] at hc
    subst hc
    refine Or.inr ⟨fit_length _ _, (v0 :: vs)[R.first], List.getElem_mem _, fun j hj => ?_⟩
    rw [fit_co _ _ j hj, List.getElem?_eq_getElem hR]
    rfl

/-- The first vector has two coordinates and the chosen one has one. -/
example : kMeans ⟨2, fun _ => 1⟩ [[1, 2], [3, 4], [3]] 1 0 = some [[3, 0]] := by decide +kernel
example : kMeans ⟨2, fun _ => 1⟩ [[1, 2], [3, 4], [3]] 2 20 = none := by decide +kernel
example : ∃ v ∈ [[3, 4], [3]], (v : Vec).length < ([1, 2] : Vec).length := by decide
example : ∃ v ∈ [[3, 4], [1, 2]], ([3] : Vec).length < (v : Vec).length := by decide

end Verif.Train

namespace Verif.RagSearch
open Verif.Base Verif.Rag Verif.Spec

/-- **C135.** The entities next to a chunk, as the stored graph gives them: each is the content of a stored node of type `entity`. -/
theorem C135_next (docOf : String → Text) (names : List Text → List Text) (hn : ∀ l x, x ∈ names l → x ∈ l) (cap : Int) (d : QueryOpts)
    (g : Verif.Graph.State) (id : Text) (l : List Text) (h : (worldOf docOf names cap d g).ents id = some l) :
    ∀ x ∈ l, ∃ n ∈ g.nodes, n.ntype = "entity" ∧ toText n.content = x := by
  unfold worldOf at h
  simp only [Option.map_eq_some_iff] at h
  obtain ⟨ns, h, rfl⟩ := h
  intro x hx
  obtain ⟨n, hm, rfl⟩ := List.mem_map.1 (hn _ _ hx)
  have h : Verif.Graph.neighbors g (ofText id) ⟨1, [], ["entity"], "both", cap⟩ = some (some ns) := by
    cases e : Verif.Graph.neighbors g (ofText id) ⟨1, [], ["entity"], "both", cap⟩ with
    | none => rw [e] at h; cases h
    | some y => rw [e] at h; simp only [Option.join_some] at h; rw [h]
  unfold Verif.Graph.neighbors at h
  rw [Option.map_eq_some_iff] at h
  obtain ⟨r, -, h⟩ := h
  rw [Option.map_eq_some_iff] at h
  obtain ⟨ids, -, rfl⟩ := h
  unfold Verif.Graph.loadNeighbors at hm
  obtain ⟨h1, h2⟩ := List.mem_filter.1 hm
  obtain ⟨i, -, hi⟩ := List.mem_filterMap.1 h1
  exact ⟨n, List.mem_of_find?_eq_some hi, by simpa using h2, rfl⟩

/-- **C135.** When a chunk has at most `cap` neighbours, the entities next to it are exactly the contents of the entity nodes that an edge
of any type joins to it, in either direction. -/
theorem C135_next_all (docOf : String → Text) (names : List Text → List Text) (hn : ∀ l x, x ∈ names l ↔ x ∈ l) (cap : Int) (hc : 0 < cap)
    (d : QueryOpts) (g : Verif.Graph.State) (hu : Verif.Graph.Unique g) (id : Text)
    (hfew : ∀ L : List String, L.Nodup → (∀ v ∈ L, v ≠ ofText id ∧ ∃ e ∈ g.edges, (e.src = ofText id ∧ e.dst = v) ∨ (e.src = v ∧ e.dst = ofText id)) →
      (L.length : Int) ≤ cap) :
    ∃ l, (worldOf docOf names cap d g).ents id = some l ∧ ∀ x, x ∈ l ↔ ∃ n ∈ g.nodes, n.ntype = "entity" ∧ n.id ≠ ofText id ∧
      toText n.content = x ∧ ∃ e ∈ g.edges, (e.src = ofText id ∧ e.dst = n.id) ∨ (e.src = n.id ∧ e.dst = ofText id) := by
  have hd : Verif.Graph.GoodDir "both" := by simp [Verif.Graph.GoodDir]
  have hw : ∀ lim v, v ≠ ofText id → (Within (Verif.Graph.Allowed g ⟨1, [], ["entity"], "both", lim⟩) 1 (ofText id) v ↔
      ∃ e ∈ g.edges, (e.src = ofText id ∧ e.dst = v) ∨ (e.src = v ∧ e.dst = ofText id)) := by
    intro lim v hv
    constructor
    · rintro ⟨n, hn1, w⟩
      cases w with
      | nil => exact absurd rfl hv
      | @snoc m b _ w hr =>
        obtain rfl : m = 0 := by omega
        cases w
        obtain ⟨e, he, -, h | h⟩ := hr
        · exact ⟨e, he, Or.inl ⟨h.2.1, h.2.2⟩⟩
        · exact ⟨e, he, Or.inr ⟨h.2.2, h.2.1⟩⟩
    · rintro ⟨e, he, h⟩
      refine ⟨1, le_refl _, Walk.snoc Walk.nil ⟨e, he, Or.inl rfl, ?_⟩⟩
      rcases h with h | h
      · exact Or.inl ⟨by simp, h.1, h.2⟩
      · exact Or.inr ⟨by simp, h.2, h.1⟩
  obtain ⟨r, h1, -, h3⟩ := Verif.Graph.C42_neighbors_exact_partial g hu (ofText id) ⟨1, [], ["entity"], "both", 0⟩ (le_refl _) hd
  have h2 := Verif.GraphTools.neighbors_roomy g (ofText id) ⟨1, [], ["entity"], "both", cap⟩ hc hd (by
    intro L hL hall
    exact hfew L hL (fun v hv => ⟨(hall v hv).1, (hw cap v (hall v hv).1).1 (hall v hv).2⟩))
  refine ⟨names (r.map (fun n => toText n.content)), ?_, ?_⟩
  · show (Option.join (Verif.Graph.neighbors g (ofText id) ⟨1, [], ["entity"], "both", cap⟩)).map _ = _
    rw [h2]
    show (Option.join (Verif.Graph.neighbors g (ofText id) ⟨1, [], ["entity"], "both", 0⟩)).map _ = _
    rw [h1]
    rfl
  · intro x
    rw [hn, List.mem_map]
    constructor
    · rintro ⟨n, hm, rfl⟩
      obtain ⟨a, b, c, e⟩ := (h3 n).1 hm
      exact ⟨n, a, by simpa using c, b, rfl, (hw 0 n.id b).1 e⟩
    · rintro ⟨n, a, c, b, rfl, e⟩
      exact ⟨n, (h3 n).2 ⟨a, b, by simpa using c, (hw 0 n.id b).2 e⟩, rfl⟩

end Verif.RagSearch

namespace Verif.BankGraph
open Verif.Hindsight

/-- The demo state meets the hypotheses: no bank `b2` is known. -/
example : findBank (run demoCalls) "b2" = none ∧ ((⟨"b2", "B", "", "", some ⟨3, 3, 3⟩⟩ : Bank).disposition ≠ none) := by decide +kernel
example : (Graph.getNode (retain (run demoCalls) ["p1"]).g "p1").map Graph.Node.ntype = some "entity" := by decide +kernel

end Verif.BankGraph

namespace Verif.RagSearch
open Verif.Base Verif.Rag Verif.Spec

/-- The entities next to a chunk of the shared graph. -/
example : worldS.ents "chunk:a:000".toList = some ["Acme".toList] := by decide +kernel

end Verif.RagSearch
