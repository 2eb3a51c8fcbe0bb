import Verif.Thm.GraphTools

/-!
Properties of the reading graph tools: C143 to C146.
-/
namespace Verif.GraphTools
open Verif.Base Verif.Graph Verif.Spec

/-! ### C143 -/

/-- `Neighbors` with a limit at least the number of nodes reached answers as without a limit, also when it filters by type. -/
theorem neighbors_roomy (s : State) (id : String) (o : Opts) (hl : 0 < o.limit) (hd : GoodDir o.direction)
    (hfew : ∀ L : List String, L.Nodup → (∀ v ∈ L, v ≠ id ∧ Within (Allowed s o) (effDepth o) id v) → (L.length : Int) ≤ o.limit) :
    neighbors s id o = neighbors s id o.free := by
  obtain ⟨ids, h1, h2, h3, h4⟩ := unlimited_ids s id o.free (by simp [Opts.free]) hd
  have h5 := loop_limit s o hl _ _ ids rfl (by simpa using hl) h1
  have h6 := hfew ids h2 (fun v hv => (h4 v).1 hv)
  rw [List.take_of_length_le (by omega)] at h5
  unfold neighbors
  rw [h5, h1]
  rfl

/-- C143: an entity of the type "entity" that shares a stored edge with a chunk is listed among the chunk's entities, if no more than 32 nodes
are next to the chunk; and only such entities are listed. Missing: entities of other types (see the violation) and chunks with more
neighbours. -/
theorem C143_listed_partial (s : State) (h : Unique s) (chunk : String)
    (hfew : ∀ L : List String, L.Nodup → (∀ v ∈ L, v ≠ chunk ∧ ∃ e ∈ s.edges, (e.src = chunk ∧ e.dst = v) ∨ (e.dst = chunk ∧ e.src = v)) →
      L.length ≤ 32) :
    ∃ l, chunkEntities s chunk = some l ∧ ∀ x, x ∈ l ↔ ∃ n ∈ s.nodes, n.id ≠ chunk ∧ n.ntype = "entity" ∧ n.content = x ∧
      ∃ e ∈ s.edges, (e.src = chunk ∧ e.dst = n.id) ∨ (e.dst = chunk ∧ e.src = n.id) := by
  set o : Opts := ⟨1, [], ["entity"], "both", 32⟩ with ho
  have hadj : ∀ v, v ≠ chunk → (Within (Allowed s o) (effDepth o) chunk v ↔
      ∃ e ∈ s.edges, (e.src = chunk ∧ e.dst = v) ∨ (e.dst = chunk ∧ e.src = v)) := by
    intro v hv
    have hd1 : effDepth o = 1 := by rw [ho]; decide
    rw [hd1]
    constructor
    · rintro ⟨k, hk, w⟩
      cases w with
      | nil => exact absurd rfl hv
      | snoc w hs =>
        rename_i m b
        have hm : m = 0 := by omega
        subst hm
        cases w
        obtain ⟨e, he, -, hdir⟩ := hs
        refine ⟨e, he, ?_⟩
        rcases hdir with g | g
        · exact Or.inl g.2
        · exact Or.inr g.2
    · rintro ⟨e, he, hdir⟩
      refine ⟨1, le_rfl, Walk.snoc Walk.nil ⟨e, he, Or.inl rfl, ?_⟩⟩
      rcases hdir with g | g
      · exact Or.inl ⟨by rw [ho]; decide, g⟩
      · exact Or.inr ⟨by rw [ho]; decide, g⟩
  have hgd : GoodDir o.direction := Or.inr (Or.inr (Or.inr rfl))
  have hroom : neighbors s chunk o = neighbors s chunk o.free := by
    refine neighbors_roomy s chunk o (by rw [ho]; decide) hgd ?_
    intro L hL hw
    have := hfew L hL (fun v hv => ⟨(hw v hv).1, (hadj v (hw v hv).1).1 (hw v hv).2⟩)
    rw [ho]; simp only; omega
  obtain ⟨r, h1, -, h3⟩ := C42_neighbors_exact_partial s h chunk o.free (by simp [Opts.free]) hgd
  refine ⟨r.map Node.content, ?_, ?_⟩
  · unfold chunkEntities
    rw [← ho, hroom, h1]; rfl
  · intro x
    rw [List.mem_map]
    constructor
    · rintro ⟨n, hn, rfl⟩
      obtain ⟨g1, g2, g3, g4⟩ := (h3 n).1 hn
      refine ⟨n, g1, g2, ?_, rfl, (hadj n.id g2).1 g4⟩
      rcases g3 with g3 | g3
      · simp [ho, Opts.free] at g3
      · simpa [ho, Opts.free] using g3
    · rintro ⟨n, g1, g2, g3, rfl, g4⟩
      refine ⟨n, (h3 n).2 ⟨g1, g2, Or.inr ?_, (hadj n.id g2).2 g4⟩, rfl⟩
      simp [ho, Opts.free, g3]

/-- C143 is violated: whatever is stored, an entity of a type other than "entity" is never listed among the entities of a chunk, unless
another node of type "entity" has the same text. -/
theorem C143_other_types_violated (s : State) (chunk : String) (l : List String) (h : chunkEntities s chunk = some l) :
    ∀ x ∈ l, ∃ n ∈ s.nodes, n.ntype = "entity" ∧ n.content = x := by
  unfold chunkEntities neighbors at h
  cases hr : neighborLoop s ⟨1, [], ["entity"], "both", 32⟩ (fuelA s) ⟨[chunk], [], [(chunk, 0)], false⟩ with
  | none => rw [hr] at h; simp at h
  | some r =>
    cases r with
    | none => rw [hr] at h; simp at h
    | some ids =>
      rw [hr] at h
      simp only [Option.map_some, Option.join_some, Option.some.injEq] at h
      subst h
      intro x hx
      obtain ⟨n, hn, rfl⟩ := List.mem_map.1 hx
      unfold loadNeighbors at hn
      rw [List.mem_filter, decide_eq_true_eq, List.mem_filterMap] at hn
      obtain ⟨⟨i, -, hi⟩, h3⟩ := hn
      refine ⟨n, List.mem_of_find?_eq_some hi, ?_, rfl⟩
      rcases h3 with h3 | h3
      · cases h3
      · simpa using h3

/-- The person recorded as mentioned in the chunk is missing from its entities; the one recorded without a type is there. -/
theorem C143_person_violated :
    chunkEntities (upsertEntities uni0 vec0 true true true withChunk
      [ent "Ada" "person" ["chunk:d:000"], ent "Bob" "" ["chunk:d:000"]]).1 "chunk:d:000" = some ["Bob"] := by
  decide +kernel

/-! ### C144 -/

/-- The chunks found for one name. -/
def hits (u : Uni) (s : State) (h limit : Int) (name : String) : List String :=
  ((neighbors s (resolve u "" name) ⟨h, [], ["chunk"], "both", limit⟩).join.getD []).map Node.id

def count (u : Uni) (s : State) (h limit : Int) (names : List String) (i : String) : Nat :=
  names.countP (fun n => decide (i ∈ hits u s h limit n))

theorem neighbors_ids_nodup (s : State) (hu : Unique s) (id : String) (o : Opts) (hd : GoodDir o.direction) :
    (((neighbors s id o).join.getD []).map Node.id).Nodup := by
  obtain ⟨ids, h1, h2, h3, h4⟩ := unlimited_ids s id o.free (by simp [Opts.free]) hd
  have key : ∀ l : List String, l.Nodup → ((loadNeighbors s o.nodeTypes l).map Node.id).Nodup := by
    intro l hl
    unfold loadNeighbors
    refine List.Nodup.sublist (List.filter_sublist.map _) ?_
    rw [filterMap_ids s hu]
    exact hl.filter _
  by_cases hl : 0 < o.limit
  · have h5 := loop_limit s o hl _ _ ids rfl (by simpa using hl) h1
    unfold neighbors
    rw [h5]
    exact key _ (h2.sublist (List.take_sublist _ _))
  · obtain ⟨ids', h1', h2', -, -⟩ := unlimited_ids s id o (by omega) hd
    unfold neighbors
    rw [h1']
    exact key _ h2'

/-- A tally: keys once, and each count the number of names. -/
structure Tally (c : String → Nat) (m : List (String × Nat)) : Prop where
  once : (m.map Prod.fst).Nodup
  right : ∀ p ∈ m, p.2 = c p.1 ∧ 0 < p.2
  all : ∀ i, 0 < c i → i ∈ m.map Prod.fst

theorem tally_bump {c : String → Nat} {m : List (String × Nat)} (h : Tally c m) (i : String) :
    Tally (fun j => c j + if j = i then 1 else 0) (bump m i) := by
  unfold bump
  split
  · rename_i hany
    obtain ⟨q, hq, hqi⟩ := List.any_eq_true.1 hany
    rw [decide_eq_true_eq] at hqi
    have hfst : (m.map (fun p : String × Nat => if p.1 = i then (p.1, p.2 + 1) else p)).map Prod.fst = m.map Prod.fst := by
      rw [List.map_map]
      apply List.map_congr_left
      intro p _
      simp only [Function.comp_apply]
      split <;> rfl
    refine ⟨by rw [hfst]; exact h.once, ?_, ?_⟩
    · intro p hp
      obtain ⟨p', hp', rfl⟩ := List.mem_map.1 hp
      obtain ⟨g1, g2⟩ := h.right p' hp'
      by_cases hi : p'.1 = i
      · rw [if_pos hi]
        show p'.2 + 1 = c p'.1 + (if p'.1 = i then 1 else 0) ∧ 0 < p'.2 + 1
        rw [if_pos hi]; omega
      · rw [if_neg hi]
        show p'.2 = c p'.1 + (if p'.1 = i then 1 else 0) ∧ 0 < p'.2
        rw [if_neg hi]; omega
    · intro j hj
      rw [hfst]
      by_cases hji : j = i
      · rw [hji, ← hqi]; exact List.mem_map_of_mem hq
      · simp only [if_neg hji] at hj; exact h.all j (by omega)
  · rename_i hany
    have hni : i ∉ m.map Prod.fst := by
      intro hm
      obtain ⟨p, hp, he⟩ := List.mem_map.1 hm
      exact hany (List.any_eq_true.2 ⟨p, hp, decide_eq_true he⟩)
    have hci : c i = 0 := by
      by_contra h0
      exact hni (h.all i (by omega))
    refine ⟨?_, ?_, ?_⟩
    · rw [List.map_append, List.nodup_append]
      refine ⟨h.once, by simp, ?_⟩
      intro a ha b hb hab
      simp only [List.map_cons, List.map_nil, List.mem_singleton] at hb
      exact hni (hb ▸ hab ▸ ha)
    · intro p hp
      rcases List.mem_append.1 hp with hp | hp
      · obtain ⟨g1, g2⟩ := h.right p hp
        have : p.1 ≠ i := fun he => hni (he ▸ List.mem_map_of_mem hp)
        simp only [if_neg this]; omega
      · rw [List.mem_singleton.1 hp]; simp [hci]
    · intro j hj
      rw [List.map_append, List.mem_append]
      by_cases hji : j = i
      · right; simp [hji]
      · simp only [if_neg hji] at hj; exact Or.inl (h.all j (by omega))

theorem tally_bumps (l : List String) (hl : l.Nodup) : ∀ {c : String → Nat} {m : List (String × Nat)}, Tally c m →
    Tally (fun j => c j + if j ∈ l then 1 else 0) (l.foldl bump m) := by
  induction l with
  | nil => intro c m h; simpa using h
  | cons i l ih =>
    intro c m h
    rw [List.nodup_cons] at hl
    have := ih hl.2 (tally_bump h i)
    have e : (fun j => c j + (if j = i then 1 else 0) + if j ∈ l then 1 else 0) = fun j => c j + if j ∈ i :: l then 1 else 0 := by
      funext j
      by_cases h1 : j = i
      · subst h1; simp [hl.1]
      · simp [h1]
    rw [e] at this
    exact this

theorem tally_spec (u : Uni) (s : State) (hu : Unique s) (h limit : Int) (names : List String) :
    ∀ {c : String → Nat} {m : List (String × Nat)}, Tally c m →
    Tally (fun j => c j + count u s h limit names j) (tally u s h limit m names) := by
  induction names with
  | nil => intro c m hm; simpa [count, tally] using hm
  | cons n names ih =>
    intro c m hm
    have e : ∀ j, count u s h limit (n :: names) j = (if j ∈ hits u s h limit n then 1 else 0) + count u s h limit names j := by
      intro j
      unfold count
      rw [List.countP_cons]
      by_cases hj : j ∈ hits u s h limit n <;> simp [hj, Nat.add_comm]
    unfold tally
    cases hj : (neighbors s (resolve u "" n) ⟨h, [], ["chunk"], "both", limit⟩).join with
    | none =>
      have hn : hits u s h limit n = [] := by simp [hits, hj]
      simp only [e, hn, List.not_mem_nil, if_false, Nat.zero_add]
      exact ih hm
    | some l =>
      have hn : hits u s h limit n = l.map Node.id := by simp [hits, hj]
      have hnd := neighbors_ids_nodup s hu (resolve u "" n) ⟨h, [], ["chunk"], "both", limit⟩ (Or.inr (Or.inr (Or.inr rfl)))
      rw [hj] at hnd
      have := ih (tally_bumps (l.map Node.id) hnd hm)
      simp only [e, hn]
      simpa [Nat.add_assoc] using this

theorem tally_nil : Tally (fun _ => 0) [] := ⟨by simp, by simp, by simp⟩

/-- The order of `sortIDsByScore`: higher counts first, equal counts by id. -/
def byCount (a b : String × Nat) : Prop := b.2 < a.2 ∨ (a.2 = b.2 ∧ a.1 ≤ b.1)

/-- C144: the chunks found by entities: each returned chunk is near at least one of the named entities, its score is the number of names it
is near to, no chunk comes twice, they are ordered by score and then by id, at most the number asked, and a chunk near to a named entity is
left out only when that many with at least its score are returned. Missing: a name given twice counts twice (see the violation). -/
theorem C144_by_entities_partial (u : Uni) (s : State) (hu : Unique s) (sort : List (String × Nat) → List (String × Nat))
    (hsort : ∀ l, SortedFrom byCount l (sort l)) (names : List String) (hne : names ≠ []) (topK hops : Int) :
    let k := if topK ≤ 0 then 10 else topK
    let h := if hops ≤ 0 then 1 else hops
    let out := byEntities u s sort names topK hops
    (out.map Prod.fst).Nodup ∧ (out.length : Int) ≤ k ∧ out.Pairwise byCount ∧
    (∀ p ∈ out, p.2 = count u s h (k * 8) names p.1 ∧ 0 < p.2) ∧
    (∀ i, 0 < count u s h (k * 8) names i → i ∉ out.map Prod.fst → (out.length : Int) = k ∧ ∀ p ∈ out, count u s h (k * 8) names i ≤ p.2) := by
  intro k h out
  have hk : 0 < k := by
    simp only [k]; split <;> omega
  have ht := tally_spec u s hu h (k * 8) names tally_nil
  simp only [Nat.zero_add] at ht
  set m := tally u s h (k * 8) [] names with hm
  obtain ⟨hp, ho⟩ := hsort m
  have hout : out = (sort m).take k.toNat := by
    simp only [out, byEntities, if_neg hne]; rfl
  have hsub : ∀ p ∈ out, p ∈ m := fun p hpm => hp.mem_iff.1 (List.mem_of_mem_take (hout ▸ hpm))
  have hnd : ((sort m).map Prod.fst).Nodup := ((hp.map Prod.fst).nodup_iff).2 ht.once
  refine ⟨?_, ?_, ?_, fun p hpm => ht.right p (hsub p hpm), ?_⟩
  · rw [hout]; exact List.Nodup.sublist ((List.take_sublist _ _).map _) hnd
  · rw [hout, List.length_take]; omega
  · rw [hout]; exact List.Pairwise.sublist (List.take_sublist _ _) ho
  · intro i hi hni
    obtain ⟨p, hpm, rfl⟩ := List.mem_map.1 (ht.all i hi)
    have hps : p ∈ sort m := hp.mem_iff.2 hpm
    rw [← List.take_append_drop k.toNat (sort m), List.mem_append, ← hout] at hps
    rcases hps with hps | hps
    · exact absurd (List.mem_map_of_mem hps) hni
    · constructor
      · have : 0 < ((sort m).drop k.toNat).length := List.length_pos_of_mem hps
        rw [List.length_drop] at this
        rw [hout, List.length_take]; omega
      · intro q hq
        have hpw := ho
        rw [← List.take_append_drop k.toNat (sort m), List.pairwise_append, ← hout] at hpw
        rw [← (ht.right p hpm).1]
        rcases hpw.2.2 q hq p hps with g | g
        · exact g.le
        · exact g.1.ge

instance : DecidableRel byCount := fun a b => by unfold byCount; infer_instance

/-- A sort as asked for in C144 exists. -/
example (l : List (String × Nat)) : SortedFrom byCount l (l.mergeSort (fun a b => decide (byCount a b))) := by
  refine ⟨List.mergeSort_perm _ _, ?_⟩
  refine (List.pairwise_mergeSort ?_ ?_ l).imp (fun h => of_decide_eq_true h)
  · intro a b c h1 h2
    have h1 := of_decide_eq_true h1
    have h2 := of_decide_eq_true h2
    apply decide_eq_true
    unfold byCount at *
    rcases h1 with h1 | ⟨h1, g1⟩ <;> rcases h2 with h2 | ⟨h2, g2⟩
    · exact Or.inl (by omega)
    · exact Or.inl (by omega)
    · exact Or.inl (by omega)
    · exact Or.inr ⟨by omega, String.le_trans g1 g2⟩
  · intro a b
    rw [Bool.or_eq_true, decide_eq_true_eq, decide_eq_true_eq]
    unfold byCount
    rcases Nat.lt_trichotomy a.2 b.2 with h | h | h
    · exact Or.inr (Or.inl h)
    · rcases String.le_total a.1 b.1 with g | g
      · exact Or.inl (Or.inr ⟨h, g⟩)
      · exact Or.inr (Or.inr ⟨h.symm, g⟩)
    · exact Or.inl (Or.inl h)

def graphE : State :=
  let s := [("c1", "x"), ("c2", "y")].foldl (fun s p => (upsertNode s (some ⟨p.1, [1], p.2, "chunk", ""⟩)).1) init
  (upsertEntities uni0 vec0 true true true s [ent "Ada" "" ["c1"], ent "Bob" "" ["c2"]]).1

/-- C144 is violated: asked for Ada, ADA and Bob, the chunk that mentions Ada only has score 2 and the chunk that mentions Bob score 1,
although each is linked to one of the two entities. -/
theorem C144_repeated_violated :
    byEntities uni0 graphE (fun l => l) ["Ada", "ADA", "Bob"] 5 1 = [("c1", 2), ("c2", 1)] := by decide +kernel

/-! ### C145, C146 -/

theorem addAll_mem (xs : List String) : ∀ (a : List String) (i : String),
    i ∈ xs.foldl (fun a x => if x ∈ a then a else a ++ [x]) a ↔ i ∈ a ∨ i ∈ xs := by
  induction xs with
  | nil => intro a i; simp
  | cons x xs ih =>
    intro a i
    rw [List.foldl_cons, ih]
    split
    · rename_i h
      rw [List.mem_cons]
      constructor
      · rintro (h1 | h1)
        · exact Or.inl h1
        · exact Or.inr (Or.inr h1)
      · rintro (h1 | rfl | h1)
        · exact Or.inl h1
        · exact Or.inl h
        · exact Or.inr h1
    · rw [List.mem_append, List.mem_singleton, List.mem_cons, or_assoc]

theorem addAll_nodup (xs : List String) : ∀ a : List String, a.Nodup → (xs.foldl (fun a x => if x ∈ a then a else a ++ [x]) a).Nodup := by
  induction xs with
  | nil => intro a h; exact h
  | cons x xs ih =>
    intro a h
    rw [List.foldl_cons]
    apply ih
    split
    · exact h
    · rename_i hx; exact nodup_of_append h hx

theorem gather_spec (s : State) (hu : Unique s) (o : Opts) (hl : o.limit ≤ 0) (hd : GoodDir o.direction) (ids : List String) :
    ∀ set : List String, set.Nodup → ∃ r, gather s o set ids = some r ∧ r.Nodup ∧ ∀ v, v ∈ r ↔ v ∈ set ∨ ∃ i ∈ ids, i ≠ "" ∧
      (v = i ∨ ∃ n ∈ s.nodes, n.id = v ∧ n.id ≠ i ∧ (o.nodeTypes = [] ∨ n.ntype ∈ o.nodeTypes) ∧ Within (Allowed s o) (effDepth o) i v) := by
  induction ids with
  | nil => intro set hs; exact ⟨set, rfl, hs, by simp⟩
  | cons i ids ih =>
    intro set hs
    unfold gather
    by_cases hi : i = ""
    · rw [if_pos hi]
      obtain ⟨r, h1, h2, h3⟩ := ih set hs
      refine ⟨r, h1, h2, fun v => ?_⟩
      rw [h3 v]
      simp [hi]
    · rw [if_neg hi]
      obtain ⟨l, g1, -, g3⟩ := C42_neighbors_exact_partial s hu i o hl hd
      rw [g1]
      simp only [Option.join_some]
      obtain ⟨r, h1, h2, h3⟩ := ih _ (addAll_nodup (i :: l.map Node.id) set hs)
      refine ⟨r, h1, h2, fun v => ?_⟩
      rw [h3 v, addAll_mem]
      have hmem : v ∈ i :: l.map Node.id ↔ (v = i ∨ ∃ n ∈ s.nodes, n.id = v ∧ n.id ≠ i ∧
          (o.nodeTypes = [] ∨ n.ntype ∈ o.nodeTypes) ∧ Within (Allowed s o) (effDepth o) i v) := by
        rw [List.mem_cons]
        apply or_congr Iff.rfl
        rw [List.mem_map]
        constructor
        · rintro ⟨n, hn, rfl⟩
          obtain ⟨k1, k2, k3, k4⟩ := (g3 n).1 hn
          exact ⟨n, k1, rfl, k2, k3, k4⟩
        · rintro ⟨n, k1, rfl, k2, k3, k4⟩
          exact ⟨n, (g3 n).2 ⟨k1, k2, k3, k4⟩, rfl⟩
      rw [hmem]
      simp only [List.mem_cons, exists_eq_or_imp]
      rw [or_assoc]
      apply or_congr Iff.rfl
      apply or_congr _ Iff.rfl
      exact ⟨fun h => ⟨hi, h⟩, fun h => h.2⟩

/-- C145: `ExpandGraph` without a limit returns, each once, exactly the stored nodes that are asked for by a non-empty id or are reached from
one by a walk of at most the given number of edges of the wanted types (and have a wanted type), and exactly the stored edges between
returned ids. -/
theorem C145_expand_exact (s : State) (hu : Unique s) (sort : List String → List String) (hsort : ∀ l, (sort l).Perm l)
    (ids : List String) (hne : ids ≠ []) (hops : Int) (edgeTypes nodeTypes : List String) (limit : Int) (hl : limit ≤ 0) :
    ∃ ns es, expandGraph s sort ids hops edgeTypes nodeTypes limit = some (ns, es) ∧ (ns.map Node.id).Nodup ∧ (es.map Edge.id).Nodup ∧
      (∀ n, n ∈ ns ↔ n ∈ s.nodes ∧ ∃ i ∈ ids, i ≠ "" ∧ (n.id = i ∨ ((nodeTypes = [] ∨ n.ntype ∈ nodeTypes) ∧
        Within (Allowed s ⟨hops, edgeTypes, nodeTypes, "both", limit⟩) (max 1 hops.toNat) i n.id))) ∧
      (∀ e, e ∈ es ↔ e ∈ s.edges ∧
        (∃ v, v = e.src ∧ ((v ∈ ids ∧ v ≠ "") ∨ ∃ n ∈ ns, n.id = v)) ∧ ∃ v, v = e.dst ∧ ((v ∈ ids ∧ v ≠ "") ∨ ∃ n ∈ ns, n.id = v)) := by
  set o : Opts := ⟨if hops ≤ 0 then 1 else hops, edgeTypes, nodeTypes, "both", limit⟩ with ho
  have hdep : effDepth o = max 1 hops.toNat := by
    rw [ho]; unfold effDepth; simp only; split <;> omega
  have hallow : Allowed s o = Allowed s ⟨hops, edgeTypes, nodeTypes, "both", limit⟩ := rfl
  obtain ⟨r, h1, h2, h3⟩ := gather_spec s hu o hl (Or.inr (Or.inr (Or.inr rfl))) ids [] List.nodup_nil
  have hnd : (sort r).Nodup := ((hsort r).nodup_iff).2 h2
  obtain ⟨p1, p2, p3, p4⟩ := C100_subgraph_is_induced s hu (sort r) hnd
  have hmem : ∀ v, v ∈ sort r ↔ ∃ i ∈ ids, i ≠ "" ∧
      (v = i ∨ ∃ n ∈ s.nodes, n.id = v ∧ n.id ≠ i ∧ (nodeTypes = [] ∨ n.ntype ∈ nodeTypes) ∧ Within (Allowed s o) (effDepth o) i v) := by
    intro v
    rw [(hsort r).mem_iff, h3 v]
    simp [ho]
  have hns : ∀ n, n ∈ (subgraph s (sort r)).1 ↔ n ∈ s.nodes ∧ ∃ i ∈ ids, i ≠ "" ∧ (n.id = i ∨ ((nodeTypes = [] ∨ n.ntype ∈ nodeTypes) ∧
      Within (Allowed s ⟨hops, edgeTypes, nodeTypes, "both", limit⟩) (max 1 hops.toNat) i n.id)) := by
    intro n
    rw [p2 n, hmem n.id, ← hallow, ← hdep]
    constructor
    · rintro ⟨g1, i, g2, g3, g4⟩
      refine ⟨g1, i, g2, g3, ?_⟩
      rcases g4 with g4 | ⟨n', k1, k2, -, k4, k5⟩
      · exact Or.inl g4
      · have : n' = n := List.inj_on_of_nodup_map hu.1 k1 g1 k2
        subst this
        exact Or.inr ⟨k4, k5⟩
    · rintro ⟨g1, i, g2, g3, g4⟩
      refine ⟨g1, i, g2, g3, ?_⟩
      by_cases hi : n.id = i
      · exact Or.inl hi
      · rcases g4 with g4 | ⟨k4, k5⟩
        · exact absurd g4 hi
        · exact Or.inr ⟨n, g1, rfl, hi, k4, k5⟩
  have hset : ∀ v, v ∈ sort r ↔ (v ∈ ids ∧ v ≠ "") ∨ ∃ n ∈ (subgraph s (sort r)).1, n.id = v := by
    intro v
    constructor
    · intro hv
      obtain ⟨i, g2, g3, g4⟩ := (hmem v).1 hv
      rcases g4 with rfl | ⟨n, k1, k2, -⟩
      · exact Or.inl ⟨g2, g3⟩
      · exact Or.inr ⟨n, (p2 n).2 ⟨k1, k2 ▸ hv⟩, k2⟩
    · rintro (⟨g1, g2⟩ | ⟨n, g1, rfl⟩)
      · exact (hmem v).2 ⟨v, g1, g2, Or.inl rfl⟩
      · exact ((p2 n).1 g1).2
  refine ⟨(subgraph s (sort r)).1, (subgraph s (sort r)).2, ?_, p1, p3, hns, ?_⟩
  · unfold expandGraph
    rw [if_neg hne]
    simp only
    rw [← ho, h1]; rfl
  · intro e
    rw [p4 e, hset, hset]
    constructor
    · rintro ⟨g1, g2, g3⟩; exact ⟨g1, ⟨_, rfl, g2⟩, ⟨_, rfl, g3⟩⟩
    · rintro ⟨g1, ⟨_, rfl, g2⟩, ⟨_, rfl, g3⟩⟩; exact ⟨g1, g2, g3⟩

def knows : State := (upsertRelations uni0 true true (upsertRelations uni0 true true twoEntities [rel "Ada" "Bob"]).1
  [⟨"Ada", "Bob", "fears", 1, ""⟩, ⟨"Bob", "Cy", "fears", 1, ""⟩]).1

/-- C146 is violated: an expansion along edges of type "likes" also returns an edge of type "fears" between the nodes it found. -/
theorem C146_edge_types_violated :
    (expandGraph knows (fun l => l) ["entity:ada"] 1 ["likes"] [] 0).map (fun p => (p.1.map Node.id, p.2.map Edge.etype)) =
      some (["entity:ada", "entity:bob"], ["likes", "fears"]) := by decide +kernel

/-- `Neighbors` with any limit: only nodes in reach, and no more than the limit. -/
theorem neighbors_any (s : State) (h : Graph.Inv s) (i : String) (o : Opts) (hd : GoodDir o.direction) :
    ∃ r, neighbors s i o = some (some r) ∧ (0 < o.limit → r.length ≤ o.limit.toNat) ∧
      ∀ n ∈ r, n ∈ s.nodes ∧ (o.nodeTypes = [] ∨ n.ntype ∈ o.nodeTypes) ∧ Within (Allowed s o) (effDepth o) i n.id := by
  by_cases hl : o.limit ≤ 0
  · obtain ⟨r, h1, -, h3⟩ := C42_neighbors_exact_partial s h.2 i o hl hd
    exact ⟨r, h1, fun g => absurd g (by omega), fun n hn => ⟨((h3 n).1 hn).1, ((h3 n).1 hn).2.2⟩⟩
  · by_cases ht : o.nodeTypes = []
    · obtain ⟨all, h1, h2, h3⟩ := C42_limit_counts_partial s h i o (by omega) hd ht
      obtain ⟨r, g1, -, g3⟩ := C42_neighbors_exact_partial s h.2 i o.free (by simp [Opts.free]) hd
      rw [h1, Option.some.injEq, Option.some.injEq] at g1
      subst g1
      exact ⟨_, h2, fun _ => by omega, fun n hn =>
        ⟨((g3 n).1 (List.mem_of_mem_take hn)).1, Or.inl ht, ((g3 n).1 (List.mem_of_mem_take hn)).2.2.2⟩⟩
    · obtain ⟨all, h1, h2⟩ := C42_limit_before_types_partial s h i o (by omega) hd ht
      obtain ⟨r, g1, -, g3⟩ := C42_neighbors_exact_partial s h.2 i { o with limit := 0, nodeTypes := [] } (le_refl _) hd
      rw [h1, Option.some.injEq, Option.some.injEq] at g1
      subst g1
      refine ⟨_, h2, fun _ => (List.length_filter_le _ _).trans (List.length_take_le _ _), fun n hn => ?_⟩
      obtain ⟨k1, k2⟩ := List.mem_filter.1 hn
      have k3 := (g3 n).1 (List.mem_of_mem_take k1)
      exact ⟨k3.1, Or.inr (by simpa using k2), k3.2.2.2⟩

theorem addAll_length (xs : List String) : ∀ a : List String,
    (xs.foldl (fun a x => if x ∈ a then a else a ++ [x]) a).length ≤ a.length + xs.length := by
  induction xs with
  | nil => intro a; simp
  | cons x xs ih =>
    intro a
    rw [List.foldl_cons]
    refine (ih _).trans ?_
    split <;> simp <;> omega

theorem gather_any (s : State) (h : Graph.Inv s) (o : Opts) (hd : GoodDir o.direction) (ids : List String) :
    ∀ set : List String, set.Nodup → ∃ r, gather s o set ids = some r ∧ r.Nodup ∧
      (0 < o.limit → r.length ≤ set.length + ids.length * (1 + o.limit.toNat)) ∧
      (∀ v ∈ set, v ∈ r) ∧ (∀ i ∈ ids, i ≠ "" → i ∈ r) ∧
      ∀ v ∈ r, v ∈ set ∨ ∃ i ∈ ids, i ≠ "" ∧
        (v = i ∨ ∃ n ∈ s.nodes, n.id = v ∧ (o.nodeTypes = [] ∨ n.ntype ∈ o.nodeTypes) ∧ Within (Allowed s o) (effDepth o) i v) := by
  induction ids with
  | nil => intro set hs; exact ⟨set, rfl, hs, fun _ => by simp, fun v hv => hv, by simp, fun v hv => Or.inl hv⟩
  | cons i ids ih =>
    intro set hs
    unfold gather
    by_cases hi : i = ""
    · rw [if_pos hi]
      obtain ⟨r, h1, h2, h3, h4, h5, h6⟩ := ih set hs
      refine ⟨r, h1, h2, fun hl => (h3 hl).trans ?_, h4, ?_, ?_⟩
      · rw [List.length_cons, Nat.add_mul]; omega
      · intro k hk hk'
        rcases List.mem_cons.1 hk with rfl | hk
        · exact absurd hi hk'
        · exact h5 k hk hk'
      · intro v hv
        rcases h6 v hv with g | ⟨k, g1, g2⟩
        · exact Or.inl g
        · exact Or.inr ⟨k, List.mem_cons_of_mem _ g1, g2⟩
    · rw [if_neg hi]
      obtain ⟨l, g1, g2, g3⟩ := neighbors_any s h i o hd
      rw [g1]
      simp only [Option.join_some]
      obtain ⟨r, h1, h2, h3, h4, h5, h6⟩ := ih _ (addAll_nodup (i :: l.map Node.id) set hs)
      refine ⟨r, h1, h2, fun hl => (h3 hl).trans ?_, ?_, ?_, ?_⟩
      · have e1 := addAll_length (i :: l.map Node.id) set
        have e2 := g2 hl
        rw [List.length_cons, List.length_map] at e1
        rw [List.length_cons, Nat.add_mul]
        omega
      · intro v hv
        exact h4 v ((addAll_mem _ _ _).2 (Or.inl hv))
      · intro k hk hk'
        rcases List.mem_cons.1 hk with rfl | hk
        · exact h4 k ((addAll_mem _ _ _).2 (Or.inr List.mem_cons_self))
        · exact h5 k hk hk'
      · intro v hv
        rcases h6 v hv with g | ⟨k, g4, g5⟩
        · rcases (addAll_mem _ _ _).1 g with g | g
          · exact Or.inl g
          · refine Or.inr ⟨i, List.mem_cons_self, hi, ?_⟩
            rcases List.mem_cons.1 g with g | g
            · exact Or.inl g
            · obtain ⟨n, hn, rfl⟩ := List.mem_map.1 g
              exact Or.inr ⟨n, (g3 n hn).1, rfl, (g3 n hn).2⟩
        · exact Or.inr ⟨k, List.mem_cons_of_mem _ g4, g5⟩

/-- C145: `ExpandGraph` with any limit fails on no graph, returns every stored node asked for, no node out of reach, and at most `limit` nodes
besides itself for each id asked for. -/
theorem C145_expand_limit (s : State) (hs : Graph.Inv s) (sort : List String → List String) (hsort : ∀ l, (sort l).Perm l)
    (ids : List String) (hne : ids ≠ []) (hops : Int) (edgeTypes nodeTypes : List String) (limit : Int) :
    ∃ ns es, expandGraph s sort ids hops edgeTypes nodeTypes limit = some (ns, es) ∧ (ns.map Node.id).Nodup ∧ (es.map Edge.id).Nodup ∧
      (0 < limit → ns.length ≤ ids.length * (1 + limit.toNat)) ∧
      (∀ n ∈ s.nodes, n.id ∈ ids → n.id ≠ "" → n ∈ ns) ∧
      (∀ n ∈ ns, n ∈ s.nodes ∧ ∃ i ∈ ids, i ≠ "" ∧ (n.id = i ∨ ((nodeTypes = [] ∨ n.ntype ∈ nodeTypes) ∧
        Within (Allowed s ⟨hops, edgeTypes, nodeTypes, "both", limit⟩) (max 1 hops.toNat) i n.id))) ∧
      (∀ e, e ∈ es ↔ e ∈ s.edges ∧
        (∃ v, v = e.src ∧ ((v ∈ ids ∧ v ≠ "") ∨ ∃ n ∈ ns, n.id = v)) ∧ ∃ v, v = e.dst ∧ ((v ∈ ids ∧ v ≠ "") ∨ ∃ n ∈ ns, n.id = v)) := by
  set o : Opts := ⟨if hops ≤ 0 then 1 else hops, edgeTypes, nodeTypes, "both", limit⟩ with ho
  have hdep : effDepth o = max 1 hops.toNat := by
    rw [ho]; unfold effDepth; simp only; split <;> omega
  have hallow : Allowed s o = Allowed s ⟨hops, edgeTypes, nodeTypes, "both", limit⟩ := rfl
  obtain ⟨r, h1, h2, h3, -, h5, h6⟩ := gather_any s hs o (Or.inr (Or.inr (Or.inr rfl))) ids [] List.nodup_nil
  have hnd : (sort r).Nodup := ((hsort r).nodup_iff).2 h2
  obtain ⟨p1, p2, p3, p4⟩ := C100_subgraph_is_induced s hs.2 (sort r) hnd
  refine ⟨(subgraph s (sort r)).1, (subgraph s (sort r)).2, ?_, p1, p3, ?_, ?_, ?_, ?_⟩
  · unfold expandGraph
    rw [if_neg hne]
    simp only
    rw [← ho, h1]; rfl
  · intro hl
    have e1 := h3 hl
    have e2 : ((subgraph s (sort r)).1.map Node.id).length ≤ (sort r).length := by
      apply (List.Nodup.subperm p1 ?_).length_le
      intro v hv
      obtain ⟨n, hn, rfl⟩ := List.mem_map.1 hv
      exact ((p2 n).1 hn).2
    rw [List.length_map, (hsort r).length_eq] at e2
    simpa using e2.trans e1
  · intro n hn hi hne'
    exact (p2 n).2 ⟨hn, (hsort r).mem_iff.2 (h5 _ hi hne')⟩
  · intro n hn
    obtain ⟨g1, g2⟩ := (p2 n).1 hn
    rcases h6 _ ((hsort r).mem_iff.1 g2) with g | ⟨i, g3, g4, g5⟩
    · cases g
    · refine ⟨g1, i, g3, g4, ?_⟩
      rcases g5 with g5 | ⟨n', k1, k2, k3, k4⟩
      · exact Or.inl g5
      · have : n' = n := List.inj_on_of_nodup_map hs.2.1 k1 g1 k2
        subst this
        rw [← hallow, ← hdep]
        exact Or.inr ⟨k3, k4⟩
  · intro e
    have hset : ∀ v, v ∈ sort r ↔ (v ∈ ids ∧ v ≠ "") ∨ ∃ n ∈ (subgraph s (sort r)).1, n.id = v := by
      intro v
      rw [(hsort r).mem_iff]
      constructor
      · intro hv
        rcases h6 v hv with g | ⟨i, g3, g4, g5⟩
        · cases g
        · rcases g5 with rfl | ⟨n, k1, k2, -⟩
          · exact Or.inl ⟨g3, g4⟩
          · exact Or.inr ⟨n, (p2 n).2 ⟨k1, (hsort r).mem_iff.2 (k2 ▸ hv)⟩, k2⟩
      · rintro (⟨g1, g2⟩ | ⟨n, g1, rfl⟩)
        · exact h5 v g1 g2
        · exact (hsort r).mem_iff.1 ((p2 n).1 g1).2
    rw [p4 e, hset, hset]
    constructor
    · rintro ⟨g1, g2, g3⟩; exact ⟨g1, ⟨_, rfl, g2⟩, ⟨_, rfl, g3⟩⟩
    · rintro ⟨g1, ⟨_, rfl, g2⟩, ⟨_, rfl, g3⟩⟩; exact ⟨g1, g2, g3⟩

/-- Following `n` stored edges of the wanted types, in either direction, leads from `a` to `b`. -/
inductive TypedWalk (s : State) (types : List String) (a : String) : Nat → String → Prop
  | start : TypedWalk s types a 0 a
  | along {n b} (e : Edge) : TypedWalk s types a n b → e ∈ s.edges → (types = [] ∨ e.etype ∈ types) → e.src = b →
      TypedWalk s types a (n + 1) e.dst
  | against {n b} (e : Edge) : TypedWalk s types a n b → e ∈ s.edges → (types = [] ∨ e.etype ∈ types) → e.dst = b →
      TypedWalk s types a (n + 1) e.src

/-- C146: with any limit, each node returned is reached from an id asked for along at most the given number of edges, all of the wanted types,
and an edge of another type is returned only between two ids that were asked for or reached. Missing: those edges are returned. -/
theorem C146_nodes_partial (s : State) (hs : Graph.Inv s) (sort : List String → List String) (hsort : ∀ l, (sort l).Perm l)
    (ids : List String) (hops : Int) (edgeTypes nodeTypes : List String) (limit : Int)
    (ns : List Node) (es : List Edge) (h : expandGraph s sort ids hops edgeTypes nodeTypes limit = some (ns, es)) :
    (∀ n ∈ ns, ∃ i ∈ ids, ∃ k ≤ max 1 hops.toNat, TypedWalk s edgeTypes i k n.id) ∧
    ∀ e ∈ es, ∀ v, v = e.src ∨ v = e.dst → ∃ i ∈ ids, ∃ k ≤ max 1 hops.toNat, TypedWalk s edgeTypes i k v := by
  by_cases hne : ids = []
  · rw [expandGraph, if_pos hne] at h
    cases h
    simp
  obtain ⟨ns', es', h1, -, -, -, -, h4, h5⟩ := C145_expand_limit s hs sort hsort ids hne hops edgeTypes nodeTypes limit
  rw [h, Option.some.injEq, Prod.mk.injEq] at h1
  obtain ⟨rfl, rfl⟩ := h1
  have hw : ∀ i k v, Walk (Allowed s ⟨hops, edgeTypes, nodeTypes, "both", limit⟩) i k v → TypedWalk s edgeTypes i k v := by
    intro i k v w
    induction w with
    | nil => exact .start
    | snoc _ hs' ih =>
      obtain ⟨e, he, ht, hdir⟩ := hs'
      rcases hdir with g | g
      · rw [← g.2.2]; exact .along e ih he ht g.2.1
      · rw [← g.2.2]; exact .against e ih he ht g.2.1
  have hn : ∀ n ∈ ns, ∃ i ∈ ids, ∃ k ≤ max 1 hops.toNat, TypedWalk s edgeTypes i k n.id := by
    intro n hn
    obtain ⟨-, i, g2, -, g4⟩ := h4 n hn
    rcases g4 with g4 | ⟨-, k, hk, w⟩
    · exact ⟨i, g2, 0, Nat.zero_le _, g4 ▸ .start⟩
    · exact ⟨i, g2, k, hk, hw i k _ w⟩
  have hv : ∀ v, ((v ∈ ids ∧ v ≠ "") ∨ ∃ n ∈ ns, n.id = v) → ∃ i ∈ ids, ∃ k ≤ max 1 hops.toNat, TypedWalk s edgeTypes i k v := by
    rintro v (⟨g, -⟩ | ⟨n, g, rfl⟩)
    · exact ⟨v, g, 0, Nat.zero_le _, .start⟩
    · exact hn n g
  refine ⟨hn, fun e he v hve => ?_⟩
  obtain ⟨-, ⟨_, rfl, g2⟩, ⟨_, rfl, g3⟩⟩ := (h5 e).1 he
  rcases hve with rfl | rfl
  · exact hv _ g2
  · exact hv _ g3

/-- With a limit of one, one neighbour of "ada" is returned; a walk of two edges leads from "ada" over "bob" to "cy". -/
example : (expandGraph knows (fun l => l) ["entity:ada"] 2 ["likes", "fears"] [] 1).map (fun p => p.1.map Node.id) =
    some ["entity:ada", "entity:bob"] := by decide +kernel
example : (expandGraph knows (fun l => l) ["entity:ada"] 2 ["likes", "fears"] [] 0).map (fun p => p.1.map Node.id) =
    some ["entity:ada", "entity:bob", "entity:cy"] := by decide +kernel

example : Graph.Unique knows ∧ Graph.Unique graphE := by
  unfold Graph.Unique; decide +kernel
example : Graph.Inv knows := by
  unfold Graph.Inv Graph.Closed Graph.Unique; decide +kernel

/-- C146 is violated for every graph: an edge between two ids that are asked for is returned, whatever its type and whatever edge types are asked for. -/
theorem C146_any_edge_violated (s : State) (hs : Graph.Inv s) (sort : List String → List String) (hsort : ∀ l, (sort l).Perm l) (ids : List String) (hops : Int)
    (edgeTypes nodeTypes : List String) (limit : Int) (e : Edge) (he : e ∈ s.edges) (h1 : e.src ∈ ids ∧ e.src ≠ "") (h2 : e.dst ∈ ids ∧ e.dst ≠ "") :
    ∃ ns es, expandGraph s sort ids hops edgeTypes nodeTypes limit = some (ns, es) ∧ e ∈ es := by
  obtain ⟨ns, es, g1, -, -, -, -, -, g2⟩ := C145_expand_limit s hs sort hsort ids (List.ne_nil_of_mem h1.1) hops edgeTypes nodeTypes limit
  exact ⟨ns, es, g1, (g2 e).2 ⟨he, ⟨_, rfl, Or.inl h1⟩, ⟨_, rfl, Or.inl h2⟩⟩⟩

end Verif.GraphTools
