import Verif.Model.GraphTraverse
import Verif.Base.Bfs
import Verif.Thm.GraphStore
import Mathlib.Data.List.Dedup

/-! C42, C43, C44, C48 and C100: traversals of the graph. -/
namespace Verif.Graph
open Verif.Spec Verif.Bfs

/-! ### C42 -/

/-- One allowed step: along a stored edge of a wanted type, in the wanted direction. -/
def Allowed (s : State) (o : Opts) (a b : String) : Prop :=
  ∃ e ∈ s.edges, (o.edgeTypes = [] ∨ e.etype ∈ o.edgeTypes) ∧
    ((o.direction ≠ "in" ∧ e.src = a ∧ e.dst = b) ∨ (o.direction ≠ "out" ∧ e.dst = a ∧ e.src = b))

/-- The directions the interface documents; the empty text stands for "both". -/
def GoodDir (d : String) : Prop := d = "" ∨ d = "out" ∨ d = "in" ∨ d = "both"

/-- The depth used: at least 1. -/
def effDepth (o : Opts) : Nat := max 1 o.maxDepth.toNat

theorem depth_eq (o : Opts) : o.depth = effDepth o := by
  unfold Opts.depth effDepth
  split_ifs <;> omega

def dirEdges (s : State) (u : String) : Dir → List Edge
  | .out => s.edges.filter (fun e => decide (e.src = u))
  | .in_ => s.edges.filter (fun e => decide (e.dst = u))
  | _ => s.edges.filter (fun e => decide (e.src = u ∨ e.dst = u))

theorem pd_empty : parseDir "" = .both := by decide
theorem pd_out : parseDir "out" = .out := by decide
theorem pd_in : parseDir "in" = .in_ := by decide
theorem pd_both : parseDir "both" = .both := by decide

theorem getEdges_good (s : State) (u : String) (d : String) (h : GoodDir d) :
    getEdges s u (parseDir d) = some (dirEdges s u (parseDir d)) := by
  rcases h with rfl | rfl | rfl | rfl <;> rfl

/-- The neighbours of one node under the options. -/
def nadj (s : State) (o : Opts) (u : String) : List String :=
  ((dirEdges s u (parseDir o.direction)).filter (fun e => decide (o.edgeTypes = [] ∨ e.etype ∈ o.edgeTypes))).map (other u)

theorem mem_dirEdges (s : State) (d : String) (h : GoodDir d) (a : String) (e : Edge) :
    e ∈ dirEdges s a (parseDir d) ↔ e ∈ s.edges ∧ ((d ≠ "in" ∧ e.src = a) ∨ (d ≠ "out" ∧ e.dst = a)) := by
  rcases h with h | h | h | h <;> subst h <;> simp [pd_empty, pd_out, pd_in, pd_both, dirEdges]

theorem mem_nadj (s : State) (o : Opts) (h : GoodDir o.direction) (a b : String) : b ∈ nadj s o a ↔ Allowed s o a b := by
  unfold nadj Allowed
  simp only [List.mem_map, List.mem_filter, decide_eq_true_eq, mem_dirEdges s _ h]
  constructor
  · rintro ⟨e, ⟨⟨h1, h2⟩, h3⟩, rfl⟩
    refine ⟨e, h1, h3, ?_⟩
    by_cases h4 : e.src = a
    · have ho : other a e = e.dst := by simp [other, h4]
      rw [ho]
      rcases h2 with h5 | h5
      · exact Or.inl ⟨h5.1, h4, rfl⟩
      · exact Or.inr ⟨h5.1, h5.2, h4.trans h5.2.symm⟩
    · have ho : other a e = e.src := by simp [other, h4]
      rw [ho]
      rcases h2 with h5 | h5
      · exact absurd h5.2 h4
      · exact Or.inr ⟨h5.1, h5.2, rfl⟩
  · rintro ⟨e, he, ht, hd⟩
    have ho : (e.src = a ∧ e.dst = b) ∨ (e.dst = a ∧ e.src = b) → other a e = b := by
      rintro (⟨h1, h2⟩ | ⟨h1, h2⟩)
      · simp [other, h1, h2]
      · unfold other
        split_ifs with h3
        · rw [h1, ← h3, h2]
        · exact h2
    refine ⟨e, ⟨⟨he, ?_⟩, ht⟩, ho ?_⟩
    · rcases hd with h1 | h1
      · exact Or.inl ⟨h1.1, h1.2.1⟩
      · exact Or.inr ⟨h1.1, h1.2.1⟩
    · rcases hd with h1 | h1
      · exact Or.inl h1.2
      · exact Or.inr h1.2

/-- All the ends of stored edges. -/
def ends (s : State) : List String := s.edges.flatMap (fun e => [e.src, e.dst])

theorem ends_length (s : State) : (ends s).length = 2 * s.edges.length := by
  unfold ends
  induction s.edges with
  | nil => rfl
  | cons e l ih => simp only [List.flatMap_cons, List.length_append, ih, List.length_cons, List.length_nil]; omega

theorem nadj_ends (s : State) (o : Opts) (a b : String) (h : b ∈ nadj s o a) : b ∈ ends s := by
  unfold nadj at h
  simp only [List.mem_map, List.mem_filter] at h
  obtain ⟨e, ⟨h1, -⟩, rfl⟩ := h
  have he : e ∈ s.edges := by
    unfold dirEdges at h1
    split at h1 <;> exact (List.mem_filter.1 h1).1
  unfold ends
  simp only [List.mem_flatMap]
  refine ⟨e, he, ?_⟩
  unfold other
  split_ifs <;> simp

/-- Without a limit the scan of one node is the generic step. -/
theorem scan_unlimited (o : Opts) (hl : o.limit ≤ 0) (u : String) (d : Nat) (id : String) (es : List Edge) :
    ∀ (ids : List String) (q : List (String × Nat)),
      scan o u d ⟨id :: ids, ids, q, false⟩ es =
        let r := ((es.filter (fun e => decide (o.edgeTypes = [] ∨ e.etype ∈ o.edgeTypes))).map (other u)).foldl
          (addA o.depth d) (id :: ids, q)
        ⟨r.1, r.1.tail, r.2, false⟩ := by
  induction es with
  | nil => intro ids q; simp [scan]
  | cons e es ih =>
    intro ids q
    simp only [scan]
    by_cases ht : o.edgeTypes ≠ [] ∧ e.etype ∉ o.edgeTypes
    · rw [if_pos ht, ih]
      have hf : decide (o.edgeTypes = [] ∨ e.etype ∈ o.edgeTypes) = false := by
        simp only [decide_eq_false_iff_not, not_or]; exact ht
      rw [List.filter_cons_of_neg (by simp [hf])]
    · rw [if_neg ht]
      have hf : decide (o.edgeTypes = [] ∨ e.etype ∈ o.edgeTypes) = true := by
        simp only [decide_eq_true_eq]
        by_contra hc
        exact ht (not_or.1 hc)
      rw [List.filter_cons_of_pos (p := fun e : Edge => decide (o.edgeTypes = [] ∨ e.etype ∈ o.edgeTypes)) hf, List.map_cons,
        List.foldl_cons]
      by_cases hv : other u e ∈ id :: ids
      · rw [if_pos hv, ih]
        simp only [addA, hv, if_true]
      · rw [if_neg hv, if_neg (by simp; omega)]
        have := ih (ids ++ [other u e]) (if d + 1 < o.depth then q ++ [(other u e, d + 1)] else q)
        simp only [addA, hv, if_false]
        exact this

theorem nl_nil (s : State) (o : Opts) (n : Nat) (st : Scan) (h : st.queue = []) : neighborLoop s o n st = some (some st.ids) := by
  unfold neighborLoop
  rw [h]

theorem nl_zero (s : State) (o : Opts) (st : Scan) (x : String × Nat) (q : List (String × Nat)) (h : st.queue = x :: q) :
    neighborLoop s o 0 st = none := by
  unfold neighborLoop
  rw [h]

theorem nl_succ (s : State) (o : Opts) (n : Nat) (st : Scan) (u : String) (d : Nat) (q : List (String × Nat))
    (h : st.queue = (u, d) :: q) : neighborLoop s o (n + 1) st =
      if d ≥ o.depth then neighborLoop s o n { st with queue := q }
      else match getEdges s u (parseDir o.direction) with
        | none => some none
        | some es => if (scan o u d { st with queue := q } es).stop then some (some (scan o u d { st with queue := q } es).ids)
          else neighborLoop s o n (scan o u d { st with queue := q } es) := by
  rw [neighborLoop]
  rw [h]
  rfl

/-- Without a limit the loop is the generic search. -/
theorem loop_unlimited (s : State) (o : Opts) (hl : o.limit ≤ 0) (hd : GoodDir o.direction) (id : String) :
    ∀ (n : Nat) (ids : List String) (q : List (String × Nat)),
      neighborLoop s o n ⟨id :: ids, ids, q, false⟩ = (bfsA (nadj s o) o.depth n (id :: ids) q).map (fun v => some v.tail) := by
  intro n
  induction n with
  | zero =>
    intro ids q
    cases q with
    | nil => rw [nl_nil _ _ _ _ rfl]; simp [bfsA]
    | cons x q => rw [nl_zero _ _ _ _ _ rfl]; simp [bfsA]
  | succ n ih =>
    intro ids q
    cases q with
    | nil => rw [nl_nil _ _ _ _ rfl]; simp [bfsA]
    | cons x q =>
      obtain ⟨u, d⟩ := x
      rw [nl_succ _ _ _ _ _ _ _ rfl]
      simp only [bfsA, ge_iff_le]
      by_cases hdd : o.depth ≤ d
      · rw [if_pos hdd, if_pos hdd]
        exact ih ids q
      · rw [if_neg hdd, if_neg hdd, getEdges_good s u _ hd]
        simp only
        rw [scan_unlimited o hl]
        simp only [Bool.false_eq_true, if_false]
        have hr : ∃ t, (((dirEdges s u (parseDir o.direction)).filter
            (fun e => decide (o.edgeTypes = [] ∨ e.etype ∈ o.edgeTypes))).map (other u)).foldl
            (addA o.depth d) (id :: ids, q) = (id :: t, ((nadj s o u).foldl (addA o.depth d) (id :: ids, q)).2) := by
          rw [show ((dirEdges s u (parseDir o.direction)).filter
            (fun e => decide (o.edgeTypes = [] ∨ e.etype ∈ o.edgeTypes))).map (other u) = nadj s o u from rfl, fold_addA]
          exact ⟨_, rfl⟩
        obtain ⟨t, ht⟩ := hr
        have ht' : (nadj s o u).foldl (addA o.depth d) (id :: ids, q) =
            (id :: t, ((nadj s o u).foldl (addA o.depth d) (id :: ids, q)).2) := ht
        rw [ht]
        simp only [List.tail_cons]
        rw [ih, ht']

theorem getNode_mem (s : State) (h : Unique s) (i : String) (n : Node) : getNode s i = some n ↔ n ∈ s.nodes ∧ n.id = i := by
  have hn := h.1
  unfold getNode
  generalize s.nodes = l at hn ⊢
  induction l with
  | nil => simp
  | cons x l ih =>
    simp only [List.map_cons, List.nodup_cons] at hn
    rw [List.find?_cons]
    by_cases hx : x.id = i
    · simp only [hx, decide_true, Option.some.injEq, List.mem_cons]
      constructor
      · rintro rfl; exact ⟨Or.inl rfl, hx⟩
      · rintro ⟨rfl | h1, h2⟩
        · rfl
        · exact absurd (List.mem_map.2 ⟨n, h1, h2.trans hx.symm⟩) hn.1
    · simp only [hx, decide_false, List.mem_cons]
      refine (ih hn.2).trans ?_
      constructor
      · rintro ⟨h1, h2⟩; exact ⟨Or.inr h1, h2⟩
      · rintro ⟨rfl | h1, h2⟩
        · exact absurd h2 hx
        · exact ⟨h1, h2⟩

theorem filterMap_ids (s : State) (h : Unique s) (ids : List String) :
    (ids.filterMap (getNode s)).map Node.id = ids.filter (fun i => (getNode s i).isSome) := by
  induction ids with
  | nil => rfl
  | cons i l ih =>
    cases hi : getNode s i with
    | none => simp [hi, ih]
    | some n => simp [hi, ih, ((getNode_mem s h i n).1 hi).2]

/-- The ids a search without limit finds, and that it ends. -/
theorem unlimited_ids (s : State) (id : String) (o : Opts) (hl : o.limit ≤ 0) (hd : GoodDir o.direction) :
    ∃ ids, neighborLoop s o (fuelA s) ⟨[id], [], [(id, 0)], false⟩ = some (some ids) ∧ ids.Nodup ∧ id ∉ ids ∧
      ∀ v, v ∈ ids ↔ v ≠ id ∧ Within (Allowed s o) (effDepth o) id v := by
  rw [loop_unlimited s o hl hd]
  obtain ⟨r, hr⟩ := bfsA_fuel (nadj s o) o.depth (ends s) (nadj_ends s o) (fuelA s) [id] [(id, 0)] (by
    have h1 := List.length_filter_le (fun v => decide (v ∉ [id])) (ends s)
    rw [ends_length] at h1
    unfold fuelA
    simp only [List.length_cons, List.length_nil]
    omega)
  obtain ⟨h1, ⟨t, rfl⟩, h3⟩ := bfsA_correct (nadj s o) o.depth (by rw [depth_eq]; unfold effDepth; omega) id _ r hr
  rw [hr]
  rw [List.nodup_cons] at h1
  refine ⟨t, rfl, h1.2, h1.1, ?_⟩
  intro v
  have h4 := h3 v
  have hw : Within (fun a b => b ∈ nadj s o a) o.depth id v ↔ Within (Allowed s o) (effDepth o) id v := by
    rw [depth_eq]
    constructor
    · rintro ⟨k, hk, w⟩; exact ⟨k, hk, w.mono (fun x y h => (mem_nadj s o hd x y).1 h)⟩
    · rintro ⟨k, hk, w⟩; exact ⟨k, hk, w.mono (fun x y h => (mem_nadj s o hd x y).2 h)⟩
  rw [hw, List.mem_cons] at h4
  constructor
  · intro hv
    exact ⟨fun e => h1.1 (e ▸ hv), h4.1 (Or.inr hv)⟩
  · rintro ⟨h5, h6⟩
    rcases h4.2 h6 with h7 | h7
    · exact absurd h7 h5
    · exact h7

/-- C42: with no limit, `Neighbors` returns each stored node of a wanted type other than the start that a walk of at most
depth allowed edges reaches, exactly once, and nothing else. -/
theorem C42_neighbors_exact_partial (s : State) (h : Unique s) (id : String) (o : Opts) (hl : o.limit ≤ 0)
    (hd : GoodDir o.direction) :
    ∃ r, neighbors s id o = some (some r) ∧ (r.map Node.id).Nodup ∧
      ∀ n, n ∈ r ↔ n ∈ s.nodes ∧ n.id ≠ id ∧ (o.nodeTypes = [] ∨ n.ntype ∈ o.nodeTypes) ∧
        Within (Allowed s o) (effDepth o) id n.id := by
  obtain ⟨ids, h1, h2, h3, h4⟩ := unlimited_ids s id o hl hd
  refine ⟨loadNeighbors s o.nodeTypes ids, ?_, ?_, ?_⟩
  · unfold neighbors
    rw [h1]
    rfl
  · unfold loadNeighbors
    refine List.Nodup.sublist (List.filter_sublist.map _) ?_
    rw [filterMap_ids s h]
    exact h2.filter _
  · intro n
    unfold loadNeighbors
    simp only [List.mem_filter, List.mem_filterMap, decide_eq_true_eq]
    constructor
    · rintro ⟨⟨i, hi, hn⟩, ht⟩
      obtain ⟨h5, rfl⟩ := (getNode_mem s h i n).1 hn
      obtain ⟨h6, h7⟩ := (h4 _).1 hi
      exact ⟨h5, h6, ht, h7⟩
    · rintro ⟨h5, h6, h7, h8⟩
      exact ⟨⟨n.id, (h4 _).2 ⟨h6, h8⟩, (getNode_mem s h _ n).2 ⟨h5, rfl⟩⟩, h7⟩

/-! The limit. -/

/-- The same options without limit. -/
def Opts.free (o : Opts) : Opts := { o with limit := 0 }

theorem scan_prefix (o : Opts) (u : String) (d : Nat) (es : List Edge) :
    ∀ st : Scan, ∃ t, (scan o u d st es).ids = st.ids ++ t := by
  induction es with
  | nil => intro st; exact ⟨[], by simp [scan]⟩
  | cons e es ih =>
    intro st
    simp only [scan]
    split_ifs
    · exact ih st
    · exact ih st
    · exact ⟨[other u e], rfl⟩
    · obtain ⟨t, ht⟩ := ih (discover o u d st e)
      exact ⟨other u e :: t, by rw [ht]; simp [discover]⟩

theorem scan_limit (o : Opts) (hl : 0 < o.limit) (u : String) (d : Nat) (es : List Edge) :
    ∀ st : Scan, st.stop = false → (st.ids.length : Int) < o.limit →
      ((scan o u d st es).stop = false → scan o u d st es = scan o.free u d st es ∧
        ((scan o u d st es).ids.length : Int) < o.limit) ∧
      ((scan o u d st es).stop = true → (scan o u d st es).ids = (scan o.free u d st es).ids.take o.limit.toNat ∧
        o.limit.toNat ≤ (scan o.free u d st es).ids.length) := by
  induction es with
  | nil => intro st h1 h2; simp [scan, h1, h2]
  | cons e es ih =>
    intro st h1 h2
    simp only [scan]
    have hf1 : o.free.edgeTypes = o.edgeTypes := rfl
    have hf2 : o.free.depth = o.depth := rfl
    have hf3 : ¬ (o.free.limit > 0) := by simp [Opts.free]
    simp only [hf1, hf2, hf3, false_and, if_false]
    by_cases ht : o.edgeTypes ≠ [] ∧ e.etype ∉ o.edgeTypes
    · simp only [if_pos ht]
      exact ih st h1 h2
    · simp only [if_neg ht]
      by_cases hv : other u e ∈ st.visited
      · simp only [if_pos hv]
        exact ih st h1 h2
      · simp only [if_neg hv]
        have hf5 : discover o.free u d st e = discover o u d st e := rfl
        rw [hf5]
        by_cases hc : o.limit > 0 ∧ ((discover o u d st e).ids.length : Int) ≥ o.limit
        · rw [if_pos hc]
          refine ⟨by simp, ?_⟩
          intro _
          obtain ⟨t, hp⟩ := scan_prefix o.free u d es (discover o u d st e)
          rw [hp]
          have hlen : (discover o u d st e).ids.length = o.limit.toNat := by
            have := hc.2
            simp only [discover, List.length_append, List.length_singleton] at this ⊢
            omega
          constructor
          · rw [← hlen, List.take_left']
            rfl
          · rw [List.length_append, hlen]; omega
        · rw [if_neg hc]
          refine ih _ rfl ?_
          simp only [not_and, ge_iff_le, not_le] at hc
          exact hc hl

theorem loop_prefix (s : State) (o : Opts) : ∀ (n : Nat) (st : Scan) (r : List String),
    neighborLoop s o n st = some (some r) → ∃ t, r = st.ids ++ t := by
  intro n
  induction n with
  | zero =>
    intro st r h
    cases hq : st.queue with
    | nil => rw [nl_nil _ _ _ _ hq] at h; simp only [Option.some.injEq] at h; exact ⟨[], by simp [h]⟩
    | cons x q => rw [nl_zero _ _ _ _ _ hq] at h; simp at h
  | succ n ih =>
    intro st r h
    cases hq : st.queue with
    | nil => rw [nl_nil _ _ _ _ hq] at h; simp only [Option.some.injEq] at h; exact ⟨[], by simp [h]⟩
    | cons x q =>
      obtain ⟨u, d⟩ := x
      rw [nl_succ _ _ _ _ _ _ _ hq] at h
      by_cases hd : d ≥ o.depth
      · rw [if_pos hd] at h
        exact ih { st with queue := q } r h
      · rw [if_neg hd] at h
        cases he : getEdges s u (parseDir o.direction) with
        | none => simp [he] at h
        | some es =>
          simp only [he] at h
          obtain ⟨t, ht⟩ := scan_prefix o u d es { st with queue := q }
          split_ifs at h
          · simp only [Option.some.injEq] at h
            exact ⟨t, by rw [← h, ht]⟩
          · obtain ⟨t', ht'⟩ := ih _ r h
            exact ⟨t ++ t', by rw [ht', ht, List.append_assoc]⟩

theorem scan_free_stop (o : Opts) (u : String) (d : Nat) (es : List Edge) : ∀ st0 : Scan, st0.stop = false →
    (scan o.free u d st0 es).stop = false := by
  induction es with
  | nil => exact fun _ h => h
  | cons e es ihe =>
    intro st0 h0
    simp only [scan]
    split_ifs with a b c
    · exact ihe _ h0
    · exact ihe _ h0
    · simp [Opts.free] at c
    · exact ihe _ rfl

theorem loop_limit (s : State) (o : Opts) (hl : 0 < o.limit) : ∀ (n : Nat) (st : Scan) (r : List String),
    st.stop = false → (st.ids.length : Int) < o.limit → neighborLoop s o.free n st = some (some r) →
    neighborLoop s o n st = some (some (r.take o.limit.toNat)) := by
  have hnil : ∀ (n : Nat) (st : Scan) (r : List String), st.queue = [] → (st.ids.length : Int) < o.limit →
      neighborLoop s o.free n st = some (some r) → neighborLoop s o n st = some (some (r.take o.limit.toNat)) := by
    intro n st r hq h2 h
    rw [nl_nil _ _ _ _ hq] at h ⊢
    simp only [Option.some.injEq] at h ⊢
    rw [List.take_of_length_le (by rw [← h]; omega), h]
  intro n
  induction n with
  | zero =>
    intro st r _ h2 h
    cases hq : st.queue with
    | nil => exact hnil 0 st r hq h2 h
    | cons x q => rw [nl_zero _ _ _ _ _ hq] at h; simp at h
  | succ n ih =>
    intro st r h1 h2 h
    cases hq : st.queue with
    | nil => exact hnil _ st r hq h2 h
    | cons x q =>
      obtain ⟨u, d⟩ := x
      rw [nl_succ _ _ _ _ _ _ _ hq] at h ⊢
      have hf2 : o.free.depth = o.depth := rfl
      have hf4 : o.free.direction = o.direction := rfl
      rw [hf2, hf4] at h
      by_cases hd : d ≥ o.depth
      · rw [if_pos hd] at h ⊢
        exact ih { st with queue := q } r h1 h2 h
      · rw [if_neg hd] at h ⊢
        cases he : getEdges s u (parseDir o.direction) with
        | none => simp [he] at h
        | some es =>
          simp only [he] at h ⊢
          have hsl := scan_limit o hl u d es { st with queue := q } h1 h2
          have hfree : (scan o.free u d { st with queue := q } es).stop = false := scan_free_stop o u d es _ h1
          rw [if_neg (by simp [hfree])] at h
          cases hs : (scan o u d { st with queue := q } es).stop with
          | true =>
            obtain ⟨g1, g2⟩ := hsl.2 hs
            simp only [if_true]
            obtain ⟨t, ht⟩ := loop_prefix s o.free n _ r h
            rw [g1, ht, List.take_append_of_le_length g2]
          | false =>
            obtain ⟨g1, g2⟩ := hsl.1 hs
            rw [if_neg (by simp)]
            rw [g1] at g2 ⊢
            exact ih _ r hfree g2 h

/-- C42: with a limit and no filter on node types, `Neighbors` returns the first `limit` of the nodes it returns without a
limit, so min(limit, all) of them. -/
theorem C42_limit_counts_partial (s : State) (h : Inv s) (id : String) (o : Opts) (hl : 0 < o.limit)
    (hd : GoodDir o.direction) (ht : o.nodeTypes = []) :
    ∃ all, neighbors s id o.free = some (some all) ∧ neighbors s id o = some (some (all.take o.limit.toNat)) ∧
      (all.take o.limit.toNat).length = min o.limit.toNat all.length := by
  obtain ⟨ids, h1, h2, h3, h4⟩ := unlimited_ids s id o.free (by simp [Opts.free]) hd
  have h5 := loop_limit s o hl _ _ ids rfl (by simpa using hl) h1
  have hsome : ∀ i ∈ ids, (getNode s i).isSome := by
    intro i hi
    obtain ⟨h6, k, hk, w⟩ := (h4 i).1 hi
    cases w with
    | nil => exact absurd rfl h6
    | snoc w hs =>
      obtain ⟨e, he, -, hdir⟩ := hs
      obtain ⟨⟨x, hx, hx'⟩, y, hy, hy'⟩ := h.1 e he
      have hcases : i = e.src ∨ i = e.dst := by
        rcases hdir with h8 | h8
        · exact Or.inr h8.2.2.symm
        · exact Or.inl h8.2.2.symm
      rcases hcases with rfl | rfl
      · rw [(getNode_mem s h.2 _ x).2 ⟨hx, hx'⟩]; rfl
      · rw [(getNode_mem s h.2 _ y).2 ⟨hy, hy'⟩]; rfl
  have hload : ∀ l : List String, (∀ i ∈ l, (getNode s i).isSome) → ∀ k, loadNeighbors s [] (l.take k) = (loadNeighbors s [] l).take k := by
    intro l
    unfold loadNeighbors
    simp only [true_or, decide_true, List.filter_true]
    induction l with
    | nil => intro _ k; simp
    | cons i l ih =>
      intro hl k
      cases k with
      | zero => simp
      | succ k =>
        have hi := hl i List.mem_cons_self
        rw [Option.isSome_iff_exists] at hi
        obtain ⟨n, hn⟩ := hi
        simp only [List.take_succ_cons, List.filterMap_cons, hn]
        rw [ih (fun j hj => hl j (List.mem_cons_of_mem _ hj))]
  refine ⟨loadNeighbors s o.free.nodeTypes ids, ?_, ?_, List.length_take⟩
  · unfold neighbors; rw [h1]; rfl
  · unfold neighbors
    rw [h5]
    simp only [Option.map_some, ht, show o.free.nodeTypes = o.nodeTypes from rfl]
    rw [hload ids hsome]

/-- C42: with a limit and a filter on node types the limit is applied first: `Neighbors` returns the nodes of a wanted type
among the first `limit` nodes it would return without limit and without the filter. -/
theorem C42_limit_before_types_partial (s : State) (h : Inv s) (id : String) (o : Opts) (hl : 0 < o.limit)
    (hd : GoodDir o.direction) (ht : o.nodeTypes ≠ []) :
    ∃ all, neighbors s id { o with limit := 0, nodeTypes := [] } = some (some all) ∧
      neighbors s id o = some (some ((all.take o.limit.toNat).filter (fun n => decide (n.ntype ∈ o.nodeTypes)))) := by
  obtain ⟨all, h1, h2, -⟩ := C42_limit_counts_partial s h id { o with nodeTypes := [] } hl hd rfl
  refine ⟨all, h1, ?_⟩
  have hloop : ∀ n st, neighborLoop s { o with nodeTypes := [] } n st = neighborLoop s o n st := by
    have hscan : ∀ u d es st, scan { o with nodeTypes := [] } u d st es = scan o u d st es := by
      intro u d es
      induction es with
      | nil => intro st; rfl
      | cons e es ih =>
        intro st
        simp only [scan, ih]
        rfl
    intro n
    induction n with
    | zero => intro st; unfold neighborLoop; cases st.queue <;> rfl
    | succ n ih =>
      intro st
      unfold neighborLoop
      simp only [hscan, ih]
      rfl
  unfold neighbors at h2 ⊢
  rw [hloop] at h2
  cases h3 : neighborLoop s o (fuelA s) { visited := [id], ids := [], queue := [(id, 0)], stop := false } with
  | none => rw [h3] at h2; simp at h2
  | some r =>
    rw [h3] at h2
    cases r with
    | none => simp at h2
    | some ids =>
      simp only [Option.map_some, Option.some.injEq] at h2 ⊢
      rw [← h2]
      simp [loadNeighbors, ht]

/-- C42: an unknown direction is an error. -/
theorem C42_unknown_direction_is_error (s : State) (id : String) (o : Opts) (h : ¬ GoodDir o.direction) :
    neighbors s id o = some none := by
  have hb : parseDir o.direction = .bad := by
    unfold GoodDir at h
    push Not at h
    simp [parseDir, h.1, h.2.1, h.2.2.1, h.2.2.2]
  unfold neighbors fuelA
  rw [nl_succ _ _ _ _ _ _ _ rfl]
  have hd : ¬ (0 ≥ o.depth) := by rw [depth_eq]; unfold effDepth; omega
  simp only [if_neg hd, hb, getEdges, Option.map_some, Option.map_none]

def typed (i t : String) : Node := ⟨i, [1], "", t, ""⟩
def link (i a b : String) : Edge := ⟨i, a, b, "knows", 1, "", []⟩
def small : State := ⟨[typed "a" "person", typed "b" "place", typed "c" "person"], [link "1" "a" "b", link "2" "a" "c"], none⟩

theorem small_inv : Inv small := by
  refine ⟨?_, ?_⟩
  · intro e he
    simp only [small, List.mem_cons, List.not_mem_nil, or_false] at he
    rcases he with rfl | rfl <;> simp [small, typed, link]
  · unfold Unique; decide +kernel

/-- C42: the limit is counted before the type filter, so a wanted neighbour within the limit can be left out. -/
theorem C42_limit_with_type_filter_violated :
    neighbors small "a" ⟨1, [], ["person"], "out", 1⟩ = some (some []) ∧
    neighbors small "a" ⟨1, [], ["person"], "out", 0⟩ = some (some [typed "c" "person"]) := by
  constructor <;> decide +kernel

example : neighbors small "b" ⟨2, [], [], "", 0⟩ = some (some [typed "a" "person", typed "c" "person"]) := by decide +kernel
example : neighbors small "b" ⟨2, [], ["person"], "", 1⟩ = some (some [typed "a" "person"]) := by decide +kernel
example : neighbors small "b" ⟨2, [], [], "", 1⟩ = some (some [typed "a" "person"]) := by decide +kernel

/-! ### C44 -/

/-- One undirected step. -/
def Joined (s : State) (a b : String) : Prop := ∃ e ∈ s.edges, (e.src = a ∧ e.dst = b) ∨ (e.dst = a ∧ e.src = b)

theorem Joined.symm {s : State} {a b : String} (h : Joined s a b) : Joined s b a := by
  obtain ⟨e, he, h | h⟩ := h
  · exact ⟨e, he, Or.inr ⟨h.2, h.1⟩⟩
  · exact ⟨e, he, Or.inl ⟨h.2, h.1⟩⟩

def uadj (s : State) (u : String) : List String := (s.edges.filter (fun e => decide (e.src = u ∨ e.dst = u))).map (other u)

theorem mem_uadj (s : State) (a b : String) : b ∈ uadj s a ↔ Joined s a b := by
  have h := mem_nadj s ⟨1, [], [], "both", 0⟩ (by simp [GoodDir]) a b
  have h' : Allowed s ⟨1, [], [], "both", 0⟩ a b ↔ Joined s a b := by
    unfold Allowed Joined
    simp
  rw [← h', ← h]
  unfold nadj uadj
  simp [pd_both, dirEdges]

theorem connLoop_eq (s : State) (M : Nat) (t : String) : ∀ (n : Nat) (vis : List String) (q : List (String × Nat)),
    connLoop s M t n vis q = (bfsB (fun u d => (uadj s u).map (fun v => (v, d + 1))) (fun d => (some M).any (fun m => decide (m ≤ id d))) t n vis q).map
      Option.isSome := by
  intro n
  induction n with
  | zero => intro vis q; cases q <;> simp [connLoop, bfsB]
  | succ n ih =>
    intro vis q
    cases q with
    | nil => simp [connLoop, bfsB]
    | cons x q =>
      obtain ⟨u, d⟩ := x
      simp only [connLoop, bfsB, Option.any_some, id, decide_eq_true_eq, ge_iff_le]
      split_ifs
      · rfl
      · rw [ih]; simp
      · rw [ih]; simp
      · rw [ih, List.filter_map]
        simp only [uadj, Option.any_some, id, List.map_map, List.filter_map]
        rfl

theorem double_count {β : Type} (p : String → β → Bool) (c : Nat) (l : List String) (E : List β)
    (h : ∀ e ∈ E, (l.filter (fun v => p v e)).length ≤ c) : (l.map (fun v => (E.filter (p v)).length)).sum ≤ c * E.length := by
  induction E with
  | nil => simp
  | cons e E ih =>
    have h1 := ih (fun x hx => h x (List.mem_cons_of_mem _ hx))
    have h2 := h e List.mem_cons_self
    have h3 : (l.map (fun v => ((e :: E).filter (p v)).length)).sum =
        (l.filter (fun v => p v e)).length + (l.map (fun v => (E.filter (p v)).length)).sum := by
      clear h1 h2 ih h
      induction l with
      | nil => simp
      | cons v l ihl =>
        simp only [List.map_cons, List.sum_cons, ihl]
        cases hv : p v e
        · rw [List.filter_cons_of_neg (by simp [hv]), List.filter_cons_of_neg (by simp [hv])]; omega
        · rw [List.filter_cons_of_pos hv, List.filter_cons_of_pos (p := fun v => p v e) hv]
          simp only [List.length_cons]; omega
    rw [h3, List.length_cons, Nat.mul_succ]
    omega

theorem two_of (l : List String) (h : l.Nodup) (a b : String) : (l.filter (fun v => decide (a = v ∨ b = v))).length ≤ 2 := by
  have : (l.filter (fun v => decide (a = v ∨ b = v))).Subperm [a, b] := by
    apply List.subperm_of_subset (h.filter _)
    intro v hv
    simp only [List.mem_filter, decide_eq_true_eq] at hv
    rcases hv.2 with rfl | rfl <;> simp
  exact this.length_le

theorem one_of (l : List String) (h : l.Nodup) (a : String) : (l.filter (fun v => decide (a = v))).length ≤ 1 := by
  have : (l.filter (fun v => decide (a = v))).Subperm [a] := by
    apply List.subperm_of_subset (h.filter _)
    intro v hv
    simp only [List.mem_filter, decide_eq_true_eq] at hv
    simp [hv.2]
  exact this.length_le

theorem uadj_fuel (s : State) (vis : List String) :
    (((ends s).dedup.filter (fun v => decide (v ∉ vis))).map (fun v => (uadj s v).length)).sum ≤ 2 * s.edges.length := by
  have := double_count (fun v (e : Edge) => decide (e.src = v ∨ e.dst = v)) 2 ((ends s).dedup.filter (fun v => decide (v ∉ vis)))
    s.edges (fun e _ => two_of _ ((List.nodup_dedup _).filter _) e.src e.dst)
  simpa [uadj] using this

/-- C44: `Connected` always answers, and the answer is true exactly when an undirected walk of at most the given depth (6 when
none is given) joins the two. -/
theorem C44_connected_decides_reachability (s : State) (a b : String) (depth : Int) :
    ∃ r, connected s a b depth = some r ∧
      (r = true ↔ Within (Joined s) (if depth ≤ 0 then 6 else depth.toNat) a b) := by
  unfold connected
  by_cases hab : a = b
  · subst hab
    rw [if_pos rfl]
    exact ⟨true, rfl, by simp only [true_iff]; exact ⟨0, Nat.zero_le _, .nil⟩⟩
  · rw [if_neg hab, connLoop_eq]
    generalize (if depth ≤ 0 then 6 else depth.toNat) = M
    obtain ⟨r, hr⟩ := bfsB_fuel (uadj s) (fun u d => (uadj s u).map (fun v => (v, d + 1))) (by intro u p; simp [List.map_map, Function.comp_def])
      (fun d => (some M).any (fun m => decide (m ≤ id d))) b (ends s).dedup (List.nodup_dedup _) (by
        intro x hx
        rw [List.eq_nil_iff_forall_not_mem]
        intro y hy
        obtain ⟨e, he, h1⟩ := (mem_uadj s x y).1 hy
        apply hx
        rw [List.mem_dedup]
        unfold ends
        simp only [List.mem_flatMap]
        refine ⟨e, he, ?_⟩
        rcases h1 with h1 | h1 <;> simp [← h1.1]) (fuelA s) [] [(a, 0)] (by
        have := uadj_fuel s []
        unfold fuelA
        simp only [List.length_singleton]
        omega)
    rw [hr]
    have hc := bfsB_correct (uadj s) (fun u d => (uadj s u).map (fun v => (v, d + 1))) (by intro u p; simp [List.map_map, Function.comp_def])
      id (by intro u p x hx; simp only [List.mem_map] at hx; obtain ⟨v, -, rfl⟩ := hx; rfl) (some M) a b 0 rfl (fuelA s) r hr
    have hwm : ∀ k, Walk (fun x y => y ∈ uadj s x) a k b ↔ Walk (Joined s) a k b := fun k =>
      ⟨fun w => w.mono (fun x y h => (mem_uadj s x y).1 h), fun w => w.mono (fun x y h => (mem_uadj s x y).2 h)⟩
    refine ⟨r.isSome, rfl, ?_⟩
    cases r with
    | none =>
      simp only [Option.isSome_none, Bool.false_eq_true, false_iff]
      rintro ⟨k, hk, w⟩
      exact hc.2 rfl k (by intro m hm; simp at hm; omega) ((hwm k).2 w)
    | some x =>
      simp only [Option.isSome_some, true_iff]
      obtain ⟨h1, h2, h3, h4⟩ := hc.1 x rfl
      have hd : ∀ u p, Deriv (fun u d => (uadj s u).map (fun v => (v, d + 1))) a 0 u p → Walk (Joined s) a p u := by
        intro u p hd
        induction hd with
        | start => exact .nil
        | step _ hx ih =>
          simp only [List.mem_map, Prod.mk.injEq] at hx
          obtain ⟨v, hv, rfl, rfl⟩ := hx
          exact .snoc ih ((mem_uadj s _ _).1 hv)
      exact ⟨x.2, h3 M (by simp), hd _ _ h2⟩

example : connected small "b" "c" 2 = some true ∧ connected small "b" "c" 1 = some false := by
  constructor <;> decide +kernel

/-! ### C43 -/

/-- One directed step. -/
def Follows (s : State) (a b : String) : Prop := ∃ e ∈ s.edges, e.src = a ∧ e.dst = b

/-- A chain of stored edges: `es` leads through the nodes `ids`, first to last. -/
inductive Chain (s : State) : List String → List Edge → Prop
  | one (a : String) : Chain s [a] []
  | snoc {ids es a e} : Chain s (ids ++ [a]) es → e ∈ s.edges → e.src = a → Chain s (ids ++ [a] ++ [e.dst]) (es ++ [e])

def oadj (s : State) (u : String) : List String := (s.edges.filter (fun e => decide (e.src = u))).map Edge.dst

theorem mem_oadj (s : State) (a b : String) : b ∈ oadj s a ↔ Follows s a b := by
  unfold oadj Follows
  simp only [List.mem_map, List.mem_filter, decide_eq_true_eq, and_assoc]

def isucc (s : State) (u : String) (c : Item) : List (String × Item) :=
  (s.edges.filter (fun e => decide (e.src = u))).map (fun e => (e.dst,
    { node := e.dst, path := c.path ++ [e.dst], edges := c.edges ++ [e.id], distance := c.distance + 1, weight := c.weight + e.weight }))

theorem pathLoop_eq (s : State) (t : String) : ∀ (n : Nat) (vis : List String) (q : List Item),
    pathLoop s t n vis q = (bfsB (isucc s) (fun p => (none : Option Nat).any (fun m => decide (m ≤ p.distance))) t n vis
      (q.map (fun c => (c.node, c)))).map (fun r => r.map Prod.snd) := by
  intro n
  induction n with
  | zero => intro vis q; cases q <;> simp [pathLoop, bfsB]
  | succ n ih =>
    intro vis q
    cases q with
    | nil => simp [pathLoop, bfsB]
    | cons c q =>
      simp only [pathLoop, bfsB, List.map_cons, Option.any_none, Bool.false_eq_true, if_false]
      split_ifs
      · rfl
      · exact ih vis q
      · rw [ih]
        simp only [Option.any_none]
        congr 2
        rw [List.map_append]
        congr 1
        simp only [pushEdges, isucc, List.map_map, List.filter_map]
        rfl

theorem oadj_fuel (s : State) (vis : List String) :
    (((ends s).dedup.filter (fun v => decide (v ∉ vis))).map (fun v => (oadj s v).length)).sum ≤ 1 * s.edges.length := by
  have := double_count (fun v (e : Edge) => decide (e.src = v)) 1 ((ends s).dedup.filter (fun v => decide (v ∉ vis)))
    s.edges (fun e _ => one_of _ ((List.nodup_dedup _).filter _) e.src)
  simpa [oadj] using this

theorem lookups_some {α : Type} (f : String → Option α) (g : α → String) (hg : ∀ i a, f i = some a → g a = i) :
    ∀ l, (∀ i ∈ l, (f i).isSome) → ∃ r, lookups f l = some r ∧ r.map g = l ∧ ∀ a ∈ r, ∃ i, f i = some a := by
  intro l
  induction l with
  | nil => intro _; exact ⟨[], rfl, rfl, by simp⟩
  | cons i l ih =>
    intro h
    have hi := h i List.mem_cons_self
    rw [Option.isSome_iff_exists] at hi
    obtain ⟨a, ha⟩ := hi
    obtain ⟨r, h1, h2, h3⟩ := ih (fun j hj => h j (List.mem_cons_of_mem _ hj))
    refine ⟨a :: r, by simp [lookups, ha, h1], by simp [h2, hg i a ha], ?_⟩
    intro b hb
    rcases List.mem_cons.1 hb with rfl | hb
    · exact ⟨i, ha⟩
    · exact h3 b hb

theorem getEdge_mem (s : State) (h : Unique s) (i : String) (n : Edge) :
    s.edges.find? (fun e => decide (e.id = i)) = some n ↔ n ∈ s.edges ∧ n.id = i := by
  have hn := h.2
  generalize s.edges = l at hn ⊢
  induction l with
  | nil => simp
  | cons x l ih =>
    simp only [List.map_cons, List.nodup_cons] at hn
    rw [List.find?_cons]
    by_cases hx : x.id = i
    · simp only [hx, decide_true, Option.some.injEq, List.mem_cons]
      constructor
      · rintro rfl; exact ⟨Or.inl rfl, hx⟩
      · rintro ⟨rfl | h1, h2⟩
        · rfl
        · exact absurd (List.mem_map.2 ⟨n, h1, h2.trans hx.symm⟩) hn.1
    · simp only [hx, decide_false, List.mem_cons]
      refine (ih hn.2).trans ?_
      constructor
      · rintro ⟨h1, h2⟩; exact ⟨Or.inr h1, h2⟩
      · rintro ⟨rfl | h1, h2⟩
        · exact absurd h2 hx
        · exact ⟨h1, h2⟩

/-- What an item in the queue says. -/
def Good (s : State) (a : String) (c : Item) : Prop :=
  ∃ es, Chain s c.path es ∧ c.path.head? = some a ∧ c.path.getLast? = some c.node ∧ c.edges = es.map Edge.id ∧
    c.distance = es.length ∧ c.weight = (es.map Edge.weight).sum ∧ (∀ e ∈ es, e ∈ s.edges)

theorem deriv_good (s : State) (a : String) (u : String) (c : Item)
    (h : Deriv (isucc s) a ⟨a, [a], [], 0, 0⟩ u c) : Good s a c ∧ c.node = u := by
  induction h with
  | start => exact ⟨⟨[], .one a, rfl, rfl, rfl, rfl, rfl, by simp⟩, rfl⟩
  | step _ hx ih =>
    obtain ⟨⟨es, h1, h2, h3, h4, h5, h6, h7⟩, rfl⟩ := ih
    rename_i p v p' _
    simp only [isucc, List.mem_map, List.mem_filter, decide_eq_true_eq, Prod.mk.injEq] at hx
    obtain ⟨e, ⟨he, hes⟩, rfl, rfl⟩ := hx
    refine ⟨⟨es ++ [e], ?_, ?_, ?_, ?_, ?_, ?_, ?_⟩, rfl⟩
    · obtain ⟨ids, hids⟩ : ∃ ids, p.path = ids ++ [p.node] := by
        rw [List.getLast?_eq_some_iff] at h3
        obtain ⟨ids, hids⟩ := h3
        exact ⟨ids, hids⟩
      simp only
      rw [hids] at h1 ⊢
      exact .snoc h1 he hes
    · simp only
      cases hp : p.path with
      | nil => simp [hp] at h2
      | cons x l => simp only [hp, List.head?_cons] at h2; simpa using h2
    · simp
    · simp [h4]
    · simp [h5]
    · simp [h6]
    · intro x hx
      rcases List.mem_append.1 hx with h | h
      · exact h7 x h
      · simp only [List.mem_singleton] at h; exact h ▸ he

theorem chain_walk {s : State} {ids : List String} {es : List Edge} (h : Chain s ids es) :
    ∀ x ∈ ids, ids.head? = some x ∨ ∃ e ∈ s.edges, e.dst = x := by
  induction h with
  | one a => intro x hx; simp only [List.mem_singleton] at hx; subst hx; exact Or.inl rfl
  | snoc hc he hs ih =>
    rename_i ids es a e
    intro x hx
    rcases List.mem_append.1 hx with hx | hx
    · rcases ih x hx with h1 | h1
      · left
        rw [List.head?_append, h1]
        rfl
      · exact Or.inr h1
    · simp only [List.mem_singleton] at hx
      exact Or.inr ⟨e, he, hx.symm⟩

/-- C43: `ShortestPath` always answers. When a directed walk joins two different stored nodes it returns a chain of stored
nodes and edges between them with no more hops than any walk, the distance being the number of edges and the weight their
sum; when there is none it says so. -/
theorem C43_shortest_path (s : State) (h : Inv s) (a b : String) (ha : ∃ n ∈ s.nodes, n.id = a) :
    ∃ r, shortestPath s a b = some r ∧
      (Reach (Follows s) a b → ∃ p, r = .path p ∧
        Chain s (p.nodes.map Node.id) p.edges ∧ (p.nodes.map Node.id).head? = some a ∧
        (p.nodes.map Node.id).getLast? = some b ∧ (∀ n ∈ p.nodes, n ∈ s.nodes) ∧ (∀ e ∈ p.edges, e ∈ s.edges) ∧
        p.distance = p.edges.length ∧ p.weight = (p.edges.map Edge.weight).sum ∧
        ∀ k, Walk (Follows s) a k b → p.distance ≤ k) ∧
      (¬ Reach (Follows s) a b → r = .noPath) := by
  unfold shortestPath
  by_cases hab : a = b
  · subst hab
    rw [if_pos rfl]
    obtain ⟨n, hn, hna⟩ := ha
    rw [(getNode_mem s h.2 a n).2 ⟨hn, hna⟩]
    refine ⟨_, rfl, ?_, fun hr => absurd (Reach.refl a) hr⟩
    intro _
    refine ⟨_, rfl, ?_, by simp [hna], by simp [hna], by simp [hn], by simp, rfl, by simp, fun k _ => Nat.zero_le k⟩
    simp only [List.map_cons, List.map_nil]
    exact .one _
  · rw [if_neg hab]
    have hadj : ∀ u p, (isucc s u p).map Prod.fst = oadj s u := by
      intro u p
      simp [isucc, oadj, List.map_map, Function.comp_def]
    obtain ⟨r, hr⟩ := bfsB_fuel (oadj s) (isucc s) hadj
      (fun p => (none : Option Nat).any (fun m => decide (m ≤ p.distance))) b (ends s).dedup (List.nodup_dedup _) (by
        intro x hx
        rw [List.eq_nil_iff_forall_not_mem]
        intro y hy
        obtain ⟨e, he, h1⟩ := (mem_oadj s x y).1 hy
        apply hx
        rw [List.mem_dedup]
        unfold ends
        simp only [List.mem_flatMap]
        exact ⟨e, he, by simp [← h1.1]⟩) (fuelA s) [] [(a, ⟨a, [a], [], 0, 0⟩)] (by
        have := oadj_fuel s []
        unfold fuelA
        simp only [List.length_singleton]
        omega)
    have hc := bfsB_correct (oadj s) (isucc s) hadj Item.distance
      (by intro u p x hx; simp only [isucc, List.mem_map] at hx; obtain ⟨v, -, rfl⟩ := hx; rfl) none a b ⟨a, [a], [], 0, 0⟩ rfl
      (fuelA s) r hr
    have hwm : ∀ k, Walk (fun x y => y ∈ oadj s x) a k b ↔ Walk (Follows s) a k b := fun k =>
      ⟨fun w => w.mono (fun x y h => (mem_oadj s x y).1 h), fun w => w.mono (fun x y h => (mem_oadj s x y).2 h)⟩
    have hloop := pathLoop_eq s b (fuelA s) [] [⟨a, [a], [], 0, 0⟩]
    simp only [List.map_cons, List.map_nil] at hloop
    rw [hloop, hr]
    cases r with
    | none =>
      refine ⟨.noPath, rfl, ?_, fun _ => rfl⟩
      rintro ⟨k, w⟩
      exact absurd ((hwm k).2 w) (hc.2 rfl k (by simp))
    | some x =>
      obtain ⟨h1, h2, -, h4⟩ := hc.1 x rfl
      obtain ⟨⟨es, g1, g2, g3, g4, g5, g6, g7⟩, g8⟩ := deriv_good s a b x.2 h2
      have hstored : ∀ i ∈ x.2.path, (getNode s i).isSome := by
        intro i hi
        rcases chain_walk g1 i hi with h5 | ⟨e, he, h5⟩
        · rw [g2] at h5
          obtain ⟨n, hn, hna⟩ := ha
          simp only [Option.some.injEq] at h5
          subst h5
          rw [(getNode_mem s h.2 _ n).2 ⟨hn, hna⟩]; rfl
        · obtain ⟨-, n, hn, hne⟩ := h.1 e he
          rw [(getNode_mem s h.2 i n).2 ⟨hn, hne.trans h5⟩]; rfl
      obtain ⟨ns, n1, n2, n3⟩ := lookups_some (getNode s) Node.id (fun i n hi => ((getNode_mem s h.2 i n).1 hi).2) _ hstored
      have hedges : lookups (fun i => s.edges.find? (fun e => decide (e.id = i))) x.2.edges = some es := by
        rw [g4]
        clear g1 g4 g5 g6
        induction es with
        | nil => rfl
        | cons e es ih =>
          have h5 := (getEdge_mem s h.2 e.id e).2 ⟨g7 e List.mem_cons_self, rfl⟩
          simp only [List.map_cons, lookups]
          rw [ih (fun y hy => g7 y (List.mem_cons_of_mem _ hy))]
          simp only [h5]
      have hload : loadPath s x.2 = some ⟨ns, es, x.2.distance, x.2.weight⟩ := by
        unfold loadPath
        rw [n1, hedges]
      simp only [Option.map_some, hload]
      refine ⟨_, rfl, ?_, ?_⟩
      · intro _
        refine ⟨_, rfl, ?_, ?_, ?_, ?_, g7, g5, g6, ?_⟩
        · rw [n2]; exact g1
        · rw [n2]; exact g2
        · rw [n2, g3, g8]
        · intro n hn
          obtain ⟨i, hi⟩ := n3 n hn
          exact ((getNode_mem s h.2 i n).1 hi).1
        · intro k w
          exact h4 k ((hwm k).2 w)
      · intro hno
        exfalso
        apply hno
        have hd : ∀ u p, Deriv (isucc s) a ⟨a, [a], [], 0, 0⟩ u p → Reach (Follows s) a u := by
          intro u p hd
          induction hd with
          | start => exact Reach.refl a
          | step _ hx ih =>
            rename_i p v p' _
            simp only [isucc, List.mem_map, List.mem_filter, decide_eq_true_eq, Prod.mk.injEq] at hx
            obtain ⟨e, ⟨he, hes⟩, rfl, -⟩ := hx
            exact ih.trans (Reach.single ⟨e, he, hes, rfl⟩)
        exact hd _ _ h2

/-- C43: a start that is not stored is never the start of a path. -/
theorem C43_unknown_start (s : State) (h : Inv s) (a b : String) (ha : ¬ ∃ n ∈ s.nodes, n.id = a) :
    shortestPath s a b = some .notFound ∨ shortestPath s a b = some .noPath := by
  unfold shortestPath
  by_cases hab : a = b
  · subst hab
    rw [if_pos rfl]
    left
    cases hg : getNode s a with
    | none => rfl
    | some n =>
      obtain ⟨h1, h2⟩ := (getNode_mem s h.2 a n).1 hg
      exact absurd ⟨n, h1, h2⟩ ha
  · rw [if_neg hab]
    right
    have hno : ∀ e ∈ s.edges, e.src ≠ a := fun e he h1 => ha (h1 ▸ (h.1 e he).1)
    have hp : pushEdges s [a] ⟨a, [a], [], 0, 0⟩ = [] := by
      unfold pushEdges
      have : s.edges.filter (fun e => decide (e.src = a)) = [] := by
        rw [List.filter_eq_nil_iff]
        intro e he
        simpa using hno e he
      simp [this]
    simp only [fuelA, pathLoop]
    rw [if_neg hab, if_neg (by simp), hp]
    simp [pathLoop]

example : shortestPath small "a" "c" =
    some (.path ⟨[typed "a" "person", typed "c" "person"], [link "2" "a" "c"], 1, 1⟩) := by decide +kernel
example : shortestPath small "b" "c" = some .noPath := by decide +kernel
example : Reach (Follows small) "a" "c" := Reach.single ⟨link "2" "a" "c", by simp [small], rfl, rfl⟩

/-! ### C48 -/

theorem mem_adjBoth (s : State) (a b : String) : b ∈ adjBoth s a ↔ Joined s a b := by
  unfold adjBoth Joined
  simp only [List.mem_flatMap, List.mem_append]
  constructor
  · rintro ⟨e, he, h | h⟩
    · split_ifs at h with h1
      · simp only [List.mem_singleton] at h; exact ⟨e, he, Or.inl ⟨h1, h.symm⟩⟩
      · simp at h
    · split_ifs at h with h1
      · simp only [List.mem_singleton] at h; exact ⟨e, he, Or.inr ⟨h1, h.symm⟩⟩
      · simp at h
  · rintro ⟨e, he, ⟨h1, h2⟩ | ⟨h1, h2⟩⟩
    · exact ⟨e, he, Or.inl (by simp [h1, h2])⟩
    · exact ⟨e, he, Or.inr (by simp [h1, h2])⟩

theorem flood_fold (l : List String) : ∀ (vis q : List String),
    l.foldl (fun (x : List String × List String) v => if v ∈ x.1 then x else (x.1 ++ [v], x.2 ++ [v])) (vis, q) =
      (vis ++ fresh vis l, q ++ fresh vis l) := by
  induction l with
  | nil => intro vis q; simp [fresh]
  | cons a l ih =>
    intro vis q
    simp only [List.foldl_cons, fresh]
    by_cases h : a ∈ vis
    · simp only [h, if_true]; exact ih vis q
    · simp only [h, if_false]; rw [ih]; simp

/-- The inner loop ends and adds to the visited set exactly what its queue reaches. -/
theorem flood_spec (s : State) : ∀ (n : Nat) (vis q : List String), (∀ v ∈ q, v ∈ vis) →
    (∀ v ∈ vis, v ∉ q → ∀ w, Joined s v w → w ∈ vis) →
    q.length + ((ends s).filter (fun v => decide (v ∉ vis))).length ≤ n →
    ∃ r, flood s n vis q = some r ∧ (∀ v ∈ vis, v ∈ r) ∧ (∀ v ∈ r, ∀ w, Joined s v w → w ∈ r) ∧
      (∀ v ∈ r, v ∈ vis ∨ ∃ u ∈ q, Reach (Joined s) u v) := by
  intro n
  induction n with
  | zero =>
    intro vis q _ hc h
    have : q = [] := List.length_eq_zero_iff.1 (by omega)
    subst this
    exact ⟨vis, rfl, fun v h => h, fun v hv w hw => hc v hv (by simp) w hw, fun v hv => Or.inl hv⟩
  | succ n ih =>
    intro vis q hq hc h
    cases q with
    | nil => exact ⟨vis, rfl, fun v h => h, fun v hv w hw => hc v hv (by simp) w hw, fun v hv => Or.inl hv⟩
    | cons u q =>
      simp only [flood, flood_fold]
      have h1 := unseen_append (ends s) vis (fresh vis (adjBoth s u)) (fresh_nodup _ _) (by
        intro v hv
        obtain ⟨h2, h3⟩ := (mem_fresh _ _ _).1 hv
        refine ⟨?_, h3⟩
        obtain ⟨e, he, h4⟩ := (mem_adjBoth s u v).1 h2
        unfold ends
        simp only [List.mem_flatMap]
        refine ⟨e, he, ?_⟩
        rcases h4 with h4 | h4 <;> simp [← h4.2])
      simp only [List.length_cons] at h
      obtain ⟨r, g1, g2, g3, g4⟩ := ih (vis ++ fresh vis (adjBoth s u)) (q ++ fresh vis (adjBoth s u)) (by
          intro v hv
          rcases List.mem_append.1 hv with h2 | h2
          · exact List.mem_append_left _ (hq v (List.mem_cons_of_mem _ h2))
          · exact List.mem_append_right _ h2) (by
          intro v hv hvq w hw
          rw [List.mem_append, not_or] at hvq
          rcases List.mem_append.1 hv with h2 | h2
          · by_cases hvu : v = u
            · subst hvu
              by_cases hwv : w ∈ vis
              · exact List.mem_append_left _ hwv
              · exact List.mem_append_right _ ((mem_fresh _ _ _).2 ⟨(mem_adjBoth s v w).2 hw, hwv⟩)
            · exact List.mem_append_left _ (hc v h2 (by simp [hvu, hvq.1]) w hw)
          · exact absurd h2 hvq.2) (by simp only [List.length_append]; omega)
      refine ⟨r, g1, fun v hv => g2 v (List.mem_append_left _ hv), g3, ?_⟩
      intro v hv
      rcases g4 v hv with h2 | ⟨x, hx, h2⟩
      · rcases List.mem_append.1 h2 with h3 | h3
        · exact Or.inl h3
        · exact Or.inr ⟨u, List.mem_cons_self, Reach.single ((mem_adjBoth s u v).1 ((mem_fresh _ _ _).1 h3).1)⟩
      · rcases List.mem_append.1 hx with h3 | h3
        · exact Or.inr ⟨x, List.mem_cons_of_mem _ h3, h2⟩
        · exact Or.inr ⟨u, List.mem_cons_self,
            (Reach.single ((mem_adjBoth s u x).1 ((mem_fresh _ _ _).1 h3).1)).trans h2⟩

theorem count_spec (s : State) : ∀ (ids vis reps : List String),
    (∀ v ∈ vis, ∀ w, Joined s v w → w ∈ vis) → (∀ r ∈ reps, r ∈ vis) → (∀ v ∈ vis, ∃ r ∈ reps, Reach (Joined s) r v) →
    reps.Pairwise (fun a b => ¬ Reach (Joined s) a b) →
    ∃ more, countComponents s ids vis reps.length = some (reps ++ more).length ∧ (∀ r ∈ more, r ∈ ids) ∧
      (reps ++ more).Pairwise (fun a b => ¬ Reach (Joined s) a b) ∧
      (∀ v ∈ ids, ∃ r ∈ reps ++ more, Reach (Joined s) r v) := by
  intro ids
  induction ids with
  | nil =>
    intro vis reps _ _ _ hp
    exact ⟨[], by simp [countComponents], by simp, by simpa using hp, by simp⟩
  | cons i ids ih =>
    intro vis reps hc hr hv hp
    simp only [countComponents]
    by_cases hi : i ∈ vis
    · rw [if_pos hi]
      obtain ⟨more, h1, h2, h3, h4⟩ := ih vis reps hc hr hv hp
      refine ⟨more, h1, fun r hr => List.mem_cons_of_mem _ (h2 r hr), h3, ?_⟩
      intro v hvm
      rcases List.mem_cons.1 hvm with rfl | hvm
      · obtain ⟨r, h5, h6⟩ := hv v hi
        exact ⟨r, List.mem_append_left _ h5, h6⟩
      · exact h4 v hvm
    · rw [if_neg hi]
      obtain ⟨r, g1, g2, g3, g4⟩ := flood_spec s (fuelA s) (vis ++ [i]) [i] (by simp) (by
          intro v hvm hvi w hw
          simp only [List.mem_singleton] at hvi
          rcases List.mem_append.1 hvm with h1 | h1
          · exact List.mem_append_left _ (hc v h1 w hw)
          · simp only [List.mem_singleton] at h1; exact absurd h1 hvi) (by
          have h1 := List.length_filter_le (fun v => decide (v ∉ vis ++ [i])) (ends s)
          rw [ends_length] at h1
          unfold fuelA
          simp only [List.length_singleton]
          omega)
      rw [g1]
      have hnew : ∀ x ∈ reps, ¬ Reach (Joined s) x i := by
        intro x hx hxi
        exact hi (reach_closed (fun v => v ∈ vis) (hr x hx) (fun a b ha hab => hc a ha b hab) hxi)
      obtain ⟨more, h1, h2, h3, h4⟩ := ih r (reps ++ [i]) g3 (by
          intro x hx
          rcases List.mem_append.1 hx with h1 | h1
          · exact g2 x (List.mem_append_left _ (hr x h1))
          · simp only [List.mem_singleton] at h1; exact g2 x (by simp [h1])) (by
          intro v hvr
          rcases g4 v hvr with h1 | ⟨u, hu, h1⟩
          · rcases List.mem_append.1 h1 with h2 | h2
            · obtain ⟨x, hx, h3⟩ := hv v h2
              exact ⟨x, List.mem_append_left _ hx, h3⟩
            · simp only [List.mem_singleton] at h2
              subst h2
              exact ⟨v, by simp, Reach.refl v⟩
          · simp only [List.mem_singleton] at hu
            exact ⟨i, by simp, hu ▸ h1⟩) (by
          rw [List.pairwise_append]
          refine ⟨hp, List.pairwise_singleton _ _, ?_⟩
          intro x hx y hy
          simp only [List.mem_singleton] at hy
          subst hy
          exact hnew x hx)
      refine ⟨i :: more, ?_, ?_, ?_, ?_⟩
      · simp only
        rw [List.length_append, List.length_singleton] at h1
        rw [h1]
        simp
      · intro x hx
        rcases List.mem_cons.1 hx with rfl | hx
        · exact List.mem_cons_self
        · exact List.mem_cons_of_mem _ (h2 x hx)
      · simpa using h3
      · intro v hvm
        rcases List.mem_cons.1 hvm with rfl | hvm
        · exact ⟨v, by simp, Reach.refl v⟩
        · obtain ⟨x, hx, h5⟩ := h4 v hvm
          exact ⟨x, by simpa using hx, h5⟩

/-- C48: the statistics count the stored nodes and edges, and the component count is the number of classes of undirected
reachability: there are that many nodes no two of which are connected, and every node is connected to one of them. -/
theorem C48_statistics_count_components (s : State) (hne : s.nodes ≠ []) :
    ∃ st, statistics s = some st ∧ st.nodeCount = s.nodes.length ∧ st.edgeCount = s.edges.length ∧
      st.averageDegree * s.nodes.length = 2 * s.edges.length ∧
      ∃ reps : List String, reps.length = st.components ∧ (∀ r ∈ reps, ∃ n ∈ s.nodes, n.id = r) ∧
        reps.Pairwise (fun a b => ¬ Reach (Joined s) a b) ∧
        ∀ n ∈ s.nodes, ∃ r ∈ reps, Reach (Joined s) r n.id := by
  have hpos : s.nodes.length ≠ 0 := by rw [Ne, List.length_eq_zero_iff]; exact hne
  obtain ⟨more, h1, h2, h3, h4⟩ := count_spec s (s.nodes.map Node.id) [] [] (by simp) (by simp) (by simp) List.Pairwise.nil
  unfold statistics
  rw [if_neg hpos]
  simp only [List.length_nil, List.nil_append] at h1 h3 h4
  rw [h1]
  refine ⟨_, rfl, rfl, rfl, ?_, more, rfl, ?_, h3, ?_⟩
  · have : (s.nodes.length : ℚ) ≠ 0 := by exact_mod_cast hpos
    simp only
    exact div_mul_cancel₀ _ this
  · intro r hr
    obtain ⟨n, hn, h5⟩ := List.mem_map.1 (h2 r hr)
    exact ⟨n, hn, h5⟩
  · intro n hn
    exact h4 n.id (List.mem_map_of_mem hn)

/-- C48: the empty graph has no components. -/
theorem C48_empty_graph (s : State) (h : s.nodes = []) : statistics s = some ⟨0, 0, 0, 0, 0⟩ := by
  unfold statistics
  rw [if_pos (by simp [h])]

example : (statistics small).map Stats.components = some 1 := by decide +kernel

/-! ### C100 -/

/-- C100: `Subgraph` of distinct ids is the induced subgraph: exactly the stored nodes among them, each once, and exactly the
stored edges with both ends among them, each once. -/
theorem C100_subgraph_is_induced (s : State) (h : Unique s) (ids : List String) (hd : ids.Nodup) :
    ((subgraph s ids).1.map Node.id).Nodup ∧ (∀ n, n ∈ (subgraph s ids).1 ↔ n ∈ s.nodes ∧ n.id ∈ ids) ∧
    ((subgraph s ids).2.map Edge.id).Nodup ∧ (∀ e, e ∈ (subgraph s ids).2 ↔ e ∈ s.edges ∧ e.src ∈ ids ∧ e.dst ∈ ids) := by
  have hmem : ∀ (l : List String) e, e ∈ l.flatMap (fun i => (s.edges.filter (fun e => decide (e.src = i))).filter
      (fun e => decide (e.dst ∈ ids))) ↔ e ∈ s.edges ∧ e.src ∈ l ∧ e.dst ∈ ids := by
    intro l e
    simp only [List.mem_flatMap, List.mem_filter, decide_eq_true_eq]
    constructor
    · rintro ⟨i, hi, ⟨h1, rfl⟩, h2⟩; exact ⟨h1, hi, h2⟩
    · rintro ⟨h1, h2, h3⟩; exact ⟨_, h2, ⟨h1, rfl⟩, h3⟩
  refine ⟨?_, ?_, ?_, ?_⟩
  · unfold subgraph
    simp only
    rw [filterMap_ids s h]
    exact hd.filter _
  · intro n
    unfold subgraph
    simp only [List.mem_filterMap]
    constructor
    · rintro ⟨i, hi, hn⟩
      obtain ⟨h1, rfl⟩ := (getNode_mem s h i n).1 hn
      exact ⟨h1, hi⟩
    · rintro ⟨h1, h2⟩
      exact ⟨n.id, h2, (getNode_mem s h _ n).2 ⟨h1, rfl⟩⟩
  · unfold subgraph
    simp only
    have inj : ∀ x ∈ s.edges, ∀ y ∈ s.edges, x.id = y.id → x = y := by
      intro x hx y hy hxy
      have h1 := (getEdge_mem s h y.id x).2 ⟨hx, hxy⟩
      have h2 := (getEdge_mem s h y.id y).2 ⟨hy, rfl⟩
      rw [h1] at h2
      simpa using h2
    have key : ∀ l : List String, l.Nodup → ((l.flatMap (fun i => (s.edges.filter (fun e => decide (e.src = i))).filter
        (fun e => decide (e.dst ∈ ids)))).map Edge.id).Nodup := by
      intro l
      induction l with
      | nil => intro _; simp
      | cons i l ih =>
        intro hn
        rw [List.nodup_cons] at hn
        rw [List.flatMap_cons, List.map_append, List.nodup_append]
        refine ⟨h.2.sublist ((List.filter_sublist.trans List.filter_sublist).map _), ih hn.2, ?_⟩
        intro a ha b hb hab
        obtain ⟨x, hx, rfl⟩ := List.mem_map.1 ha
        obtain ⟨y, hy, rfl⟩ := List.mem_map.1 hb
        simp only [List.mem_filter, decide_eq_true_eq] at hx
        obtain ⟨h1, h2, -⟩ := (hmem l y).1 hy
        have := inj x hx.1.1 y h1 hab
        subst this
        exact hn.1 (hx.1.2 ▸ h2)
    exact key ids hd
  · intro e
    exact hmem ids e

/-- C100: a repeated id repeats its node and edges. -/
theorem C100_repeated_id_repeats : (subgraph small ["a", "a", "b"]).1.length = 3 ∧ (subgraph small ["a", "a", "b"]).2.length = 2 := by
  constructor <;> decide +kernel

example : Unique small := small_inv.2

end Verif.Graph
