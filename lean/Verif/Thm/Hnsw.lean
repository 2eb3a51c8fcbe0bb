import Verif.Thm.HnswPar

/-!
C30-C33, C108-C110: the HNSW index of the store over arbitrary histories of inserts, batches, parallel builds and deletes.
-/
namespace Verif.Hnsw
open Verif.Base Verif.Spec

variable {V : Type}

/-! ### Histories and what they mean -/

/-- A call that changes the index; the levels drawn at random and the order in which a map is visited are part of the history. -/
inductive Op (V : Type) where
  | insert (id : String) (v : V) (level : Nat)
  | batch (vs : List (String × V × Nat))
  | parallel (vs : List (String × V × Nat)) (workers : Nat)
  | delete (id : String) (order : List (Node V) → List (Node V))

/-- A map is visited in some order. -/
def Op.ok : Op V → Prop
  | .delete _ order => ∀ l, (order l).Perm l
  | _ => True

def step (E : Env V) (h : Index V) : Op V → Option (Index V)
  | .insert id v level => (insert E h id v level).map Prod.fst
  | .batch vs => insertBatch E h vs
  | .parallel vs w => insertParallel E h vs w
  | .delete id order => some (delete order h id).1

def run (E : Env V) : Index V → List (Op V) → Option (Index V)
  | h, [] => some h
  | h, op :: ops => (step E h op).bind (fun h' => run E h' ops)

/-- Specification: the vector accepted for an id and whether the id has been deleted since. -/
abbrev Contents (V : Type) := String → Option (V × Bool)

/-- An id keeps the first vector ever given for it. -/
def offer (c : Contents V) (vs : List (String × V × Nat)) : Contents V := fun x =>
  (c x).or ((vs.find? (fun p => decide (p.1 = x))).map (fun p => (p.2.1, false)))

def remove (c : Contents V) (id : String) : Contents V := fun x => if x = id then (c x).map (fun p => (p.1, true)) else c x

def effect (c : Contents V) : Op V → Contents V
  | .insert id v level => offer c [(id, v, level)]
  | .batch vs => offer c vs
  | .parallel vs _ => offer c vs
  | .delete id _ => remove c id

def after (ops : List (Op V)) : Contents V := ops.foldl effect (fun _ => none)

/-- The index holds the contents. -/
def Holds (E : Env V) (h : Index V) (c : Contents V) : Prop := ∀ x, look h x = (c x).map (fun p => (E.keep p.1, p.2))

theorem holds_offer {E : Env V} {h h' : Index V} {c : Contents V} {vs : List (String × V × Nat)} (hc : Holds E h c)
    (hl : ∀ x, look h' x = (look h x).or (firstOf E vs x)) : Holds E h' (offer c vs) := by
  intro x
  rw [hl x, hc x, offer, Option.map_or, Option.map_map]
  rfl

theorem insert_some (E : Env V) (h : Index V) (id : String) (v : V) (level : Nat) (hi : Inv h) :
    ∃ h' e, insert E h id v level = some (h', e) ∧ insertAll E true [(id, v, level)] h = some h' ∧ (e = true ↔ Stored h id) := by
  unfold insert
  by_cases hs : (getNode h id).isSome = true
  · rw [if_pos hs]
    exact ⟨h, true, rfl, by rw [insertAll, if_pos hs]; rfl, by simpa [Stored] using hs⟩
  · rw [if_neg hs]
    obtain ⟨h', b1, -⟩ := insertNew_spec E true h id v level hi hs
    exact ⟨h', false, by rw [b1]; rfl, by rw [insertAll, if_neg hs, b1]; rfl, by simpa [Stored] using hs⟩

theorem parallel_some (E : Env V) (h : Index V) (vs : List (String × V × Nat)) (w : Nat) (hi : Inv h) :
    ∃ h', insertParallel E h vs w = some h' ∧ Inv h' ∧ (h'.M = h.M ∧ h'.maxM = h.maxM ∧ h'.efC = h.efC) ∧
      ∀ x, look h' x = (look h x).or (firstOf E vs x) := by
  by_cases hw : w ≤ 1 ∨ vs.length / w < 10
  · unfold insertParallel
    rw [if_pos hw]
    obtain ⟨h', a1, a2, a3, a4, -⟩ := insertAll_spec E true vs h hi
    exact ⟨h', a1, a2, a3, a4⟩
  · obtain ⟨h', ps, a1, -, a3, a4, a5, -⟩ := parallel_spec E h vs w hi hw
    exact ⟨h', a1, a3, a4, a5⟩

theorem step_spec (E : Env V) (h : Index V) (op : Op V) (hok : op.ok) (hi : Inv h) (c : Contents V) (hc : Holds E h c) :
    ∃ h', step E h op = some h' ∧ Inv h' ∧ (h'.M = h.M ∧ h'.maxM = h.maxM ∧ h'.efC = h.efC) ∧ Holds E h' (effect c op) := by
  cases op with
  | insert id v level =>
    obtain ⟨h', e, a1, a2, -⟩ := insert_some E h id v level hi
    obtain ⟨h'', b1, b2, b3, b4, -⟩ := insertAll_spec E true [(id, v, level)] h hi
    obtain rfl : h'' = h' := by rw [a2] at b1; exact (Option.some.inj b1).symm
    exact ⟨h'', by simp [step, a1], b2, b3, holds_offer hc b4⟩
  | batch vs =>
    obtain ⟨h', b1, b2, b3, b4, -⟩ := insertAll_spec E true vs h hi
    exact ⟨h', b1, b2, b3, holds_offer hc b4⟩
  | parallel vs w =>
    obtain ⟨h', a1, a2, a3, a4⟩ := parallel_some E h vs w hi
    exact ⟨h', a1, a2, a3, holds_offer hc a4⟩
  | delete id order =>
    obtain ⟨a1, a2, -, a4, -⟩ := delete_spec order hok h id hi
    refine ⟨_, rfl, a2, a1.par, ?_⟩
    intro x
    rw [a4 x]
    change _ = Option.map _ (remove c id x)
    unfold remove
    by_cases hx : x = id
    · rw [if_pos hx, if_pos hx, hc x, Option.map_map, Option.map_map]
      rfl
    · rw [if_neg hx, if_neg hx, hc x]

theorem run_spec (E : Env V) (ops : List (Op V)) : ∀ (h : Index V) (c : Contents V), (∀ op ∈ ops, op.ok) → Inv h → Holds E h c →
    ∃ h', run E h ops = some h' ∧ Inv h' ∧ (h'.M = h.M ∧ h'.maxM = h.maxM ∧ h'.efC = h.efC) ∧ Holds E h' (ops.foldl effect c) := by
  induction ops with
  | nil => intro h c _ hi hc; exact ⟨h, rfl, hi, ⟨rfl, rfl, rfl⟩, hc⟩
  | cons op ops ih =>
    intro h c hok hi hc
    obtain ⟨h1, a1, a2, a3, a4⟩ := step_spec E h op (hok op List.mem_cons_self) hi c hc
    obtain ⟨h2, b1, b2, b3, b4⟩ := ih h1 (effect c op) (fun o ho => hok o (List.mem_cons_of_mem _ ho)) a2 a4
    exact ⟨h2, by rw [run, a1]; exact b1, b2, ⟨b3.1.trans a3.1, b3.2.1.trans a3.2.1, b3.2.2.trans a3.2.2⟩, b4⟩

theorem holds_new (E : Env V) (M efC : Nat) : Holds E (new V M efC) (fun _ => none) := by
  intro x; rfl

/-- A history from a new index never fails. -/
theorem run_new (E : Env V) (M efC : Nat) (ops : List (Op V)) (hok : ∀ op ∈ ops, op.ok) :
    ∃ h, run E (new V M efC) ops = some h ∧ Inv h ∧ (h.M = M ∧ h.maxM = M * 2 ∧ h.efC = efC) ∧ Holds E h (after ops) :=
  run_spec E ops (new V M efC) _ hok (inv_empty M (M * 2) efC) (holds_new E M efC)

theorem holds_live {E : Env V} {h : Index V} {c : Contents V} (hc : Holds E h c) (x : String) (w : V) :
    look h x = some (w, false) ↔ ∃ v, c x = some (v, false) ∧ w = E.keep v := by
  rw [hc x]
  cases c x with
  | none => simp
  | some p =>
    obtain ⟨v, d⟩ := p
    simp only [Option.map_some, Option.some.injEq, Prod.mk.injEq]
    constructor
    · rintro ⟨rfl, rfl⟩; exact ⟨v, ⟨rfl, rfl⟩, rfl⟩
    · rintro ⟨v', ⟨rfl, rfl⟩, rfl⟩; exact ⟨rfl, rfl⟩

/-! ### C30 -/

/-- C30: after any history no call and no search fails, and a search returns only ids that were inserted and not deleted, each once,
with the distance from the query to the vector kept for it, nearest first and at most `k`. -/
theorem C30_search_sound (E : Env V) (M efC : Nat) (ops : List (Op V)) (hok : ∀ op ∈ ops, op.ok) (q : V) (k ef : Nat) :
    ∃ h out, run E (new V M efC) ops = some h ∧ search E h q k ef = some out ∧
      (∀ i ∈ out, ∃ v, after ops i.id = some (v, false) ∧ i.dist = E.dist q (E.keep v)) ∧
      (out.map Item.id).Nodup ∧ out.Pairwise (fun a b => a.dist ≤ b.dist) ∧ out.length ≤ k := by
  obtain ⟨h, a1, a2, -, a4⟩ := run_new E M efC ops hok
  obtain ⟨out, b1, b2, b3, b4, b5, -⟩ := search_spec E h q k ef a2
  refine ⟨h, out, a1, b1, ?_, b2, b4, b3⟩
  intro i hi
  obtain ⟨w, hw, hd⟩ := b5 i hi
  obtain ⟨v, hv, rfl⟩ := (holds_live a4 i.id w).1 hw
  exact ⟨v, hv, hd⟩

/-- The distance between two numbers, nothing lost. -/
def lineEnv : Env Nat := ⟨fun a b => ((a - b + (b - a) : Nat) : ℚ), id⟩

/-- Four inserts, a duplicate, a delete: the search finds the three live ids with their distances. -/
example : (run lineEnv (new Nat 2 10) [.insert "a" 0 1, .insert "b" 5 0, .insert "c" 7 2, .insert "a" 9 0, .batch [("d", 3, 0)],
      .delete "b" id]).bind (fun h => search lineEnv h 6 10 10) = some [⟨"c", 1⟩, ⟨"d", 3⟩, ⟨"a", 6⟩] := by
  decide +kernel

example : ∀ op ∈ [Op.insert "a" (0 : Nat) 1, .delete "b" id], op.ok := by
  intro op hop
  simp only [List.mem_cons, List.not_mem_nil, or_false] at hop
  rcases hop with rfl | rfl
  · trivial
  · exact fun l => List.Perm.refl l

/-! ### C31 -/

theorem get_of_mem {h : Index V} (hi : Inv h) {n : Node V} (hn : n ∈ h.nodes) : getNode h n.id = some n := by
  have hs : Stored h n.id := (stored_mem h n.id).2 (List.mem_map.2 ⟨n, hn, rfl⟩)
  obtain ⟨m, hm⟩ := Option.isSome_iff_exists.1 hs
  have hmem : m ∈ h.nodes := List.mem_of_find?_eq_some hm
  have := List.inj_on_of_nodup_map hi.nd hmem hn (get_id hm)
  rw [hm, this]

/-- C31: after any history every neighbour list is free of repetition, never names its own node and names only stored nodes, and
the entry point is stored. -/
theorem C31_links_resolve (E : Env V) (M efC : Nat) (ops : List (Op V)) (hok : ∀ op ∈ ops, op.ok) :
    ∃ h, run E (new V M efC) ops = some h ∧ (h.entry = "" ∨ ∃ n ∈ h.nodes, n.id = h.entry) ∧ (h.nodes.map Node.id).Nodup ∧
      ∀ n ∈ h.nodes, ∀ l ∈ n.nbrs, l.Nodup ∧ n.id ∉ l ∧ ∀ y ∈ l, ∃ m ∈ h.nodes, m.id = y := by
  obtain ⟨h, a1, a2, -, -⟩ := run_new E M efC ops hok
  have hst : ∀ x, Stored h x → ∃ m ∈ h.nodes, m.id = x := fun x hx => List.mem_map.1 ((stored_mem h x).1 hx)
  refine ⟨h, a1, a2.entry.imp id (hst _), a2.nd, ?_⟩
  intro n hn l hl
  obtain ⟨K, hK, rfl⟩ := List.getElem_of_mem hl
  have hat : nbrsAt h n.id K = some n.nbrs[K] := by
    unfold nbrsAt
    rw [get_of_mem a2 hn]
    exact List.getElem?_eq_getElem hK
  obtain ⟨b1, b2⟩ := a2.refs n.id K _ hat
  exact ⟨b1, fun hh => (b2 _ hh).1 rfl, fun y hy => hst y (b2 y hy).2⟩

/-- C31, the layer part is violated: whenever a new id draws a level above the level of the entry point, the new node's list on
its top layer names the entry point, which does not exist on that layer. -/
theorem C31_neighbour_on_layer_violated (E : Env V) (M efC : Nat) (hM : 0 < M) (ops : List (Op V)) (hok : ∀ op ∈ ops, op.ok) (h : Index V)
    (hr : run E (new V M efC) ops = some h) (e : Node V) (he : e ∈ h.nodes) (hid : e.id = h.entry) (hne : h.entry ≠ "") (id : String)
    (hnew : after ops id = none) (v : V) (level : Nat) (hl : e.level < level) :
    ∃ h' n, insert E h id v level = some (h', false) ∧ n ∈ h'.nodes ∧ n.id = id ∧ (∃ l, n.nbrs[level]? = some l ∧ e.id ∈ l) ∧
      ∀ m ∈ h'.nodes, m.id = e.id → m.nbrs[level]? = none := by
  obtain ⟨h0, a1, a2, a3, a4⟩ := run_new E M efC ops hok
  obtain rfl : h0 = h := by rw [hr] at a1; exact (Option.some.inj a1).symm
  have hns : ¬ Stored h0 id := by
    rw [← look_isSome, a4 id, hnew]
    simp
  obtain ⟨h', b1, b2, b3, b4, b5, b6, b7, b8, b9, b10⟩ := insertNew_spec E true h0 id v level a2 hns
  have hge : getNode h0 h0.entry = some e := hid ▸ get_of_mem a2 he
  obtain ⟨⟨l, c1, c2⟩, c3⟩ := b10 e hne hge hl (by rw [a3.1]; exact hM)
  unfold nbrsAt at c1
  cases hg : getNode h' id with
  | none => rw [hg] at c1; simp at c1
  | some n =>
    rw [hg] at c1
    simp only [Option.bind_some] at c1
    refine ⟨h', n, ?_, List.mem_of_find?_eq_some hg, get_id hg, ⟨l, c1, hid ▸ c2⟩, ?_⟩
    · unfold insert
      rw [if_neg (show ¬ (getNode h0 id).isSome = true from hns), b1]
      rfl
    · intro m hm hmid
      by_contra hc
      apply c3
      rw [hasLayer_iff]
      refine ⟨m, by rw [← hid, ← hmid]; exact get_of_mem b2 hm, ?_⟩
      by_contra hlt
      exact hc (List.getElem?_eq_none (by omega))

/-- Two inserts are enough. -/
example : ((run lineEnv (new Nat 2 10) [.insert "a" 0 0, .insert "b" 5 1]).map (fun h => h.nodes.map (fun n => (n.id, n.nbrs)))) =
    some [("a", [["b"]]), ("b", [["a"], ["a"]])] := by
  decide +kernel

/-- The level drawn for a new id is not above the level of the entry point. -/
def Op.modest (h : Index V) : Op V → Prop
  | .insert _ _ level => h.entry = "" ∨ ∃ e, getNode h h.entry = some e ∧ level ≤ e.level
  | .delete _ _ => True
  | _ => False

def Modest (E : Env V) : Index V → List (Op V) → Prop
  | _, [] => True
  | h, op :: ops => op.modest h ∧ ∀ h', step E h op = some h' → Modest E h' ops

theorem layered_run (E : Env V) (ops : List (Op V)) : ∀ h : Index V, (∀ op ∈ ops, op.ok) → Modest E h ops → Inv h → Layered h →
    ∃ h', run E h ops = some h' ∧ Inv h' ∧ Layered h' := by
  induction ops with
  | nil => intro h _ _ hi hl; exact ⟨h, rfl, hi, hl⟩
  | cons op ops ih =>
    intro h hok hm hi hl
    have key : ∃ h1, step E h op = some h1 ∧ Inv h1 ∧ Layered h1 := by
      have hop := hm.1
      cases op with
      | insert id v level =>
        by_cases hs : (getNode h id).isSome = true
        · exact ⟨h, by simp only [step, insert]; rw [if_pos hs]; rfl, hi, hl⟩
        · obtain ⟨h', b1, b2, -, -, -, -, -, b8, -⟩ := insertNew_spec E true h id v level hi hs
          exact ⟨h', by simp only [step, insert]; rw [if_neg hs, b1]; rfl, b2, b8 hl hop⟩
      | batch vs => exact absurd hop id
      | parallel vs w => exact absurd hop id
      | delete id order =>
        obtain ⟨a1, a2, -⟩ := delete_spec order (hok _ List.mem_cons_self) h id hi
        exact ⟨_, rfl, a2, a1.layered hl⟩
    obtain ⟨h1, a1, a2, a3⟩ := key
    obtain ⟨h2, b1, b2, b3⟩ := ih h1 (fun o ho => hok o (List.mem_cons_of_mem _ ho)) (hm.2 h1 a1) a2 a3
    exact ⟨h2, by rw [run, a1]; exact b1, b2, b3⟩

/-- C31, the layer part, as far as it holds: when no insert draws a level above the entry point's, every neighbour on a layer exists
on that layer. Missing: inserts that raise the top layer, and batches. -/
theorem C31_neighbour_on_layer_partial (E : Env V) (M efC : Nat) (ops : List (Op V)) (hok : ∀ op ∈ ops, op.ok)
    (hm : Modest E (new V M efC) ops) :
    ∃ h, run E (new V M efC) ops = some h ∧ ∀ n ∈ h.nodes, ∀ (K : Nat) (l : List String), n.nbrs[K]? = some l → ∀ y ∈ l,
      ∃ m ∈ h.nodes, m.id = y ∧ K < m.nbrs.length := by
  obtain ⟨h, a1, a2, a3⟩ := layered_run E ops (new V M efC) hok hm (inv_empty _ _ _) (by
    rintro x K y ⟨l, hl, -⟩
    simp [nbrsAt, getNode, new] at hl)
  refine ⟨h, a1, ?_⟩
  intro n hn K l hl y hy
  have hxy : Link h K n.id y := ⟨l, by unfold nbrsAt; rw [get_of_mem a2 hn]; exact hl, hy⟩
  obtain ⟨m, hm1, hm2⟩ := (hasLayer_iff h y K).1 (a3 n.id K y hxy)
  exact ⟨m, List.mem_of_find?_eq_some hm1, get_id hm1, hm2⟩

example : Modest lineEnv (new Nat 2 10) [.insert "a" 0 2, .insert "b" 5 1, .delete "b" id] := by
  refine ⟨Or.inl rfl, fun h1 e1 => ⟨Or.inr ?_, fun h2 _ => ⟨trivial, fun _ _ => trivial⟩⟩⟩
  have : h1 = ⟨2, 4, 10, [⟨"a", 0, [[], [], []], false⟩], "a"⟩ := by
    have : step lineEnv (new Nat 2 10) (.insert "a" 0 2) = some ⟨2, 4, 10, [⟨"a", 0, [[], [], []], false⟩], "a"⟩ := rfl
    rw [this] at e1
    exact (Option.some.inj e1).symm
  subst this
  exact ⟨_, rfl, by decide⟩

/-! ### C109: the number of links -/

/-- No parallel build that really splits. -/
def Op.single : Op V → Prop
  | .parallel vs w => w ≤ 1 ∨ vs.length / w < 10
  | _ => True

theorem bounded_step (E : Env V) (h : Index V) (op : Op V) (hok : op.ok) (hs : op.single) (hi : Inv h) (hb : Bounded h) :
    ∃ h', step E h op = some h' ∧ Inv h' ∧ Bounded h' := by
  cases op with
  | insert id v level =>
    obtain ⟨h', e, a1, a2, -⟩ := insert_some E h id v level hi
    obtain ⟨h'', b1, b2, b3, b4, b5, -⟩ := insertAll_spec E true [(id, v, level)] h hi
    obtain rfl : h'' = h' := by rw [a2] at b1; exact (Option.some.inj b1).symm
    exact ⟨h'', by simp [step, a1], b2, b5 rfl hb⟩
  | batch vs =>
    obtain ⟨h', b1, b2, b3, b4, b5, -⟩ := insertAll_spec E true vs h hi
    exact ⟨h', b1, b2, b5 rfl hb⟩
  | parallel vs w =>
    obtain ⟨h', b1, b2, b3, b4, b5, -⟩ := insertAll_spec E true vs h hi
    exact ⟨h', by simp only [step, insertParallel]; rw [if_pos (show w ≤ 1 ∨ vs.length / w < 10 from hs)]; exact b1, b2, b5 rfl hb⟩
  | delete id order =>
    obtain ⟨a1, a2, -⟩ := delete_spec order hok h id hi
    exact ⟨_, rfl, a2, a1.bounded hb⟩

theorem bounded_run (E : Env V) (ops : List (Op V)) : ∀ h : Index V, (∀ op ∈ ops, op.ok ∧ op.single) → Inv h → Bounded h →
    ∃ h', run E h ops = some h' ∧ Inv h' ∧ Bounded h' := by
  induction ops with
  | nil => intro h _ hi hb; exact ⟨h, rfl, hi, hb⟩
  | cons op ops ih =>
    intro h hok hi hb
    obtain ⟨h1, a1, a2, a3⟩ := bounded_step E h op (hok op List.mem_cons_self).1 (hok op List.mem_cons_self).2 hi hb
    obtain ⟨h2, b1, b2, b3⟩ := ih h1 (fun o ho => hok o (List.mem_cons_of_mem _ ho)) a2 a3
    exact ⟨h2, by rw [run, a1]; exact b1, b2, b3⟩

/-- C109: without a parallel build no node has more than `M` links on an upper layer or `2 M` at the bottom. Missing: parallel
builds, which do not prune (below). -/
theorem C109_links_bounded_partial (E : Env V) (M efC : Nat) (ops : List (Op V)) (hok : ∀ op ∈ ops, op.ok ∧ op.single) :
    ∃ h, run E (new V M efC) ops = some h ∧ ∀ n ∈ h.nodes, ∀ (K : Nat) (l : List String), n.nbrs[K]? = some l →
      l.length ≤ if K = 0 then M * 2 else M := by
  obtain ⟨h, a1, a2, a3⟩ := bounded_run E ops (new V M efC) hok (inv_empty _ _ _) (by
    intro x K l hl
    simp [nbrsAt, getNode, new] at hl)
  obtain ⟨h', b1, -, b3, -⟩ := run_new E M efC ops (fun o ho => (hok o ho).1)
  obtain rfl : h' = h := by rw [a1] at b1; exact (Option.some.inj b1).symm
  refine ⟨h', a1, ?_⟩
  intro n hn K l hl
  have := a3 n.id K l (by unfold nbrsAt; rw [get_of_mem a2 hn]; exact hl)
  unfold maxConn at this
  rw [b3.1, b3.2.1] at this
  exact this

/-- Twenty vectors for two workers: in each half all but the first are far from each other and near the first. -/
def starEnv : Env Nat := ⟨fun a b => if a % 10 = 0 ∨ b % 10 = 0 then 1 else 5, id⟩

def starVecs : List (String × Nat × Nat) := (List.range 20).map (fun i => (toString i, i, 0))

/-- C109 is violated by a parallel build: one of the nodes ends with nine links where two are allowed. -/
theorem C109_parallel_violated :
    (run starEnv (new Nat 1 10) [.parallel starVecs 2]).map (fun h => (h.maxM, h.nodes.map (fun n => n.nbrs.map List.length) |>.head?)) =
      some (2, some [9]) := by
  decide +kernel

/-! ### C32 -/

/-- C32 is violated: an id that was ever inserted, deleted or not, never takes another vector: `Insert` returns an error,
`InsertBatch` returns none, and the index is as before. -/
theorem C32_rewrite_ignored_violated (E : Env V) (M efC : Nat) (ops : List (Op V)) (hok : ∀ op ∈ ops, op.ok) (h : Index V)
    (hr : run E (new V M efC) ops = some h) (id : String) (hk : (after ops id).isSome = true) (v' : V) (level : Nat) :
    insert E h id v' level = some (h, true) ∧ insertBatch E h [(id, v', level)] = some h := by
  obtain ⟨h0, a1, a2, a3, a4⟩ := run_new E M efC ops hok
  obtain rfl : h0 = h := by rw [hr] at a1; exact (Option.some.inj a1).symm
  have hs : (getNode h0 id).isSome = true := by
    have : (look h0 id).isSome = true := by rw [a4 id]; simpa using hk
    exact (look_isSome h0 id).1 this
  refine ⟨by unfold insert; rw [if_pos hs], by unfold insertBatch insertAll; rw [if_pos hs]; rfl⟩

/-- The stale answer seen by a caller: written at 0, rewritten at 9, still answered as at distance 0 from 0; deleted and rewritten it
is gone for good. -/
example : (run lineEnv (new Nat 2 10) [.insert "a" 0 0, .insert "a" 9 0]).bind (fun h => search lineEnv h 0 5 5) = some [⟨"a", 0⟩] ∧
    (run lineEnv (new Nat 2 10) [.insert "a" 0 0, .delete "a" id, .insert "a" 9 0]).bind (fun h => search lineEnv h 0 5 5) = some [] := by
  constructor <;> decide +kernel

theorem keeps_first (ops : List (Op V)) (id : String) (v : V) : ∀ c : Contents V, c id = some (v, false) →
    (∀ o ord, Op.delete o ord ∈ ops → o ≠ id) → ops.foldl effect c id = some (v, false) := by
  induction ops with
  | nil => intro c hc _; exact hc
  | cons op ops ih =>
    intro c hc hd
    refine ih (effect c op) ?_ (fun o ord ho => hd o ord (List.mem_cons_of_mem _ ho))
    cases op with
    | delete o ord =>
      have := hd o ord List.mem_cons_self
      change remove c o id = _
      unfold remove
      rw [if_neg (Ne.symm this)]
      exact hc
    | insert o w l => simp only [effect, offer, hc]; rfl
    | batch vs => simp only [effect, offer, hc]; rfl
    | parallel vs w => simp only [effect, offer, hc]; rfl

/-- C32 as far as it holds: a vector inserted under an id that was never used is the one the index answers with until the id is
deleted. Missing: updates and re-use of a deleted id. -/
theorem C32_first_write_partial (E : Env V) (M efC : Nat) (pre post : List (Op V)) (id : String) (v : V) (level : Nat)
    (hok : ∀ op ∈ pre ++ .insert id v level :: post, op.ok) (hfresh : after pre id = none)
    (hkeep : ∀ o ord, Op.delete o ord ∈ post → o ≠ id) (q : V) (k ef : Nat) :
    ∃ h out, run E (new V M efC) (pre ++ .insert id v level :: post) = some h ∧ search E h q k ef = some out ∧
      ∀ i ∈ out, i.id = id → i.dist = E.dist q (E.keep v) := by
  obtain ⟨h, out, a1, a2, a3, -⟩ := C30_search_sound E M efC _ hok q k ef
  refine ⟨h, out, a1, a2, ?_⟩
  intro i hi hid
  obtain ⟨w, hw, hd⟩ := a3 i hi
  have : after (pre ++ .insert id v level :: post) id = some (v, false) := by
    unfold after at *
    rw [List.foldl_append, List.foldl_cons]
    refine keeps_first post id v _ ?_ hkeep
    simp only [effect, offer, hfresh]
    simp
  rw [hid, this] at hw
  obtain ⟨rfl, -⟩ := Prod.mk.inj (Option.some.inj hw)
  exact hd

example : after [Op.insert "b" (1 : Nat) 0] "a" = none := by decide +kernel

/-! ### C108: exact answers in a small index -/

/-- The ids given by a call are not empty. -/
def Op.named : Op V → Prop
  | .insert id _ _ => id ≠ ""
  | .batch vs => ∀ p ∈ vs, p.1 ≠ ""
  | .parallel vs _ => ∀ p ∈ vs, p.1 ≠ ""
  | .delete _ _ => True

theorem conn_step (E : Env V) (h : Index V) (op : Op V) (hok : op.ok) (hs : op.single) (hn : op.named) (hi : Inv h) (hM : 0 < h.M)
    (hMM : 0 < h.maxM) : ∃ h', step E h op = some h' ∧ Inv h' ∧ (h'.M = h.M ∧ h'.maxM = h.maxM) ∧ h.nodes.length ≤ h'.nodes.length ∧
      (h'.nodes.length ≤ h.maxM + 1 → (∀ x, Stored h x → x ≠ "") → Conn h → Conn h') ∧
      ((∀ x, Stored h x → x ≠ "") → ∀ x, Stored h' x → x ≠ "") := by
  have key : ∀ vs : List (String × V × Nat), (∀ p ∈ vs, p.1 ≠ "") → ∃ h', insertAll E true vs h = some h' ∧ Inv h' ∧
      (h'.M = h.M ∧ h'.maxM = h.maxM) ∧ h.nodes.length ≤ h'.nodes.length ∧
      (h'.nodes.length ≤ h.maxM + 1 → (∀ x, Stored h x → x ≠ "") → Conn h → Conn h') ∧
      ((∀ x, Stored h x → x ≠ "") → ∀ x, Stored h' x → x ≠ "") := by
    intro vs hvs
    obtain ⟨h', b1, b2, b3, b4, b5, b6, b7, b8⟩ := insertAll_spec E true vs h hi
    refine ⟨h', b1, b2, ⟨b3.1, b3.2.1⟩, b6, fun hl _ hc => b7 hM hMM hvs (Or.inr hl) hc, ?_⟩
    intro hne x hx
    have := (look_isSome h' x).2 hx
    rw [b4 x, Option.isSome_or, Bool.or_eq_true] at this
    rcases this with h1 | h1
    · exact hne x ((look_isSome h x).1 h1)
    · unfold firstOf at h1
      rw [Option.isSome_map, List.find?_isSome] at h1
      obtain ⟨p, hp, hpx⟩ := h1
      rw [← of_decide_eq_true hpx]
      exact hvs p hp
  cases op with
  | insert id v level =>
    obtain ⟨h', e, a1, a2, -⟩ := insert_some E h id v level hi
    obtain ⟨h'', b1, b⟩ := key [(id, v, level)] (by simpa [Op.named] using hn)
    obtain rfl : h'' = h' := by rw [a2] at b1; exact (Option.some.inj b1).symm
    exact ⟨h'', by simp [step, a1], b⟩
  | batch vs => exact key vs hn
  | parallel vs w =>
    obtain ⟨h', b1, b⟩ := key vs hn
    exact ⟨h', by simp only [step, insertParallel]; rw [if_pos (show w ≤ 1 ∨ vs.length / w < 10 from hs)]; exact b1, b⟩
  | delete id order =>
    obtain ⟨a1, a2, a3, a4, a5⟩ := delete_spec order hok h id hi
    have hlen : (delete order h id).1.nodes.length = h.nodes.length := by
      have := congrArg List.length a1.ids
      simpa using this
    refine ⟨_, rfl, a2, ⟨a1.par.1, a1.par.2.1⟩, by omega, ?_, fun hne x hx => hne x ((a1.stored x).1 hx)⟩
    intro _ hne hc
    refine a1.conn hc ?_
    intro hh
    have hnil := hc.start (a5 hne hh)
    rw [hnil] at hlen
    exact List.length_eq_zero_iff.1 hlen

theorem conn_run (E : Env V) (ops : List (Op V)) : ∀ h : Index V, (∀ op ∈ ops, op.ok ∧ op.single ∧ op.named) → Inv h → 0 < h.M → 0 < h.maxM →
    (∀ x, Stored h x → x ≠ "") → Conn h →
    ∃ h', run E h ops = some h' ∧ h.nodes.length ≤ h'.nodes.length ∧ (h'.nodes.length ≤ h.maxM + 1 → Conn h') := by
  induction ops with
  | nil => intro h _ _ _ _ _ hc; exact ⟨h, rfl, le_refl _, fun _ => hc⟩
  | cons op ops ih =>
    intro h hok hi hM hMM hne hc
    obtain ⟨o1, o2, o3⟩ := hok op List.mem_cons_self
    obtain ⟨h1, a1, a2, a3, a4, a5, a6⟩ := conn_step E h op o1 o2 o3 hi hM hMM
    by_cases hsm : h1.nodes.length ≤ h.maxM + 1
    · obtain ⟨h2, b1, b2, b3⟩ := ih h1 (fun o ho => hok o (List.mem_cons_of_mem _ ho)) a2 (by rw [a3.1]; exact hM) (by rw [a3.2]; exact hMM)
        (a6 hne) (a5 hsm hne hc)
      exact ⟨h2, by rw [run, a1]; exact b1, by omega, fun hl => b3 (by rw [a3.2]; exact hl)⟩
    · have hgrow : ∀ (os : List (Op V)) (g : Index V), (∀ op ∈ os, op.ok ∧ op.single ∧ op.named) → Inv g → 0 < g.M → 0 < g.maxM →
          ∃ g', run E g os = some g' ∧ g.nodes.length ≤ g'.nodes.length := by
        intro os
        induction os with
        | nil => intro g _ _ _ _; exact ⟨g, rfl, le_refl _⟩
        | cons o os ih2 =>
          intro g hg gi gM gMM
          obtain ⟨p1, p2, p3⟩ := hg o List.mem_cons_self
          obtain ⟨g1, c1, c2, c3, c4, -, -⟩ := conn_step E g o p1 p2 p3 gi gM gMM
          obtain ⟨g2, d1, d2⟩ := ih2 g1 (fun o ho => hg o (List.mem_cons_of_mem _ ho)) c2 (by rw [c3.1]; exact gM) (by rw [c3.2]; exact gMM)
          exact ⟨g2, by rw [run, c1]; exact d1, by omega⟩
      obtain ⟨h2, b1, b2⟩ := hgrow ops h1 (fun o ho => hok o (List.mem_cons_of_mem _ ho)) a2 (by rw [a3.1]; exact hM) (by rw [a3.2]; exact hMM)
      exact ⟨h2, by rw [run, a1]; exact b1, by omega, fun hl => by omega⟩

/-- C108: as long as at most `2 M + 1` different ids were ever inserted, a search with a candidate list that can hold them all returns
exactly the `k` nearest live vectors. Missing: larger indexes (violated below), real parallel builds (C33), empty ids. -/
theorem C108_small_index_exact_partial (E : Env V) (M efC : Nat) (hM : 0 < M) (ops : List (Op V))
    (hok : ∀ op ∈ ops, op.ok ∧ op.single ∧ op.named) (ids : List String) (hids : ∀ x, (after ops x).isSome = true → x ∈ ids)
    (hlen : ids.length ≤ 2 * M + 1) (q : V) (k ef : Nat) (hef : ids.length ≤ ef) :
    ∃ h out, run E (new V M efC) ops = some h ∧ search E h q k ef = some out ∧ ∃ pool : List Item, (pool.map Item.id).Nodup ∧
      (∀ i, i ∈ pool ↔ ∃ v, after ops i.id = some (v, false) ∧ i.dist = E.dist q (E.keep v)) ∧ IsTopK (fun i => -i.dist) pool k out := by
  obtain ⟨h, a1, a2, a3, a4⟩ := run_new E M efC ops (fun o ho => (hok o ho).1)
  obtain ⟨h', b1, b2, b3⟩ := conn_run E ops (new V M efC) hok (inv_empty _ _ _) hM (by unfold new; simp only; omega)
    (by intro x hx; simp [Stored, getNode, new] at hx) (conn_empty _ _ _)
  obtain rfl : h' = h := by rw [a1] at b1; exact (Option.some.inj b1).symm
  have hn : h'.nodes.length ≤ ids.length := by
    have hsub : h'.nodes.map Node.id ⊆ ids := by
      intro x hx
      apply hids
      have := (look_isSome h' x).2 ((stored_mem h' x).2 hx)
      rw [a4 x] at this
      simpa using this
    have := (List.subperm_of_subset a2.nd hsub).length_le
    simpa using this
  obtain ⟨out, c1, -, -, -, -, -, c7⟩ := search_spec E h' q k ef a2
  obtain ⟨pool, d1, d2, d3⟩ := c7 (by omega) (b3 (by unfold new; simp only; omega))
  refine ⟨h', out, a1, c1, pool, d1, ?_, d3⟩
  intro i
  rw [d2 i]
  constructor
  · rintro ⟨w, hw, hd⟩
    obtain ⟨v, hv, rfl⟩ := (holds_live a4 i.id w).1 hw
    exact ⟨v, hv, hd⟩
  · rintro ⟨v, hv, hd⟩
    exact ⟨E.keep v, (holds_live a4 i.id _).2 ⟨v, hv, rfl⟩, hd⟩

/-- Three ids with `M = 1`. -/
example : (∀ op ∈ [Op.insert "a" (0 : Nat) 1, .batch [("b", 3, 0), ("c", 4, 0)]], op.ok ∧ op.single ∧ op.named) ∧
    (["a", "b", "c"] : List String).length ≤ 2 * 1 + 1 := by
  refine ⟨?_, by decide⟩
  intro op hop
  simp only [List.mem_cons, List.not_mem_nil, or_false] at hop
  rcases hop with rfl | rfl
  · exact ⟨trivial, trivial, by simp [Op.named]⟩
  · exact ⟨trivial, trivial, by simp [Op.named]⟩

/-- C108 is violated as soon as one more id is inserted: three near vectors and one far away with `M = 1`. Its neighbours drop it at once,
so that a search for everything never returns it. -/
theorem C108_every_live_vector_found_violated :
    (run lineEnv (new Nat 1 200) [.insert "a" 0 0, .insert "b" 1 0, .insert "c" 2 0, .insert "far" 100 0]).bind
      (fun h => search lineEnv h 100 100 100) = some [⟨"c", 98⟩, ⟨"b", 99⟩, ⟨"a", 100⟩] ∧
    after [Op.insert "a" 0 0, .insert "b" 1 0, .insert "c" 2 0, .insert "far" 100 0] "far" = some (100, false) := by
  constructor <;> decide +kernel

/-! ### C33 -/

/-- C33 as far as it holds: with one worker, or fewer than ten vectors for each, and at most `2 M + 1` vectors, the build is
sequential and a search for all of them returns all. -/
theorem C33_small_build_complete_partial (E : Env V) (M efC : Nat) (hM : 0 < M) (vs : List (String × V × Nat)) (w : Nat)
    (hw : w ≤ 1 ∨ vs.length / w < 10) (hne : ∀ p ∈ vs, p.1 ≠ "") (hlen : vs.length ≤ 2 * M + 1) (q : V) (k ef : Nat)
    (hk : vs.length ≤ k) (hef : vs.length ≤ ef) :
    ∃ h out, insertParallel E (new V M efC) vs w = some h ∧ search E h q k ef = some out ∧ ∀ p ∈ vs, p.1 ∈ out.map Item.id := by
  have hafter : ∀ x, after [Op.parallel vs w] x = (vs.find? (fun p => decide (p.1 = x))).map (fun p => (p.2.1, false)) := by
    intro x; simp [after, effect, offer]
  obtain ⟨h, out, a1, a2, pool, a3, a4, a5⟩ := C108_small_index_exact_partial E M efC hM [.parallel vs w]
    (by intro op hop; rw [List.mem_singleton] at hop; subst hop; exact ⟨trivial, hw, hne⟩) (vs.map Prod.fst)
    (by
      intro x hx
      rw [hafter, Option.isSome_map, List.find?_isSome] at hx
      obtain ⟨p, hp, hpx⟩ := hx
      exact List.mem_map.2 ⟨p, hp, of_decide_eq_true hpx⟩) (by simpa using hlen) q k ef (by simpa using hef)
  refine ⟨h, out, ?_, a2, ?_⟩
  · simp only [run, step] at a1
    cases hp : insertParallel E (new V M efC) vs w with
    | none => rw [hp] at a1; simp at a1
    | some g => rw [hp] at a1; simpa using a1
  · intro p hp
    have hpl : pool.length ≤ k := by
      have hsub : pool.map Item.id ⊆ vs.map Prod.fst := by
        intro x hx
        obtain ⟨i, hi, rfl⟩ := List.mem_map.1 hx
        obtain ⟨v, hv, -⟩ := (a4 i).1 hi
        have hs : (after [Op.parallel vs w] i.id).isSome = true := by rw [hv]; rfl
        rw [hafter, Option.isSome_map, List.find?_isSome] at hs
        obtain ⟨p', hp', hpx⟩ := hs
        exact List.mem_map.2 ⟨p', hp', of_decide_eq_true hpx⟩
      have := (List.subperm_of_subset a3 hsub).length_le
      simp only [List.length_map] at this
      omega
    obtain ⟨rest, hperm, -⟩ := a5.best
    have hsz := a5.size
    have hrest : rest = [] := by
      have := hperm.length_eq
      rw [List.length_append] at this
      exact List.length_eq_zero_iff.1 (by omega)
    subst hrest
    rw [List.append_nil] at hperm
    have hs : (vs.find? (fun p' => decide (p'.1 = p.1))).isSome = true := by
      rw [List.find?_isSome]; exact ⟨p, hp, by simp⟩
    obtain ⟨p', hp'⟩ := Option.isSome_iff_exists.1 hs
    have hm : (⟨p.1, E.dist q (E.keep p'.2.1)⟩ : Item) ∈ pool := (a4 _).2 ⟨p'.2.1, by rw [hafter, hp']; rfl, rfl⟩
    exact List.mem_map.2 ⟨_, hperm.mem_iff.2 hm, rfl⟩

example : (3 : Nat) ≤ 1 ∨ ([("a", (0 : Nat), 0), ("b", 1, 0), ("c", 2, 0)] : List (String × Nat × Nat)).length / 3 < 10 := by decide

theorem forall₂_get {α β : Type} {R : α → β → Prop} {l : List α} {m : List β} (h : List.Forall₂ R l m) (i : Nat) (hi : i < l.length)
    (hj : i < m.length) : R l[i] m[i] := by
  induction h generalizing i with
  | nil => simp at hi
  | cons hab _ ih =>
    cases i with
    | zero => exact hab
    | succ i => exact ih i (by simpa using hi) (by simpa using hj)

theorem find_mem {E : Env V} {c : List (String × V × Nat)} {p : Index V} (hp : PartOf E c p) (x : String) :
    Stored p x ↔ x ∈ c.map Prod.fst := by
  rw [← look_isSome, hp.look x, firstOf, Option.isSome_map, List.find?_isSome, List.mem_map]
  simp

/-- C33 is violated by every real parallel build of a new index: whatever the vectors, levels and distances, at least ten of the given
vectors are returned by no search whatsoever. -/
theorem C33_parallel_build_loses_vectors_violated (E : Env V) (M efC : Nat) (vs : List (String × V × Nat)) (w : Nat) (hw : 2 ≤ w)
    (hch : 10 ≤ vs.length / w) (hnd : (vs.map Prod.fst).Nodup) (hne : ∀ p ∈ vs, p.1 ≠ "") :
    ∃ h, insertParallel E (new V M efC) vs w = some h ∧ ∃ lost : List String, 10 ≤ lost.length ∧ lost.Nodup ∧
      (∀ x ∈ lost, x ∈ vs.map Prod.fst) ∧ ∀ q k ef out, search E h q k ef = some out → ∀ x ∈ lost, x ∉ out.map Item.id := by
  have hw' : ¬ (w ≤ 1 ∨ vs.length / w < 10) := by omega
  obtain ⟨h, ps, a1, a2, a3, a4, a5, a6, a7, a8⟩ := parallel_spec E (new V M efC) vs w (inv_empty _ _ _) hw'
  have hflat := chunks_flatten (vs.length / w) w vs (by omega)
  have hclen := chunks_length (vs.length / w) w vs
  have hcsz := chunks_size (vs.length / w) w vs (by rw [Nat.mul_comm]; exact Nat.mul_div_le _ _)
  generalize chunksOf (vs.length / w) w vs = cs at *
  have hplen : ps.length = cs.length := a2.length_eq.symm
  have hmem : ∀ c ∈ cs, ∀ p ∈ c, p ∈ vs := by
    intro c hc p hp
    rw [← hflat]
    exact List.mem_flatten.2 ⟨c, hc, hp⟩
  -- chunks are disjoint
  have hnd' : ((cs.map (List.map Prod.fst)).flatten).Nodup := by
    rw [← List.map_flatten, hflat]; exact hnd
  rw [List.nodup_flatten] at hnd'
  obtain ⟨hnd1, hnd2⟩ := hnd'
  have hdis : ∀ i j (hi : i < cs.length) (hj : j < cs.length), i ≠ j → ∀ x, x ∈ cs[i].map Prod.fst → x ∉ cs[j].map Prod.fst := by
    have hpw := List.pairwise_iff_getElem.1 hnd2
    intro i j hi hj hij x h1 h2
    rcases lt_or_gt_of_ne hij with hlt | hlt
    · exact hpw i j (by simpa using hi) (by simpa using hj) hlt (by simpa using h1) (by simpa using h2)
    · exact hpw j i (by simpa using hj) (by simpa using hi) hlt (by simpa using h2) (by simpa using h1)
  -- the entry point belongs to one part
  have hent : ∃ i, ∃ hi : i < ps.length, h.entry = ps[i].entry ∧ ps[i].entry ≠ "" := by
    rcases a7 with a7 | ⟨p, hp, b1, b2⟩
    · exfalso
      have he : h.entry = "" := a7
      obtain ⟨-, hall⟩ := a8 he
      have h0 : 0 < ps.length := by omega
      have hpart := forall₂_get a2 0 (by omega) h0
      have hnil := hpart.start (fun a ha => hne a (hmem _ (List.getElem_mem _) a ha)) (hall _ (List.getElem_mem _))
      have hsz := hcsz _ (List.getElem_mem (show 0 < cs.length by omega))
      obtain ⟨a, ha⟩ := List.exists_mem_of_length_pos (show 0 < cs[0].length by omega)
      have := (find_mem hpart a.1).2 (List.mem_map.2 ⟨a, ha, rfl⟩)
      rw [stored_mem, hnil] at this
      simp at this
    · obtain ⟨i, hi, rfl⟩ := List.getElem_of_mem hp
      exact ⟨i, hi, b1, b2⟩
  obtain ⟨i, hi, he1, he2⟩ := hent
  have hic : i < cs.length := by omega
  have hparti := forall₂_get a2 i hic hi
  obtain ⟨j, hj, hij⟩ : ∃ j, j < cs.length ∧ j ≠ i := by
    by_cases h0 : i = 0
    · exact ⟨1, by omega, by omega⟩
    · exact ⟨0, by omega, Ne.symm h0⟩
  refine ⟨h, a1, cs[j].map Prod.fst, ?_, hnd1 _ (List.mem_map.2 ⟨_, List.getElem_mem hj, rfl⟩), ?_, ?_⟩
  · have := hcsz _ (List.getElem_mem hj)
    rw [List.length_map]
    omega
  · intro x hx
    obtain ⟨p, hp, rfl⟩ := List.mem_map.1 hx
    exact List.mem_map.2 ⟨p, hmem _ (List.getElem_mem hj) p hp, rfl⟩
  · intro q k ef out hout x hx hxo
    obtain ⟨out', b1, -, -, -, -, b6, -⟩ := search_spec E h q k ef a3
    obtain rfl : out' = out := by rw [hout] at b1; exact (Option.some.inj b1).symm
    obtain ⟨it, hit, hitx⟩ := List.mem_map.1 hxo
    have hclosed := b6 (fun y => Stored ps[i] y)
      (by rw [he1]; exact hparti.inv.entry.resolve_left he2)
      (by
        rintro K a b ha ⟨l, hl, hb⟩
        -- the node of `a` in the merged index is the one of its own part
        unfold nbrsAt at hl
        rw [a6 a] at hl
        have hn0 : getNode (new V M efC) a = none := rfl
        rw [hn0, Option.none_or] at hl
        cases hf : ps.findSome? (fun p => getNode p a) with
        | none => rw [hf] at hl; simp at hl
        | some n =>
          rw [hf] at hl
          simp only [Option.bind_some] at hl
          obtain ⟨p, hp, hpa⟩ := List.exists_of_findSome?_eq_some hf
          obtain ⟨m, hm, rfl⟩ := List.getElem_of_mem hp
          have hpm := forall₂_get a2 m (by omega) hm
          have hma := (find_mem hpm a).1 (stored_of_get hpa)
          have hia := (find_mem hparti a).1 ha
          have hmi : m = i := by
            by_contra hmi
            exact hdis m i (by omega) hic hmi a hma hia
          subst hmi
          have hat : nbrsAt ps[m] a K = some l := by unfold nbrsAt; rw [hpa]; exact hl
          exact ((hparti.inv.refs a K l hat).2 b hb).2) it hit
    rw [hitx] at hclosed
    exact hdis j i hj hic hij x hx ((find_mem hparti x).1 hclosed)

/-- Twenty vectors and two workers. -/
example : 10 ≤ starVecs.length / 2 ∧ (starVecs.map Prod.fst).Nodup ∧ ∀ p ∈ starVecs, p.1 ≠ "" := by
  decide +kernel

/-! ### C110: the results of the calls -/

/-- C110: `Insert` reports an error exactly for an id that was inserted before, `Delete` exactly for one that never was, and `Size` is
the number of ids inserted and not deleted. -/
theorem C110_errors_and_size (E : Env V) (M efC : Nat) (ops : List (Op V)) (hok : ∀ op ∈ ops, op.ok) :
    ∃ h, run E (new V M efC) ops = some h ∧
      (∀ id v level, ∃ h', insert E h id v level = some (h', (after ops id).isSome)) ∧
      (∀ order id, (∀ l, (order l).Perm l) → (delete order h id).2 = (after ops id).isNone) ∧
      ∃ live : List String, live.Nodup ∧ (∀ x, x ∈ live ↔ ∃ v, after ops x = some (v, false)) ∧ size h = live.length := by
  obtain ⟨h, a1, a2, a3, a4⟩ := run_new E M efC ops hok
  have hst : ∀ x, Stored h x ↔ (after ops x).isSome = true := by
    intro x
    rw [← look_isSome, a4 x, Option.isSome_map]
  refine ⟨h, a1, ?_, ?_, (h.nodes.filter (fun n => !n.deleted)).map Node.id, ?_, ?_, ?_⟩
  · intro id v level
    obtain ⟨h', e, b1, -, b3⟩ := insert_some E h id v level a2
    refine ⟨h', ?_⟩
    rw [b1]
    rw [hst] at b3
    cases e <;> cases hs : (after ops id).isSome <;> simp_all
  · intro order id ho
    obtain ⟨-, -, b3, -⟩ := delete_spec order ho h id a2
    rw [hst] at b3
    cases hd : (delete order h id).2 <;> cases hs : after ops id <;> simp_all
  · exact (List.filter_sublist.map Node.id).nodup a2.nd
  · intro x
    rw [List.mem_map]
    constructor
    · rintro ⟨n, hn, rfl⟩
      rw [List.mem_filter] at hn
      have hg := get_of_mem a2 hn.1
      have hl : look h n.id = some (n.vec, false) := by
        unfold look
        rw [hg]
        have : n.deleted = false := by simpa using hn.2
        simp [this]
      obtain ⟨v, hv, -⟩ := (holds_live a4 n.id n.vec).1 hl
      exact ⟨v, hv⟩
    · rintro ⟨v, hv⟩
      have hl := (holds_live a4 x (E.keep v)).2 ⟨v, hv, rfl⟩
      unfold look at hl
      obtain ⟨n, hn, he⟩ := Option.map_eq_some_iff.1 hl
      refine ⟨n, ?_, get_id hn⟩
      rw [List.mem_filter]
      refine ⟨List.mem_of_find?_eq_some hn, ?_⟩
      have : n.deleted = false := congrArg Prod.snd he
      simp [this]
  · simp [size]

example : (run lineEnv (new Nat 2 10) [.insert "a" 0 1, .insert "b" 5 0, .delete "b" id]).map size = some 1 := by decide +kernel

end Verif.Hnsw
