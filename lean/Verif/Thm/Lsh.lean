import Verif.Model.Lsh
import Mathlib.Data.List.Perm.Subperm
import Mathlib.Tactic.Linarith

/-!
C36: locality sensitive hashing over arbitrary histories.
-/
namespace Verif.Lsh
open Verif.Base Verif.Spec

inductive Op where
  | insert (id : String) (v : Vec)
  | delete (id : String)
  | clear

def step (ix : Index) : Op → Index
  | .insert id v => (insert ix id v).1
  | .delete id => (delete ix id).1
  | .clear => clear ix

def run (ix : Index) (ops : List Op) : Index := ops.foldl step ix

/-- Specification: the vector last accepted for an id. -/
abbrev Contents := String → Option Vec

def effect (d : Nat) (c : Contents) : Op → Contents
  | .insert id v => if v.length = d then (fun x => if x = id then some v else c x) else c
  | .delete id => fun x => if x = id then none else c x
  | .clear => fun _ => none

def after (d : Nat) (ops : List Op) : Contents := ops.foldl (effect d) (fun _ => none)

structure Env.Sound (E : Env) : Prop where
  order : ∀ l, (E.order l).Perm l
  sorts : ∀ l, SortedFrom (fun a b => a.2 ≤ b.2) l (E.sortHits l)

structure Inv (d : Nat) (projs : List (List Vec)) (ix : Index) (c : Contents) : Prop where
  dim : ix.dimension = d
  projs_eq : ix.projs = projs
  len : ix.tables.length = ix.projs.length
  keys : KeysOk ix.vecs
  holds : ∀ x, getA ix.vecs x = c x
  /-- every vector present is in the bucket of its hash in every table -/
  filed : ∀ x v, c x = some v → ∀ (i : Nat) (ps : List Vec) (t : Nat → List String), ix.projs[i]? = some ps → ix.tables[i]? = some t →
    x ∈ t (computeHash v ps)

theorem zip_get {f : List Vec → (Nat → List String) → (Nat → List String)} {projs : List (List Vec)} {tables : List (Nat → List String)} {i : Nat}
    {ps : List Vec} {t' : Nat → List String} (hp : projs[i]? = some ps) (ht : (List.zipWith f projs tables)[i]? = some t') :
    ∃ t, tables[i]? = some t ∧ t' = f ps t := by
  rw [List.getElem?_zipWith, hp] at ht
  cases hh : tables[i]? with
  | none => rw [hh] at ht; simp at ht
  | some t => rw [hh] at ht; exact ⟨t, rfl, by simpa using ht.symm⟩

theorem inv_step (d : Nat) (projs : List (List Vec)) (ix : Index) (c : Contents) (h : Inv d projs ix c) (op : Op) : Inv d projs (step ix op) (effect d c op) := by
  cases op with
  | insert id v =>
    simp only [step, insert, effect]
    by_cases hd : v.length = d
    · rw [if_neg (by rw [h.dim]; simp [hd]), if_pos hd]
      refine ⟨h.dim, h.projs_eq, by simp [h.len], keys_put h.keys _ _, ?_, ?_⟩
      · intro x
        simp only
        rw [get_put, h.holds]
      · intro x w hx i ps t' hp ht
        simp only at hp ht hx
        obtain ⟨t, ht1, rfl⟩ := zip_get hp ht
        unfold addTo
        by_cases hxi : x = id
        · rw [if_pos hxi] at hx
          obtain rfl := Option.some.inj hx
          rw [if_pos rfl, hxi]
          simp
        · rw [if_neg hxi] at hx
          have := h.filed x w hx i ps t hp ht1
          split
          · exact List.mem_append_left _ this
          · exact this
    · rw [if_pos (by rw [h.dim]; exact hd), if_neg hd]
      exact h
  | delete id =>
    simp only [step, delete, effect]
    cases hg : getA ix.vecs id with
    | none =>
      have : (fun x => if x = id then none else c x) = c := by
        funext x
        by_cases hx : x = id
        · rw [if_pos hx, hx, ← h.holds, hg]
        · rw [if_neg hx]
      rw [this]
      exact h
    | some v =>
      simp only
      refine ⟨h.dim, h.projs_eq, by simp [h.len], keys_del h.keys _, ?_, ?_⟩
      · intro x
        simp only
        rw [get_del, h.holds]
      · intro x w hx i ps t' hp ht
        simp only at hp ht hx
        obtain ⟨t, ht1, rfl⟩ := zip_get hp ht
        unfold takeFrom
        by_cases hxi : x = id
        · rw [if_pos hxi] at hx; simp at hx
        · rw [if_neg hxi] at hx
          have := h.filed x w hx i ps t hp ht1
          split
          · rw [List.mem_filter]
            exact ⟨this, by simpa using hxi⟩
          · exact this
  | clear =>
    refine ⟨h.dim, h.projs_eq, by simp [step, clear], by simp [step, clear, KeysOk], fun x => rfl, ?_⟩
    intro x v hx
    simp [effect] at hx

theorem inv_run (d : Nat) (projs : List (List Vec)) (ops : List Op) : ∀ (ix : Index) (c : Contents), Inv d projs ix c →
    Inv d projs (run ix ops) (ops.foldl (effect d) c) := by
  induction ops with
  | nil => intro ix c h; exact h
  | cons op ops ih => intro ix c h; exact ih _ _ (inv_step d projs ix c h op)

theorem inv_new (d : Nat) (projs : List (List Vec)) (ops : List Op) : Inv d projs (run (new d projs) ops) (after d ops) :=
  inv_run d projs ops (new d projs) _ ⟨rfl, rfl, by simp [new], by simp [new, KeysOk], fun x => rfl, fun x v hx => by simp at hx⟩

theorem score_spec (E : Env) (hE : E.Sound) (ix : Index) (q : Vec) (cands : List String) :
    ((score E ix q cands).map Prod.fst).Nodup ∧ ∀ r, r ∈ score E ix q cands ↔ r.1 ∈ cands ∧ ∃ v, getA ix.vecs r.1 = some v ∧ r.2 = E.dist q v := by
  unfold score
  have hp := hE.order cands.dedup
  have hnd : (E.order cands.dedup).Nodup := hp.nodup_iff.2 (List.nodup_dedup _)
  refine ⟨?_, ?_⟩
  · generalize E.order cands.dedup = l at hnd
    induction l with
    | nil => simp
    | cons a l ih =>
      rw [List.nodup_cons] at hnd
      cases hg : getA ix.vecs a with
      | none =>
        rw [List.filterMap_cons_none (by rw [hg]; rfl)]
        exact ih hnd.2
      | some v =>
        rw [List.filterMap_cons_some (b := (a, E.dist q v)) (by rw [hg]; rfl), List.map_cons, List.nodup_cons]
        refine ⟨?_, ih hnd.2⟩
        intro hm
        obtain ⟨r, hr, hra⟩ := List.mem_map.1 hm
        rw [List.mem_filterMap] at hr
        obtain ⟨b, hb, hbr⟩ := hr
        obtain ⟨w, -, rfl⟩ := Option.map_eq_some_iff.1 hbr
        simp only at hra
        exact hnd.1 (hra ▸ hb)
  · intro r
    rw [List.mem_filterMap]
    constructor
    · rintro ⟨b, hb, hbr⟩
      obtain ⟨w, hw, rfl⟩ := Option.map_eq_some_iff.1 hbr
      exact ⟨List.mem_dedup.1 (hp.mem_iff.1 hb), w, hw, rfl⟩
    · rintro ⟨h1, v, h2, h3⟩
      exact ⟨r.1, hp.mem_iff.2 (List.mem_dedup.2 h1), by rw [h2]; simp [← h3]⟩

/-- What a caller may expect of an answer to a query for `k` vectors. -/
structure Answer (E : Env) (c : Contents) (q : Vec) (k : Nat) (out : List Hit) : Prop where
  distinct : (out.map Prod.fst).Nodup
  current : ∀ r ∈ out, ∃ v, c r.1 = some v ∧ r.2 = E.dist q v
  ascending : out.Pairwise (fun a b => a.2 ≤ b.2)
  size : out.length ≤ k
  /-- a vector equal to the query is only left out for `k` others that are at least as near -/
  self : ∀ x, c x = some q → x ∈ out.map Prod.fst ∨ out.length = k ∧ ∀ r ∈ out, r.2 ≤ E.dist q q

theorem answer (E : Env) (hE : E.Sound) (d : Nat) (projs : List (List Vec)) (ix : Index) (c : Contents) (h : Inv d projs ix c) (q : Vec) (k : Nat)
    (cands : List String) (hc : ∀ x, c x = some q → x ∈ cands) : Answer E c q k ((E.sortHits (score E ix q cands)).take k) := by
  obtain ⟨s1, s2⟩ := score_spec E hE ix q cands
  obtain ⟨p1, p2⟩ := hE.sorts (score E ix q cands)
  have htop := isTopK_take (fun r : Hit => -r.2) (score E ix q cands) _ k ⟨p1, p2.imp (fun hab => neg_le_neg hab)⟩
  refine ⟨?_, ?_, p2.sublist (List.take_sublist _ _), by simp, ?_⟩
  · exact ((List.take_sublist k _).map Prod.fst).nodup ((p1.map Prod.fst).nodup_iff.2 s1)
  · intro r hr
    obtain ⟨-, v, hv, hd⟩ := (s2 r).1 (p1.mem_iff.1 (List.mem_of_mem_take hr))
    rw [h.holds] at hv
    exact ⟨v, hv, hd⟩
  · intro x hx
    have hm : (x, E.dist q q) ∈ score E ix q cands := (s2 _).2 ⟨hc x hx, q, by rw [h.holds]; exact hx, rfl⟩
    obtain ⟨rest, r1, r2⟩ := htop.best
    rcases List.mem_append.1 (r1.mem_iff.2 hm) with h1 | h1
    · exact Or.inl (List.mem_map.2 ⟨_, h1, rfl⟩)
    · refine Or.inr ⟨?_, ?_⟩
      · have hl := r1.length_eq
        have hs := htop.size
        rw [List.length_append] at hl
        have := List.length_pos_of_mem h1
        omega
      · intro r hr
        have := r2 _ h1 r hr
        exact neg_le_neg_iff.1 this

theorem base_filed {d : Nat} {projs : List (List Vec)} {ix : Index} {c : Contents} (h : Inv d projs ix c) (hp : projs ≠ []) (q : Vec) (x : String)
    (hx : c x = some q) : ∃ ps t, ix.projs[0]? = some ps ∧ ix.tables[0]? = some t ∧ x ∈ t (computeHash q ps) := by
  have h0 : 0 < ix.projs.length := by rw [h.projs_eq]; exact List.length_pos_iff.2 hp
  have h1 : 0 < ix.tables.length := by rw [h.len]; exact h0
  exact ⟨_, _, List.getElem?_eq_getElem h0, List.getElem?_eq_getElem h1, h.filed x q hx 0 _ _ (List.getElem?_eq_getElem h0) (List.getElem?_eq_getElem h1)⟩

/-- C36: after any history, with any projections and at least one table, a search returns an error exactly for a query of a wrong
dimension; otherwise distinct current vectors with their distances, nearest first, at most `k`, and a vector equal to the query is among
them unless `k` others are at least as near. The same for a multi-probe search. -/
theorem C36_search (E : Env) (hE : E.Sound) (d : Nat) (projs : List (List Vec)) (hp : projs ≠ []) (ops : List Op) (q : Vec) (k numProbes : Nat) :
    (q.length ≠ d → search E (run (new d projs) ops) q k = none ∧ searchMulti E (run (new d projs) ops) q k numProbes = none) ∧
    (q.length = d → ∃ out out', search E (run (new d projs) ops) q k = some out ∧ searchMulti E (run (new d projs) ops) q k numProbes = some out' ∧
      Answer E (after d ops) q k out ∧ Answer E (after d ops) q k out') := by
  have h := inv_new d projs ops
  unfold search searchMulti
  rw [h.dim]
  constructor
  · intro hd
    rw [if_pos hd, if_pos hd]
    exact ⟨rfl, rfl⟩
  · intro hd
    rw [if_neg (by simp [hd]), if_neg (by simp [hd])]
    refine ⟨_, _, rfl, rfl, answer E hE d projs _ _ h q k _ ?_, answer E hE d projs _ _ h q k _ ?_⟩
    · intro x hx
      obtain ⟨ps, t, b1, b2, b3⟩ := base_filed h hp q x hx
      unfold baseCands
      rw [List.mem_flatten]
      refine ⟨_, List.mem_of_getElem? (i := 0) ?_, b3⟩
      rw [List.getElem?_zipWith, b1, b2]
    · intro x hx
      obtain ⟨ps, t, b1, b2, b3⟩ := base_filed h hp q x hx
      rw [List.mem_flatten]
      refine ⟨probeTable E q numProbes ps t, List.mem_of_getElem? (i := 0) ?_, ?_⟩
      · rw [List.getElem?_zipWith, b1, b2]
      · exact List.mem_append_right _ b3

/-- C36: when `k` is at least the number of vectors, every vector equal to the query is returned. -/
theorem C36_self_found (E : Env) (hE : E.Sound) (d : Nat) (projs : List (List Vec)) (hp : projs ≠ []) (ops : List Op) (x : String) (v : Vec)
    (hx : after d ops x = some v) (hd : v.length = d) (k : Nat) (hk : size (run (new d projs) ops) ≤ k) :
    ∃ out, search E (run (new d projs) ops) v k = some out ∧ x ∈ out.map Prod.fst := by
  have h := inv_new d projs ops
  obtain ⟨out, out', b1, -, b3, -⟩ := (C36_search E hE d projs hp ops v k 0).2 hd
  refine ⟨out, b1, ?_⟩
  by_contra hno
  have hmemv : ∀ r ∈ out.map Prod.fst, r ∈ (run (new d projs) ops).vecs.map Prod.fst := by
    intro r hr
    obtain ⟨y, hy, rfl⟩ := List.mem_map.1 hr
    obtain ⟨w, hw, -⟩ := b3.current y hy
    exact List.mem_map.2 ⟨(y.1, w), (mem_get h.keys _ _).2 (by rw [h.holds]; exact hw), rfl⟩
  have hxm : x ∈ (run (new d projs) ops).vecs.map Prod.fst :=
    List.mem_map.2 ⟨(x, v), (mem_get h.keys _ _).2 (by rw [h.holds]; exact hx), rfl⟩
  rcases b3.self x hx with h1 | ⟨h1, -⟩
  · exact hno h1
  · have hnd : (x :: out.map Prod.fst).Nodup := List.nodup_cons.2 ⟨hno, b3.distinct⟩
    have hsub : x :: out.map Prod.fst ⊆ (run (new d projs) ops).vecs.map Prod.fst := by
      intro y hy
      rcases List.mem_cons.1 hy with rfl | hy
      · exact hxm
      · exact hmemv y hy
    have := (List.subperm_of_subset hnd hsub).length_le
    simp only [List.length_cons, List.length_map] at this
    unfold size at hk
    omega

/-- C36: `Delete` reports whether the id was there, and `Size` counts the ids present. -/
theorem C36_delete_and_size (d : Nat) (projs : List (List Vec)) (ops : List Op) (x : String) :
    (delete (run (new d projs) ops) x).2 = (after d ops x).isSome ∧
      ∃ ids : List String, ids.Nodup ∧ (∀ y, y ∈ ids ↔ (after d ops y).isSome = true) ∧ size (run (new d projs) ops) = ids.length := by
  have h := inv_new d projs ops
  refine ⟨?_, (run (new d projs) ops).vecs.map Prod.fst, h.keys, ?_, by simp [size]⟩
  · unfold delete
    rw [h.holds x]
    cases after d ops x <;> rfl
  · intro y
    rw [List.mem_map]
    constructor
    · rintro ⟨e, he, rfl⟩
      have := (mem_get h.keys e.1 e.2).1 he
      rw [h.holds] at this
      rw [this]; rfl
    · intro hs
      obtain ⟨v, hv⟩ := Option.isSome_iff_exists.1 hs
      exact ⟨(y, v), (mem_get h.keys _ _).2 (by rw [h.holds, hv]), rfl⟩

def l1 : Vec → Vec → ℚ
  | a :: as, b :: bs => |a - b| + l1 as bs
  | _, _ => 0

def env : Env := ⟨l1, List.reverse, insertSort (fun r => -r.2), insertSort (fun r => -r.2)⟩

theorem env_sound : env.Sound := by
  refine ⟨List.reverse_perm, ?_⟩
  intro l
  obtain ⟨h1, h2⟩ := insertSort_sorts (fun r : Hit => -r.2) l
  exact ⟨h1, h2.imp (fun h => by linarith)⟩

/-- One table with two projections; `b` moves to another bucket and back into sight through its new one. -/
example : search env (run (new 2 [[[1, 0], [0, 1]]]) [.insert "a" [1, 2], .insert "b" [3, 1], .insert "c" [-1, 4], .insert "b" [-2, 2], .delete "a"]) [-1, 4] 5 =
    some [("c", 0), ("b", 3)] := by
  decide +kernel

example : after 2 [.insert "a" [1, 2], .insert "b" [3, 1]] "b" = some [3, 1] ∧ ([[[1, 0], [0, 1]]] : List (List Vec)) ≠ [] := by
  constructor
  · decide +kernel
  · simp

end Verif.Lsh
