import Verif.Model.Flat
import Verif.Base.Sort

/-!
C35: the exact index over arbitrary histories.
-/
namespace Verif.Flat
open Verif.Base Verif.Spec

variable {V : Type}

/-! ### Histories and what they mean -/

inductive Op (V : Type) where
  | insert (id : String) (v : V)
  | batch (ids : List String) (vs : List V)
  | delete (id : String)
  | clear

def step (E : Env V) (ix : Index V) : Op V → Index V
  | .insert id v => (insert E ix id v).1
  | .batch ids vs => (batchInsert E ix ids vs).1
  | .delete id => (delete ix id).1
  | .clear => clear ix

def run (E : Env V) (ix : Index V) (ops : List (Op V)) : Index V := ops.foldl (step E) ix

/-- Specification: the vector last accepted for an id. -/
abbrev Contents (V : Type) := String → Option V

def write (c : Contents V) (e : String × V) : Contents V := fun x => if x = e.1 then some e.2 else c x

/-- What a call means: a batch is written up to the first vector of a wrong dimension. -/
def effect (dimOf : V → Nat) (d : Nat) (c : Contents V) : Op V → Contents V
  | .insert id v => if dimOf v = d then write c (id, v) else c
  | .batch ids vs => if ids.length = vs.length then ((ids.zip vs).takeWhile (fun e => decide (dimOf e.2 = d))).foldl write c else c
  | .delete id => fun x => if x = id then none else c x
  | .clear => fun _ => none

def after (dimOf : V → Nat) (d : Nat) (ops : List (Op V)) : Contents V := ops.foldl (effect dimOf d) (fun _ => none)

/-- The entries a search may report. -/
def IsPool (E : Env V) (c : Contents V) (q : V) (pool : List Hit) : Prop :=
  (pool.map Prod.fst).Nodup ∧ ∀ r, r ∈ pool ↔ ∃ v, c r.1 = some v ∧ r.2 = E.dist (E.nrm q) (E.nrm v)

structure Inv (E : Env V) (d : Nat) (ix : Index V) (c : Contents V) : Prop where
  dim : ix.dimension = d
  keys : KeysOk ix.vecs
  holds : ∀ x, getA ix.vecs x = (c x).map E.nrm

theorem inv_write {E : Env V} {d : Nat} {ix : Index V} {c : Contents V} (h : Inv E d ix c) (id : String) (v : V) :
    Inv E d { ix with vecs := putA ix.vecs id (E.nrm v) } (write c (id, v)) := by
  refine ⟨h.dim, keys_put h.keys _ _, ?_⟩
  intro x
  simp only
  rw [get_put, h.holds x]
  unfold write
  simp only
  split <;> rfl

theorem inv_batch (E : Env V) (d : Nat) (es : List (String × V)) : ∀ (ix : Index V) (c : Contents V), Inv E d ix c →
    Inv E d (batchLoop E es ix).1 ((es.takeWhile (fun e => decide (E.dim e.2 = d))).foldl write c) := by
  induction es with
  | nil => intro ix c h; exact h
  | cons e es ih =>
    intro ix c h
    obtain ⟨id, v⟩ := e
    rw [batchLoop]
    by_cases hd : E.dim v = d
    · rw [if_neg (by rw [h.dim]; simp [hd]), List.takeWhile_cons_of_pos (by simp [hd])]
      exact ih _ _ (inv_write h id v)
    · rw [if_pos (by rw [h.dim]; exact hd), List.takeWhile_cons_of_neg (by simp [hd])]
      exact h

theorem inv_step (E : Env V) (d : Nat) (ix : Index V) (c : Contents V) (h : Inv E d ix c) (op : Op V) : Inv E d (step E ix op) (effect E.dim d c op) := by
  cases op with
  | insert id v =>
    simp only [step, insert, effect]
    by_cases hd : E.dim v = d
    · rw [if_neg (by rw [h.dim]; simp [hd]), if_pos hd]; exact inv_write h id v
    · rw [if_pos (by rw [h.dim]; exact hd), if_neg hd]; exact h
  | batch ids vs =>
    simp only [step, batchInsert, effect]
    by_cases hl : ids.length = vs.length
    · rw [if_neg (by simp [hl]), if_pos hl]; exact inv_batch E d _ ix c h
    · rw [if_pos hl, if_neg hl]; exact h
  | delete id =>
    simp only [step, delete, effect]
    by_cases hs : (getA ix.vecs id).isSome = true
    · rw [if_pos hs]
      refine ⟨h.dim, keys_del h.keys _, ?_⟩
      intro x
      simp only
      rw [get_del, h.holds x]
      split <;> rfl
    · rw [if_neg hs]
      refine ⟨h.dim, h.keys, ?_⟩
      intro x
      rw [h.holds x]
      by_cases hx : x = id
      · rw [if_pos hx, hx]
        rw [h.holds id] at hs
        cases hc : c id with
        | none => rfl
        | some v => rw [hc] at hs; simp at hs
      · rw [if_neg hx]
  | clear => exact ⟨h.dim, by simp [step, clear, KeysOk], fun x => rfl⟩

theorem inv_run (E : Env V) (d : Nat) (ops : List (Op V)) : ∀ (ix : Index V) (c : Contents V), Inv E d ix c →
    Inv E d (run E ix ops) (ops.foldl (effect E.dim d) c) := by
  induction ops with
  | nil => intro ix c h; exact h
  | cons op ops ih => intro ix c h; exact ih _ _ (inv_step E d ix c h op)

theorem inv_new (E : Env V) (d : Nat) (ops : List (Op V)) : Inv E d (run E (new V d) ops) (after E.dim d ops) :=
  inv_run E d ops (new V d) _ ⟨rfl, by simp [new, KeysOk], fun x => rfl⟩

theorem hits_pool {E : Env V} {d : Nat} {ix : Index V} {c : Contents V} (h : Inv E d ix c) (order : List (String × V) → List (String × V))
    (ho : ∀ l, (order l).Perm l) (q : V) : IsPool E c q (hits E ix order q) := by
  unfold hits
  refine ⟨?_, ?_⟩
  · rw [List.map_map]
    exact ((ho ix.vecs).map Prod.fst).nodup_iff.2 h.keys
  · intro r
    rw [List.mem_map]
    constructor
    · rintro ⟨e, he, rfl⟩
      have := (mem_get h.keys e.1 e.2).1 ((ho _).mem_iff.1 he)
      rw [h.holds] at this
      obtain ⟨v, hv, hn⟩ := Option.map_eq_some_iff.1 this
      exact ⟨v, hv, by rw [hn]⟩
    · rintro ⟨v, hv, hr⟩
      refine ⟨(r.1, E.nrm v), (ho _).mem_iff.2 ((mem_get h.keys _ _).2 (by rw [h.holds, hv]; rfl)), ?_⟩
      simp only
      rw [← hr]

/-! ### The scan with a heap -/

theorem farther_iff (a b : Hit) : farther a b = true ↔ (fun r : Hit => -r.2) a < (fun r : Hit => -r.2) b := by
  simp [farther]

/-- The heap holds the nearest of what has been seen. -/
structure Best (k : Nat) (seen h : List Hit) : Prop where
  heap : Heap (fun r : Hit => -r.2) h
  len : h.length = min k seen.length
  best : ∃ rest, (h ++ rest).Perm seen ∧ ∀ r ∈ rest, ∀ o ∈ h, o.2 ≤ r.2

theorem offer_best (k : Nat) (hk : 0 < k) (seen h : List Hit) (x : Hit) (hb : Best k seen h) : ∃ h', offer k h x = some h' ∧ Best k (x :: seen) h' := by
  obtain ⟨rest, hp, hr⟩ := hb.best
  have hlen := hb.len
  have hpl := hp.length_eq
  rw [List.length_append] at hpl
  unfold offer
  by_cases h1 : (h.length : Int) < k
  · rw [if_pos h1]
    obtain ⟨a1, a2⟩ := heapPush_spec (fun r : Hit => -r.2) farther farther_iff h x hb.heap
    have hnil : rest = [] := by
      apply List.length_eq_zero_iff.1
      have : h.length < k := by exact_mod_cast h1
      omega
    subst hnil
    rw [List.append_nil] at hp
    refine ⟨_, rfl, a1, ?_, [], ?_, by simp⟩
    · have := a2.length_eq
      rw [List.length_cons] at this
      rw [List.length_cons]
      have h2 : h.length < k := by exact_mod_cast h1
      omega
    · rw [List.append_nil]
      exact a2.trans (hp.cons x)
  · rw [if_neg h1]
    have h2 : k ≤ h.length := by
      by_contra hc
      exact h1 (by exact_mod_cast (not_le.1 hc))
    cases hh : h with
    | nil => rw [hh] at h2; simp at h2; omega
    | cons top tl =>
      simp only
      rw [hh] at hb hp hr hlen h2
      have htop := heap_head _ hb.heap
      by_cases h3 : x.2 < top.2
      · rw [if_pos h3]
        obtain ⟨t, r2, b1, b2, b3, b4, b5⟩ := heapPop_spec (fun r : Hit => -r.2) farther farther_iff (top :: tl) (by simp) hb.heap
        obtain rfl : top = t := by simpa using b5
        rw [b1]
        simp only
        obtain ⟨a1, a2⟩ := heapPush_spec (fun r : Hit => -r.2) farther farther_iff r2 x b3
        have hl2 := b2.length_eq
        have hl3 := a2.length_eq
        simp only [List.length_cons] at hl2 hl3 hlen
        refine ⟨_, rfl, a1, by simp only [List.length_cons] at *; omega, top :: rest, ?_, ?_⟩
        · refine ((a2.append_right _).trans ?_)
          rw [List.cons_append]
          refine List.Perm.cons x ?_
          refine (List.perm_middle).trans ?_
          exact ((b2.append_right rest).trans hp)
        · intro r hrm o ho
          have ho' := a2.mem_iff.1 ho
          have hot : o.2 ≤ top.2 := by
            rcases List.mem_cons.1 ho' with rfl | ho'
            · exact le_of_lt h3
            · have := htop o (b2.mem_iff.1 (List.mem_cons_of_mem _ ho'))
              exact neg_le_neg_iff.1 this
          rcases List.mem_cons.1 hrm with rfl | hrm
          · exact hot
          · exact le_trans hot (hr r hrm top List.mem_cons_self)
      · rw [if_neg h3]
        refine ⟨_, rfl, hb.heap, by simp only [List.length_cons] at *; omega, x :: rest, ?_, ?_⟩
        · exact List.perm_middle.trans (hp.cons x)
        · intro r hrm o ho
          have hot : o.2 ≤ top.2 := neg_le_neg_iff.1 (htop o ho)
          rcases List.mem_cons.1 hrm with rfl | hrm
          · exact le_trans hot (not_lt.1 h3)
          · exact hr r hrm o ho

theorem Best.perm {k : Nat} {s s' h : List Hit} (hb : Best k s h) (hp : s.Perm s') : Best k s' h := by
  obtain ⟨rest, h1, h2⟩ := hb.best
  exact ⟨hb.heap, by rw [hb.len, hp.length_eq], rest, h1.trans hp, h2⟩

theorem offerAll_best (k : Nat) (hk : 0 < k) (xs : List Hit) : ∀ (seen h : List Hit), Best k seen h →
    ∃ h', offerAll k xs h = some h' ∧ Best k (seen ++ xs) h' := by
  induction xs with
  | nil => intro seen h hb; exact ⟨h, rfl, by rw [List.append_nil]; exact hb⟩
  | cons x xs ih =>
    intro seen h hb
    obtain ⟨h1, a1, a2⟩ := offer_best k hk seen h x hb
    obtain ⟨h2, b1, b2⟩ := ih (x :: seen) h1 a2
    exact ⟨h2, by rw [offerAll, a1]; exact b1, b2.perm List.perm_middle.symm⟩

/-! ### C35 -/

/-- C35, positive `k`: whatever the history and whatever the order in which the map is visited, a search returns the `k` nearest of the
current vectors with their distances, nearest first; of a wrong dimension, nothing. Missing: `k` zero or negative, which panics (below). -/
theorem C35_search_exact_partial (E : Env V) (d : Nat) (ops : List (Op V)) (order : List (String × V) → List (String × V)) (ho : ∀ l, (order l).Perm l)
    (q : V) (k : Nat) (hk : 0 < k) :
    ∃ out, search E (run E (new V d) ops) order q k = some out ∧ (E.dim q ≠ d → out = []) ∧
      (E.dim q = d → ∃ pool, IsPool E (after E.dim d ops) q pool ∧ IsTopK (fun r => -r.2) pool k out) := by
  have hi := inv_new E d ops
  unfold search
  rw [hi.dim]
  by_cases hd : E.dim q = d
  · rw [if_neg (by simp [hd])]
    by_cases hv : (run E (new V d) ops).vecs = []
    · rw [if_pos hv]
      refine ⟨[], rfl, fun _ => rfl, fun _ => ⟨hits E (run E (new V d) ops) order q, hits_pool hi order ho q, ?_⟩⟩
      have : hits E (run E (new V d) ops) order q = [] := by
        unfold hits
        rw [hv, List.perm_nil.1 (ho [])]
        rfl
      rw [this]
      exact ⟨List.Pairwise.nil, ⟨[], List.Perm.refl _, by simp⟩, by simp⟩
    · rw [if_neg hv]
      obtain ⟨h, a1, a2⟩ := offerAll_best k hk (hits E (run E (new V d) ops) order q) [] []
        ⟨heap_nil _, by simp, [], List.Perm.refl _, by simp⟩
      rw [a1]
      simp only
      refine ⟨_, rfl, fun h => absurd hd h, fun _ => ⟨_, hits_pool hi order ho q, ?_⟩⟩
      rw [List.nil_append] at a2
      obtain ⟨b1, b2⟩ := heapDrain_spec (fun r : Hit => -r.2) farther farther_iff h.length h (le_refl _) a2.heap
      obtain ⟨rest, c1, c2⟩ := a2.best
      refine ⟨?_, ⟨rest, ?_, ?_⟩, ?_⟩
      · rw [List.pairwise_reverse]
        exact b2
      · exact ((((List.reverse_perm _).trans b1).append_right rest).trans c1)
      · intro r hr o ho'
        have := c2 r hr o (b1.mem_iff.1 (List.mem_reverse.1 ho'))
        exact neg_le_neg this
      · rw [List.length_reverse, b1.length_eq, a2.len]
  · rw [if_pos hd]
    exact ⟨[], rfl, fun _ => rfl, fun h => absurd h hd⟩

/-- C35 is violated for `k` zero or negative: on every non-empty index the search panics. -/
theorem C35_nonpositive_k_panics_violated (E : Env V) (d : Nat) (ops : List (Op V)) (order : List (String × V) → List (String × V)) (ho : ∀ l, (order l).Perm l)
    (q : V) (hd : E.dim q = d) (k : Int) (hk : k ≤ 0) (x : String) (v : V) (hx : after E.dim d ops x = some v) :
    search E (run E (new V d) ops) order q k = none := by
  have hi := inv_new E d ops
  have hmem : (x, E.nrm v) ∈ (run E (new V d) ops).vecs := (mem_get hi.keys _ _).2 (by rw [hi.holds, hx]; rfl)
  unfold search
  rw [hi.dim, if_neg (by simp [hd]), if_neg (List.ne_nil_of_mem hmem)]
  have hm2 : (x, E.dist (E.nrm q) (E.nrm v)) ∈ hits E (run E (new V d) ops) order q :=
    (hits_pool hi order ho q).2 _ |>.2 ⟨v, hx, rfl⟩
  cases hh : hits E (run E (new V d) ops) order q with
  | nil => rw [hh] at hm2; simp at hm2
  | cons a l =>
    have : offer k [] a = none := by
      unfold offer
      rw [if_neg (by simp; exact hk)]
    rw [offerAll, this]

/-- C35, range: whatever the history and the order of the map, exactly the current vectors within the radius are returned, each once with its
distance, nearest first. -/
theorem C35_range_exact (E : Env V) (d : Nat) (ops : List (Op V)) (order : List (String × V) → List (String × V)) (ho : ∀ l, (order l).Perm l)
    (q : V) (radius : ℚ) :
    (E.dim q ≠ d → rangeSearch E (run E (new V d) ops) order q radius = []) ∧
    (E.dim q = d →
      ((rangeSearch E (run E (new V d) ops) order q radius).map Prod.fst).Nodup ∧
      (rangeSearch E (run E (new V d) ops) order q radius).Pairwise (fun a b => a.2 ≤ b.2) ∧
      ∀ x r, (x, r) ∈ rangeSearch E (run E (new V d) ops) order q radius ↔
        r ≤ radius ∧ ∃ v, after E.dim d ops x = some v ∧ r = E.dist (E.nrm q) (E.nrm v)) := by
  have hi := inv_new E d ops
  unfold rangeSearch
  rw [hi.dim]
  constructor
  · intro hd; rw [if_pos hd]
  · intro hd
    rw [if_neg (by simp [hd])]
    simp only
    obtain ⟨p1, p2⟩ := hits_pool hi order ho q
    generalize hf : (hits E (run E (new V d) ops) order q).filter (fun r => decide (r.2 ≤ radius)) = found
    have hfn : (found.map Prod.fst).Nodup := by
      rw [← hf]
      exact (List.filter_sublist.map Prod.fst).nodup p1
    have hfm : ∀ x r, (x, r) ∈ found ↔ r ≤ radius ∧ ∃ v, after E.dim d ops x = some v ∧ r = E.dist (E.nrm q) (E.nrm v) := by
      intro x r
      rw [← hf, List.mem_filter, p2]
      simp only [decide_eq_true_eq]
      exact And.comm
    have key : ∀ l : List Hit, l.Perm found → (l.map Prod.fst).Nodup ∧ ∀ x r, (x, r) ∈ l ↔
        r ≤ radius ∧ ∃ v, after E.dim d ops x = some v ∧ r = E.dist (E.nrm q) (E.nrm v) :=
      fun l hl => ⟨(hl.map Prod.fst).nodup_iff.2 hfn, fun x r => hl.mem_iff.trans (hfm x r)⟩
    by_cases hl : found.length > 1
    · rw [if_pos hl]
      obtain ⟨q1, q2⟩ := quick_sorts (fun r : Hit => r.2) nearer (by intro a b; simp [nearer]) found
      exact ⟨(key _ q1).1, q2, (key _ q1).2⟩
    · rw [if_neg hl]
      refine ⟨hfn, ?_, hfm⟩
      cases found with
      | nil => exact List.Pairwise.nil
      | cons a l =>
        cases l with
        | nil => simp
        | cons b l => simp at hl

/-- C35, contents: `GetVector` returns the vector last accepted (normalised for the cosine index), `Size` counts the ids present, `Delete`
reports whether the id was there. -/
theorem C35_contents (E : Env V) (d : Nat) (ops : List (Op V)) (x : String) :
    getVector (run E (new V d) ops) x = (after E.dim d ops x).map E.nrm ∧ (delete (run E (new V d) ops) x).2 = (after E.dim d ops x).isSome ∧
      ∃ ids : List String, ids.Nodup ∧ (∀ y, y ∈ ids ↔ (after E.dim d ops y).isSome = true) ∧ size (run E (new V d) ops) = ids.length := by
  have hi := inv_new E d ops
  refine ⟨hi.holds x, ?_, (run E (new V d) ops).vecs.map Prod.fst, hi.keys, ?_, by simp [size]⟩
  · unfold delete
    rw [hi.holds x]
    cases after E.dim d ops x <;> rfl
  · intro y
    rw [List.mem_map]
    constructor
    · rintro ⟨e, he, rfl⟩
      have := (mem_get hi.keys e.1 e.2).1 he
      rw [hi.holds] at this
      cases hc : after E.dim d ops e.1 with
      | none => rw [hc] at this; simp at this
      | some v => rfl
    · intro h
      obtain ⟨v, hv⟩ := Option.isSome_iff_exists.1 h
      exact ⟨(y, E.nrm v), (mem_get hi.keys _ _).2 (by rw [hi.holds, hv]; rfl), rfl⟩

def lineEnv : Env Nat := ⟨fun _ => 1, fun a b => ((a - b + (b - a) : Nat) : ℚ), id⟩

/-- Insert, overwrite, batch and delete: the two nearest, and those within 4. -/
example :
    search lineEnv (run lineEnv (new Nat 1) [.insert "a" 1, .insert "b" 5, .insert "a" 9, .batch ["c", "d"] [6, 20], .delete "b"]) List.reverse 8 2 =
      some [("a", 1), ("c", 2)] ∧
    rangeSearch lineEnv (run lineEnv (new Nat 1) [.insert "a" 1, .insert "b" 5, .insert "a" 9, .batch ["c", "d"] [6, 20], .delete "b"]) id 6 4 =
      [("c", 0), ("a", 3)] := by
  constructor <;> decide +kernel

example : ∀ l : List (String × Nat), (List.reverse l).Perm l := List.reverse_perm

example : after lineEnv.dim 1 [Op.insert "a" 1] "a" = some 1 := by decide +kernel

end Verif.Flat
