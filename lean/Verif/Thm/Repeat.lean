import Verif.Thm.Flat
import Verif.Thm.Lsh
import Verif.Thm.MultiIndex
import Verif.Thm.GraphHybrid
import Verif.Thm.Hindsight
import Verif.Thm.MemoryWrites
import Verif.Thm.RouteBatch
import Verif.Thm.Search
import Mathlib.Data.List.Lex
import Mathlib.Data.Char
import Mathlib.Data.Prod.Lex

/-!
C247: the same search asked twice, with no write in between, gives the same answer. What may differ between the two calls is the
order in which Go visits a map, and with it the order of equal scores after `sort.Slice`.
-/
namespace Verif.Repeat
open Verif.Base Verif.Spec

variable {α S : Type*} [LinearOrder S]

/-- Best-`k` answers of the same pool, however it is listed, are the same when no two members share a score. -/
theorem topK_unique {score : α → S} {p p' out out' : List α} {k : Nat} (h : IsTopK score p k out) (h' : IsTopK score p' k out')
    (hp : p.Perm p') (inj : ∀ a ∈ p, ∀ b ∈ p, score a = score b → a = b) : out = out' := by
  obtain ⟨r, r1, r2⟩ := h.best
  obtain ⟨r', r1', r2'⟩ := h'.best
  have key : ∀ (o t : List α), o.Pairwise (fun a b => score b ≤ score a) → (∀ x ∈ t, ∀ y ∈ o, score x ≤ score y) →
      (o ++ insertSort score t).Pairwise (fun a b => score b ≤ score a) ∧ (o ++ insertSort score t).Perm (o ++ t) := by
    intro o t ho ht
    obtain ⟨s1, s2⟩ := insertSort_sorts score t
    refine ⟨List.pairwise_append.2 ⟨ho, s2, fun a ha b hb => ht b (s1.mem_iff.1 hb) a ha⟩, s1.append_left o⟩
  obtain ⟨a1, a2⟩ := key out r h.ordered r2
  obtain ⟨b1, b2⟩ := key out' r' h'.ordered r2'
  have hperm : (out ++ insertSort score r).Perm (out' ++ insertSort score r') :=
    (a2.trans r1).trans (hp.trans (b2.trans r1').symm)
  have heq : out ++ insertSort score r = out' ++ insertSort score r' := by
    refine List.Perm.eq_of_pairwise (le := fun a b => score b ≤ score a) ?_ a1 b1 hperm
    intro a b ha hb hab hba
    exact inj a ((a2.trans r1).mem_iff.1 ha) b (hp.mem_iff.2 ((b2.trans r1').mem_iff.1 hb)) (le_antisymm hba hab)
  exact (List.append_inj heq (by rw [h.size, h'.size, hp.length_eq])).1

theorem ranked_unique {score : α → S} {p out out' : List α} (h : SortedFrom (fun a b => score b ≤ score a) p out)
    (h' : SortedFrom (fun a b => score b ≤ score a) p out') (inj : ∀ a ∈ p, ∀ b ∈ p, score a = score b → a = b) : out = out' := by
  refine List.Perm.eq_of_pairwise (le := fun a b => score b ≤ score a) ?_ h.2 h'.2 (h.1.trans h'.1.symm)
  intro a b ha hb hab hba
  exact inj a (h.1.mem_iff.1 ha) b (h'.1.mem_iff.1 hb) (le_antisymm hba hab)

/-- A sort may put any of the best first. -/
theorem some_sort (score : α → S) (l : List α) (x : α) (hx : x ∈ l) (hb : ∀ y ∈ l, score y ≤ score x) :
    ∃ sort : List α → List α, (∀ l, SortedFrom (fun a b => score b ≤ score a) l (sort l)) ∧ (sort l).take 1 = [x] := by
  classical
  refine ⟨fun l' => if l' = l then x :: insertSort score (l.erase x) else insertSort score l', ?_, by simp⟩
  intro l'
  dsimp only
  split_ifs with h
  · obtain ⟨s1, s2⟩ := insertSort_sorts score (l.erase x)
    rw [h]
    refine ⟨(s1.cons x).trans (List.perm_cons_erase hx).symm, List.pairwise_cons.2 ⟨?_, s2⟩⟩
    intro y hy
    exact hb y (List.mem_of_mem_erase (s1.mem_iff.1 hy))
  · exact insertSort_sorts score l'

/-- Two lists with the same members and no id twice are the same up to order. -/
theorem perm_of_ids {ι : Type*} {f : α → ι} {a b : List α} (ha : (a.map f).Nodup) (hb : (b.map f).Nodup) (h : ∀ x, x ∈ a ↔ x ∈ b) : a.Perm b :=
  (List.perm_ext_iff_of_nodup (List.Nodup.of_map f ha) (List.Nodup.of_map f hb)).2 h

end Verif.Repeat

namespace Verif.Flat
open Verif.Base Verif.Spec

variable {V : Type}

/-- C247, exact index: when no two stored vectors are at the same distance from the query, two searches give the same answer,
whatever the order in which the map is visited. Missing: equal distances (below). -/
theorem C247_flat_partial (E : Env V) (d : Nat) (ops : List (Op V)) (o o' : List (String × V) → List (String × V)) (ho : ∀ l, (o l).Perm l)
    (ho' : ∀ l, (o' l).Perm l) (q : V) (k : Nat) (hk : 0 < k)
    (hd : ∀ x y v w, after E.dim d ops x = some v → after E.dim d ops y = some w →
      E.dist (E.nrm q) (E.nrm v) = E.dist (E.nrm q) (E.nrm w) → x = y) :
    search E (run E (new V d) ops) o q k = search E (run E (new V d) ops) o' q k := by
  obtain ⟨out, a1, a2, a3⟩ := C35_search_exact_partial E d ops o ho q k hk
  obtain ⟨out', b1, b2, b3⟩ := C35_search_exact_partial E d ops o' ho' q k hk
  rw [a1, b1]
  by_cases hq : E.dim q = d
  · obtain ⟨p, p1, p2⟩ := a3 hq
    obtain ⟨p', p1', p2'⟩ := b3 hq
    refine congrArg some (Verif.Repeat.topK_unique p2 p2' (Verif.Repeat.perm_of_ids p1.1 p1'.1 (fun x => by rw [p1.2, p1'.2])) ?_)
    intro a ha b hb hab
    obtain ⟨v, v1, v2⟩ := (p1.2 a).1 ha
    obtain ⟨w, w1, w2⟩ := (p1.2 b).1 hb
    have : a.2 = b.2 := neg_inj.1 hab
    exact Prod.ext (hd _ _ _ _ v1 w1 (by rw [← v2, ← w2, this])) this
  · rw [a2 hq, b2 hq]

theorem offerAll_keeps (t : Hit) : ∀ xs : List Hit, (∀ x ∈ xs, t.2 ≤ x.2) → offerAll 1 xs [t] = some [t]
  | [], _ => rfl
  | x :: xs, h => by
    have : offer 1 [t] x = some [t] := by
      unfold offer
      rw [if_neg (by simp)]
      simp only
      rw [if_neg (not_lt.2 (h x (by simp)))]
    rw [offerAll, this]
    exact offerAll_keeps t xs (fun y hy => h y (List.mem_cons_of_mem _ hy))

/-- Any of the nearest may be the one that is returned. -/
theorem any_nearest (E : Env V) (d : Nat) (ops : List (Op V)) (q : V) (hq : E.dim q = d) (x : String) (v : V)
    (hx : after E.dim d ops x = some v)
    (hm : ∀ y w, after E.dim d ops y = some w → E.dist (E.nrm q) (E.nrm v) ≤ E.dist (E.nrm q) (E.nrm w)) :
    ∃ o : List (String × V) → List (String × V), (∀ l, (o l).Perm l) ∧
      search E (run E (new V d) ops) o q 1 = some [(x, E.dist (E.nrm q) (E.nrm v))] := by
  have hi := inv_new E d ops
  set ix := run E (new V d) ops with hix
  let o : List (String × V) → List (String × V) := fun l => l.filter (fun e => decide (e.1 = x)) ++ l.filter (fun e => !decide (e.1 = x))
  have ho : ∀ l, (o l).Perm l := fun l => List.filter_append_perm _ l
  refine ⟨o, ho, ?_⟩
  obtain ⟨p1, p2⟩ := hits_pool hi o ho q
  have hmem : (x, E.dist (E.nrm q) (E.nrm v)) ∈ hits E ix o q := (p2 _).2 ⟨v, hx, rfl⟩
  have hge : ∀ r ∈ hits E ix o q, E.dist (E.nrm q) (E.nrm v) ≤ r.2 := by
    intro r hr
    obtain ⟨w, w1, w2⟩ := (p2 r).1 hr
    rw [w2]
    exact hm _ _ w1
  have hv : ix.vecs ≠ [] := by
    intro h
    unfold hits at hmem
    rw [h] at hmem
    simp [o] at hmem
  -- the first hit is that of `x`
  have hfirst : ∃ t, hits E ix o q = (x, E.dist (E.nrm q) (E.nrm v)) :: t := by
    have hsplit : hits E ix o q = (ix.vecs.filter (fun e => decide (e.1 = x))).map (fun e => (e.1, E.dist (E.nrm q) e.2)) ++
        (ix.vecs.filter (fun e => !decide (e.1 = x))).map (fun e => (e.1, E.dist (E.nrm q) e.2)) := by
      unfold hits
      simp only [o, List.map_append]
    rw [hsplit] at hmem p1 ⊢
    cases hf : ix.vecs.filter (fun e => decide (e.1 = x)) with
    | nil =>
      rw [hf] at hmem
      simp only [List.map_nil, List.nil_append, List.mem_map, List.mem_filter] at hmem
      obtain ⟨e, ⟨-, he⟩, heq⟩ := hmem
      have h1 : e.1 = x := congrArg Prod.fst heq
      exact absurd h1 (by simpa using he)
    | cons a t =>
      have ha : a.1 = x := by
        have : a ∈ ix.vecs.filter (fun e => decide (e.1 = x)) := by rw [hf]; simp
        simpa using (List.mem_filter.1 this).2
      have hav : (a.1, E.dist (E.nrm q) a.2) ∈ hits E ix o q := by rw [hsplit, hf]; simp
      obtain ⟨w, w1, w2⟩ := (p2 _).1 hav
      simp only [ha] at w1 w2
      rw [hx] at w1
      obtain rfl := Option.some.inj w1
      exact ⟨_, by rw [List.map_cons, List.cons_append, ha, w2]⟩
  obtain ⟨t, ht⟩ := hfirst
  unfold search
  rw [if_neg (by rw [hi.dim]; simp [hq]), if_neg hv, ht]
  have : offerAll 1 ((x, E.dist (E.nrm q) (E.nrm v)) :: t) [] = some [(x, E.dist (E.nrm q) (E.nrm v))] := by
    rw [offerAll]
    have h0 : offer 1 [] (x, E.dist (E.nrm q) (E.nrm v)) = some [(x, E.dist (E.nrm q) (E.nrm v))] := by
      unfold offer
      rw [if_pos (by simp)]
      rfl
    rw [h0]
    refine offerAll_keeps _ t (fun r hr => hge r ?_)
    rw [ht]
    exact List.mem_cons_of_mem _ hr
  rw [this]
  rfl

/-- C247 violated: after every history in which two vectors are equally near and none is nearer, a search for one result may
return either of the two. -/
theorem C247_flat_violated (E : Env V) (d : Nat) (ops : List (Op V)) (q : V) (hq : E.dim q = d) (x y : String) (v w : V) (hxy : x ≠ y)
    (hx : after E.dim d ops x = some v) (hy : after E.dim d ops y = some w)
    (he : E.dist (E.nrm q) (E.nrm v) = E.dist (E.nrm q) (E.nrm w))
    (hm : ∀ z u, after E.dim d ops z = some u → E.dist (E.nrm q) (E.nrm v) ≤ E.dist (E.nrm q) (E.nrm u)) :
    ∃ o o' : List (String × V) → List (String × V), (∀ l, (o l).Perm l) ∧ (∀ l, (o' l).Perm l) ∧
      search E (run E (new V d) ops) o q 1 ≠ search E (run E (new V d) ops) o' q 1 := by
  obtain ⟨o, o1, o2⟩ := any_nearest E d ops q hq x v hx hm
  obtain ⟨o', o1', o2'⟩ := any_nearest E d ops q hq y w hy (by rw [← he]; exact hm)
  refine ⟨o, o', o1, o1', ?_⟩
  rw [o2, o2']
  simp [hxy]

theorem two_after (a b : Nat) (x : String) (v : Nat) (h : after lineEnv.dim 1 [Op.insert "a" a, Op.insert "b" b] x = some v) :
    x = "a" ∧ v = a ∨ x = "b" ∧ v = b := by
  have h : (write (write (fun _ => none) ("a", a)) ("b", b) : Contents Nat) x = some v := h
  simp only [write] at h
  split at h
  · rename_i hx
    exact Or.inr ⟨hx, (Option.some.inj h).symm⟩
  · split at h
    · rename_i hx
      exact Or.inl ⟨hx, (Option.some.inj h).symm⟩
    · cases h

-- 1 and 5 are at different distances from 2 ...
example : ∀ x y v w, after lineEnv.dim 1 [Op.insert "a" 1, Op.insert "b" 5] x = some v →
    after lineEnv.dim 1 [Op.insert "a" 1, Op.insert "b" 5] y = some w →
    lineEnv.dist (lineEnv.nrm 2) (lineEnv.nrm v) = lineEnv.dist (lineEnv.nrm 2) (lineEnv.nrm w) → x = y := by
  intro x y v w hx hy h
  rcases two_after 1 5 x v hx with ⟨rfl, rfl⟩ | ⟨rfl, rfl⟩ <;> rcases two_after 1 5 y w hy with ⟨rfl, rfl⟩ | ⟨rfl, rfl⟩
  · rfl
  · exact absurd h (by decide +kernel)
  · exact absurd h (by decide +kernel)
  · rfl

-- ... and at the same distance from 3, which is the least
example : lineEnv.dist (lineEnv.nrm 3) (lineEnv.nrm 1) = lineEnv.dist (lineEnv.nrm 3) (lineEnv.nrm 5) ∧
    ∀ z u, after lineEnv.dim 1 [Op.insert "a" 1, Op.insert "b" 5] z = some u →
      lineEnv.dist (lineEnv.nrm 3) (lineEnv.nrm 1) ≤ lineEnv.dist (lineEnv.nrm 3) (lineEnv.nrm u) := by
  refine ⟨by decide +kernel, fun z u h => ?_⟩
  rcases two_after 1 5 z u h with ⟨rfl, rfl⟩ | ⟨rfl, rfl⟩ <;> decide +kernel

end Verif.Flat

namespace Verif.Lsh
open Verif.Base Verif.Spec

/-- C247, hashing index: when no two stored vectors are at the same distance from the query, two searches give the same answer,
whatever the orders of the maps. Missing: equal distances. -/
theorem C247_lsh_partial (E E' : Env) (hE : E.Sound) (hE' : E'.Sound) (hd : E.dist = E'.dist) (d : Nat) (projs : List (List Vec)) (ops : List Op)
    (q : Vec) (k : Nat)
    (inj : ∀ x y v w, after d ops x = some v → after d ops y = some w → E.dist q v = E.dist q w → x = y) :
    search E (run (new d projs) ops) q k = search E' (run (new d projs) ops) q k := by
  have h := inv_new d projs ops
  unfold search
  split_ifs with hq
  · rfl
  set ix := run (new d projs) ops
  obtain ⟨a1, a2⟩ := score_spec E hE ix q (baseCands ix q)
  obtain ⟨b1, b2⟩ := score_spec E' hE' ix q (baseCands ix q)
  have hp : (score E ix q (baseCands ix q)).Perm (score E' ix q (baseCands ix q)) :=
    Verif.Repeat.perm_of_ids a1 b1 (fun x => by rw [a2, b2, hd])
  obtain ⟨s1, s2⟩ := hE.sorts (score E ix q (baseCands ix q))
  obtain ⟨t1, t2⟩ := hE'.sorts (score E' ix q (baseCands ix q))
  refine congrArg some (Verif.Repeat.topK_unique (score := fun r : Hit => -r.2)
    (isTopK_take _ _ _ k ⟨s1, s2.imp (fun hab => neg_le_neg hab)⟩)
    (isTopK_take _ _ _ k ⟨t1, t2.imp (fun hab => neg_le_neg hab)⟩) hp ?_)
  intro a ha b hb hab
  obtain ⟨-, v, v1, v2⟩ := (a2 a).1 ha
  obtain ⟨-, w, w1, w2⟩ := (a2 b).1 hb
  have : a.2 = b.2 := neg_inj.1 hab
  rw [h.holds] at v1 w1
  exact Prod.ext (inj _ _ _ _ v1 w1 (by rw [← v2, ← w2, this])) this

/-- C247 violated: of two vectors that are equally near, a search for one result returns the one visited first. -/
theorem C247_lsh_violated : ∃ (E E' : Env) (ops : List Op), E.Sound ∧ E'.Sound ∧ E.dist = E'.dist ∧
    search E (run (new 2 [[[1, 0], [0, 1]]]) ops) [2, 2] 1 ≠ search E' (run (new 2 [[[1, 0], [0, 1]]]) ops) [2, 2] 1 :=
  ⟨env, { env with order := id }, [.insert "a" [1, 2], .insert "b" [2, 1]], env_sound, ⟨fun l => List.Perm.refl l, env_sound.sorts⟩, rfl,
    by decide +kernel⟩

example : env.dist [1, 3] [1, 2] ≠ env.dist [1, 3] [2, 1] := by decide +kernel

end Verif.Lsh

namespace Verif.MultiIndex
open Verif.Base Verif.Spec

variable {σ V ρ : Type}

/-- C247, several indexes merged: when no two ids have the same smallest distance, two searches give the same answer. -/
theorem C247_merge_partial (L : Lib σ V ρ) (E E' : Env σ) (hE : E.Sound) (hE' : E'.Sound) (m : Multi σ) (hs : m.strategy = .mergeAll) (q : V)
    (k : Nat) (hc : Calm L m q)
    (inj : ∀ x y d, MinOf (m.indices.flatMap (answers L q k)) x d → MinOf (m.indices.flatMap (answers L q k)) y d → x = y) :
    search L E m q k = search L E' m q k := by
  obtain ⟨out, p, a1, a2, a3, a4⟩ := C111_merge_all L E hE m hs q k hc
  obtain ⟨out', p', b1, b2, b3, b4⟩ := C111_merge_all L E' hE' m hs q k hc
  rw [a1, b1]
  refine congrArg some (Verif.Repeat.topK_unique a4 b4 (Verif.Repeat.perm_of_ids a2 b2 (fun x => by rw [← Prod.mk.eta (p := x), a3, b3])) ?_)
  rintro ⟨x, d⟩ ha ⟨y, d'⟩ hb hab
  obtain rfl : d = d' := neg_inj.1 hab
  rw [inj x y d ((a3 _ _).1 ha) ((a3 _ _).1 hb)]

/-- C247, several indexes voting: when no two ids have both the same number of votes and the same score, two searches give the same
answer. -/
theorem C247_voting_partial (L : Lib σ V ρ) (E E' : Env σ) (hE : E.Sound) (hE' : E'.Sound) (m : Multi σ) (hs : m.strategy = .voting) (q : V)
    (k : Nat) (hc : Calm L m q)
    (inj : ∀ x y, dists (m.indices.flatMap (answers L q (k * 2))) x ≠ [] → dists (m.indices.flatMap (answers L q (k * 2))) y ≠ [] →
      (dists (m.indices.flatMap (answers L q (k * 2))) x).length = (dists (m.indices.flatMap (answers L q (k * 2))) y).length →
      (dists (m.indices.flatMap (answers L q (k * 2))) x).sum = (dists (m.indices.flatMap (answers L q (k * 2))) y).sum → x = y) :
    search L E m q k = search L E' m q k := by
  obtain ⟨out, p, a1, a2, a3, a4⟩ := C111_voting L E hE m hs q k hc
  obtain ⟨out', p', b1, b2, b3, b4⟩ := C111_voting L E' hE' m hs q k hc
  rw [a1, b1]
  refine congrArg (fun l => some (List.map asHit l))
    (Verif.Repeat.topK_unique a4 b4 (Verif.Repeat.perm_of_ids a2 b2 (fun x => by rw [a3, b3])) ?_)
  intro a ha b hb hab
  obtain ⟨x1, x2, x3⟩ := (a3 a).1 ha
  obtain ⟨y1, y2, y3⟩ := (a3 b).1 hb
  unfold voteKey at hab
  have hc' := congrArg (fun z => (ofLex z).1) hab
  have hs' := congrArg (fun z => (ofLex z).2) hab
  simp only [ofLex_toLex] at hc' hs'
  have hs'' : a.score = b.score := neg_inj.1 hs'
  have hpos : (b.count : ℚ) ≠ 0 := by
    rw [y2]
    exact_mod_cast (List.length_pos_iff.2 y1).ne'
  have hid : a.id = b.id := by
    refine inj _ _ x1 y1 (by rw [← x2, ← y2, hc']) ?_
    rw [x3, y3, hc'] at hs''
    have := sub_left_injective hs''
    exact (div_left_inj' hpos).1 this
  cases a; cases b
  simp_all

/-- C247 violated: of two vectors that are equally near, a search for one result returns the one visited first. -/
theorem C247_merge_violated : ∃ (E E' : Env Both) (m : Multi Both), E.Sound ∧ E'.Sound ∧ m.strategy = .mergeAll ∧
    run bothLib (both .mergeAll true) [ins "a" 5, ins "b" 7] = some m ∧ search bothLib E m 6 1 ≠ search bothLib E' m 6 1 :=
  ⟨env, { env with hits := id }, ((run bothLib (both .mergeAll true) [ins "a" 5, ins "b" 7]).getD (both .mergeAll true)), env_sound,
    { env_sound with hits := fun l => List.Perm.refl l }, by decide +kernel, by
      cases h : run bothLib (both .mergeAll true) [ins "a" 5, ins "b" 7] with
      | none => exact absurd (congrArg Option.isSome h) (by decide +kernel)
      | some m => rfl, by decide +kernel⟩

end Verif.MultiIndex

namespace Verif.Graph
open Verif.Base Verif.Spec

/-- C247, hybrid search over the graph: when the answer without a limit has no two results of the same combined score, two searches
give the same answer whatever the limit. -/
theorem C247_graph_partial (sim : List ℚ → List ℚ → ℚ) (sort sort' : List HResult → List HResult)
    (hs : ∀ l, SortedFrom (fun a b : HResult => b.combined ≤ a.combined) l (sort l))
    (hs' : ∀ l, SortedFrom (fun a b : HResult => b.combined ≤ a.combined) l (sort' l)) (s : State) (index : Option (List String)) (q : HQuery)
    (inj : ∀ dist, (if q.start = "" then some [] else graphDistances s q.start q.filter) = some dist →
      ((hybridPool sim s q (normWeights q.weights) (vectorHits sim s index q) dist).map HResult.combined).Nodup) :
    hybridSearch sim sort s index q = hybridSearch sim sort' s index q := by
  unfold hybridSearch
  split
  · rfl
  · rename_i dist hd
    have h := inj dist hd
    have : sort (hybridPool sim s q (normWeights q.weights) (vectorHits sim s index q) dist) =
        sort' (hybridPool sim s q (normWeights q.weights) (vectorHits sim s index q) dist) :=
      Verif.Repeat.ranked_unique (hs _) (hs' _) (fun a ha b hb hab => List.inj_on_of_nodup_map h ha hb hab)
    simp only [this]

/-- C247 violated: whenever two results share the best combined score, a search for one result may return either. -/
theorem C247_graph_violated (sim : List ℚ → List ℚ → ℚ) (s : State) (index : Option (List String)) (q : HQuery) (hk : q.topK = 1)
    (dist : List GDist) (hd : (if q.start = "" then some [] else graphDistances s q.start q.filter) = some dist) (a b : HResult) (hab : a ≠ b)
    (ha : a ∈ hybridPool sim s q (normWeights q.weights) (vectorHits sim s index q) dist)
    (hb : b ∈ hybridPool sim s q (normWeights q.weights) (vectorHits sim s index q) dist) (he : a.combined = b.combined)
    (hm : ∀ x ∈ hybridPool sim s q (normWeights q.weights) (vectorHits sim s index q) dist, x.combined ≤ a.combined) :
    ∃ sort sort' : List HResult → List HResult,
      (∀ l, SortedFrom (fun a b : HResult => b.combined ≤ a.combined) l (sort l)) ∧
      (∀ l, SortedFrom (fun a b : HResult => b.combined ≤ a.combined) l (sort' l)) ∧
      hybridSearch sim sort s index q = some [a] ∧ hybridSearch sim sort' s index q = some [b] := by
  obtain ⟨f, f1, f2⟩ := Verif.Repeat.some_sort HResult.combined _ a ha hm
  obtain ⟨g, g1, g2⟩ := Verif.Repeat.some_sort HResult.combined _ b hb (by rw [← he]; exact hm)
  refine ⟨f, g, f1, g1, ?_, ?_⟩
  · unfold hybridSearch; rw [hd]; simp [hk, f2]
  · unfold hybridSearch; rw [hd]; simp [hk, g2]

-- with the threshold 0 the two nodes of `pair` have different scores
example : ∀ dist, (if (query 0).start = "" then some [] else graphDistances pair (query 0).start (query 0).filter) = some dist →
    ((hybridPool (fun _ _ => 1 / 2) pair (query 0) (normWeights (query 0).weights) (vectorHits (fun _ _ => 1 / 2) pair none (query 0)) dist).map
      HResult.combined).Nodup := by
  intro dist h
  have : graphDistances pair "a" ⟨[], [], 0⟩ = some dist := h
  have h2 : (graphDistances pair "a" ⟨[], [], 0⟩).map (fun dist =>
      decide ((hybridPool (fun _ _ => 1 / 2) pair (query 0) (normWeights (query 0).weights) (vectorHits (fun _ _ => 1 / 2) pair none (query 0)) dist).map
        HResult.combined).Nodup) = some true := by decide +kernel
  rw [this] at h2
  simpa using h2

-- without a start node all nodes tie
example : ((hybridPool (fun _ _ => 1 / 2) pair { query 0 with start := "", topK := 1 } (normWeights (query 0).weights)
    (vectorHits (fun _ _ => 1 / 2) pair none { query 0 with start := "", topK := 1 }) []).map (fun x => (x.node.id, x.combined))) =
      [("a", 1 / 4), ("b", 1 / 4)] := by decide +kernel

end Verif.Graph

namespace Verif.Hindsight
open Verif.Base Verif.Spec

/-- C247, recall: when no two memories have the same fused score, two recalls list the same memories with the same scores in the same
order, whatever the order in which strategies answer and maps are visited. -/
theorem C247_recall_partial (e : Env) (he : e.Sound) (hr : e.rerank = none) (arrive arrive' : List (List RR) → List (List RR))
    (ha : ∀ l, (arrive l).Perm l) (ha' : ∀ l, (arrive' l).Perm l) (so so' : List Nat) (hso : so.Perm [0, 1, 2, 3])
    (hso' : so'.Perm [0, 1, 2, 3]) (ord ord' : List String → List String) (ho : ∀ l, (ord l).Perm l) (ho' : ∀ l, (ord' l).Perm l) (s : State)
    (hsn : (s.rows.map (·.id)).Nodup) (r : Req) (h1 : (runs e s r).length > 1)
    (inj : ∀ x y : String, (∃ n < 4, x ∈ (part e s r n).map (·.row.id)) → (∃ n < 4, y ∈ (part e s r n).map (·.row.id)) →
      share (part e s r 0) x + share (part e s r 1) x + share (part e s r 2) x + share (part e s r 3) x =
        share (part e s r 0) y + share (part e s r 1) y + share (part e s r 2) y + share (part e s r 3) y → x = y) :
    (recall e arrive so ord s r).map (fun x => (x.row.id, x.score)) = (recall e arrive' so' ord' s r).map (fun x => (x.row.id, x.score)) := by
  obtain ⟨f, f1, f2, f3, f4, f5⟩ := C61_fusion e he hr arrive ha so hso ord ho s hsn r h1
  obtain ⟨g, g1, g2, g3, g4, g5⟩ := C61_fusion e he hr arrive' ha' so' hso' ord' ho' s hsn r h1
  have hids : f.map (fun x => x.row.id) = g.map (fun x => x.row.id) := by
    have hp : (f.map (fun x => x.row.id)).Perm (g.map (fun x => x.row.id)) :=
      (List.perm_ext_iff_of_nodup f1 g1).2 (fun x => by rw [f2, g2])
    refine List.Perm.eq_of_pairwise (le := fun x y : String =>
      share (part e s r 0) y + share (part e s r 1) y + share (part e s r 2) y + share (part e s r 3) y ≤
        share (part e s r 0) x + share (part e s r 1) x + share (part e s r 2) x + share (part e s r 3) x) ?_ ?_ ?_ hp
    · intro x y hx hy hxy hyx
      exact inj x y ((f2 x).1 hx) ((g2 y).1 hy) (le_antisymm hyx hxy)
    · rw [List.pairwise_map]
      exact f4.imp_of_mem (fun {a b} hm hn hab => by rw [← f3 a hm, ← f3 b hn]; exact hab)
    · rw [List.pairwise_map]
      exact g4.imp_of_mem (fun {a b} hm hn hab => by rw [← g3 a hm, ← g3 b hn]; exact hab)
  have hfg : f.map (fun x => (x.row.id, x.score)) = g.map (fun x => (x.row.id, x.score)) := by
    have hF : f.map (fun x => (x.row.id, x.score)) = (f.map (fun x => x.row.id)).map (fun i => (i,
        share (part e s r 0) i + share (part e s r 1) i + share (part e s r 2) i + share (part e s r 3) i)) := by
      rw [List.map_map]
      exact List.map_congr_left (fun x hx => by simp only [Function.comp, f3 x hx])
    have hG : g.map (fun x => (x.row.id, x.score)) = (g.map (fun x => x.row.id)).map (fun i => (i,
        share (part e s r 0) i + share (part e s r 1) i + share (part e s r 2) i + share (part e s r 3) i)) := by
      rw [List.map_map]
      exact List.map_congr_left (fun x hx => by simp only [Function.comp, g3 x hx])
    rw [hF, hG, hids]
  rw [f5, g5]
  split_ifs
  · rw [List.map_take, List.map_take, hfg]
  · exact hfg

theorem back_sound : ∀ (rows : List Row) (b : String) (k : Int) (hs : List Hit), (some (rows.reverse.map (fun x => (⟨x, 1⟩ : Hit)))) = some hs →
    (∀ h ∈ hs, h.row ∈ rows) ∧ ((rows.map (·.id)).Nodup → (hs.map (·.row.id)).Nodup) := by
  intro rows b k hs h
  obtain rfl := Option.some.inj h
  refine ⟨?_, ?_⟩
  · intro x hx
    obtain ⟨y, hy, rfl⟩ := List.mem_map.1 hx
    exact List.mem_reverse.1 hy
  · intro hn
    rw [List.map_map]
    change (rows.reverse.map (fun x => x.id)).Nodup
    rw [List.map_reverse]
    exact List.nodup_reverse.2 hn

-- two strategies answer, and no two of the fused scores are equal
example : let e : Env := { env0 with hybrid := fun rows _ _ => some (rows.reverse.map (fun x => ⟨x, 1⟩)) }
    let s := run init [.retain "" true (mem0 "m1" "alice" []), .retain "" true (mem0 "m2" "bob" []), .retain "" true (mem0 "m3" "alice" [])]
    (runs e s (req0 "alice" true)).length > 1 ∧
      ((recall e id [0, 1, 2, 3] id s (req0 "alice" true)).map (fun x => x.score)).Nodup := by decide +kernel

/-- C247 violated: one memory first by meaning and second by entity, the other the other way round: which one is recalled depends on
the order in which a map is visited. -/
theorem C247_recall_violated :
    ∃ (e : Env) (ord ord' : List String → List String) (ops : List Op) (r : Req), e.Sound ∧ (∀ l, (ord l).Perm l) ∧ (∀ l, (ord' l).Perm l) ∧
      (recall e id [0, 1, 2, 3] ord (run init ops) r).map (·.row.id) ≠ (recall e id [0, 1, 2, 3] ord' (run init ops) r).map (·.row.id) :=
  ⟨{ env0 with hybrid := fun rows _ _ => some (rows.reverse.map (fun x => ⟨x, 1⟩)) }, id, List.reverse,
    [.retain "" true (mem0 "m1" "alice" []), .retain "" true (mem0 "m3" "alice" [])], req0 "alice" true,
    { env0_sound with hybrid := back_sound },
    fun l => List.Perm.refl l, List.reverse_perm, by decide +kernel⟩

end Verif.Hindsight

namespace Verif.Memory
open Verif.Base Verif.Spec

variable {V S : Type*} [LinearOrder S]

/-- C247, keyword search of memories: equal scores are ordered by id, so two searches always give the same answer, ties included.
`le` is the comparison of ids. -/
theorem C247_memory (e : Env V S) (f g : List (Row V × ℚ) → List (Row V × ℚ)) (le : Text → Text → Prop)
    (hle : ∀ a b, le a b → le b a → a = b)
    (hf : ∀ l, SortedFrom (fun a b => b.2 < a.2 ∨ a.2 = b.2 ∧ le a.1.id b.1.id) l (f l))
    (hg : ∀ l, SortedFrom (fun a b => b.2 < a.2 ∨ a.2 = b.2 ∧ le a.1.id b.1.id) l (g l))
    (now : Int) (s : State V) (b query : Text) (topK : Int) :
    searchLexical { e with sortHits := f } now s b query topK = searchLexical { e with sortHits := g } now s b query topK := by
  have hloop : ∀ (rows : List (Row V)) (k idx : Nat) (qs : List Text) (m : List (Row V × ℚ) × Bool),
      lexLoop { e with sortHits := f } now rows k idx qs m = lexLoop { e with sortHits := g } now rows k idx qs m := by
    intro rows k idx qs
    induction qs generalizing idx with
    | nil => intro m; rfl
    | cons q qs ih =>
      rintro ⟨m, fl⟩
      simp only [lexLoop]
      split <;> exact ih _ _
  unfold searchLexical
  simp only
  by_cases hq : trim e.sp query = []
  · rw [if_pos hq, if_pos hq]
  · rw [if_neg hq, if_neg hq, hloop]
    have hM := lexLoop_merged { e with sortHits := g } now (s.rows.filter (fun r => r.bucket == b && decide (r.bucket ∈ s.buckets)))
      (if topK ≤ 0 then 5 else topK.toNat) 0 (trim e.sp query :: e.moreQueries query) [] false (fun _ => False) ⟨by simp, by simp, by simp⟩
    generalize lexLoop { e with sortHits := g } now _ _ 0 _ ([], false) = l at hM ⊢
    obtain ⟨m, failed⟩ := l
    have hnd := hM.once
    simp only at hnd ⊢
    have : f m = g m := by
      obtain ⟨f1, f2⟩ := hf m
      obtain ⟨g1, g2⟩ := hg m
      refine List.Perm.eq_of_pairwise (le := fun a b : Row V × ℚ => b.2 < a.2 ∨ a.2 = b.2 ∧ le a.1.id b.1.id) ?_ f2 g2 (f1.trans g1.symm)
      intro a b ha hb hab hba
      have hid : a.1.id = b.1.id := by
        rcases hab with h | ⟨h, h'⟩
        · rcases hba with k | ⟨k, -⟩
          · exact absurd h (not_lt.2 k.le)
          · exact absurd h (by rw [k]; exact lt_irrefl _)
        · rcases hba with k | ⟨-, k'⟩
          · exact absurd k (by rw [h]; exact lt_irrefl _)
          · exact hle _ _ h' k'
      exact List.inj_on_of_nodup_map hnd (f1.mem_iff.1 ha) (g1.mem_iff.1 hb) hid
    rw [this]

-- such a sort exists
example : ∀ l : List (Row V × ℚ), SortedFrom (fun a b : Row V × ℚ => b.2 < a.2 ∨ a.2 = b.2 ∧ a.1.id ≤ b.1.id) l
    (insertSort (fun x : Row V × ℚ => toLex (x.2, OrderDual.toDual x.1.id)) l) := by
  intro l
  obtain ⟨h1, h2⟩ := insertSort_sorts (fun x : Row V × ℚ => toLex (x.2, OrderDual.toDual x.1.id)) l
  refine ⟨h1, h2.imp (fun {a b} hab => ?_)⟩
  rcases Prod.Lex.le_iff.1 hab with h | ⟨h, h'⟩
  · exact Or.inl h
  · exact Or.inr ⟨h.symm, h'⟩

end Verif.Memory

namespace Verif.Router
open Verif.Base Verif.Spec

variable {T : Type}

/-- C247, strongest terms of a sparse vector: with pairwise different weights two calls give the same list, in whatever order the map
is visited. -/
theorem C247_terms_partial (f g : List (T × ℚ) → List (T × ℚ)) (hf : ∀ l, SortedFrom (fun a b => b.2 ≤ a.2) l (f l))
    (hg : ∀ l, SortedFrom (fun a b => b.2 ≤ a.2) l (g l)) (vec vec' : List (T × ℚ)) (hp : vec.Perm vec') (hv : (vec.map Prod.snd).Nodup)
    (k : Int) : topTerms f vec k = topTerms g vec' k := by
  have : f vec = g vec' := Verif.Repeat.ranked_unique (score := Prod.snd) (hf vec) ⟨(hg vec').1.trans hp.symm, (hg vec').2⟩
    (fun a ha b hb hab => List.inj_on_of_nodup_map hv ha hb hab)
  unfold topTerms
  rw [hp.length_eq]
  simp only [this]

/-- C247 violated: whenever two terms share the largest weight, the strongest term may be either. -/
theorem C247_terms_violated (vec : List (T × ℚ)) (hn : 1 < vec.length) (a b : T × ℚ) (ha : a ∈ vec) (hb : b ∈ vec) (he : a.2 = b.2)
    (hm : ∀ x ∈ vec, x.2 ≤ a.2) :
    ∃ f g : List (T × ℚ) → List (T × ℚ), (∀ l, SortedFrom (fun a b => b.2 ≤ a.2) l (f l)) ∧
      (∀ l, SortedFrom (fun a b => b.2 ≤ a.2) l (g l)) ∧ topTerms f vec 1 = [a] ∧ topTerms g vec 1 = [b] := by
  obtain ⟨f, f1, f2⟩ := Verif.Repeat.some_sort Prod.snd vec a ha hm
  obtain ⟨g, g1, g2⟩ := Verif.Repeat.some_sort Prod.snd vec b hb (by rw [← he]; exact hm)
  have hl : ∀ h : List (T × ℚ) → List (T × ℚ), (∀ l, SortedFrom (fun a b => b.2 ≤ a.2) l (h l)) → (h vec).length = vec.length :=
    fun h hh => (hh vec).1.length_eq
  refine ⟨f, g, f1, g1, ?_, ?_⟩
  · unfold topTerms
    rw [if_neg (by omega)]
    simp only
    rw [if_pos ⟨by norm_num, by rw [hl f f1]; omega⟩]
    exact f2
  · unfold topTerms
    rw [if_neg (by omega)]
    simp only
    rw [if_pos ⟨by norm_num, by rw [hl g g1]; omega⟩]
    exact g2

example : (([("a", 1), ("b", 2)] : List (String × ℚ)).map Prod.snd).Nodup := by decide +kernel

example : ∀ x ∈ ([("a", 2), ("b", 2), ("c", 1)] : List (String × ℚ)), x.2 ≤ (("a", 2) : String × ℚ).2 := by decide +kernel

end Verif.Router

namespace Verif.Thm.Search
open Verif.Model.Store Verif.Model.Search Verif.Base Verif.Spec

variable {W HI VI : Type}

theorem fused_spec (c : Cfg W) (hsort : SortsDesc c.sort) (via : Serve W) (s : St W HI VI)
    (wf : Verif.Thm.Store.WF s.db) (query : List W) (fts : List String) (o : Opts) (k : ℚ) (vs : List (Hit W))
    (hvs : (if query.length > 0 then search c via s query o else .ok []) = .ok vs) (fused : List (Hit W))
    (hfused : ((s.db.embeddings.filter (fun r => decide (r.id ∈ fts))).map (scan s.db)).foldl
      (fun acc h => addHit acc h (1 / (k + rankOf fts h.id))) (fuseVector k 0 vs) = fused) :
    (fused.map (fun x => x.id)).Nodup ∧ (∀ x ∈ fused, x.score = rrf k [vs.map (fun x => x.id), fts] x.id) ∧
      (∀ id, id ∈ fused.map (fun x => x.id) ↔ id ∈ vs.map (fun x => x.id) ∨ (id ∈ fts ∧ ∃ r ∈ s.db.embeddings, r.id = id)) := by
  have hvnd : (vs.map (fun x => x.id)).Nodup := by
    split at hvs
    · exact hit_ids_nodup c hsort via s wf query o vs hvs
    · injection hvs with hvs; rw [← hvs]; simp
  have hvstored : ∀ x ∈ vs, ∃ r ∈ s.db.embeddings, r.id = x.id := by
    intro x hx
    split at hvs
    · obtain ⟨r, hr, hs⟩ := C05_search_stored c hsort via s wf query o vs hvs x hx
      exact ⟨r, hr, hs.1.symm⟩
    · injection hvs with hvs; rw [← hvs] at hx; cases hx
  have hrows : (((s.db.embeddings.filter (fun r => decide (r.id ∈ fts))).map (scan s.db)).map (fun h => h.id)).Nodup := by
    rw [List.map_map]
    exact Verif.Thm.Store.nodup_map_filter (fun r : Row W => r.id) _ wf.embIds
  have hrowmem : ∀ id, id ∈ ((s.db.embeddings.filter (fun r => decide (r.id ∈ fts))).map (scan s.db)).map (fun h => h.id) ↔
      id ∈ fts ∧ ∃ r ∈ s.db.embeddings, r.id = id := by
    intro id
    rw [List.map_map, List.mem_map]
    constructor
    · rintro ⟨r, hr, rfl⟩
      rw [List.mem_filter, decide_eq_true_eq] at hr
      exact ⟨hr.2, r, hr.1, rfl⟩
    · rintro ⟨hf, r, hr, rfl⟩
      exact ⟨r, List.mem_filter.2 ⟨hr, by simpa using hf⟩, rfl⟩
  generalize hrw : (s.db.embeddings.filter (fun r => decide (r.id ∈ fts))).map (scan s.db) = rows at hfused hrows hrowmem
  obtain ⟨f1, f2, f3⟩ := fold_addHit (fun i => 1 / (k + rankOf fts i)) rows hrows (fuseVector k 0 vs)
    (by rw [fuseVector_ids]; exact hvnd)
  rw [hfused] at f1 f2 f3
  refine ⟨f1, ?_, ?_⟩
  · intro x hx
    simp only [rrf, List.map_cons, List.map_nil, List.sum_cons, List.sum_nil, add_zero]
    rcases f3 x hx with ⟨y, hy, hyx, hxe⟩ | ⟨hn, y, hy, hxe⟩
    · have hyv : y.id ∈ vs.map (fun x => x.id) := by
        rw [← fuseVector_ids k 0]; exact List.mem_map_of_mem hy
      have hys := fuseVector_score k 0 vs hvnd y hy
      have hxs : x.score = y.score + (if x.id ∈ rows.map (fun h => h.id) then 1 / (k + rankOf fts x.id) else 0) := by
        conv_lhs => rw [hxe]
      rw [hxs, hys, ← hyx, if_pos hyv]
      congr 1
      by_cases hm : y.id ∈ rows.map (fun h => h.id)
      · rw [if_pos hm, if_pos ((hrowmem _).1 hm).1]; rfl
      · rw [if_neg hm, if_neg]
        intro hf
        obtain ⟨z, hz, hzz⟩ := List.mem_map.1 hyv
        obtain ⟨r, hr, hrid⟩ := hvstored z hz
        exact hm ((hrowmem _).2 ⟨hf, r, hr, by rw [hrid]; exact hzz⟩)
    · rw [fuseVector_ids] at hn
      have hyr : y.id ∈ rows.map (fun h => h.id) := List.mem_map_of_mem hy
      have hxid : x.id = y.id := by rw [hxe]
      rw [if_neg hn, zero_add, hxid, if_pos ((hrowmem _).1 hyr).1, hxe]; rfl
  · intro id
    rw [f2 id, fuseVector_ids, hrowmem]

/-- C247, keyword and vector search fused: the vector search gives the same answer both times; when moreover no two ids have the same
fused score, the fused search gives the same answer both times. -/
theorem C247_hybrid_partial (c c' : Cfg W) (hs : SortsDesc c.sort) (hs' : SortsDesc c'.sort) (via : Serve W) (s : St W HI VI)
    (wf : Verif.Thm.Store.WF s.db) (query : List W) (fts : List String) (o : Opts) (rrfK : ℚ)
    (hv : search c via s query o = search c' via s query o)
    (inj : ∀ vs, (if query.length > 0 then search c via s query o else .ok []) = .ok vs → ∀ x y,
      (x ∈ vs.map (fun x => x.id) ∨ x ∈ fts) → (y ∈ vs.map (fun x => x.id) ∨ y ∈ fts) →
      rrf (if rrfK = 0 then 60 else rrfK) [vs.map (fun x => x.id), fts] x = rrf (if rrfK = 0 then 60 else rrfK) [vs.map (fun x => x.id), fts] y →
      x = y) :
    hybridSearch c via s query fts o rrfK = hybridSearch c' via s query fts o rrfK := by
  unfold hybridSearch
  rw [← hv]
  by_cases hc : s.closed
  · rw [if_pos hc, if_pos hc]
  rw [if_neg hc, if_neg hc]
  generalize (if rrfK = 0 then 60 else rrfK) = k at inj ⊢
  cases hvs : (if query.length > 0 then search c via s query o else .ok []) with
  | error e => rfl
  | ok vs =>
    have hin := inj vs hvs
    simp only
    generalize hf : ((s.db.embeddings.filter (fun r => decide (r.id ∈ fts))).map (scan s.db)).foldl
      (fun acc h => addHit acc h (1 / (k + rankOf fts h.id))) (fuseVector k 0 vs) = fused
    obtain ⟨g1, g2, g3⟩ := fused_spec c hs via s wf query fts o k vs hvs fused hf
    have heq : c.sort fused = c'.sort fused := by
      refine Verif.Repeat.ranked_unique (score := fun x : Hit W => x.score) (hs fused) (hs' fused) ?_
      intro a ha b hb hab
      replace hab : a.score = b.score := hab
      rw [g2 a ha, g2 b hb] at hab
      refine List.inj_on_of_nodup_map g1 ha hb (hin _ _ ?_ ?_ hab)
      · exact ((g3 _).1 (List.mem_map_of_mem ha)).imp_right And.left
      · exact ((g3 _).1 (List.mem_map_of_mem hb)).imp_right And.left
    rw [heq]

/-- The same sort fed with its input in the opposite order. -/
def cfg1 : Cfg Nat := { cfg0 with sort := fun l => insertSort (fun a => a.score) l.reverse }

theorem cfg1_sorts : SortsDesc cfg1.sort := by
  intro l
  obtain ⟨h1, h2⟩ := insertSort_sorts (fun h : Hit Nat => h.score) l.reverse
  exact ⟨h1.trans (List.reverse_perm l), h2⟩

/-- C247 violated: a record that is first by meaning and second by words ties with one that is second by meaning and first by words;
the better of the two may be either, although the vector search itself answers the same both times. -/
theorem C247_hybrid_violated : ∃ (c c' : Cfg Nat) (s : St Nat Unit Unit) (fts : List String) (o : Opts) (out out' : List (Hit Nat)),
    SortsDesc c.sort ∧ SortsDesc c'.sort ∧ Verif.Thm.Store.WF s.db ∧ search c .linear s [1, 1] o = search c' .linear s [1, 1] o ∧
    hybridSearch c .linear s [1, 1] fts { o with topK := 2 } 0 = .ok out ∧ hybridSearch c' .linear s [1, 1] fts { o with topK := 2 } 0 = .ok out' ∧
    out.map (fun x => x.id) = ["e", "b"] ∧ out'.map (fun x => x.id) = ["b", "e"] :=
  ⟨cfg0, cfg1, store1, ["b", "e"], { topK := 2 }, _, _, cfg0_sorts, cfg1_sorts, store1_wf, rfl, rfl, rfl, by decide +kernel, by decide +kernel⟩

-- the vector search answers the same with both sorts, and with the words in the order of the meaning no two records tie
example : search cfg0 .linear store1 [1, 1] { topK := 2 } = search cfg1 .linear store1 [1, 1] { topK := 2 } ∧
    ∃ out, hybridSearch cfg0 .linear store1 [1, 1] ["e", "b"] { topK := 2 } 0 = .ok out ∧ (out.map (fun x => x.score)).Nodup :=
  ⟨rfl, _, rfl, by decide +kernel⟩

end Verif.Thm.Search
