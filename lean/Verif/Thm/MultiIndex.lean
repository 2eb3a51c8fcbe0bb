import Verif.Model.MultiIndex
import Verif.Thm.Hnsw
import Verif.Thm.Ivf
import Mathlib.Data.Prod.Lex
import Mathlib.Data.List.Induction
import Mathlib.Algebra.BigOperators.Group.List.Basic
import Mathlib.Tactic.Linarith

/-!
C37, C111, C112: composite indexes.
-/
namespace Verif.MultiIndex
open Verif.Base Verif.Spec

variable {σ V ρ : Type}

/-! ### What the folds compute -/

/-- The smallest distance given for an id. -/
def MinOf (hs : List Hit) (x : String) (d : ℚ) : Prop := (x, d) ∈ hs ∧ ∀ d', (x, d') ∈ hs → d ≤ d'

theorem keepMin_spec (hs : List Hit) : KeysOk (hs.foldl keepMin []) ∧ ∀ x d, getA (hs.foldl keepMin []) x = some d ↔ MinOf hs x d := by
  induction hs using List.reverseRecOn with
  | nil => exact ⟨by simp [KeysOk], fun x d => by simp [getA, MinOf]⟩
  | append_singleton hs h ih =>
    obtain ⟨ik, ig⟩ := ih
    obtain ⟨y, e⟩ := h
    rw [List.foldl_concat]
    generalize hm : hs.foldl keepMin [] = m at ik ig
    have hother : ∀ x d, x ≠ y → (MinOf (hs ++ [(y, e)]) x d ↔ MinOf hs x d) := by
      intro x d hx
      simp [MinOf, hx]
    unfold keepMin
    simp only
    cases hg : getA m y with
    | none =>
      simp only
      refine ⟨keys_put ik _ _, ?_⟩
      intro x d
      rw [get_put]
      by_cases hx : x = y
      · subst hx
        rw [if_pos rfl]
        have hno : ∀ d', (x, d') ∉ hs := by
          intro d' hd'
          obtain ⟨r, hr1, hr2⟩ : ∃ r, MinOf hs x r := by
            clear hm ig hg hother
            induction hs generalizing d' with
            | nil => simp at hd'
            | cons a l ih2 =>
              obtain ⟨z, f⟩ := a
              by_cases hex : ∃ d'', (x, d'') ∈ l
              · obtain ⟨d'', h''⟩ := hex
                obtain ⟨r, r1, r2⟩ := ih2 d'' h''
                by_cases hz : z = x ∧ f < r
                · refine ⟨f, by rw [hz.1]; exact List.mem_cons_self, ?_⟩
                  intro d3 h3
                  rcases List.mem_cons.1 h3 with h3 | h3
                  · rw [Prod.mk.injEq] at h3; rw [h3.2]
                  · exact le_trans hz.2.le (r2 d3 h3)
                · refine ⟨r, List.mem_cons_of_mem _ r1, ?_⟩
                  intro d3 h3
                  rcases List.mem_cons.1 h3 with h3 | h3
                  · rw [Prod.mk.injEq] at h3
                    by_contra hc
                    exact hz ⟨h3.1.symm, by rw [← h3.2]; exact not_le.1 hc⟩
                  · exact r2 d3 h3
              · refine ⟨d', hd', ?_⟩
                intro d3 h3
                rcases List.mem_cons.1 hd' with h4 | h4
                · rcases List.mem_cons.1 h3 with h3 | h3
                  · rw [← h4, Prod.mk.injEq] at h3; rw [h3.2]
                  · exact absurd ⟨d3, h3⟩ hex
                · exact absurd ⟨d', h4⟩ hex
          have := (ig x r).2 ⟨hr1, hr2⟩
          rw [hg] at this; simp at this
        unfold MinOf
        constructor
        · intro h
          obtain rfl := Option.some.inj h
          refine ⟨by simp, ?_⟩
          intro d' hd'
          rcases List.mem_append.1 hd' with h1 | h1
          · exact absurd h1 (hno d')
          · simp at h1; rw [h1]
        · rintro ⟨h1, -⟩
          rcases List.mem_append.1 h1 with h1 | h1
          · exact absurd h1 (hno d)
          · simp at h1; rw [h1]
      · rw [if_neg hx, ig x d, hother x d hx]
    | some f =>
      simp only
      have hf := (ig y f).1 hg
      by_cases hlt : e < f
      · rw [if_pos hlt]
        refine ⟨keys_put ik _ _, ?_⟩
        intro x d
        rw [get_put]
        by_cases hx : x = y
        · subst hx
          rw [if_pos rfl]
          constructor
          · intro h
            obtain rfl := Option.some.inj h
            refine ⟨by simp, ?_⟩
            intro d' hd'
            rcases List.mem_append.1 hd' with h1 | h1
            · exact le_trans hlt.le (hf.2 d' h1)
            · simp at h1; rw [h1]
          · rintro ⟨h1, h2⟩
            rcases List.mem_append.1 h1 with h1 | h1
            · exact absurd (lt_of_lt_of_le hlt (hf.2 d h1)) (not_lt.2 (h2 e (by simp)))
            · simp at h1; rw [h1]
        · rw [if_neg hx, ig x d, hother x d hx]
      · rw [if_neg hlt]
        refine ⟨ik, ?_⟩
        intro x d
        by_cases hx : x = y
        · subst hx
          rw [ig x d]
          constructor
          · rintro ⟨h1, h2⟩
            refine ⟨List.mem_append_left _ h1, ?_⟩
            intro d' hd'
            rcases List.mem_append.1 hd' with h3 | h3
            · exact h2 d' h3
            · simp at h3
              rw [h3]
              exact le_trans (h2 f hf.1) (not_lt.1 hlt)
          · rintro ⟨h1, h2⟩
            refine ⟨?_, fun d' hd' => h2 d' (List.mem_append_left _ hd')⟩
            rcases List.mem_append.1 h1 with h1 | h1
            · exact h1
            · simp at h1
              have := le_antisymm (h2 f (List.mem_append_left _ hf.1)) (by rw [h1]; exact not_lt.1 hlt)
              rw [this]; exact hf.1
        · rw [ig x d, hother x d hx]

/-- The answers given for an id. -/
def dists (hs : List Hit) (x : String) : List ℚ := (hs.filter (fun h => decide (h.1 = x))).map Prod.snd

theorem dists_concat (hs : List Hit) (y : String) (e : ℚ) (x : String) : dists (hs ++ [(y, e)]) x = if x = y then dists hs x ++ [e] else dists hs x := by
  unfold dists
  rw [List.filter_append, List.map_append]
  by_cases h : x = y
  · subst h; simp
  · rw [if_neg h, List.filter_cons_of_neg (by simp; exact fun hh => h hh.symm)]
    simp

theorem addVote_spec (hs : List Hit) : KeysOk (hs.foldl addVote []) ∧
    ∀ x, getA (hs.foldl addVote []) x = if dists hs x = [] then none else some ⟨x, (dists hs x).sum, (dists hs x).length⟩ := by
  induction hs using List.reverseRecOn with
  | nil => exact ⟨by simp [KeysOk], fun x => by simp [getA, dists]⟩
  | append_singleton hs h ih =>
    obtain ⟨ik, ig⟩ := ih
    obtain ⟨y, e⟩ := h
    rw [List.foldl_concat]
    generalize hs.foldl addVote [] = m at ik ig
    unfold addVote
    simp only
    have hy := ig y
    by_cases hn : dists hs y = []
    · rw [if_pos hn] at hy
      rw [hy]
      simp only
      refine ⟨keys_put ik _ _, ?_⟩
      intro x
      rw [get_put, dists_concat]
      by_cases hx : x = y
      · rw [if_pos hx, if_pos hx, hx, hn]
        simp
      · rw [if_neg hx, if_neg hx, ig x]
    · rw [if_neg hn] at hy
      rw [hy]
      simp only
      refine ⟨keys_put ik _ _, ?_⟩
      intro x
      rw [get_put, dists_concat]
      by_cases hx : x = y
      · rw [if_pos hx, if_pos hx, hx, if_neg (by simp)]
        simp
      · rw [if_neg hx, if_neg hx, ig x]

theorem unscored_spec (cands : List Hit) : KeysOk (unscored cands) ∧
    ∀ x, getA (unscored cands) x = if x ∈ cands.map Prod.fst then some ⟨x, 0, 0⟩ else none := by
  unfold unscored
  induction cands using List.reverseRecOn with
  | nil => exact ⟨by simp [KeysOk], fun x => by simp [getA]⟩
  | append_singleton hs h ih =>
    obtain ⟨ik, ig⟩ := ih
    rw [List.foldl_concat]
    refine ⟨keys_put ik _ _, ?_⟩
    intro x
    rw [get_put, ig x]
    by_cases hx : x = h.1
    · rw [if_pos hx, if_pos (by rw [hx]; simp), hx]
    · rw [if_neg hx]
      have : (x ∈ (hs ++ [h]).map Prod.fst) ↔ x ∈ hs.map Prod.fst := by
        rw [List.map_append, List.mem_append]
        constructor
        · rintro (h1 | h1)
          · exact h1
          · exact absurd (List.mem_singleton.1 h1) hx
        · exact Or.inl
      simp only [this]

theorem addScore_spec (cands : List Hit) (hs : List Hit) : KeysOk (hs.foldl addScore (unscored cands)) ∧
    ∀ x, getA (hs.foldl addScore (unscored cands)) x =
      if x ∈ cands.map Prod.fst then some ⟨x, (dists hs x).sum, (dists hs x).length⟩ else none := by
  induction hs using List.reverseRecOn with
  | nil =>
    obtain ⟨h1, h2⟩ := unscored_spec cands
    exact ⟨h1, fun x => by simpa [dists] using h2 x⟩
  | append_singleton hs h ih =>
    obtain ⟨ik, ig⟩ := ih
    obtain ⟨y, e⟩ := h
    rw [List.foldl_concat]
    generalize hs.foldl addScore (unscored cands) = m at ik ig
    unfold addScore
    simp only
    have hy := ig y
    by_cases hn : y ∈ cands.map Prod.fst
    · rw [if_pos hn] at hy
      rw [hy]
      simp only
      refine ⟨keys_put ik _ _, ?_⟩
      intro x
      rw [get_put, dists_concat]
      by_cases hx : x = y
      · rw [if_pos hx, if_pos hx, hx, if_pos hn]
        simp
      · rw [if_neg hx, if_neg hx, ig x]
    · rw [if_neg hn] at hy
      rw [hy]
      simp only
      refine ⟨ik, ?_⟩
      intro x
      rw [ig x]
      by_cases hx : x = y
      · rw [hx, if_neg hn, if_neg hn]
      · rw [dists_concat, if_neg hx]

/-! ### Specification of the searches -/

/-- The choices of a search: maps are visited in some order and `sort.Slice` sorts. -/
structure Env.Sound (E : Env σ) : Prop where
  parts : ∀ l, (E.parts l).Perm l
  hits : ∀ l, (E.hits l).Perm l
  votes : ∀ l, (E.votes l).Perm l
  sortHits : ∀ l, SortedFrom (fun a b => a.2 ≤ b.2) l (E.sortHits l)
  sortScore : ∀ l, SortedFrom (fun a b => a.score ≤ b.score) l (E.sortScore l)
  sortVotes : ∀ l, SortedFrom (fun a b => b.count < a.count ∨ (a.count = b.count ∧ a.score ≤ b.score)) l (E.sortVotes l)

/-- What the parts answer. -/
def answers (L : Lib σ V ρ) (q : V) (k : Nat) (p : String × σ) : List Hit := (L.search p.2 q k).getD []

/-- No part panics on this query. -/
def Calm (L : Lib σ V ρ) (m : Multi σ) (q : V) : Prop := ∀ p ∈ m.indices, ∀ k, (L.search p.2 q k).isSome = true

theorem allHits_spec (L : Lib σ V ρ) (E : Env σ) (hE : E.Sound) (m : Multi σ) (q : V) (k : Nat) (hc : Calm L m q) :
    ∃ hs, allHits L E m q k = some hs ∧ hs.Perm (m.indices.flatMap (answers L q k)) := by
  unfold allHits
  have hp := hE.parts m.indices
  rw [allSome_map (fun p : String × σ => L.search p.2 q k) (answers L q k) (E.parts m.indices) (by
    intro p hpm
    obtain ⟨l, hl⟩ := Option.isSome_iff_exists.1 (hc p (hp.mem_iff.1 hpm) k)
    simp [answers, hl])]
  refine ⟨_, rfl, ?_⟩
  rw [← List.flatMap_def]
  exact hp.flatMap_right _

theorem dists_perm {a b : List Hit} (h : a.Perm b) (x : String) : (dists a x).Perm (dists b x) := (h.filter _).map _

theorem MinOf.perm {a b : List Hit} (h : a.Perm b) {x : String} {d : ℚ} : MinOf a x d ↔ MinOf b x d := by
  unfold MinOf
  rw [h.mem_iff]
  exact and_congr_right fun _ => forall_congr' fun d' => by rw [h.mem_iff]

/-- C111: the merging strategy returns the `k` nearest of everything the parts return for `k`, each id once with the smallest distance
that any part gives it. -/
theorem C111_merge_all (L : Lib σ V ρ) (E : Env σ) (hE : E.Sound) (m : Multi σ) (hs : m.strategy = .mergeAll) (q : V) (k : Nat) (hc : Calm L m q) :
    ∃ out pool, search L E m q k = some out ∧ (pool.map Prod.fst).Nodup ∧
      (∀ x d, (x, d) ∈ pool ↔ MinOf (m.indices.flatMap (answers L q k)) x d) ∧ IsTopK (fun r => -r.2) pool k out := by
  unfold search
  rw [hs]
  simp only
  unfold searchMerge
  obtain ⟨l, a1, a2⟩ := allHits_spec L E hE m q k hc
  rw [a1]
  obtain ⟨b1, b2⟩ := keepMin_spec l
  have hp := hE.hits (l.foldl keepMin [])
  obtain ⟨s1, s2⟩ := hE.sortHits (E.hits (l.foldl keepMin []))
  refine ⟨_, l.foldl keepMin [], rfl, b1, ?_, isTopK_take _ _ _ _ ⟨s1.trans hp, s2.imp (fun h => neg_le_neg h)⟩⟩
  intro x d
  rw [mem_get b1, b2, MinOf.perm a2]

/-- What a vote is worth: the number of parts' answers that name the id, then the mean distance less a tenth per answer. -/
def voteKey (v : Vote) : ℕ ×ₗ ℚ := toLex (v.count, -v.score)

theorem pool_ids {m : List (String × Vote)} {f : Vote → Vote} (hk : KeysOk m) (hid : ∀ x v, getA m x = some v → (f v).id = x) :
    ((m.map (fun e => f e.2)).map Vote.id).Nodup := by
  rw [List.map_map]
  have : m.map (Vote.id ∘ fun e => f e.2) = m.map Prod.fst := by
    apply List.map_congr_left
    intro e he
    exact hid e.1 e.2 ((mem_get hk e.1 e.2).1 he)
  rw [this]
  exact hk

theorem pool_mem {m : List (String × Vote)} {f : Vote → Vote} (hk : KeysOk m) (v : Vote) :
    v ∈ m.map (fun e => f e.2) ↔ ∃ x w, getA m x = some w ∧ f w = v := by
  rw [List.mem_map]
  constructor
  · rintro ⟨e, he, rfl⟩
    exact ⟨e.1, e.2, (mem_get hk e.1 e.2).1 he, rfl⟩
  · rintro ⟨x, w, h1, h2⟩
    exact ⟨(x, w), (mem_get hk x w).2 h1, h2⟩

/-- C111: the voting strategy ranks the ids by how many answers of the parts name them, and among equals by the mean distance. -/
theorem C111_voting (L : Lib σ V ρ) (E : Env σ) (hE : E.Sound) (m : Multi σ) (hs : m.strategy = .voting) (q : V) (k : Nat) (hc : Calm L m q) :
    ∃ votes pool, search L E m q k = some (votes.map asHit) ∧ (pool.map Vote.id).Nodup ∧
      (∀ v, v ∈ pool ↔ dists (m.indices.flatMap (answers L q (k * 2))) v.id ≠ [] ∧
        v.count = (dists (m.indices.flatMap (answers L q (k * 2))) v.id).length ∧
        v.score = (dists (m.indices.flatMap (answers L q (k * 2))) v.id).sum / v.count - v.count / 10) ∧
      IsTopK voteKey pool k votes := by
  unfold search
  rw [hs]
  simp only
  unfold searchVoting
  obtain ⟨l, a1, a2⟩ := allHits_spec L E hE m q (k * 2) hc
  rw [a1]
  obtain ⟨b1, b2⟩ := addVote_spec l
  generalize hm : l.foldl addVote [] = r at b1 b2
  have hp := (hE.votes r).map (fun e => bonus e.2)
  obtain ⟨s1, s2⟩ := hE.sortVotes ((E.votes r).map (fun e => bonus e.2))
  have hdp := fun x => dists_perm a2 x
  refine ⟨_, r.map (fun e => bonus e.2), by simp only [Option.map_some, hm], pool_ids b1 ?_, ?_, isTopK_take _ _ _ _ ⟨s1.trans hp, s2.imp ?_⟩⟩
  · intro x v hv
    rw [b2] at hv
    split_ifs at hv
    obtain rfl := Option.some.inj hv
    rfl
  · intro v
    rw [pool_mem b1]
    have e1 := (hdp v.id).length_eq
    have e2 := (hdp v.id).sum_eq
    have e3 : dists l v.id = [] ↔ dists (m.indices.flatMap (answers L q (k * 2))) v.id = [] := by
      rw [← List.length_eq_zero_iff, ← List.length_eq_zero_iff, e1]
    rw [← e1, ← e2, Ne, ← e3]
    constructor
    · rintro ⟨x, w, h1, rfl⟩
      rw [b2] at h1
      split_ifs at h1 with hn
      obtain rfl := Option.some.inj h1
      exact ⟨hn, rfl, rfl⟩
    · rintro ⟨h1, h2, h3⟩
      refine ⟨v.id, _, by rw [b2, if_neg h1], ?_⟩
      obtain ⟨i, s, c⟩ := v
      simp only at h2 h3
      simp only [bonus, Vote.mk.injEq, true_and]
      exact ⟨by rw [h3, h2], h2.symm⟩
  · intro a b hab
    unfold voteKey
    rw [Prod.Lex.toLex_le_toLex]
    rcases hab with h | ⟨h, h'⟩
    · exact Or.inl h
    · exact Or.inr ⟨h.symm, neg_le_neg h'⟩

theorem sum_pos' : ∀ l : List ℚ, (∀ z ∈ l, 0 < z) → l ≠ [] → 0 < l.sum
  | [], _, h => absurd rfl h
  | [a], h, _ => by simpa using h a (by simp)
  | a :: b :: l, h, _ => by
    have h1 := h a (by simp)
    have h2 := sum_pos' (b :: l) (fun z hz => h z (List.mem_cons_of_mem _ hz)) (by simp)
    rw [List.sum_cons]
    linarith

/-- The distance a rerank gives a candidate. -/
def refined (ds : List ℚ) : ℚ := if ds = [] then 0 else ds.sum / ds.length

/-- C111 (partial): the rerank strategy returns, of the candidates of the primary part, the `k` best by the mean of the distances the
secondary parts give them, where a candidate that no secondary part names counts as distance 0. The claim without the last clause
is violated, see below. -/
theorem C111_rerank_partial (L : Lib σ V ρ) (E : Env σ) (hE : E.Sound) (m : Multi σ) (hs : m.strategy = .rerank) (q : V) (k : Nat) (hc : Calm L m q)
    (s : σ) (hp : getA m.indices m.primary = some s) (ck : Nat) (hck : ck = if m.rerankTopK > 0 then m.rerankTopK else k * 2)
    (cands : List Hit) (hcand : L.search s q ck = some cands) :
    ∃ (sec out pool : List Hit), search L E m q k = some out ∧ (∀ h ∈ sec, ∃ n ∈ m.secondary, ∃ p, getA m.indices n = some p ∧ h ∈ (L.search p q ck).getD []) ∧
      (∀ n ∈ m.secondary, ∀ p, getA m.indices n = some p → ∀ h ∈ (L.search p q ck).getD [], h ∈ sec) ∧
      (pool.map Prod.fst).Nodup ∧ (∀ x d, (x, d) ∈ pool ↔ x ∈ cands.map Prod.fst ∧ d = refined (dists sec x)) ∧ IsTopK (fun r => -r.2) pool k out := by
  have hget : ∀ (n : String) (p : σ), getA m.indices n = some p → ∃ e ∈ m.indices, e.2 = p := by
    intro n p h
    unfold getA at h
    obtain ⟨e, he, rfl⟩ := Option.map_eq_some_iff.1 h
    exact ⟨e, List.mem_of_find?_eq_some he, rfl⟩
  have hcalm : ∀ (n : String) (p : σ), getA m.indices n = some p → L.search p q ck = some ((L.search p q ck).getD []) := by
    intro n p h
    obtain ⟨e, he, rfl⟩ := hget n p h
    obtain ⟨l, hl⟩ := Option.isSome_iff_exists.1 (hc e he ck)
    simp [hl]
  have hsec : secondaryHits L m q ck = some (m.secondary.flatMap (fun n => match getA m.indices n with | none => [] | some p => (L.search p q ck).getD [])) := by
    unfold secondaryHits
    rw [allSome_map _ (fun n => match getA m.indices n with | none => [] | some p => (L.search p q ck).getD []) m.secondary ?_]
    · rw [List.flatMap_def]; rfl
    · intro n _
      cases h : getA m.indices n with
      | none => rfl
      | some p => exact hcalm n p h
  unfold search
  rw [hs]
  simp only
  unfold searchRerank
  rw [hp]
  simp only
  rw [← hck, hcand]
  refine ⟨m.secondary.flatMap (fun n => match getA m.indices n with | none => [] | some p => (L.search p q ck).getD []), ?_⟩
  have hcl1 : ∀ h ∈ m.secondary.flatMap (fun n => match getA m.indices n with | none => [] | some p => (L.search p q ck).getD []),
      ∃ n ∈ m.secondary, ∃ p, getA m.indices n = some p ∧ h ∈ (L.search p q ck).getD [] := by
    intro h hh
    obtain ⟨n, hn, hm⟩ := List.mem_flatMap.1 hh
    cases hg : getA m.indices n with
    | none => rw [hg] at hm; simp at hm
    | some p => rw [hg] at hm; exact ⟨n, hn, p, hg, hm⟩
  have hcl2 : ∀ n ∈ m.secondary, ∀ p, getA m.indices n = some p → ∀ h ∈ (L.search p q ck).getD [],
      h ∈ m.secondary.flatMap (fun n => match getA m.indices n with | none => [] | some p => (L.search p q ck).getD []) := by
    intro n hn p hg h hh
    refine List.mem_flatMap.2 ⟨n, hn, ?_⟩
    rw [hg]; exact hh
  cases cands with
  | nil => exact ⟨[], [], rfl, hcl1, hcl2, by simp, by simp, ⟨by simp, ⟨[], by simp, by simp⟩, by simp⟩⟩
  | cons c cs =>
    simp only
    rw [hsec]
    generalize m.secondary.flatMap (fun n => match getA m.indices n with | none => [] | some p => (L.search p q ck).getD []) = sec at hcl1 hcl2
    obtain ⟨b1, b2⟩ := addScore_spec (c :: cs) sec
    simp only [Option.map_some]
    generalize hm : sec.foldl addScore (unscored (c :: cs)) = r at b1 b2
    have hperm := (hE.votes r).map (fun e => average e.2)
    obtain ⟨s1, s2⟩ := hE.sortScore ((E.votes r).map (fun e => average e.2))
    have htop : IsTopK (fun h : Hit => -h.2) ((r.map (fun e => average e.2)).map asHit) k
        (((E.sortScore ((E.votes r).map (fun e => average e.2))).map asHit).take k) := by
      refine isTopK_take _ _ _ _ ⟨(s1.trans hperm).map asHit, ?_⟩
      rw [List.pairwise_map]
      exact s2.imp (fun h => neg_le_neg h)
    rw [← List.map_take] at htop
    refine ⟨_, _, rfl, hcl1, hcl2, ?_, ?_, htop⟩
    · have := pool_ids (f := average) b1 ?_
      · rw [List.map_map]; exact this
      · intro x v hv
        rw [b2] at hv
        split_ifs at hv
        obtain rfl := Option.some.inj hv
        unfold average
        split <;> rfl
    · intro x d
      have hav : ∀ y, asHit (average ⟨y, (dists sec y).sum, (dists sec y).length⟩) = (y, refined (dists sec y)) := by
        intro y
        unfold average refined
        by_cases h0 : dists sec y = []
        · rw [h0]; rfl
        · rw [if_pos (by simpa using List.length_pos_iff.2 h0), if_neg h0]; rfl
      rw [List.mem_map]
      constructor
      · rintro ⟨v, hv, hx⟩
        obtain ⟨y, w, h1, rfl⟩ := (pool_mem b1 v).1 hv
        rw [b2] at h1
        split_ifs at h1 with hmem
        obtain rfl := Option.some.inj h1
        rw [hav y, Prod.mk.injEq] at hx
        obtain ⟨rfl, rfl⟩ := hx
        exact ⟨hmem, rfl⟩
      · rintro ⟨h1, rfl⟩
        exact ⟨_, (pool_mem b1 _).2 ⟨x, _, by rw [b2, if_pos h1], rfl⟩, hav x⟩

/-- C111 is violated by the rerank strategy: a candidate of the primary part that no secondary part finds gets distance 0, so when the
distances are positive no candidate that a secondary part confirms is returned before it. -/
theorem C111_rerank_unconfirmed_first_violated (L : Lib σ V ρ) (E : Env σ) (hE : E.Sound) (m : Multi σ) (hs : m.strategy = .rerank) (q : V) (k : Nat)
    (hc : Calm L m q) (s : σ) (hp : getA m.indices m.primary = some s) (ck : Nat) (hck : ck = if m.rerankTopK > 0 then m.rerankTopK else k * 2)
    (cands : List Hit) (hcand : L.search s q ck = some cands) (hpos : ∀ n p, getA m.indices n = some p → ∀ h ∈ (L.search p q ck).getD [], 0 < h.2)
    (x : String) (hx : x ∈ cands.map Prod.fst) (hno : ∀ n ∈ m.secondary, ∀ p, getA m.indices n = some p → x ∉ ((L.search p q ck).getD []).map Prod.fst)
    (y : String) (n : String) (hn : n ∈ m.secondary) (p : σ) (hg : getA m.indices n = some p) (hy : y ∈ ((L.search p q ck).getD []).map Prod.fst)
    (out : List Hit) (hout : search L E m q k = some out) (hyo : y ∈ out.map Prod.fst) : ∃ a b d, out = a ++ (x, 0) :: b ∧ (y, d) ∈ b ∧ 0 < d := by
  obtain ⟨sec, out', pool, e1, e2, e3, e4, e5, e6⟩ := C111_rerank_partial L E hE m hs q k hc s hp ck hck cands hcand
  obtain rfl : out' = out := by rw [e1] at hout; exact Option.some.inj hout
  have hnil : dists sec x = [] := by
    unfold dists
    rw [List.map_eq_nil_iff, List.filter_eq_nil_iff]
    intro h hh hdec
    obtain ⟨n', hn', p', hg', hm'⟩ := e2 h hh
    exact hno n' hn' p' hg' (List.mem_map.2 ⟨h, hm', of_decide_eq_true hdec⟩)
  have hxp : (x, (0 : ℚ)) ∈ pool := (e5 x 0).2 ⟨hx, by rw [hnil]; rfl⟩
  obtain ⟨⟨y', d⟩, hyd, rfl⟩ := List.mem_map.1 hyo
  simp only at hy
  have hd := (e5 y' d).1 (IsTopK.mem e6 hyd)
  have hdp : 0 < d := by
    obtain ⟨h0, hh0, hh1⟩ := List.mem_map.1 hy
    have hm0 : h0.2 ∈ dists sec y' := List.mem_map.2 ⟨h0, List.mem_filter.2 ⟨e3 n hn p hg h0 hh0, by simpa using hh1⟩, rfl⟩
    have hall : ∀ z ∈ dists sec y', 0 < z := by
      intro z hz
      obtain ⟨h1, hz1, rfl⟩ := List.mem_map.1 hz
      obtain ⟨n', hn', p', hg', hm'⟩ := e2 h1 (List.mem_filter.1 hz1).1
      exact hpos n' p' hg' h1 hm'
    have hne : dists sec y' ≠ [] := List.ne_nil_of_mem hm0
    rw [hd.2, refined, if_neg hne]
    apply div_pos
    · exact sum_pos' _ hall hne
    · exact_mod_cast List.length_pos_iff.2 hne
  have hxo : (x, (0 : ℚ)) ∈ out' := by
    obtain ⟨rest, r1, r2⟩ := e6.best
    rcases List.mem_append.1 (r1.mem_iff.2 hxp) with h | h
    · exact h
    · have := r2 _ h _ hyd
      simp at this
      linarith
  obtain ⟨a, b, rfl⟩ := List.append_of_mem hxo
  refine ⟨a, b, d, rfl, ?_, hdp⟩
  rcases List.mem_append.1 hyd with h | h
  · have := e6.ordered
    rw [List.pairwise_append] at this
    have := this.2.2 _ h _ List.mem_cons_self
    simp at this
    linarith
  · rcases List.mem_cons.1 h with h | h
    · rw [Prod.mk.injEq] at h
      linarith [h.2]
    · exact h

/-! ### C37: parts that forget what they delete -/

/-- What the multi index needs of its parts: calls on a part in a good state do not panic and leave it in a good state, a search does not
return an id that is gone, a successful delete makes the id go, and nothing but an insert brings an id back. -/
structure Lib.Good (L : Lib σ V ρ) (coinOk : ρ → Prop) (Ok : σ → Prop) (gone : σ → String → Prop) : Prop where
  search : ∀ s q k, Ok s → ∃ out, L.search s q k = some out ∧ ∀ x, gone s x → x ∉ out.map Prod.fst
  delete : ∀ c s id, coinOk c → Ok s → ∃ s' e, L.delete c s id = some (s', e) ∧ Ok s' ∧ (e = false → gone s' id) ∧ ∀ x, gone s x → gone s' x
  insert : ∀ c s id v, coinOk c → Ok s → ∃ s' e, L.insert c s id v = some (s', e) ∧ Ok s' ∧ ∀ x, x ≠ id → gone s x → gone s' x

/-- A call that changes the index, with its random choices and map orders. -/
inductive Op (σ V ρ : Type) where
  | insert (coin : String → ρ) (order : List (String × σ) → List (String × σ)) (id : String) (v : V)
  | delete (coin : String → ρ) (order : List (String × σ) → List (String × σ)) (id : String)

def Op.ok (coinOk : ρ → Prop) : Op σ V ρ → Prop
  | .insert coin order _ _ => (∀ n, coinOk (coin n)) ∧ ∀ l, (order l).Perm l
  | .delete coin order _ => (∀ n, coinOk (coin n)) ∧ ∀ l, (order l).Perm l

def Op.spares (x : String) : Op σ V ρ → Prop
  | .insert _ _ id _ => id ≠ x
  | _ => True

/-- The new state, whatever the call reports. -/
def step (L : Lib σ V ρ) (m : Multi σ) : Op σ V ρ → Option (Multi σ)
  | .insert coin order id v => (insert L coin order m id v).map Prod.fst
  | .delete coin order id => (delete L coin order m id).map Prod.fst

def run (L : Lib σ V ρ) : Multi σ → List (Op σ V ρ) → Option (Multi σ)
  | m, [] => some m
  | m, op :: ops => (step L m op).bind (fun m' => run L m' ops)

section
variable {L : Lib σ V ρ} {coinOk : ρ → Prop} {Ok : σ → Prop} {gone : σ → String → Prop} (G : L.Good coinOk Ok gone)
include G

theorem insertSeq_spec (coin : String → ρ) (hcoin : ∀ n, coinOk (coin n)) (id : String) (v : V) : ∀ ps : List (String × σ), (∀ p ∈ ps, Ok p.2) →
    ∃ ps' e, insertSeq L coin id v ps = some (ps', e) ∧ (∀ p ∈ ps', Ok p.2) ∧ ∀ x, x ≠ id → (∀ p ∈ ps, gone p.2 x) → ∀ p ∈ ps', gone p.2 x
  | [], _ => ⟨[], false, rfl, by simp, by simp⟩
  | (n, s) :: ps, h => by
    obtain ⟨s', e, a1, a2, a3⟩ := G.insert (coin n) s id v (hcoin n) (h (n, s) List.mem_cons_self)
    obtain ⟨ps', e', b1, b2, b3⟩ := insertSeq_spec coin hcoin id v ps (fun p hp => h p (List.mem_cons_of_mem _ hp))
    rw [insertSeq, a1]
    cases e with
    | true =>
      refine ⟨_, _, rfl, ?_, ?_⟩
      · intro p hp
        rcases List.mem_cons.1 hp with rfl | hp
        · exact a2
        · exact h p (List.mem_cons_of_mem _ hp)
      · intro x hx hg p hp
        rcases List.mem_cons.1 hp with rfl | hp
        · exact a3 x hx (hg (n, s) List.mem_cons_self)
        · exact hg p (List.mem_cons_of_mem _ hp)
    | false =>
      simp only
      rw [b1]
      refine ⟨_, _, rfl, ?_, ?_⟩
      · intro p hp
        rcases List.mem_cons.1 hp with rfl | hp
        · exact a2
        · exact b2 p hp
      · intro x hx hg p hp
        rcases List.mem_cons.1 hp with rfl | hp
        · exact a3 x hx (hg (n, s) List.mem_cons_self)
        · exact b3 x hx (fun p hp => hg p (List.mem_cons_of_mem _ hp)) p hp

theorem insertPar_spec (coin : String → ρ) (hcoin : ∀ n, coinOk (coin n)) (id : String) (v : V) : ∀ ps : List (String × σ), (∀ p ∈ ps, Ok p.2) →
    ∃ ps' e, insertPar L coin id v ps = some (ps', e) ∧ (∀ p ∈ ps', Ok p.2) ∧ ∀ x, x ≠ id → (∀ p ∈ ps, gone p.2 x) → ∀ p ∈ ps', gone p.2 x
  | [], _ => ⟨[], false, rfl, by simp, by simp⟩
  | (n, s) :: ps, h => by
    obtain ⟨s', e, a1, a2, a3⟩ := G.insert (coin n) s id v (hcoin n) (h (n, s) List.mem_cons_self)
    obtain ⟨ps', e', b1, b2, b3⟩ := insertPar_spec coin hcoin id v ps (fun p hp => h p (List.mem_cons_of_mem _ hp))
    rw [insertPar, a1]
    simp only
    rw [b1]
    refine ⟨_, _, rfl, ?_, ?_⟩
    · intro p hp
      rcases List.mem_cons.1 hp with rfl | hp
      · exact a2
      · exact b2 p hp
    · intro x hx hg p hp
      rcases List.mem_cons.1 hp with rfl | hp
      · exact a3 x hx (hg (n, s) List.mem_cons_self)
      · exact b3 x hx (fun p hp => hg p (List.mem_cons_of_mem _ hp)) p hp

theorem deleteSeq_spec (coin : String → ρ) (hcoin : ∀ n, coinOk (coin n)) (id : String) : ∀ ps : List (String × σ), (∀ p ∈ ps, Ok p.2) →
    ∃ ps' e, deleteSeq L coin id ps = some (ps', e) ∧ (∀ p ∈ ps', Ok p.2) ∧ (e = false → ∀ p ∈ ps', gone p.2 id) ∧
      ∀ x, (∀ p ∈ ps, gone p.2 x) → ∀ p ∈ ps', gone p.2 x
  | [], _ => ⟨[], false, rfl, by simp, by simp, by simp⟩
  | (n, s) :: ps, h => by
    obtain ⟨s', e, a1, a2, a3, a4⟩ := G.delete (coin n) s id (hcoin n) (h (n, s) List.mem_cons_self)
    obtain ⟨ps', e', b1, b2, b3, b4⟩ := deleteSeq_spec coin hcoin id ps (fun p hp => h p (List.mem_cons_of_mem _ hp))
    rw [deleteSeq, a1]
    cases e with
    | true =>
      refine ⟨_, _, rfl, ?_, by simp, ?_⟩
      · intro p hp
        rcases List.mem_cons.1 hp with rfl | hp
        · exact a2
        · exact h p (List.mem_cons_of_mem _ hp)
      · intro x hg p hp
        rcases List.mem_cons.1 hp with rfl | hp
        · exact a4 x (hg (n, s) List.mem_cons_self)
        · exact hg p (List.mem_cons_of_mem _ hp)
    | false =>
      simp only
      rw [b1]
      refine ⟨_, _, rfl, ?_, ?_, ?_⟩
      · intro p hp
        rcases List.mem_cons.1 hp with rfl | hp
        · exact a2
        · exact b2 p hp
      · intro he p hp
        rcases List.mem_cons.1 hp with rfl | hp
        · exact a3 rfl
        · exact b3 he p hp
      · intro x hg p hp
        rcases List.mem_cons.1 hp with rfl | hp
        · exact a4 x (hg (n, s) List.mem_cons_self)
        · exact b4 x (fun p hp => hg p (List.mem_cons_of_mem _ hp)) p hp

theorem step_spec (m : Multi σ) (op : Op σ V ρ) (hop : op.ok coinOk) (hok : ∀ p ∈ m.indices, Ok p.2) :
    ∃ m', step L m op = some m' ∧ (∀ p ∈ m'.indices, Ok p.2) ∧ ∀ x, op.spares x → (∀ p ∈ m.indices, gone p.2 x) → ∀ p ∈ m'.indices, gone p.2 x := by
  cases op with
  | insert coin order id v =>
    obtain ⟨hcoin, hord⟩ := hop
    have hok' : ∀ p ∈ order m.indices, Ok p.2 := fun p hp => hok p ((hord _).mem_iff.1 hp)
    have hg' : ∀ x, (∀ p ∈ m.indices, gone p.2 x) → ∀ p ∈ order m.indices, gone p.2 x := fun x hg p hp => hg p ((hord _).mem_iff.1 hp)
    simp only [step, insert]
    cases m.parallel with
    | true =>
      obtain ⟨ps', e, a1, a2, a3⟩ := insertPar_spec G coin hcoin id v _ hok'
      rw [if_pos rfl, a1]
      exact ⟨_, rfl, a2, fun x hx hg => a3 x (Ne.symm hx) (hg' x hg)⟩
    | false =>
      obtain ⟨ps', e, a1, a2, a3⟩ := insertSeq_spec G coin hcoin id v _ hok'
      rw [if_neg (by simp), a1]
      exact ⟨_, rfl, a2, fun x hx hg => a3 x (Ne.symm hx) (hg' x hg)⟩
  | delete coin order id =>
    obtain ⟨hcoin, hord⟩ := hop
    obtain ⟨ps', e, a1, a2, a3, a4⟩ := deleteSeq_spec G coin hcoin id (order m.indices) (fun p hp => hok p ((hord _).mem_iff.1 hp))
    simp only [step, delete]
    rw [a1]
    exact ⟨_, rfl, a2, fun x _ hg => a4 x (fun p hp => hg p ((hord _).mem_iff.1 hp))⟩

theorem run_spec (ops : List (Op σ V ρ)) : ∀ (m : Multi σ), (∀ op ∈ ops, op.ok coinOk) → (∀ p ∈ m.indices, Ok p.2) →
    ∃ m', run L m ops = some m' ∧ (∀ p ∈ m'.indices, Ok p.2) ∧
      ∀ x, (∀ op ∈ ops, op.spares x) → (∀ p ∈ m.indices, gone p.2 x) → ∀ p ∈ m'.indices, gone p.2 x := by
  induction ops with
  | nil => intro m _ h; exact ⟨m, rfl, h, fun x _ hg => hg⟩
  | cons op ops ih =>
    intro m hops h
    obtain ⟨m1, a1, a2, a3⟩ := step_spec G m op (hops op List.mem_cons_self) h
    obtain ⟨m2, b1, b2, b3⟩ := ih m1 (fun o ho => hops o (List.mem_cons_of_mem _ ho)) a2
    exact ⟨m2, by rw [run, a1]; exact b1, b2, fun x hs hg =>
      b3 x (fun o ho => hs o (List.mem_cons_of_mem _ ho)) (a3 x (hs op List.mem_cons_self) hg)⟩

/-- No strategy returns an id that every part has forgotten. -/
theorem search_gone (m : Multi σ) (E : Env σ) (hE : E.Sound) (hok : ∀ p ∈ m.indices, Ok p.2) (x : String) (hg : ∀ p ∈ m.indices, gone p.2 x) (q : V) (k : Nat) :
    ∃ out, search L E m q k = some out ∧ x ∉ out.map Prod.fst := by
  have hcalm : Calm L m q := by
    intro p hp k
    obtain ⟨out, h1, -⟩ := G.search p.2 q k (hok p hp)
    rw [h1]; rfl
  have hans : ∀ k, ∀ p ∈ m.indices, x ∉ (answers L q k p).map Prod.fst := by
    intro k p hp
    obtain ⟨out, h1, h2⟩ := G.search p.2 q k (hok p hp)
    unfold answers
    rw [h1]
    exact h2 x (hg p hp)
  have hfl : ∀ k, x ∉ (m.indices.flatMap (answers L q k)).map Prod.fst := by
    intro k hx
    obtain ⟨h, hh, rfl⟩ := List.mem_map.1 hx
    obtain ⟨p, hp, hpp⟩ := List.mem_flatMap.1 hh
    exact hans k p hp (List.mem_map.2 ⟨h, hpp, rfl⟩)
  have hprim : ∀ s, getA m.indices m.primary = some s → ∃ p ∈ m.indices, p.2 = s := by
    intro s h
    unfold getA at h
    obtain ⟨e, he, rfl⟩ := Option.map_eq_some_iff.1 h
    exact ⟨e, List.mem_of_find?_eq_some he, rfl⟩
  cases hst : m.strategy with
  | primaryOnly =>
    unfold search
    rw [hst]
    simp only
    unfold searchPrimary
    cases hp : getA m.indices m.primary with
    | none => exact ⟨[], rfl, by simp⟩
    | some s =>
      obtain ⟨p, hp1, rfl⟩ := hprim s hp
      obtain ⟨out, h1, h2⟩ := G.search p.2 q k (hok p hp1)
      exact ⟨out, h1, h2 x (hg p hp1)⟩
  | mergeAll =>
    obtain ⟨out, pool, a1, a2, a3, a4⟩ := C111_merge_all L E hE m hst q k hcalm
    refine ⟨out, a1, ?_⟩
    intro hx
    obtain ⟨h, hh, rfl⟩ := List.mem_map.1 hx
    exact hfl k (List.mem_map.2 ⟨_, ((a3 h.1 h.2).1 (IsTopK.mem a4 hh)).1, rfl⟩)
  | rerank =>
    cases hp : getA m.indices m.primary with
    | none =>
      unfold search
      rw [hst]
      simp only
      unfold searchRerank
      rw [hp]
      exact ⟨[], rfl, by simp⟩
    | some s =>
      obtain ⟨p, hp1, rfl⟩ := hprim s hp
      obtain ⟨cands, c1, c2⟩ := G.search p.2 q (if m.rerankTopK > 0 then m.rerankTopK else k * 2) (hok p hp1)
      obtain ⟨sec, out, pool, a1, -, -, -, a5, a6⟩ := C111_rerank_partial L E hE m hst q k hcalm p.2 hp _ rfl cands c1
      refine ⟨out, a1, ?_⟩
      intro hx
      obtain ⟨h, hh, rfl⟩ := List.mem_map.1 hx
      exact c2 h.1 (hg p hp1) ((a5 h.1 h.2).1 (IsTopK.mem a6 hh)).1
  | voting =>
    obtain ⟨votes, pool, a1, a2, a3, a4⟩ := C111_voting L E hE m hst q k hcalm
    refine ⟨_, a1, ?_⟩
    intro hx
    rw [List.map_map] at hx
    obtain ⟨v, hv, rfl⟩ := List.mem_map.1 hx
    have hne := ((a3 v).1 (IsTopK.mem a4 hv)).1
    apply hne
    unfold dists
    rw [List.map_eq_nil_iff, List.filter_eq_nil_iff]
    intro h hh hdec
    exact hfl (k * 2) (List.mem_map.2 ⟨h, hh, of_decide_eq_true hdec⟩)

/-- C37 (partial): if every part forgets an id that it deletes successfully, then after any history and a successful `Delete` on the multi
index, and until the id is inserted again, no strategy returns it. The parts of the repository do not all meet the condition, see below. -/
theorem C37_multi_delete_partial (m : Multi σ) (hok : ∀ p ∈ m.indices, Ok p.2) (before later : List (Op σ V ρ)) (hb : ∀ op ∈ before, op.ok coinOk)
    (hl : ∀ op ∈ later, op.ok coinOk) (coin : String → ρ) (hcoin : ∀ n, coinOk (coin n)) (order : List (String × σ) → List (String × σ))
    (hord : ∀ l, (order l).Perm l) (id : String) (hsp : ∀ op ∈ later, op.spares id) (E : Env σ) (hE : E.Sound) (q : V) (k : Nat) :
    ∃ m1 m2 e, run L m before = some m1 ∧ delete L coin order m1 id = some (m2, e) ∧
      (e = false → ∃ m3 out, run L m2 later = some m3 ∧ search L E m3 q k = some out ∧ id ∉ out.map Prod.fst) := by
  obtain ⟨m1, a1, a2, -⟩ := run_spec G before m hb hok
  obtain ⟨ps', e, b1, b2, b3, -⟩ := deleteSeq_spec G coin hcoin id (order m1.indices) (fun p hp => a2 p ((hord _).mem_iff.1 hp))
  refine ⟨m1, { m1 with indices := ps' }, e, a1, by unfold delete; rw [b1]; rfl, ?_⟩
  intro he
  obtain ⟨m3, c1, c2, c3⟩ := run_spec G later { m1 with indices := ps' } hl b2
  obtain ⟨out, d1, d2⟩ := search_gone G m3 E hE c2 id (c3 id hsp (b3 he)) q k
  exact ⟨m3, out, c1, d1, d2⟩

end

/-- The HNSW adapter is such a part. -/
theorem hnsw_good (E : Hnsw.Env V) : (hnswLib E).Good (fun c : Coin V => ∀ l, (c.order l).Perm l) Hnsw.Inv
    (fun h x => ∀ v, Hnsw.look h x ≠ some (v, false)) := by
  refine ⟨?_, ?_, ?_⟩
  · intro h q k hi
    obtain ⟨out, a1, -, -, -, a5, -⟩ := Hnsw.search_spec E h q k (adapterEf k) hi
    refine ⟨out.map hitOf, by simp [hnswLib, a1], ?_⟩
    intro x hx hm
    rw [List.map_map] at hm
    obtain ⟨i, hi', rfl⟩ := List.mem_map.1 hm
    obtain ⟨v, hv, -⟩ := a5 i hi'
    exact hx v hv
  · intro c h id hc hi
    obtain ⟨-, a2, a3, a4, -⟩ := Hnsw.delete_spec c.order hc h id hi
    refine ⟨(Hnsw.delete c.order h id).1, (Hnsw.delete c.order h id).2, rfl, a2, ?_, ?_⟩
    · intro _ v
      rw [a4 id, if_pos rfl]
      cases Hnsw.look h id <;> simp
    · intro x hx v
      rw [a4 x]
      split
      · cases Hnsw.look h x <;> simp
      · exact hx v
  · intro c h id v _ hi
    obtain ⟨h', e, a1, a2, -⟩ := Hnsw.insert_some E h id v c.level hi
    obtain ⟨h'', b1, b2, -, b4, -⟩ := Hnsw.insertAll_spec E true [(id, v, c.level)] h hi
    obtain rfl : h'' = h' := by rw [a2] at b1; exact (Option.some.inj b1).symm
    refine ⟨h'', e, a1, b2, ?_⟩
    intro x hx hg w
    rw [b4 x]
    simp only [Hnsw.firstOf, List.find?_cons, decide_eq_false (Ne.symm hx)]
    simpa using hg w

/-! ### C37: the hybrid index -/

/-- A call that changes the hybrid index. -/
inductive HOp (V : Type) where
  | train (vs : List V)
  | insert (id : String) (v : V) (level : Nat)
  | delete (id : String) (order : List (Hnsw.Node V) → List (Hnsw.Node V))

def HOp.ok : HOp V → Prop
  | .delete _ order => ∀ l, (order l).Perm l
  | _ => True

def hstep (E : Hnsw.Env V) (F : Ivf.Env V) (h : Hybrid V) : HOp V → Option (Hybrid V)
  | .train vs => (h.train F vs).map Prod.fst
  | .insert id v level => (h.insert E F id v level).map Prod.fst
  | .delete id order => some (h.delete id order).1

def hrun (E : Hnsw.Env V) (F : Ivf.Env V) : Hybrid V → List (HOp V) → Option (Hybrid V)
  | h, [] => some h
  | h, op :: ops => (hstep E F h op).bind (fun h' => hrun E F h' ops)

theorem insert_inv (E : Hnsw.Env V) (h : Hnsw.Index V) (id : String) (v : V) (level : Nat) (hi : Hnsw.Inv h) :
    ∃ h' e, Hnsw.insert E h id v level = some (h', e) ∧ Hnsw.Inv h' ∧ (e = true ↔ Hnsw.Stored h id) ∧ (e = true → h' = h) := by
  obtain ⟨h', e, a1, a2, a3⟩ := Hnsw.insert_some E h id v level hi
  obtain ⟨h'', b1, b2, -⟩ := Hnsw.insertAll_spec E true [(id, v, level)] h hi
  obtain rfl : h'' = h' := by rw [a2] at b1; exact (Option.some.inj b1).symm
  refine ⟨h'', e, a1, b2, a3, ?_⟩
  intro he
  unfold Hnsw.insert at a1
  rw [if_pos (show (Hnsw.getNode h id).isSome = true from a3.1 he)] at a1
  simp at a1
  exact a1.1.symm

theorem hrun_inv (E : Hnsw.Env V) (F : Ivf.Env V) (ops : List (HOp V)) : ∀ (h h' : Hybrid V), (∀ op ∈ ops, op.ok) → Hnsw.Inv h.hnsw → hrun E F h ops = some h' →
    Hnsw.Inv h'.hnsw := by
  induction ops with
  | nil => intro h h' _ hi hr; obtain rfl := Option.some.inj hr; exact hi
  | cons op ops ih =>
    intro h h' hok hi hr
    rw [hrun] at hr
    obtain ⟨h1, hs, hr1⟩ := Option.bind_eq_some_iff.1 hr
    refine ih h1 h' (fun o ho => hok o (List.mem_cons_of_mem _ ho)) ?_ hr1
    have hop := hok op List.mem_cons_self
    cases op with
    | train vs =>
      simp only [hstep, Hybrid.train, Option.map_map] at hs
      obtain ⟨r, -, rfl⟩ := Option.map_eq_some_iff.1 hs
      exact hi
    | insert id v level =>
      obtain ⟨g, e, a1, a2, -⟩ := insert_inv E h.hnsw id v level hi
      simp only [hstep, Hybrid.insert, a1] at hs
      cases e with
      | true =>
        simp only [Option.map_some, Option.some.injEq] at hs
        subst hs; exact a2
      | false =>
        simp only [Option.map_map] at hs
        obtain ⟨r, -, rfl⟩ := Option.map_eq_some_iff.1 hs
        exact a2
    | delete id order =>
      simp only [hstep, Hybrid.delete, Option.some.injEq] at hs
      subst hs
      exact (Hnsw.delete_spec order hop h.hnsw id hi).2.1

theorem fill_spec (E : Hnsw.Env V) (g : Hnsw.Index V) (q : V) (k : Nat) (seen : List String) (is : List Hnsw.Item) : ∀ r : List Hit, r.length ≤ k →
    ∃ add, fill E g q k seen is r = r ++ add ∧ (r ++ add).length ≤ k ∧ ∀ a ∈ add, a.1 ∈ is.map Hnsw.Item.id := by
  induction is with
  | nil => intro r h; exact ⟨[], by simp [fill], by simpa using h, by simp⟩
  | cons i is ih =>
    intro r h
    have hskip : ∃ add, fill E g q k seen is r = r ++ add ∧ (r ++ add).length ≤ k ∧ ∀ a ∈ add, a.1 ∈ (i :: is).map Hnsw.Item.id := by
      obtain ⟨add, a1, a2, a3⟩ := ih r h
      exact ⟨add, a1, a2, fun a ha => List.mem_cons_of_mem _ (a3 a ha)⟩
    rw [fill]
    by_cases hc : i.id ∉ seen ∧ r.length < k
    · rw [if_pos hc]
      cases hg : Hnsw.getNode g i.id with
      | none => exact hskip
      | some n =>
        obtain ⟨add, a1, a2, a3⟩ := ih (r ++ [(i.id, E.dist q n.vec)]) (by rw [List.length_append]; simp; omega)
        refine ⟨(i.id, E.dist q n.vec) :: add, by simp only; rw [a1]; simp, by simpa using a2, ?_⟩
        intro a ha
        rcases List.mem_cons.1 ha with rfl | ha
        · exact List.mem_cons_self
        · exact List.mem_cons_of_mem _ (a3 a ha)
    · rw [if_neg hc]
      exact hskip

theorem allSome_length {α β : Type} (f : α → Option β) : ∀ (l : List α) (out : List β), allSome f l = some out → out.length = l.length
  | [], out, h => by simp [allSome] at h; subst h; rfl
  | x :: xs, out, h => by
    rw [allSome] at h
    cases hx : f x with
    | none => rw [hx] at h; simp at h
    | some z =>
      rw [hx] at h
      simp only at h
      obtain ⟨o, ho, rfl⟩ := Option.map_eq_some_iff.1 h
      rw [List.length_cons, List.length_cons, allSome_length f xs o ho]

theorem ivf_length (F : Ivf.Env V) (ix : Ivf.Index V) (q : V) (k : Nat) (out : List Hit) (h : ivfSearch F ix q k = some out) : out.length ≤ k := by
  unfold ivfSearch Ivf.search at h
  by_cases h1 : ix.trained = false
  · rw [if_pos h1] at h
    simp only [Option.some.injEq] at h
    subst h; simp
  · rw [if_neg h1] at h
    by_cases h2 : F.dim q ≠ ix.dimension
    · rw [if_pos h2] at h
      simp only [Option.some.injEq] at h
      subst h; simp
    · rw [if_neg h2] at h
      cases h3 : allSome (fun c => ix.inv[c]?) (Ivf.probed F ix q) with
      | none => rw [h3] at h; simp at h
      | some lists =>
        rw [h3] at h
        simp only at h
        cases h4 : allSome (Ivf.scoreAt F ix q) lists.flatten with
        | none => rw [h4] at h; simp at h
        | some cands =>
          rw [h4] at h
          simp only at h
          cases h5 : allSome (Ivf.nameAt ix) ((F.sort cands).take k) with
          | none => rw [h5] at h; simp at h
          | some o =>
            rw [h5] at h
            simp only [Option.some.injEq] at h
            subst h
            rw [allSome_length _ _ _ h5]
            simp

/-- What a hybrid search returns: everything the IVF part returns, and some of what the HNSW part returns. -/
theorem hybrid_search (E : Hnsw.Env V) (F : Ivf.Env V) (sort : List Hit → List Hit) (hsort : ∀ l, (sort l).Perm l) (h : Hybrid V) (hi : Hnsw.Inv h.hnsw) (q : V) (k : Nat)
    (vs : List Hit) (hv : ivfSearch F h.ivf q k = some vs) :
    ∃ out, h.search E F sort q k = some out ∧ (∀ r ∈ vs, r ∈ out) ∧
      ∀ r ∈ out, r ∈ vs ∨ ∃ v, Hnsw.look h.hnsw r.1 = some (v, false) := by
  obtain ⟨hs, a1, -, -, -, a5, -⟩ := Hnsw.search_spec E h.hnsw q (k * 2) 50 hi
  obtain ⟨add, b1, b2, b3⟩ := fill_spec E h.hnsw q k (vs.map Prod.fst) hs vs (ivf_length F h.ivf q k vs hv)
  unfold Hybrid.search
  rw [a1, hv]
  simp only
  rw [b1]
  have hp := hsort (vs ++ add)
  rw [List.take_of_length_le (by rw [hp.length_eq]; exact b2)]
  refine ⟨_, rfl, ?_, ?_⟩
  · intro r hr
    exact hp.mem_iff.2 (List.mem_append_left _ hr)
  · intro r hr
    rcases List.mem_append.1 (hp.mem_iff.1 hr) with h1 | h1
    · exact Or.inl h1
    · obtain ⟨i, hi1, hi2⟩ := List.mem_map.1 (b3 r h1)
      obtain ⟨v, hv1, -⟩ := a5 i hi1
      exact Or.inr ⟨v, by rw [← hi2]; exact hv1⟩

/-- C37 is violated by the hybrid index: after any history, `Delete` reports success and every result that the IVF part gives, also for the
deleted id, is still returned. -/
theorem C37_hybrid_delete_keeps_violated (E : Hnsw.Env V) (F : Ivf.Env V) (sort : List Hit → List Hit) (hsort : ∀ l, (sort l).Perm l)
    (d M n : Nat) (ops : List (HOp V)) (hok : ∀ op ∈ ops, op.ok) (h : Hybrid V) (hr : hrun E F (newHybrid V d M n) ops = some h)
    (id : String) (order : List (Hnsw.Node V) → List (Hnsw.Node V)) (ho : ∀ l, (order l).Perm l) (q : V) (k : Nat)
    (vs : List Hit) (hv : ivfSearch F h.ivf q k = some vs) (hid : id ∈ vs.map Prod.fst) :
    ∃ h' out, h.delete id order = (h', false) ∧ h'.search E F sort q k = some out ∧ id ∈ out.map Prod.fst := by
  have hi := hrun_inv E F ops (newHybrid V d M n) h hok (Hnsw.inv_empty _ _ _) hr
  obtain ⟨out, a1, a2, -⟩ := hybrid_search E F sort hsort (h.delete id order).1 (Hnsw.delete_spec order ho h.hnsw id hi).2.1 q k vs hv
  refine ⟨_, out, rfl, a1, ?_⟩
  obtain ⟨r, hr1, hr2⟩ := List.mem_map.1 hid
  exact List.mem_map.2 ⟨r, a2 r hr1, hr2⟩

/-- C37 (partial): after a `Delete` the hybrid index returns the id only when its IVF part still does. -/
theorem C37_hybrid_delete_partial (E : Hnsw.Env V) (F : Ivf.Env V) (sort : List Hit → List Hit) (hsort : ∀ l, (sort l).Perm l)
    (d M n : Nat) (ops : List (HOp V)) (hok : ∀ op ∈ ops, op.ok) (h : Hybrid V) (hr : hrun E F (newHybrid V d M n) ops = some h)
    (id : String) (order : List (Hnsw.Node V) → List (Hnsw.Node V)) (ho : ∀ l, (order l).Perm l) (q : V) (k : Nat)
    (vs : List Hit) (hv : ivfSearch F h.ivf q k = some vs) (hid : id ∉ vs.map Prod.fst) :
    ∃ h' out, h.delete id order = (h', false) ∧ h'.search E F sort q k = some out ∧ id ∉ out.map Prod.fst := by
  have hi := hrun_inv E F ops (newHybrid V d M n) h hok (Hnsw.inv_empty _ _ _) hr
  have hd := Hnsw.delete_spec order ho h.hnsw id hi
  obtain ⟨out, a1, -, a3⟩ := hybrid_search E F sort hsort (h.delete id order).1 hd.2.1 q k vs hv
  refine ⟨_, out, rfl, a1, ?_⟩
  intro hm
  obtain ⟨r, hr1, rfl⟩ := List.mem_map.1 hm
  rcases a3 r hr1 with h1 | ⟨v, h1⟩
  · exact hid (List.mem_map.2 ⟨r, h1, rfl⟩)
  · have := hd.2.2.2.1 r.1
    rw [if_pos rfl] at this
    change Hnsw.look (Hnsw.delete order h.hnsw r.1).1 r.1 = _ at h1
    rw [h1] at this
    cases hl : Hnsw.look h.hnsw r.1 <;> rw [hl] at this <;> simp at this

/-- C37 is violated by the hybrid index: after any history in which the IVF part was never trained successfully, or for a vector of a wrong
dimension, inserting a new id returns an error, yet the id is in the HNSW part, and from then on every insert of it is refused, also after
training. -/
theorem C37_hybrid_failed_insert_leaves_trace_violated (E : Hnsw.Env V) (F : Ivf.Env V) (d M n : Nat) (ops : List (HOp V)) (hok : ∀ op ∈ ops, op.ok)
    (h : Hybrid V) (hr : hrun E F (newHybrid V d M n) ops = some h) (id : String) (v : V) (level : Nat) (hnew : ¬ Hnsw.Stored h.hnsw id)
    (hbad : Ivf.add F h.ivf id v = .error .err) :
    ∃ h', h.insert E F id v level = some (h', true) ∧ Hnsw.look h'.hnsw id = some (E.keep v, false) ∧ h'.ivf = h.ivf ∧
      ∀ vs h'', h'.train F vs = some (h'', false) → ∀ w l, h''.insert E F id w l = some (h'', true) := by
  have hi := hrun_inv E F ops (newHybrid V d M n) h hok (Hnsw.inv_empty _ _ _) hr
  obtain ⟨g, a1, a2, -, -, a5, -⟩ := Hnsw.insertNew_spec E true h.hnsw id v level hi hnew
  have hins : Hnsw.insert E h.hnsw id v level = some (g, false) := by
    unfold Hnsw.insert
    rw [if_neg (show ¬ (Hnsw.getNode h.hnsw id).isSome = true from hnew), a1]
    rfl
  have hlook : Hnsw.look g id = some (E.keep v, false) := by rw [a5 id, if_pos rfl]
  refine ⟨⟨g, h.ivf⟩, by simp only [Hybrid.insert, hins, hbad, settle]; rfl, hlook, rfl, ?_⟩
  intro vs h'' ht w l
  simp only [Hybrid.train] at ht
  obtain ⟨r, -, hr2⟩ := Option.map_eq_some_iff.1 ht
  rw [Prod.mk.injEq] at hr2
  have hg : h''.hnsw = g := by rw [← hr2.1]
  have hst : Hnsw.Stored h''.hnsw id := by
    rw [hg, ← Hnsw.look_isSome, hlook]; rfl
  have : Hnsw.insert E h''.hnsw id w l = some (h''.hnsw, true) := by
    unfold Hnsw.insert
    rw [if_pos (show (Hnsw.getNode h''.hnsw id).isSome = true from hst)]
  simp only [Hybrid.insert, this]

/-- C37 is violated by the multi index: with parallel inserts, when one part takes the id and another refuses it, the call fails and the id
stays in the part that took it. -/
theorem C37_multi_failed_insert_leaves_trace_violated (L : Lib σ V ρ) (coin : String → ρ) (order : List (String × σ) → List (String × σ))
    (ho : ∀ l, (order l).Perm l) (m : Multi σ) (hp : m.parallel = true) (id : String) (v : V)
    (hcalm : ∀ p ∈ m.indices, (L.insert (coin p.1) p.2 id v).isSome = true)
    (a : String × σ) (ha : a ∈ m.indices) (sa : σ) (hta : L.insert (coin a.1) a.2 id v = some (sa, false))
    (b : String × σ) (hb : b ∈ m.indices) (sb : σ) (htb : L.insert (coin b.1) b.2 id v = some (sb, true)) :
    ∃ m', insert L coin order m id v = some (m', true) ∧ (a.1, sa) ∈ m'.indices := by
  have key : ∀ ps : List (String × σ), (∀ p ∈ ps, (L.insert (coin p.1) p.2 id v).isSome = true) →
      ∃ ps' e, insertPar L coin id v ps = some (ps', e) ∧ (b ∈ ps → e = true) ∧ (a ∈ ps → (a.1, sa) ∈ ps') := by
    intro ps
    induction ps with
    | nil => intro _; exact ⟨[], false, rfl, by simp, by simp⟩
    | cons p ps ih =>
      intro hc
      obtain ⟨ps', e, b1, b2, b3⟩ := ih (fun x hx => hc x (List.mem_cons_of_mem _ hx))
      obtain ⟨⟨s', e'⟩, h1⟩ := Option.isSome_iff_exists.1 (hc p List.mem_cons_self)
      obtain ⟨n, s⟩ := p
      rw [insertPar]
      simp only at h1
      rw [h1]
      simp only
      rw [b1]
      refine ⟨_, _, rfl, ?_, ?_⟩
      · intro hm
        rcases List.mem_cons.1 hm with rfl | hm
        · rw [h1] at htb
          have := (Prod.mk.inj (Option.some.inj htb)).2
          simp [this]
        · simp [b2 hm]
      · intro hm
        rcases List.mem_cons.1 hm with rfl | hm
        · rw [h1] at hta
          rw [(Prod.mk.inj (Option.some.inj hta)).1]
          exact List.mem_cons_self
        · exact List.mem_cons_of_mem _ (b3 hm)
  obtain ⟨ps', e, h1, h2, h3⟩ := key (order m.indices) (fun p hpp => hcalm p ((ho _).mem_iff.1 hpp))
  unfold insert
  rw [hp, if_pos rfl, h1, h2 ((ho _).mem_iff.2 hb)]
  exact ⟨_, rfl, h3 ((ho _).mem_iff.2 ha)⟩

/-! ### Concrete cases -/

abbrev Both := Hnsw.Index Nat ⊕ Ivf.Index Nat

def bothLib : Lib Both Nat (Coin Nat) := eitherLib (hnswLib Hnsw.lineEnv) (ivfLib Ivf.lineEnv)

def coin0 : String → Coin Nat := fun _ => ⟨0, id⟩

def env : Env Both where
  parts := id
  hits := List.reverse
  votes := List.reverse
  sortHits := insertSort (fun r => -r.2)
  sortScore := insertSort (fun v => -v.score)
  sortVotes := insertSort voteKey

theorem env_sound : env.Sound := by
  refine ⟨fun l => List.Perm.refl l, List.reverse_perm, List.reverse_perm, ?_, ?_, ?_⟩
  · intro l
    obtain ⟨h1, h2⟩ := insertSort_sorts (fun r : Hit => -r.2) l
    exact ⟨h1, h2.imp (fun h => by linarith)⟩
  · intro l
    obtain ⟨h1, h2⟩ := insertSort_sorts (fun v : Vote => -v.score) l
    exact ⟨h1, h2.imp (fun h => by linarith)⟩
  · intro l
    obtain ⟨h1, h2⟩ := insertSort_sorts voteKey l
    refine ⟨h1, h2.imp ?_⟩
    intro a b h
    unfold voteKey at h
    rw [Prod.Lex.toLex_le_toLex] at h
    rcases h with h | ⟨h, h'⟩
    · exact Or.inl h
    · exact Or.inr ⟨h.symm, neg_le_neg_iff.1 h'⟩

/-- An HNSW part and an IVF part that was trained. -/
def both (strategy : Strategy) (parallel : Bool) : Multi Both :=
  ⟨[("hnsw", .inl (Hnsw.new Nat 2 10)), ("ivf", .inr (((Ivf.train Ivf.lineEnv (Ivf.new Nat 1 2) [1, 2, 3]).toOption).getD (Ivf.new Nat 1 2)))],
    "hnsw", ["ivf"], strategy, 0, parallel⟩

def ins (id : String) (v : Nat) : Op Both Nat (Coin Nat) := .insert coin0 _root_.id id v
def del (id : String) : Op Both Nat (Coin Nat) := .delete coin0 _root_.id id

/-- C37 is violated by the multi index with the parts of the repository: the refused second insert reaches the IVF part, and the successful
delete removes one of the two entries there. -/
theorem C37_multi_delete_leaves_copy_violated :
    (run bothLib (both .mergeAll true) [ins "b" 9, ins "a" 5, ins "a" 1]).bind (fun m => (delete bothLib coin0 _root_.id m "a").bind (fun r =>
      (search bothLib env r.1 5 3).map (fun out => (r.2, out.map Prod.fst)))) = some (false, ["b", "a"]) := by
  decide +kernel

example : (run bothLib (both .mergeAll true) [ins "a" 5, ins "b" 9, ins "c" 1]).bind (fun m => search bothLib env m 6 2) = some [("a", 1), ("b", 3)] := by
  decide +kernel

example : (run bothLib (both .voting true) [ins "a" 5, ins "b" 9, ins "c" 1]).bind (fun m => search bothLib env m 6 2) =
    some [("a", 4/5), ("b", 14/5)] := by
  decide +kernel

/-- A multi index of HNSW parts only: a deleted id is not returned. -/
example : (run (hnswLib Hnsw.lineEnv) ⟨[("x", Hnsw.new Nat 2 10), ("y", Hnsw.new Nat 3 10)], "x", ["y"], .rerank, 0, false⟩
      [.insert coin0 id "a" 5, .insert coin0 id "b" 9, .delete coin0 id "a"]).bind (fun m => search (hnswLib Hnsw.lineEnv)
        ⟨id, id, id, insertSort (fun r => -r.2), insertSort (fun v => -v.score), insertSort voteKey⟩ m 6 2) = some [("b", 3)] := by
  decide +kernel

/-- The hybrid index before training: the insert fails and the vector is found all the same. -/
example : ((newHybrid Nat 1 2 2).insert Hnsw.lineEnv Ivf.lineEnv "a" 5 0).bind (fun r =>
    (r.1.search Hnsw.lineEnv Ivf.lineEnv (insertSort (fun r => -r.2)) 6 3).map (fun out => (r.2, out))) = some (true, [("a", 1)]) := by
  decide +kernel

/-- A trained hybrid index still returns what was deleted. -/
example : (hrun Hnsw.lineEnv Ivf.lineEnv (newHybrid Nat 1 2 2) [.train [1, 2, 3], .insert "a" 5 0, .insert "b" 9 0, .delete "a" id]).bind (fun h =>
    (h.search Hnsw.lineEnv Ivf.lineEnv (insertSort (fun r => -r.2)) 6 3)) = some [("a", 1), ("b", 3)] := by
  decide +kernel

/-! ### C112 -/

/-- C112 is violated: the adapter made for dimension 6 with `M = 1` lets a node have six links at the bottom instead of two. -/
theorem C112_adapter_parameters_violated :
    (Hnsw.run Hnsw.starEnv (newHnswAdapter Nat 6 1) ((Hnsw.starVecs.take 7).map (fun e => .insert e.1 e.2.1 e.2.2))).map
      (fun h => (h.M, h.nodes.head?.map (fun n => n.nbrs.map List.length))) = some (6, some [6]) := by
  decide +kernel

/-- C112 (partial): for vectors with at most `M` components the links are bounded as asked. -/
theorem C112_adapter_links_partial (E : Hnsw.Env V) (d M : Nat) (hd : d ≤ M) (ops : List (Hnsw.Op V)) (hok : ∀ op ∈ ops, op.ok ∧ op.single) :
    ∃ h, Hnsw.run E (newHnswAdapter V d M) ops = some h ∧ ∀ n ∈ h.nodes, ∀ (K : Nat) (l : List String), n.nbrs[K]? = some l →
      l.length ≤ if K = 0 then M * 2 else M := by
  obtain ⟨h, h1, h2⟩ := Hnsw.C109_links_bounded_partial E d M ops hok
  refine ⟨h, h1, ?_⟩
  intro n hn K l hl
  have := h2 n hn K l hl
  split_ifs with h0
  · rw [if_pos h0] at this; omega
  · rw [if_neg h0] at this; omega

end Verif.MultiIndex
