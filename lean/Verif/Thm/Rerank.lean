import Verif.Model.Rerank
import Verif.Thm.Search
import Mathlib.Tactic.FieldSimp
import Mathlib.Tactic.Positivity
import Mathlib.Order.Monotone.Defs

/-!
# Rerankers: C73, C125, C126
-/

namespace Verif.Rerank

open Verif.Model.Store Verif.Model.Search Verif.Base Verif.Spec Verif.Thm.Search

variable {W HI VI : Type}

/-! ## Specification -/

/-- A result without its score. -/
def bare (h : Hit W) : Hit W := { h with score := 0 }

/-- The same results, in another order and with other scores. -/
def Rearranges (out results : List (Hit W)) : Prop := (out.map bare).Perm (results.map bare)

/-- Best first. -/
def Descending (out : List (Hit W)) : Prop := out.Pairwise fun a b => b.score ≤ a.score

theorem rearranges_of_perm {out results : List (Hit W)} (f : Hit W → ℚ)
    (h : out.Perm (results.map fun r => { r with score := f r })) : Rearranges out results := by
  have := h.map bare
  rw [List.map_map] at this
  exact this

theorem Rearranges.length {out results : List (Hit W)} (h : Rearranges out results) : out.length = results.length := by
  have := List.Perm.length_eq h
  simpa using this

theorem Rearranges.ids {out results : List (Hit W)} (h : Rearranges out results) :
    (out.map fun x => x.id).Perm (results.map fun x => x.id) := by
  have := List.Perm.map (fun x : Hit W => x.id) h
  rw [List.map_map, List.map_map] at this
  exact this

/-! ## Score normalization -/

theorem bounds_spec : ∀ (l : List (Hit W)) (lo hi : ℚ), lo ≤ hi →
    (bounds l lo hi).1 ≤ lo ∧ hi ≤ (bounds l lo hi).2 ∧ (∀ r ∈ l, (bounds l lo hi).1 ≤ r.score ∧ r.score ≤ (bounds l lo hi).2) ∧
    ((bounds l lo hi).1 = lo ∨ ∃ r ∈ l, r.score = (bounds l lo hi).1) ∧
    ((bounds l lo hi).2 = hi ∨ ∃ r ∈ l, r.score = (bounds l lo hi).2)
  | [], lo, hi, h => by simp [bounds]
  | r :: l, lo, hi, h => by
    have h1 : (if r.score < lo then r.score else lo) ≤ lo := by split <;> linarith
    have h2 : hi ≤ (if r.score > hi then r.score else hi) := by split <;> linarith
    have h3 : (if r.score < lo then r.score else lo) ≤ r.score := by split <;> linarith
    have h4 : r.score ≤ (if r.score > hi then r.score else hi) := by split <;> linarith
    have h5 : (if r.score < lo then r.score else lo) = lo ∨ (if r.score < lo then r.score else lo) = r.score := by
      split <;> simp
    have h6 : (if r.score > hi then r.score else hi) = hi ∨ (if r.score > hi then r.score else hi) = r.score := by
      split <;> simp
    obtain ⟨i1, i2, i3, i4, i5⟩ := bounds_spec l (if r.score < lo then r.score else lo) (if r.score > hi then r.score else hi)
      (by linarith)
    simp only [bounds]
    refine ⟨i1.trans h1, h2.trans i2, ?_, ?_, ?_⟩
    · intro x hx
      rcases List.mem_cons.1 hx with rfl | hx
      · exact ⟨i1.trans h3, h4.trans i2⟩
      · exact i3 x hx
    · rcases i4 with e | ⟨x, hx, e⟩
      · rcases h5 with e2 | e2
        · left; rw [e, e2]
        · right; exact ⟨r, by simp, by rw [e, e2]⟩
      · right; exact ⟨x, by simp [hx], e⟩
    · rcases i5 with e | ⟨x, hx, e⟩
      · rcases h6 with e2 | e2
        · left; rw [e, e2]
        · right; exact ⟨r, by simp, by rw [e, e2]⟩
      · right; exact ⟨x, by simp [hx], e⟩

/-- The rescaling of `normalize`. -/
theorem normalize_eq (sort : List (Hit W) → List (Hit W)) (hsort : SortsDesc sort) (min max : ℚ) (q : String)
    (results : List (Hit W)) (hne : results ≠ []) :
    ∃ lo hi range out, normalize sort min max q results = .ok out ∧ 0 < range ∧
      (∀ r ∈ results, lo ≤ r.score ∧ r.score ≤ hi) ∧ (∃ r ∈ results, r.score = lo) ∧ (∃ r ∈ results, r.score = hi) ∧
      (lo < hi → range = hi - lo) ∧
      out.Perm (results.map fun r => { r with score := (r.score - lo) / range * (max - min) + min }) ∧ Descending out := by
  cases results with
  | nil => exact absurd rfl hne
  | cons r0 rs =>
    obtain ⟨i1, i2, i3, i4, i5⟩ := bounds_spec (r0 :: rs) r0.score r0.score le_rfl
    refine ⟨(bounds (r0 :: rs) r0.score r0.score).1, (bounds (r0 :: rs) r0.score r0.score).2, _, _, rfl, ?_, i3, ?_, ?_, ?_,
      (hsort _).1, (hsort _).2⟩
    · split
      · norm_num
      · rename_i h
        rcases lt_or_eq_of_le (i1.trans i2) with h' | h'
        · linarith
        · exact absurd (by rw [h']; ring) h
    · rcases i4 with e | e
      · exact ⟨r0, by simp, e.symm⟩
      · exact e
    · rcases i5 with e | e
      · exact ⟨r0, by simp, e.symm⟩
      · exact e
    · intro hlt
      rw [if_neg (by linarith)]

/-- **C73, normalization.** For every list of results and every range with `min < max`, normalizing rearranges the results,
best first, changes the scores by a strictly increasing function (so their order does not change), and puts them into
`[min, max]`; unless all scores are equal the best gets `max` and the worst `min`. -/
theorem C73_normalize (sort : List (Hit W) → List (Hit W)) (hsort : SortsDesc sort) (min max : ℚ) (hmm : min < max) (q : String)
    (results : List (Hit W)) (hne : results ≠ []) :
    ∃ (g : ℚ → ℚ) (out : List (Hit W)), normalize sort min max q results = .ok out ∧ StrictMono g ∧
      out.Perm (results.map fun r => { r with score := g r.score }) ∧ Descending out ∧
      (∀ h ∈ out, min ≤ h.score ∧ h.score ≤ max) ∧
      (∀ r ∈ results, (∀ x ∈ results, r.score ≤ x.score) → g r.score = min) ∧
      (∀ r ∈ results, (∀ x ∈ results, x.score ≤ r.score) → (∃ x ∈ results, x.score < r.score) → g r.score = max) := by
  obtain ⟨lo, hi, range, out, h1, hpos, hb, ⟨rl, hrl, el⟩, ⟨rh, hrh, eh⟩, hrange, hperm, hdesc⟩ :=
    normalize_eq sort hsort min max q results hne
  refine ⟨fun x => (x - lo) / range * (max - min) + min, out, h1, ?_, hperm, hdesc, ?_, ?_, ?_⟩
  · intro a b hab
    have h2 : 0 < (max - min) := by linarith
    have h3 : (a - lo) / range < (b - lo) / range := div_lt_div_of_pos_right (by linarith) hpos
    have := mul_lt_mul_of_pos_right h3 h2
    show (a - lo) / range * (max - min) + min < (b - lo) / range * (max - min) + min
    linarith
  · intro h hh
    rw [hperm.mem_iff] at hh
    obtain ⟨r, hr, rfl⟩ := List.mem_map.1 hh
    obtain ⟨hb1, hb2⟩ := hb r hr
    have h2 : 0 < (max - min) := by linarith
    have h0 : 0 ≤ (r.score - lo) / range := div_nonneg (by linarith) hpos.le
    have h1' : (r.score - lo) / range ≤ 1 := by
      rcases lt_or_eq_of_le (hb1.trans hb2) with hlt | heq
      · rw [hrange hlt, div_le_one (by linarith)]
        linarith
      · have : r.score - lo = 0 := by linarith
        rw [this]; simp
    show min ≤ (r.score - lo) / range * (max - min) + min ∧ (r.score - lo) / range * (max - min) + min ≤ max
    constructor
    · have := mul_nonneg h0 h2.le; linarith
    · have := mul_le_mul_of_nonneg_right h1' h2.le; linarith
  · intro r hr hmin
    have : r.score = lo := le_antisymm (by rw [← el]; exact hmin rl hrl) (hb r hr).1
    simp [this]
  · intro r hr hmax ⟨x, hx, hxr⟩
    have e : r.score = hi := le_antisymm (hb r hr).2 (by rw [← eh]; exact hmax rh hrh)
    have hlt : lo < hi := by
      have := (hb x hx).1
      rw [← e]; linarith
    have hne' : hi - lo ≠ 0 := by linarith
    show (r.score - lo) / range * (max - min) + min = max
    rw [e, hrange hlt, div_self hne']
    ring

/-- **C73, violated.** With `max < min` the order is reversed: what was worse is better afterwards. -/
theorem C73_normalize_reversed_violated (sort : List (Hit W) → List (Hit W)) (hsort : SortsDesc sort) (min max : ℚ)
    (hmm : max < min) (q : String) (results : List (Hit W)) (hne : results ≠ []) :
    ∃ (g : ℚ → ℚ) (out : List (Hit W)), normalize sort min max q results = .ok out ∧ StrictAnti g ∧
      out.Perm (results.map fun r => { r with score := g r.score }) ∧ Descending out := by
  obtain ⟨lo, hi, range, out, h1, hpos, -, -, -, -, hperm, hdesc⟩ := normalize_eq sort hsort min max q results hne
  refine ⟨fun x => (x - lo) / range * (max - min) + min, out, h1, ?_, hperm, hdesc⟩
  intro a b hab
  have h3 : (a - lo) / range < (b - lo) / range := div_lt_div_of_pos_right (by linarith) hpos
  have := mul_lt_mul_of_neg_right h3 (show max - min < 0 by linarith)
  show (b - lo) / range * (max - min) + min < (a - lo) / range * (max - min) + min
  linarith

/-! ## Keyword match -/

/-- How many of the query's words the content contains. -/
def found (t : Txt) (cs : Bool) (query content : String) : Nat :=
  ((t.fields (if cs then query else t.lower query)).countP fun w => t.contains (if cs then content else t.lower content) w)

/-- The score after boosting. -/
def boosted (t : Txt) (cs : Bool) (boost : ℚ) (query : String) (r : Hit W) : ℚ :=
  r.score * (1 + found t cs query r.content * boost)

theorem keyword_eq (t : Txt) (sort : List (Hit W) → List (Hit W)) (boost : ℚ) (cs : Bool) (query : String)
    (results : List (Hit W)) : keyword t sort boost cs query results =
      .ok (sort (results.map fun r => { r with score := boosted t cs boost query r })) := by
  unfold keyword
  congr 2
  apply List.map_congr_left
  intro r _
  have e : matchCount t cs query r.content = found t cs query r.content := by
    unfold matchCount found
    rw [List.countP_eq_length_filter]
  simp only [e, boosted]
  split
  · rfl
  · rename_i h
    have : found t cs query r.content = 0 := by omega
    rw [this]
    simp

/-- **C73, keyword match.** The keyword reranker rearranges its input, best first, and multiplies each score by one plus the
boost for every word of the query found in the content. -/
theorem C73_keyword (t : Txt) (sort : List (Hit W) → List (Hit W)) (hsort : SortsDesc sort) (boost : ℚ) (cs : Bool) (query : String)
    (results : List (Hit W)) : ∃ out, keyword t sort boost cs query results = .ok out ∧ Rearranges out results ∧ Descending out ∧
      out.Perm (results.map fun r => { r with score := boosted t cs boost query r }) :=
  ⟨_, keyword_eq t sort boost cs query results, rearranges_of_perm _ (hsort _).1, (hsort _).2, (hsort _).1⟩

/-- **C125 (partial).** When scores are not negative, boosting never lowers a score, and a result that is at least as good
before and contains at least as many words is at least as good afterwards. -/
theorem C125_boost_partial (t : Txt) (cs : Bool) (boost : ℚ) (hb : 0 ≤ boost) (query : String) (a b : Hit W) (h0 : 0 ≤ b.score)
    (hab : b.score ≤ a.score) (hf : found t cs query b.content ≤ found t cs query a.content) :
    b.score ≤ boosted t cs boost query b ∧ boosted t cs boost query b ≤ boosted t cs boost query a := by
  unfold boosted
  have hn : (0 : ℚ) ≤ found t cs query b.content := Nat.cast_nonneg _
  have hc : (found t cs query b.content : ℚ) ≤ found t cs query a.content := by exact_mod_cast hf
  have h1 : 0 ≤ (found t cs query b.content : ℚ) * boost := mul_nonneg hn hb
  have h2 : (found t cs query b.content : ℚ) * boost ≤ found t cs query a.content * boost := mul_le_mul_of_nonneg_right hc hb
  constructor
  · nlinarith
  · have := mul_le_mul hab (show 1 + (found t cs query b.content : ℚ) * boost ≤ 1 + found t cs query a.content * boost by linarith)
      (by linarith) (h0.trans hab)
    exact this

/-- **C125, violated.** With a negative score (Euclidean stores give only such) the boost works against the match: every result
that contains a word of the query gets a lower score, and of two equally scored results the one with the words comes
second. -/
theorem C125_negative_violated (t : Txt) (cs : Bool) (boost : ℚ) (hb : 0 < boost) (query : String) (a b : Hit W) (h0 : a.score < 0)
    (hab : b.score = a.score) (ha : 0 < found t cs query a.content) (hbn : found t cs query b.content = 0) :
    boosted t cs boost query a < a.score ∧ boosted t cs boost query a < boosted t cs boost query b := by
  unfold boosted
  have hn : (0 : ℚ) < found t cs query a.content := by exact_mod_cast ha
  have h1 : 0 < (found t cs query a.content : ℚ) * boost := mul_pos hn hb
  rw [hbn, hab]
  constructor
  · nlinarith
  · simp only [Nat.cast_zero, zero_mul, add_zero, mul_one]
    nlinarith

/-! ## Reciprocal rank fusion -/

theorem textRank_at (sorted : List (Nat × ℚ)) (n i : Nat) (hn : (sorted.map fun x => x.1).Nodup) (j : Nat) (x : ℚ)
    (hj : sorted[j]? = some (i, x)) : textRank sorted n i = j + 1 := by
  unfold textRank
  have : sorted.findIdx? (fun y => decide (y.1 = i)) = some j := by
    obtain ⟨hlt, hget⟩ := List.getElem?_eq_some_iff.1 hj
    rw [List.findIdx?_eq_some_iff_getElem]
    refine ⟨hlt, by rw [hget]; simp, ?_⟩
    intro k hk
    simp only [decide_eq_true_eq]
    intro he
    have h1 : (sorted.map fun x => x.1)[k]'(by simp; omega) = (sorted.map fun x => x.1)[j]'(by simp; omega) := by
      simp [he, hget]
    have := (List.Nodup.getElem_inj_iff hn).1 h1
    omega
  rw [this]

/-- **C73, reciprocal rank fusion.** The fusion rearranges its input, best first; a result at position `i` (from 0) gets
`vw/(k+i+1) + tw/(k+rank i)`, where the ranks are a numbering of the results from 1 in the order of their word overlap with
the query. -/
theorem C73_rrf (t : Txt) (sort : List (Hit W) → List (Hit W)) (hsort : SortsDesc sort) (sortText : List (Nat × ℚ) → List (Nat × ℚ))
    (htext : ∀ l, SortedFrom (fun a b => b.2 ≤ a.2) l (sortText l)) (k vw tw : ℚ) (query : String) (results : List (Hit W)) :
    ∃ (out : List (Hit W)) (rank : Nat → Nat), rrf t sort sortText k vw tw query results = .ok out ∧ Rearranges out results ∧
      Descending out ∧
      out.Perm (results.mapIdx fun i r => { r with score := vw / (k + (i + 1 : Nat)) + tw / (k + (rank i : Nat)) }) ∧
      (∀ i < results.length, 1 ≤ rank i ∧ rank i ≤ results.length) ∧
      (∀ i < results.length, ∀ j < results.length, rank i = rank j → i = j) ∧
      (∀ i j a b, results[i]? = some a → results[j]? = some b → overlap t query b.content < overlap t query a.content → rank i < rank j) := by
  unfold rrf
  by_cases h0 : results.length = 0
  · rw [if_pos h0]
    have : results = [] := List.length_eq_zero_iff.1 h0
    subst this
    exact ⟨[], fun _ => 0, rfl, List.Perm.refl _, List.Pairwise.nil, List.Perm.refl _, by simp, by simp, by simp⟩
  · rw [if_neg h0]
    simp only
    generalize htx : (results.mapIdx fun j r => (j, overlap t query r.content)) = text
    have hperm := (htext text).1
    have hpw := (htext text).2
    have hfst : text.map (fun x => x.1) = List.range results.length := by
      rw [← htx]
      apply List.ext_getElem
      · simp
      · intro i h1 h2; simp
    have hnodup : ((sortText text).map fun x => x.1).Nodup := by
      rw [(hperm.map _).nodup_iff, hfst]
      exact List.nodup_range
    have hlen : (sortText text).length = results.length := by
      rw [hperm.length_eq, ← htx]; simp
    have hat : ∀ i r, results[i]? = some r → ∃ j, j < results.length ∧ (sortText text)[j]? = some (i, overlap t query r.content) ∧
        textRank (sortText text) results.length i = j + 1 := by
      intro i r hi
      obtain ⟨hlt, hget⟩ := List.getElem?_eq_some_iff.1 hi
      have hm : (i, overlap t query r.content) ∈ text := by
        rw [← htx]
        rw [List.mem_mapIdx]
        exact ⟨i, hlt, by rw [hget]⟩
      rw [← hperm.mem_iff] at hm
      obtain ⟨j, hj, hje⟩ := List.getElem_of_mem hm
      have hj' : (sortText text)[j]? = some (i, overlap t query r.content) := by
        rw [List.getElem?_eq_getElem hj, hje]
      exact ⟨j, by omega, hj', textRank_at _ _ _ hnodup j _ hj'⟩
    refine ⟨_, fun i => textRank (sortText text) results.length i, rfl, ?_, (hsort _).2, (hsort _).1, ?_, ?_, ?_⟩
    · have := ((hsort (results.mapIdx fun i r => { r with score := vw / (k + (i + 1 : Nat)) + tw / (k + (textRank (sortText text) results.length i : Nat)) })).1).map bare
      refine this.trans (List.Perm.of_eq ?_)
      apply List.ext_getElem
      · simp
      · intro i h1 h2
        simp [bare]
    · intro i hi
      obtain ⟨j, hj, _, he⟩ := hat i _ (List.getElem?_eq_getElem hi)
      simp only [he]
      omega
    · intro i hi i' hi' he
      obtain ⟨j, hj, hg, he1⟩ := hat i _ (List.getElem?_eq_getElem hi)
      obtain ⟨j', hj', hg', he2⟩ := hat i' _ (List.getElem?_eq_getElem hi')
      simp only [he1, he2] at he
      have : j = j' := by omega
      subst this
      rw [hg] at hg'
      injection hg' with hg'
      exact congrArg Prod.fst hg'
    · intro i i' a b ha hb hlt
      obtain ⟨j, hj, hg, he1⟩ := hat i a ha
      obtain ⟨j', hj', hg', he2⟩ := hat i' b hb
      simp only [he1, he2]
      by_contra hge
      have hle : j' ≤ j := by omega
      obtain ⟨hl1, hg1⟩ := List.getElem?_eq_some_iff.1 hg
      obtain ⟨hl2, hg2⟩ := List.getElem?_eq_some_iff.1 hg'
      rcases Nat.lt_or_ge j' j with hlt' | hge'
      · have := (List.pairwise_iff_getElem.1 hpw) j' j hl2 hl1 hlt'
        rw [hg1, hg2] at this
        exact absurd hlt (not_lt.2 this)
      · have : j = j' := by omega
        subst this
        rw [hg1] at hg2
        have := congrArg Prod.snd hg2
        simp only at this
        rw [this] at hlt
        exact lt_irrefl _ hlt

/-- **C73.** So, when the constant and the weights are not negative, a result that is earlier and overlaps more gets at least as
high a score. -/
theorem C73_rrf_dominance (k vw tw : ℚ) (hk : 0 ≤ k) (hv : 0 ≤ vw) (ht : 0 ≤ tw) (i j ri rj : Nat) (hij : i ≤ j) (hr : ri ≤ rj)
    (h1 : 1 ≤ ri) : vw / (k + (j + 1 : Nat)) + tw / (k + rj) ≤ vw / (k + (i + 1 : Nat)) + tw / (k + ri) := by
  have a1 : (0 : ℚ) < k + (i + 1 : Nat) := by positivity
  have a2 : (0 : ℚ) < k + ri := by
    have : (1 : ℚ) ≤ ri := by exact_mod_cast h1
    linarith
  have a3 : k + ((i + 1 : Nat) : ℚ) ≤ k + (j + 1 : Nat) := by
    have : ((i + 1 : Nat) : ℚ) ≤ (j + 1 : Nat) := by exact_mod_cast Nat.succ_le_succ hij
    linarith
  have a4 : k + (ri : ℚ) ≤ k + rj := by
    have : (ri : ℚ) ≤ rj := by exact_mod_cast hr
    linarith
  exact add_le_add (div_le_div_of_nonneg_left hv a1 a3) (div_le_div_of_nonneg_left ht a2 a4)

/-! ## Maximal marginal relevance -/

/-- Relevance against the greatest similarity to what is already chosen (0 if that is negative). -/
def mmr (sim : List W → List W → ℚ) (lambda : ℚ) (q : List W) (chosen : List (Hit W)) (h : Hit W) : ℚ :=
  lambda * sim q h.vector - (1 - lambda) * (chosen.map fun s => sim h.vector s.vector).foldr max 0

theorem maxSim_fold (sim : List W → List W → ℚ) (v : List W) : ∀ (l : List (Hit W)) (m : ℚ),
    l.foldl (fun m s => if sim v s.vector > m then sim v s.vector else m) m = max m ((l.map fun s => sim v s.vector).foldr max m)
  | [], m => by simp
  | x :: l, m => by
    have key : ∀ (l : List ℚ) (a b : ℚ), l.foldr max (max a b) = max a (l.foldr max b) := by
      intro l a b
      induction l with
      | nil => rfl
      | cons y l ih => simp only [List.foldr_cons, ih]; exact max_left_comm _ _ _
    have e : (if sim v x.vector > m then sim v x.vector else m) = max (sim v x.vector) m := by
      split
      · rename_i h; exact (max_eq_left h.le).symm
      · rename_i h; exact (max_eq_right (not_lt.1 h)).symm
    simp only [List.foldl_cons, e, List.map_cons, List.foldr_cons]
    rw [maxSim_fold sim v l, key]
    generalize List.foldr max m (List.map (fun s => sim v s.vector) l) = z
    rcases le_total (sim v x.vector) m with h1 | h1 <;> rcases le_total m z with h2 | h2 <;> simp [h1, h2]

theorem le_foldr_max : ∀ (l : List ℚ) (m : ℚ), m ≤ l.foldr max m
  | [], m => le_rfl
  | x :: l, m => (le_foldr_max l m).trans (le_max_right _ _)

theorem foldr_max_le : ∀ (l : List ℚ) (m b : ℚ), m ≤ b → (∀ x ∈ l, x ≤ b) → l.foldr max m ≤ b
  | [], m, b, h, _ => h
  | x :: l, m, b, h, hl => max_le (hl x (by simp)) (foldr_max_le l m b h (fun y hy => hl y (by simp [hy])))

theorem maxSim_eq (sim : List W → List W → ℚ) (v : List W) (l : List (Hit W)) :
    maxSim sim v l = (l.map fun s => sim v s.vector).foldr max 0 := by
  unfold maxSim
  rw [maxSim_fold]
  exact max_eq_right (le_foldr_max _ _)

theorem argmax_spec {α : Type} (f : α → ℚ) : ∀ (l : List α) (i : Nat) (init : ℚ) (best : Nat),
    (argmax f l i init best = best ∧ ∀ x ∈ l, f x ≤ init) ∨
    (∃ j x, argmax f l i init best = i + j ∧ l[j]? = some x ∧ init < f x ∧ ∀ y ∈ l, f y ≤ f x)
  | [], i, init, best => by simp [argmax]
  | x :: l, i, init, best => by
    simp only [argmax]
    by_cases h : f x > init
    · rw [if_pos h]
      right
      rcases argmax_spec f l (i + 1) (f x) i with ⟨h1, h2⟩ | ⟨j, y, h1, h2, h3, h4⟩
      · refine ⟨0, x, by simpa using h1, rfl, h, ?_⟩
        intro y hy
        rcases List.mem_cons.1 hy with rfl | hy
        · exact le_rfl
        · exact h2 y hy
      · refine ⟨j + 1, y, by rw [h1]; omega, by simpa using h2, h.trans h3, ?_⟩
        intro z hz
        rcases List.mem_cons.1 hz with rfl | hz
        · exact h3.le
        · exact h4 z hz
    · rw [if_neg h]
      rcases argmax_spec f l (i + 1) init best with ⟨h1, h2⟩ | ⟨j, y, h1, h2, h3, h4⟩
      · left
        refine ⟨h1, ?_⟩
        intro y hy
        rcases List.mem_cons.1 hy with rfl | hy
        · exact not_lt.1 h
        · exact h2 y hy
      · right
        refine ⟨j + 1, y, by rw [h1]; omega, by simpa using h2, h3, ?_⟩
        intro z hz
        rcases List.mem_cons.1 hz with rfl | hz
        · exact (not_lt.1 h).trans h3.le
        · exact h4 z hz

theorem perm_eraseIdx {α : Type} : ∀ (l : List α) (i : Nat) (x : α), l[i]? = some x → (x :: l.eraseIdx i).Perm l
  | [], i, x, h => by simp at h
  | y :: l, 0, x, h => by
    simp only [List.getElem?_cons_zero, Option.some.injEq] at h
    subst h; rfl
  | y :: l, i + 1, x, h => by
    have := perm_eraseIdx l i x (by simpa using h)
    rw [List.eraseIdx_cons_succ]
    exact (List.Perm.swap y x _).trans (this.cons y)

/-- The choice of one round is in the list. -/
theorem best_some (sim : List W → List W → ℚ) (lambda : ℚ) (q : List W) (selected : List (Hit W)) (x : Hit W) (l : List (Hit W)) :
    ∃ y, (x :: l)[argmax (fun h : Hit W => lambda * sim q h.vector - (1 - lambda) * maxSim sim h.vector selected) (x :: l) 0 (-1) 0]? = some y ∧
      ((∀ z ∈ x :: l, -1 ≤ mmr sim lambda q selected z) → ∀ z ∈ x :: l, mmr sim lambda q selected z ≤ mmr sim lambda q selected y) := by
  have em : ∀ h : Hit W, lambda * sim q h.vector - (1 - lambda) * maxSim sim h.vector selected = mmr sim lambda q selected h := by
    intro h; rw [maxSim_eq]; rfl
  simp only [em]
  rcases argmax_spec (mmr sim lambda q selected) (x :: l) 0 (-1) 0 with ⟨h1, h2⟩ | ⟨j, y, h1, h2, h3, h4⟩
  · refine ⟨x, by rw [h1]; rfl, ?_⟩
    intro hall z hz
    exact (h2 z hz).trans (hall x (by simp))
  · refine ⟨y, by rw [h1]; simpa using h2, fun _ => h4⟩

/-- Every element is, among what follows it, the best one with respect to what precedes it. -/
def Greedy (value : List (Hit W) → Hit W → ℚ) (out : List (Hit W)) : Prop :=
  ∀ chosen x rest, out = chosen ++ x :: rest → ∀ y ∈ rest, value chosen y ≤ value chosen x

theorem mmrLoop_spec (sim : List W → List W → ℚ) (lambda : ℚ) (q : List W) : ∀ (fuel : Nat) (selected remaining : List (Hit W)),
    remaining.length ≤ fuel →
    ∃ tail, mmrLoop sim lambda q fuel selected remaining = selected ++ tail ∧ tail.Perm remaining ∧
      ((∀ chosen z, -1 ≤ mmr sim lambda q chosen z) →
        ∀ chosen x rest, tail = chosen ++ x :: rest → ∀ y ∈ rest,
          mmr sim lambda q (selected ++ chosen) y ≤ mmr sim lambda q (selected ++ chosen) x)
  | 0, selected, remaining, h => by
    have : remaining = [] := List.length_eq_zero_iff.1 (by omega)
    subst this
    refine ⟨[], by simp [mmrLoop], List.Perm.refl _, ?_⟩
    intro _ chosen x rest he
    simp at he
  | fuel + 1, selected, [], h => by
    refine ⟨[], by simp [mmrLoop], List.Perm.refl _, ?_⟩
    intro _ chosen x rest he
    simp at he
  | fuel + 1, selected, r :: rs, h => by
    obtain ⟨y, hy, hbest⟩ := best_some sim lambda q selected r rs
    have hperm := perm_eraseIdx _ _ _ hy
    generalize hb : argmax (fun h : Hit W => lambda * sim q h.vector - (1 - lambda) * maxSim sim h.vector selected) (r :: rs) 0 (-1) 0 = b at hy hperm
    have hlen : ((r :: rs).eraseIdx b).length ≤ fuel := by
      have := hperm.length_eq
      simp only [List.length_cons] at this h
      omega
    obtain ⟨tail, h1, h2, h3⟩ := mmrLoop_spec sim lambda q fuel (selected ++ [y]) _ hlen
    refine ⟨y :: tail, ?_, (h2.cons y).trans hperm, ?_⟩
    · simp only [mmrLoop, hb, hy, h1]
      simp
    · intro hall chosen x rest he z hz
      cases chosen with
      | nil =>
        simp only [List.nil_append, List.cons.injEq] at he
        obtain ⟨rfl, rfl⟩ := he
        simp only [List.append_nil]
        exact hbest (fun z _ => hall selected z) z (hperm.mem_iff.1 (List.mem_cons_of_mem _ (h2.mem_iff.1 hz)))
      | cons c chosen =>
        simp only [List.cons_append, List.cons.injEq] at he
        obtain ⟨rfl, he⟩ := he
        have := h3 hall chosen x rest he z hz
        simpa using this

theorem mmr_ge (sim : List W → List W → ℚ) (hsim : ∀ a b, -1 ≤ sim a b ∧ sim a b ≤ 1) (lambda : ℚ) (h0 : 0 ≤ lambda) (h1 : lambda ≤ 1)
    (q : List W) (chosen : List (Hit W)) (z : Hit W) : -1 ≤ mmr sim lambda q chosen z := by
  unfold mmr
  have a := (hsim q z.vector).1
  have b : (chosen.map fun s => sim z.vector s.vector).foldr max 0 ≤ 1 := by
    apply foldr_max_le _ _ _ (by norm_num)
    intro x hx
    obtain ⟨s, _, rfl⟩ := List.mem_map.1 hx
    exact (hsim _ _).2
  have c : lambda * (-1) ≤ lambda * sim q z.vector := mul_le_mul_of_nonneg_left a h0
  have d := mul_le_mul_of_nonneg_left b (show 0 ≤ 1 - lambda by linarith)
  linarith

/-- **C73, diversity.** The diversity reranker returns exactly its input in another order, scores included; and for a similarity
within [-1, 1] and a trade-off within [0, 1] each result is the best of those that follow it by relevance to the first
result's vector against similarity to those before it. -/
theorem C73_diversity (sim : List W → List W → ℚ) (lambda : ℚ) (query : String) (results : List (Hit W)) :
    ∃ out, diversity sim lambda query results = .ok out ∧ out.Perm results ∧
      ((∀ a b, -1 ≤ sim a b ∧ sim a b ≤ 1) → 0 ≤ lambda → lambda ≤ 1 → ∀ r ∈ results.head?, Greedy (mmr sim lambda r.vector) out) := by
  match results with
  | [] => exact ⟨[], rfl, List.Perm.refl _, by simp⟩
  | [r] =>
    refine ⟨[r], rfl, List.Perm.refl _, ?_⟩
    intro _ _ _ r' _ chosen x rest he y hy
    cases chosen with
    | nil => simp at he; simp [he.2] at hy
    | cons c chosen => simp at he
  | r :: r2 :: rs =>
    obtain ⟨tail, h1, h2, h3⟩ := mmrLoop_spec sim lambda r.vector ((r2 :: rs).length + 1) [] (r :: r2 :: rs) (by simp)
    refine ⟨_, rfl, ?_, ?_⟩
    · rw [h1]; simpa using h2
    · intro hs h0 hl r' hr'
      simp only [List.head?_cons, Option.mem_def, Option.some.injEq] at hr'
      subst hr'
      rw [h1]
      intro chosen x rest he y hy
      have := h3 (mmr_ge sim hs lambda h0 hl r.vector) chosen x rest (by simpa using he) y hy
      simpa using this

/-- **C73, violated.** With a similarity below -1 (negated distances) the values are not looked at: the order of the input is
kept although the second result is farther from the query than the third. -/
theorem C73_diversity_euclid_violated :
    ∃ (sim : List Nat → List Nat → ℚ) (a b c : Hit Nat), sim a.vector b.vector < sim a.vector c.vector ∧
      diversity sim 1 "" [a, b, c] = .ok [a, b, c] := by
  refine ⟨fun x y => -|((x.headD 0 : ℚ) - (y.headD 0 : ℚ))|, ⟨"a", "", [0], "", "", none, 0⟩, ⟨"b", "", [9], "", "", none, 0⟩,
    ⟨"c", "", [2], "", "", none, 0⟩, by decide +kernel, by decide +kernel⟩

/-! ## Custom scores -/

/-- **C73, custom.** A reranker with a scoring function rearranges its input, best first, with the scores the function
gives. -/
theorem C73_custom (sort : List (Hit W) → List (Hit W)) (hsort : SortsDesc sort) (f : String → Hit W → ℚ) (query : String)
    (results : List (Hit W)) : ∃ out, custom sort (some f) query results = .ok out ∧ Rearranges out results ∧ Descending out ∧
      out.Perm (results.map fun r => { r with score := f query r }) :=
  ⟨_, rfl, rearranges_of_perm (fun r => f query r) (hsort _).1, (hsort _).2, (hsort _).1⟩

/-! ## Hybrid -/

/-- The score a list gives to an identifier. -/
def given (rs : List (Hit W)) (id : String) : ℚ := ((rs.find? fun h => h.id = id).map fun h => h.score).getD 0

theorem scatter_spec (results : List (Hit W)) (hn : (results.map fun h => h.id).Nodup) : ∀ (rs : List (Hit W)) (scores : List ℚ),
    (rs.map fun h => h.id).Nodup → (∀ r ∈ rs, ∃ o ∈ results, o.id = r.id) → scores.length = results.length →
    ∃ out, scatter results rs scores = some out ∧ out.length = results.length ∧
      ∀ (i : Nat) (o : Hit W), results[i]? = some o → out[i]? = (match rs.find? fun h => h.id = o.id with
        | some h => some h.score
        | none => scores[i]?)
  | [], scores, _, _, hl => ⟨scores, rfl, hl, fun i o _ => rfl⟩
  | r :: rs, scores, hnr, hin, hl => by
    obtain ⟨o, ho, hoid⟩ := hin r (by simp)
    have hfind : ∃ k, results.findIdx? (fun o => decide (o.id = r.id)) = some k := by
      rw [← Option.isSome_iff_exists, List.findIdx?_isSome, List.any_eq_true]
      exact ⟨o, ho, by simpa using hoid⟩
    obtain ⟨k, hk⟩ := hfind
    obtain ⟨hkl, hkid, -⟩ := List.findIdx?_eq_some_iff_getElem.1 hk
    have hkid : results[k].id = r.id := by simpa using hkid
    simp only [List.map_cons, List.nodup_cons] at hnr
    obtain ⟨out, h1, h2, h3⟩ := scatter_spec results hn rs (scores.set k r.score) hnr.2
      (fun x hx => hin x (by simp [hx])) (by simpa using hl)
    refine ⟨out, ?_, h2, ?_⟩
    · simp only [scatter, hk, setAt]
      rw [if_pos (by omega)]
      exact h1
    · intro i o' hi
      rw [h3 i o' hi]
      obtain ⟨hil, hio⟩ := List.getElem?_eq_some_iff.1 hi
      by_cases hik : i = k
      · subst hik
        have hid : o'.id = r.id := by rw [← hio, hkid]
        have hnone : rs.find? (fun h => decide (h.id = o'.id)) = none := by
          rw [List.find?_eq_none]
          intro x hx
          simp only [decide_eq_true_eq]
          intro he
          exact hnr.1 (List.mem_map.2 ⟨x, hx, by rw [he, hid]⟩)
        rw [hnone]
        have hr : (r :: rs).find? (fun h => decide (h.id = o'.id)) = some r := by
          simp [hid]
        rw [hr]
        simp only
        rw [List.getElem?_set_self (by omega)]
      · have hid : o'.id ≠ r.id := by
          intro he
          apply hik
          have e : (results.map fun h => h.id)[i]'(by simpa using hil) = (results.map fun h => h.id)[k]'(by simpa using hkl) := by
            simp [hio, he, hkid]
          exact (List.Nodup.getElem_inj_iff hn).1 e
        have hr : (r :: rs).find? (fun h => decide (h.id = o'.id)) = rs.find? (fun h => decide (h.id = o'.id)) := by
          rw [List.find?_cons_of_neg]
          simp only [decide_eq_true_eq]
          exact fun he => hid he.symm
        rw [hr]
        cases rs.find? (fun h => decide (h.id = o'.id)) with
        | some h => rfl
        | none =>
          simp only
          rw [List.getElem?_set_ne (Ne.symm hik)]

/-- The weighted sum of the scores the lists give, and the total weight, over the lists that have a weight. -/
def weighted (id : String) : List (List (Hit W)) → List ℚ → ℚ × ℚ
  | l :: ls, w :: ws => (given l id * w + (weighted id ls ws).1, w + (weighted id ls ws).2)
  | _, _ => (0, 0)

/-- The rerankers all work on this input and rearrange it. -/
inductive Works (query : String) (results : List (Hit W)) : List (Reranker W) → List (List (Hit W)) → Prop
  | nil : Works query results [] []
  | cons {rr rrs out outs} : rr query results = .ok out → Rearranges out results → Works query results rrs outs →
      Works query results (rr :: rrs) (out :: outs)

theorem collect_spec (query : String) (results : List (Hit W)) (hn : (results.map fun h => h.id).Nodup) {rrs outs}
    (h : Works query results rrs outs) :
    ∃ scores, collect query results rrs = .ok scores ∧
      List.Forall₂ (fun (s : List ℚ) (out : List (Hit W)) => ∀ (i : Nat) (o : Hit W), results[i]? = some o → s[i]? = some (given out o.id)) scores outs := by
  induction h with
  | nil => exact ⟨[], rfl, .nil⟩
  | @cons rr rrs out outs h1 h2 _ ih =>
    obtain ⟨scores, hc, hf⟩ := ih
    have hids := h2.ids
    obtain ⟨s, hs, hsl, hsv⟩ := scatter_spec results hn out (List.replicate out.length 0) (hids.nodup_iff.2 hn) (by
      intro r hr
      have : r.id ∈ results.map fun h => h.id := hids.mem_iff.1 (List.mem_map_of_mem hr)
      obtain ⟨o, ho, he⟩ := List.mem_map.1 this
      exact ⟨o, ho, he⟩) (by rw [List.length_replicate, h2.length])
    refine ⟨s :: scores, ?_, .cons ?_ hf⟩
    · simp only [collect, h1, hs, hc]
    · intro i o hi
      rw [hsv i o hi]
      unfold given
      cases hfnd : out.find? (fun h => decide (h.id = o.id)) with
      | some h => rfl
      | none =>
        exfalso
        rw [List.find?_eq_none] at hfnd
        have hmem : o.id ∈ out.map fun h => h.id := hids.mem_iff.2 (List.mem_map_of_mem (List.mem_of_getElem? hi))
        obtain ⟨x, hx, he⟩ := List.mem_map.1 hmem
        exact absurd he (by simpa using hfnd x hx)

theorem weigh_spec (i : Nat) (o : Hit W) : ∀ {scores : List (List ℚ)} {outs : List (List (Hit W))} (weights : List ℚ),
    List.Forall₂ (fun (s : List ℚ) (out : List (Hit W)) => s[i]? = some (given out o.id)) scores outs →
    weigh i scores weights = some (weighted o.id outs weights)
  | _, _, weights, .nil => by cases weights <;> rfl
  | _, _, [], .cons _ _ => rfl
  | _, _, w :: ws, .cons h hs => by
    simp only [weigh, h, weigh_spec i o ws hs, weighted]

theorem combineAll_spec (weights : List ℚ) (scores : List (List ℚ)) (outs : List (List (Hit W))) : ∀ (rs : List (Hit W)) (k : Nat),
    (∀ i o, rs[i]? = some o → weigh (k + i) scores weights = some (weighted o.id outs weights)) →
    combineAll scores weights k rs = some (rs.map fun r =>
      if (weighted r.id outs weights).2 > 0 then { r with score := (weighted r.id outs weights).1 / (weighted r.id outs weights).2 } else r)
  | [], k, _ => rfl
  | r :: rs, k, h => by
    have h0 := h 0 r rfl
    have ih := combineAll_spec weights scores outs rs (k + 1) (by
      intro i o hi
      have := h (i + 1) o (by simpa using hi)
      rw [← this]
      congr 1
      omega)
    simp only [combineAll, Nat.add_zero] at h0 ⊢
    rw [h0, ih]
    rfl

/-- **C73 (partial), hybrid.** When the results have different identifiers and every reranker works and rearranges its input,
the hybrid reranker rearranges it too, best first, and gives each result the weighted mean of the scores it got from the
rerankers that have a weight (its old score if these weights are not positive in total). -/
theorem C73_hybrid_partial (sort : List (Hit W) → List (Hit W)) (hsort : SortsDesc sort) (rerankers : List (Reranker W)) (weights : List ℚ)
    (query : String) (results : List (Hit W)) (hn : (results.map fun h => h.id).Nodup) (outs : List (List (Hit W)))
    (hw : Works query results rerankers outs) (hne : rerankers ≠ []) :
    ∃ out, hybrid sort rerankers weights query results = .ok out ∧ Rearranges out results ∧ Descending out ∧
      ∀ h ∈ out, ∃ r ∈ results, r.id = h.id ∧
        h.score = if (weighted r.id outs weights).2 > 0 then (weighted r.id outs weights).1 / (weighted r.id outs weights).2 else r.score := by
  obtain ⟨scores, hc, hf⟩ := collect_spec query results hn hw
  have hcomb := combineAll_spec weights scores outs results 0 (by
    intro i o hi
    rw [Nat.zero_add]
    apply weigh_spec
    exact hf.imp (fun s out h => h i o hi))
  have hlen : rerankers.length ≠ 0 := by simpa using hne
  refine ⟨_, by simp only [hybrid, if_neg hlen, hc, hcomb]; rfl, ?_, (hsort _).2, ?_⟩
  · unfold Rearranges
    refine ((hsort _).1.map bare).trans (List.Perm.of_eq ?_)
    rw [List.map_map]
    apply List.map_congr_left
    intro r _
    simp only [Function.comp_apply]
    split <;> rfl
  · intro h hh
    rw [(hsort _).1.mem_iff] at hh
    obtain ⟨r, hr, rfl⟩ := List.mem_map.1 hh
    refine ⟨r, hr, ?_, ?_⟩ <;> split <;> rfl

theorem setAt_length {scores scores' : List ℚ} {k : Nat} {v : ℚ} (h : setAt scores k v = some scores') :
    scores'.length = scores.length := by
  unfold setAt at h
  split at h
  · injection h with h; rw [← h]; simp
  · cases h

theorem scatter_length (results : List (Hit W)) : ∀ (rs : List (Hit W)) (scores out : List ℚ), scatter results rs scores = some out →
    out.length = scores.length
  | [], scores, out, h => by simp only [scatter, Option.some.injEq] at h; rw [h]
  | r :: rs, scores, out, h => by
    simp only [scatter] at h
    split at h
    · exact scatter_length results rs scores out h
    · split at h
      · cases h
      · rename_i s hs
        rw [scatter_length results rs _ out h, setAt_length hs]

theorem collect_lengths (query : String) (results : List (Hit W)) : ∀ (rrs : List (Reranker W)) (outs : List (List (Hit W))),
    List.Forall₂ (fun (rr : Reranker W) out => rr query results = .ok out) rrs outs →
    collect query results rrs = .panic ∨ ∃ scores, collect query results rrs = .ok scores ∧
      List.Forall₂ (fun (s : List ℚ) (out : List (Hit W)) => s.length = out.length) scores outs
  | _, _, .nil => Or.inr ⟨[], rfl, .nil⟩
  | _, _, .cons (a := rr) (b := out) (l₁ := rrs) (l₂ := outs) h hs => by
    simp only [collect, h]
    cases hsc : scatter results out (List.replicate out.length 0) with
    | none => left; rfl
    | some s =>
      rcases collect_lengths query results rrs outs hs with hp | ⟨scores, hc, hf⟩
      · left; simp only [hp]
      · right
        refine ⟨s :: scores, by simp only [hc], .cons ?_ hf⟩
        rw [scatter_length results out _ s hsc, List.length_replicate]

theorem weigh_none (i : Nat) : ∀ (scores : List (List ℚ)) (outs : List (List (Hit W))) (weights : List ℚ),
    List.Forall₂ (fun (s : List ℚ) (out : List (Hit W)) => s.length = out.length) scores outs → outs.length ≤ weights.length →
    (∃ out ∈ outs, out.length ≤ i) → weigh i scores weights = none
  | _, _, weights, .nil, _, ⟨_, h, _⟩ => by simp at h
  | _, _, [], .cons _ _, hl, _ => by simp at hl
  | _, _, w :: ws, .cons (a := s) (b := out) (l₁ := ss) (l₂ := outs) h hs, hl, ⟨o, ho, hoi⟩ => by
    simp only [weigh]
    rcases List.mem_cons.1 ho with rfl | ho
    · rw [List.getElem?_eq_none (by omega)]
    · rw [weigh_none i ss outs ws hs (by simpa using hl) ⟨o, ho, hoi⟩]
      cases s[i]? <;> rfl

theorem combineAll_none (weights : List ℚ) (scores : List (List ℚ)) : ∀ (rs : List (Hit W)) (k i : Nat), i < rs.length →
    weigh (k + i) scores weights = none → combineAll scores weights k rs = none
  | [], k, i, h, _ => by simp at h
  | r :: rs, k, 0, _, h => by simp only [combineAll]; rw [Nat.add_zero] at h; rw [h]
  | r :: rs, k, i + 1, hi, h => by
    have := combineAll_none weights scores rs (k + 1) i (by simpa using hi) (by rw [← h]; congr 1; omega)
    simp only [combineAll, this]
    cases weigh k scores weights <;> rfl

/-- **C73, violated.** A hybrid reranker panics whenever one of its rerankers, weighted like all of them, returns fewer results
than it was given, as a custom reranker that drops poor results does. -/
theorem C73_hybrid_panic_violated (sort : List (Hit W) → List (Hit W)) (rerankers : List (Reranker W)) (weights : List ℚ)
    (query : String) (results : List (Hit W)) (outs : List (List (Hit W)))
    (hw : List.Forall₂ (fun (rr : Reranker W) out => rr query results = .ok out) rerankers outs)
    (hlen : rerankers.length ≤ weights.length) (hshort : ∃ out ∈ outs, out.length < results.length) :
    hybrid sort rerankers weights query results = .panic := by
  have hne : rerankers.length ≠ 0 := by
    obtain ⟨o, ho, _⟩ := hshort
    have := hw.length_eq
    have := List.length_pos_of_mem ho
    omega
  unfold hybrid
  rw [if_neg hne]
  rcases collect_lengths query results rerankers outs hw with hp | ⟨scores, hc, hf⟩
  · simp only [hp]
  · simp only [hc]
    obtain ⟨o, ho, hol⟩ := hshort
    have : combineAll scores weights 0 results = none := by
      apply combineAll_none weights scores results 0 (results.length - 1) (by omega)
      apply weigh_none (0 + (results.length - 1)) scores outs weights hf (by rw [← hw.length_eq]; exact hlen)
      exact ⟨o, ho, by omega⟩
    simp only [this]

/-! ## Search with a reranker -/

/-- **C126 (partial).** A search with a reranker searches for five times as many results as asked for (at least 50), and returns
results of the reranker for these, in the reranker's order, all at or above the threshold, at most as many as asked for,
leaving out only for these two reasons. -/
theorem C126_reranked_partial (c : Cfg W) (via : Serve W) (s : St W HI VI) (query : List W) (text : String) (rr : Reranker W)
    (o : RerankOpts) (out : List (Hit W)) (h : searchWithReranker c via s query text (some rr) o = .ok out) :
    ∃ (k : Int) (found : List (Hit W)), 50 ≤ k ∧ o.topK * 5 ≤ k ∧ search c via s query { topK := k } = .ok found ∧
      ((found = [] ∧ out = []) ∨ ∃ all, rr text found = .ok all ∧ out.Sublist all ∧
        (0 < o.threshold → ∀ x ∈ out, o.threshold ≤ x.score) ∧
        (0 < o.topK → (out.length : Int) ≤ o.topK) ∧
        (∀ x ∈ all, x ∈ out ∨ (0 < o.threshold ∧ x.score < o.threshold) ∨ (0 < o.topK ∧ (out.length : Int) = o.topK))) := by
  unfold searchWithReranker at h
  by_cases hc : s.closed
  · simp [hc] at h
  · rw [if_neg hc] at h
    simp only at h
    generalize hk : (if o.topK * 5 < 50 then 50 else o.topK * 5) = k at h
    have hk1 : 50 ≤ k := by rw [← hk]; split <;> omega
    have hk2 : o.topK * 5 ≤ k := by rw [← hk]; split <;> omega
    cases hs : search c via s query { topK := k } with
    | error e => rw [hs] at h; cases h
    | ok found =>
      rw [hs] at h
      refine ⟨k, found, hk1, hk2, hs, ?_⟩
      simp only at h
      by_cases h0 : found.length = 0
      · rw [if_pos h0] at h
        injection h with h
        left
        exact ⟨List.length_eq_zero_iff.1 h0, by rw [← h]; exact List.length_eq_zero_iff.1 h0⟩
      · rw [if_neg h0] at h
        right
        cases hrr : rr text found with
        | failed => rw [hrr] at h; cases h
        | panic => rw [hrr] at h; cases h
        | ok all =>
          rw [hrr] at h
          simp only [Except.ok.injEq] at h
          refine ⟨all, rfl, ?_⟩
          generalize hkept : (if o.threshold > 0 then all.filter (fun h => decide (h.score ≥ o.threshold)) else all) = kept at h
          have hsub : kept.Sublist all := by
            rw [← hkept]; split
            · exact List.filter_sublist
            · exact List.Sublist.refl _
          have hthr : 0 < o.threshold → ∀ x ∈ kept, o.threshold ≤ x.score := by
            intro ht x hx
            rw [← hkept, if_pos ht, List.mem_filter] at hx
            simpa using hx.2
          have hall : ∀ x ∈ all, x ∈ kept ∨ (0 < o.threshold ∧ x.score < o.threshold) := by
            intro x hx
            rw [← hkept]
            split
            · rename_i ht
              rcases lt_or_ge x.score o.threshold with hlt | hge
              · exact Or.inr ⟨ht, hlt⟩
              · exact Or.inl (List.mem_filter.2 ⟨hx, by simpa using hge⟩)
            · exact Or.inl hx
          split at h
          · rename_i hcut
            have hlen : ((kept.take o.topK.toNat).length : Int) = o.topK := by
              rw [List.length_take]; omega
            subst h
            refine ⟨(List.take_sublist _ _).trans hsub, fun ht x hx => hthr ht x (List.mem_of_mem_take hx), fun _ => hlen.le, ?_⟩
            intro x _
            exact Or.inr (Or.inr ⟨hcut.1, hlen⟩)
          · rename_i hcut
            subst h
            refine ⟨hsub, hthr, fun hk => by omega, ?_⟩
            intro x hx
            rcases hall x hx with h1 | h1
            · exact Or.inl h1
            · exact Or.inr (Or.inl h1)

/-- **C126.** Without a reranker it is a plain search … -/
theorem C126_none_partial (c : Cfg W) (via : Serve W) (s : St W HI VI) (query : List W) (text : String) (o : RerankOpts)
    (out : List (Hit W)) : searchWithReranker c via s query text none o = .ok out ↔
      search c via s query { topK := o.topK } = .ok out := by
  unfold searchWithReranker
  by_cases hc : s.closed
  · simp [hc, search, prepareQuery]
  · rw [if_neg hc]
    simp only
    cases search c via s query { topK := o.topK } <;> simp

/-- **C126, violated.** … so the threshold has no effect then. -/
theorem C126_threshold_ignored_violated (c : Cfg W) (via : Serve W) (s : St W HI VI) (query : List W) (text : String) (k : Int)
    (t t' : ℚ) (p p' : Bool) : searchWithReranker c via s query text none ⟨k, t, p⟩ = searchWithReranker c via s query text none ⟨k, t', p'⟩ :=
  rfl

/-- **C126, violated.** The option to keep the original score has no effect. -/
theorem C126_preserve_ignored_violated (c : Cfg W) (via : Serve W) (s : St W HI VI) (query : List W) (text : String)
    (rr : Option (Reranker W)) (k : Int) (t : ℚ) (p p' : Bool) :
    searchWithReranker c via s query text rr ⟨k, t, p⟩ = searchWithReranker c via s query text rr ⟨k, t, p'⟩ := rfl

/-! ## Examples -/

def txt0 : Txt := { lower := id, fields := fun s => [s], contains := fun c w => c = w }

def hits0 : List (Hit Nat) := [⟨"a", "", [1], "x", "", none, 3⟩, ⟨"b", "", [2], "y", "", none, 2⟩, ⟨"c", "", [3], "y", "", none, 1⟩]

/-- Two results contain the word, and pass the one that was better. -/
example : keyword txt0 (insertSort fun h => h.score) 2 true "y" hits0 = .ok [⟨"b", "", [2], "y", "", none, 6⟩,
    ⟨"a", "", [1], "x", "", none, 3⟩, ⟨"c", "", [3], "y", "", none, 3⟩] := by decide +kernel

example : Works "y" hits0 [keyword txt0 cfg0.sort 2 true, custom cfg0.sort (some fun _ h => h.score)]
    [cfg0.sort (hits0.map fun r => { r with score := boosted txt0 true 2 "y" r }), cfg0.sort hits0] := by
  refine .cons (keyword_eq _ _ _ _ _ _) (rearranges_of_perm _ (cfg0_sorts _).1) (.cons ?_ ?_ .nil)
  · simp [custom]
  · exact rearranges_of_perm (fun r => r.score) (by simpa using (cfg0_sorts hits0).1)

example : (hits0.map fun h => h.id).Nodup := by decide

example : ∃ out, searchWithReranker cfg0 .linear store1 [1, 1] "y" (some (keyword txt0 cfg0.sort 2 true)) { topK := 2 } = .ok out := ⟨_, rfl⟩

end Verif.Rerank
