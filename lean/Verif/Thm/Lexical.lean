import Verif.Model.Lexical
import Verif.Model.Memory
import Mathlib.Tactic.Ring

/-!
C70: lexical search ranks better matches higher. True of the fused path, false of the two places that turn the `bm25`
value itself into a score, and of requests without `TopK` to the tool search.
-/
namespace Verif.Lexical
open Verif.Base Verif.Spec

theorem rrf_lt {i j : Nat} (h : i < j) : rrf j < rrf i := by
  unfold rrf
  have h1 : (i : ℚ) < j := by exact_mod_cast h
  have h0 : (0 : ℚ) ≤ i := by positivity
  apply one_div_lt_one_div_of_lt <;> linarith

/-- C70, proved part: text-only search returns the hits in the order of the full-text rank, best first, each with a
strictly lower score than the one before, at most `TopK` (10 if not positive). -/
theorem C70_text_only_partial {I : Type*} (ranked : List I) (topK : Int) :
    (textOnly ranked topK).map (·.1) = ranked.take (if topK ≤ 0 then 10 else topK.toNat) ∧
    (textOnly ranked topK).Pairwise (fun a b => b.2 < a.2) := by
  unfold textOnly
  generalize (if topK ≤ 0 then 10 else topK.toNat) = k
  constructor
  · simp only [List.map_take, List.map_map]
    have : ((fun x : I × ℚ => x.1) ∘ fun p : I × Nat => (p.1, rrf p.2)) = Prod.fst := rfl
    rw [this, List.zipIdx_map_fst, List.take_take]
    congr 1; omega
  · apply List.Pairwise.sublist (List.take_sublist _ _)
    rw [List.pairwise_map]
    generalize ranked.take (3 * k) = l
    generalize 0 = n
    induction l generalizing n with
    | nil => simp
    | cons a l ih =>
      rw [List.zipIdx_cons, List.pairwise_cons]
      refine ⟨fun p hp => ?_, ih _⟩
      have := List.mem_zipIdx hp
      exact rrf_lt (by omega)

/-- C70 is violated by the direct full-text search: for any two matches, the better one (more negative `bm25`) gets the
lower score. -/
theorem C70_fts_violated (better worse : ℚ) (h1 : better < worse) (h2 : worse ≤ 0) :
    ftsScore better < ftsScore worse := by
  unfold ftsScore
  apply one_div_lt_one_div_of_lt <;> linarith

/-- With a threshold the direct search drops the best match and keeps the worse one. -/
theorem C70_fts_threshold_violated : ftsSearch [('a', -9), ('b', -1)] (1/4) 10 = [('b', 1/2)] := by decide +kernel

/-- C70 is violated by the lexical memory search in the same way. -/
theorem C70_memory_violated (better worse : ℚ) (h1 : better < worse) (h2 : worse ≤ 0) (idx : Nat) :
    Memory.lexScore better idx < Memory.lexScore worse idx := by
  unfold Memory.lexScore
  have hw : 0 < Memory.weight idx := by
    unfold Memory.weight; split
    · norm_num
    · rename_i h; linarith
  apply mul_lt_mul_of_pos_right _ hw
  rw [abs_of_nonpos h2, abs_of_nonpos (by linarith)]
  apply one_div_lt_one_div_of_lt <;> linarith

/-- C70 is violated by the tool search without `TopK`: there are matches, the answer is empty. -/
theorem C70_no_topk_violated : candidates (fun l => l) 0 [some (textOnly ['a', 'b'] 0)] = .ok [] := by decide +kernel

/-- A negative `TopK` makes it panic. -/
theorem C70_negative_topk_violated : candidates (fun l => l) (-1) [some (textOnly ['a'] (-1))] = .panic := by
  decide +kernel

/-! ### Merging of several queries -/

section Merge
variable {I : Type*} [DecidableEq I]

/-- `m` holds each id of the pool once with its best score. -/
structure Best (pool m : List (I × ℚ)) : Prop where
  once : (m.map (·.1)).Nodup
  ids : ∀ p ∈ pool, ∃ x ∈ m, x.1 = p.1 ∧ p.2 ≤ x.2
  real : ∀ x ∈ m, x ∈ pool

theorem best_merge {pool m : List (I × ℚ)} (h : Best pool m) (r : I × ℚ) : Best (pool ++ [r]) (merge m r) := by
  unfold merge
  by_cases ha : m.any (fun x => decide (x.1 = r.1)) = true
  · rw [if_pos ha]
    set f : I × ℚ → I × ℚ := fun x => if x.1 = r.1 ∧ r.2 > x.2 then r else x with hf
    have hf1 : ∀ x, (f x).1 = x.1 := by intro x; simp only [hf]; split <;> simp_all
    have hf2 : ∀ x, x.2 ≤ (f x).2 := by
      intro x; simp only [hf]; split
      · rename_i hx; exact le_of_lt hx.2
      · exact le_rfl
    refine ⟨?_, ?_, ?_⟩
    · have : (m.map f).map (·.1) = m.map (·.1) := by
        rw [List.map_map]; exact List.map_congr_left (fun x _ => hf1 x)
      rw [this]; exact h.once
    · intro p hp
      rcases List.mem_append.1 hp with hp | hp
      · obtain ⟨x, hx, h1, h2⟩ := h.ids p hp
        exact ⟨f x, List.mem_map_of_mem hx, (hf1 x).trans h1, le_trans h2 (hf2 x)⟩
      · simp only [List.mem_singleton] at hp
        obtain ⟨x, hx, hxe⟩ := List.any_eq_true.1 ha
        have hxe := of_decide_eq_true hxe
        refine ⟨f x, List.mem_map_of_mem hx, by rw [hf1, hxe, hp], ?_⟩
        rw [hp]
        simp only [hf]
        split
        · exact le_rfl
        · rename_i hn
          rw [not_and] at hn
          exact not_lt.1 (hn hxe)
    · intro x hx
      obtain ⟨y, hy, rfl⟩ := List.mem_map.1 hx
      simp only [hf]
      split
      · simp
      · exact List.mem_append_left _ (h.real y hy)
  · rw [if_neg ha]
    refine ⟨?_, ?_, ?_⟩
    · rw [List.map_append, List.nodup_append]
      refine ⟨h.once, by simp, ?_⟩
      intro a haa b hb
      obtain ⟨x, hx, rfl⟩ := List.mem_map.1 haa
      simp only [List.map_cons, List.map_nil, List.mem_singleton] at hb
      rw [hb]
      intro he
      exact ha (List.any_eq_true.2 ⟨x, hx, decide_eq_true he⟩)
    · intro p hp
      rcases List.mem_append.1 hp with hp | hp
      · obtain ⟨x, hx, h1⟩ := h.ids p hp
        exact ⟨x, List.mem_append_left _ hx, h1⟩
      · simp only [List.mem_singleton] at hp
        exact ⟨r, by simp, by rw [hp], by rw [hp]⟩
    · intro x hx
      rcases List.mem_append.1 hx with hx | hx
      · exact List.mem_append_left _ (h.real x hx)
      · exact List.mem_append_right _ hx

theorem best_fold (rs : List (I × ℚ)) : ∀ pool m : List (I × ℚ), Best pool m → Best (pool ++ rs) (rs.foldl merge m) := by
  induction rs with
  | nil => intro pool m h; simpa using h
  | cons r rs ih =>
    intro pool m h
    have := ih _ _ (best_merge h r)
    simpa [List.append_assoc] using this

/-- The weighted hits of the queries, from number `idx` on: 5% less per query, at least 80%. -/
def weighted : Nat → List (Option (List (I × ℚ))) → List (I × ℚ)
  | _, [] => []
  | idx, a :: as => ((a.getD []).map (fun r => (r.1, r.2 * max (1 - (idx : ℚ) / 20) (4 / 5)))) ++ weighted (idx + 1) as

theorem weight_eq (idx : Nat) : weight idx = max (1 - (idx : ℚ) / 20) (4 / 5) := by
  unfold weight
  have : (idx : ℚ) * (1 / 20) = idx / 20 := by ring
  rw [this]
  split
  · rename_i h; rw [max_eq_right (le_of_lt h)]
  · rename_i h; rw [max_eq_left (not_lt.1 h)]

theorem best_loop_tail (topK : Int) (as : List (Option (List (I × ℚ)))) : ∀ (idx : Nat) (pool m : List (I × ℚ)), 0 < idx →
    Best pool m → Best (pool ++ weighted idx as) (loop topK idx as m) := by
  induction as with
  | nil => intro idx pool m _ h; simpa [weighted, loop] using h
  | cons a as ih =>
    intro idx pool m hi h
    cases a with
    | none =>
      simp only [loop, weighted, Option.getD_none, List.map_nil, List.nil_append]
      exact ih _ _ _ (by omega) h
    | some rs =>
      simp only [loop, weighted, Option.getD_some]
      by_cases hr : rs = []
      · rw [if_pos hr, hr]
        simp only [List.map_nil, List.nil_append]
        exact ih _ _ _ (by omega) h
      · rw [if_neg hr, if_neg (by rintro ⟨h0, _⟩; omega), ← List.append_assoc, weight_eq]
        exact ih _ _ _ (by omega) (best_fold _ _ _ h)

/-- What is merged: all queries, or only the first one if it alone fills the answer. -/
theorem best_loop (topK : Int) (as : List (Option (List (I × ℚ)))) :
    Best (weighted 0 as) (loop topK 0 as []) ∨
    (Best (weighted 0 (as.take 1)) (loop topK 0 as []) ∧ ((loop topK 0 as []).length : Int) ≥ topK) := by
  have h0 : Best ([] : List (I × ℚ)) [] := ⟨by simp, by simp, by simp⟩
  cases as with
  | nil => left; simpa [weighted, loop] using h0
  | cons a as =>
    cases a with
    | none =>
      left
      simp only [loop, weighted, Option.getD_none, List.map_nil, List.nil_append]
      simpa using best_loop_tail topK as 1 [] [] (by omega) h0
    | some rs =>
      simp only [loop]
      by_cases hr : rs = []
      · left
        rw [if_pos hr, hr]
        simp only [weighted, Option.getD_some, List.map_nil, List.nil_append]
        simpa using best_loop_tail topK as 1 [] [] (by omega) h0
      · rw [if_neg hr]
        have hb := best_fold (rs.map (fun r => (r.1, r.2 * weight 0))) [] [] h0
        rw [List.nil_append] at hb
        by_cases hc : (True ∧ (((rs.map (fun r => (r.1, r.2 * weight 0))).foldl merge []).length : Int) ≥ topK)
        · right
          rw [if_pos hc]
          refine ⟨?_, hc.2⟩
          simp only [List.take_succ_cons, List.take_zero, weighted, Option.getD_some, List.append_nil]
          rw [← weight_eq]
          exact hb
        · left
          rw [if_neg hc]
          simp only [weighted, Option.getD_some]
          rw [← weight_eq]
          exact best_loop_tail topK as 1 _ _ (by omega) hb

end Merge

/-- C70, proved part: with a positive `TopK` the tool search returns, of the hits of all queries (or of the first query
when it alone has `TopK` hits), each id once with its best weighted score, the `TopK` best ones, in descending score and
ties by id. -/
theorem C70_candidates_partial {I : Type*} [LinearOrder I] (sort : List (I × ℚ) → List (I × ℚ))
    (hsort : ∀ l, SortedFrom (fun a b => b.2 < a.2 ∨ (a.2 = b.2 ∧ a.1 ≤ b.1)) l (sort l)) (topK : Int) (hk : 0 < topK)
    (answers : List (Option (List (I × ℚ)))) :
    ∃ out merged, candidates sort topK answers = .ok out ∧
      (Best (weighted 0 answers) merged ∨ (Best (weighted 0 (answers.take 1)) merged ∧ (merged.length : Int) ≥ topK)) ∧
      out.Pairwise (fun a b => b.2 < a.2 ∨ (a.2 = b.2 ∧ a.1 ≤ b.1)) ∧
      out.length = min topK.toNat merged.length ∧
      (∀ x ∈ out, x ∈ merged) ∧ ∀ x ∈ merged, x ∉ out → ∀ y ∈ out, x.2 ≤ y.2 := by
  have hb := best_loop topK answers
  unfold candidates
  generalize loop topK 0 answers [] = merged at hb
  by_cases hm : merged = []
  · refine ⟨[], merged, by simp [hm], hb, by simp, by simp [hm], by simp, by simp [hm]⟩
  · obtain ⟨hp, hs⟩ := hsort merged
    simp only [if_neg hm]
    have hcut : ((if ((sort merged).length : Int) > topK then
        (if topK < 0 then .panic else .ok ((sort merged).take topK.toNat)) else .ok (sort merged)) : Out I) =
        .ok ((sort merged).take topK.toNat) := by
      split
      · rw [if_neg (by omega)]
      · rw [List.take_of_length_le (by omega)]
    refine ⟨_, merged, hcut, hb, hs.sublist (List.take_sublist _ _), by rw [List.length_take, hp.length_eq], ?_, ?_⟩
    · intro x hx
      exact hp.mem_iff.1 (List.mem_of_mem_take hx)
    · intro x hx hn y hy
      have hxs : x ∈ sort merged := hp.mem_iff.2 hx
      rw [← List.take_append_drop topK.toNat (sort merged)] at hxs hs
      rcases List.mem_append.1 hxs with h | h
      · exact absurd h hn
      · rcases (List.pairwise_append.1 hs).2.2 y hy x h with h | h
        · exact le_of_lt h
        · exact le_of_eq h.1.symm

/-- Two queries, the second finds `c` and `a` again: hypotheses of `C70_candidates_partial` hold, and three ids come
back, `a` with its better score. -/
example : candidates (insertSort (·.2)) 5 [some (textOnly ['a', 'b'] 5), some (textOnly ['c', 'a'] 5)] =
    .ok [('a', 1/61), ('b', 1/62), ('c', 19/20 * (1/61))] := by decide +kernel

end Verif.Lexical
