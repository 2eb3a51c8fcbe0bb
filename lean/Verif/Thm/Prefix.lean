import Verif.Thm.Repeat
import Verif.Thm.Chat
import Verif.Thm.Diversity
import Verif.Thm.Rerank

/-!
C248: asking for more results keeps the ones already given: the answer for a smaller limit is the beginning of the answer for a larger one.
-/
namespace Verif.Repeat
open Verif.Base Verif.Spec

variable {α S : Type*} [LinearOrder S]

/-- Of a pool without equal scores, the best `k` begin the best `k'`. -/
theorem topK_prefix {score : α → S} {p p' out out' : List α} {k k' : Nat} (h : IsTopK score p k out) (h' : IsTopK score p' k' out')
    (hp : p.Perm p') (hk : k ≤ k') (inj : ∀ a ∈ p, ∀ b ∈ p, score a = score b → a = b) : out <+: out' := by
  have h2 : IsTopK score p' k (out'.take k) := by
    obtain ⟨rest, r1, r2⟩ := h'.best
    refine ⟨h'.ordered.sublist (List.take_sublist _ _), ⟨out'.drop k ++ rest, ?_, ?_⟩, ?_⟩
    · rw [← List.append_assoc, List.take_append_drop]; exact r1
    · intro r hr o ho
      rcases List.mem_append.1 hr with hr | hr
      · have := h'.ordered
        rw [← List.take_append_drop k out'] at this
        exact (List.pairwise_append.1 this).2.2 o ho r hr
      · exact r2 r hr o (List.mem_of_mem_take ho)
    · rw [List.length_take, h'.size, ← min_assoc, min_eq_left hk]
  rw [topK_unique h h2 hp inj]
  exact List.take_prefix _ _

theorem take_mono (l : List α) {k k' : Nat} (h : k ≤ k') : l.take k <+: l.take k' := by
  have : l.take k = (l.take k').take k := by rw [List.take_take, min_eq_left h]
  rw [this]
  exact List.take_prefix _ _

/-- `if len(l) > k { l = l[:k] }`. -/
theorem cut_eq (l : List α) (k : Int) (hk : 0 < k) : (if (l.length : Int) > k then l.take k.toNat else l) = l.take k.toNat := by
  split_ifs with h
  · rfl
  · rw [List.take_of_length_le (by omega)]

end Verif.Repeat

namespace Verif.Flat
open Verif.Base Verif.Spec

variable {V : Type}

/-- C248, exact index: when no two stored vectors are at the same distance from the query. Missing: equal distances (below). -/
theorem C248_flat_partial (E : Env V) (d : Nat) (ops : List (Op V)) (o o' : List (String × V) → List (String × V)) (ho : ∀ l, (o l).Perm l)
    (ho' : ∀ l, (o' l).Perm l) (q : V) (k k' : Nat) (hk : 0 < k) (hkk : k ≤ k')
    (hd : ∀ x y v w, after E.dim d ops x = some v → after E.dim d ops y = some w →
      E.dist (E.nrm q) (E.nrm v) = E.dist (E.nrm q) (E.nrm w) → x = y) :
    ∃ out out', search E (run E (new V d) ops) o q k = some out ∧ search E (run E (new V d) ops) o' q k' = some out' ∧ out <+: out' := by
  obtain ⟨out, a1, a2, a3⟩ := C35_search_exact_partial E d ops o ho q k hk
  obtain ⟨out', b1, b2, b3⟩ := C35_search_exact_partial E d ops o' ho' q k' (by omega)
  refine ⟨out, out', a1, b1, ?_⟩
  by_cases hq : E.dim q = d
  · obtain ⟨p, p1, p2⟩ := a3 hq
    obtain ⟨p', p1', p2'⟩ := b3 hq
    refine Verif.Repeat.topK_prefix p2 p2' (Verif.Repeat.perm_of_ids p1.1 p1'.1 (fun x => by rw [p1.2, p1'.2])) hkk ?_
    intro a ha b hb hab
    obtain ⟨v, v1, v2⟩ := (p1.2 a).1 ha
    obtain ⟨w, w1, w2⟩ := (p1.2 b).1 hb
    have : a.2 = b.2 := neg_inj.1 hab
    exact Prod.ext (hd _ _ _ _ v1 w1 (by rw [← v2, ← w2, this])) this
  · rw [a2 hq]
    exact List.nil_prefix

/-- C248 violated: even when the map is visited in the same order both times, of two equally near vectors one is returned alone and the
other comes first when two are asked for. -/
theorem C248_flat_violated : ∃ out out', search lineEnv (run lineEnv (new Nat 1) [.insert "a" 1, .insert "b" 5]) id 3 1 = some out ∧
    search lineEnv (run lineEnv (new Nat 1) [.insert "a" 1, .insert "b" 5]) id 3 2 = some out' ∧ ¬ out <+: out' :=
  ⟨_, _, rfl, rfl, by decide +kernel⟩

end Verif.Flat

namespace Verif.Lsh
open Verif.Base Verif.Spec

/-- C248, hashing index: outright, the sort being the same both times. -/
theorem C248_lsh (E : Env) (ix : Index) (q : Vec) (k k' : Nat) (hk : k ≤ k') (out out' : List Hit) (h : search E ix q k = some out)
    (h' : search E ix q k' = some out') : out <+: out' := by
  unfold search at h h'
  split at h
  · cases h
  · rename_i hq
    rw [if_neg hq] at h'
    obtain rfl := Option.some.inj h
    obtain rfl := Option.some.inj h'
    exact Verif.Repeat.take_mono _ hk

end Verif.Lsh

namespace Verif.Graph
open Verif.Base Verif.Spec

/-- C248, hybrid search over the graph, when no vector index is in use. -/
theorem C248_graph_partial (sim : List ℚ → List ℚ → ℚ) (sort : List HResult → List HResult) (s : State) (q : HQuery) (k k' : Int) (hk : 0 < k)
    (hkk : k ≤ k') (out out' : List HResult) (h : hybridSearch sim sort s none { q with topK := k } = some out)
    (h' : hybridSearch sim sort s none { q with topK := k' } = some out') : out <+: out' := by
  unfold hybridSearch at h h'
  simp only at h h'
  split at h
  · cases h
  · rename_i dist hd
    rw [hd] at h'
    simp only [Option.some.injEq] at h h'
    rw [if_pos hk] at h
    rw [if_pos (by omega)] at h'
    rw [← h, ← h']
    exact Verif.Repeat.take_mono _ (Int.toNat_le_toNat hkk)

example : (hybridSearch (fun _ _ => 1 / 2) (insertSort HResult.combined) pair none { query 0 with topK := 1 }).map List.length = some 1 ∧
    (hybridSearch (fun _ _ => 1 / 2) (insertSort HResult.combined) pair none { query 0 with topK := 2 }).map List.length = some 2 := by
  decide +kernel

end Verif.Graph

namespace Verif.Router
open Verif.Base Verif.Spec

/-- C248, strongest terms of a sparse vector. -/
theorem C248_terms {T : Type} (sort : List (T × ℚ) → List (T × ℚ)) (vec : List (T × ℚ)) (k k' : Int) (hk : 0 < k) (hkk : k ≤ k') :
    topTerms sort vec k <+: topTerms sort vec k' := by
  unfold topTerms
  split
  · exact List.nil_prefix
  · simp only
    by_cases h : k < (sort vec).length
    · rw [if_pos ⟨hk, h⟩]
      split
      · exact Verif.Repeat.take_mono _ (Int.toNat_le_toNat hkk)
      · exact List.take_prefix _ _
    · rw [if_neg (fun hh => h hh.2), if_neg (fun hh => h (lt_of_le_of_lt hkk hh.2))]

end Verif.Router

namespace Verif.Chat
open Verif.Base

variable {S : Type*} [LinearOrder S]

/-- C248, messages of a session by meaning. -/
theorem C248_chat (c : Cfg S) (s : State) (q : List Int) (session : String) (k k' : Int) (hkk : k ≤ k') (out out' : List Message)
    (h : searchChatHistory c s q session k = .ok out) (h' : searchChatHistory c s q session k' = .ok out') : out <+: out' := by
  unfold searchChatHistory at h h'
  split at h
  · cases h
  · rename_i hc
    rw [if_neg hc] at h'
    simp only at h h'
    split at h
    · cases h
    · rw [if_neg (by omega)] at h'
      simp only [Out.ok.injEq] at h h'
      rw [← h, ← h']
      exact (Verif.Repeat.take_mono _ (Int.toNat_le_toNat hkk)).map _

/-- C248, messages of a user by keyword. -/
theorem C248_keyword (c : Cfg S) (s : State) (user query exclude : String) (k k' : Int) (hk : 0 < k) (hkk : k ≤ k') (out out' : List Message)
    (h : keywordSearchMessages c s user query exclude k = .ok out) (h' : keywordSearchMessages c s user query exclude k' = .ok out') :
    out <+: out' := by
  unfold keywordSearchMessages at h h'
  split at h
  · simp only [Out.ok.injEq] at h
    rw [← h]
    exact List.nil_prefix
  · rename_i hc
    rw [if_neg hc] at h'
    split at h
    · cases h
    · rename_i hd
      rw [if_neg hd] at h'
      simp only [Out.ok.injEq] at h h'
      rw [← h, ← h']
      refine Verif.Repeat.take_mono _ ?_
      unfold defLimit
      rw [if_neg (by omega), if_neg (by omega)]
      exact Int.toNat_le_toNat hkk

/-- C248, messages of a user by meaning. -/
theorem C248_user (c : Cfg S) (s : State) (user : String) (q : List Int) (exclude : String) (k k' : Int) (hk : 0 < k) (hkk : k ≤ k')
    (out out' : List Message) (h : searchMessagesByUser c s user q exclude k = .ok out)
    (h' : searchMessagesByUser c s user q exclude k' = .ok out') : out <+: out' := by
  unfold searchMessagesByUser at h h'
  split at h
  · simp only [Out.ok.injEq] at h
    rw [← h]
    exact List.nil_prefix
  · rename_i hc
    rw [if_neg hc] at h'
    split at h
    · cases h
    · rename_i hd
      rw [if_neg hd] at h'
      simp only [Out.ok.injEq] at h h'
      rw [← h, ← h']
      refine (Verif.Repeat.take_mono _ ?_).map _
      unfold defLimit
      rw [if_neg (by omega), if_neg (by omega)]
      exact Int.toNat_le_toNat hkk

/-- C248, history of a session: a larger limit adds older messages before the ones already given. -/
theorem C248_history (c : Cfg S) (s : State) (session : String) (k k' : Int) (hk : 0 ≤ k) (hkk : k ≤ k') (out out' : List Message)
    (h : getSessionHistory c s session k = .ok out) (h' : getSessionHistory c s session k' = .ok out') : out <:+ out' := by
  unfold getSessionHistory at h h'
  split at h
  · cases h
  · rename_i hc
    rw [if_neg hc] at h'
    simp only [Out.ok.injEq] at h h'
    rw [← h, ← h', List.reverse_suffix]
    unfold sqlLimit
    rw [if_neg (by omega), if_neg (by omega)]
    exact Verif.Repeat.take_mono _ (Int.toNat_le_toNat hkk)

end Verif.Chat

namespace Verif.Thm.Search
open Verif.Model.Store Verif.Model.Search Verif.Base Verif.Spec

variable {W HI VI : Type}

/-- C248, vector search that scans the table. -/
theorem C248_linear_partial (c : Cfg W) (s : St W HI VI) (query : List W) (o : Opts) (k k' : Int) (hk : 0 < k) (hkk : k ≤ k')
    (out out' : List (Hit W)) (h : search c .linear s query { o with topK := k } = .ok out)
    (h' : search c .linear s query { o with topK := k' } = .ok out') : out <+: out' := by
  unfold search at h h'
  cases hq : prepareQuery c s query with
  | error e => rw [hq] at h; cases h
  | ok q =>
    rw [hq] at h h'
    simp only [Except.ok.injEq] at h h'
    unfold serve searchLinear scoreCandidates at h h'
    simp only at h h'
    have e1 : defaultK k = k := by unfold defaultK; rw [if_neg (by omega)]
    have e2 : defaultK k' = k' := by unfold defaultK; rw [if_neg (by omega)]
    rw [e1, Verif.Repeat.cut_eq _ _ hk] at h
    rw [e2, Verif.Repeat.cut_eq _ _ (by omega)] at h'
    rw [← h, ← h']
    exact Verif.Repeat.take_mono _ (Int.toNat_le_toNat hkk)

/-- C248, search with access control. -/
theorem C248_acl (c : Cfg W) (s : St W HI VI) (query : List W) (principals : List String) (o : Opts) (k k' : Int) (hk : 0 < k) (hkk : k ≤ k')
    (out out' : List (Hit W)) (h : searchWithACL c s query principals { o with topK := k } = .ok out)
    (h' : searchWithACL c s query principals { o with topK := k' } = .ok out') : out <+: out' := by
  unfold searchWithACL at h h'
  split at h
  · cases h
  · rename_i hc
    rw [if_neg hc] at h'
    simp only [Except.ok.injEq] at h h'
    unfold scoreAndSort at h h'
    simp only [hk, true_and, show k' > 0 by omega, show k > 0 from hk] at h h'
    rw [Verif.Repeat.cut_eq _ _ hk] at h
    rw [Verif.Repeat.cut_eq _ _ (by omega)] at h'
    rw [← h, ← h']
    exact Verif.Repeat.take_mono _ (Int.toNat_le_toNat hkk)

/-- C248 violated: the fused search looks for as many records by meaning as are asked for, so with a larger limit a record that is
second in both rankings overtakes the one that was the only answer before. -/
theorem C248_hybrid_violated : ∃ out out', hybridSearch cfg0 .linear store1 [1, 1] ["a", "b"] { topK := 1 } 0 = .ok out ∧
    hybridSearch cfg0 .linear store1 [1, 1] ["a", "b"] { topK := 2 } 0 = .ok out' ∧ out.length = 1 ∧ ¬ out <+: out' ∧
    out'.head?.map (fun x => x.id) = some "b" ∧ "b" ∉ out.map (fun x => x.id) :=
  ⟨_, _, rfl, rfl, by decide +kernel, by decide +kernel, by decide +kernel, by decide +kernel⟩

-- both limits find something
example : (search cfg0 .linear store1 [1, 1] { topK := 1 }).toOption.map List.length = some 1 ∧
    (search cfg0 .linear store1 [1, 1] { topK := 3 }).toOption.map List.length = some 3 := by decide +kernel

end Verif.Thm.Search

namespace Verif.Diversity
open Verif.Model.Store Verif.Model.Search Verif.Base Verif.Rerank

variable {W HI VI : Type}

theorem mmr_ext (sim : List W → List W → ℚ) (lambda : ℚ) (k : Int) : ∀ (fuel : Nat) (sel rem : List (Hit W)),
    sel <+: mmrFill sim lambda k fuel sel rem
  | 0, sel, rem => List.prefix_refl _
  | fuel + 1, sel, rem => by
    rw [mmrFill]
    split
    · split
      · exact List.prefix_refl _
      · split
        · exact List.prefix_refl _
        · exact (List.prefix_append _ _).trans (mmr_ext sim lambda k fuel _ _)
    · exact List.prefix_refl _

theorem mmr_mono (sim : List W → List W → ℚ) (lambda : ℚ) (k k' : Int) (hkk : k ≤ k') : ∀ (fuel : Nat) (sel rem : List (Hit W)),
    mmrFill sim lambda k fuel sel rem <+: mmrFill sim lambda k' fuel sel rem
  | 0, sel, rem => List.prefix_refl _
  | fuel + 1, sel, rem => by
    by_cases h : (sel.length : Int) < k ∧ rem.length > 0
    · rw [mmrFill, mmrFill, if_pos h, if_pos ⟨by omega, h.2⟩]
      split
      · exact List.prefix_refl _
      · split
        · exact List.prefix_refl _
        · exact mmr_mono sim lambda k k' hkk fuel _ _
    · rw [mmrFill, if_neg h]
      exact mmr_ext sim lambda k' (fuel + 1) sel rem

theorem distance_ext (sim : List W → List W → ℚ) (md : ℚ) (k : Int) : ∀ (cs sel : List (Hit W)), sel <+: distanceFill sim md k cs sel
  | [], sel => List.prefix_refl _
  | c :: cs, sel => by
    rw [distanceFill]
    split
    · exact distance_ext sim md k cs sel
    · split
      · exact List.prefix_append _ _
      · exact (List.prefix_append _ _).trans (distance_ext sim md k cs _)

theorem distance_mono (sim : List W → List W → ℚ) (md : ℚ) (k k' : Int) (hkk : k ≤ k') : ∀ (cs sel : List (Hit W)),
    distanceFill sim md k cs sel <+: distanceFill sim md k' cs sel
  | [], sel => List.prefix_refl _
  | c :: cs, sel => by
    rw [distanceFill, distanceFill]
    split
    · exact distance_mono sim md k k' hkk cs sel
    · split
      · split
        · exact List.prefix_refl _
        · exact distance_ext sim md k' cs _
      · rename_i h
        rw [if_neg (by omega)]
        exact distance_mono sim md k k' hkk cs _

/-- C248, diversified search by marginal relevance or by distance: when the search finds no more for the larger limit (it looks for three
times the limit), asking for more keeps what was given. -/
theorem C248_diverse_partial (c : Cfg W) (via : Serve W) (root : ℚ → ℚ) (perm : Nat → List Nat) (s : St W HI VI) (query : List W) (o : DivOpts)
    (hm : o.method = .mmr ∨ o.method = .distance) (k k' : Int) (hkk : k ≤ k')
    (hs : search c via s query { o.base with topK := k * 3 } = search c via s query { o.base with topK := k' * 3 })
    (out out' : List (Hit W)) (h : searchWithDiversity c via root perm s query { o with base := { o.base with topK := k } } = .ok out)
    (h' : searchWithDiversity c via root perm s query { o with base := { o.base with topK := k' } } = .ok out') : out <+: out' := by
  unfold searchWithDiversity at h h'
  simp only at h h'
  rw [← hs] at h'
  split at h
  · cases h
  · rename_i hc
    rw [if_neg hc] at h'
    cases hq : search c via s query { o.base with topK := k * 3 } with
    | error e => rw [hq] at h; cases h
    | ok cands =>
      rw [hq] at h h'
      rcases hm with hm | hm
      · rw [hm] at h h'
        simp only [Except.ok.injEq] at h h'
        rw [← h, ← h']
        cases cands with
        | nil => exact List.prefix_refl _
        | cons a l => exact mmr_mono _ _ _ _ hkk _ _ _
      · rw [hm] at h h'
        simp only [Except.ok.injEq] at h h'
        rw [← h, ← h']
        exact distance_mono _ _ _ _ hkk _ _

-- three records: the search finds the same for the limits 1 and 2
example : search Verif.Thm.Search.cfg0 .linear Verif.Thm.Search.store1 [1, 1] { topK := 1 * 3 } =
    search Verif.Thm.Search.cfg0 .linear Verif.Thm.Search.store1 [1, 1] { topK := 2 * 3 } ∧
    (searchWithDiversity Verif.Thm.Search.cfg0 .linear id (fun _ => []) Verif.Thm.Search.store1 [1, 1] { base := { topK := 2 } }).toOption.map
      List.length = some 2 := ⟨rfl, by decide +kernel⟩

end Verif.Diversity

namespace Verif.Rerank
open Verif.Model.Store Verif.Model.Search Verif.Base

variable {W HI VI : Type}

/-- C248, search with a reranker: up to ten results the reranker sees the same fifty candidates, so asking for more keeps what was given. -/
theorem C248_rerank_partial (c : Cfg W) (via : Serve W) (s : St W HI VI) (query : List W) (text : String) (rr : Reranker W) (o : RerankOpts)
    (k k' : Int) (hk : 0 < k) (hkk : k ≤ k') (h10 : k' ≤ 10) (out out' : List (Hit W))
    (h : searchWithReranker c via s query text (some rr) { o with topK := k } = .ok out)
    (h' : searchWithReranker c via s query text (some rr) { o with topK := k' } = .ok out') : out <+: out' := by
  unfold searchWithReranker at h h'
  simp only at h h'
  have e1 : (if k * 5 < 50 then 50 else k * 5) = 50 := by split_ifs <;> omega
  have e2 : (if k' * 5 < 50 then 50 else k' * 5) = 50 := by split_ifs <;> omega
  rw [e1] at h
  rw [e2] at h'
  split at h
  · cases h
  · rename_i hc
    rw [if_neg hc] at h'
    cases hq : search c via s query { topK := 50 } with
    | error e => rw [hq] at h; cases h
    | ok hs =>
      rw [hq] at h h'
      simp only at h h'
      split at h
      · rename_i h0
        rw [if_pos h0] at h'
        simp only [Except.ok.injEq] at h h'
        rw [← h, ← h']
      · rename_i h0
        rw [if_neg h0] at h'
        cases hr : rr text hs with
        | failed => rw [hr] at h; cases h
        | panic => rw [hr] at h; cases h
        | ok l =>
          rw [hr] at h h'
          simp only [Except.ok.injEq, show k > 0 from hk, show k' > 0 by omega, true_and] at h h'
          rw [Verif.Repeat.cut_eq _ _ hk] at h
          rw [Verif.Repeat.cut_eq _ _ (by omega)] at h'
          rw [← h, ← h']
          exact Verif.Repeat.take_mono _ (Int.toNat_le_toNat hkk)

-- the rearranged answer is cut to the limit
example : (searchWithReranker Verif.Thm.Search.cfg0 .linear Verif.Thm.Search.store1 [1, 1] "" (some (fun _ l => .ok l.reverse))
    { topK := 2 }).toOption.map (List.map (fun x => x.id)) = some ["a", "b"] := by decide +kernel

end Verif.Rerank
