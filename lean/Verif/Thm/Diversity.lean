import Verif.Model.Diversity
import Verif.Thm.Rerank
import Verif.Thm.Range
import Mathlib.Data.List.Perm.Subperm

/-!
# Diverse results (C74), negative examples (C127), recommendations (C128), anomalies (C129)
-/

namespace Verif.Diversity

open Verif.Model.Store Verif.Model.Search Verif.Base Verif.Spec Verif.Thm.Search Verif.Rerank

variable {W HI VI : Type}

/-! ## Maximal marginal relevance -/

/-- The score of a result against its greatest similarity to the chosen ones (0 if that is negative). -/
def marginal (sim : List W → List W → ℚ) (lambda : ℚ) (chosen : List (Hit W)) (h : Hit W) : ℚ :=
  lambda * h.score - (1 - lambda) * (chosen.map fun s => sim h.vector s.vector).foldr max 0

theorem firstBest_some {α : Type} (f : α → ℚ) : ∀ (l : List α) (i j0 : Nat) (v0 : ℚ), ∃ j v, firstBest f l i (some (j0, v0)) = some (j, v) ∧
    ((j = j0 ∧ v = v0 ∧ ∀ x ∈ l, f x ≤ v0) ∨ ∃ k x, j = i + k ∧ l[k]? = some x ∧ v = f x ∧ v0 < f x ∧ ∀ y ∈ l, f y ≤ f x)
  | [], i, j0, v0 => ⟨j0, v0, rfl, Or.inl ⟨rfl, rfl, by simp⟩⟩
  | x :: l, i, j0, v0 => by
    simp only [firstBest]
    by_cases h : f x > v0
    · rw [if_pos h]
      obtain ⟨j, v, h1, h2⟩ := firstBest_some f l (i + 1) i (f x)
      refine ⟨j, v, h1, Or.inr ?_⟩
      rcases h2 with ⟨e1, e2, h3⟩ | ⟨k, y, e1, e2, e3, h3, h4⟩
      · refine ⟨0, x, by omega, rfl, e2, h, ?_⟩
        intro y hy
        rcases List.mem_cons.1 hy with rfl | hy
        · exact le_rfl
        · exact h3 y hy
      · refine ⟨k + 1, y, by omega, by simpa using e2, e3, h.trans h3, ?_⟩
        intro z hz
        rcases List.mem_cons.1 hz with rfl | hz
        · exact h3.le
        · exact h4 z hz
    · rw [if_neg h]
      obtain ⟨j, v, h1, h2⟩ := firstBest_some f l (i + 1) j0 v0
      refine ⟨j, v, h1, ?_⟩
      rcases h2 with ⟨e1, e2, h3⟩ | ⟨k, y, e1, e2, e3, h3, h4⟩
      · refine Or.inl ⟨e1, e2, ?_⟩
        intro y hy
        rcases List.mem_cons.1 hy with rfl | hy
        · exact not_lt.1 h
        · exact h3 y hy
      · refine Or.inr ⟨k + 1, y, by omega, by simpa using e2, e3, h3, ?_⟩
        intro z hz
        rcases List.mem_cons.1 hz with rfl | hz
        · exact (not_lt.1 h).trans h3.le
        · exact h4 z hz

theorem firstBest_none {α : Type} (f : α → ℚ) (x : α) (l : List α) :
    ∃ j v y, firstBest f (x :: l) 0 none = some (j, v) ∧ (x :: l)[j]? = some y ∧ ∀ z ∈ x :: l, f z ≤ f y := by
  obtain ⟨j, v, h1, h2⟩ := firstBest_some f l 1 0 (f x)
  rcases h2 with ⟨e1, e2, h3⟩ | ⟨k, y, e1, e2, e3, h3, h4⟩
  · refine ⟨j, v, x, h1, by rw [e1]; rfl, ?_⟩
    intro z hz
    rcases List.mem_cons.1 hz with rfl | hz
    · exact le_rfl
    · exact h3 z hz
  · refine ⟨j, v, y, h1, by rw [e1, Nat.add_comm]; simpa using e2, ?_⟩
    intro z hz
    rcases List.mem_cons.1 hz with rfl | hz
    · exact h3.le
    · exact h4 z hz

theorem mmrFill_spec (sim : List W → List W → ℚ) (lambda : ℚ) (topK : Int) : ∀ (fuel : Nat) (selected remaining : List (Hit W)),
    remaining.length ≤ fuel →
    ∃ tail rest, mmrFill sim lambda topK fuel selected remaining = selected ++ tail ∧ (tail ++ rest).Perm remaining ∧
      (rest = [] ∨ topK ≤ ((selected ++ tail).length : Int)) ∧ (tail = [] ∨ ((selected ++ tail).length : Int) ≤ topK) ∧
      ∀ chosen x post, tail = chosen ++ x :: post → ∀ y ∈ post ++ rest,
        marginal sim lambda (selected ++ chosen) y ≤ marginal sim lambda (selected ++ chosen) x
  | 0, selected, remaining, h => by
    have : remaining = [] := List.length_eq_zero_iff.1 (by omega)
    subst this
    exact ⟨[], [], by simp [mmrFill], List.Perm.refl _, Or.inl rfl, Or.inl rfl, by intro c x p he; simp at he⟩
  | fuel + 1, selected, [], h => by
    exact ⟨[], [], by simp [mmrFill], List.Perm.refl _, Or.inl rfl, Or.inl rfl, by intro c x p he; simp at he⟩
  | fuel + 1, selected, r :: rs, h => by
    by_cases hk : (selected.length : Int) < topK
    · obtain ⟨b, v, y, hb, hy, hbest⟩ := firstBest_none (fun h : Hit W => lambda * h.score - (1 - lambda) * maxSim sim h.vector selected) r rs
      have hperm := perm_eraseIdx _ _ _ hy
      have hlen : ((r :: rs).eraseIdx b).length ≤ fuel := by
        have := hperm.length_eq
        simp only [List.length_cons] at this h
        omega
      obtain ⟨tail, rest, h1, h2, h3, h4, h5⟩ := mmrFill_spec sim lambda topK fuel (selected ++ [y]) _ hlen
      refine ⟨y :: tail, rest, ?_, (h2.cons y).trans hperm, by simpa using h3, Or.inr ?_, ?_⟩
      · simp only [mmrFill]
        rw [if_pos ⟨hk, by simp⟩, hb]
        simp only [hy, h1]
        simp
      · rcases h4 with h4 | h4
        · subst h4
          simp only [List.length_append, List.length_cons, List.length_nil]
          omega
        · simpa using h4
      · intro chosen x post he z hz
        cases chosen with
        | nil =>
          simp only [List.nil_append, List.cons.injEq] at he
          obtain ⟨rfl, rfl⟩ := he
          have := hbest z (hperm.mem_iff.1 (List.mem_cons_of_mem _ (h2.mem_iff.1 hz)))
          simp only [maxSim_eq] at this
          simpa [marginal] using this
        | cons c chosen =>
          simp only [List.cons_append, List.cons.injEq] at he
          obtain ⟨rfl, he⟩ := he
          have := h5 chosen x post he z hz
          simpa using this
    · refine ⟨[], r :: rs, ?_, List.Perm.refl _, Or.inr (by simp; omega), Or.inl rfl, by intro c x p he; simp at he⟩
      simp only [mmrFill]
      rw [if_neg (by intro h; exact hk h.1)]
      simp

/-- **C74, MMR.** For TopK ≥ 1 the diversification by maximal marginal relevance starts with the first candidate, returns
different members of the candidates, exactly TopK of them when there are so many, and every further one is at its place the best
of all not yet chosen. -/
theorem C74_mmr (sim : List W → List W → ℚ) (lambda : ℚ) (hl : lambda ≠ 0) (topK : Nat) (hk : 1 ≤ topK) (cands : List (Hit W)) :
    (diversifyMMR sim lambda topK cands).head? = cands.head? ∧
    (diversifyMMR sim lambda topK cands).length = min topK cands.length ∧
    ∃ rest, (diversifyMMR sim lambda topK cands ++ rest).Perm cands ∧
      ∀ first chosen x post, diversifyMMR sim lambda topK cands = first :: chosen ++ x :: post → ∀ y ∈ post ++ rest,
        marginal sim lambda (first :: chosen) y ≤ marginal sim lambda (first :: chosen) x := by
  cases cands with
  | nil => exact ⟨rfl, by simp [diversifyMMR], [], by simp [diversifyMMR], by intro f c x p he; simp [diversifyMMR] at he⟩
  | cons c cs =>
    obtain ⟨tail, rest, h1, h2, h3, h4, h5⟩ := mmrFill_spec sim lambda topK cs.length [c] cs le_rfl
    have e : diversifyMMR sim lambda topK (c :: cs) = c :: tail := by
      simp only [diversifyMMR, if_neg hl, h1]
      rfl
    have hlen := h2.length_eq
    simp only [List.length_append] at hlen
    refine ⟨by rw [e]; rfl, ?_, rest, by rw [e]; exact h2.cons c, ?_⟩
    · rw [e]
      simp only [List.singleton_append, List.length_cons] at h3 h4 ⊢
      rcases h3 with h3 | h3 <;> rcases h4 with h4 | h4
      · subst h3 h4; simp only [List.length_nil] at hlen ⊢; omega
      · subst h3; simp only [List.length_nil] at hlen ⊢; omega
      · subst h4; simp only [List.length_nil] at hlen h3 ⊢; omega
      · omega
    · rw [e]
      intro first chosen x post he y hy
      simp only [List.cons_append, List.cons.injEq] at he
      obtain ⟨rfl, he⟩ := he
      exact h5 chosen x post he y hy

/-- **C74, violated.** A trade-off of 0, documented as the greatest diversity, is the trade-off 1/2. -/
theorem C74_lambda_zero_violated (c : Cfg W) (via : Serve W) (root : ℚ → ℚ) (perm : Nat → List Nat) (s : St W HI VI) (query : List W)
    (m : Method) (d : ℚ) (o : Opts) :
    searchWithDiversity c via root perm s query ⟨0, m, d, o⟩ = searchWithDiversity c via root perm s query ⟨1 / 2, m, d, o⟩ := by
  have : ∀ cands : List (Hit W), diversifyMMR c.sim 0 o.topK cands = diversifyMMR c.sim (1 / 2) o.topK cands := by
    intro cands
    cases cands with
    | nil => rfl
    | cons x xs =>
      unfold diversifyMMR
      rw [if_pos rfl, if_neg (by norm_num)]
  simp only [searchWithDiversity, this]

/-! ## Distance -/

theorem distanceFill_spec (sim : List W → List W → ℚ) (m : ℚ) (topK : Int) : ∀ (cs selected : List (Hit W)),
    (selected = [] ∨ (selected.length : Int) < topK) →
    ∃ tail, distanceFill sim m topK cs selected = selected ++ tail ∧ tail.Sublist cs ∧
      (tail.Pairwise fun a b => m ≤ 1 - sim b.vector a.vector) ∧ (∀ s ∈ selected, ∀ t ∈ tail, m ≤ 1 - sim t.vector s.vector) ∧
      (1 ≤ topK → ((selected ++ tail).length : Int) ≤ topK) ∧
      (∀ c ∈ cs, c ∈ tail ∨ (∃ s ∈ selected ++ tail, 1 - sim c.vector s.vector < m) ∨ topK ≤ ((selected ++ tail).length : Int))
  | [], selected, hs => by
    refine ⟨[], by simp [distanceFill], List.Sublist.refl _, List.Pairwise.nil, by simp, ?_, by simp⟩
    intro hk
    rcases hs with rfl | hs
    · simp; omega
    · simpa using hs.le
  | c :: cs, selected, hs => by
    simp only [distanceFill]
    by_cases h : selected.any (fun s => decide (1 - sim c.vector s.vector < m)) = true
    · rw [if_pos h]
      obtain ⟨tail, h1, h2, h3, h4, h5, h6⟩ := distanceFill_spec sim m topK cs selected hs
      refine ⟨tail, h1, h2.cons c, h3, h4, h5, ?_⟩
      intro x hx
      rcases List.mem_cons.1 hx with rfl | hx
      · rw [List.any_eq_true] at h
        obtain ⟨s, hs, h⟩ := h
        exact Or.inr (Or.inl ⟨s, by simp [hs], by simpa using h⟩)
      · exact h6 x hx
    · rw [if_neg h]
      have hfar : ∀ s ∈ selected, m ≤ 1 - sim c.vector s.vector := by
        intro s hs
        by_contra hc
        exact h (List.any_eq_true.2 ⟨s, hs, by simpa using hc⟩)
      have hle : 1 ≤ topK → ((selected ++ [c]).length : Int) ≤ topK := by
        intro hk
        rcases hs with rfl | hs
        · simpa using hk
        · simp only [List.length_append, List.length_cons, List.length_nil]; omega
      by_cases hk : ((selected ++ [c]).length : Int) ≥ topK
      · rw [if_pos hk]
        refine ⟨[c], rfl, by simp, List.pairwise_singleton _ _, ?_, hle, ?_⟩
        · intro s hs t ht
          simp only [List.mem_singleton] at ht
          subst ht
          exact hfar s hs
        · intro x _
          exact Or.inr (Or.inr hk)
      · rw [if_neg hk]
        obtain ⟨tail, h1, h2, h3, h4, h5, h6⟩ := distanceFill_spec sim m topK cs (selected ++ [c]) (Or.inr (by omega))
        refine ⟨c :: tail, by rw [h1]; simp, h2.cons_cons c, ?_, ?_, by simpa using h5, ?_⟩
        · rw [List.pairwise_cons]
          exact ⟨fun t ht => h4 c (by simp) t ht, h3⟩
        · intro s hs t ht
          rcases List.mem_cons.1 ht with rfl | ht
          · exact hfar s hs
          · exact h4 s (by simp [hs]) t ht
        · intro x hx
          rcases List.mem_cons.1 hx with rfl | hx
          · exact Or.inl (by simp)
          · rcases h6 x hx with h | h | h
            · exact Or.inl (by simp [h])
            · exact Or.inr (Or.inl (by simpa using h))
            · exact Or.inr (Or.inr (by simpa using h))

/-- **C74, distance.** For TopK ≥ 1 the diversification by distance keeps candidates in their order, starting with the first, at
most TopK, no two nearer than the least distance; a candidate left out is nearer to a kept one, or TopK are kept. -/
theorem C74_distance (sim : List W → List W → ℚ) (m : ℚ) (hm : m ≠ 0) (topK : Nat) (hk : 1 ≤ topK) (cands : List (Hit W)) :
    (diversifyDistance sim m topK cands).head? = cands.head? ∧
    (diversifyDistance sim m topK cands).Sublist cands ∧
    (diversifyDistance sim m topK cands).length ≤ topK ∧
    ((diversifyDistance sim m topK cands).Pairwise fun a b => m ≤ 1 - sim b.vector a.vector) ∧
    ∀ c ∈ cands, c ∈ diversifyDistance sim m topK cands ∨
      (∃ s ∈ diversifyDistance sim m topK cands, 1 - sim c.vector s.vector < m) ∨ (diversifyDistance sim m topK cands).length = topK := by
  obtain ⟨tail, h1, h2, h3, h4, h5, h6⟩ := distanceFill_spec sim m topK cands [] (Or.inl rfl)
  have e : diversifyDistance sim m topK cands = tail := by
    unfold diversifyDistance
    rw [if_neg hm, h1]
    rfl
  have hlen : tail.length ≤ topK := by
    have := h5 (by omega)
    simpa using this
  refine ⟨?_, by rw [e]; exact h2, by rw [e]; exact hlen, by rw [e]; exact h3, ?_⟩
  · cases cands with
    | nil => rfl
    | cons c cs =>
      unfold diversifyDistance
      rw [if_neg hm]
      simp only [distanceFill, List.any_nil, Bool.false_eq_true, if_false, List.nil_append]
      split
      · rfl
      · rename_i hk'
        obtain ⟨t, h, _⟩ := distanceFill_spec sim m topK cs [c] (Or.inr (by omega))
        rw [h]
        rfl
  · rw [e]
    intro c hc
    rcases h6 c hc with h | h | h
    · exact Or.inl h
    · exact Or.inr (Or.inl (by simpa using h))
    · refine Or.inr (Or.inr ?_)
      have : topK ≤ tail.length := by simpa using h
      omega

/-! ## Random -/

/-- Taking different positions takes different members. -/
theorem pick_subperm {α : Type} (l : List α) (idx : List Nat) (hn : idx.Nodup) : (idx.filterMap fun i => l[i]?).Subperm l := by
  have hall : (List.range l.length).filterMap (fun i => l[i]?) = l := by
    induction l with
    | nil => rfl
    | cons x l ih =>
      rw [List.length_cons, List.range_succ_eq_map, List.filterMap_cons]
      simp only [List.getElem?_cons_zero, List.filterMap_map, Function.comp_def, List.getElem?_cons_succ]
      rw [ih]
  have hfil : (idx.filterMap fun i => l[i]?) = ((idx.filter fun i => decide (i < l.length)).filterMap fun i => l[i]?) := by
    rw [List.filterMap_filter]
    apply List.filterMap_congr
    intro i _
    by_cases h : i < l.length
    · simp [h]
    · simp [h]
  have hsub : (idx.filter fun i => decide (i < l.length)).Subperm (List.range l.length) := by
    apply List.subperm_of_subset (hn.filter _)
    intro i hi
    rw [List.mem_filter] at hi
    simpa using hi.2
  rw [hfil]
  obtain ⟨l', hp, hs⟩ := hsub
  refine ⟨l'.filterMap fun i => l[i]?, hp.filterMap _, ?_⟩
  conv_rhs => rw [← hall]
  exact hs.filterMap _

theorem pick_length {α : Type} (l : List α) (idx : List Nat) (h : ∀ i ∈ idx, i < l.length) :
    (idx.filterMap fun i => l[i]?).length = idx.length := by
  induction idx with
  | nil => rfl
  | cons i idx ih =>
    rw [List.filterMap_cons, List.getElem?_eq_getElem (h i (by simp))]
    simp only [List.length_cons]
    rw [ih (fun j hj => h j (by simp [hj]))]

/-- **C74, random.** For TopK ≥ 0 the random diversification returns different members of the first 2·TopK candidates, exactly
TopK when there are so many, best first — when all are returned they are the candidates as they came. -/
theorem C74_random (perm : Nat → List Nat) (hperm : ∀ n, (perm n).Perm (List.range n)) (sort : List (Hit W) → List (Hit W))
    (hsort : SortsDesc sort) (topK : Nat) (cands : List (Hit W)) :
    ∃ out, diversifyRandom perm sort topK cands = some out ∧ out.Subperm cands ∧ out.length = min topK cands.length ∧
      (topK < cands.length → out.Subperm (cands.take (topK * 2)) ∧ Descending out) ∧ (cands.length ≤ topK → out = cands) := by
  unfold diversifyRandom
  by_cases h : (cands.length : Int) ≤ topK
  · rw [if_pos h]
    exact ⟨cands, rfl, List.Subperm.refl _, by omega, by intro h'; omega, fun _ => rfl⟩
  · rw [if_neg h]
    have hsz : (if (topK : Int) * 2 > cands.length then (cands.length : Int) else (topK : Int) * 2).toNat = min (topK * 2) cands.length := by
      split <;> omega
    have hnn : ¬ (if (topK : Int) * 2 > cands.length then (cands.length : Int) else (topK : Int) * 2) < 0 := by
      split <;> omega
    simp only [if_neg hnn, hsz]
    generalize hpool : cands.take (min (topK * 2) cands.length) = pool
    have hpl : pool.length = min (topK * 2) cands.length := by rw [← hpool]; simp
    have hpe : pool = cands.take (topK * 2) := by
      rw [← hpool]
      rcases Nat.le_total (topK * 2) cands.length with h' | h'
      · rw [Nat.min_eq_left h']
      · rw [Nat.min_eq_right h', List.take_of_length_le h', List.take_of_length_le (le_refl _)]
    have hnd : ((perm pool.length).take (topK : Int).toNat).Nodup :=
      ((hperm _).nodup_iff.2 List.nodup_range).sublist (List.take_sublist _ _)
    have hsub : (((perm pool.length).take (topK : Int).toNat).filterMap fun i => pool[i]?).Subperm pool := pick_subperm pool _ hnd
    have hs := hsort (((perm pool.length).take (topK : Int).toNat).filterMap fun i => pool[i]?)
    have hsub2 := hs.1.subperm.trans hsub
    refine ⟨_, rfl, hsub2.trans ?_, ?_, fun _ => ⟨by rw [← hpe]; exact hsub2, hs.2⟩, by intro h'; omega⟩
    · rw [hpe]; exact (List.take_sublist _ _).subperm
    · rw [hs.1.length_eq, pick_length]
      · rw [List.length_take, (hperm _).length_eq, List.length_range, hpl]
        omega
      · intro i hi
        have := (hperm pool.length).mem_iff.1 (List.mem_of_mem_take hi)
        simpa using this

/-- **C74, violated.** The random diversification need not contain the best result. -/
theorem C74_random_best_violated : ∃ (perm : Nat → List Nat) (a b : Hit Nat), (∀ n, (perm n).Perm (List.range n)) ∧
    b.score < a.score ∧ diversifyRandom perm (insertSort fun h => h.score) 1 [a, b] = some [b] := by
  refine ⟨fun n => (List.range n).reverse, ⟨"a", "", [1], "", "", none, 2⟩, ⟨"b", "", [1], "", "", none, 1⟩,
    fun n => List.reverse_perm _, by decide +kernel, by decide +kernel⟩

/-- **C74, violated.** A negative TopK makes the random diversification panic, whatever is stored. -/
theorem C74_random_panics_violated (c : Cfg W) (via : Serve W) (root : ℚ → ℚ) (perm : Nat → List Nat) (s : St W HI VI) (query : List W)
    (o : DivOpts) (hm : o.method = .random) (hk : o.base.topK < 0) (hopen : s.closed = false) (found : List (Hit W))
    (h : search c via s query { o.base with topK := o.base.topK * 3 } = .ok found) :
    searchWithDiversity c via root perm s query o = .error .panic := by
  have : diversifyRandom perm c.sort o.base.topK found = none := by
    unfold diversifyRandom
    rw [if_neg (by omega)]
    simp only
    rw [if_pos (by split <;> omega)]
  simp [searchWithDiversity, hopen, h, hm, this]

/-- **C74, violated.** With TopK ≤ 0 (which other searches take for ten) MMR and distance return one result, and determinantal
point processes none. -/
theorem C74_nonpositive_violated (sim : List W → List W → ℚ) (root : ℚ → ℚ) (lambda m : ℚ) (topK : Int) (hk : topK ≤ 0) (c : Hit W)
    (cs : List (Hit W)) : diversifyMMR sim lambda topK (c :: cs) = [c] ∧ diversifyDistance sim m topK (c :: cs) = [c] ∧
      diversifyDPP sim root topK (c :: cs) = [] := by
  refine ⟨?_, ?_, ?_⟩
  · simp only [diversifyMMR]
    cases cs with
    | nil => rfl
    | cons d ds =>
      simp only [List.length_cons, mmrFill]
      rw [if_neg]
      simp only [List.length_cons, List.length_nil]
      omega
  · simp only [diversifyDistance, distanceFill, List.any_nil, Bool.false_eq_true, if_false, List.nil_append]
    rw [if_pos]
    simp only [List.length_cons, List.length_nil]
    omega
  · unfold diversifyDPP
    rw [if_neg (by simp only [List.length_cons]; omega)]
    simp only
    have : ∀ k n fuel, dppFill k n topK fuel [] = [] := by
      intro k n fuel
      cases fuel with
      | zero => rfl
      | succ f => simp only [dppFill]; rw [if_neg (by simp only [List.length_nil]; omega)]
    rw [this]
    rfl

/-! ## Determinantal point process -/

/-- The gain of a result with respect to chosen ones: its score less what they already cover. -/
def worth (sim : List W → List W → ℚ) (root : ℚ → ℚ) (chosen : List (Hit W)) (x : Hit W) : ℚ :=
  x.score - (chosen.map fun y => (sim x.vector y.vector * root (x.score * y.score)) ^ 2 / y.score).sum

theorem dppScan_spec (k : Nat → Nat → ℚ) (chosen : List Nat) : ∀ (is : List Nat) (b : Option Nat) (g : ℚ), is.Pairwise (· < ·) →
    (dppScan k chosen is b g = b ∧ ∀ i ∈ is, i ∉ chosen → gain k chosen i ≤ g) ∨
    (∃ i ∈ is, i ∉ chosen ∧ dppScan k chosen is b g = some i ∧ g < gain k chosen i ∧
      (∀ j ∈ is, j ∉ chosen → gain k chosen j ≤ gain k chosen i) ∧ ∀ j ∈ is, j ∉ chosen → j < i → gain k chosen j < gain k chosen i)
  | [], b, g, _ => Or.inl ⟨rfl, by simp⟩
  | i :: is, b, g, hp => by
    rw [List.pairwise_cons] at hp
    simp only [dppScan]
    by_cases hi : i ∈ chosen
    · rw [if_pos hi]
      rcases dppScan_spec k chosen is b g hp.2 with ⟨h1, h2⟩ | ⟨j, h1, h2, h3, h4, h5, h6⟩
      · refine Or.inl ⟨h1, ?_⟩
        intro x hx hxc
        rcases List.mem_cons.1 hx with rfl | hx
        · exact absurd hi hxc
        · exact h2 x hx hxc
      · refine Or.inr ⟨j, by simp [h1], h2, h3, h4, ?_, ?_⟩
        · intro x hx hxc
          rcases List.mem_cons.1 hx with rfl | hx
          · exact absurd hi hxc
          · exact h5 x hx hxc
        · intro x hx hxc
          rcases List.mem_cons.1 hx with rfl | hx
          · exact absurd hi hxc
          · exact h6 x hx hxc
    · rw [if_neg hi]
      by_cases hg : gain k chosen i > g
      · rw [if_pos hg]
        rcases dppScan_spec k chosen is (some i) (gain k chosen i) hp.2 with ⟨h1, h2⟩ | ⟨j, h1, h2, h3, h4, h5, h6⟩
        · refine Or.inr ⟨i, by simp, hi, h1, hg, ?_, ?_⟩
          · intro x hx hxc
            rcases List.mem_cons.1 hx with rfl | hx
            · exact le_rfl
            · exact h2 x hx hxc
          · intro x hx hxc hlt
            rcases List.mem_cons.1 hx with rfl | hx
            · omega
            · have := hp.1 x hx; omega
        · refine Or.inr ⟨j, by simp [h1], h2, h3, lt_trans hg h4, ?_, ?_⟩
          · intro x hx hxc
            rcases List.mem_cons.1 hx with rfl | hx
            · exact h4.le
            · exact h5 x hx hxc
          · intro x hx hxc hlt
            rcases List.mem_cons.1 hx with rfl | hx
            · exact h4
            · exact h6 x hx hxc hlt
      · rw [if_neg hg]
        rcases dppScan_spec k chosen is b g hp.2 with ⟨h1, h2⟩ | ⟨j, h1, h2, h3, h4, h5, h6⟩
        · refine Or.inl ⟨h1, ?_⟩
          intro x hx hxc
          rcases List.mem_cons.1 hx with rfl | hx
          · exact not_lt.1 hg
          · exact h2 x hx hxc
        · refine Or.inr ⟨j, by simp [h1], h2, h3, h4, ?_, ?_⟩
          · intro x hx hxc
            rcases List.mem_cons.1 hx with rfl | hx
            · exact (not_lt.1 hg).trans h4.le
            · exact h5 x hx hxc
          · intro x hx hxc hlt
            rcases List.mem_cons.1 hx with rfl | hx
            · exact lt_of_le_of_lt (not_lt.1 hg) h4
            · exact h6 x hx hxc hlt

theorem range_lt (n : Nat) : (List.range n).Pairwise (· < ·) := List.pairwise_lt_range

theorem dppFill_spec (k : Nat → Nat → ℚ) (n : Nat) (topK : Int) : ∀ (fuel : Nat) (chosen : List Nat), n ≤ chosen.length + fuel →
    chosen.Nodup → (∀ i ∈ chosen, i < n) →
    ∃ tail, dppFill k n topK fuel chosen = chosen ++ tail ∧ (chosen ++ tail).Nodup ∧ (∀ i ∈ chosen ++ tail, i < n) ∧
      (tail = [] ∨ ((chosen ++ tail).length : Int) ≤ topK) ∧
      (topK ≤ ((chosen ++ tail).length : Int) ∨ n ≤ (chosen ++ tail).length ∨
        ∀ i < n, i ∉ chosen ++ tail → gain k (chosen ++ tail) i ≤ 0) ∧
      ∀ pre i post, tail = pre ++ i :: post → 0 < gain k (chosen ++ pre) i ∧
        (∀ j < n, j ∉ chosen ++ pre → gain k (chosen ++ pre) j ≤ gain k (chosen ++ pre) i) ∧
        ∀ j < i, j ∉ chosen ++ pre → gain k (chosen ++ pre) j < gain k (chosen ++ pre) i
  | 0, chosen, hf, hn, hl => by
    refine ⟨[], by simp [dppFill], by simpa using hn, by simpa using hl, Or.inl rfl, Or.inr (Or.inl (by simpa using hf)), ?_⟩
    intro p i q he
    simp at he
  | fuel + 1, chosen, hf, hn, hl => by
    simp only [dppFill]
    by_cases hk : (chosen.length : Int) < topK ∧ chosen.length < n
    · rw [if_pos hk]
      rcases dppScan_spec k chosen (List.range n) none 0 (range_lt n) with ⟨h1, h2⟩ | ⟨i, h1, h2, h3, h4, h5, h6⟩
      · rw [h1]
        refine ⟨[], by simp, by simpa using hn, by simpa using hl, Or.inl rfl, Or.inr (Or.inr ?_), ?_⟩
        · intro i hi hc
          rw [List.append_nil] at hc ⊢
          exact h2 i (by simpa using hi) hc
        · intro p i q he
          simp at he
      · rw [h3]
        have hin : i < n := by simpa using h1
        obtain ⟨tail, g1, g2, g3, g4, g5, g6⟩ := dppFill_spec k n topK fuel (chosen ++ [i]) (by simp; omega)
          (by
            rw [List.nodup_append]
            refine ⟨hn, by simp, ?_⟩
            intro a ha b hb
            simp only [List.mem_singleton] at hb
            subst hb
            intro he
            subst he
            exact h2 ha)
          (by
            intro j hj
            rcases List.mem_append.1 hj with hj | hj
            · exact hl j hj
            · simp only [List.mem_singleton] at hj; omega)
        have e : chosen ++ [i] ++ tail = chosen ++ i :: tail := by simp
        rw [e] at g1 g2 g3 g4 g5
        refine ⟨i :: tail, g1, g2, g3, Or.inr ?_, g5, ?_⟩
        · rcases g4 with g4 | g4
          · subst g4
            simp only [List.length_append, List.length_cons, List.length_nil]
            omega
          · exact g4
        · intro pre j post he
          cases pre with
          | nil =>
            simp only [List.nil_append, List.cons.injEq] at he
            obtain ⟨rfl, rfl⟩ := he
            rw [List.append_nil]
            refine ⟨h4, fun x hx hc => h5 x (by simpa using hx) hc, fun x hx hc => h6 x (by simp; omega) hc hx⟩
          | cons p pre =>
            simp only [List.cons_append, List.cons.injEq] at he
            obtain ⟨rfl, he⟩ := he
            have := g6 pre j post he
            simpa using this
    · rw [if_neg hk]
      refine ⟨[], by simp, by simpa using hn, by simpa using hl, Or.inl rfl, ?_, ?_⟩
      · simp only [List.append_nil]
        by_cases h1 : (chosen.length : Int) < topK
        · right; left
          by_contra h2
          exact hk ⟨h1, by omega⟩
        · left; omega
      · intro p i q he
        simp at he

/-- How many candidates the process looks at. -/
def looked (cands : List (Hit W)) : Nat := min cands.length 100

theorem gain_worth (sim : List W → List W → ℚ) (root : ℚ → ℚ) (cands : List (Hit W)) (chosen : List Nat) (i : Nat) (x : Hit W)
    (hx : cands[i]? = some x) (hi : i ∉ chosen) (hc : ∀ j ∈ chosen, j < cands.length) :
    gain (kernel sim root cands) chosen i = worth sim root (chosen.filterMap fun j => cands[j]?) x := by
  unfold gain worth
  have h1 : kernel sim root cands i i = x.score := by simp [kernel, hx]
  rw [h1]
  congr 1
  induction chosen with
  | nil => rfl
  | cons j js ih =>
    have hj : j < cands.length := hc j (by simp)
    have hne : i ≠ j := fun h => hi (by simp [h])
    rw [List.filterMap_cons, List.getElem?_eq_getElem hj]
    simp only [List.map_cons, List.sum_cons]
    rw [ih (fun h => hi (by simp [h])) (fun y hy => hc y (by simp [hy]))]
    congr 1
    have h2 : kernel sim root cands i j = sim x.vector cands[j].vector * root (x.score * cands[j].score) := by
      simp [kernel, hx, List.getElem?_eq_getElem hj, hne]
    have h3 : kernel sim root cands j j = cands[j].score := by simp [kernel, List.getElem?_eq_getElem hj]
    rw [h2, h3, pow_two]

/-- **C74, determinantal point process.** When there are more candidates than TopK ≥ 0, the process takes different positions
among the first hundred, at most TopK, each time the one of greatest worth (the first of them), which is positive; it takes
fewer than TopK only when nothing of positive worth is left. -/
theorem C74_dpp (sim : List W → List W → ℚ) (root : ℚ → ℚ) (topK : Nat) (cands : List (Hit W)) (hlt : topK < cands.length) :
    ∃ idx : List Nat, diversifyDPP sim root topK cands = idx.filterMap (fun i => cands[i]?) ∧ idx.Nodup ∧ (∀ i ∈ idx, i < looked cands) ∧
      idx.length ≤ topK ∧ (diversifyDPP sim root topK cands).Subperm cands ∧ (diversifyDPP sim root topK cands).length = idx.length ∧
      (idx.length = topK ∨ idx.length = looked cands ∨
        ∀ i < looked cands, i ∉ idx → ∀ x ∈ cands[i]?, worth sim root (diversifyDPP sim root topK cands) x ≤ 0) ∧
      ∀ pre i post x, idx = pre ++ i :: post → cands[i]? = some x →
        0 < worth sim root (pre.filterMap fun j => cands[j]?) x ∧
        (∀ j < looked cands, j ∉ pre → ∀ y ∈ cands[j]?, worth sim root (pre.filterMap fun j => cands[j]?) y ≤ worth sim root (pre.filterMap fun j => cands[j]?) x) ∧
        ∀ j < i, j ∉ pre → ∀ y ∈ cands[j]?, worth sim root (pre.filterMap fun j => cands[j]?) y < worth sim root (pre.filterMap fun j => cands[j]?) x := by
  have hn : (if cands.length > 100 then 100 else cands.length) = looked cands := by
    unfold looked; split <;> omega
  have hle : looked cands ≤ cands.length := by unfold looked; omega
  obtain ⟨idx, h1, h2, h3, h4, h5, h6⟩ := dppFill_spec (kernel sim root cands) (looked cands) topK (looked cands) []
    (by simp) List.nodup_nil (by simp)
  simp only [List.nil_append] at h1 h2 h3 h4 h5 h6
  have e : diversifyDPP sim root topK cands = idx.filterMap (fun i => cands[i]?) := by
    unfold diversifyDPP
    rw [if_neg (by omega)]
    simp only [hn, h1]
  have hin : ∀ i ∈ idx, i < cands.length := fun i hi => by have := h3 i hi; omega
  have hlk : idx.length ≤ topK := by
    rcases h4 with h | h
    · subst h; simp
    · omega
  refine ⟨idx, e, h2, h3, hlk, by rw [e]; exact pick_subperm _ _ h2, by rw [e]; exact pick_length _ _ hin, ?_, ?_⟩
  · rcases h5 with h | h | h
    · left; omega
    · right; left
      have hsub : idx.Subperm (List.range (looked cands)) :=
        List.subperm_of_subset h2 (fun i hi => by simpa using h3 i hi)
      have := hsub.length_le
      rw [List.length_range] at this
      omega
    · right; right
      intro i hi hni x hx
      rw [e, ← gain_worth sim root cands idx i x hx hni hin]
      exact h i hi hni
  · intro pre i post x he hx
    obtain ⟨g1, g2, g3⟩ := h6 pre i post he
    have hpre : ∀ j ∈ pre, j < cands.length := fun j hj => hin j (by rw [he]; simp [hj])
    have hi : i ∉ pre := by
      rw [he, List.nodup_append] at h2
      intro hp
      exact h2.2.2 i hp i (by simp) rfl
    have hil : i < looked cands := h3 i (by rw [he]; simp)
    rw [← gain_worth sim root cands pre i x hx hi hpre]
    refine ⟨g1, ?_, ?_⟩
    · intro j hj hjp y hy
      rw [← gain_worth sim root cands pre j y hy hjp hpre]
      exact g2 j hj hjp
    · intro j hj hjp y hy
      rw [← gain_worth sim root cands pre j y hy hjp hpre]
      exact g3 j hj hjp

/-- The worth is the score times one minus the squares of the similarities to the chosen ones, where the square root is exact. -/
theorem C74_dpp_worth (sim : List W → List W → ℚ) (root : ℚ → ℚ) (chosen : List (Hit W)) (x : Hit W)
    (hroot : ∀ y ∈ chosen, root (x.score * y.score) ^ 2 = x.score * y.score ∧ y.score ≠ 0) :
    worth sim root chosen x = x.score * (1 - (chosen.map fun y => sim x.vector y.vector ^ 2).sum) := by
  unfold worth
  have : (chosen.map fun y => (sim x.vector y.vector * root (x.score * y.score)) ^ 2 / y.score).sum =
      x.score * (chosen.map fun y => sim x.vector y.vector ^ 2).sum := by
    induction chosen with
    | nil => simp
    | cons y ys ih =>
      simp only [List.map_cons, List.sum_cons]
      rw [ih (fun z hz => hroot z (by simp [hz])), mul_pow, (hroot y (by simp)).1]
      have := (hroot y (by simp)).2
      field_simp
  rw [this]
  ring

/-- **C74.** When the candidates come best first and the best has a positive score, the process starts with it. -/
theorem C74_dpp_best_partial (sim : List W → List W → ℚ) (root : ℚ → ℚ) (topK : Nat) (hk : 1 ≤ topK) (c : Hit W) (cs : List (Hit W))
    (hd : Descending (c :: cs)) (hpos : 0 < c.score) : (diversifyDPP sim root topK (c :: cs)).head? = some c := by
  by_cases hlt : topK < (c :: cs).length
  · obtain ⟨idx, h1, h2, h3, h4, -, -, h5, h6⟩ := C74_dpp sim root topK (c :: cs) hlt
    have h0 : 0 < looked (c :: cs) := by unfold looked; simp
    cases idx with
    | nil =>
      exfalso
      rcases h5 with h | h | h
      · simp at h; omega
      · simp at h; omega
      · have := h 0 h0 (by simp) c rfl
        rw [h1] at this
        simp [worth] at this
        linarith
    | cons i post =>
      have hil : i < (c :: cs).length := by
        have := h3 i (by simp)
        unfold looked at this
        omega
      have hx := List.getElem?_eq_getElem hil
      obtain ⟨_, _, g3⟩ := h6 [] i post _ rfl hx
      have hi0 : i = 0 := by
        by_contra hne
        have hlt0 := g3 0 (by omega) (by simp) c rfl
        simp only [List.filterMap_nil, worth, List.map_nil, List.sum_nil, sub_zero] at hlt0
        have hge := (List.pairwise_iff_getElem.1 hd) 0 i (by simp) hil (by omega)
        simp only [List.getElem_cons_zero] at hge
        exact absurd hlt0 (not_lt.2 hge)
      subst hi0
      rw [h1]
      simp
  · unfold diversifyDPP
    rw [if_pos (by omega)]
    rfl

/-- **C74, violated.** When no score is positive (a Euclidean store) and there are more candidates than TopK, the process returns
nothing at all. -/
theorem C74_dpp_negative_violated (sim : List W → List W → ℚ) (root : ℚ → ℚ) (topK : Nat) (cands : List (Hit W))
    (hlt : topK < cands.length) (hneg : ∀ c ∈ cands, c.score ≤ 0) : diversifyDPP sim root topK cands = [] := by
  obtain ⟨idx, h1, h2, h3, h4, -, -, h5, h6⟩ := C74_dpp sim root topK cands hlt
  cases idx with
  | nil => rw [h1]; rfl
  | cons i post =>
    exfalso
    have hil : i < cands.length := by
      have := h3 i (by simp)
      unfold looked at this
      omega
    obtain ⟨g1, -, -⟩ := h6 [] i post _ rfl (List.getElem?_eq_getElem hil)
    simp only [List.filterMap_nil, worth, List.map_nil, List.sum_nil, sub_zero] at g1
    exact absurd g1 (not_lt.2 (hneg _ (List.getElem_mem hil)))

/-! ## The search -/

/-- **C74.** A diversified search for TopK ≥ 1 results returns at most TopK different records, all results of a plain search for
three times as many; and starts with the best of these unless the method is random or determinantal. -/
theorem C74_search_partial (c : Cfg W) (hsort : SortsDesc c.sort) (via : Serve W) (root : ℚ → ℚ) (perm : Nat → List Nat)
    (hperm : ∀ n, (perm n).Perm (List.range n)) (s : St W HI VI) (wf : Verif.Thm.Store.WF s.db) (query : List W) (o : DivOpts)
    (hk : 1 ≤ o.base.topK) (hl : o.lambda ≠ 0) (hd : o.minDistance ≠ 0) (out : List (Hit W))
    (h : searchWithDiversity c via root perm s query o = .ok out) :
    ∃ found, search c via s query { o.base with topK := o.base.topK * 3 } = .ok found ∧ out.Subperm found ∧
      (out.length : Int) ≤ o.base.topK ∧ (out.map fun x => x.id).Nodup ∧
      (o.method = .mmr ∨ o.method = .distance → out.head? = found.head?) := by
  unfold searchWithDiversity at h
  by_cases hc : s.closed
  · simp [hc] at h
  · rw [if_neg hc] at h
    cases hs : search c via s query { o.base with topK := o.base.topK * 3 } with
    | error e => rw [hs] at h; cases h
    | ok found =>
      rw [hs] at h
      obtain ⟨k, hkk⟩ : ∃ k : Nat, o.base.topK = k := ⟨o.base.topK.toNat, by omega⟩
      rw [hkk] at h hk ⊢
      have hk1 : 1 ≤ k := by omega
      have hids := hit_ids_nodup c hsort via s wf query _ found hs
      have hnod : ∀ l : List (Hit W), l.Subperm found → (l.map fun x => x.id).Nodup := by
        intro l hl
        obtain ⟨l', hp, hsl⟩ := hl
        exact (hp.map _).nodup_iff.1 (hids.sublist (hsl.map _))
      have key : out.Subperm found ∧ (out.length : Int) ≤ k ∧ (o.method = .mmr ∨ o.method = .distance → out.head? = found.head?) := by
        cases hm : o.method with
        | mmr =>
          simp only [hm, Except.ok.injEq] at h
          obtain ⟨h1, h2, rest, h3, -⟩ := C74_mmr c.sim o.lambda hl k hk1 found
          rw [h] at h1 h2 h3
          exact ⟨(List.sublist_append_left _ _).subperm.trans h3.subperm, by omega, fun _ => h1⟩
        | distance =>
          simp only [hm, Except.ok.injEq] at h
          obtain ⟨h1, h2, h3, -, -⟩ := C74_distance c.sim o.minDistance hd k hk1 found
          rw [h] at h1 h2 h3
          exact ⟨h2.subperm, by omega, fun _ => h1⟩
        | dpp =>
          simp only [hm, Except.ok.injEq] at h
          refine ⟨?_, ?_, by rintro (h | h) <;> cases h⟩
          · by_cases hlt : k < found.length
            · obtain ⟨idx, _, _, _, _, h5, _⟩ := C74_dpp c.sim root k found hlt
              rw [h] at h5
              exact h5
            · rw [← h]
              unfold diversifyDPP
              rw [if_pos (by omega)]
          · by_cases hlt : k < found.length
            · obtain ⟨idx, _, _, _, h4, _, h6, _⟩ := C74_dpp c.sim root k found hlt
              rw [h] at h6
              omega
            · rw [← h]
              unfold diversifyDPP
              rw [if_pos (by omega)]
              omega
        | random =>
          obtain ⟨x, h1, h2, h3, -, -⟩ := C74_random perm hperm c.sort hsort k found
          simp only [hm, h1, Except.ok.injEq] at h
          subst h
          exact ⟨h2, by omega, by rintro (h | h) <;> cases h⟩
      exact ⟨found, rfl, key.1, key.2.1, hnod out key.1, key.2.2⟩

/-! ## Negative examples -/

/-- `b` is the greatest similarity to an example, 0 when there is none. -/
def Greatest (sim : List W → List W → ℚ) (vs : List (List W)) (v : List W) (b : ℚ) : Prop :=
  if vs = [] then b = 0 else (∃ x ∈ vs, sim x v = b) ∧ ∀ x ∈ vs, sim x v ≤ b

/-- The `k` best of the pool, or all of it best first when no limit is set. -/
def Answer (pool : List (Hit W)) (k : Int) (out : List (Hit W)) : Prop :=
  if 0 < k then IsTopK (fun h : Hit W => h.score) pool k.toNat out else IsRanked (fun h : Hit W => h.score) pool out

theorem answer_cut (sort : List (Hit W) → List (Hit W)) (hsort : SortsDesc sort) (pool : List (Hit W)) (k : Int) :
    Answer pool k (if k > 0 ∧ ((sort pool).length : Int) > k then (sort pool).take k.toNat else sort pool) := by
  unfold Answer
  by_cases hk : 0 < k
  · rw [if_pos hk]
    have := isTopK_take (fun h : Hit W => h.score) pool (sort pool) k.toNat (hsort pool)
    split
    · exact this
    · rename_i h
      have hle : (sort pool).length ≤ k.toNat := by
        by_contra hc
        exact h ⟨hk, by omega⟩
      rw [List.take_of_length_le hle] at this
      exact this
  · rw [if_neg hk, if_neg (by intro h; exact hk h.1)]
    exact ⟨(hsort pool).1, (hsort pool).2⟩

theorem atLeastZero_spec (sim : List W → List W → ℚ) (v : List W) : ∀ (vs : List (List W)) (m : ℚ),
    m ≤ vs.foldl (fun m x => if sim x v > m then sim x v else m) m ∧
    (∀ x ∈ vs, sim x v ≤ vs.foldl (fun m x => if sim x v > m then sim x v else m) m) ∧
    (vs.foldl (fun m x => if sim x v > m then sim x v else m) m = m ∨ ∃ x ∈ vs, sim x v = vs.foldl (fun m x => if sim x v > m then sim x v else m) m)
  | [], m => by simp
  | x :: vs, m => by
    simp only [List.foldl_cons]
    by_cases h : sim x v > m
    · rw [if_pos h]
      obtain ⟨h1, h2, h3⟩ := atLeastZero_spec sim v vs (sim x v)
      refine ⟨h.le.trans h1, ?_, ?_⟩
      · intro y hy
        rcases List.mem_cons.1 hy with rfl | hy
        · exact h1
        · exact h2 y hy
      · rcases h3 with h3 | ⟨y, hy, h3⟩
        · exact Or.inr ⟨x, by simp, h3.symm⟩
        · exact Or.inr ⟨y, by simp [hy], h3⟩
    · rw [if_neg h]
      obtain ⟨h1, h2, h3⟩ := atLeastZero_spec sim v vs m
      refine ⟨h1, ?_, ?_⟩
      · intro y hy
        rcases List.mem_cons.1 hy with rfl | hy
        · exact (not_lt.1 h).trans h1
        · exact h2 y hy
      · rcases h3 with h3 | ⟨y, hy, h3⟩
        · exact Or.inl h3
        · exact Or.inr ⟨y, by simp [hy], h3⟩

theorem atLeastZero_greatest (sim : List W → List W → ℚ) (vs : List (List W)) (v : List W) (h : ∀ x ∈ vs, 0 ≤ sim x v) :
    Greatest sim vs v (atLeastZero sim vs v) := by
  unfold Greatest atLeastZero
  obtain ⟨h1, h2, h3⟩ := atLeastZero_spec sim v vs 0
  by_cases he : vs = []
  · rw [if_pos he, he]; rfl
  · rw [if_neg he]
    refine ⟨?_, h2⟩
    rcases h3 with h3 | h3
    · obtain ⟨x, hx⟩ := List.exists_mem_of_ne_nil vs he
      refine ⟨x, hx, ?_⟩
      have := h2 x hx
      rw [h3] at this ⊢
      exact le_antisymm this (h x hx)
    · exact h3

open Classical in
/-- **C127 (partial).** When similarities are not negative and the weight is not 0, a search with examples answers with the
records in scope ranked by their greatest similarity to a positive example less the weighted greatest similarity to a negative
one. -/
theorem C127_negatives_partial (c : Cfg W) (hsort : SortsDesc c.sort) (s : St W HI VI) (wf : Verif.Thm.Store.WF s.db)
    (pos neg : List (List W)) (weight : ℚ) (hw : weight ≠ 0) (o : Opts) (hsim : ∀ x ∈ pos ++ neg, ∀ v, 0 ≤ c.sim x v)
    (out : List (Hit W)) (h : searchWithNegatives c s pos neg weight o = .ok out) :
    ∃ value : Row W → ℚ, (∀ r, ∃ p n, Greatest c.sim pos r.vector p ∧ Greatest c.sim neg r.vector n ∧ value r = p - weight * n) ∧
      Answer ((s.db.embeddings.filter fun r => InScope s.db o r).map fun r => { scan s.db r with score := value r }) o.topK out := by
  refine ⟨fun r => atLeastZero c.sim pos r.vector - weight * atLeastZero c.sim neg r.vector, ?_, ?_⟩
  · intro r
    exact ⟨_, _, atLeastZero_greatest c.sim pos r.vector (fun x hx => hsim x (by simp [hx]) _),
      atLeastZero_greatest c.sim neg r.vector (fun x hx => hsim x (by simp [hx]) _), rfl⟩
  · unfold searchWithNegatives at h
    by_cases hc : s.closed
    · simp [hc] at h
    · rw [if_neg hc] at h
      simp only [if_neg hw, Except.ok.injEq] at h
      rw [← h, Verif.Range.fetch_mem s.db wf, List.map_map]
      exact answer_cut c.sort hsort _ _

/-- **C127, violated.** Where similarities are never positive (a Euclidean store) every result gets the score 0, whatever the
examples: the ranking says nothing. -/
theorem C127_euclid_violated (c : Cfg W) (hsort : SortsDesc c.sort) (s : St W HI VI) (pos neg : List (List W)) (weight : ℚ) (o : Opts)
    (hsim : ∀ x v, c.sim x v ≤ 0) (out : List (Hit W)) (h : searchWithNegatives c s pos neg weight o = .ok out) :
    ∀ x ∈ out, x.score = 0 := by
  have hz : ∀ vs v, atLeastZero c.sim vs v = 0 := by
    intro vs v
    unfold atLeastZero
    rcases atLeastZero_spec c.sim v vs 0 with ⟨h1, h2, h3 | ⟨x, hx, h3⟩⟩
    · exact h3
    · refine le_antisymm ?_ h1
      rw [← h3]
      exact hsim x v
  unfold searchWithNegatives at h
  by_cases hc : s.closed
  · simp [hc] at h
  · rw [if_neg hc] at h
    simp only [Except.ok.injEq, hz] at h
    generalize hw : (if weight = 0 then (1 / 2 : ℚ) else weight) = w at h
    intro x hx
    have hx' : x ∈ c.sort ((fetchCandidates s.db o).map fun h => { h with score := (0 : ℚ) - w * 0 }) := by
      rw [← h] at hx
      split at hx
      · exact List.mem_of_mem_take hx
      · exact hx
    rw [(hsort _).1.mem_iff] at hx'
    obtain ⟨y, _, rfl⟩ := List.mem_map.1 hx'
    simp

/-- **C127, violated.** A weight of 0 is a weight of 1/2, and the threshold is not looked at. -/
theorem C127_options_violated (c : Cfg W) (s : St W HI VI) (pos neg : List (List W)) (o : Opts) (t : ℚ) :
    searchWithNegatives c s pos neg 0 o = searchWithNegatives c s pos neg (1 / 2) { o with threshold := t } := by
  unfold searchWithNegatives
  rw [if_pos rfl, if_neg (by norm_num : ¬ (1 / 2 : ℚ) = 0)]
  rfl

/-! ## Recommendations -/

/-- The stored vectors of the examples, unknown ones left out. -/
theorem mem_exampleVectors (s : St W HI VI) (hopen : s.closed = false) (wf : Verif.Thm.Store.WF s.db) (ids : List String) (v : List W) :
    v ∈ exampleVectors s ids ↔ ∃ r ∈ s.db.embeddings, r.id ∈ ids ∧ r.vector = v := by
  unfold exampleVectors
  rw [List.mem_filterMap]
  constructor
  · rintro ⟨id, hid, h⟩
    unfold getByID at h
    rw [if_neg (by simp [hopen])] at h
    cases hf : s.db.embeddings.find? (fun r => decide (r.id = id)) with
    | none => rw [hf] at h; cases h
    | some r =>
      rw [hf] at h
      simp only [Option.some.injEq] at h
      have h1 : r.id = id := by simpa using List.find?_some hf
      exact ⟨r, List.mem_of_find?_eq_some hf, by rw [h1]; exact hid, h⟩
  · rintro ⟨r, hr, hid, rfl⟩
    refine ⟨r.id, hid, ?_⟩
    unfold getByID
    rw [if_neg (by simp [hopen])]
    cases hf : s.db.embeddings.find? (fun x => decide (x.id = r.id)) with
    | none => simpa using List.find?_eq_none.1 hf r hr
    | some x =>
      have h1 : x.id = r.id := by simpa using List.find?_some hf
      have h2 := Verif.Thm.Store.nodup_inj (fun r : Row W => r.id) wf.embIds (List.mem_of_find?_eq_some hf) hr h1
      subst h2
      rfl

open Classical in
/-- **C128 (partial).** A recommendation ranks the records in scope by their similarity to the stored vectors of the examples that
exist, when similarities are not negative. -/
theorem C128_recommend_partial (c : Cfg W) (hsort : SortsDesc c.sort) (s : St W HI VI) (wf : Verif.Thm.Store.WF s.db)
    (pos neg : List String) (o : Opts) (hsim : ∀ x v, 0 ≤ c.sim x v) (out : List (Hit W))
    (h : recommendSimilar c s pos neg o = .ok out) :
    ∃ (ps ns : List (List W)) (value : Row W → ℚ), (∀ v, v ∈ ps ↔ ∃ r ∈ s.db.embeddings, r.id ∈ pos ∧ r.vector = v) ∧
      (∀ v, v ∈ ns ↔ ∃ r ∈ s.db.embeddings, r.id ∈ neg ∧ r.vector = v) ∧
      (∀ r, ∃ p n, Greatest c.sim ps r.vector p ∧ Greatest c.sim ns r.vector n ∧ value r = p - 1 / 2 * n) ∧
      Answer ((s.db.embeddings.filter fun r => InScope s.db o r).map fun r => { scan s.db r with score := value r }) o.topK out := by
  have hopen : s.closed = false := by
    unfold recommendSimilar searchWithNegatives at h
    by_contra hc
    simp [show s.closed = true by simpa using hc] at h
  obtain ⟨value, h1, h2⟩ := C127_negatives_partial c hsort s wf _ _ (1 / 2) (by norm_num) o (fun x _ v => hsim x v) out h
  exact ⟨_, _, value, mem_exampleVectors s hopen wf pos, mem_exampleVectors s hopen wf neg, h1, h2⟩

/-- **C128, violated.** Unknown examples are not reported: asking only for unknown ones gives every record in scope with the score
0. -/
theorem C128_unknown_violated (c : Cfg W) (hsort : SortsDesc c.sort) (s : St W HI VI) (hopen : s.closed = false)
    (wf : Verif.Thm.Store.WF s.db) (pos : List String) (o : Opts) (hk : o.topK ≤ 0) (hun : ∀ r ∈ s.db.embeddings, r.id ∉ pos) :
    ∃ out, recommendSimilar c s pos [] o = .ok out ∧ out.Perm (fetchCandidates s.db o) ∧ ∀ x ∈ out, x.score = 0 := by
  have he : exampleVectors s pos = [] := by
    rw [List.eq_nil_iff_forall_not_mem]
    intro v hv
    obtain ⟨r, hr, hid, _⟩ := (mem_exampleVectors s hopen wf pos v).1 hv
    exact hun r hr hid
  have hmap : (fetchCandidates s.db o).map (fun h => { h with score := (0 : ℚ) }) = fetchCandidates s.db o := by
    conv_rhs => rw [← List.map_id (fetchCandidates s.db o)]
    apply List.map_congr_left
    intro x hx
    unfold fetchCandidates at hx
    obtain ⟨r, _, rfl⟩ := List.mem_map.1 (List.mem_filter.1 hx).1
    rfl
  refine ⟨c.sort (fetchCandidates s.db o), ?_, (hsort _).1, ?_⟩
  · unfold recommendSimilar searchWithNegatives
    rw [if_neg (by simp [hopen]), he]
    simp only [exampleVectors, List.filterMap_nil, atLeastZero, List.foldl_nil, mul_zero, sub_zero, hmap]
    rw [if_neg (by intro h; omega)]
  · intro x hx
    rw [(hsort _).1.mem_iff, ← hmap] at hx
    obtain ⟨y, _, rfl⟩ := List.mem_map.1 hx
    rfl

/-- **C128, violated.** The examples themselves are recommended: without a limit every example in scope is in the answer. -/
theorem C128_examples_violated (c : Cfg W) (hsort : SortsDesc c.sort) (s : St W HI VI) (wf : Verif.Thm.Store.WF s.db)
    (pos neg : List String) (o : Opts) (hk : o.topK ≤ 0) (out : List (Hit W)) (h : recommendSimilar c s pos neg o = .ok out)
    (r : Row W) (hr : r ∈ s.db.embeddings) (hin : InScope s.db o r) (_hpos : r.id ∈ pos) : r.id ∈ out.map fun x => x.id := by
  classical
  unfold recommendSimilar searchWithNegatives at h
  by_cases hc : s.closed
  · simp [hc] at h
  · rw [if_neg hc] at h
    simp only [Except.ok.injEq] at h
    rw [if_neg (by intro h; omega)] at h
    rw [← h, ((hsort _).1.map _).mem_iff, List.map_map, Verif.Range.fetch_mem s.db wf, List.map_map]
    exact List.mem_map.2 ⟨r, by simpa using ⟨hr, hin⟩, rfl⟩

/-! ## Anomalies -/

/-- `m` is the mean of the five least of the numbers (of all when there are fewer), 0 when there is none. -/
def MeanOfLeast (l : List ℚ) (m : ℚ) : Prop :=
  ∃ near, IsTopK (fun d : ℚ => -d) l 5 near ∧ (if near = [] then m = 0 else m * near.length = near.sum)

theorem anomaly_mean (sim : List W → List W → ℚ) (sortAsc : List ℚ → List ℚ) (hs : ∀ l, SortedFrom (fun a b => a ≤ b) l (sortAsc l))
    (h : Hit W) (others : List (Hit W)) : MeanOfLeast (others.map fun o => 1 - sim h.vector o.vector) (anomaly sim sortAsc h others) := by
  unfold anomaly
  generalize hl : (others.map fun o => 1 - sim h.vector o.vector) = l
  simp only
  have hlim : (if 5 > (sortAsc l).length then (sortAsc l).length else 5) = min 5 (sortAsc l).length := by split <;> omega
  rw [hlim]
  have htop := isTopK_take (fun d : ℚ => -d) l (sortAsc l) 5 ⟨(hs l).1, (hs l).2.imp (fun h => neg_le_neg h)⟩
  have htk : (sortAsc l).take (min 5 (sortAsc l).length) = (sortAsc l).take 5 := by
    rcases Nat.le_total 5 (sortAsc l).length with h | h
    · rw [Nat.min_eq_left h]
    · rw [Nat.min_eq_right h, List.take_of_length_le (le_refl _), List.take_of_length_le h]
  refine ⟨_, htop, ?_⟩
  rw [htk]
  by_cases he : (sortAsc l).take 5 = []
  · rw [if_pos he, if_neg]
    have := congrArg List.length he
    simp only [List.length_take, List.length_nil] at this
    omega
  · rw [if_neg he]
    have hlen : ((sortAsc l).take 5).length = min 5 (sortAsc l).length := by simp
    have hpos : 0 < min 5 (sortAsc l).length := by
      rw [← hlen]
      exact List.length_pos_of_ne_nil he
    rw [if_pos hpos, hlen]
    have : ((min 5 (sortAsc l).length : Nat) : ℚ) ≠ 0 := by exact_mod_cast hpos.ne'
    field_simp

open Classical in
/-- **C129.** The anomalies are the records in scope ranked by the mean distance to their five nearest others. -/
theorem C129_anomalies (c : Cfg W) (hsort : SortsDesc c.sort) (sortAsc : List ℚ → List ℚ)
    (hs : ∀ l, SortedFrom (fun a b => a ≤ b) l (sortAsc l)) (s : St W HI VI) (wf : Verif.Thm.Store.WF s.db) (o : Opts)
    (out : List (Hit W)) (h : findAnomalies c sortAsc s o = .ok out) :
    ∃ value : Nat → ℚ,
      (∀ i r, (s.db.embeddings.filter fun r => InScope s.db o r)[i]? = some r →
        MeanOfLeast (((s.db.embeddings.filter fun r => InScope s.db o r).eraseIdx i).map fun x => 1 - c.sim r.vector x.vector) (value i)) ∧
      Answer ((s.db.embeddings.filter fun r => InScope s.db o r).mapIdx fun i r => { scan s.db r with score := value i }) o.topK out := by
  unfold findAnomalies at h
  by_cases hc : s.closed
  · simp [hc] at h
  · rw [if_neg hc] at h
    simp only [Except.ok.injEq] at h
    rw [Verif.Range.fetch_mem s.db wf] at h
    generalize (s.db.embeddings.filter fun r => decide (InScope s.db o r)) = rows at h ⊢
    refine ⟨fun i => match rows[i]? with
      | some r => anomaly c.sim sortAsc (scan s.db r) ((rows.map (scan s.db)).eraseIdx i)
      | none => 0, ?_, ?_⟩
    · intro i r hi
      simp only [hi]
      have := anomaly_mean c.sim sortAsc hs (scan s.db r) ((rows.map (scan s.db)).eraseIdx i)
      rw [← List.eraseIdx_map, List.map_map, List.eraseIdx_map] at this
      exact this
    · have e : (rows.map (scan s.db)).mapIdx (fun i h => { h with score := anomaly c.sim sortAsc h ((rows.map (scan s.db)).eraseIdx i) }) =
          rows.mapIdx fun i r => { scan s.db r with score := match rows[i]? with
            | some r => anomaly c.sim sortAsc (scan s.db r) ((rows.map (scan s.db)).eraseIdx i)
            | none => 0 } := by
        apply List.ext_getElem
        · simp
        · intro i h1 h2
          simp only [List.length_mapIdx] at h2
          simp [List.getElem?_eq_getElem h2]
      rw [← h, e]
      exact answer_cut c.sort hsort _ _

/-! ## Examples -/

def hits1 : List (Hit Nat) := [⟨"a", "", [4], "", "", none, 4⟩, ⟨"b", "", [3], "", "", none, 3⟩, ⟨"c", "", [0], "", "", none, 2⟩]

/-- Similarity of neighbours. -/
def near0 (a b : List Nat) : ℚ := if a.headD 0 ≤ b.headD 0 + 1 ∧ b.headD 0 ≤ a.headD 0 + 1 then 1 else 0

example : diversifyMMR near0 (1 / 4) 2 hits1 = [⟨"a", "", [4], "", "", none, 4⟩, ⟨"c", "", [0], "", "", none, 2⟩] := by decide +kernel

example : diversifyDistance near0 (1 / 2) 3 hits1 = [⟨"a", "", [4], "", "", none, 4⟩, ⟨"c", "", [0], "", "", none, 2⟩] := by decide +kernel

example : diversifyDPP near0 (fun x => x) 2 hits1 = [⟨"a", "", [4], "", "", none, 4⟩, ⟨"c", "", [0], "", "", none, 2⟩] := by decide +kernel

/-- The square root is exact on some scores. -/
example : worth near0 (fun x => if x = 4 then 2 else x) [⟨"a", "", [4], "", "", none, 4⟩] ⟨"b", "", [3], "", "", none, 1⟩ = 0 := by decide +kernel

example : Descending hits1 := by unfold Descending; decide +kernel

example : ∃ out, searchWithDiversity cfg0 .linear (fun x => x) List.range store1 [1, 1] { lambda := 1 / 2, minDistance := 1, base := { topK := 1 } } = .ok out :=
  ⟨_, rfl⟩

example : ∃ out, searchWithNegatives cfg0 store1 [[1, 1]] [[2, 2]] 1 {} = .ok out := ⟨_, rfl⟩

example : ∀ x v, (0 : ℚ) ≤ cfg0.sim x v := fun x v => by simp only [cfg0]; positivity

example : ∃ out, recommendSimilar cfg0 store1 ["a"] ["b", "nobody"] {} = .ok out := ⟨_, rfl⟩

example : ∃ out, findAnomalies cfg0 (insertSort fun x => -x) store1 {} = .ok out := ⟨_, rfl⟩

end Verif.Diversity
