import Verif.Model.DimStats
import Mathlib.Data.List.Count
import Mathlib.Data.List.Nodup
import Mathlib.Tactic.Linarith

/-! C196: the dimension analysis counts every vector and names a most frequent dimension. -/
namespace Verif.DimStats

/-- Go may walk a map in any order, but visits every key once. -/
def Walks (order : List (Nat × Nat) → List Nat) : Prop := ∀ m, (order m).Perm (m.map Prod.fst)

structure Counts (lens : List Nat) (m : List (Nat × Nat)) : Prop where
  keys : (m.map Prod.fst).Nodup
  some : ∀ d, (d, lens.count d) ∈ m ↔ d ∈ lens
  only : ∀ p ∈ m, p.2 = lens.count p.1 ∧ p.1 ∈ lens

theorem bump_keys (m : List (Nat × Nat)) (d : Nat) :
    (bump m d).map Prod.fst = if d ∈ m.map Prod.fst then m.map Prod.fst else m.map Prod.fst ++ [d] := by
  induction m with
  | nil => simp [bump]
  | cons p m ih =>
    obtain ⟨k, n⟩ := p
    simp only [bump]
    by_cases h : k = d
    · simp [h]
    · rw [if_neg h, List.map_cons, ih, List.map_cons]
      have : d ≠ k := fun e => h e.symm
      simp only [List.mem_cons, this, false_or]
      split <;> simp

theorem mem_bump (m : List (Nat × Nat)) (d : Nat) (hm : (m.map Prod.fst).Nodup) (p : Nat × Nat) :
    p ∈ bump m d ↔ (p ∈ m ∧ p.1 ≠ d) ∨ (p.1 = d ∧ ((∃ n, (d, n) ∈ m ∧ p.2 = n + 1) ∨ (d ∉ m.map Prod.fst ∧ p.2 = 1))) := by
  obtain ⟨a, b⟩ := p
  induction m with
  | nil => simp [bump]
  | cons q m ih =>
    obtain ⟨k, n⟩ := q
    rw [List.map_cons, List.nodup_cons] at hm
    have ih := ih hm.2
    simp only [bump]
    by_cases h : k = d
    · subst h
      rw [if_pos rfl]
      simp only [List.mem_cons, Prod.mk.injEq, List.map_cons, true_or, not_true, false_and, or_false, true_and]
      constructor
      · rintro (⟨rfl, rfl⟩ | h)
        · exact Or.inr ⟨rfl, n, Or.inl rfl, rfl⟩
        · refine Or.inl ⟨Or.inr h, ?_⟩
          rintro rfl
          exact hm.1 (List.mem_map.2 ⟨_, h, rfl⟩)
      · rintro (⟨⟨rfl, _⟩ | h, hne⟩ | ⟨rfl, x, hx | hx, rfl⟩)
        · exact absurd rfl hne
        · exact Or.inr h
        · exact Or.inl ⟨rfl, by rw [hx]⟩
        · exact absurd (List.mem_map.2 ⟨_, hx, rfl⟩) hm.1
    · rw [if_neg h, List.mem_cons, ih]
      have hd : d ≠ k := fun e => h e.symm
      simp only [List.mem_cons, Prod.mk.injEq, List.map_cons, hd, false_and, false_or]
      constructor
      · rintro (⟨rfl, rfl⟩ | ⟨h1, h2⟩ | h3)
        · exact Or.inl ⟨Or.inl ⟨rfl, rfl⟩, h⟩
        · exact Or.inl ⟨Or.inr h1, h2⟩
        · exact Or.inr h3
      · rintro (⟨⟨rfl, rfl⟩ | h1, h2⟩ | h3)
        · exact Or.inl ⟨rfl, rfl⟩
        · exact Or.inr (Or.inl ⟨h1, h2⟩)
        · exact Or.inr (Or.inr h3)

theorem counts_bump {lens : List Nat} {m : List (Nat × Nat)} (h : Counts lens m) (d : Nat) :
    Counts (lens ++ [d]) (bump m d) := by
  have hin : d ∈ m.map Prod.fst ↔ d ∈ lens := by
    constructor
    · intro hd
      obtain ⟨p, hp, rfl⟩ := List.mem_map.1 hd
      exact (h.only p hp).2
    · intro hd; exact List.mem_map.2 ⟨_, (h.some d).2 hd, rfl⟩
  have honly : ∀ p ∈ bump m d, p.2 = (lens ++ [d]).count p.1 ∧ p.1 ∈ lens ++ [d] := by
    intro p hp
    rw [mem_bump m d h.keys] at hp
    rcases hp with ⟨h1, h2⟩ | ⟨h1, ⟨n, h2, h3⟩ | ⟨h2, h3⟩⟩
    · refine ⟨?_, List.mem_append_left _ (h.only p h1).2⟩
      rw [List.count_append, (h.only p h1).1, List.count_singleton]
      simpa using fun e : d = p.1 => h2 e.symm
    · refine ⟨?_, by simp [h1]⟩
      have := (h.only _ h2).1
      simp only at this
      rw [h3, h1, List.count_append, this]; simp
    · refine ⟨?_, by simp [h1]⟩
      rw [h3, h1, List.count_append, List.count_eq_zero.2 (fun e => h2 (hin.2 e))]; simp
  refine ⟨?_, ?_, honly⟩
  · rw [bump_keys]
    split
    · exact h.keys
    · rename_i hn
      rw [List.nodup_append]
      exact ⟨h.keys, by simp, by intro a ha b hb; simp at hb; rw [hb]; rintro rfl; exact hn ha⟩
  · intro x
    constructor
    · intro hx; exact (honly _ hx).2
    · intro hx
      rw [mem_bump m d h.keys]
      by_cases hxd : x = d
      · subst hxd
        right
        refine ⟨rfl, ?_⟩
        by_cases hl : x ∈ lens
        · left; exact ⟨_, (h.some x).2 hl, by simp⟩
        · right; exact ⟨fun e => hl (hin.1 e), by simp [List.count_eq_zero.2 hl]⟩
      · left
        have hl : x ∈ lens := by simpa [hxd] using hx
        refine ⟨?_, hxd⟩
        have : (lens ++ [d]).count x = lens.count x := by
          rw [List.count_append, List.count_singleton]; simpa using fun e : d = x => hxd e.symm
        rw [this]; exact (h.some x).2 hl

theorem counts_fold (lens : List Nat) : Counts lens (lens.foldl bump []) := by
  suffices ∀ (rest pre : List Nat) m, Counts pre m → Counts (pre ++ rest) (rest.foldl bump m) by
    simpa using this lens [] [] ⟨by simp, by simp, by simp⟩
  intro rest
  induction rest with
  | nil => intro pre m h; simpa using h
  | cons d rest ih =>
    intro pre m h
    have := ih (pre ++ [d]) _ (counts_bump h d)
    simpa using this

theorem lookup_of_mem {m : List (Nat × Nat)} (h : (m.map Prod.fst).Nodup) {d n : Nat} (hd : (d, n) ∈ m) :
    m.lookup d = some n := by
  induction m with
  | nil => simp at hd
  | cons p m ih =>
    obtain ⟨k, x⟩ := p
    rw [List.map_cons, List.nodup_cons] at h
    rw [List.lookup_cons]
    rcases List.mem_cons.1 hd with e | hd
    · simp only [Prod.mk.injEq] at e; simp [e.1, e.2]
    · have : d ≠ k := by
        intro e
        exact h.1 (e ▸ List.mem_map.2 ⟨(d, n), hd, rfl⟩)
      have hb : (d == k) = false := by simpa using this
      simp only [hb]
      exact ih h.2 hd

/-- The loop over the keys: a best among those seen. -/
theorem best_fold (m : List (Nat × Nat)) (ks : List Nat) : ∀ b : Nat × Nat,
    b.2 ≤ (ks.foldl (better m) b).2 ∧ (∀ d ∈ ks, (m.lookup d).getD 0 ≤ (ks.foldl (better m) b).2) ∧
    (ks.foldl (better m) b = b ∨ ((ks.foldl (better m) b).1 ∈ ks ∧
      (ks.foldl (better m) b).2 = (m.lookup (ks.foldl (better m) b).1).getD 0)) := by
  induction ks with
  | nil => intro b; simp
  | cons k ks ih =>
    intro b
    obtain ⟨h1, h2, h3⟩ := ih (better m b k)
    rw [List.foldl_cons]
    have hb : b.2 ≤ (better m b k).2 ∧ (m.lookup k).getD 0 ≤ (better m b k).2 := by
      simp only [better]; split
      · simp only; omega
      · omega
    refine ⟨le_trans hb.1 h1, ?_, ?_⟩
    · intro d hd
      rcases List.mem_cons.1 hd with rfl | hd
      · exact le_trans hb.2 h1
      · exact h2 d hd
    · rcases h3 with h3 | ⟨h3, h4⟩
      · by_cases hgt : (m.lookup k).getD 0 > b.2
        · right
          rw [h3]
          simp [better, hgt]
        · left
          rw [h3]
          simp [better, hgt]
      · exact Or.inr ⟨List.mem_cons_of_mem _ h3, h4⟩

/-- A dimension no other dimension beats. -/
def MostFrequent (lens : List Nat) (d : Nat) : Prop := d ∈ lens ∧ ∀ x, lens.count x ≤ lens.count d

/-- C196: for every list of vectors and every order of the map: the counts list exactly the dimensions that occur, each once
with the number of vectors that have it; the total is the number of vectors; the primary dimension is one that no other
beats, with its count; migration is recommended exactly when it covers less than four fifths of the vectors. -/
theorem C196_analysis (order : List (Nat × Nat) → List Nat) (ho : Walks order) (lens : List Nat) (hne : lens ≠ []) :
    let a := analyze order lens
    a.total = lens.length ∧ (a.dims.map Prod.fst).Nodup ∧
    (∀ d n, (d, n) ∈ a.dims ↔ d ∈ lens ∧ n = lens.count d) ∧
    MostFrequent lens a.primary ∧ a.primaryCount = lens.count a.primary ∧
    (a.migrate = true ↔ 5 * lens.count a.primary < 4 * lens.length) := by
  have hl : ¬ lens.length = 0 := by rw [List.length_eq_zero_iff]; exact hne
  have hc := counts_fold lens
  simp only [analyze, if_neg hl]
  set m := lens.foldl bump [] with hm
  set b := (order m).foldl (better m) (0, 0) with hb
  have hmem : ∀ d, d ∈ order m ↔ d ∈ lens := by
    intro d
    rw [(ho m).mem_iff, List.mem_map]
    constructor
    · rintro ⟨p, hp, rfl⟩; exact (hc.only p hp).2
    · intro hd; exact ⟨_, (hc.some d).2 hd, rfl⟩
  have hlook : ∀ d ∈ lens, (m.lookup d).getD 0 = lens.count d := by
    intro d hd
    rw [lookup_of_mem hc.keys ((hc.some d).2 hd)]; rfl
  obtain ⟨_, h2, h3⟩ := best_fold m (order m) (0, 0)
  rw [← hb] at h2 h3
  have hpos : 0 < b.2 := by
    obtain ⟨x, hx⟩ := List.exists_mem_of_ne_nil lens hne
    have := h2 x ((hmem x).2 hx)
    rw [hlook x hx] at this
    exact lt_of_lt_of_le (List.count_pos_iff.2 hx) this
  have hprim : b.1 ∈ lens ∧ b.2 = lens.count b.1 := by
    rcases h3 with h3 | ⟨h3, h4⟩
    · rw [h3] at hpos; exact absurd hpos (by simp)
    · have := (hmem _).1 h3
      exact ⟨this, by rw [h4, hlook _ this]⟩
  have hmf : MostFrequent lens b.1 := by
    refine ⟨hprim.1, fun x => ?_⟩
    by_cases hx : x ∈ lens
    · have := h2 x ((hmem x).2 hx)
      rw [hlook x hx] at this
      rw [← hprim.2]; exact this
    · rw [List.count_eq_zero.2 hx]; exact Nat.zero_le _
  refine ⟨trivial, hc.keys, ?_, hmf, hprim.2, ?_⟩
  · intro d n
    constructor
    · intro h
      have := hc.only _ h
      exact ⟨this.2, this.1⟩
    · rintro ⟨h1, rfl⟩; exact (hc.some d).2 h1
  · have hlen : (0 : ℚ) < (lens.length : ℚ) := by exact_mod_cast Nat.pos_of_ne_zero hl
    have hratio : ((b.2 : ℚ) / (lens.length : ℚ) < 4 / 5) ↔ 5 * lens.count b.1 < 4 * lens.length := by
      rw [div_lt_iff₀ hlen, ← hprim.2]
      constructor
      · intro h
        have : (5 * b.2 : ℚ) < 4 * lens.length := by linarith
        exact_mod_cast this
      · intro h
        have : (5 * b.2 : ℚ) < 4 * lens.length := by exact_mod_cast h
        linarith
    rw [Bool.and_eq_true, decide_eq_true_eq, decide_eq_true_eq, hratio]
    constructor
    · exact fun h => h.1
    · intro h
      refine ⟨h, ?_⟩
      by_contra hlt
      -- one dimension only: it covers all vectors
      have hall : ∀ x ∈ lens, x = b.1 := by
        intro x hx
        have e1 := (hc.some x).2 hx
        have e2 := (hc.some b.1).2 hprim.1
        have hlen1 : m.length ≤ 1 := Nat.le_of_not_lt hlt
        match m, hlen1, e1, e2 with
        | [], _, e1, _ => simp at e1
        | [p], _, e1, e2 =>
          rw [List.mem_singleton] at e1 e2
          have := e1.trans e2.symm
          exact (Prod.mk.injEq _ _ _ _ ▸ this).1
        | _ :: _ :: _, h, _, _ => simp at h
      have : lens.count b.1 = lens.length := List.count_eq_length.2 (fun x hx => (hall x hx).symm)
      rw [this] at h
      omega

/-- C196: nothing is counted for no vectors. -/
theorem C196_empty (order : List (Nat × Nat) → List Nat) : analyze order [] = ⟨0, 0, [], 0, false⟩ := rfl

/-- C196: the answer does not depend on the order of the map when one dimension is more frequent than every other. -/
theorem C196_same_partial (o1 o2 : List (Nat × Nat) → List Nat) (h1 : Walks o1) (h2 : Walks o2) (lens : List Nat)
    (d : Nat) (hd : d ∈ lens) (hbest : ∀ x, x ≠ d → lens.count x < lens.count d) : analyze o1 lens = analyze o2 lens := by
  have hne : lens ≠ [] := List.ne_nil_of_mem hd
  have key : ∀ o, Walks o → (analyze o lens).primary = d ∧ (analyze o lens).primaryCount = lens.count d := by
    intro o ho
    obtain ⟨_, _, _, h, hcnt, _⟩ := C196_analysis o ho lens hne
    have e : (analyze o lens).primary = d := by
      by_contra hx
      exact absurd (h.2 d) (Nat.not_le.2 (hbest _ hx))
    exact ⟨e, by rw [hcnt, e]⟩
  have hl : ¬ lens.length = 0 := by rw [List.length_eq_zero_iff]; exact hne
  have k1 := key o1 h1
  have k2 := key o2 h2
  simp only [analyze, if_neg hl] at k1 k2 ⊢
  rw [k1.1, k2.1, k1.2, k2.2]

/-- C196, broken for ties: two vectors of different dimensions, and two runs report different primary dimensions. -/
theorem C196_tie_violated : ∃ o1 o2 lens, Walks o1 ∧ Walks o2 ∧ (analyze o1 lens).primary ≠ (analyze o2 lens).primary := by
  refine ⟨fun m => m.map Prod.fst, fun m => (m.map Prod.fst).reverse, [3, 4], fun m => List.Perm.refl _,
    fun m => List.reverse_perm _, by decide +kernel⟩

example : analyze (fun m => m.map Prod.fst) [3, 4, 3, 3, 5] = ⟨3, 3, [(3, 3), (4, 1), (5, 1)], 5, true⟩ ∧
    (analyze (fun m => m.map Prod.fst) [3, 4, 3, 3, 3]).migrate = false := by decide +kernel

example : ∀ x, x ≠ 3 → [3, 4, 3].count x < [3, 4, 3].count 3 := by
  intro x hx
  by_cases h : x = 4
  · subst h; decide
  · have : [3, 4, 3].count x = 0 := List.count_eq_zero.2 (by simp [hx, h])
    rw [this]; decide

end Verif.DimStats
