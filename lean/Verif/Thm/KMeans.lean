import Verif.Model.Train
import Mathlib.Algebra.BigOperators.Group.Finset.Basic
import Mathlib.Algebra.Order.BigOperators.Group.Finset
import Mathlib.Algebra.BigOperators.Group.Finset.Piecewise
import Mathlib.Tactic.Ring
import Mathlib.Tactic.Linarith
import Mathlib.Tactic.FieldSimp
import Mathlib.Tactic.Positivity

/-!
C168: the centroids that training learns from the stored vectors.
-/
namespace Verif.Train
open Verif.Base

/-! ### Specification -/

/-- The squared distance of two vectors. -/
def gap (a b : Vec) : ℚ := (List.zipWith (fun x y => (x - y) * (x - y)) a b).sum

/-- Coordinate `j`. -/
def co (v : Vec) (j : Nat) : ℚ := v.getD j 0

/-- `c` is the mean of the vectors `g`, coordinate by coordinate. -/
def IsMean (g : List Vec) (c : Vec) : Prop := g ≠ [] ∧ ∀ j, j < c.length → co c j * (g.length : ℚ) = (g.map (fun v => co v j)).sum

/-- The sum over the vectors of the squared distance to the closest centroid. -/
def cost (cs : List Vec) (vs : List Vec) : ℚ := (vs.map (fun v => ((cs.map (gap v)).min?).getD 0)).sum

/-- The random numbers are in their ranges: the first is a position, the others are not above one. -/
structure Rand.Fair (R : Rand) (vs : List Vec) : Prop where
  first : R.first < vs.length
  next : ∀ i, R.next i ≤ 1

/-! ### Distances -/

theorem sqDist_gap : ∀ a b : Vec, a.length = b.length → sqDist a b = some (gap a b)
  | [], [], _ => rfl
  | [], _ :: _, h => by simp at h
  | _ :: _, [], h => by simp at h
  | x :: xs, y :: ys, h => by
    rw [sqDist, sqDist_gap xs ys (by simpa using h)]
    simp [gap]

theorem gap_nonneg : ∀ a b : Vec, 0 ≤ gap a b
  | [], _ => by simp [gap]
  | _ :: _, [] => by simp [gap]
  | x :: xs, y :: ys => by
    have := gap_nonneg xs ys
    unfold gap at *
    simp only [List.zipWith_cons_cons, List.sum_cons]
    nlinarith [mul_self_nonneg (x - y)]

theorem gap_sum : ∀ (a b : Vec) (d : Nat), a.length = d → b.length = d →
    gap a b = ∑ j ∈ Finset.range d, (co a j - co b j) ^ 2
  | [], b, d, ha, hb => by
    subst ha
    simp [gap]
  | x :: xs, [], d, ha, hb => by
    subst hb
    simp at ha
  | x :: xs, y :: ys, d, ha, hb => by
    obtain ⟨e, rfl⟩ : ∃ e, d = e + 1 := ⟨xs.length, by simpa using ha.symm⟩
    rw [Finset.sum_range_succ']
    have := gap_sum xs ys e (by simpa using ha) (by simpa using hb)
    have h2 : gap (x :: xs) (y :: ys) = (x - y) * (x - y) + gap xs ys := by simp [gap]
    rw [h2, this]
    simp only [co, List.getD_cons_succ, List.getD_cons_zero]
    ring

/-! ### The closest centroid -/

theorem nearest_spec (v : Vec) : ∀ (cs : List Vec) (i : Nat) (best : Option (ℚ × Nat)), (∀ c ∈ cs, c.length = v.length) →
    (cs = [] → best ≠ none) →
    ∃ b, nearestFrom v cs i best = some (some b) ∧ (∀ c ∈ cs, b.1 ≤ gap v c) ∧ (∀ p, best = some p → b.1 ≤ p.1) ∧
      (best = some b ∨ ∃ j c, cs[j]? = some c ∧ b = (gap v c, i + j))
  | [], i, best, _, hb => by
    cases best with
    | none => exact absurd rfl (hb rfl)
    | some p => exact ⟨p, rfl, by simp, fun q hq => by cases hq; exact le_refl _, Or.inl rfl⟩
  | c :: cs, i, best, hl, _ => by
    have hd := sqDist_gap v c (hl c List.mem_cons_self).symm
    have key : ∀ p, (p = (gap v c, i) ∨ (best = some p ∧ p.1 ≤ gap v c)) → (∀ q, best = some q → p.1 ≤ q.1) →
        ∃ b, nearestFrom v cs (i + 1) (some p) = some (some b) ∧ (∀ c' ∈ c :: cs, b.1 ≤ gap v c') ∧ (∀ q, best = some q → b.1 ≤ q.1) ∧
          (best = some b ∨ ∃ j c', (c :: cs)[j]? = some c' ∧ b = (gap v c', i + j)) := by
      intro p hp hq
      obtain ⟨b, h1, h2, h3, h4⟩ := nearest_spec v cs (i + 1) (some p) (fun c' h => hl c' (List.mem_cons_of_mem _ h)) (fun _ => by simp)
      have hbp : b.1 ≤ p.1 := h3 p rfl
      have hpc : p.1 ≤ gap v c := by
        rcases hp with rfl | ⟨-, h⟩
        · exact le_refl _
        · exact h
      refine ⟨b, h1, ?_, fun q hq' => hbp.trans (hq q hq'), ?_⟩
      · intro c' hc'
        rcases List.mem_cons.1 hc' with rfl | hc'
        · exact hbp.trans hpc
        · exact h2 c' hc'
      · rcases h4 with h4 | ⟨j, c', h4, h5⟩
        · cases h4
          rcases hp with rfl | ⟨h, -⟩
          · exact Or.inr ⟨0, c, rfl, by simp⟩
          · exact Or.inl h
        · refine Or.inr ⟨j + 1, c', by simpa using h4, ?_⟩
          rw [h5]
          congr 1
          omega
    rw [nearestFrom, hd]
    simp only
    cases best with
    | none =>
      simp only
      exact key _ (Or.inl rfl) (by simp)
    | some p =>
      simp only
      split
      · exact key _ (Or.inl rfl) (fun q hq => by cases hq; exact le_of_lt (by assumption))
      · exact key _ (Or.inr ⟨rfl, not_lt.1 (by assumption)⟩) (fun q hq => by cases hq; exact le_refl _)

/-- The vectors of dimension `d`. -/
def Dim (d : Nat) (vs : List Vec) : Prop := ∀ v ∈ vs, v.length = d

theorem min_gap (v : Vec) (cs : List Vec) (m : ℚ) (h1 : ∃ c ∈ cs, gap v c = m) (h2 : ∀ c ∈ cs, m ≤ gap v c) :
    ((cs.map (gap v)).min?).getD 0 = m := by
  have : (cs.map (gap v)).min? = some m := by
    rw [List.min?_eq_some_iff]
    refine ⟨?_, ?_⟩
    · obtain ⟨c, hc, rfl⟩ := h1
      exact List.mem_map_of_mem hc
    · intro b hb
      obtain ⟨c, hc, rfl⟩ := List.mem_map.1 hb
      exact h2 c hc
  rw [this]
  rfl

theorem min_gap_le (v : Vec) (cs : List Vec) (c : Vec) (hc : c ∈ cs) : ((cs.map (gap v)).min?).getD 0 ≤ gap v c := by
  cases h : (cs.map (gap v)).min? with
  | none =>
    rw [List.min?_eq_none_iff] at h
    simp at h
    subst h
    simp at hc
  | some m =>
    rw [List.min?_eq_some_iff] at h
    exact h.2 _ (List.mem_map_of_mem hc)

/-- The cell of a vector: a centroid none of the others is closer than. -/
theorem cell_spec (cs : List Vec) (v : Vec) (hne : cs ≠ []) (hl : Dim v.length cs) :
    ∃ i c, cell cs v = some i ∧ cs[i]? = some c ∧ ((cs.map (gap v)).min?).getD 0 = gap v c := by
  obtain ⟨b, h1, h2, -, h4⟩ := nearest_spec v cs 0 none hl (fun h => absurd h hne)
  rcases h4 with h4 | ⟨j, c, h4, h5⟩
  · simp at h4
  · refine ⟨j, c, ?_, h4, ?_⟩
    · unfold cell
      rw [h1]
      simp [h5]
    · apply min_gap v cs _ ⟨c, List.mem_of_getElem? h4, rfl⟩
      intro c' hc'
      have := h2 c' hc'
      rwa [h5] at this

theorem weight_spec (cs : List Vec) (v : Vec) (hne : cs ≠ []) (hl : Dim v.length cs) : ∃ w, weight cs v = some w ∧ 0 ≤ w := by
  obtain ⟨b, h1, h2, -, h4⟩ := nearest_spec v cs 0 none hl (fun h => absurd h hne)
  rcases h4 with h4 | ⟨j, c, h4, h5⟩
  · simp at h4
  · refine ⟨b.1, ?_, ?_⟩
    · unfold weight
      rw [h1]
    · rw [h5]
      exact gap_nonneg _ _

/-! ### The first centroids -/

theorem fit_self (d : Nat) (v : Vec) (h : v.length = d) : fit d v = v := by
  subst h
  simp [fit]

theorem pick_spec (r : ℚ) : ∀ (ds : List ℚ) (s : ℚ) (j : Nat), ds ≠ [] → r ≤ s + ds.sum → ∃ i, pick r ds s j = some (j + i) ∧ i < ds.length
  | [], _, _, h, _ => absurd rfl h
  | d :: ds, s, j, _, hr => by
    rw [pick]
    by_cases h : r ≤ s + d
    · exact ⟨0, by rw [if_pos h]; rfl, by simp⟩
    · rw [if_neg h]
      have hne : ds ≠ [] := by
        rintro rfl
        simp at hr
        exact h hr
      obtain ⟨i, h1, h2⟩ := pick_spec r ds (s + d) (j + 1) hne (by simp at hr; linarith)
      exact ⟨i + 1, by rw [h1]; congr 1; omega, by simp; omega⟩

theorem allSome_total {α β : Type} (f : α → Option β) (P : β → Prop) : ∀ l : List α, (∀ x ∈ l, ∃ y, f x = some y ∧ P y) →
    ∃ out, allSome f l = some out ∧ out.length = l.length ∧ ∀ y ∈ out, P y
  | [], _ => ⟨[], rfl, rfl, by simp⟩
  | x :: xs, h => by
    obtain ⟨y, hy, hp⟩ := h x List.mem_cons_self
    obtain ⟨out, h1, h2, h3⟩ := allSome_total f P xs (fun z hz => h z (List.mem_cons_of_mem _ hz))
    refine ⟨y :: out, by rw [allSome, hy]; simp [h1], by simp [h2], ?_⟩
    intro z hz
    rcases List.mem_cons.1 hz with rfl | hz
    · exact hp
    · exact h3 z hz

theorem seeds_spec (R : Rand) (d : Nat) (vs : List Vec) (hv : Dim d vs) (hR : R.Fair vs) : ∀ (m : Nat) (cs : List Vec), cs ≠ [] →
    (∀ c ∈ cs, c ∈ vs) → ∃ out, seeds R d vs m cs = some out ∧ out.length = cs.length + m ∧ ∀ c ∈ out, c ∈ vs
  | 0, cs, _, hc => ⟨cs, rfl, rfl, hc⟩
  | m + 1, cs, hne, hc => by
    have hvs : vs ≠ [] := by
      obtain ⟨c, hm⟩ := List.exists_mem_of_ne_nil cs hne
      exact List.ne_nil_of_mem (hc c hm)
    obtain ⟨ws, h1, h2, h3⟩ := allSome_total (weight cs) (fun w => 0 ≤ w) vs (fun v hm => weight_spec cs v hne (fun c h => by rw [hv c (hc c h), hv v hm]))
    have hs : 0 ≤ ws.sum := List.sum_nonneg h3
    have hw : ws ≠ [] := by
      rintro rfl
      simp at h2
      exact hvs (List.length_eq_zero_iff.1 h2.symm)
    obtain ⟨i, h4, h5⟩ := pick_spec (R.next cs.length * ws.sum) ws 0 0 hw (by have := hR.next cs.length; nlinarith)
    rw [h2] at h5
    rw [seeds, h1]
    simp only
    rw [h4]
    simp only [Nat.zero_add]
    rw [List.getElem?_eq_getElem h5]
    simp only [Option.getD_some]
    rw [fit_self d _ (hv _ (List.getElem_mem h5))]
    obtain ⟨out, g1, g2, g3⟩ := seeds_spec R d vs hv hR m (cs ++ [vs[i]]) (by simp) (by
      intro c hcm
      rcases List.mem_append.1 hcm with hcm | hcm
      · exact hc c hcm
      · rw [List.mem_singleton.1 hcm]
        exact List.getElem_mem h5)
    exact ⟨out, g1, by rw [g2]; simp; omega, g3⟩

/-! ### The rounds -/

theorem co_zipWith (d j : Nat) (a b : Vec) (ha : a.length = d) (hb : b.length = d) :
    co (List.zipWith (· + ·) a b) j = co a j + co b j := by
  unfold co
  by_cases h : j < d
  · have h1 : j < a.length := by omega
    have h2 : j < b.length := by omega
    simp [List.getD_eq_getElem?_getD, List.getElem?_zipWith, List.getElem?_eq_getElem h1, List.getElem?_eq_getElem h2]
  · have h1 : a.length ≤ j := by omega
    have h2 : b.length ≤ j := by omega
    simp [List.getD_eq_getElem?_getD, List.getElem?_zipWith, List.getElem?_eq_none h1, List.getElem?_eq_none h2]

theorem fold_spec (d j : Nat) : ∀ (g : List Vec) (s : Vec), Dim d g → s.length = d →
    (g.foldl (fun s v => List.zipWith (· + ·) s v) s).length = d ∧
      co (g.foldl (fun s v => List.zipWith (· + ·) s v) s) j = co s j + (g.map (fun v => co v j)).sum
  | [], s, _, hs => ⟨hs, by simp⟩
  | v :: g, s, hg, hs => by
    have hv := hg v List.mem_cons_self
    obtain ⟨h1, h2⟩ := fold_spec d j g (List.zipWith (· + ·) s v) (fun x hx => hg x (List.mem_cons_of_mem _ hx)) (by simp [hs, hv])
    refine ⟨h1, ?_⟩
    rw [List.foldl_cons, h2, co_zipWith d j s v hs hv]
    simp
    ring

theorem total_spec (d : Nat) (g : List Vec) (hg : Dim d g) : (total d g).length = d ∧ ∀ j, co (total d g) j = (g.map (fun v => co v j)).sum := by
  refine ⟨(fold_spec d 0 g _ hg (by simp)).1, fun j => ?_⟩
  unfold total
  rw [(fold_spec d j g _ hg (by simp)).2]
  have : co (List.replicate d 0) j = 0 := by
    unfold co
    rw [List.getD_eq_getElem?_getD, List.getElem?_replicate]
    split <;> simp
  rw [this, zero_add]

theorem co_map_div (v : Vec) (n : ℚ) (j : Nat) : co (v.map (fun x => x / n)) j = co v j / n := by
  unfold co
  simp only [List.getD_eq_getElem?_getD, List.getElem?_map]
  cases v[j]? <;> simp

/-- The centroid of one cell. -/
def center (d : Nat) (g : List Vec) : Vec := if g.length = 0 then total d g else (total d g).map (fun x => x / (g.length : ℚ))

theorem center_empty (d : Nat) : center d [] = List.replicate d 0 := by simp [center, total]

theorem center_mean (d : Nat) (g : List Vec) (hg : Dim d g) (hne : g ≠ []) : (center d g).length = d ∧ IsMean g (center d g) := by
  have hl : g.length ≠ 0 := fun h => hne (List.length_eq_zero_iff.1 h)
  obtain ⟨h1, h2⟩ := total_spec d g hg
  unfold center
  rw [if_neg hl]
  refine ⟨by simp [h1], hne, fun j _ => ?_⟩
  rw [co_map_div, h2]
  have : (g.length : ℚ) ≠ 0 := by exact_mod_cast hl
  field_simp

theorem center_length (d : Nat) (g : List Vec) (hg : Dim d g) : (center d g).length = d := by
  by_cases h : g = []
  · subst h
    rw [center_empty]
    simp
  · exact (center_mean d g hg h).1

theorem squares (y : ℚ) : ∀ l : List ℚ, (l.map (fun x => (x - y) ^ 2)).sum = (l.map (fun x => x ^ 2)).sum - 2 * y * l.sum + l.length * y ^ 2
  | [] => by simp
  | x :: l => by
    simp only [List.map_cons, List.sum_cons, List.length_cons, squares y l]
    push_cast
    ring

theorem mean_best (l : List ℚ) (m y : ℚ) (hm : m * (l.length : ℚ) = l.sum) :
    (l.map (fun x => (x - m) ^ 2)).sum ≤ (l.map (fun x => (x - y) ^ 2)).sum := by
  rw [squares, squares, ← hm]
  have : (0 : ℚ) ≤ l.length * (m - y) ^ 2 := by positivity
  nlinarith

theorem sum_swap (d : Nat) (f : Vec → Nat → ℚ) : ∀ g : List Vec,
    (g.map (fun v => ∑ j ∈ Finset.range d, f v j)).sum = ∑ j ∈ Finset.range d, (g.map (fun v => f v j)).sum
  | [] => by simp
  | v :: g => by simp [sum_swap d f g, Finset.sum_add_distrib]

theorem center_best (d : Nat) (g : List Vec) (hg : Dim d g) (y : Vec) (hy : y.length = d) :
    (g.map (fun v => gap v (center d g))).sum ≤ (g.map (fun v => gap v y)).sum := by
  by_cases hne : g = []
  · subst hne
    simp
  · obtain ⟨h1, -, h2⟩ := center_mean d g hg hne
    have e : ∀ z : Vec, z.length = d → (g.map (fun v => gap v z)).sum = ∑ j ∈ Finset.range d, (g.map (fun v => (co v j - co z j) ^ 2)).sum := by
      intro z hz
      rw [← sum_swap]
      congr 1
      apply List.map_congr_left
      intro v hv
      exact gap_sum v z d (hg v hv) hz
    rw [e _ h1, e _ hy]
    apply Finset.sum_le_sum
    intro j hj
    have := mean_best (g.map (fun v => co v j)) (co (center d g) j) (co y j) (by simpa using h2 j (by rw [h1]; exact Finset.mem_range.1 hj))
    simpa [List.map_map, Function.comp_def] using this

/-- The members of the cells make up all vectors. -/
theorem cells_sum (k : Nat) (f : Vec × Nat → ℚ) : ∀ l : List (Vec × Nat), (∀ p ∈ l, p.2 < k) →
    (l.map f).sum = ∑ c ∈ Finset.range k, ((l.filter (fun p => decide (p.2 = c))).map f).sum
  | [], _ => by simp
  | p :: l, h => by
    have ih := cells_sum k f l (fun q hq => h q (List.mem_cons_of_mem _ hq))
    have e : ∀ c, (((p :: l).filter (fun p => decide (p.2 = c))).map f).sum =
        (if p.2 = c then f p else 0) + ((l.filter (fun p => decide (p.2 = c))).map f).sum := by
      intro c
      by_cases hc : p.2 = c
      · simp [hc]
      · simp [hc]
    simp only [e]
    rw [Finset.sum_add_distrib, ← ih, Finset.sum_ite_eq]
    simp [h p List.mem_cons_self]

theorem update_some (d k : Nat) (vs : List Vec) (as : List Nat) (hv : Dim d vs) :
    update d k vs as = some ((List.range k).map (fun c => center d (members vs as c))) := by
  unfold update
  rw [if_neg]
  · rfl
  · simp only [List.any_eq_true, decide_eq_true_eq]
    rintro ⟨v, hm, hl⟩
    have := hv v hm
    omega

theorem members_sub (vs : List Vec) (as : List Nat) (c : Nat) : ∀ v ∈ members vs as c, v ∈ vs := by
  intro v hv
  obtain ⟨p, hp, rfl⟩ := List.mem_map.1 hv
  exact (List.of_mem_zip (List.mem_of_mem_filter hp)).1

theorem members_sublist (vs : List Vec) (as : List Nat) (c : Nat) (h : as.length = vs.length) : (members vs as c).Sublist vs := by
  have := (List.filter_sublist (p := fun p : Vec × Nat => decide (p.2 = c)) (l := vs.zip as)).map Prod.fst
  rwa [List.map_fst_zip (by omega)] at this

/-- The round: assignment and new centroids. -/
theorem assign_spec (cs vs : List Vec) (d : Nat) (hne : cs ≠ []) (hc : Dim d cs) (hv : Dim d vs) :
    ∃ as, allSome (cell cs) vs = some as ∧ as.length = vs.length ∧ (∀ p ∈ vs.zip as, p.2 < cs.length) ∧
      cost cs vs = ((vs.zip as).map (fun p => gap p.1 ((cs[p.2]?).getD []))).sum := by
  induction vs with
  | nil => exact ⟨[], rfl, rfl, by simp, by simp [cost]⟩
  | cons v vs ih =>
    obtain ⟨as, h1, h2, h3, h4⟩ := ih (fun x hx => hv x (List.mem_cons_of_mem _ hx))
    have hvl := hv v List.mem_cons_self
    obtain ⟨i, c, g1, g2, g3⟩ := cell_spec cs v hne (by rw [hvl]; exact hc)
    refine ⟨i :: as, by rw [allSome, g1]; simp [h1], by simp [h2], ?_, ?_⟩
    · intro p hp
      rw [List.zip_cons_cons] at hp
      rcases List.mem_cons.1 hp with rfl | hp
      · exact (List.getElem?_eq_some_iff.1 g2).1
      · exact h3 p hp
    · unfold cost at *
      rw [List.map_cons, List.sum_cons, h4, g3]
      simp [g2]

theorem sum_le {α : Type} (f g : α → ℚ) (l : List α) (h : ∀ x ∈ l, f x ≤ g x) : (l.map f).sum ≤ (l.map g).sum := by
  induction l with
  | nil => simp
  | cons x l ih =>
    have h1 := h x List.mem_cons_self
    have h2 := ih (fun y hy => h y (List.mem_cons_of_mem _ hy))
    simp
    linarith

theorem round_spec (cs vs : List Vec) (d k : Nat) (hk : 0 < k) (hl : cs.length = k) (hc : Dim d cs) (hv : Dim d vs) :
    ∃ as cs', allSome (cell cs) vs = some as ∧ update d k vs as = some cs' ∧ cs'.length = k ∧ Dim d cs' ∧ cost cs' vs ≤ cost cs vs ∧
      ∀ c ∈ cs', c = List.replicate d 0 ∨ ∃ g, g.Sublist vs ∧ IsMean g c := by
  have hne : cs ≠ [] := by
    rintro rfl
    simp at hl
    omega
  obtain ⟨as, h1, h2, h3, h4⟩ := assign_spec cs vs d hne hc hv
  have hm : ∀ c, Dim d (members vs as c) := fun c v hmem => hv v (members_sub vs as c v hmem)
  refine ⟨as, (List.range k).map (fun c => center d (members vs as c)), h1, update_some d k vs as hv, by simp, ?_, ?_, ?_⟩
  · intro c hcm
    obtain ⟨i, -, rfl⟩ := List.mem_map.1 hcm
    exact center_length d _ (hm i)
  · have key : cost ((List.range k).map (fun c => center d (members vs as c))) vs ≤
        ((vs.zip as).map (fun p => gap p.1 (center d (members vs as p.2)))).sum := by
      have e : cost ((List.range k).map (fun c => center d (members vs as c))) vs =
          ((vs.zip as).map (fun p => ((((List.range k).map (fun c => center d (members vs as c))).map (gap p.1)).min?).getD 0)).sum := by
        have hz : ∀ f : Vec → ℚ, vs.map f = (vs.zip as).map (fun p => f p.1) := by
          intro f
          conv_lhs => rw [← List.map_fst_zip (l₁ := vs) (l₂ := as) (by omega), List.map_map]
          rfl
        unfold cost
        rw [hz]
      rw [e]
      apply sum_le
      intro p hp
      apply min_gap_le
      exact List.mem_map.2 ⟨p.2, List.mem_range.2 (by rw [← hl]; exact h3 p hp), rfl⟩
    refine key.trans ?_
    rw [h4, cells_sum k _ _ (fun p hp => by rw [← hl]; exact h3 p hp), cells_sum k _ _ (fun p hp => by rw [← hl]; exact h3 p hp)]
    apply Finset.sum_le_sum
    intro c hck
    have hck' : c < cs.length := by rw [hl]; exact Finset.mem_range.1 hck
    have e1 : (((vs.zip as).filter (fun p => decide (p.2 = c))).map (fun p => gap p.1 (center d (members vs as p.2)))) =
        (members vs as c).map (fun v => gap v (center d (members vs as c))) := by
      unfold members
      rw [List.map_map]
      apply List.map_congr_left
      intro p hp
      have : p.2 = c := by simpa using (List.mem_filter.1 hp).2
      simp [this]
    have e2 : (((vs.zip as).filter (fun p => decide (p.2 = c))).map (fun p => gap p.1 ((cs[p.2]?).getD []))) =
        (members vs as c).map (fun v => gap v cs[c]) := by
      unfold members
      rw [List.map_map]
      apply List.map_congr_left
      intro p hp
      have : p.2 = c := by simpa using (List.mem_filter.1 hp).2
      simp [this, List.getElem?_eq_getElem hck']
    rw [e1, e2]
    exact center_best d _ (hm c) _ (hc _ (List.getElem_mem hck'))
  · intro c hcm
    obtain ⟨i, -, rfl⟩ := List.mem_map.1 hcm
    by_cases h : members vs as i = []
    · left
      rw [h, center_empty]
    · exact Or.inr ⟨_, members_sublist vs as i h2, (center_mean d _ (hm i) h).2⟩

theorem rounds_spec (vs : List Vec) (d k : Nat) (hk : 0 < k) (hv : Dim d vs) : ∀ (n : Nat) (cs : List Vec) (as : List Nat), cs.length = k → Dim d cs →
    (∀ c ∈ cs, c = List.replicate d 0 ∨ ∃ g, g.Sublist vs ∧ IsMean g c) →
    ∃ out, rounds d k vs n cs as = some out ∧ out.length = k ∧ Dim d out ∧ cost out vs ≤ cost cs vs ∧
      ∀ c ∈ out, c = List.replicate d 0 ∨ ∃ g, g.Sublist vs ∧ IsMean g c
  | 0, cs, _, hl, hc, hi => ⟨cs, rfl, hl, hc, le_refl _, hi⟩
  | n + 1, cs, as, hl, hc, hi => by
    obtain ⟨as', cs', h1, h2, h3, h4, h5, h6⟩ := round_spec cs vs d k hk hl hc hv
    rw [rounds, h1]
    simp only
    by_cases he : as' = as
    · rw [if_pos he]
      exact ⟨cs, rfl, hl, hc, le_refl _, hi⟩
    · rw [if_neg he, h2]
      simp only
      obtain ⟨out, g1, g2, g3, g4, g5⟩ := rounds_spec vs d k hk hv n cs' as' h3 h4 h6
      exact ⟨out, g1, g2, g3, g4.trans h5, g5⟩

theorem isMean_single (v : Vec) : IsMean [v] v := ⟨by simp, fun j _ => by simp⟩

theorem kMeans_seeds (R : Rand) (vs : List Vec) (d k : Nat) (hk : 0 < k) (hle : k ≤ vs.length) (hv : Dim d vs) (hR : R.Fair vs) :
    ∃ cs, cs.length = k ∧ (∀ c ∈ cs, c ∈ vs) ∧ ∀ n, kMeans R vs k n = rounds d k vs n cs (List.replicate vs.length 0) := by
  cases vs with
  | nil => simp at hle; omega
  | cons v0 vs =>
    have hd : v0.length = d := hv v0 List.mem_cons_self
    have hf := hR.first
    obtain ⟨cs, h1, h2, h3⟩ := seeds_spec R d (v0 :: vs) hv hR (k - 1) [(v0 :: vs)[R.first]] (by simp) (by
      intro c hc
      rw [List.mem_singleton.1 hc]
      exact List.getElem_mem hf)
    refine ⟨cs, by rw [h2]; simp; omega, h3, fun n => ?_⟩
    unfold kMeans
    simp only
    rw [if_neg (by omega), List.getElem?_eq_getElem hf]
    simp only [Option.getD_some]
    rw [hd, fit_self d _ (hv _ (List.getElem_mem hf)), h1]

theorem seeds_mean (vs cs : List Vec) (d : Nat) (h : ∀ c ∈ cs, c ∈ vs) : ∀ c ∈ cs, c = List.replicate d 0 ∨ ∃ g, g.Sublist vs ∧ IsMean g c :=
  fun c hc => Or.inr ⟨[c], List.singleton_sublist.2 (h c hc), isMean_single c⟩

/-! ### C168 -/

/-- C168, shape: on at least `k` vectors of one dimension training never panics and learns exactly `k` centroids of that dimension,
whatever the random numbers. -/
theorem C168_shape (R : Rand) (vs : List Vec) (d k n : Nat) (hk : 0 < k) (hle : k ≤ vs.length) (hv : ∀ v ∈ vs, v.length = d) (hR : R.Fair vs) :
    ∃ out, kMeans R vs k n = some out ∧ out.length = k ∧ ∀ c ∈ out, c.length = d := by
  obtain ⟨cs, h1, h2, h3⟩ := kMeans_seeds R vs d k hk hle hv hR
  obtain ⟨out, g1, g2, g3, -⟩ := rounds_spec vs d k hk hv n cs (List.replicate vs.length 0) h1 (fun c hc => hv c (h2 c hc)) (seeds_mean vs cs d h2)
  exact ⟨out, (h3 n).trans g1, g2, g3⟩

/-- C168 as far as it holds: every learned centroid is the mean of some of the vectors or the zero vector. Missing: the zero vector is
not a mean of the vectors (violated below). -/
theorem C168_mean_partial (R : Rand) (vs : List Vec) (d k n : Nat) (hk : 0 < k) (hle : k ≤ vs.length) (hv : ∀ v ∈ vs, v.length = d) (hR : R.Fair vs)
    (out : List Vec) (h : kMeans R vs k n = some out) : ∀ c ∈ out, c = List.replicate d 0 ∨ ∃ g, g.Sublist vs ∧ IsMean g c := by
  obtain ⟨cs, h1, h2, h3⟩ := kMeans_seeds R vs d k hk hle hv hR
  obtain ⟨out', g1, -, -, -, g5⟩ := rounds_spec vs d k hk hv n cs (List.replicate vs.length 0) h1 (fun c hc => hv c (h2 c hc)) (seeds_mean vs cs d h2)
  rw [h3 n, g1] at h
  cases h
  exact g5

/-- C168, quality: the sum of the squared distances to the closest learned centroid is never above that of some choice of `k` of the
vectors as centroids. -/
theorem C168_quality (R : Rand) (vs : List Vec) (d k n : Nat) (hk : 0 < k) (hle : k ≤ vs.length) (hv : ∀ v ∈ vs, v.length = d) (hR : R.Fair vs)
    (out : List Vec) (h : kMeans R vs k n = some out) : ∃ cs : List Vec, cs.length = k ∧ (∀ c ∈ cs, c ∈ vs) ∧ cost out vs ≤ cost cs vs := by
  obtain ⟨cs, h1, h2, h3⟩ := kMeans_seeds R vs d k hk hle hv hR
  obtain ⟨out', g1, -, -, g4, -⟩ := rounds_spec vs d k hk hv n cs (List.replicate vs.length 0) h1 (fun c hc => hv c (h2 c hc)) (seeds_mean vs cs d h2)
  rw [h3 n, g1] at h
  cases h
  exact ⟨cs, h1, h2, g4⟩

theorem rounds_more (vs : List Vec) (d k : Nat) (hk : 0 < k) (hv : Dim d vs) : ∀ (n : Nat) (cs : List Vec) (as : List Nat), cs.length = k → Dim d cs →
    ∃ a b, rounds d k vs n cs as = some a ∧ rounds d k vs (n + 1) cs as = some b ∧ cost b vs ≤ cost a vs
  | 0, cs, as, hl, hc => by
    obtain ⟨as', cs', h1, h2, h3, h4, h5, h6⟩ := round_spec cs vs d k hk hl hc hv
    by_cases he : as' = as
    · exact ⟨cs, cs, rfl, by rw [rounds, h1]; simp [he], le_refl _⟩
    · refine ⟨cs, cs', rfl, ?_, h5⟩
      rw [rounds, h1]
      simp only
      rw [if_neg he, h2]
      rfl
  | n + 1, cs, as, hl, hc => by
    obtain ⟨as', cs', h1, h2, h3, h4, h5, h6⟩ := round_spec cs vs d k hk hl hc hv
    by_cases he : as' = as
    · refine ⟨cs, cs, ?_, ?_, le_refl _⟩ <;> (rw [rounds, h1]; simp [he])
    · obtain ⟨a, b, g1, g2, g3⟩ := rounds_more vs d k hk hv n cs' as' h3 h4
      refine ⟨a, b, ?_, ?_, g3⟩
      all_goals
        rw [rounds, h1]
        simp only
        rw [if_neg he, h2]
        assumption

/-- C168, more rounds: with the same random numbers more rounds never give a worse result. -/
theorem C168_rounds (R : Rand) (vs : List Vec) (d k m n : Nat) (hk : 0 < k) (hle : k ≤ vs.length) (hv : ∀ v ∈ vs, v.length = d) (hR : R.Fair vs)
    (hmn : m ≤ n) : ∃ a b, kMeans R vs k m = some a ∧ kMeans R vs k n = some b ∧ cost b vs ≤ cost a vs := by
  obtain ⟨cs, h1, h2, h3⟩ := kMeans_seeds R vs d k hk hle hv hR
  induction n, hmn using Nat.le_induction with
  | base =>
    obtain ⟨a, -, g1, -, -⟩ := rounds_more vs d k hk hv m cs (List.replicate vs.length 0) h1 (fun c hc => hv c (h2 c hc))
    exact ⟨a, a, by simpa [h3] using g1, by simpa [h3] using g1, le_refl _⟩
  | succ n hmn ih =>
    obtain ⟨a, b, e1, e2, e3⟩ := ih
    obtain ⟨a', b', g1, g2, g3⟩ := rounds_more vs d k hk hv n cs (List.replicate vs.length 0) h1 (fun c hc => hv c (h2 c hc))
    rw [← h3] at g1 g2
    rw [e2] at g1
    cases g1
    exact ⟨a, b', e1, g2, g3.trans e3⟩

def sampleRand : Rand := ⟨2, fun _ => 0⟩
def sampleVecs : List Vec := [[5, 1], [5, 3], [9, 1]]

/-- The hypotheses hold and the result is not trivial. -/
example : sampleRand.Fair sampleVecs ∧ (∀ v ∈ sampleVecs, v.length = 2) ∧ kMeans sampleRand sampleVecs 2 20 = some [[9, 1], [5, 2]] ∧
    kMeans sampleRand sampleVecs 2 0 = some [[9, 1], [5, 1]] ∧ cost [[9, 1], [5, 2]] sampleVecs = 2 ∧ cost [[9, 1], [5, 1]] sampleVecs = 4 :=
  ⟨⟨by decide, fun _ => by simp [sampleRand]⟩, by decide +kernel, by decide +kernel, by decide +kernel, by decide +kernel, by decide +kernel⟩

/-- C168 is violated: with two equal vectors among three and three centroids one cell is empty and its centroid becomes the zero vector, which
is far from every vector and the mean of none of them. -/
theorem C168_zero_violated : ∃ (R : Rand) (vs : List Vec) (out : List Vec), R.Fair vs ∧ (∀ v ∈ vs, v.length = 1) ∧ kMeans R vs 3 20 = some out ∧
    ∃ c ∈ out, ∀ g : List Vec, g.Sublist vs → ¬ IsMean g c := by
  refine ⟨⟨2, fun _ => 0⟩, [[5], [5], [9]], [[9], [5], [0]], ⟨by decide, fun _ => by simp⟩, by decide +kernel, by decide +kernel, [0], by simp, ?_⟩
  intro g hg ⟨hne, hm⟩
  have h := hm 0 (by simp)
  have hpos : ∀ l : List Vec, l.Sublist [[5], [5], [9]] → l ≠ [] → 0 < (l.map (fun v => co v 0)).sum := by
    intro l hl hn
    have hall : ∀ x ∈ l.map (fun v => co v 0), (0 : ℚ) < x := by
      intro x hx
      obtain ⟨v, hv, rfl⟩ := List.mem_map.1 hx
      have := hl.subset hv
      simp at this
      rcases this with rfl | rfl <;> (unfold co; norm_num)
    exact List.sum_pos _ hall (by simpa using hn)
  have := hpos g hg hne
  rw [← h] at this
  simp [co] at this

/-- C168 is violated: a vector shorter than the others makes training panic. -/
theorem C168_mixed_violated : ∃ (R : Rand) (vs : List Vec), R.Fair vs ∧ 2 ≤ vs.length ∧ kMeans R vs 2 20 = none ∧ kMeans R vs.reverse 2 20 = none :=
  ⟨⟨0, fun _ => 1⟩, [[1, 2], [3, 4], [3]], ⟨by decide, fun _ => by simp⟩, by decide, by decide +kernel, by decide +kernel⟩

end Verif.Train
