import Verif.Model.GraphAlgo
import Verif.Base.Sort
import Verif.Thm.GraphTraverse
import Mathlib.Tactic.Linarith
import Mathlib.Tactic.Ring
import Mathlib.Tactic.FieldSimp
import Mathlib.Algebra.BigOperators.Group.List.Basic

/-! C45, C46 and C47: PageRank, communities and edge prediction. -/
namespace Verif.Graph
open Verif.Spec Verif.Base

/-! ### C45 -/

theorem sum_map_add {α : Type} (l : List α) (f g : α → ℚ) :
    (l.map (fun x => f x + g x)).sum = (l.map f).sum + (l.map g).sum := by
  induction l with
  | nil => simp
  | cons a l ih => simp only [List.map_cons, List.sum_cons, ih]; ring

theorem sum_map_const {α : Type} (l : List α) (c : ℚ) : (l.map (fun _ => c)).sum = l.length * c := by
  induction l with
  | nil => simp
  | cons a l ih => simp only [List.map_cons, List.sum_cons, ih, List.length_cons]; push_cast; ring

theorem sum_map_le {α : Type} (l : List α) (f g : α → ℚ) (h : ∀ x ∈ l, f x ≤ g x) : (l.map f).sum ≤ (l.map g).sum := by
  induction l with
  | nil => simp
  | cons a l ih =>
    simp only [List.map_cons, List.sum_cons]
    have h1 := h a List.mem_cons_self
    have h2 := ih (fun x hx => h x (List.mem_cons_of_mem _ hx))
    linarith

theorem sum_map_scale {α : Type} (l : List α) (c : ℚ) (f : α → ℚ) : (l.map (fun x => c * f x)).sum = c * (l.map f).sum := by
  induction l with
  | nil => simp
  | cons a l ih => simp only [List.map_cons, List.sum_cons, ih]; ring

theorem sum_map_nonneg {α : Type} (l : List α) (f : α → ℚ) (h : ∀ x ∈ l, 0 ≤ f x) : 0 ≤ (l.map f).sum := by
  have := sum_map_le l (fun _ => 0) f h
  rw [sum_map_const] at this
  simpa using this

/-- Adding up by the value of `f` is adding up everything. -/
theorem sum_fibers {β : Type} (ids : List String) (hn : ids.Nodup) (es : List β) (f : β → String) (g : β → ℚ)
    (h : ∀ e ∈ es, f e ∈ ids) :
    (ids.map (fun i => ((es.filter (fun e => decide (f e = i))).map g).sum)).sum = (es.map g).sum := by
  induction es with
  | nil => simp
  | cons e es ih =>
    have h1 := ih (fun x hx => h x (List.mem_cons_of_mem _ hx))
    have h2 : (ids.map (fun i => (((e :: es).filter (fun e => decide (f e = i))).map g).sum)).sum =
        (ids.map (fun i => if f e = i then g e else 0)).sum +
        (ids.map (fun i => ((es.filter (fun e => decide (f e = i))).map g).sum)).sum := by
      rw [← sum_map_add]
      apply congrArg
      apply List.map_congr_left
      intro i _
      by_cases hi : f e = i
      · rw [List.filter_cons_of_pos (by simpa using hi)]; simp [hi]
      · rw [List.filter_cons_of_neg (by simpa using hi)]; simp [hi]
    have h3 : ∀ l : List String, l.Nodup → f e ∈ l → (l.map (fun i => if f e = i then g e else 0)).sum = g e := by
      intro l
      induction l with
      | nil => intro _ hm; simp at hm
      | cons a l ihl =>
        intro hnl hm
        rw [List.nodup_cons] at hnl
        simp only [List.map_cons, List.sum_cons]
        by_cases ha : f e = a
        · have hz : (l.map (fun i => if f e = i then g e else 0)).sum = 0 := by
            have : l.map (fun i => if f e = i then g e else 0) = l.map (fun _ => (0 : ℚ)) := by
              apply List.map_congr_left
              intro i hi
              have : f e ≠ i := by rintro rfl; exact hnl.1 (ha ▸ hi)
              simp [this]
            rw [this, sum_map_const]; simp
          rw [if_pos ha, hz]; simp
        · have : f e ∈ l := by
            rcases List.mem_cons.1 hm with h4 | h4
            · exact absurd h4 ha
            · exact h4
          rw [if_neg ha, ihl hnl.2 this]; simp
    rw [h2, h1, h3 ids hn (h e List.mem_cons_self), List.map_cons, List.sum_cons]

theorem rank_mass (ids : List String) (hn : ids.Nodup) (hne : ids ≠ []) (es : List (String × String))
    (h1 : ∀ e ∈ es, e.1 ∈ ids) (h2 : ∀ e ∈ es, e.2 ∈ ids) (d : ℚ) (score : String → ℚ) :
    (ids.map (rankOf ids.length es d score)).sum =
      (1 - d) + d * (ids.map (fun i => if outDegree es i > 0 then score i else 0)).sum := by
  have hlen : (ids.length : ℚ) ≠ 0 := by
    have : ids.length ≠ 0 := by rw [Ne, List.length_eq_zero_iff]; exact hne
    exact_mod_cast this
  unfold rankOf
  rw [sum_map_add, sum_map_const, mul_div_cancel₀ _ hlen,
    sum_fibers ids hn es Prod.snd (fun e => if outDegree es e.1 > 0 then d * score e.1 / outDegree es e.1 else 0) h2,
    ← sum_fibers ids hn es Prod.fst (fun e => if outDegree es e.1 > 0 then d * score e.1 / outDegree es e.1 else 0) h1]
  congr 1
  rw [← sum_map_scale]
  apply congrArg
  apply List.map_congr_left
  intro i _
  have he : (es.filter (fun e => decide (e.1 = i))).map (fun e => if outDegree es e.1 > 0 then d * score e.1 / outDegree es e.1 else 0) =
      (es.filter (fun e => decide (e.1 = i))).map (fun _ => if outDegree es i > 0 then d * score i / outDegree es i else 0) := by
    apply List.map_congr_left
    intro e he
    simp only [List.mem_filter, decide_eq_true_eq] at he
    rw [he.2]
  rw [he, sum_map_const]
  have hdeg : ((es.filter (fun e => decide (e.1 = i))).length : ℚ) = (outDegree es i : ℚ) := rfl
  rw [hdeg]
  by_cases hz : outDegree es i > 0
  · have : (outDegree es i : ℚ) ≠ 0 := by exact_mod_cast Nat.pos_iff_ne_zero.1 hz
    rw [if_pos hz, if_pos hz]
    field_simp
  · rw [if_neg hz, if_neg hz]; simp

/-- What holds of the scores at every iteration. -/
structure GoodScores (ids : List String) (es : List (String × String)) (d : ℚ) (score : String → ℚ) : Prop where
  low : ∀ i ∈ ids, (1 - d) / ids.length ≤ score i
  mass : (ids.map score).sum ≤ 1
  full : (∀ i ∈ ids, 0 < outDegree es i) → (ids.map score).sum = 1

theorem rank_good (ids : List String) (hn : ids.Nodup) (hne : ids ≠ []) (es : List (String × String))
    (h1 : ∀ e ∈ es, e.1 ∈ ids) (h2 : ∀ e ∈ es, e.2 ∈ ids) (d : ℚ) (hd0 : 0 ≤ d) (hd1 : d ≤ 1) (score : String → ℚ)
    (h : GoodScores ids es d score) : GoodScores ids es d (rankOf ids.length es d score) := by
  have hpos : (0 : ℚ) ≤ (1 - d) / ids.length := div_nonneg (by linarith) (Nat.cast_nonneg _)
  have hnn : ∀ i ∈ ids, 0 ≤ score i := fun i hi => hpos.trans (h.low i hi)
  have hm := rank_mass ids hn hne es h1 h2 d score
  refine ⟨?_, ?_, ?_⟩
  · intro i _
    unfold rankOf
    have : 0 ≤ ((es.filter (fun e => decide (e.2 = i))).map (fun e =>
        if outDegree es e.1 > 0 then d * score e.1 / outDegree es e.1 else 0)).sum := by
      apply sum_map_nonneg
      intro e he
      split_ifs
      · exact div_nonneg (mul_nonneg hd0 (hnn _ (h1 e (List.mem_filter.1 he).1))) (Nat.cast_nonneg _)
      · exact le_refl _
    linarith
  · rw [hm]
    have h3 : (ids.map (fun i => if outDegree es i > 0 then score i else 0)).sum ≤ (ids.map score).sum := by
      apply sum_map_le
      intro i hi
      split_ifs
      · exact le_refl _
      · exact hnn i hi
    have h4 := h.mass
    have h5 : d * (ids.map (fun i => if outDegree es i > 0 then score i else 0)).sum ≤ d * 1 :=
      mul_le_mul_of_nonneg_left (h3.trans h4) hd0
    linarith
  · intro ho
    rw [hm]
    have : ids.map (fun i => if outDegree es i > 0 then score i else 0) = ids.map score := by
      apply List.map_congr_left
      intro i hi
      rw [if_pos (ho i hi)]
    rw [this, h.full ho]
    ring

theorem loop_good (ids : List String) (hn : ids.Nodup) (hne : ids ≠ []) (es : List (String × String))
    (h1 : ∀ e ∈ es, e.1 ∈ ids) (h2 : ∀ e ∈ es, e.2 ∈ ids) (d : ℚ) (hd0 : 0 ≤ d) (hd1 : d ≤ 1) (n : Nat) :
    ∀ score, GoodScores ids es d score → GoodScores ids es d (rankLoop ids es d n score) := by
  induction n with
  | zero => exact fun _ h => h
  | succ n ih =>
    intro score h
    have := rank_good ids hn hne es h1 h2 d hd0 hd1 score h
    unfold rankLoop
    split_ifs
    · exact this
    · exact ih _ this

/-- The damping factor in force. -/
def effDamping (d : ℚ) : ℚ := if 0 < d ∧ d ≤ 1 then d else 85 / 100

/-- C45: for every graph, damping factor and number of iterations, `PageRank` lists every stored node exactly once in
descending score; each score is at least (1-d)/n, the scores sum to at most one, and to exactly one when every node has an
outgoing edge. -/
theorem C45_pagerank_bounds_and_mass (sort : List (String × ℚ) → List (String × ℚ))
    (hs : ∀ l, SortedFrom (fun a b => b.2 ≤ a.2) l (sort l)) (s : State) (h : Inv s) (it : Int) (damping : ℚ) :
    ((pageRank sort s it damping).map Prod.fst).Perm (s.nodes.map Node.id) ∧
    (pageRank sort s it damping).Pairwise (fun a b => b.2 ≤ a.2) ∧
    (∀ x ∈ pageRank sort s it damping, (1 - effDamping damping) / s.nodes.length ≤ x.2) ∧
    ((pageRank sort s it damping).map Prod.snd).sum ≤ 1 ∧
    (s.nodes ≠ [] → (∀ n ∈ s.nodes, ∃ e ∈ s.edges, e.src = n.id) → ((pageRank sort s it damping).map Prod.snd).sum = 1) := by
  have hd : (if damping ≤ 0 ∨ damping > 1 then (85 / 100 : ℚ) else damping) = effDamping damping := by
    unfold effDamping
    by_cases h0 : 0 < damping ∧ damping ≤ 1
    · rw [if_pos h0, if_neg (by push Not; exact h0)]
    · rw [if_neg h0, if_pos]
      by_contra hc
      push Not at hc
      exact h0 hc
  have hd01 : 0 ≤ effDamping damping ∧ effDamping damping ≤ 1 := by
    unfold effDamping
    split_ifs with h0
    · exact ⟨h0.1.le, h0.2⟩
    · norm_num
  unfold pageRank
  simp only [hd]
  by_cases he : s.nodes.map Node.id = []
  · rw [if_pos he]
    refine ⟨by simp [he], List.Pairwise.nil, by simp, by simp, ?_⟩
    intro hne
    simp only [List.map_eq_nil_iff] at he
    exact absurd he hne
  · rw [if_neg he]
    generalize (if it ≤ 0 then 100 else it.toNat) = n
    have ht1 : ∀ e ∈ topology s, e.1 ∈ s.nodes.map Node.id := by
      intro e hm
      unfold topology at hm
      simp only [List.mem_filter, decide_eq_true_eq] at hm
      exact hm.2.1
    have ht2 : ∀ e ∈ topology s, e.2 ∈ s.nodes.map Node.id := by
      intro e hm
      unfold topology at hm
      simp only [List.mem_filter, decide_eq_true_eq] at hm
      exact hm.2.2
    have hlen : ((s.nodes.map Node.id).length : ℚ) ≠ 0 := by
      have : (s.nodes.map Node.id).length ≠ 0 := by rw [Ne, List.length_eq_zero_iff]; exact he
      exact_mod_cast this
    have hlp : (0 : ℚ) < ((s.nodes.map Node.id).length : ℚ) := lt_of_le_of_ne (Nat.cast_nonneg _) (Ne.symm hlen)
    have hinit : GoodScores (s.nodes.map Node.id) (topology s) (effDamping damping)
        (fun _ => 1 / ((s.nodes.map Node.id).length : ℚ)) := by
      have hsum : ((s.nodes.map Node.id).map (fun _ => 1 / ((s.nodes.map Node.id).length : ℚ))).sum = 1 := by
        rw [sum_map_const, mul_one_div, div_self hlen]
      refine ⟨?_, hsum.le, fun _ => hsum⟩
      intro i _
      exact div_le_div_of_nonneg_right (by linarith [hd01.1]) hlp.le
    have hg := loop_good _ h.2.1 he (topology s) ht1 ht2 _ hd01.1 hd01.2 n _ hinit
    generalize rankLoop (s.nodes.map Node.id) (topology s) (effDamping damping) n
      (fun _ => 1 / ((s.nodes.map Node.id).length : ℚ)) = score at hg ⊢
    obtain ⟨hp, ho⟩ := hs ((s.nodes.map Node.id).map (fun i => (i, score i)))
    have hfst : ((s.nodes.map Node.id).map (fun i => (i, score i))).map Prod.fst = s.nodes.map Node.id := by
      rw [List.map_map]; simp [Function.comp_def]
    have hsnd : ((s.nodes.map Node.id).map (fun i => (i, score i))).map Prod.snd = (s.nodes.map Node.id).map score := by
      rw [List.map_map]; rfl
    have hsum : ((sort ((s.nodes.map Node.id).map (fun i => (i, score i)))).map Prod.snd).sum =
        ((s.nodes.map Node.id).map score).sum := by
      rw [← hsnd]
      exact (hp.map Prod.snd).sum_eq
    refine ⟨?_, ho, ?_, ?_, ?_⟩
    · have := hp.map Prod.fst
      rwa [hfst] at this
    · intro x hx
      have := hp.mem_iff.1 hx
      simp only [List.mem_map] at this
      obtain ⟨i, hi, rfl⟩ := this
      have h3 := hg.low i (by simpa using hi)
      simpa using h3
    · rw [hsum]; exact hg.mass
    · intro _ hout
      rw [hsum]
      apply hg.full
      intro i hi
      obtain ⟨m, hm, rfl⟩ := List.mem_map.1 hi
      obtain ⟨e, hem, hes⟩ := hout m hm
      unfold outDegree
      rw [List.length_pos_iff_exists_mem]
      refine ⟨(e.src, e.dst), ?_⟩
      obtain ⟨⟨a, ha, ha'⟩, b, hb, hb'⟩ := h.1 e hem
      simp only [List.mem_filter, topology, List.mem_map, decide_eq_true_eq]
      exact ⟨⟨⟨e, hem, rfl⟩, ⟨a, ha, ha'⟩, b, hb, hb'⟩, hes⟩

def cycle : State := ⟨[typed "a" "", typed "b" ""], [link "1" "a" "b", link "2" "b" "a"], none⟩

theorem cycle_inv : Inv cycle := by
  refine ⟨?_, ?_⟩
  · intro e he
    simp only [cycle, List.mem_cons, List.not_mem_nil, or_false] at he
    rcases he with rfl | rfl <;> simp [cycle, typed, link]
  · unfold Unique; decide +kernel

example : (∀ l : List (String × ℚ), SortedFrom (fun a b => b.2 ≤ a.2) l (insertSort Prod.snd l)) ∧
    (∀ n ∈ cycle.nodes, ∃ e ∈ cycle.edges, e.src = n.id) := by
  refine ⟨insertSort_sorts _, ?_⟩
  intro n hn
  simp only [cycle, List.mem_cons, List.not_mem_nil, or_false] at hn
  rcases hn with rfl | rfl <;> simp [cycle, typed, link]
example : pageRank (insertSort Prod.snd) small 1 (1 / 2) = [("b", 1 / 4), ("c", 1 / 4), ("a", 1 / 6)] := by decide +kernel

/-! ### C46 -/

theorem bestLabel_mem (cur : String) (ws : List (String × ℚ)) :
    (bestLabel cur ws).1 = cur ∨ ∃ w ∈ ws, (bestLabel cur ws).1 = w.1 := by
  unfold bestLabel
  have : ∀ b : String × ℚ, (b.1 = cur ∨ ∃ w ∈ ws, b.1 = w.1) → ∀ l : List (String × ℚ), (∀ x ∈ l, x ∈ ws) →
      ((l.foldl (fun b w => if w.1 ≠ cur ∧ w.2 > b.2 then w else b) b).1 = cur ∨
        ∃ w ∈ ws, (l.foldl (fun b w => if w.1 ≠ cur ∧ w.2 > b.2 then w else b) b).1 = w.1) := by
    intro b hb l
    induction l generalizing b with
    | nil => intro _; exact hb
    | cons x l ih =>
      intro hl
      rw [List.foldl_cons]
      refine ih _ ?_ (fun y hy => hl y (List.mem_cons_of_mem _ hy))
      split_ifs
      · exact Or.inr ⟨x, hl x List.mem_cons_self, rfl⟩
      · exact hb
  exact this (cur, 0) (Or.inl rfl) ws (fun x hx => hx)

theorem sweep_spec (P : String → String → Prop) (ord : String → List (String × ℚ) → List (String × ℚ))
    (hord : ∀ i l, (ord i l).Perm l) (es : List (String × String × ℚ))
    (hP : ∀ i j l, j ∈ (contributions es i).map Prod.fst → P j l → P i l) (is : List String) :
    ∀ x : (String → String) × Bool, (∀ i, P i (x.1 i)) → ∀ i, P i ((sweepLabels ord es is x).1 i) := by
  induction is with
  | nil => exact fun x h => h
  | cons i is ih =>
    intro x h
    simp only [sweepLabels]
    apply ih
    by_cases hb : (bestLabel (x.1 i) (ord i (labelWeights es x.1 i))).1 ≠ x.1 i
    · rw [if_pos hb]
      intro k
      simp only
      split_ifs with hk
      · subst hk
        rcases bestLabel_mem (x.1 k) (ord k (labelWeights es x.1 k)) with h1 | ⟨w, hw, h1⟩
        · exact absurd h1 hb
        · rw [h1]
          have h2 := (hord k _).mem_iff.1 hw
          simp only [labelWeights, List.mem_map, List.mem_dedup] at h2
          obtain ⟨l, ⟨c, hc, hl⟩, rfl⟩ := h2
          refine hP k c.1 _ (List.mem_map_of_mem hc) ?_
          simp only
          rw [← hl]
          exact h c.1
      · exact h k
    · rw [if_neg hb]
      exact h

theorem label_spec (P : String → String → Prop) (ord : Nat → String → List (String × ℚ) → List (String × ℚ))
    (hord : ∀ n i l, (ord n i l).Perm l) (es : List (String × String × ℚ))
    (hP : ∀ i j l, j ∈ (contributions es i).map Prod.fst → P j l → P i l) (ids : List String) (n : Nat) :
    ∀ lab, (∀ i, P i (lab i)) → ∀ i, P i (labelLoop ord es ids n lab i) := by
  induction n with
  | zero => exact fun _ h => h
  | succ n ih =>
    intro lab h
    have := sweep_spec P (ord n) (hord n) es hP ids (lab, false) h
    simp only [labelLoop]
    split_ifs
    · exact ih _ this
    · exact this

theorem groups_perm (ids keys : List String) (lab : String → String) (hn : keys.Nodup) (hk : ∀ i ∈ ids, lab i ∈ keys) :
    (keys.flatMap (fun l => ids.filter (fun i => decide (lab i = l)))).Perm ids := by
  induction ids with
  | nil => simp
  | cons i ids ih =>
    have h1 := ih (fun x hx => hk x (List.mem_cons_of_mem _ hx))
    have h2 : ∀ ks : List String, ks.Nodup → lab i ∈ ks →
        (ks.flatMap (fun l => (i :: ids).filter (fun i => decide (lab i = l)))).Perm
          (i :: ks.flatMap (fun l => ids.filter (fun i => decide (lab i = l)))) := by
      intro ks
      induction ks with
      | nil => intro _ hm; simp at hm
      | cons k ks ihk =>
        intro hnk hm
        rw [List.nodup_cons] at hnk
        simp only [List.flatMap_cons]
        by_cases hik : lab i = k
        · rw [List.filter_cons_of_pos (by simpa using hik)]
          have : ks.flatMap (fun l => (i :: ids).filter (fun i => decide (lab i = l))) =
              ks.flatMap (fun l => ids.filter (fun i => decide (lab i = l))) := by
            apply List.flatMap_congr
            intro l hl
            rw [List.filter_cons_of_neg]
            simp only [decide_eq_true_eq]
            rintro rfl
            exact hnk.1 (hik ▸ hl)
          rw [this]
          exact List.Perm.refl _
        · rw [List.filter_cons_of_neg (by simpa using hik)]
          have hm' : lab i ∈ ks := by
            rcases List.mem_cons.1 hm with h3 | h3
            · exact absurd h3 hik
            · exact h3
          have h4 := (ihk hnk.2 hm').append_left (ids.filter (fun i => decide (lab i = k)))
          exact h4.trans List.perm_middle
    exact (h2 keys hn (hk i List.mem_cons_self)).trans (h1.cons i)

theorem flatMap_perm' {α β : Type} (f : α → List β) {l₁ l₂ : List α} (h : l₁.Perm l₂) : (l₁.flatMap f).Perm (l₂.flatMap f) :=
  h.flatMap_right f

/-- Whatever order maps are visited in, the communities together hold every stored node exactly once, none is empty,
their scores are their shares of the nodes, they come largest first, and two nodes share a community only if edges connect
them. -/
theorem communities_spec (ord : Nat → String → List (String × ℚ) → List (String × ℚ)) (groups : List String → List String)
    (sort : List Community → List Community) (hord : ∀ n i l, (ord n i l).Perm l) (hgr : ∀ l, (groups l).Perm l)
    (hs : ∀ l, SortedFrom (fun a b => b.nodes.length ≤ a.nodes.length) l (sort l)) (s : State) :
    ((communities ord groups sort s).flatMap Community.nodes).Perm (s.nodes.map Node.id) ∧
    (∀ c ∈ communities ord groups sort s, c.nodes ≠ [] ∧ c.score * s.nodes.length = c.nodes.length ∧
      ∀ a ∈ c.nodes, ∀ b ∈ c.nodes, Reach (Joined s) a b) ∧
    ((communities ord groups sort s).map Community.id).Nodup ∧
    (communities ord groups sort s).Pairwise (fun a b => b.nodes.length ≤ a.nodes.length) := by
  unfold communities
  simp only
  by_cases he : s.nodes.map Node.id = []
  · rw [if_pos he]
    exact ⟨by simp [he], by simp, by simp, List.Pairwise.nil⟩
  · rw [if_neg he]
    have hlab : ∀ i, Reach (Joined s) i (labelLoop ord (weighted s) (s.nodes.map Node.id) 100 id i) := by
      apply label_spec (fun i l => Reach (Joined s) i l) ord hord
      · intro i j l hj hjl
        refine Reach.trans (Reach.single ?_) hjl
        simp only [contributions, weighted, List.mem_map, List.mem_flatMap, List.mem_filter, List.mem_append] at hj
        obtain ⟨c, ⟨p, ⟨⟨e, hem, rfl⟩, -⟩, hc⟩, rfl⟩ := hj
        refine ⟨e, hem, ?_⟩
        rcases hc with hc | hc
        · split_ifs at hc with h1
          · simp only [List.mem_singleton] at hc; subst hc; exact Or.inl ⟨h1, rfl⟩
          · simp at hc
        · split_ifs at hc with h1
          · simp only [List.mem_singleton] at hc; subst hc; exact Or.inr ⟨h1, rfl⟩
          · simp at hc
      · intro i; exact Reach.refl i
    generalize labelLoop ord (weighted s) (s.nodes.map Node.id) 100 id = lab at hlab ⊢
    have hkeys := hgr ((s.nodes.map Node.id).map lab).dedup
    generalize groups ((s.nodes.map Node.id).map lab).dedup = keys at hkeys ⊢
    have hkn : keys.Nodup := hkeys.nodup_iff.2 (List.nodup_dedup _)
    have hkm : ∀ l, l ∈ keys ↔ ∃ i ∈ s.nodes.map Node.id, lab i = l := by
      intro l
      rw [hkeys.mem_iff, List.mem_dedup, List.mem_map]
    have hlen : ((s.nodes.map Node.id).length : ℚ) = (s.nodes.length : ℚ) := by simp
    generalize s.nodes.map Node.id = ids at he hkm hlen ⊢
    obtain ⟨hp, ho⟩ := hs (keys.mapIdx (fun k l =>
      ({ id := k, nodes := ids.filter (fun i => decide (lab i = l)),
         score := ((ids.filter (fun i => decide (lab i = l))).length : ℚ) / ids.length } : Community)))
    refine ⟨?_, ?_, ?_, ho⟩
    · refine (flatMap_perm' _ hp).trans ?_
      have : (keys.mapIdx (fun k l =>
          ({ id := k, nodes := ids.filter (fun i => decide (lab i = l)),
             score := ((ids.filter (fun i => decide (lab i = l))).length : ℚ) / ids.length } : Community))).flatMap Community.nodes =
          keys.flatMap (fun l => ids.filter (fun i => decide (lab i = l))) := by
        rw [List.mapIdx_eq_zipIdx_map, List.flatMap_map]
        have h1 : keys = keys.zipIdx.map Prod.fst := by simp
        conv_rhs => rw [h1, List.flatMap_map]
      rw [this]
      exact groups_perm ids keys lab hkn (fun i hi => (hkm _).2 ⟨i, hi, rfl⟩)
    · intro c hc
      have hc' := hp.mem_iff.1 hc
      rw [List.mem_mapIdx] at hc'
      obtain ⟨k, hk, rfl⟩ := hc'
      obtain ⟨i, hi, hil⟩ := (hkm _).1 (List.getElem_mem hk)
      refine ⟨?_, ?_, ?_⟩
      · simp only
        exact List.ne_nil_of_mem (List.mem_filter.2 ⟨hi, by simpa using hil⟩)
      · simp only
        have hl0 : (ids.length : ℚ) ≠ 0 := by
          have : ids.length ≠ 0 := by rw [Ne, List.length_eq_zero_iff]; exact he
          exact_mod_cast this
        rw [← hlen]
        exact div_mul_cancel₀ _ hl0
      · intro a ha b hb
        simp only [List.mem_filter, decide_eq_true_eq] at ha hb
        have h1 := hlab a
        have h2 := hlab b
        rw [ha.2] at h1
        rw [hb.2] at h2
        exact h1.trans (h2.symm (fun _ _ => Joined.symm))
    · refine ((hp.map Community.id).nodup_iff).2 ?_
      have : (keys.mapIdx (fun k l =>
          ({ id := k, nodes := ids.filter (fun i => decide (lab i = l)),
             score := ((ids.filter (fun i => decide (lab i = l))).length : ℚ) / ids.length } : Community))).map Community.id =
          List.range keys.length := by
        apply List.ext_getElem <;> simp
      rw [this]
      exact List.nodup_range

/-- C46: whatever order maps are visited in, every stored node is in exactly one community, exactly once, and the
communities hold nothing else. -/
theorem C46_communities_partition (ord : Nat → String → List (String × ℚ) → List (String × ℚ)) (groups : List String → List String)
    (sort : List Community → List Community) (hord : ∀ n i l, (ord n i l).Perm l) (hgr : ∀ l, (groups l).Perm l)
    (hs : ∀ l, SortedFrom (fun a b => b.nodes.length ≤ a.nodes.length) l (sort l)) (s : State) :
    ((communities ord groups sort s).flatMap Community.nodes).Perm (s.nodes.map Node.id) ∧
    (∀ c ∈ communities ord groups sort s, c.nodes ≠ []) ∧
    (communities ord groups sort s).Pairwise (fun a b => b.nodes.length ≤ a.nodes.length) :=
  ⟨(communities_spec ord groups sort hord hgr hs s).1,
    fun c hc => ((communities_spec ord groups sort hord hgr hs s).2.1 c hc).1,
    (communities_spec ord groups sort hord hgr hs s).2.2.2⟩

/-- C101: nodes that share a community are connected by edges, whatever the visit orders; the score of a community is its
share of the nodes and the ids are distinct. -/
theorem C101_communities_are_connected (ord : Nat → String → List (String × ℚ) → List (String × ℚ))
    (groups : List String → List String) (sort : List Community → List Community) (hord : ∀ n i l, (ord n i l).Perm l)
    (hgr : ∀ l, (groups l).Perm l) (hs : ∀ l, SortedFrom (fun a b => b.nodes.length ≤ a.nodes.length) l (sort l)) (s : State) :
    (∀ c ∈ communities ord groups sort s, c.score * s.nodes.length = c.nodes.length ∧
      ∀ a ∈ c.nodes, ∀ b ∈ c.nodes, Reach (Joined s) a b) ∧
    ((communities ord groups sort s).map Community.id).Nodup :=
  ⟨fun c hc => ((communities_spec ord groups sort hord hgr hs s).2.1 c hc).2,
    (communities_spec ord groups sort hord hgr hs s).2.2.1⟩

example : communities (fun _ _ l => l) id (insertSort (fun c => c.nodes.length)) small =
    [⟨0, ["a", "b", "c"], 1⟩] := by decide +kernel

/-! ### C47 -/

/-- `l` lists exactly the elements of `P`, each once. -/
def Lists (l : List String) (P : String → Prop) : Prop := l.Nodup ∧ ∀ x, x ∈ l ↔ P x

/-- The score a pair of nodes deserves: the similarity alone when they share no neighbour, otherwise the mean of the
similarity and the number of shared neighbours over one more than the number of neighbours of the first. -/
def PairScore (sim : List ℚ → List ℚ → ℚ) (s : State) (n m : Node) (r : ℚ) : Prop :=
  ∃ nb cn, Lists nb (fun x => Joined s n.id x) ∧ Lists cn (fun x => Joined s n.id x ∧ Joined s m.id x) ∧
    r = if cn = [] then sim n.vec m.vec else (sim n.vec m.vec + (cn.length : ℚ) / ((nb.length : ℚ) + 1)) / 2

theorem Lists.length_eq {l l' : List String} {P : String → Prop} (h : Lists l P) (h' : Lists l' P) : l.length = l'.length :=
  ((List.perm_ext_iff_of_nodup h.1 h'.1).2 (fun x => (h.2 x).trans (h'.2 x).symm)).length_eq

/-- The score is determined by the graph. -/
theorem PairScore.unique {sim : List ℚ → List ℚ → ℚ} {s : State} {n m : Node} {r r' : ℚ} (h : PairScore sim s n m r)
    (h' : PairScore sim s n m r') : r = r' := by
  obtain ⟨nb, cn, h1, h2, rfl⟩ := h
  obtain ⟨nb', cn', h1', h2', rfl⟩ := h'
  have e1 := h1.length_eq h1'
  have e2 := h2.length_eq h2'
  have e3 : cn = [] ↔ cn' = [] := by rw [← List.length_eq_zero_iff, ← List.length_eq_zero_iff, e2]
  by_cases hc : cn = []
  · rw [if_pos hc, if_pos (e3.1 hc)]
  · rw [if_neg hc, if_neg (fun h => hc (e3.2 h)), e1, e2]

theorem predictionFor_spec (sim : List ℚ → List ℚ → ℚ) (s : State) (n m : Node) :
    (predictionFor sim s n m).src = n.id ∧ (predictionFor sim s n m).dst = m.id ∧
    PairScore sim s n m (predictionFor sim s n m).score := by
  have hnb : Lists (adjBoth s n.id).dedup (fun x => Joined s n.id x) :=
    ⟨List.nodup_dedup _, fun x => by rw [List.mem_dedup, mem_adjBoth]⟩
  have hcn : Lists ((adjBoth s n.id).dedup.filter (fun x => decide (x ∈ adjBoth s m.id)))
      (fun x => Joined s n.id x ∧ Joined s m.id x) :=
    ⟨(List.nodup_dedup _).filter _, fun x => by
      rw [List.mem_filter, List.mem_dedup, mem_adjBoth, decide_eq_true_eq, mem_adjBoth]⟩
  unfold predictionFor
  simp only
  split_ifs with h
  · refine ⟨rfl, rfl, _, _, hnb, hcn, ?_⟩
    rw [if_neg (by intro hc; rw [hc] at h; simp at h)]
  · refine ⟨rfl, rfl, _, _, hnb, hcn, ?_⟩
    rw [if_pos (List.length_eq_zero_iff.1 (by omega))]

/-- C47: for every graph, similarity function and limit, `PredictEdges` returns the best `topK` (ten when not positive) of
the pool holding, once each, exactly the stored nodes other than the source that no edge joins to it and whose score is
above one half, best first and with the score the graph determines. -/
theorem C47_predicted_edges (sim : List ℚ → List ℚ → ℚ) (sort : List Prediction → List Prediction)
    (hs : ∀ l, SortedFrom (fun a b => b.score ≤ a.score) l (sort l)) (s : State) (h : Inv s) (n : Node) (hn : n ∈ s.nodes)
    (topK : Int) :
    ∃ out pool, predictEdges sim sort s n.id topK = some out ∧
      IsTopK Prediction.score pool (if topK ≤ 0 then 10 else topK.toNat) out ∧
      (pool.map Prediction.dst).Nodup ∧
      ∀ m ∈ s.nodes, ∀ r, PairScore sim s n m r →
        ((∃ p ∈ pool, p.dst = m.id) ↔ m.id ≠ n.id ∧ ¬ Joined s n.id m.id ∧ r > 1 / 2) ∧
        ∀ p ∈ pool, p.dst = m.id → p.src = n.id ∧ p.score = r := by
  have hg : getNode s n.id = some n := (getNode_mem s h.2 n.id n).2 ⟨hn, rfl⟩
  refine ⟨_, _, by rw [predictEdges, hg], isTopK_take _ _ _ _ (hs _), ?_, ?_⟩
  · have h1 : ((((s.nodes.filter (fun m => decide (¬ (m.id = n.id ∨ m.id ∈ adjBoth s n.id)))).map
        (predictionFor sim s n)).filter (fun p => decide (p.score > 1 / 2))).map Prediction.dst).Sublist
        (s.nodes.map Node.id) := by
      have h2 : ((s.nodes.map (predictionFor sim s n)).map Prediction.dst) = s.nodes.map Node.id := by
        rw [List.map_map]
        apply List.map_congr_left
        intro m _
        exact (predictionFor_spec sim s n m).2.1
      rw [← h2]
      apply List.Sublist.map
      exact List.filter_sublist.trans (List.filter_sublist.map _)
    exact h1.nodup h.2.1
  · have key : ∀ p, p ∈ ((s.nodes.filter (fun m => decide (¬ (m.id = n.id ∨ m.id ∈ adjBoth s n.id)))).map
        (predictionFor sim s n)).filter (fun p => decide (p.score > 1 / 2)) ↔
        ∃ m ∈ s.nodes, m.id ≠ n.id ∧ ¬ Joined s n.id m.id ∧ (predictionFor sim s n m).score > 1 / 2 ∧ predictionFor sim s n m = p := by
      intro p
      simp only [List.mem_filter, List.mem_map, decide_eq_true_eq, mem_adjBoth, not_or]
      constructor
      · rintro ⟨⟨m, ⟨h1, h2, h3⟩, rfl⟩, h4⟩; exact ⟨m, h1, h2, h3, h4, rfl⟩
      · rintro ⟨m, h1, h2, h3, h4, rfl⟩; exact ⟨⟨m, ⟨h1, h2, h3⟩, rfl⟩, h4⟩
    intro m hm r hr
    have hsame : ∀ m' ∈ s.nodes, (predictionFor sim s n m').dst = m.id → m' = m := by
      intro m' hm' he
      rw [(predictionFor_spec sim s n m').2.1] at he
      have h1 := (getNode_mem s h.2 m.id m').2 ⟨hm', he⟩
      have h2 := (getNode_mem s h.2 m.id m).2 ⟨hm, rfl⟩
      rw [h1] at h2
      exact Option.some.inj h2
    have hrs : (predictionFor sim s n m).score = r := (predictionFor_spec sim s n m).2.2.unique hr
    refine ⟨⟨?_, ?_⟩, ?_⟩
    · rintro ⟨p, hp, hpd⟩
      obtain ⟨m', h1, h2, h3, h4, rfl⟩ := (key p).1 hp
      obtain rfl := hsame m' h1 hpd
      exact ⟨h2, h3, hrs ▸ h4⟩
    · rintro ⟨h2, h3, h4⟩
      exact ⟨_, (key _).2 ⟨m, hm, h2, h3, hrs ▸ h4, rfl⟩, (predictionFor_spec sim s n m).2.1⟩
    · intro p hp hpd
      obtain ⟨m', h1, h2, h3, h4, rfl⟩ := (key p).1 hp
      obtain rfl := hsame m' h1 hpd
      exact ⟨(predictionFor_spec sim s n m').1, hrs⟩

/-- C47: an unknown source is an error. -/
theorem C47_unknown_source (sim : List ℚ → List ℚ → ℚ) (sort : List Prediction → List Prediction) (s : State) (i : String)
    (h : ∀ n ∈ s.nodes, n.id ≠ i) (topK : Int) : predictEdges sim sort s i topK = none := by
  have : getNode s i = none := by
    unfold getNode
    rw [List.find?_eq_none]
    intro n hn
    simpa using h n hn
  rw [predictEdges, this]

def far : State := ⟨[typed "a" "", typed "b" "", typed "c" "", typed "d" ""], [link "1" "a" "b", link "2" "c" "b"], none⟩

example : predictEdges (fun _ _ => 4 / 5) (insertSort Prediction.score) far "a" 5 =
    some [⟨"a", "d", 4 / 5, false⟩, ⟨"a", "c", 13 / 20, true⟩] := by decide +kernel

end Verif.Graph
