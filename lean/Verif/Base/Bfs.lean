import Verif.Spec.Walk
import Mathlib.Data.List.Nodup
import Mathlib.Algebra.Order.BigOperators.Group.List

/-!
Two breadth-first searches over an adjacency function, and their correctness. `bfsA` marks a node when it is put in the
queue, `bfsB` when it is taken out. Both run on fuel and answer `none` when it runs out; enough fuel is shown to exist.
-/
namespace Verif.Bfs
open Verif.Spec

variable {α : Type} [DecidableEq α]

/-! ### Marking on entry -/

def addA (M d : Nat) (x : List α × List (α × Nat)) (v : α) : List α × List (α × Nat) :=
  if v ∈ x.1 then x else (x.1 ++ [v], if d + 1 < M then x.2 ++ [(v, d + 1)] else x.2)

def bfsA (adj : α → List α) (M : Nat) : Nat → List α → List (α × Nat) → Option (List α)
  | _, vis, [] => some vis
  | 0, _, _ :: _ => none
  | n + 1, vis, (u, d) :: q =>
    if d ≥ M then bfsA adj M n vis q
    else bfsA adj M n ((adj u).foldl (addA M d) (vis, q)).1 ((adj u).foldl (addA M d) (vis, q)).2

/-- The entries of a list that are not yet seen, once each. -/
def fresh : List α → List α → List α
  | _, [] => []
  | vis, v :: l => if v ∈ vis then fresh vis l else v :: fresh (vis ++ [v]) l

theorem mem_fresh (vis l : List α) (v : α) : v ∈ fresh vis l ↔ v ∈ l ∧ v ∉ vis := by
  induction l generalizing vis with
  | nil => simp [fresh]
  | cons a l ih =>
    simp only [fresh]
    split_ifs with h
    · rw [ih]
      constructor
      · rintro ⟨h1, h2⟩; exact ⟨List.mem_cons_of_mem _ h1, h2⟩
      · rintro ⟨h1, h2⟩
        rcases List.mem_cons.1 h1 with rfl | h1
        · exact absurd h h2
        · exact ⟨h1, h2⟩
    · simp only [List.mem_cons, ih, List.mem_append, not_or, List.not_mem_nil, not_false_eq_true, and_true]
      constructor
      · rintro (rfl | ⟨h1, h2, -⟩)
        · exact ⟨Or.inl rfl, h⟩
        · exact ⟨Or.inr h1, h2⟩
      · rintro ⟨rfl | h1, h2⟩
        · exact Or.inl rfl
        · by_cases hv : v = a
          · exact Or.inl hv
          · exact Or.inr ⟨h1, h2, hv⟩

theorem nodup_append_fresh (vis l : List α) (h : vis.Nodup) : (vis ++ fresh vis l).Nodup := by
  induction l generalizing vis with
  | nil => simpa [fresh] using h
  | cons a l ih =>
    simp only [fresh]
    split_ifs with h1
    · exact ih vis h
    · have h2 : (vis ++ [a]).Nodup := by
        rw [List.nodup_append]
        refine ⟨h, List.nodup_singleton a, ?_⟩
        intro x hx b hb
        simp only [List.mem_singleton] at hb
        subst hb
        intro hxb
        exact h1 (hxb ▸ hx)
      have := ih _ h2
      simpa using this

theorem fresh_append (vis a b : List α) : fresh vis (a ++ b) = fresh vis a ++ fresh (vis ++ fresh vis a) b := by
  induction a generalizing vis with
  | nil => simp [fresh]
  | cons x a ih =>
    simp only [List.cons_append, fresh]
    split_ifs with h
    · rw [ih]
    · rw [ih]; simp

theorem fold_addA (M d : Nat) (vis : List α) (q : List (α × Nat)) (l : List α) :
    l.foldl (addA M d) (vis, q) =
      (vis ++ fresh vis l, if d + 1 < M then q ++ (fresh vis l).map (fun v => (v, d + 1)) else q) := by
  induction l generalizing vis q with
  | nil => simp [fresh]
  | cons a l ih =>
    simp only [List.foldl_cons, fresh]
    by_cases h : a ∈ vis
    · simp only [addA, h, if_true]
      exact ih vis q
    · simp only [addA, h, if_false]
      rw [ih]
      by_cases hd : d + 1 < M <;> simp [hd]

def tagged (d : Nat) (l : List α) : List (α × Nat) := l.map (fun v => (v, d))

theorem bfsA_level (adj : α → List α) (M d : Nat) (hd : d < M) (L : List α) :
    ∀ (n : Nat) (vis acc r : List α), (d + 1 < M ∨ acc = []) →
      bfsA adj M n vis (tagged d L ++ tagged (d + 1) acc) = some r →
      ∃ n', bfsA adj M n' (vis ++ fresh vis (L.flatMap adj))
        (tagged (d + 1) acc ++ if d + 1 < M then tagged (d + 1) (fresh vis (L.flatMap adj)) else []) = some r := by
  induction L with
  | nil =>
    intro n vis acc r _ h
    refine ⟨n, ?_⟩
    simpa [fresh, tagged] using h
  | cons u L ih =>
    intro n vis acc r ha h
    cases n with
    | zero => simp [tagged, bfsA] at h
    | succ n =>
      simp only [tagged, List.map_cons, List.cons_append, bfsA, ge_iff_le, Nat.not_le.2 hd, if_false, fold_addA] at h
      have step : ∃ acc', (d + 1 < M ∨ acc' = []) ∧
          acc' = acc ++ (if d + 1 < M then fresh vis (adj u) else []) ∧
          bfsA adj M n (vis ++ fresh vis (adj u)) (tagged d L ++ tagged (d + 1) acc') = some r := by
        by_cases hm : d + 1 < M
        · refine ⟨_, Or.inl hm, rfl, ?_⟩
          rw [if_pos hm] at h ⊢
          simpa [tagged] using h
        · have hacc : acc = [] := by rcases ha with h1 | h1; exact absurd h1 hm; exact h1
          refine ⟨[], Or.inr rfl, by simp [hm, hacc], ?_⟩
          rw [if_neg hm] at h
          subst hacc
          simpa [tagged] using h
      obtain ⟨acc', h1, h2, h3⟩ := step
      obtain ⟨n', h4⟩ := ih n _ acc' r h1 h3
      refine ⟨n', ?_⟩
      rw [List.flatMap_cons, fresh_append]
      subst h2
      by_cases hm : d + 1 < M
      · simpa [hm, tagged] using h4
      · simpa [hm, tagged] using h4

/-- With enough fuel the first search finds exactly the nodes within `M` steps, once each. -/
theorem bfsA_correct (adj : α → List α) (M : Nat) (hM : 0 < M) (s : α) (n : Nat) (r : List α)
    (h : bfsA adj M n [s] [(s, 0)] = some r) :
    r.Nodup ∧ (∃ t, r = s :: t) ∧ ∀ v, v ∈ r ↔ Within (fun a b => b ∈ adj a) M s v := by
  have key : ∀ (j d n : Nat) (vis L : List α), d + j + 1 = M → vis.Nodup → (∃ t, vis = s :: t) →
      (∀ v, v ∈ vis ↔ Within (fun a b => b ∈ adj a) d s v) → (∀ v ∈ L, v ∈ vis) →
      (∀ v ∈ vis, v ∉ L → ∀ w ∈ adj v, w ∈ vis) →
      bfsA adj M n vis (tagged d L) = some r →
      r.Nodup ∧ (∃ t, r = s :: t) ∧ ∀ v, v ∈ r ↔ Within (fun a b => b ∈ adj a) M s v := by
    intro j
    induction j with
    | zero =>
      intro d n vis L hd hn hp hv hL hc hr
      obtain ⟨n', h1⟩ := bfsA_level adj M d (by omega) L n vis [] r (Or.inr rfl) (by simpa [tagged] using hr)
      have hm : ¬ d + 1 < M := by omega
      simp only [hm, if_false, tagged, List.map_nil, List.nil_append, bfsA, Option.some.injEq] at h1
      subst h1
      refine ⟨nodup_append_fresh _ _ hn, ?_, ?_⟩
      · obtain ⟨t, rfl⟩ := hp; exact ⟨_, rfl⟩
      · intro v
        have : M = d + 1 := by omega
        rw [this, within_succ]
        rw [List.mem_append, mem_fresh, hv]
        simp only [List.mem_flatMap]
        constructor
        · rintro (h1 | ⟨⟨u, hu, hw⟩, -⟩)
          · exact Or.inl h1
          · exact Or.inr ⟨u, (hv u).1 (hL u hu), hw⟩
        · rintro (h1 | ⟨c, h1, h2⟩)
          · exact Or.inl h1
          · by_cases hvv : v ∈ vis
            · exact Or.inl ((hv v).1 hvv)
            · right
              refine ⟨⟨c, ?_, h2⟩, fun h => hvv ((hv v).2 h)⟩
              by_contra hcL
              exact hvv (hc c ((hv c).2 h1) hcL v h2)
    | succ j ih =>
      intro d n vis L hd hn hp hv hL hc hr
      obtain ⟨n', h1⟩ := bfsA_level adj M d (by omega) L n vis [] r (Or.inl (by omega)) (by simpa [tagged] using hr)
      have hm : d + 1 < M := by omega
      simp only [hm, if_true] at h1
      refine ih (d + 1) n' _ (fresh vis (L.flatMap adj)) (by omega) (nodup_append_fresh _ _ hn) ?_ ?_ ?_ ?_
        (by simpa [tagged] using h1)
      · obtain ⟨t, rfl⟩ := hp; exact ⟨_, rfl⟩
      · intro v
        rw [within_succ, List.mem_append, mem_fresh, hv]
        simp only [List.mem_flatMap]
        constructor
        · rintro (h1 | ⟨⟨u, hu, hw⟩, -⟩)
          · exact Or.inl h1
          · exact Or.inr ⟨u, (hv u).1 (hL u hu), hw⟩
        · rintro (h1 | ⟨c, h1, h2⟩)
          · exact Or.inl h1
          · by_cases hvv : v ∈ vis
            · exact Or.inl ((hv v).1 hvv)
            · right
              refine ⟨⟨c, ?_, h2⟩, fun h => hvv ((hv v).2 h)⟩
              by_contra hcL
              exact hvv (hc c ((hv c).2 h1) hcL v h2)
      · intro v hvf; exact List.mem_append_right _ hvf
      · intro v hvm hvf w hw
        rcases List.mem_append.1 hvm with h2 | h2
        · by_cases hvL : v ∈ L
          · by_cases hwv : w ∈ vis
            · exact List.mem_append_left _ hwv
            · exact List.mem_append_right _ ((mem_fresh _ _ _).2 ⟨List.mem_flatMap.2 ⟨v, hvL, hw⟩, hwv⟩)
          · exact List.mem_append_left _ (hc v h2 hvL w hw)
        · exact absurd h2 hvf
  refine key (M - 1) 0 n [s] [s] (by omega) (List.nodup_singleton s) ⟨[], rfl⟩ ?_ ?_ ?_ h
  · intro v; rw [within_zero]; simp
  · simp
  · intro v hv1 hv2; exact absurd hv1 hv2

theorem unseen_append (univ vis N : List α) (hN : N.Nodup) (hd : ∀ v ∈ N, v ∈ univ ∧ v ∉ vis) :
    N.length + (univ.filter (fun v => decide (v ∉ vis ++ N))).length ≤ (univ.filter (fun v => decide (v ∉ vis))).length := by
  have h1 : (univ.filter (fun v => decide (v ∉ vis))).length =
      ((univ.filter (fun v => decide (v ∉ vis))).filter (fun v => decide (v ∈ N))).length +
      ((univ.filter (fun v => decide (v ∉ vis))).filter (fun v => !decide (v ∈ N))).length :=
    List.length_eq_length_filter_add _
  have h2 : (univ.filter (fun v => decide (v ∉ vis))).filter (fun v => !decide (v ∈ N)) =
      univ.filter (fun v => decide (v ∉ vis ++ N)) := by
    rw [List.filter_filter]
    apply List.filter_congr
    intro v _
    by_cases h1 : v ∈ vis <;> by_cases h2 : v ∈ N <;> simp [h1, h2]
  have h3 : N.length ≤ ((univ.filter (fun v => decide (v ∉ vis))).filter (fun v => decide (v ∈ N))).length := by
    apply List.Subperm.length_le
    apply List.subperm_of_subset hN
    intro v hv
    simp only [List.mem_filter, decide_eq_true_eq]
    exact ⟨hd v hv, hv⟩
  rw [h2] at h1
  omega

theorem fresh_nodup (vis l : List α) : (fresh vis l).Nodup := by
  induction l generalizing vis with
  | nil => exact List.nodup_nil
  | cons a l ih =>
    simp only [fresh]
    split_ifs
    · exact ih vis
    · rw [List.nodup_cons]
      refine ⟨?_, ih _⟩
      rw [mem_fresh]
      simp

/-- The first search ends: each step takes one entry from the queue and each entry was unseen before. -/
theorem bfsA_fuel (adj : α → List α) (M : Nat) (univ : List α) (hu : ∀ a, ∀ b ∈ adj a, b ∈ univ) :
    ∀ (n : Nat) (vis : List α) (q : List (α × Nat)),
      q.length + (univ.filter (fun v => decide (v ∉ vis))).length ≤ n → ∃ r, bfsA adj M n vis q = some r := by
  intro n
  induction n with
  | zero =>
    intro vis q h
    have : q = [] := List.length_eq_zero_iff.1 (by omega)
    subst this
    exact ⟨vis, rfl⟩
  | succ n ih =>
    intro vis q h
    cases q with
    | nil => exact ⟨vis, rfl⟩
    | cons x q =>
      obtain ⟨u, d⟩ := x
      simp only [bfsA]
      split_ifs with hd
      · exact ih vis q (by simp only [List.length_cons] at h; omega)
      · rw [fold_addA]
        apply ih
        have h1 := unseen_append univ vis (fresh vis (adj u)) (fresh_nodup _ _)
          (fun v hv => ⟨hu u v ((mem_fresh _ _ _).1 hv).1, ((mem_fresh _ _ _).1 hv).2⟩)
        simp only [List.length_cons] at h
        split_ifs
        · simp only [List.length_append, List.length_map]; omega
        · simp only; omega

/-! ### Marking on exit -/

section B
variable {π : Type}

def bfsB (succ : α → π → List (α × π)) (stop : π → Bool) (t : α) : Nat → List α → List (α × π) → Option (Option (α × π))
  | _, _, [] => some none
  | 0, _, _ :: _ => none
  | n + 1, vis, (u, p) :: q =>
    if u = t then some (some (u, p))
    else if stop p then bfsB succ stop t n vis q
    else if u ∈ vis then bfsB succ stop t n vis q
    else bfsB succ stop t n (u :: vis) (q ++ (succ u p).filter (fun x => decide (x.1 ∉ u :: vis)))

/-- What can be put in the queue. -/
inductive Deriv (succ : α → π → List (α × π)) (s : α) (p0 : π) : α → π → Prop
  | start : Deriv succ s p0 s p0
  | step {u p v p'} : Deriv succ s p0 u p → (v, p') ∈ succ u p → Deriv succ s p0 v p'

theorem bfsB_found (succ : α → π → List (α × π)) (stop : π → Bool) (t : α) (L : List (α × π)) :
    ∀ (n : Nat) (vis : List α) (acc : List (α × π)) (r : Option (α × π)), (∃ p, (t, p) ∈ L) →
      bfsB succ stop t n vis (L ++ acc) = some r → ∃ p, r = some (t, p) ∧ (t, p) ∈ L := by
  induction L with
  | nil => rintro _ _ _ _ ⟨p, hp⟩; simp at hp
  | cons x L ih =>
    intro n vis acc r ht h
    obtain ⟨u, p⟩ := x
    cases n with
    | zero => simp [bfsB] at h
    | succ n =>
      simp only [List.cons_append, bfsB] at h
      by_cases hu : u = t
      · rw [if_pos hu] at h
        subst hu
        simp only [Option.some.injEq] at h
        exact ⟨p, h.symm, List.mem_cons_self⟩
      · rw [if_neg hu] at h
        have ht' : ∃ p, (t, p) ∈ L := by
          obtain ⟨p', hp'⟩ := ht
          rcases List.mem_cons.1 hp' with h1 | h1
          · simp only [Prod.mk.injEq] at h1; exact absurd h1.1.symm hu
          · exact ⟨p', h1⟩
        have fin : ∀ vis' acc', bfsB succ stop t n vis' (L ++ acc') = some r → ∃ p', r = some (t, p') ∧ (t, p') ∈ (u, p) :: L := by
          intro vis' acc' h'
          obtain ⟨p', h1, h2⟩ := ih n vis' acc' r ht' h'
          exact ⟨p', h1, List.mem_cons_of_mem _ h2⟩
        split_ifs at h
        · exact fin _ _ h
        · exact fin _ _ h
        · rw [List.append_assoc] at h
          exact fin _ _ h

theorem bfsB_stopped (succ : α → π → List (α × π)) (stop : π → Bool) (t : α) (L : List (α × π)) :
    ∀ (n : Nat) (vis : List α) (r : Option (α × π)), (∀ p, (t, p) ∉ L) → (∀ x ∈ L, stop x.2 = true) →
      bfsB succ stop t n vis L = some r → r = none := by
  induction L with
  | nil => intro n vis r _ _ h; simpa [bfsB] using h.symm
  | cons x L ih =>
    intro n vis r ht hs h
    obtain ⟨u, p⟩ := x
    cases n with
    | zero => simp [bfsB] at h
    | succ n =>
      simp only [bfsB] at h
      have hu : u ≠ t := by rintro rfl; exact ht p List.mem_cons_self
      rw [if_neg hu, if_pos (by simpa using hs (u, p) List.mem_cons_self)] at h
      exact ih n vis r (fun p' hp' => ht p' (List.mem_cons_of_mem _ hp')) (fun x hx => hs x (List.mem_cons_of_mem _ hx)) h

theorem bfsB_level (adj : α → List α) (succ : α → π → List (α × π)) (hadj : ∀ u p, (succ u p).map Prod.fst = adj u)
    (stop : π → Bool) (t : α) (L : List (α × π)) :
    ∀ (n : Nat) (vis : List α) (acc : List (α × π)) (r : Option (α × π)), (∀ p, (t, p) ∉ L) → (∀ x ∈ L, stop x.2 = false) →
      bfsB succ stop t n vis (L ++ acc) = some r →
      ∃ n' vis' acc', (n' + L.length = n) ∧ bfsB succ stop t n' vis' (acc ++ acc') = some r ∧
        (∀ v, v ∈ vis' ↔ v ∈ vis ∨ ∃ p, (v, p) ∈ L) ∧
        (∀ x ∈ acc', ∃ u p, (u, p) ∈ L ∧ x ∈ succ u p ∧ x.1 ∉ vis) ∧
        (∀ u p, (u, p) ∈ L → u ∉ vis → ∀ w ∈ adj u, w ∉ vis' → ∃ p', (w, p') ∈ acc') := by
  induction L with
  | nil =>
    intro n vis acc r _ _ h
    exact ⟨n, vis, [], rfl, by simpa using h, by simp, by simp, by simp⟩
  | cons x L ih =>
    intro n vis acc r ht hs h
    obtain ⟨u, p⟩ := x
    cases n with
    | zero => simp [bfsB] at h
    | succ n =>
      simp only [List.cons_append, bfsB] at h
      have hu : u ≠ t := by rintro rfl; exact ht p List.mem_cons_self
      have hsp : stop p = false := by simpa using hs (u, p) List.mem_cons_self
      rw [if_neg hu, if_neg (by simp [hsp])] at h
      have ht' : ∀ p', (t, p') ∉ L := fun p' hp' => ht p' (List.mem_cons_of_mem _ hp')
      have hs' : ∀ x ∈ L, stop x.2 = false := fun x hx => hs x (List.mem_cons_of_mem _ hx)
      by_cases hv : u ∈ vis
      · rw [if_pos hv] at h
        obtain ⟨n', vis', acc', e, g, g1, g2, g3⟩ := ih n vis acc r ht' hs' h
        refine ⟨n', vis', acc', by simp only [List.length_cons]; omega, g, ?_, ?_, ?_⟩
        · intro v
          rw [g1]
          constructor
          · rintro (h1 | ⟨p', h1⟩)
            · exact Or.inl h1
            · exact Or.inr ⟨p', List.mem_cons_of_mem _ h1⟩
          · rintro (h1 | ⟨p', h1⟩)
            · exact Or.inl h1
            · rcases List.mem_cons.1 h1 with h1 | h1
              · simp only [Prod.mk.injEq] at h1; exact Or.inl (h1.1 ▸ hv)
              · exact Or.inr ⟨p', h1⟩
        · intro x hx
          obtain ⟨u', p', h1, h2⟩ := g2 x hx
          exact ⟨u', p', List.mem_cons_of_mem _ h1, h2⟩
        · intro u' p' h1 h2 w hw hw'
          rcases List.mem_cons.1 h1 with h1 | h1
          · simp only [Prod.mk.injEq] at h1; exact absurd (h1.1 ▸ hv) h2
          · exact g3 u' p' h1 h2 w hw hw'
      · rw [if_neg hv, List.append_assoc] at h
        obtain ⟨n', vis', acc', e, g, g1, g2, g3⟩ := ih n (u :: vis) _ r ht' hs' h
        refine ⟨n', vis', (succ u p).filter (fun x => decide (x.1 ∉ u :: vis)) ++ acc',
          by simp only [List.length_cons]; omega, by rw [List.append_assoc] at g; exact g, ?_, ?_, ?_⟩
        · intro v
          rw [g1]
          constructor
          · rintro (h1 | ⟨p', h1⟩)
            · rcases List.mem_cons.1 h1 with rfl | h1
              · exact Or.inr ⟨p, List.mem_cons_self⟩
              · exact Or.inl h1
            · exact Or.inr ⟨p', List.mem_cons_of_mem _ h1⟩
          · rintro (h1 | ⟨p', h1⟩)
            · exact Or.inl (List.mem_cons_of_mem _ h1)
            · rcases List.mem_cons.1 h1 with h1 | h1
              · simp only [Prod.mk.injEq] at h1; exact Or.inl (h1.1 ▸ List.mem_cons_self)
              · exact Or.inr ⟨p', h1⟩
        · intro x hx
          rcases List.mem_append.1 hx with hx | hx
          · simp only [List.mem_filter, decide_eq_true_eq, List.mem_cons, not_or] at hx
            exact ⟨u, p, List.mem_cons_self, hx.1, hx.2.2⟩
          · obtain ⟨u', p', h1, h2, h3⟩ := g2 x hx
            exact ⟨u', p', List.mem_cons_of_mem _ h1, h2, fun h4 => h3 (List.mem_cons_of_mem _ h4)⟩
        · intro u' p' h1 h2 w hw hw'
          by_cases hu' : u' = u
          · subst hu'
            have : w ∈ (succ u' p).map Prod.fst := by rw [hadj]; exact hw
            simp only [List.mem_map] at this
            obtain ⟨⟨w', q⟩, hq, rfl⟩ := this
            refine ⟨q, List.mem_append_left _ ?_⟩
            simp only [List.mem_filter, decide_eq_true_eq]
            refine ⟨hq, fun h3 => hw' ((g1 _).2 (Or.inl h3))⟩
          · have h1' : (u', p') ∈ L := by
              rcases List.mem_cons.1 h1 with h1 | h1
              · simp only [Prod.mk.injEq] at h1; exact absurd h1.1 hu'
              · exact h1
            have h2' : u' ∉ u :: vis := by simp [hu', h2]
            obtain ⟨q, hq⟩ := g3 u' p' h1' h2' w hw hw'
            exact ⟨q, List.mem_append_right _ hq⟩

/-- The second search: what it finds was reached by a derivation of least depth; if it finds nothing no walk within the depth
limit reaches the target. -/
theorem bfsB_correct (adj : α → List α) (succ : α → π → List (α × π)) (hadj : ∀ u p, (succ u p).map Prod.fst = adj u)
    (depth : π → Nat) (hdep : ∀ u p x, x ∈ succ u p → depth x.2 = depth p + 1) (lim : Option Nat) (s t : α) (p0 : π)
    (h0 : depth p0 = 0) (n : Nat) (r : Option (α × π))
    (h : bfsB succ (fun p => lim.any (fun M => decide (M ≤ depth p))) t n [] [(s, p0)] = some r) :
    (∀ x, r = some x → x.1 = t ∧ Deriv succ s p0 t x.2 ∧ (∀ M ∈ lim, depth x.2 ≤ M) ∧
      ∀ k, Walk (fun a b => b ∈ adj a) s k t → depth x.2 ≤ k) ∧
    (r = none → ∀ k, (∀ M ∈ lim, k ≤ M) → ¬ Walk (fun a b => b ∈ adj a) s k t) := by
  have hwalk : ∀ u p, Deriv succ s p0 u p → Walk (fun a b => b ∈ adj a) s (depth p) u := by
    intro u p hd
    induction hd with
    | start => rw [h0]; exact .nil
    | step hd hx ih =>
      rw [hdep _ _ _ hx]
      refine .snoc ih ?_
      rw [← hadj _ _]
      exact List.mem_map_of_mem (f := Prod.fst) hx
  have key : ∀ (n d : Nat) (vis : List α) (L : List (α × π)),
      (∀ M ∈ lim, d ≤ M) →
      (∀ x ∈ L, Deriv succ s p0 x.1 x.2 ∧ depth x.2 = d) →
      (∀ v, v ∈ vis ↔ ∃ k, k < d ∧ Walk (fun a b => b ∈ adj a) s k v) →
      (∀ v, Walk (fun a b => b ∈ adj a) s d v → v ∉ vis → ∃ p, (v, p) ∈ L) →
      t ∉ vis →
      bfsB succ (fun p => lim.any (fun M => decide (M ≤ depth p))) t n vis L = some r →
      (∀ x, r = some x → x.1 = t ∧ Deriv succ s p0 t x.2 ∧ (∀ M ∈ lim, depth x.2 ≤ M) ∧
        ∀ k, Walk (fun a b => b ∈ adj a) s k t → depth x.2 ≤ k) ∧
      (r = none → ∀ k, (∀ M ∈ lim, k ≤ M) → ¬ Walk (fun a b => b ∈ adj a) s k t) := by
    intro n
    induction n using Nat.strong_induction_on with
    | _ n ih =>
      intro d vis L hlim hL hvis hall ht hr
      by_cases hfound : ∃ p, (t, p) ∈ L
      · obtain ⟨p, rfl, hp⟩ := bfsB_found succ _ t L n vis [] r hfound (by simpa using hr)
        refine ⟨?_, by simp⟩
        intro x hx
        simp only [Option.some.injEq] at hx
        subst hx
        obtain ⟨h1, h2⟩ := hL _ hp
        refine ⟨rfl, h1, ?_, ?_⟩
        · intro M hM; simp only at h2 ⊢; rw [h2]; exact hlim M hM
        · intro k hk
          simp only at h2 ⊢
          rw [h2]
          by_contra hlt
          exact ht ((hvis t).2 ⟨k, by omega, hk⟩)
      · have hno : ∀ p, (t, p) ∉ L := fun p hp => hfound ⟨p, hp⟩
        have hnt : ¬ Walk (fun a b => b ∈ adj a) s d t := fun w => hfound (hall t w ht)
        by_cases hstop : ∃ M ∈ lim, d = M
        · obtain ⟨M, hM, rfl⟩ := hstop
          simp only [Option.mem_def] at hM
          have hs : ∀ x ∈ L, (fun p => lim.any (fun M => decide (M ≤ depth p))) x.2 = true := by
            intro x hx
            simp [hM, (hL x hx).2]
          have hrn := bfsB_stopped succ _ t L n vis r hno hs hr
          refine ⟨by simp [hrn], ?_⟩
          intro _ k hk w
          have hkd := hk d hM
          rcases Nat.lt_or_ge k d with h1 | h1
          · exact ht ((hvis t).2 ⟨k, h1, w⟩)
          · obtain rfl : k = d := by omega
            exact hnt w
        · have hs : ∀ x ∈ L, (fun p => lim.any (fun M => decide (M ≤ depth p))) x.2 = false := by
            intro x hx
            cases hl : lim with
            | none => simp
            | some M =>
              have h1 := hlim M (by simp [hl])
              have h2 : d ≠ M := fun h => hstop ⟨M, by simp [hl], h⟩
              have h3 := (hL x hx).2
              simp only [Option.any_some, decide_eq_false_iff_not]
              omega
          by_cases hLe : L = []
          · subst hLe
            have hrn : r = none := by simpa [bfsB] using hr.symm
            refine ⟨by simp [hrn], ?_⟩
            intro _ k _ w
            have : Reach (fun a b => b ∈ adj a) s t := ⟨k, w⟩
            have hd0 : ∃ k, k < d ∧ Walk (fun a b => b ∈ adj a) s k s := by
              refine ⟨0, ?_, .nil⟩
              rcases Nat.eq_zero_or_pos d with h1 | h1
              · subst h1
                have hsv : s ∉ vis := by rw [hvis]; rintro ⟨k, hk, -⟩; omega
                obtain ⟨p, hp⟩ := hall s .nil hsv
                simp at hp
              · exact h1
            have := reach_closed (fun v => v ∈ vis) ((hvis s).2 hd0) ?_ this
            · exact ht this
            · intro x y hx hxy
              obtain ⟨k, hk, w⟩ := (hvis x).1 hx
              by_contra hy
              rcases Nat.lt_or_ge (k + 1) d with h1 | h1
              · exact hy ((hvis y).2 ⟨k + 1, h1, .snoc w hxy⟩)
              · obtain rfl : k + 1 = d := by omega
                obtain ⟨p, hp⟩ := hall y (.snoc w hxy) hy
                simp at hp
          · obtain ⟨n', vis', acc', e, g, g1, g2, g3⟩ :=
              bfsB_level adj succ hadj (fun p => lim.any (fun M => decide (M ≤ depth p))) t L n vis [] r hno hs (by simpa using hr)
            have hlen : 0 < L.length := List.length_pos_iff.2 hLe
            have hLw : ∀ v p, (v, p) ∈ L → Walk (fun a b => b ∈ adj a) s d v := by
              intro v p hp
              obtain ⟨h1, h2⟩ := hL _ hp
              have := hwalk _ _ h1
              simp only at h2 this
              rwa [h2] at this
            have hv' : ∀ v, v ∈ vis' ↔ ∃ k, k < d + 1 ∧ Walk (fun a b => b ∈ adj a) s k v := by
              intro v
              rw [g1]
              constructor
              · rintro (h1 | ⟨p, h1⟩)
                · obtain ⟨k, hk, w⟩ := (hvis v).1 h1; exact ⟨k, by omega, w⟩
                · exact ⟨d, by omega, hLw v p h1⟩
              · rintro ⟨k, hk, w⟩
                by_cases hvv : v ∈ vis
                · exact Or.inl hvv
                · right
                  rcases Nat.lt_or_ge k d with h1 | h1
                  · exact absurd ((hvis v).2 ⟨k, h1, w⟩) hvv
                  · obtain rfl : k = d := by omega
                    exact hall v w hvv
            refine ih n' (by omega) (d + 1) vis' acc' ?_ ?_ hv' ?_ ?_ (by simpa using g)
            · intro M hM
              have h1 := hlim M hM
              have h2 : d ≠ M := fun h => hstop ⟨M, hM, h⟩
              omega
            · intro x hx
              obtain ⟨u, p, h1, h2, -⟩ := g2 x hx
              obtain ⟨h3, h4⟩ := hL _ h1
              refine ⟨.step h3 h2, ?_⟩
              rw [hdep _ _ _ h2]
              simp only at h4
              omega
            · intro v hw hv
              cases hw with
              | snoc w hvb =>
                rename_i b
                have hb : ∀ k, k < d → ¬ Walk (fun a b => b ∈ adj a) s k b := by
                  intro k hk w'
                  exact hv ((hv' v).2 ⟨k + 1, by omega, .snoc w' hvb⟩)
                have hbv : b ∉ vis := by
                  intro h1
                  obtain ⟨k, hk, w'⟩ := (hvis b).1 h1
                  exact hb k hk w'
                obtain ⟨p, hp⟩ := hall b w hbv
                exact g3 b p hp hbv v hvb hv
            · rw [g1]
              rintro (h1 | ⟨p, h1⟩)
              · exact ht h1
              · exact hno p h1
  refine key n 0 [] [(s, p0)] (fun _ _ => Nat.zero_le _) ?_ ?_ ?_ (by simp) h
  · intro x hx
    simp only [List.mem_singleton] at hx
    subst hx
    exact ⟨.start, h0⟩
  · intro v
    constructor
    · intro hv; simp at hv
    · rintro ⟨k, hk, -⟩; omega
  · intro v hw _
    rw [walk_zero] at hw
    subst hw
    exact ⟨p0, List.mem_singleton.2 rfl⟩

/-- The second search ends. -/
theorem bfsB_fuel (adj : α → List α) (succ : α → π → List (α × π)) (hadj : ∀ u p, (succ u p).map Prod.fst = adj u)
    (stop : π → Bool) (t : α) (univ : List α) (hnd : univ.Nodup) (hu : ∀ a, a ∉ univ → adj a = []) :
    ∀ (n : Nat) (vis : List α) (q : List (α × π)),
      q.length + ((univ.filter (fun v => decide (v ∉ vis))).map (fun v => (adj v).length)).sum ≤ n →
      ∃ r, bfsB succ stop t n vis q = some r := by
  intro n
  induction n with
  | zero =>
    intro vis q h
    have : q = [] := List.length_eq_zero_iff.1 (by omega)
    subst this
    exact ⟨none, rfl⟩
  | succ n ih =>
    intro vis q h
    cases q with
    | nil => exact ⟨none, rfl⟩
    | cons x q =>
      obtain ⟨u, p⟩ := x
      simp only [List.length_cons] at h
      simp only [bfsB]
      split_ifs with h1 h2 h3
      · exact ⟨_, rfl⟩
      · exact ih vis q (by omega)
      · exact ih vis q (by omega)
      · apply ih
        have hl : ((succ u p).filter (fun x => decide (x.1 ∉ u :: vis))).length ≤ (adj u).length := by
          have := List.length_filter_le (fun x => decide (x.1 ∉ u :: vis)) (succ u p)
          have e : (succ u p).length = (adj u).length := by rw [← hadj u p, List.length_map]
          omega
        have hsum : (adj u).length + ((univ.filter (fun v => decide (v ∉ u :: vis))).map (fun v => (adj v).length)).sum ≤
            ((univ.filter (fun v => decide (v ∉ vis))).map (fun v => (adj v).length)).sum := by
          by_cases hin : u ∈ univ
          · have hf : u ∈ univ.filter (fun v => decide (v ∉ vis)) := List.mem_filter.2 ⟨hin, by simpa using h3⟩
            have hperm := List.perm_cons_erase hf
            have he : (univ.filter (fun v => decide (v ∉ vis))).erase u = univ.filter (fun v => decide (v ∉ u :: vis)) := by
              rw [List.Nodup.erase_eq_filter (hnd.filter _), List.filter_filter]
              apply List.filter_congr
              intro v _
              by_cases hv1 : v = u <;> by_cases hv2 : v ∈ vis <;> simp [hv1, hv2]
            rw [he] at hperm
            have := (hperm.map (fun v => (adj v).length)).sum_eq
            rw [this]
            simp
          · rw [hu u hin]
            have he : univ.filter (fun v => decide (v ∉ u :: vis)) = univ.filter (fun v => decide (v ∉ vis)) := by
              apply List.filter_congr
              intro v hv
              have : v ≠ u := by rintro rfl; exact hin hv
              simp [this]
            rw [he]
            simp
        simp only [List.length_append]
        omega
end B

end Verif.Bfs
