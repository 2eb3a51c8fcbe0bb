import Mathlib.Algebra.Order.Field.Rat
import Mathlib.Data.List.Perm.Basic
import Mathlib.Tactic.Linarith

/-!
Go's container/heap on a slice, used by /repo/pkg/index/hnsw.go, flat.go and others: `Push`, `Pop` and the two repair loops as
they are written in the library, with a proof that `Pop` delivers a least element and keeps the rest.
-/
namespace Verif.Base

variable {α : Type}

/-- `Swap(i, j)`. -/
def hswap (l : List α) (i j : Nat) : List α :=
  match l[i]?, l[j]? with
  | some a, some b => (l.set i b).set j a
  | _, _ => l

/-- `Less(i, j)`; out of range it is false (Go would panic; the loops stay in range). -/
def hless (before : α → α → Bool) (l : List α) (i j : Nat) : Bool :=
  match l[i]?, l[j]? with
  | some a, some b => before a b
  | _, _ => false

/-- `up(h, j)`. -/
def heapUp (before : α → α → Bool) : Nat → List α → Nat → List α
  | 0, l, _ => l
  | fuel + 1, l, j =>
    if j = 0 then l
    else if hless before l j ((j - 1) / 2) then heapUp before fuel (hswap l ((j - 1) / 2) j) ((j - 1) / 2)
    else l

/-- The child that `down` compares: the right one when it exists and is less than the left one. -/
def heapChild (before : α → α → Bool) (l : List α) (i n : Nat) : Nat :=
  if 2 * i + 2 < n ∧ hless before l (2 * i + 2) (2 * i + 1) = true then 2 * i + 2 else 2 * i + 1

/-- `down(h, i, n)`. -/
def heapDown (before : α → α → Bool) : Nat → List α → Nat → Nat → List α
  | 0, l, _, _ => l
  | fuel + 1, l, i, n =>
    if n ≤ 2 * i + 1 then l
    else if hless before l (heapChild before l i n) i then heapDown before fuel (hswap l i (heapChild before l i n)) (heapChild before l i n) n
    else l

/-- `heap.Push`. -/
def heapPush (before : α → α → Bool) (l : List α) (x : α) : List α := heapUp before l.length (l ++ [x]) l.length

/-- `heap.Pop`; `none` is the panic on an empty heap. -/
def heapPop (before : α → α → Bool) (l : List α) : Option (α × List α) :=
  let n := l.length - 1
  let d := heapDown before l.length (hswap l 0 n) 0 n
  match d[n]? with
  | none => none
  | some x => some (x, d.take n)

/-- Popping until the heap is empty, in the order of the pops. -/
def heapDrain (before : α → α → Bool) : Nat → List α → List α
  | 0, _ => []
  | fuel + 1, l =>
    match heapPop before l with
    | none => []
    | some (x, r) => x :: heapDrain before fuel r

/-! ### Proofs -/

/-- The key at a position. -/
def kat (key : α → ℚ) (l : List α) (i : Nat) : ℚ := (l[i]?.map key).getD 0

/-- Heap order on the first `n` positions. -/
def HeapN (key : α → ℚ) (l : List α) (n : Nat) : Prop := ∀ i, 0 < i → i < n → kat key l ((i - 1) / 2) ≤ kat key l i

def Heap (key : α → ℚ) (l : List α) : Prop := HeapN key l l.length

theorem hswap_perm (l : List α) (i j : Nat) : (hswap l i j).Perm l := by
  unfold hswap
  cases hi : l[i]? with
  | none => exact List.Perm.refl l
  | some a =>
    cases hj : l[j]? with
    | none => exact List.Perm.refl l
    | some b =>
      obtain ⟨h1, rfl⟩ := List.getElem?_eq_some_iff.1 hi
      obtain ⟨h2, rfl⟩ := List.getElem?_eq_some_iff.1 hj
      exact List.set_set_perm h1 h2

theorem hswap_length (l : List α) (i j : Nat) : (hswap l i j).length = l.length := (hswap_perm l i j).length_eq

theorem hswap_get (l : List α) {i j : Nat} (hi : i < l.length) (hj : j < l.length) (x : Nat) :
    (hswap l i j)[x]? = if x = j then l[i]? else if x = i then l[j]? else l[x]? := by
  unfold hswap
  rw [List.getElem?_eq_getElem hi, List.getElem?_eq_getElem hj]
  simp only
  by_cases h1 : x = j
  · subst h1
    rw [if_pos rfl, List.getElem?_set_self (by simpa using hj)]
  · rw [if_neg h1, List.getElem?_set_ne (Ne.symm h1)]
    by_cases h2 : x = i
    · subst h2
      rw [if_pos rfl, List.getElem?_set_self hi]
    · rw [if_neg h2, List.getElem?_set_ne (Ne.symm h2)]

theorem hswap_kat (key : α → ℚ) (l : List α) {i j : Nat} (hi : i < l.length) (hj : j < l.length) (x : Nat) :
    kat key (hswap l i j) x = if x = j then kat key l i else if x = i then kat key l j else kat key l x := by
  unfold kat
  rw [hswap_get l hi hj]
  split_ifs <;> rfl

theorem hless_iff (key : α → ℚ) (before : α → α → Bool) (hb : ∀ a b, before a b = true ↔ key a < key b) (l : List α) {i j : Nat}
    (hi : i < l.length) (hj : j < l.length) : hless before l i j = true ↔ kat key l i < kat key l j := by
  unfold hless kat
  rw [List.getElem?_eq_getElem hi, List.getElem?_eq_getElem hj]
  simp [hb]

theorem heapUp_spec (key : α → ℚ) (before : α → α → Bool) (hb : ∀ a b, before a b = true ↔ key a < key b) (fuel : Nat) :
    ∀ (l : List α) (j : Nat), j ≤ fuel → j < l.length →
      (∀ i, 0 < i → i < l.length → i ≠ j → kat key l ((i - 1) / 2) ≤ kat key l i) →
      (∀ i, 0 < i → i < l.length → (i - 1) / 2 = j → 0 < j → kat key l ((j - 1) / 2) ≤ kat key l i) →
      Heap key (heapUp before fuel l j) ∧ (heapUp before fuel l j).Perm l := by
  induction fuel with
  | zero =>
    intro l j hj hl hA hB
    obtain rfl : j = 0 := by omega
    exact ⟨fun i h0 hi => hA i h0 hi (by omega), List.Perm.refl l⟩
  | succ fuel ih =>
    intro l j hj hl hA hB
    rw [heapUp]
    by_cases h0 : j = 0
    · rw [if_pos h0]
      exact ⟨fun i h1 hi => hA i h1 hi (by omega), List.Perm.refl l⟩
    · rw [if_neg h0]
      have hp : (j - 1) / 2 < j := by omega
      have hpl : (j - 1) / 2 < l.length := by omega
      by_cases hlt : hless before l j ((j - 1) / 2) = true
      · rw [if_pos hlt]
        rw [hless_iff key before hb l hl hpl] at hlt
        generalize hpp : (j - 1) / 2 = p at *
        have hk := hswap_kat key l hpl hl
        obtain ⟨h1, h2⟩ := ih (hswap l p j) p (by omega) (by rw [hswap_length]; exact hpl) (by
          intro i hi0 hi hip
          rw [hswap_length] at hi
          rw [hk, hk i]
          by_cases hij : i = j
          · subst hij
            rw [if_pos rfl, hpp, if_neg (by omega), if_pos rfl]
            exact le_of_lt hlt
          · rw [if_neg hij, if_neg hip]
            by_cases hq : (i - 1) / 2 = j
            · rw [if_pos hq]
              exact hB i hi0 hi hq (by omega)
            · rw [if_neg hq]
              by_cases hq2 : (i - 1) / 2 = p
              · rw [if_pos hq2]
                have := hA i hi0 hi hij
                rw [hq2] at this
                linarith
              · rw [if_neg hq2]
                exact hA i hi0 hi hij) (by
          intro i hi0 hi hip hp0
          rw [hswap_length] at hi
          rw [hk, hk i]
          have e1 : (p - 1) / 2 ≠ j := by omega
          have e2 : (p - 1) / 2 ≠ p := by omega
          rw [if_neg e1, if_neg e2]
          have hgp := hA p hp0 hpl (by omega)
          by_cases hij : i = j
          · rw [if_pos hij]
            exact hgp
          · rw [if_neg hij, if_neg (by omega)]
            have := hA i hi0 hi hij
            rw [hip] at this
            linarith)
        exact ⟨h1, h2.trans (hswap_perm l p j)⟩
      · rw [if_neg hlt]
        rw [hless_iff key before hb l hl hpl, not_lt] at hlt
        refine ⟨?_, List.Perm.refl l⟩
        intro i hi0 hi
        by_cases hij : i = j
        · subst hij; exact hlt
        · exact hA i hi0 hi hij

theorem kat_append_left (key : α → ℚ) (l : List α) (x : α) {i : Nat} (hi : i < l.length) : kat key (l ++ [x]) i = kat key l i := by
  unfold kat
  rw [List.getElem?_append_left hi]

theorem heapPush_spec (key : α → ℚ) (before : α → α → Bool) (hb : ∀ a b, before a b = true ↔ key a < key b) (l : List α) (x : α)
    (h : Heap key l) : Heap key (heapPush before l x) ∧ (heapPush before l x).Perm (x :: l) := by
  unfold heapPush
  have hlen : (l ++ [x]).length = l.length + 1 := by simp
  obtain ⟨h1, h2⟩ := heapUp_spec key before hb l.length (l ++ [x]) l.length (le_refl _) (by omega)
    (by
      intro i hi0 hi hne
      rw [hlen] at hi
      rw [kat_append_left key l x (by omega), kat_append_left key l x (by omega)]
      exact h i hi0 (by omega))
    (by intro i hi0 hi hq _; rw [hlen] at hi; omega)
  exact ⟨h1, h2.trans (List.perm_append_singleton x l)⟩

theorem heapChild_lt (before : α → α → Bool) (l : List α) (i n : Nat) (h : 2 * i + 1 < n) :
    heapChild before l i n < n ∧ i < heapChild before l i n ∧ (heapChild before l i n - 1) / 2 = i := by
  unfold heapChild
  split_ifs with h1
  · obtain ⟨h1, -⟩ := h1; omega
  · omega

theorem heapChild_least (key : α → ℚ) (before : α → α → Bool) (hb : ∀ a b, before a b = true ↔ key a < key b) (l : List α) (i n : Nat)
    (hn : n ≤ l.length) (h : 2 * i + 1 < n) (c : Nat) (hc : c < n) (hc0 : 0 < c) (hci : (c - 1) / 2 = i) :
    kat key l (heapChild before l i n) ≤ kat key l c := by
  have hcc : c = 2 * i + 1 ∨ c = 2 * i + 2 := by omega
  unfold heapChild
  by_cases h2 : 2 * i + 2 < n
  · have hl := hless_iff key before hb l (i := 2 * i + 2) (j := 2 * i + 1) (by omega) (by omega)
    split_ifs with h1
    · rcases hcc with rfl | rfl
      · exact le_of_lt (hl.1 h1.2)
      · exact le_refl _
    · have h3 : ¬ kat key l (2 * i + 2) < kat key l (2 * i + 1) := fun hh => h1 ⟨h2, hl.2 hh⟩
      rcases hcc with rfl | rfl
      · exact le_refl _
      · exact not_lt.1 h3
  · rw [if_neg (fun hh => h2 hh.1)]
    obtain rfl : c = 2 * i + 1 := by omega
    exact le_refl _

theorem heapDown_spec (key : α → ℚ) (before : α → α → Bool) (hb : ∀ a b, before a b = true ↔ key a < key b) (n : Nat) (fuel : Nat) :
    ∀ (l : List α) (r : Nat), n ≤ fuel + r → n ≤ l.length →
      (∀ i, 0 < i → i < n → (i - 1) / 2 ≠ r → kat key l ((i - 1) / 2) ≤ kat key l i) →
      (∀ i, 0 < i → i < n → (i - 1) / 2 = r → 0 < r → kat key l ((r - 1) / 2) ≤ kat key l i) →
      HeapN key (heapDown before fuel l r n) n ∧ (heapDown before fuel l r n).Perm l ∧
        ∀ x, n ≤ x → (heapDown before fuel l r n)[x]? = l[x]? := by
  induction fuel with
  | zero =>
    intro l r hf hn hA hB
    rw [heapDown]
    exact ⟨fun i h0 hi => hA i h0 hi (by omega), List.Perm.refl l, fun _ _ => rfl⟩
  | succ fuel ih =>
    intro l r hf hn hA hB
    rw [heapDown]
    by_cases hend : n ≤ 2 * r + 1
    · rw [if_pos hend]
      exact ⟨fun i h0 hi => hA i h0 hi (by omega), List.Perm.refl l, fun _ _ => rfl⟩
    · rw [if_neg hend]
      have hr1 : 2 * r + 1 < n := by omega
      obtain ⟨c1, c2, c3⟩ := heapChild_lt before l r n hr1
      have hleast := heapChild_least key before hb l r n hn hr1
      generalize heapChild before l r n = j at *
      have hjl : j < l.length := by omega
      have hrl : r < l.length := by omega
      by_cases hlt : hless before l j r = true
      · rw [if_pos hlt]
        rw [hless_iff key before hb l hjl hrl] at hlt
        have hk := hswap_kat key l hrl hjl
        obtain ⟨h1, h2, h3⟩ := ih (hswap l r j) j (by omega) (by rw [hswap_length]; exact hn) (by
          intro i hi0 hi hq
          rw [hk, hk i, if_neg hq]
          by_cases hij : i = j
          · subst hij
            rw [if_pos c3, if_pos rfl]
            exact le_of_lt hlt
          · rw [if_neg hij]
            by_cases hpr : (i - 1) / 2 = r
            · rw [if_pos hpr, if_neg (by omega)]
              exact hleast i hi hi0 hpr
            · rw [if_neg hpr]
              by_cases hir : i = r
              · subst hir
                rw [if_pos rfl]
                exact hB j (by omega) c1 c3 hi0
              · rw [if_neg hir]
                exact hA i hi0 hi hpr) (by
          intro i hi0 hi hq hj0
          rw [hk, hk i, c3, if_neg (by omega), if_pos rfl, if_neg (by omega), if_neg (by omega)]
          have := hA i hi0 hi (by omega)
          rw [hq] at this
          exact this)
        refine ⟨h1, h2.trans (hswap_perm l r j), ?_⟩
        intro x hx
        rw [h3 x hx, hswap_get l hrl hjl, if_neg (by omega), if_neg (by omega)]
      · rw [if_neg hlt]
        rw [hless_iff key before hb l hjl hrl, not_lt] at hlt
        refine ⟨?_, List.Perm.refl l, fun _ _ => rfl⟩
        intro i hi0 hi
        by_cases hpr : (i - 1) / 2 = r
        · rw [hpr]
          exact le_trans hlt (hleast i hi hi0 hpr)
        · exact hA i hi0 hi hpr

theorem heap_root (key : α → ℚ) (l : List α) (n : Nat) (h : HeapN key l n) (i : Nat) (hi : i < n) : kat key l 0 ≤ kat key l i := by
  induction i using Nat.strongRecOn with
  | _ i ih =>
    by_cases h0 : i = 0
    · subst h0; exact le_refl _
    · exact le_trans (ih ((i - 1) / 2) (by omega) (by omega)) (h i (by omega) hi)

theorem heap_head (key : α → ℚ) {x : α} {l : List α} (h : Heap key (x :: l)) : ∀ y ∈ x :: l, key x ≤ key y := by
  intro y hy
  obtain ⟨i, hi, rfl⟩ := List.getElem_of_mem hy
  have := heap_root key _ _ h i hi
  unfold kat at this
  rw [List.getElem?_eq_getElem hi] at this
  simpa using this

/-- `Pop` takes a least element and leaves a heap of the others. -/
theorem heapPop_spec (key : α → ℚ) (before : α → α → Bool) (hb : ∀ a b, before a b = true ↔ key a < key b) (l : List α) (hne : l ≠ [])
    (h : Heap key l) : ∃ x rest, heapPop before l = some (x, rest) ∧ (x :: rest).Perm l ∧ Heap key rest ∧ (∀ y ∈ l, key x ≤ key y) ∧
      l.head? = some x := by
  have hlen : 0 < l.length := List.length_pos_iff.2 hne
  unfold heapPop
  simp only
  generalize hn : l.length - 1 = n
  have hnl : n < l.length := by omega
  have hk := hswap_kat key l hlen hnl
  obtain ⟨h1, h2, h3⟩ := heapDown_spec key before hb n l.length (hswap l 0 n) 0 (by omega) (by rw [hswap_length]; omega) (by
    intro i hi0 hi hq
    rw [hk, hk i, if_neg (by omega), if_neg hq, if_neg (by omega), if_neg (by omega)]
    exact h i hi0 (by omega)) (by intro i _ _ _ hh; omega)
  generalize hd : heapDown before l.length (hswap l 0 n) 0 n = d at *
  have hdl : d.length = n + 1 := by rw [h2.length_eq, hswap_length]; omega
  have hget : d[n]? = l[0]? := by rw [h3 n (le_refl n), hswap_get l hlen hnl, if_pos rfl]
  rw [hget, List.getElem?_eq_getElem hlen]
  refine ⟨l[0], d.take n, rfl, ?_, ?_, ?_, ?_⟩
  · have hd2 : d = d.take n ++ [l[0]] := by
      conv_lhs => rw [← List.take_append_drop n d]
      congr 1
      rw [List.getElem?_eq_getElem hlen] at hget
      obtain ⟨hh, he⟩ := List.getElem?_eq_some_iff.1 hget
      rw [List.drop_eq_getElem_cons hh, he, List.drop_of_length_le (by omega)]
    refine List.Perm.trans (List.perm_append_singleton _ _).symm ?_
    rw [← hd2]
    exact h2.trans (hswap_perm l 0 n)
  · unfold Heap
    rw [List.length_take, Nat.min_eq_left (by omega)]
    intro i hi0 hi
    have hkk : ∀ x, x < n → kat key (d.take n) x = kat key d x := by
      intro x hx
      unfold kat
      rw [List.getElem?_take_of_lt hx]
    rw [hkk _ (by omega), hkk _ hi]
    exact h1 i hi0 hi
  · intro y hy
    obtain ⟨i, hi, rfl⟩ := List.getElem_of_mem hy
    have := heap_root key l l.length h i hi
    unfold kat at this
    rw [List.getElem?_eq_getElem hi, List.getElem?_eq_getElem hlen] at this
    simpa using this
  · rw [List.head?_eq_getElem?, List.getElem?_eq_getElem hlen]

/-- Popping everything sorts. -/
theorem heapDrain_spec (key : α → ℚ) (before : α → α → Bool) (hb : ∀ a b, before a b = true ↔ key a < key b) (fuel : Nat) :
    ∀ l : List α, l.length ≤ fuel → Heap key l →
      (heapDrain before fuel l).Perm l ∧ (heapDrain before fuel l).Pairwise (fun a b => key a ≤ key b) := by
  induction fuel with
  | zero =>
    intro l hl _
    have : l = [] := List.length_eq_zero_iff.1 (by omega)
    subst this
    exact ⟨List.Perm.refl _, List.Pairwise.nil⟩
  | succ fuel ih =>
    intro l hl h
    by_cases hne : l = []
    · subst hne
      exact ⟨List.Perm.refl _, List.Pairwise.nil⟩
    · obtain ⟨x, rest, h1, h2, h3, h4, -⟩ := heapPop_spec key before hb l hne h
      rw [heapDrain, h1]
      simp only
      have hlen := h2.length_eq
      rw [List.length_cons] at hlen
      obtain ⟨i1, i2⟩ := ih rest (by omega) h3
      refine ⟨(List.Perm.cons x i1).trans h2, List.pairwise_cons.2 ⟨?_, i2⟩⟩
      intro y hy
      exact h4 y (h2.mem_iff.1 (List.mem_cons_of_mem _ (i1.mem_iff.1 hy)))

theorem heap_nil (key : α → ℚ) : Heap key ([] : List α) := by
  intro i _ hi
  simp at hi

end Verif.Base
