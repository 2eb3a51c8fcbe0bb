import Verif.Spec.TopK
import Mathlib.Order.Basic
import Mathlib.Order.Lattice
import Mathlib.Data.Nat.Init
import Mathlib.Tactic.Common

/-!
Sorting as the Go code does it.

* `sort.Slice` (unstable) is modelled by the relation `SortedFrom`: any permutation of the input that is in order.
* The hand written double loop (exchange sort), used all over `/repo`, is modelled as a function.
-/
namespace Verif.Base

open Verif.Spec

/-- Any result `sort.Slice` may produce on `l` with "not out of order" relation `le`.
Models Go's `sort.Slice`: unstable, so every tie order is allowed. -/
def SortedFrom {α : Type*} (le : α → α → Prop) (l out : List α) : Prop :=
  out.Perm l ∧ out.Pairwise le

/-- Inner loop of the exchange sort for a fixed `i`: `for j := i+1; j < n; j++ { if before(a[j], a[i]) { swap } }`.
Returns the final `a[i]` and the rest. Used by /repo/pkg/core/dimension.go:101-117, chat.go:199-205,
multi_vector.go:190-196, /repo/pkg/index/hnsw.go:383-389, /repo/pkg/hindsight/hindsight.go:590-596. -/
def sweep {α : Type*} (before : α → α → Bool) : α → List α → α × List α
  | x, [] => (x, [])
  | x, y :: ys =>
    if before y x then
      let p := sweep before y ys
      (p.1, x :: p.2)
    else
      let p := sweep before x ys
      (p.1, y :: p.2)

theorem sweep_length {α : Type*} (before : α → α → Bool) (x : α) (l : List α) :
    (sweep before x l).2.length = l.length := by
  induction l generalizing x with
  | nil => rfl
  | cons y ys ih => simp only [sweep]; split <;> simp [ih]

/-- The double loop: after the inner loop for `i`, position `i` is final. -/
def exchangeSort {α : Type*} (before : α → α → Bool) : List α → List α
  | [] => []
  | x :: xs => (sweep before x xs).1 :: exchangeSort before (sweep before x xs).2
termination_by l => l.length
decreasing_by simp [sweep_length]

theorem sweep_perm {α : Type*} (before : α → α → Bool) (x : α) (l : List α) :
    ((sweep before x l).1 :: (sweep before x l).2).Perm (x :: l) := by
  induction l generalizing x with
  | nil => simp [sweep]
  | cons y ys ih =>
    simp only [sweep]
    split
    · exact (List.Perm.swap _ _ _).trans ((List.Perm.cons x (ih y)))
    · exact (List.Perm.swap _ _ _).trans ((List.Perm.cons y (ih x)).trans (List.Perm.swap _ _ _))

theorem exchangeSort_perm {α : Type*} (before : α → α → Bool) (l : List α) :
    (exchangeSort before l).Perm l := by
  induction hn : l.length using Nat.strongRecOn generalizing l with
  | _ n ih =>
    cases l with
    | nil => simp [exchangeSort]
    | cons x xs =>
      rw [exchangeSort]
      refine (List.Perm.cons _ (ih _ ?_ _ rfl)).trans (sweep_perm before x xs)
      subst hn; simp [sweep_length]

/-- The survivor of the inner loop is not out of order with anything left behind. -/
theorem sweep_min {α S : Type*} [LinearOrder S] (key : α → S) (before : α → α → Bool)
    (hb : ∀ a b, before a b = true ↔ key a < key b) (x : α) (l : List α) :
    ∀ y ∈ x :: l, key (sweep before x l).1 ≤ key y := by
  induction l generalizing x with
  | nil => simp [sweep]
  | cons z zs ih =>
    simp only [sweep]
    intro y hy
    split
    · rename_i h
      have hzx := (hb _ _).1 h
      have h1 := ih z
      rcases List.mem_cons.1 hy with rfl | hy
      · exact (h1 z (by simp)).trans hzx.le
      · exact h1 y hy
    · rename_i h
      have hzx : key x ≤ key z := not_lt.1 (fun hh => h ((hb _ _).2 hh))
      have h1 := ih x
      rcases List.mem_cons.1 hy with rfl | hy
      · exact h1 _ (by simp)
      · rcases List.mem_cons.1 hy with rfl | hy
        · exact (h1 x (by simp)).trans hzx
        · exact h1 y (List.mem_cons_of_mem _ hy)

theorem exchangeSort_sorted {α S : Type*} [LinearOrder S] (key : α → S) (before : α → α → Bool)
    (hb : ∀ a b, before a b = true ↔ key a < key b) (l : List α) :
    (exchangeSort before l).Pairwise (fun a b => key a ≤ key b) := by
  induction hn : l.length using Nat.strongRecOn generalizing l with
  | _ n ih =>
    cases l with
    | nil => simp [exchangeSort]
    | cons x xs =>
      rw [exchangeSort, List.pairwise_cons]
      refine ⟨?_, ih _ (by subst hn; simp [sweep_length]) _ rfl⟩
      intro y hy
      have : y ∈ (sweep before x xs).2 := (exchangeSort_perm _ _).mem_iff.1 hy
      exact sweep_min key before hb x xs y
        ((sweep_perm before x xs).mem_iff.1 (List.mem_cons_of_mem _ this))

/-- Taking the first `k` of any descending arrangement answers the top-K question. -/
theorem isTopK_take {α S : Type*} [LinearOrder S] (score : α → S) (pool s : List α) (k : Nat)
    (h : SortedFrom (fun a b => score b ≤ score a) pool s) : IsTopK score pool k (s.take k) where
  ordered := h.2.sublist (List.take_sublist k s)
  best := by
    refine ⟨s.drop k, by rw [List.take_append_drop]; exact h.1, ?_⟩
    intro r hr o ho
    have := h.2
    rw [← List.take_append_drop k s, List.pairwise_append] at this
    exact this.2.2 o ho r hr
  size := by rw [List.length_take, h.1.length_eq]

/-- Members of a top-K answer come from the pool. -/
theorem IsTopK.mem {α S : Type*} [LinearOrder S] {score : α → S} {pool out : List α} {k : Nat}
    (h : IsTopK score pool k out) {a : α} (ha : a ∈ out) : a ∈ pool := by
  obtain ⟨rest, hp, _⟩ := h.best
  exact hp.mem_iff.1 (List.mem_append_left _ ha)

/-- A descending arrangement exists (used for non-vacuity). -/
theorem sortedFrom_exchange {α S : Type*} [LinearOrder S] (score : α → S) (l : List α) :
    SortedFrom (fun a b => score b ≤ score a) l
      (exchangeSort (fun a b => decide (score b < score a)) l) := by
  refine ⟨exchangeSort_perm _ _, ?_⟩
  have := exchangeSort_sorted (S := Sᵒᵈ) (fun a => OrderDual.toDual (score a))
    (fun a b => decide (score b < score a)) (by simp) l
  exact this.imp (fun h => h)

/-- Insertion into a descending list. -/
def insertDesc {α S : Type*} [LinearOrder S] (score : α → S) (x : α) : List α → List α
  | [] => [x]
  | y :: ys => if score y ≤ score x then x :: y :: ys else y :: insertDesc score x ys

/-- A sorting function that computes by structural recursion, used to evaluate examples. -/
def insertSort {α S : Type*} [LinearOrder S] (score : α → S) : List α → List α
  | [] => []
  | x :: xs => insertDesc score x (insertSort score xs)

theorem insertDesc_perm {α S : Type*} [LinearOrder S] (score : α → S) (x : α) (l : List α) :
    (insertDesc score x l).Perm (x :: l) := by
  induction l with
  | nil => simp [insertDesc]
  | cons y ys ih =>
    simp only [insertDesc]
    split
    · exact List.Perm.refl _
    · exact (List.Perm.cons y ih).trans (List.Perm.swap _ _ _)

theorem insertSort_sorts {α S : Type*} [LinearOrder S] (score : α → S) (l : List α) :
    SortedFrom (fun a b => score b ≤ score a) l (insertSort score l) := by
  induction l with
  | nil => simp [insertSort, SortedFrom]
  | cons x xs ih =>
    refine ⟨(insertDesc_perm _ _ _).trans (ih.1.cons x), ?_⟩
    have key : ∀ l : List α, l.Pairwise (fun a b => score b ≤ score a) →
        (insertDesc score x l).Pairwise (fun a b => score b ≤ score a) := by
      intro l
      induction l with
      | nil => intro _; simp [insertDesc]
      | cons y ys ih2 =>
        intro hp
        rw [List.pairwise_cons] at hp
        simp only [insertDesc]
        split
        · rename_i h
          rw [List.pairwise_cons, List.pairwise_cons]
          refine ⟨?_, hp⟩
          intro z hz
          rcases List.mem_cons.1 hz with rfl | hz
          · exact h
          · exact (hp.1 z hz).trans h
        · rename_i h
          rw [List.pairwise_cons]
          refine ⟨?_, ih2 hp.2⟩
          intro z hz
          rcases List.mem_cons.1 ((insertDesc_perm _ _ _).mem_iff.1 hz) with rfl | hz
          · exact (not_le.1 h).le
          · exact hp.1 z hz
    exact key _ ih.2

end Verif.Base
