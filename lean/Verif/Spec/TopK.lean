import Mathlib.Order.Defs.LinearOrder
import Mathlib.Data.List.Basic

/-!
Specification of "the K best of a pool", written without reference to any sorting or selection code.
-/
namespace Verif.Spec

/-- `out` is a correct answer to "the `k` highest scored members of `pool`, best first".
Ties may be broken in any way. -/
structure IsTopK {α S : Type*} [LinearOrder S] (score : α → S) (pool : List α) (k : Nat) (out : List α) : Prop where
  /-- best first -/
  ordered : out.Pairwise (fun a b => score b ≤ score a)
  /-- the answer is part of the pool (as a multiset) and nothing left out beats anything returned -/
  best : ∃ rest, (out ++ rest).Perm pool ∧ ∀ r ∈ rest, ∀ o ∈ out, score r ≤ score o
  /-- fewer than `k` only when the pool is smaller -/
  size : out.length = min k pool.length

/-- `out` is `pool` rearranged so that `key` never increases. -/
structure IsRanked {α S : Type*} [LinearOrder S] (key : α → S) (pool out : List α) : Prop where
  perm : out.Perm pool
  ordered : out.Pairwise (fun a b => key b ≤ key a)

end Verif.Spec
