import Mathlib.Data.Rat.Defs
import Mathlib.Algebra.Order.Field.Rat

/-!
The built-in embedder of the semantic router, /repo/pkg/semantic-router/embedder.go:8-57.

Simplifications: a text is the list of its runes (a text that is not valid UTF-8 is read as its replacement runes); `int` has 64 bits and is
kept as its bit pattern, a number below 2^64; the conversion of an `int32` to `float32` is a parameter `round`, all other float
operations are exact here because they divide and multiply by powers of two (`float32(0x7fffffff)` is 2^31).
-/
namespace Verif.MockEmbed

/-- One round of the hash, embedder.go:27-29. -/
def hashStep (h : Nat) (c : Char) : Nat := (h * 31 + c.toNat) % 2 ^ 64

/-- The hash of a text, embedder.go:26-29. -/
def hash (text : List Char) : Nat := text.foldl hashStep 0

/-- The next seed in `uint32` arithmetic, embedder.go:34. -/
def next (seed : Nat) : Nat := (seed * 1664525 + 1013904223) % 2 ^ 32

/-- `int32(seed)`, embedder.go:35. -/
def int32 (seed : Nat) : Int := if seed < 2 ^ 31 then (seed : Int) else (seed : Int) - 2 ^ 32

/-- One component, embedder.go:35. -/
def component (round : Int → ℚ) (seed : Nat) : ℚ := round (int32 seed) / 2 ^ 31 * 2

/-- The loop over the components, embedder.go:32-36. -/
def fill (round : Int → ℚ) : Nat → Nat → List ℚ
  | 0, _ => []
  | n + 1, seed => component round (next seed) :: fill round n (next seed)

/-- `Embed`, embedder.go:22-39: nothing when `make` panics on a negative length, embedder.go:23; `uint32(hash)`, embedder.go:31. -/
def embed (round : Int → ℚ) (dimensions : Int) (text : List Char) : Option (List ℚ) :=
  if dimensions < 0 then none else some (fill round dimensions.toNat (hash text % 2 ^ 32))

/-- The loop of `EmbedBatch`, embedder.go:42-52, with the panics of `Embed`. -/
def embedBatch (round : Int → ℚ) (dimensions : Int) : List (List Char) → Option (List (List ℚ))
  | [] => some []
  | t :: ts =>
    match embed round dimensions t with
    | none => none
    | some v => (embedBatch round dimensions ts).map (v :: ·)

/-- `Dimensions`, embedder.go:55-57. -/
def dimensionsOf (dimensions : Int) : Int := dimensions

end Verif.MockEmbed
