import Mathlib.Data.List.Basic

/-!
Model of `/repo/internal/encoding/utils.go`: the on-disk form of vectors.
A `float32` is modelled by its 32 bit pattern (`math.Float32bits`), so NaN payloads are included.
-/
namespace Verif.Model.Codec

/-- Error values of the codec. `invalidVector` is `ErrInvalidVector` (/repo/internal/encoding/utils.go:13),
`tooLarge` the error of line 27, `shortRead` the error `binary.Read` would give on missing bytes (lines 54, 75). -/
inductive Err where
  | invalidVector
  | tooLarge
  | shortRead
  deriving DecidableEq, Repr

/-- Largest length the format can carry, `2147483647` (/repo/internal/encoding/utils.go:26). -/
def maxLen : Nat := 2147483647

/-- `binary.Write(buf, LittleEndian, w)` for a 32 bit value (/repo/internal/encoding/utils.go:29, 35). -/
def putWord (w : Nat) : List UInt8 :=
  [UInt8.ofNat w, UInt8.ofNat (w / 256), UInt8.ofNat (w / 65536), UInt8.ofNat (w / 16777216)]

/-- `EncodeVector` (/repo/internal/encoding/utils.go:17-41). `none` is the nil slice. -/
def encodeVector : Option (List UInt32) → Except Err (List UInt8)
  | none => .error .invalidVector
  | some v =>
    if v.length > maxLen then .error .tooLarge
    else .ok (putWord v.length ++ v.flatMap (fun x => putWord x.toNat))

/-- `binary.Read` of one little endian 32 bit value from the reader; returns the value and the rest of the reader
(/repo/internal/encoding/utils.go:54, 75). -/
def getWord : List UInt8 → Except Err (Nat × List UInt8)
  | a :: b :: c :: d :: rest =>
    .ok (a.toNat + 256 * b.toNat + 65536 * c.toNat + 16777216 * d.toNat, rest)
  | _ => .error .shortRead

/-- The value loop of `DecodeVector` (/repo/internal/encoding/utils.go:73-78). -/
def getWords : Nat → List UInt8 → Except Err (List UInt32)
  | 0, _ => .ok []
  | n + 1, data =>
    match getWord data with
    | .error e => .error e
    | .ok (w, rest) =>
      match getWords n rest with
      | .error e => .error e
      | .ok ws => .ok (UInt32.ofNat w :: ws)

/-- `DecodeVector` (/repo/internal/encoding/utils.go:45-81). The header is read as a signed 32 bit value, so a
header of `2^31` or more is negative (line 58). `int` is 64 bits wide, so line 67 does not overflow. -/
def decodeVector (data : List UInt8) : Except Err (List UInt32) :=
  if data.length < 4 then .error .invalidVector
  else
    match getWord data with
    | .error e => .error e
    | .ok (n, rest) =>
      if n ≥ 2147483648 then .error .invalidVector
      else if n = 0 then .ok []
      else if rest.length < n * 4 then .error .invalidVector
      else getWords n rest

end Verif.Model.Codec
