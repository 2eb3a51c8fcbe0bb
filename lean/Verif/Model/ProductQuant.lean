import Verif.Model.Quant
import Verif.Base.AllSome
import Verif.Model.Codec

/-!
Model of /repo/pkg/quantization/product_quantization.go: product quantization.

Simplifications: components are of any type `F` (their bit patterns for serialization) and distances of any ordered type `S`, so float32
rounding is inside the parameters and NaN is excluded. Sizes are natural numbers. Slicing beyond the length of a vector is a panic (Go allows it up
to the capacity). `CompressionRatio` is in `Model/Ratio`.
-/
namespace Verif.PQuant
open Verif.Base Verif.Quant

structure Env (F S : Type) where
  dist : List F → List F → S
  far : S
  zero : F
  add : F → F → F
  div : F → Nat → F
  perm : Nat → List Nat
  sort : List (Nat × S) → List (Nat × S)

variable {F S : Type}

/-- `ProductQuantizer`, product_quantization.go:14-22. -/
structure PQ (F : Type) where
  m : Nat
  k : Nat
  d : Nat
  sub : Nat
  books : List (List (List F))
  trained : Bool
  deriving DecidableEq

/-- `NewProductQuantizer`, product_quantization.go:25-41; division by zero subspaces panics. -/
def PQ.new (dim m k : Nat) : Except Fail (PQ F) :=
  if m = 0 then .error .panic
  else if dim % m ≠ 0 then .error .err
  else if k > 256 then .error .err
  else .ok ⟨m, k, dim, dim / m, List.replicate m [], false⟩

/-- `vec[start:end]`. -/
def slice (v : List F) (start len : Nat) : Option (List F) := if start + len ≤ v.length then some ((v.drop start).take len) else none

/-- The loop over the centroids, product_quantization.go:91-101 and 326-335. -/
def nearest [LT S] [DecidableLT S] (E : Env F S) (x : List F) : List (List F) → Nat → S → Nat → Nat
  | [], _, _, best => best
  | c :: cs, i, bestD, best => if E.dist x c < bestD then nearest E x cs (i + 1) (E.dist x c) i else nearest E x cs (i + 1) bestD best

/-- product_quantization.go:348-365: the new centroid of cluster `i`. -/
def centroid (E : Env F S) (dim : Nat) (vs : List (List F)) (asg : List Nat) (i : Nat) : List F :=
  let mem := (vs.zip asg).filter (fun p => decide (p.2 = i))
  let sum := mem.foldl (fun acc p => List.zipWith E.add acc p.1) (List.replicate dim E.zero)
  if mem.length > 0 then sum.map (fun x => E.div x mem.length) else sum

/-- The iterations of `kMeans`, product_quantization.go:322-366. -/
def kLoop [LT S] [DecidableLT S] (E : Env F S) (dim : Nat) (vs : List (List F)) : Nat → List Nat → List (List F) → List (List F)
  | 0, _, cs => cs
  | t + 1, asg, cs =>
    let asg' := vs.map (fun v => nearest E v cs 0 E.far 0)
    if asg' = asg then cs else kLoop E dim vs t asg' ((List.range cs.length).map (centroid E dim vs asg'))

/-- `kMeans`, product_quantization.go:302-369; a missing index of the permutation would be a panic. -/
def kMeans [LT S] [DecidableLT S] (E : Env F S) (vs : List (List F)) (k iters : Nat) : Except Fail (List (List F)) :=
  if vs.length < k then .error .err
  else
    match vs with
    | [] => .error .panic
    | v :: _ =>
      match allSome (fun i => vs[i]?) ((E.perm vs.length).take k) with
      | none => .error .panic
      | some init => .ok (kLoop E v.length vs iters (List.replicate vs.length 0) init)

/-- The loop of `Train`, product_quantization.go:52-68. -/
def trainBooks [LT S] [DecidableLT S] (E : Env F S) (sub k : Nat) (vs : List (List F)) : Nat → Nat → Except Fail (List (List (List F)))
  | 0, _ => .ok []
  | r + 1, i =>
    match allSome (fun v => slice v (i * sub) sub) vs with
    | none => .error .panic
    | some ss =>
      match kMeans E ss k 20 with
      | .error e => .error e
      | .ok b =>
        match trainBooks E sub k vs r (i + 1) with
        | .error e => .error e
        | .ok bs => .ok (b :: bs)

/-- `Train`, product_quantization.go:44-72 (what a failed call leaves behind is not modelled). -/
def PQ.train [LT S] [DecidableLT S] (E : Env F S) (p : PQ F) (vs : List (List F)) : Except Fail (PQ F) :=
  if vs.length < p.k * p.m then .error .err
  else
    match trainBooks E p.sub p.k vs p.m 0 with
    | .error e => .error e
    | .ok bs => .ok { p with books := bs, trained := true }

/-- The code of one subspace, product_quantization.go:85-104: the index is cut to a byte. -/
def codeAt [LT S] [DecidableLT S] (E : Env F S) (p : PQ F) (v : List F) (i : Nat) : Option Nat :=
  match slice v (i * p.sub) p.sub, p.books[i]? with
  | some x, some b => if b.length < p.k then none else some (nearest E x (b.take p.k) 0 E.far 0 % 256)
  | _, _ => none

/-- `Encode`, product_quantization.go:75-108. -/
def PQ.encode [LT S] [DecidableLT S] (E : Env F S) (p : PQ F) (v : List F) : Except Fail (List Nat) :=
  if p.trained = false then .error .err
  else if v.length ≠ p.d then .error .err
  else
    match allSome (codeAt E p v) (List.range p.m) with
    | none => .error .panic
    | some cs => .ok cs

/-- The loop of `Decode`, product_quantization.go:123-135: the codewords one after the other. -/
def decodeLoop (p : PQ F) : List Nat → List (List (List F)) → Except Fail (List F)
  | [], _ => .ok []
  | c :: cs, bs =>
    if c ≥ p.k then .error .err
    else
      match bs.head?.bind (fun b => b[c]?) with
      | none => .error .panic
      | some w =>
        if w.length < p.sub then .error .panic
        else
          match decodeLoop p cs bs.tail with
          | .error e => .error e
          | .ok rest => .ok (w.take p.sub ++ rest)

/-- `Decode`, product_quantization.go:111-138: writing outside of the vector panics, what is not written stays zero.
(Simplification: the bound is checked after the loop; no difference when the sizes agree.) -/
def PQ.decode (E : Env F S) (p : PQ F) (codes : List Nat) : Except Fail (List F) :=
  if p.trained = false then .error .err
  else if codes.length ≠ p.m then .error .err
  else
    match decodeLoop p codes p.books with
    | .error e => .error e
    | .ok w => if w.length > p.d then .error .panic else .ok (w ++ List.replicate (p.d - w.length) E.zero)

/-- `computeDistanceTable`, product_quantization.go:160-174. -/
def row (E : Env F S) (p : PQ F) (q : List F) (i : Nat) : Option (List S) :=
  match slice q (i * p.sub) p.sub, p.books[i]? with
  | some x, some b => if b.length < p.k then none else some ((b.take p.k).map (E.dist x))
  | _, _ => none

def table (E : Env F S) (p : PQ F) (q : List F) : Option (List (List S)) := allSome (row E p q) (List.range p.m)

/-- The entries that are added up, product_quantization.go:151-153, 194-196; `none` is an index out of range. -/
def entries (t : List (List S)) (code : List Nat) : Option (List S) :=
  allSome (fun r => code[r.2]?.bind (fun c => r.1[c]?)) t.zipIdx

def total [Zero S] [Add S] (l : List S) : S := l.foldl (· + ·) 0

/-- `ComputeDistance`, product_quantization.go:141-157. -/
def PQ.distance [Zero S] [Add S] (E : Env F S) (p : PQ F) (code : List Nat) (q : List F) : Except Fail S :=
  if p.trained = false then .error .err
  else
    match (table E p q).bind (fun t => entries t code) with
    | none => .error .panic
    | some l => .ok (total l)

/-- `SearchPQ`, product_quantization.go:177-219; `none` is a panic. -/
def PQ.search [Zero S] [Add S] (E : Env F S) (p : PQ F) (q : List F) (codes : List (List Nat)) (topK : Int) : Option (List (Nat × S)) :=
  if p.trained = false ∨ codes = [] then some []
  else
    match table E p q with
    | none => none
    | some t =>
      match allSome (fun c => (entries t c.1).map (fun l => (c.2, total l))) codes.zipIdx with
      | none => none
      | some rs => if topK < 0 then none else some ((E.sort rs).take topK.toNat)

/-! ### Codebooks as bytes -/
open Verif.Model.Codec

/-- `SerializeCodebooks`, product_quantization.go:229-262. -/
def PQ.serialize (p : PQ UInt32) : List UInt8 :=
  if p.trained = false then []
  else putWord p.m ++ putWord p.k ++ putWord p.d ++ putWord p.sub ++ (p.books.flatten.flatten).flatMap (fun x => putWord x.toNat)

/-- One codeword, product_quantization.go:288-292: reading outside of the data panics. -/
def readWord (sub : Nat) (data : List UInt8) : Option (List UInt32 × List UInt8) :=
  match getWords sub data with
  | .error _ => none
  | .ok w => some (w, data.drop (sub * 4))

def readMany {α : Type} (read : List UInt8 → Option (α × List UInt8)) : Nat → List UInt8 → Option (List α × List UInt8)
  | 0, data => some ([], data)
  | n + 1, data =>
    match read data with
    | none => none
    | some (x, rest) =>
      match readMany read n rest with
      | none => none
      | some (xs, rest') => some (x :: xs, rest')

/-- `DeserializeCodebooks`, product_quantization.go:265-299. -/
def PQ.deserialize (data : List UInt8) : Except Fail (PQ UInt32) :=
  if data.length < 16 then .error .err
  else
    match getWords 4 data with
    | .ok [m, k, d, sub] =>
      match readMany (readMany (readWord sub.toNat) k.toNat) m.toNat (data.drop 16) with
      | none => .error .panic
      | some (bs, _) => .ok ⟨m.toNat, k.toNat, d.toNat, sub.toNat, bs, true⟩
    | _ => .error .panic

end Verif.PQuant
