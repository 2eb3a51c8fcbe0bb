import Verif.Base.Text
import Mathlib.Data.Rat.Defs
import Mathlib.Data.Finset.Card
import Mathlib.Algebra.Order.Field.Rat

/-!
Model of the retrieval part of /repo/pkg/cortexdb/graphrag.go: defaults, chunking, identifiers, reranking and
context packing.

Simplifications, stated once:
* A text is a list of runes (invalid UTF-8 is outside the model). `unicode.IsSpace` is the parameter `sp`.
* float64 arithmetic is exact rational arithmetic (no rounding, no NaN, no infinities).
* `tokenSet` (graphrag.go:831-844) is the parameter `tok`, any function from texts to finite sets.
-/
namespace Verif.Rag
open Verif.Base

/-- `GraphRAGIngestOptions` as far as chunking goes. -/
structure IngestOpts where
  chunkSize : Int
  chunkOverlap : Int
  deriving DecidableEq, Repr

/-- `applyGraphRAGIngestDefaults`, graphrag.go:527-540. -/
def ingestDefaults (o : IngestOpts) : IngestOpts :=
  let size := if o.chunkSize ≤ 0 then 120 else o.chunkSize
  let ov := if o.chunkOverlap < 0 then 0 else o.chunkOverlap
  { chunkSize := size, chunkOverlap := if ov ≥ size then size / 4 else ov }

/-- The inner loop of `splitGraphRAGText`, graphrag.go:630-639. `fuel` bounds the number of rounds; the caller
passes enough (each round advances `start` by at least one). -/
def chunkLoop (words : List (List Char)) (size step : Nat) : Nat → Nat → List (List Char)
  | 0, _ => []
  | fuel + 1, start =>
    if start < words.length then
      let stop := if start + size > words.length then words.length else start + size
      joinSp ((words.drop start).take (stop - start)) ::
        (if stop = words.length then [] else chunkLoop words size step fuel (start + step))
    else []

/-- One paragraph of `splitGraphRAGText`, graphrag.go:612-640. -/
def splitParagraph (sp : Char → Bool) (size overlap : Nat) (paragraph : List Char) : List (List Char) :=
  let paragraph := trim sp paragraph
  if paragraph = [] then []
  else
    let words := fields sp paragraph
    if words.length = 0 then []
    else if words.length ≤ size then [joinSp words]
    else
      let step := if size - overlap ≤ 0 then size else size - overlap
      chunkLoop words size step words.length 0

/-- `r == '\n' || r == '\r'`, graphrag.go:607-609. -/
def newline (c : Char) : Bool := c == '\n' || c == '\r'

/-- `splitGraphRAGText`, graphrag.go:606-643. Sizes are natural numbers: every caller passes the result of
`ingestDefaults` (graphrag.go:121,129, graphrag_tools.go:527,541), which is never negative. -/
def splitText (sp : Char → Bool) (text : List Char) (size overlap : Nat) : List (List Char) :=
  (fields newline text).flatMap (splitParagraph sp size overlap)

/-- `InsertGraphDocument`'s use of the two, graphrag.go:121,129. -/
def ingestChunks (sp : Char → Bool) (text : List Char) (o : IngestOpts) : List (List Char) :=
  let d := ingestDefaults o
  splitText sp text d.chunkSize.toNat d.chunkOverlap.toNat

/-- The decimal digits of a number, most significant first (`%d`). -/
def decimal (n : Nat) : List Char :=
  if n < 10 then [Char.ofNat (48 + n)] else decimal (n / 10) ++ [Char.ofNat (48 + n % 10)]

/-- `%03d` for a non-negative number. -/
def pad3 (n : Nat) : List Char := List.replicate (3 - (decimal n).length) '0' ++ decimal n

/-- `graphChunkNodeID`, graphrag.go:665-667. -/
def chunkId (doc : List Char) (i : Nat) : List Char := "chunk:".toList ++ doc ++ ':' :: pad3 i

/-- `graphDocumentNodeID`, graphrag.go:661-663. -/
def docNodeId (doc : List Char) : List Char := "doc:".toList ++ doc

/-- `graphEntityNodeID`, graphrag.go:669-685. `lower`, `letter` (letter or digit) and `sp` are the unicode
tables. -/
def entityId (lower : Char → Char) (letter sp : Char → Bool) (name : List Char) : List Char :=
  let normalized := (trim sp name).map lower
  let b := normalized.filterMap (fun r =>
    if letter r then some r else if r == ' ' || r == '-' || r == '_' then some '_' else none)
  let id := trim (· == '_') b
  "entity:".toList ++ (if id = [] then "entity".toList else id)

/-- `GraphRAGQueryOptions` without the retrieval mode. -/
structure QueryOpts where
  topK : Int
  maxHops : Int
  maxRelated : Int
  maxChunks : Int
  maxChars : Int
  perDoc : Int
  rerank : Bool
  lambda : ℚ
  deriving DecidableEq, Repr

/-- `applyGraphRAGQueryDefaults`, graphrag.go:542-575. -/
def queryDefaults (o : QueryOpts) : QueryOpts :=
  let topK := if o.topK ≤ 0 then 4 else o.topK
  let hops := if o.maxHops ≤ 0 then 2 else o.maxHops
  let rel0 := if o.maxRelated < 0 then 0 else o.maxRelated
  let rel := if rel0 = 0 then topK else rel0
  { topK := topK, maxHops := hops, maxRelated := rel
    maxChunks := if o.maxChunks ≤ 0 then topK + rel else o.maxChunks
    maxChars := if o.maxChars ≤ 0 then 2400 else o.maxChars
    perDoc := if o.perDoc ≤ 0 then 2 else o.perDoc
    rerank := if !o.rerank then true else o.rerank
    lambda := if o.lambda ≤ 0 || decide (o.lambda > 1) then 3 / 4 else o.lambda }

/-- `GraphRAGChunkResult`, graphrag.go (the fields used below). -/
structure Chunk where
  id : List Char
  doc : List Char
  content : List Char
  score : ℚ
  entities : List (List Char)
  rerank : ℚ := 0
  deriving DecidableEq, Repr

/-- `len(s)` of a Go string: bytes of its UTF-8 form. -/
def blen (s : List Char) : Nat := (s.map Char.utf8Size).sum

/-- `lineLen`, graphrag.go:755. -/
def lineLen (c : Chunk) : Nat := blen c.content + blen c.id + blen c.doc + 8

/-- State of the packing loop, graphrag.go:743-745. `docCounts` is the map as a function. -/
structure Pack where
  packed : List Chunk
  counts : List Char → Nat
  chars : Nat

/-- Body of the packing loop, graphrag.go:747-765. -/
def packStep (maxChunks maxChars perDoc : Int) (p : Pack) (c : Chunk) : Pack :=
  if (c.doc ≠ [] ∧ (p.counts c.doc : Int) ≥ perDoc) then p
  else if p.packed.length > 0 ∧ ((p.chars + lineLen c : Nat) : Int) > maxChars then p
  else
    { packed := p.packed ++ [c]
      chars := p.chars + lineLen c
      counts := if c.doc ≠ [] then fun d => if d = c.doc then p.counts d + 1 else p.counts d else p.counts }

/-- The loop with its `break`, graphrag.go:747-766. -/
def packLoop (maxChunks maxChars perDoc : Int) : Pack → List Chunk → Pack
  | p, [] => p
  | p, c :: cs =>
    if (p.packed.length : Int) ≥ maxChunks then p
    else packLoop maxChunks maxChars perDoc (packStep maxChunks maxChars perDoc p c) cs

/-- `packGraphRAGContext`, graphrag.go:738-771. (`make` with capacity `min(len, MaxContextChunks)` cannot be negative:
all callers apply `queryDefaults` first, graphrag.go:369, graphrag_tools.go:961,1002.) -/
def pack (o : QueryOpts) (chunks : List Chunk) : List Chunk :=
  if chunks = [] then []
  else
    let p := packLoop o.maxChunks o.maxChars o.perDoc ⟨[], fun _ => 0, 0⟩ chunks
    if p.packed.length = 0 ∧ chunks.length > 0 then chunks.take 1 else p.packed

/-- One line of the context, graphrag.go:693-698. -/
def contextLine (c : Chunk) : List Char :=
  let pre := if c.doc ≠ [] then c.doc ++ '/' :: c.id else c.id
  '[' :: pre ++ ']' :: ' ' :: c.content

/-- `strings.Join(lines, "\n")`. -/
def joinNl : List (List Char) → List Char
  | [] => []
  | [w] => w
  | w :: ws => w ++ '\n' :: joinNl ws

/-- `buildGraphRAGContext`, graphrag.go:687-701. -/
def buildContext (chunks : List Chunk) : List Char := joinNl (chunks.map contextLine)

/-- `overlapScore`, graphrag.go:814-829. -/
def overlapScore (a b : Finset (List Char)) : ℚ :=
  if a.card = 0 ∨ b.card = 0 then 0
  else ((a ∩ b).card : ℚ) / (if b.card > a.card then (b.card : ℚ) else (a.card : ℚ))

/-- `normalizeChunkScores`, graphrag.go:773-794, on the scores. -/
def normalize : List ℚ → List ℚ
  | [] => []
  | x :: xs =>
    let lo := xs.foldl (fun m s => if s < m then s else m) x
    let hi := xs.foldl (fun m s => if s > m then s else m) x
    if hi - lo < 1 / 1000000000 then (x :: xs).map (fun _ => 1)
    else (x :: xs).map (fun s => (s - lo) / (hi - lo))

/-- `maxRedundancy`, graphrag.go:796-812. -/
def maxRedundancy (tok : List Char → Finset (List Char)) (c : Chunk) (sel : List Chunk) : ℚ :=
  sel.foldl (fun m e =>
    let s := overlapScore (tok c.content) (tok e.content)
    let s := if c.doc ≠ [] ∧ c.doc = e.doc then max s (17 / 20) else s
    if s > m then s else m) 0

/-- `strings.Join(chunks[i].Entities, " ")` is tokenised for the entity overlap, graphrag.go:714. `qe` are the
tokens of the query's entities (extractTitleEntities is not modelled). -/
def rerankScore (tok : List Char → Finset (List Char)) (q : List Char) (qe : Finset (List Char)) (base : ℚ)
    (c : Chunk) : ℚ :=
  base * (3 / 5) + overlapScore (tok q) (tok c.content) * (1 / 4) + overlapScore qe (tok (joinSp c.entities)) * (3 / 20)

/-- The scan for the best remaining chunk, graphrag.go:723-731: strict `>` from `bestIdx = 0`. The initial
`-math.MaxFloat64` is below every score, so the first chunk always starts as the best. Returns the index. -/
def bestIdx (score : Chunk → ℚ) : List Chunk → Nat
  | [] => 0
  | c :: cs =>
    (cs.foldl (fun (p : Nat × Nat × ℚ) x =>
      if score x > p.2.2 then (p.1 + 1, p.1, score x) else (p.1 + 1, p.2)) (1, 0, score c)).2.1

/-- The selection loop, graphrag.go:718-734. The first argument is the number of further selections allowed. -/
def selectLoop (tok : List Char → Finset (List Char)) (lambda : ℚ) : Nat → List Chunk → List Chunk → List Chunk
  | 0, sel, _ => sel
  | _ + 1, sel, [] => sel
  | n + 1, sel, c :: cs =>
    let i := bestIdx (fun x => lambda * x.rerank - (1 - lambda) * maxRedundancy tok x sel) (c :: cs)
    match (c :: cs)[i]? with
    | some x => selectLoop tok lambda n (sel ++ [x]) ((c :: cs).eraseIdx i)
    | none => sel

/-- `rerankGraphRAGChunks`, graphrag.go:703-736. -/
def rerank (tok : List Char → Finset (List Char)) (q : List Char) (qe : Finset (List Char)) (o : QueryOpts)
    (chunks : List Chunk) : List Chunk :=
  let base := normalize (chunks.map (·.score))
  let scored := List.zipWith (fun c b => { c with rerank := rerankScore tok q qe b c }) chunks base
  selectLoop tok o.lambda o.maxChunks.toNat [] scored

end Verif.Rag
