import Verif.Base.Text
import Verif.Base.Utf8
import Verif.Model.Store
import Mathlib.Data.Rat.Defs

/-!
Model of what the memory system and the knowledge API show of a stored text: snippets, the text `Reflect` produces, and the
conversion between memories (or observations) and store records.

Simplifications:
* A text is a list of characters (valid Unicode) until it is cut at a byte offset; from then on it is a list of bytes.
* `sp` is `unicode.IsSpace`. `f3` and `f2` print a number with three and two decimals.
* Metadata values written by the system as `%d` or `%.4f` are kept as the number printed (`Val.secs`, `Val.dec`); `r4` is
  rounding to four decimals. `Lib` reads a number from any other text (`fmt.Sscanf`).
-/
namespace Verif.Reflect

open Verif.Base Verif.Model.Store

/-! ### Snippets -/

/-- `compactSnippet`, /repo/pkg/cortexdb/knowledge_memory_helpers.go:9-15. -/
def snippet (sp : Char → Bool) (content : List Char) : List Nat :=
  let c := trim sp (joinSp (fields sp content))
  if (bytes c).length ≤ 180 then bytes c else (bytes c).take 177 ++ bytes "...".toList

/-! ### The text of Reflect -/

/-- A `RecallResult` as `formatContext` sees it: type, content, score and confidence of the memory. -/
structure Shown where
  mtype : String
  content : List Char
  score : ℚ
  conf : ℚ
  deriving DecidableEq, Repr

/-- One section: nothing when there is no such memory, /repo/pkg/hindsight/hindsight.go:705-711, 714-720, 723-730 and
733-739. -/
def part (heading : String) (line : Shown → List Char) (close : String) (rs : List Shown) : List Char :=
  if rs = [] then [] else heading.toList ++ rs.flatMap line ++ close.toList

/-- The memories of one type in the order recalled, hindsight.go:699-702. -/
def ofType (t : String) (rs : List Shown) : List Shown := rs.filter (fun r => r.mtype == t)

/-- The line of a world fact, hindsight.go:708. -/
def factLine (f3 : ℚ → List Char) (r : Shown) : List Char :=
  "- ".toList ++ r.content ++ " (score: ".toList ++ f3 r.score ++ ")\n".toList

/-- The line of an experience, hindsight.go:717. -/
def plainLine (r : Shown) : List Char := "- ".toList ++ r.content ++ "\n".toList

/-- The line of an observation or opinion, hindsight.go:727 and 737. -/
def confLine (f2 : ℚ → List Char) (r : Shown) : List Char :=
  "- ".toList ++ r.content ++ " (confidence: ".toList ++ f2 r.conf ++ ")\n".toList

/-- `formatContext`, /repo/pkg/hindsight/hindsight.go:689-742. -/
def formatContext (f3 f2 : ℚ → List Char) (rs : List Shown) (query : List Char) : List Char :=
  if rs.length = 0 then "No relevant memories found.".toList
  else
    "# Relevant Memories for: ".toList ++ query ++ "\n\n".toList ++
    part "## Facts\n" (factLine f3) "\n" (ofType "world" rs) ++
    part "## Experiences\n" plainLine "\n" (ofType "bank" rs) ++
    part "## Insights\n" (confLine f2) "\n" (ofType "observation" rs) ++
    part "## Beliefs\n" (confLine f2) "" (ofType "opinion" rs)

/-- `Reflect` after recalling `rs`, hindsight.go:664-686: the bytes of the context and the token count. The memories
returned beside it are those recalled. A budget so large that four times it overflows is left out. -/
def reflect (f3 f2 : ℚ → List Char) (rs : List Shown) (query : List Char) (budget : Int) : List Nat × Int :=
  let context := bytes (formatContext f3 f2 rs query)
  let count : Int := ((context.length / 4 : Nat) : Int)
  if budget > 0 ∧ count > budget then (context.take (budget.toNat * 4), budget) else (context, count)

/-! ### Memories and records -/

/-- A metadata value of a record. -/
inductive Val where
  | text (s : List Char)
  | secs (n : Int)
  | dec (q : ℚ)
  deriving DecidableEq, Repr

/-- `Memory`, /repo/pkg/hindsight/types.go:26-56. `meta` holds the user's metadata as printed by `%v`. The vector is
stored by the record store (`Model/Store`). -/
structure Memory where
  id : String
  bank : List Char
  mtype : List Char
  content : String
  entities : List (List Char)
  conf : ℚ
  extra : List (String × List Char)
  secs : Int
  nanos : Nat
  deriving DecidableEq, Repr

structure Record where
  id : String
  content : String
  fields : List (String × Val)
  deriving DecidableEq, Repr

structure Lib where
  r4 : ℚ → ℚ
  readInt : List Char → Int
  readNum : List Char → ℚ

/-- `strings.Join(parts, ",")`. -/
def joinComma : List (List Char) → List Char
  | [] => []
  | [w] => w
  | w :: ws => w ++ ',' :: joinComma ws

/-- `strings.Split(text, ",")`; `cur` is the part being read, reversed. -/
def splitAux : List Char → List Char → List (List Char)
  | cur, [] => [cur.reverse]
  | cur, c :: cs => if c = ',' then cur.reverse :: splitAux [] cs else splitAux (c :: cur) cs

def splitComma (t : List Char) : List (List Char) := splitAux [] t

/-- Value of a key: the map is written in the order of the list, so the last entry counts. -/
def look (fs : List (String × Val)) (k : String) : Option Val := ((fs.filter (fun p => p.1 == k)).getLast?).map (·.2)

/-- `buildMetadata`, /repo/pkg/hindsight/hindsight.go:185-209: the entries in the order they are written. -/
def buildMetadata (lib : Lib) (m : Memory) : List (String × Val) :=
  [("bank_id", .text m.bank), ("memory_type", .text m.mtype), ("created_at", .secs m.secs)] ++
  (if m.mtype = "opinion".toList ∨ m.mtype = "observation".toList then [("confidence", .dec (lib.r4 m.conf))] else []) ++
  (if m.entities.length > 0 then [("entities", .text (joinComma m.entities))] else []) ++
  m.extra.map (fun p => (p.1, .text p.2))

/-- The record `Retain` writes, hindsight.go:162-168. -/
def toRecord (lib : Lib) (m : Memory) : Record := ⟨m.id, m.content, buildMetadata lib m⟩

/-- `Retain`, hindsight.go:138-177, when the store accepts the record (`INSERT OR REPLACE` by id); an id and a time are
filled in by the caller of this function (lines 139-144). The entity nodes are in `Model/Hindsight`. -/
def retain (lib : Lib) (rows : List Record) (m : Memory) : List Record :=
  rows.filter (fun r => r.id ≠ m.id) ++ [toRecord lib m]

/-- Text of a value the system wrote as text; numbers do not occur under the keys read this way unless a user's metadata
is involved, which is text. -/
def asText : Val → List Char
  | .text s => s
  | .secs _ => []
  | .dec _ => []

def asInt (lib : Lib) : Val → Int
  | .secs n => n
  | .text s => lib.readInt s
  | .dec _ => 0

def asNum (lib : Lib) : Val → ℚ
  | .dec q => q
  | .text s => lib.readNum s
  | .secs _ => 0

/-- `scoredEmbeddingToMemory`, hindsight.go:605-640. `now` is the clock, used when no time is stored. -/
def toMemory (lib : Lib) (now : Int × Nat) (r : Record) : Memory :=
  { id := r.id
    content := r.content
    bank := ((look r.fields "bank_id").map asText).getD []
    mtype := ((look r.fields "memory_type").map asText).getD []
    secs := ((look r.fields "created_at").map (asInt lib)).getD now.1
    nanos := if (look r.fields "created_at").isSome then 0 else now.2
    conf := ((look r.fields "confidence").map (asNum lib)).getD 0
    entities := if ((look r.fields "entities").map asText).getD [] = [] then []
                else splitComma (((look r.fields "entities").map asText).getD [])
    extra := [] }

/-- `Observation`, /repo/pkg/hindsight/types.go:155-180. -/
structure Obs where
  id : String
  bank : List Char
  content : String
  conf : ℚ
  sources : List (List Char)
  kind : List Char
  reasoning : List Char
  secs : Int
  nanos : Nat
  deriving DecidableEq, Repr

/-- The memory `RetainObservation` (= `AddObservation`) stores, hindsight.go:1081-1109 and 1163-1165. -/
def obsMemory (o : Obs) : Memory :=
  { id := o.id, bank := o.bank, mtype := "observation".toList, content := o.content, entities := [], conf := o.conf
    extra := [("source_memory_ids", joinComma o.sources), ("observation_type", o.kind), ("reasoning", o.reasoning)]
    secs := o.secs, nanos := o.nanos }

/-- The observation `GetObservations` makes of a memory, hindsight.go:1189-1209: the three last fields are taken from the
metadata of the memory. -/
def memoryObs (m : Memory) : Obs :=
  { id := m.id, bank := m.bank, content := m.content, conf := m.conf
    sources := ((m.extra.find? (fun p => p.1 == "source_memory_ids")).map (fun p => splitComma p.2)).getD []
    kind := ((m.extra.find? (fun p => p.1 == "observation_type")).map (·.2)).getD []
    reasoning := ((m.extra.find? (fun p => p.1 == "reasoning")).map (·.2)).getD []
    secs := m.secs, nanos := m.nanos }

/-- `GetObservations`, hindsight.go:1168-1214, when fewer than 100 records match: those whose `bank_id` and `memory_type`
are as asked, in the order `ord` of the search. -/
def getObservations (lib : Lib) (now : Int × Nat) (ord : List Record → List Record) (rows : List Record)
    (bank : List Char) : List Obs :=
  let hits := ord (rows.filter (fun r => look r.fields "bank_id" == some (.text bank) &&
    look r.fields "memory_type" == some (.text "observation".toList)))
  ((hits.map (toMemory lib now)).filter (fun m => m.mtype == "observation".toList)).map memoryObs

/-! ### The collection -/

variable {W HI VI : Type}

/-- The collection `New` makes sure exists, /repo/pkg/hindsight/hindsight.go:64-67 and 99-104, on the opened store. -/
def new (s : St W HI VI) (fault : Bool) (name : String) (dims : Int) : St W HI VI :=
  let name := if name = "" then "memories" else name
  if s.db.collections.any (fun c => c.name = name) then s else (createCollection s fault name dims).1

/-- The write of `Retain`, hindsight.go:162-174: the collection is `getCollection()`, lines 180-182. -/
def retainRow (env : Env W HI VI) (s : St W HI VI) (fk fault : Bool) (id : String) (vector : Option (List W))
    (content : String) (md : Meta) : St W HI VI × Out :=
  step env s (.upsert fk fault { id := id, collection := "memories", vector := vector, content := content, metadata := some md })

end Verif.Reflect
