import Verif.Model.Hindsight
import Verif.Model.FuncRouter
import Verif.Base.Text
import Verif.Base.Utf8

/-!
# What `Observe` says about the memories it recalled

`/repo/pkg/hindsight/hindsight.go:909-1035`: the texts of the observations, read from the texts of the memories.  `Model/Hindsight`
has the same function with the outcome of the tests on texts as inputs; `Thm/Patterns` proves that the two agree.

Simplifications:
* A text is its list of runes; `lower` is `unicode.ToLower` and `space` is `unicode.IsSpace`.
* `ord` and `ordT` are the orders in which the map of entities and the map of words are visited.
* The identifier and the time of an observation are left out; its reasoning is a constant for each kind.
-/

namespace Verif.Patterns

open Verif.Base
open Verif.Hindsight (Bank confidence)
open Verif.FuncRouter (contains)

abbrev Text := List Char

/-- A recalled memory. -/
structure Mem where
  id : String
  entities : List Text
  content : Text
  deriving DecidableEq

/-- `ObservationType`. -/
inductive Kind where
  | preference
  | causal
  | general
  deriving DecidableEq

/-- An observation; `about` is the entity or the theme its content names. -/
structure Note where
  kind : Kind
  about : Text
  sources : List String
  conf : ℚ
  deriving DecidableEq

/-- The content of an observation (hindsight.go:931, 946, 1030). -/
def Note.content (o : Note) : Text :=
  match o.kind with
  | .preference => o.about ++ " shows consistent patterns in behavior".toList
  | .causal => o.about ++ "'s actions show cause-effect patterns".toList
  | .general => "General pattern: interactions involving ".toList ++ o.about ++ " show consistency".toList

/-- hindsight.go:972. -/
def preferenceWords : List Text :=
  ["prefers".toList, "likes".toList, "enjoys".toList, "prefers".toList, "chooses".toList, "selects".toList]

/-- hindsight.go:986. -/
def causalWords : List Text :=
  ["because".toList, "since".toList, "due to".toList, "caused".toList, "resulted in".toList, "led to".toList]

/-- `isPreferencePattern` and `isCausalPattern` (hindsight.go:971-996). -/
def speaks (lower : Char → Char) (words : List Text) (ms : List Mem) : Bool :=
  ms.any fun m => words.any fun w => contains w (m.content.map lower)

/-- The memories of an entity, one entry per occurrence (hindsight.go:917-923). -/
def byEntity (ms : List Mem) (e : Text) : List Mem :=
  ms.flatMap fun m => (m.entities.filter fun x => decide (x = e)).map fun _ => m

/-- The longer words of the memories, with repetitions (hindsight.go:1002-1009); `len` counts bytes. -/
def longWords (lower : Char → Char) (space : Char → Bool) (ms : List Mem) : List Text :=
  ms.flatMap fun m => (fields space (m.content.map lower)).filter fun w => decide ((bytes w).length > 4)

/-- The loop over the map of words (hindsight.go:1012-1020). -/
def topTheme (count : Text → Nat) : List Text → Text × Nat → Text × Nat
  | [], best => best
  | t :: ts, best => topTheme count ts (if count t > best.2 ∧ count t ≥ 2 then (t, count t) else best)

/-- One observation; `none` is the panic of `calculateConfidence` on a bank without disposition. -/
def mkNote (bank : Option Bank) (kind : Kind) (about : Text) (ms : List Mem) : Option Note :=
  (confidence ms.length bank).map fun c => ⟨kind, about, ms.map (·.id), c⟩

/-- `generalizeFromMemories` (hindsight.go:1000-1038). -/
def generalize (lower : Char → Char) (space : Char → Bool) (ordT : List Text → List Text) (ms : List Mem) (bank : Option Bank) :
    List (Option Note) :=
  let ws := longWords lower space ms
  let top := (topTheme (fun t => ws.count t) (ordT ws.dedup) ([], 0)).1
  if top = [] then [] else [mkNote bank .general top ms]

/-- The observations about one entity (hindsight.go:926-957). -/
def entityNotes (lower : Char → Char) (bank : Option Bank) (e : Text) (g : List Mem) : List (Option Note) :=
  if g.length ≥ 2 then
    (if speaks lower preferenceWords g then [mkNote bank .preference e g] else []) ++
    (if speaks lower causalWords g then [mkNote bank .causal e g] else [])
  else []

/-- `detectPatterns` (hindsight.go:909-968). -/
def detect (lower : Char → Char) (space : Char → Bool) (ord ordT : List Text → List Text) (ms : List Mem) (bank : Option Bank) :
    List (Option Note) :=
  if ms.length < 2 then []
  else
    (ord (ms.flatMap (·.entities)).dedup).flatMap (fun e => entityNotes lower bank e (byEntity ms e)) ++
    (if ms.length ≥ 3 then generalize lower space ordT ms bank else [])

end Verif.Patterns
