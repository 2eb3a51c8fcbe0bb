import Verif.Base.Text

/-!
# The entities found in a text without a language model

`extractTitleEntities` (/repo/pkg/cortexdb/graphrag.go:918-936) with `extractEntityNames` (845-853): all matches of the expression
`\b(?:[A-Z][a-z0-9]+(?:\s+[A-Z][a-z0-9]+)*)\b`, each once. It finds the entities of a document when no extractor is configured
(graphrag.go:520-525) and the names in a question.

The expression is read as the package `regexp` reads it: among the matches that start leftmost, the one a backtracking search
finds first; the next one is looked for behind it. A part of the expression is the list of its matches at the front of a text in
the order in which they are tried, each with what remains. `\b`, `\s` and the classes are ASCII. The type of an entity is always
"entity" and left out.
-/
namespace Verif.Titles
open Verif.Base

abbrev Text := List Char

/-- `[A-Z]`. -/
def upper (c : Char) : Bool := 'A' ≤ c && c ≤ 'Z'
/-- `[a-z0-9]`. -/
def low (c : Char) : Bool := ('a' ≤ c && c ≤ 'z') || ('0' ≤ c && c ≤ '9')
/-- `\s`. -/
def space (c : Char) : Bool := c == ' ' || c == '\t' || c == '\n' || c == '\r' || c.toNat == 12
/-- A word character, for `\b`. -/
def wordc (c : Char) : Bool := upper c || low c || c == '_'

/-- `x+` for a class, greedy. -/
def runs (p : Char → Bool) : Text → List (Text × Text)
  | [] => []
  | c :: cs => if p c then (runs p cs).map (fun x => (c :: x.1, x.2)) ++ [([c], cs)] else []

/-- `[A-Z][a-z0-9]+`. -/
def capital : Text → List (Text × Text)
  | [] => []
  | c :: cs => if upper c then (runs low cs).map (fun x => (c :: x.1, x.2)) else []

/-- `(?:\s+[A-Z][a-z0-9]+)*`, greedy. -/
def more : Nat → Text → List (Text × Text)
  | 0, t => [([], t)]
  | n + 1, t => ((runs space t).flatMap fun s => (capital s.2).flatMap fun w => (more n w.2).map fun m => (s.1 ++ (w.1 ++ m.1), m.2)) ++ [([], t)]

/-- Whether the character belongs to a word; the ends of the text do not. -/
def inWord (c : Option Char) : Bool := (c.map wordc).getD false

/-- `\b` between two characters. -/
def edge (a b : Option Char) : Bool := inWord a != inWord b

/-- The match at the front of a text; `prev` is the character before it. -/
def matchAt (prev : Option Char) (t : Text) : Option (Text × Text) :=
  if edge prev t.head? then
    ((capital t).flatMap fun w => (more t.length w.2).map fun m => (w.1 ++ m.1, m.2)).find? (fun x => edge x.1.getLast? x.2.head?)
  else none

/-- `FindAllString`, graphrag.go:920. -/
def findAll : Nat → Option Char → Text → List Text
  | 0, _, _ => []
  | n + 1, prev, t => match matchAt prev t with
    | some (m, rest) => m :: findAll n m.getLast? rest
    | none => match t with
      | [] => []
      | c :: cs => findAll n (some c) cs

/-- graphrag.go:921-936: trimmed, at least two bytes long (the matches are ASCII), each once. `sp` are the characters `TrimSpace` removes. -/
def titles (sp : Char → Bool) (t : Text) : List Text :=
  (findAll (t.length + 1) none t).foldl (fun acc m =>
    let m := trim sp m
    if m.length < 2 ∨ m ∈ acc then acc else acc ++ [m]) []

end Verif.Titles
