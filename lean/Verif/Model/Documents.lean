import Verif.Base.Sort
import Mathlib.Algebra.Order.Field.Rat

/-!
# Document records

`/repo/pkg/core/document.go`: the records of the table `documents` (`/repo/pkg/core/store_init.go:84-95`) with all their fields.

Simplifications:
* A metadata value is a string, a truth value, nil, a number of type `float64`, an integer, a nested value kept as its JSON text, or
  something `json.Marshal` refuses.  `round` is the conversion of an integer to `float64` that decoding into `interface{}` brings about.
* Strings are valid UTF-8.  Times are whole seconds, as `CURRENT_TIMESTAMP` gives them.
* The chunks of a document are in Model/Store.lean.  `sort` is what `ORDER BY created_at DESC` makes of the rows.
-/

namespace Verif.Documents

/-- A metadata value. -/
inductive Val where
  | str (s : String)
  | bool (b : Bool)
  | null
  | float (x : ℚ)
  | int (z : Int)
  | nested (json : String)
  | bad
  deriving DecidableEq

/-- The fields of a `Document` that a caller gives (document.go:12-23); `none` is nil. -/
structure Doc where
  id : String
  title : String := ""
  source : String := ""
  content : String := ""
  version : Int := 0
  author : String := ""
  info : Option (List (String × Val)) := none
  acl : Option (List String) := none
  deriving DecidableEq

/-- A row of the table. -/
structure Row where
  doc : Doc
  created : Nat
  updated : Nat
  deriving DecidableEq

structure State where
  rows : List Row := []
  now : Nat := 0
  closed : Bool := false

inductive Err where
  | closed
  | notFound
  | marshal
  | constraint
  | io
  deriving DecidableEq

/-- `json.Marshal(doc.Metadata)` (document.go:34-37, 143-146) fails on a value it cannot encode. -/
def marshals (d : Doc) : Bool := (d.info.getD []).all fun kv => kv.2 ≠ .bad

/-- A value read back by `json.Unmarshal` into `interface{}` (document.go:86-88). -/
def decode (round : Int → ℚ) : Val → Val
  | .int z => .float (round z)
  | v => v

/-- A row read back (document.go:71-93, 203-215). -/
def shown (round : Int → ℚ) (r : Row) : Row :=
  { r with doc := { r.doc with info := r.doc.info.map fun m => m.map fun kv => (kv.1, decode round kv.2) } }

/-- `CreateDocument` (document.go:26-55). -/
def create (s : State) (d : Doc) : State × Option Err :=
  if s.closed then (s, some .closed)
  else if !marshals d then (s, some .marshal)
  else if s.rows.any (fun r => decide (r.doc.id = d.id)) then (s, some .constraint)
  else ({ s with rows := s.rows ++ [⟨d, s.now, s.now⟩] }, none)

/-- `GetDocument` (document.go:58-94). -/
def get (round : Int → ℚ) (s : State) (id : String) : Except Err Row :=
  if s.closed then .error .closed
  else match s.rows.find? (fun r => decide (r.doc.id = id)) with
    | none => .error .notFound
    | some r => .ok (shown round r)

/-- `UpdateDocument` (document.go:135-173). -/
def update (s : State) (d : Doc) : State × Option Err :=
  if s.closed then (s, some .closed)
  else if !marshals d then (s, some .marshal)
  else if s.rows.any (fun r => decide (r.doc.id = d.id)) then
    ({ s with rows := s.rows.map fun r => if r.doc.id = d.id then ⟨d, r.created, s.now⟩ else r }, none)
  else (s, some .notFound)

/-- `DeleteDocument` (document.go:97-132) as far as the table of documents goes: no error when there is none. -/
def delete (s : State) (id : String) : State × Option Err :=
  if s.closed then (s, some .closed)
  else ({ s with rows := s.rows.filter fun r => decide (r.doc.id ≠ id) }, none)

/-- `ListDocumentsWithFilter` (document.go:177-218): there is no test for a closed store, so the query fails; a negative limit means
none to SQLite. -/
def list (round : Int → ℚ) (sort : List Row → List Row) (s : State) (author : String) (limit : Int) : Except Err (List Row) :=
  if s.closed then .error .io
  else
    let sorted := sort (s.rows.filter fun r => decide (author = "" ∨ r.doc.author = author))
    .ok ((if limit < 0 then sorted else sorted.take limit.toNat).map (shown round))

/-- Calls, the passing of time and `Close`. -/
inductive Op where
  | create (d : Doc)
  | update (d : Doc)
  | delete (id : String)
  | tick (n : Nat)
  | close

def step (s : State) : Op → State
  | .create d => (create s d).1
  | .update d => (update s d).1
  | .delete id => (delete s id).1
  | .tick n => { s with now := s.now + n }
  | .close => { s with closed := true }

def run (ops : List Op) : State := ops.foldl step {}

end Verif.Documents
