import Verif.Model.Store
import Mathlib.Order.Defs.LinearOrder

/-!
Model of `/repo/pkg/core/advanced_filter.go`: filter expressions, their SQL form, their in-memory evaluation, the builder
and the parser for filter strings.

Simplifications that hold for the whole file:
* `F` is the type of numbers (float64 and the SQL REAL), linearly ordered, so NaN is left out. Integers are numbers.
* The SQL text is a syntax tree (`Clause`). The builder parenthesises every child (lines 236, 247), so the text of a tree
  reads back as that tree.
* What SQLite does on a clause (three-valued logic, storage classes, affinity of CAST, errors of `json_extract`) is written
  down from its documentation in `evalSQL`.
* Metadata values are strings, as in `Embedding.Metadata`; text is valid Unicode, so byte order is code point order.
-/
namespace Verif.Model.Filter
open Verif.Model.Store (Meta St Env Out)

/-- The dynamic types of `FilterExpression.Value` that the code can meet (/repo/pkg/core/advanced_filter.go:35). -/
inductive V (F : Type) where
  | nil
  | str (s : String)
  | num (x : F)
  | bool (b : Bool)
  | list (vs : List (V F))

/-- The comparison operators (/repo/pkg/core/advanced_filter.go:19-27). -/
inductive Cmp where
  | eq | ne | gt | gte | lt | lte | in_ | between | like
  deriving DecidableEq, Repr

/-- `FilterExpression` (/repo/pkg/core/advanced_filter.go:32-37). `nil` is the nil pointer, `other` any operator outside
the ones named, which includes REGEX. -/
inductive Expr (F : Type) where
  | nil
  | and (cs : List (Expr F))
  | or (cs : List (Expr F))
  | not (cs : List (Expr F))
  | cmp (op : Cmp) (field : String) (v : V F)
  | other

/-- Library functions: `strconv.ParseFloat`, `%v` of a number and of a list, Go regular expressions, and SQLite's CAST to
REAL, numeric affinity of a text, text form of a REAL, and JSON paths outside plain names. -/
structure Lib (F : Type) where
  parse : String → Option F
  fmtNum : F → String
  fmtList : List (V F) → String
  regex : List Char → List Char → Bool
  cast : String → F
  affinity : String → Option F
  sqlText : F → String
  zero : F
  one : F
  oddPath : String → Meta → Option String

variable {F : Type} [LinearOrder F]

/-! ### SQL form -/

/-- The WHERE clause (/repo/pkg/core/advanced_filter.go:222-307). -/
inductive Clause (F : Type) where
  | conj (cs : List (Clause F))
  | disj (cs : List (Clause F))
  | text (ne : Bool) (field : String) (v : V F)
  | real (op : Cmp) (field : String) (v : V F)
  | between (field : String) (lo hi : V F)
  | inList (field : String) (vs : List (V F))
  | like (field : String) (v : V F)

/-- The comparison cases of `BuildSQLFromFilter` (/repo/pkg/core/advanced_filter.go:252-302). `none` is a panic: a failed
type assertion (lines 283, 289) or an index out of range (line 285). -/
def compileCmp (op : Cmp) (f : String) (v : V F) : Option (Clause F) :=
  match op with
  | .eq => some (.text false f v)
  | .ne => some (.text true f v)
  | .gt => some (.real .gt f v)
  | .gte => some (.real .gte f v)
  | .lt => some (.real .lt f v)
  | .lte => some (.real .lte f v)
  | .between =>
    match v with
    | .list (a :: b :: _) => some (.between f a b)
    | _ => none
  | .in_ =>
    match v with
    | .list vs => some (.inList f vs)
    | _ => none
  | .like => some (.like f v)

mutual
/-- `BuildSQLFromFilter` (/repo/pkg/core/advanced_filter.go:222-307). Outer `none` is a panic, inner `none` the empty
string: nil, NOT, REGEX and unknown operators (lines 223-225, 304-305), and a connective without usable children. -/
def compile : Expr F → Option (Option (Clause F))
  | .nil => some none
  | .and cs =>
    match compileList cs with
    | none => none
    | some [] => some none
    | some (k :: ks) => some (some (.conj (k :: ks)))
  | .or cs =>
    match compileList cs with
    | none => none
    | some [] => some none
    | some (k :: ks) => some (some (.disj (k :: ks)))
  | .not _ => some none
  | .cmp op f v => (compileCmp op f v).map some
  | .other => some none
/-- The loop over the children (/repo/pkg/core/advanced_filter.go:232-238, 243-249): empty clauses are skipped. -/
def compileList : List (Expr F) → Option (List (Clause F))
  | [] => some []
  | c :: cs =>
    match compile c with
    | none => none
    | some k =>
      match compileList cs with
      | none => none
      | some ks => some (k.toList ++ ks)
end

/-- A name that a JSON path reads as one key. -/
def plainField (f : String) : Bool := !f.isEmpty && f.toList.all (fun c => c.isAlphanum || c = '_')

/-- A dotted name all of whose parts are plain. -/
def dottedField (f : String) : Bool := (f.toList.splitOn '.').all (fun p => plainField (String.ofList p))

/-- `json_extract(metadata, '$.field')` on an object whose values are strings: a dotted path steps into a string and gives
NULL, empty parts (which SQLite rejects) and other special characters are left to `oddPath`. -/
def extract (c : Lib F) (f : String) (m : Meta) : Option String :=
  if plainField f then m.lookup f
  else if dottedField f then none
  else c.oddPath f m

/-- Comparison of two numbers. -/
def cmpNum (op : Cmp) (x y : F) : Bool :=
  match op with
  | .eq => x = y
  | .ne => x ≠ y
  | .gt => y < x
  | .gte => y ≤ x
  | .lt => x < y
  | .lte => x ≤ y
  | _ => false

/-- A REAL against a parameter: the CAST has REAL affinity, so a text that looks like a number is converted; any other
text is greater than every number. `none` is NULL. -/
def sqlReal (c : Lib F) (op : Cmp) (x : F) (v : V F) : Option Bool :=
  match v with
  | .nil => none
  | .num y => some (cmpNum op x y)
  | .bool b => some (cmpNum op x (if b then c.one else c.zero))
  | .str s =>
    match c.affinity s with
    | some y => some (cmpNum op x y)
    | none => some (op = .lt || op = .lte)
  | .list _ => none

/-- A TEXT against a parameter, without affinity: different storage classes are never equal. -/
def sqlEq (s : String) (v : V F) : Option Bool :=
  match v with
  | .nil => none
  | .str t => some (s = t)
  | .num _ => some false
  | .bool _ => some false
  | .list _ => none

/-- Skip characters accepted by `one`, then match with `k`. -/
def skip (one : Char → Bool) (k : List Char → Bool) : List Char → Bool
  | [] => k []
  | x :: xs => k (x :: xs) || (one x && skip one k xs)

/-- Pattern matching with `%` and `_`. `eq` compares characters, `one` says what a wildcard accepts. -/
def likeMatch (eq : Char → Char → Bool) (one : Char → Bool) : List Char → List Char → Bool
  | [] => fun t => t.isEmpty
  | p :: ps =>
    if p = '%' then skip one (likeMatch eq one ps)
    else if p = '_' then fun t =>
      match t with
      | [] => false
      | x :: xs => one x && likeMatch eq one ps xs
    else fun t =>
      match t with
      | [] => false
      | x :: xs => eq p x && likeMatch eq one ps xs

/-- SQLite's LIKE: ASCII letters without regard to case. -/
def sqlLike (p t : String) : Bool :=
  likeMatch (fun a b => a.toLower = b.toLower) (fun _ => true) p.toList t.toList

/-- Text form of the pattern parameter. -/
def sqlPattern (c : Lib F) : V F → Option String
  | .nil => none
  | .str s => some s
  | .num x => some (c.sqlText x)
  | .bool b => some (if b then "1" else "0")
  | .list _ => none

/-- SQL `x IN (...)`. The empty list gives false also for NULL. -/
def sqlIn (x : Option String) (vs : List (V F)) : Option Bool :=
  if vs.isEmpty then some false
  else
    match x with
    | none => none
    | some s =>
      if vs.any (fun v => sqlEq s v == some true) then some true
      else if vs.any (fun v => (sqlEq s v).isNone) then none
      else some false

/-- Three-valued conjunction. -/
def and3 : Option Bool → Option Bool → Option Bool
  | some false, _ => some false
  | _, some false => some false
  | some true, some true => some true
  | _, _ => none

/-- Three-valued disjunction. -/
def or3 : Option Bool → Option Bool → Option Bool
  | some true, _ => some true
  | _, some true => some true
  | some false, some false => some false
  | _, _ => none

mutual
/-- Value of a WHERE clause on a row whose metadata column is the JSON object `m`. `none` is NULL. -/
def evalSQL (c : Lib F) (m : Meta) : Clause F → Option Bool
  | .conj cs => evalConj c m cs
  | .disj cs => evalDisj c m cs
  | .text ne f v => (extract c f m).bind (fun s => (sqlEq s v).map (fun b => if ne then !b else b))
  | .real op f v => (extract c f m).bind (fun s => sqlReal c op (c.cast s) v)
  | .between f lo hi =>
    (extract c f m).bind (fun s => and3 (sqlReal c .gte (c.cast s) lo) (sqlReal c .lte (c.cast s) hi))
  | .inList f vs => sqlIn (extract c f m) vs
  | .like f v => (extract c f m).bind (fun s => (sqlPattern c v).map (fun p => sqlLike p s))
/-- AND over the children. -/
def evalConj (c : Lib F) (m : Meta) : List (Clause F) → Option Bool
  | [] => some true
  | k :: ks => and3 (evalSQL c m k) (evalConj c m ks)
/-- OR over the children. -/
def evalDisj (c : Lib F) (m : Meta) : List (Clause F) → Option Bool
  | [] => some false
  | k :: ks => or3 (evalSQL c m k) (evalDisj c m ks)
end

/-- A parameter that `database/sql` refuses. -/
def isList : V F → Bool
  | .list _ => true
  | _ => false

mutual
/-- The clause has a parameter that `database/sql` refuses ("unsupported type []interface {}"). -/
def badParam : Clause F → Bool
  | .conj cs => badParams cs
  | .disj cs => badParams cs
  | .text _ _ v => isList v
  | .real _ _ v => isList v
  | .between _ a b => isList a || isList b
  | .inList _ vs => vs.any isList
  | .like _ v => isList v
/-- The same for a list of clauses. -/
def badParams : List (Clause F) → Bool
  | [] => false
  | k :: ks => badParam k || badParams ks
end

mutual
/-- Evaluating the clause reads the metadata column. Only `IN ()` does not; SQLite folds it to false. -/
def reads : Clause F → Bool
  | .conj cs => readsAll cs
  | .disj cs => readsAny cs
  | .inList _ vs => !vs.isEmpty
  | _ => true
/-- A conjunction with a constant false child is constant. -/
def readsAll : List (Clause F) → Bool
  | [] => true
  | k :: ks => reads k && readsAll ks
/-- A disjunction is constant if all children are. -/
def readsAny : List (Clause F) → Bool
  | [] => false
  | k :: ks => reads k || readsAny ks
end

/-- What a WHERE clause gives on a row; `none` makes the statement fail. A nil map is stored as the empty text
(/repo/internal/encoding/utils.go:85-88), on which `json_extract` reports malformed JSON. -/
def whereRow (c : Lib F) (k : Clause F) : Option Meta → Option Bool :=
  fun m =>
    if badParam k then none
    else
      match m with
      | none => if reads k then none else some false
      | some m => some (evalSQL c m k == some true)

/-- `DeleteByFilter` (/repo/pkg/core/store_crud.go:465-532) on an expression: the nil expression is the empty filter
(lines 466-468), a filter without SQL form is refused (479-481, advanced_filter.go:506-512), and so is a parameter that
`database/sql` cannot convert (485-488), whatever the table holds. `none` is a panic. -/
def deleteByFilter {W HI VI : Type} (c : Lib F) (env : Env W HI VI) (s : St W HI VI) (fault : Bool) (e : Expr F) :
    Option (St W HI VI × Out) :=
  match e with
  | .nil => some (s, .err .emptyFilter)
  | e =>
    if s.closed then some (s, .err .closed)
    else
      match compile e with
      | none => none
      | some none => some (s, .err .emptyFilter)
      | some (some k) =>
        if badParam k then some (s, .err .badFilter)
        else some (Store.deleteByFilter env s fault (some (whereRow c k)))

/-! ### In-memory evaluation -/

/-- `toFloat64` (/repo/pkg/core/advanced_filter.go:756-772). -/
def toFloat (c : Lib F) : V F → Option F
  | .num x => some x
  | .str s => c.parse s
  | _ => none

/-- `fmt.Sprintf("%v", v)`. -/
def show_ (c : Lib F) : V F → String
  | .nil => "<nil>"
  | .str s => s
  | .num x => c.fmtNum x
  | .bool b => if b then "true" else "false"
  | .list vs => c.fmtList vs

/-- `compareValues` on a metadata string (/repo/pkg/core/advanced_filter.go:711-753). -/
def compareValues (c : Lib F) (a : String) (b : V F) (op : Cmp) : Bool :=
  match c.parse a, toFloat c b with
  | some x, some y => cmpNum op x y
  | _, _ =>
    let t := show_ c b
    match op with
    | .eq => a = t
    | .ne => a ≠ t
    | .gt => t < a
    | .gte => t ≤ a
    | .lt => a < t
    | .lte => a ≤ t
    | _ => false

/-- Characters with a meaning in Go regular expressions. -/
def isMeta (x : Char) : Bool := "\\.+*?()|[]{}^$".toList.contains x

/-- LIKE in memory (/repo/pkg/core/advanced_filter.go:691-703): `%` and `_` become `.*` and `.`, nothing is escaped, and
`.` does not match a newline. Patterns with characters special to regular expressions go to `regex`. -/
def goLike (c : Lib F) (p t : String) : Bool :=
  if p.toList.any isMeta then c.regex p.toList t.toList
  else likeMatch (fun a b => a = b) (fun x => x ≠ '\n') p.toList t.toList

/-- The comparison cases of `evaluateFilter` (/repo/pkg/core/advanced_filter.go:650-703). `none` is a panic. -/
def evalCmp (c : Lib F) (m : Meta) (op : Cmp) (f : String) (v : V F) : Option Bool :=
  match m.lookup f with
  | none => some (op = .ne)
  | some a =>
    match op with
    | .between =>
      match v with
      | .list (lo :: hi :: _) => some (compareValues c a lo .gte && compareValues c a hi .lte)
      | .list [lo] => if compareValues c a lo .gte then none else some false
      | _ => none
    | .in_ =>
      match v with
      | .list vs => some (vs.any (fun w => compareValues c a w .eq))
      | _ => none
    | .like => some (goLike c (show_ c v) a)
    | op => some (compareValues c a v op)

mutual
/-- `evaluateFilter` (/repo/pkg/core/advanced_filter.go:622-708). `none` is a panic. -/
def eval (c : Lib F) (m : Meta) : Expr F → Option Bool
  | .nil => some true
  | .and cs => evalAnd c m cs
  | .or cs => evalOr c m cs
  | .not [] => some false
  | .not (k :: _) => (eval c m k).map (fun b => !b)
  | .cmp op f v => evalCmp c m op f v
  | .other => some false
/-- AND stops at the first false child (/repo/pkg/core/advanced_filter.go:629-634). -/
def evalAnd (c : Lib F) (m : Meta) : List (Expr F) → Option Bool
  | [] => some true
  | k :: ks =>
    match eval c m k with
    | none => none
    | some false => some false
    | some true => evalAnd c m ks
/-- OR stops at the first true child (/repo/pkg/core/advanced_filter.go:637-642). -/
def evalOr (c : Lib F) (m : Meta) : List (Expr F) → Option Bool
  | [] => some false
  | k :: ks =>
    match eval c m k with
    | none => none
    | some true => some true
    | some false => evalOr c m ks
end

/-! ### Builder -/

/-- `combine` (/repo/pkg/core/advanced_filter.go:494-504). `none` is the empty filter. -/
def combine (f : Option (Expr F)) (e : Expr F) : Option (Expr F) :=
  match f with
  | none => some e
  | some x => some (.and [x, e])

/-- Calls on a `MetadataFilter`. -/
inductive Build (F : Type) where
  | new
  | equal (b : Build F) (f : String) (v : V F)
  | notEqual (b : Build F) (f : String) (v : V F)
  | greater (b : Build F) (f : String) (v : V F)
  | less (b : Build F) (f : String) (v : V F)
  | greaterEq (b : Build F) (f : String) (v : V F)
  | lessEq (b : Build F) (f : String) (v : V F)
  | isIn (b : Build F) (f : String) (vs : List (V F))
  | notIn (b : Build F) (f : String) (vs : List (V F))
  | between (b : Build F) (f : String) (lo hi : V F)
  | like (b : Build F) (f p : String)
  | and (b o : Build F)
  | or (b o : Build F)

/-- The expression a chain of builder calls makes (/repo/pkg/core/advanced_filter.go:310-504). -/
def build : Build F → Option (Expr F)
  | .new => none
  | .equal b f v => combine (build b) (.cmp .eq f v)
  | .notEqual b f v => combine (build b) (.cmp .ne f v)
  | .greater b f v => combine (build b) (.cmp .gt f v)
  | .less b f v => combine (build b) (.cmp .lt f v)
  | .greaterEq b f v => combine (build b) (.cmp .gte f v)
  | .lessEq b f v => combine (build b) (.cmp .lte f v)
  | .isIn b f vs => combine (build b) (.cmp .in_ f (.list vs))
  | .notIn b f vs => combine (build b) (.not [.cmp .in_ f (.list vs)])
  | .between b f lo hi => combine (build b) (.cmp .between f (.list [lo, hi]))
  | .like b f p => combine (build b) (.cmp .like f (.str p))
  | .and b o =>
    match build b, build o with
    | x, none => x
    | none, some y => some y
    | some x, some y => some (.and [x, y])
  | .or b o =>
    match build b, build o with
    | x, none => x
    | none, some y => some y
    | some x, some y => some (.or [x, y])

/-! ### Parser -/

/-- Result of parsing: an expression, an error, or a panic. -/
inductive Parsed (α : Type) where
  | ok (a : α)
  | err
  | panic

/-- `strings.TrimSpace`. -/
def trim (s : List Char) : List Char :=
  ((s.dropWhile Store.isSpace).reverse.dropWhile Store.isSpace).reverse

/-- The text before and after the first occurrence of `pat` (`strings.Index`). -/
def cut (pat : List Char) : List Char → Option (List Char × List Char)
  | [] => if pat.isEmpty then some ([], []) else none
  | x :: xs =>
    if pat.isPrefixOf (x :: xs) then some ([], (x :: xs).drop pat.length)
    else (cut pat xs).map (fun r => (x :: r.1, r.2))

/-- `strings.Split` with exactly two parts. -/
def split2 (pat s : List Char) : Option (List Char × List Char) :=
  match cut pat s with
  | none => none
  | some (a, b) => if (cut pat b).isNone then some (a, b) else none

/-- `HasPrefix(s, q) && HasSuffix(s, q)`. -/
def quoted (q : Char) (s : List Char) : Bool := s.head? = some q && s.getLast? = some q

/-- `parseValue` (/repo/pkg/core/advanced_filter.go:193-219). A lone quote slices out of range. -/
def parseValue (c : Lib F) (s : List Char) : Parsed (V F) :=
  let s := trim s
  if quoted '\'' s || quoted '"' s then
    if s.length < 2 then .panic else .ok (.str (String.ofList ((s.drop 1).dropLast)))
  else if s = "true".toList || s = "TRUE".toList then .ok (.bool true)
  else if s = "false".toList || s = "FALSE".toList then .ok (.bool false)
  else
    match c.parse (String.ofList s) with
    | some x => .ok (.num x)
    | none => .ok (.str (String.ofList s))

/-- The values of an IN list, in order (/repo/pkg/core/advanced_filter.go:141-147). -/
def parseValues (c : Lib F) : List (List Char) → Parsed (List (V F))
  | [] => .ok []
  | s :: ss =>
    match parseValue c s with
    | .err => .err
    | .panic => .panic
    | .ok v =>
      match parseValues c ss with
      | .ok vs => .ok (v :: vs)
      | .err => .err
      | .panic => .panic

/-- The operator table, in the order tried (/repo/pkg/core/advanced_filter.go:157-170). -/
def operators : List (String × Cmp) :=
  [(">=", .gte), ("<=", .lte), ("!=", .ne), (">", .gt), ("<", .lt), ("=", .eq), (":=", .eq), (":", .eq)]

/-- The loop over the operator table (/repo/pkg/core/advanced_filter.go:172-190). -/
def parseOps (c : Lib F) (s : List Char) : List (String × Cmp) → Parsed (Expr F)
  | [] => .err
  | (o, op) :: rest =>
    match cut o.toList s with
    | none => parseOps c s rest
    | some (a, b) =>
      if a = [] then parseOps c s rest
      else
        match parseValue c b with
        | .ok v => .ok (.cmp op (String.ofList (trim a)) v)
        | .err => .err
        | .panic => .panic

/-- `parseComparison` (/repo/pkg/core/advanced_filter.go:95-191). The range of BETWEEN is split at " AND ". -/
def parseComparison (c : Lib F) (s : List Char) : Parsed (Expr F) :=
  if (cut " BETWEEN ".toList s).isSome then
    match split2 " BETWEEN ".toList s with
    | none => .err
    | some (a, r) =>
      match split2 " AND ".toList r with
      | none => .err
      | some (lo, hi) =>
        match parseValue c lo with
        | .err => .err
        | .panic => .panic
        | .ok l =>
          match parseValue c hi with
          | .err => .err
          | .panic => .panic
          | .ok h => .ok (.cmp .between (String.ofList (trim a)) (.list [l, h]))
  else if (cut " IN ".toList s).isSome then
    match split2 " IN ".toList s with
    | none => .err
    | some (a, r) =>
      let r := trim r
      if !(r.head? = some '(' && r.getLast? = some ')') then .err
      else
        match parseValues c (((r.drop 1).dropLast).splitOn ',') with
        | .ok vs => .ok (.cmp .in_ (String.ofList (trim a)) (.list vs))
        | .err => .err
        | .panic => .panic
  else parseOps c s operators

/-- `ParseFilterString` (/repo/pkg/core/advanced_filter.go:50-93). `fuel` bounds the recursion; every call is on a shorter
text, so `parse` gives it the length of the text plus one. -/
def parseFuel (c : Lib F) : Nat → List Char → Parsed (Expr F)
  | 0, _ => .err
  | n + 1, s =>
    let s := trim s
    if s.head? = some '(' && s.getLast? = some ')' then parseFuel c n ((s.drop 1).dropLast)
    else
      let bin (pat : String) (mk : Expr F → Expr F → Expr F) (k : Parsed (Expr F)) : Parsed (Expr F) :=
        match cut pat.toList s with
        | none => k
        | some (a, b) =>
          if a = [] then k
          else
            match parseFuel c n a with
            | .err => .err
            | .panic => .panic
            | .ok l =>
              match parseFuel c n b with
              | .err => .err
              | .panic => .panic
              | .ok r => .ok (mk l r)
      bin " AND " (fun l r => .and [l, r]) (bin " OR " (fun l r => .or [l, r]) (parseComparison c s))

/-- `ParseFilterString`. -/
def parse (c : Lib F) (s : String) : Parsed (Expr F) := parseFuel c (s.toList.length + 1) s.toList

end Verif.Model.Filter
