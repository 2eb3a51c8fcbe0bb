import Verif.Base.Text
import Verif.Model.Router

/-!
Model of function calling in /repo/pkg/semantic-router/schema.go: `FunctionRouter`, `FunctionCall.Execute`,
`RegexExtractor` and `SchemaBuilder`.

Texts are lists of characters. Simplifications: numbers of the type "number" are rationals (no rounding, no overflow of
floats); handlers are opaque values; the JSON form of a schema is left out. Maps are association lists with unique keys;
where the iteration order matters it is the order of the list.
-/
namespace Verif.FuncRouter

open Verif.Base

abbrev Text := List Char

/-- Library functions: `unicode.ToLower`, `unicode.IsSpace` (for `strings.Fields`), and what the expression built from a
keyword with special characters does on a text. -/
inductive Hit where
  | panic
  | none
  | group (t : Text)
  deriving DecidableEq, Repr

structure Lib where
  lower : Char → Char
  space : Char → Bool
  odd : Text → Text → Hit

/-- An argument: what `coerceType` makes (schema.go:304-334), or any other default value. -/
inductive Val where
  | text (t : Text)
  | int (n : Int)
  | num (q : ℚ)
  | bool (b : Bool)
  | list (l : List Text)
  | other (n : Nat)
  deriving DecidableEq, Repr

/-- `ParameterSchema`, schema.go:13-43, without the fields no code reads (Properties, Items, Pattern, Minimum, Maximum).
Enum values are given as `fmt.Sprintf("%v", …)` prints them. -/
structure ParamSchema where
  type : Text
  description : Text
  required : Bool
  default : Option Val
  enum : List Text
  deriving DecidableEq, Repr

/-- `FunctionSchema`, schema.go:46-64; `Extractor` is never read. -/
structure Schema (H : Type) where
  name : Text
  params : List (Text × ParamSchema)
  required : List Text
  handler : Option H
  deriving DecidableEq, Repr

/-- Characters with a meaning in regular expressions. -/
def isMeta (x : Char) : Bool := "\\.+*?()|[]{}^$".toList.contains x

/-- `\s` of Go's regular expressions. -/
def reSpace (x : Char) : Bool := x = ' ' || x = '\t' || x = '\n' || x = '\x0c' || x = '\r'

/-- The class `[^"'\s,。.!?]` of schema.go:252. -/
def valueChar (x : Char) : Bool :=
  !(reSpace x || x = '"' || x = '\'' || x = ',' || x = '。' || x = '.' || x = '!' || x = '?')

/-- The class `[:是]`. -/
def colonChar (x : Char) : Bool := x = ':' || x = '是'

/-- The class `["']`. -/
def quoteChar (x : Char) : Bool := x = '"' || x = '\''

/-- `c?` in the order a backtracking matcher tries: what is left of the text. -/
def opt (p : Char → Bool) : Text → List Text
  | [] => [[]]
  | x :: xs => if p x then [xs, x :: xs] else [x :: xs]

/-- `c*`, longest first. -/
def star (p : Char → Bool) : Text → List Text
  | [] => [[]]
  | x :: xs => if p x then star p xs ++ [x :: xs] else [x :: xs]

/-- `c+`, longest first. -/
def plus (p : Char → Bool) : Text → List Text
  | [] => []
  | x :: xs => if p x then star p xs else []

/-- The expression `\s+[:是]?\s*["']?([^"'\s,。.!?]+)["']?` of schema.go:252 at the start of a text: the group. -/
def tailGroup (t : Text) : Option Text :=
  (((((plus reSpace t).flatMap (opt colonChar)).flatMap (star reSpace)).flatMap (opt quoteChar)).map
    (fun r => r.takeWhile valueChar)).find? (fun w => !w.isEmpty)

/-- The first place where the keyword is followed by the expression. -/
def findGroup (k : Text) : Text → Option Text
  | [] => if k.isPrefixOf [] then tailGroup [] else none
  | x :: xs =>
    match (if k.isPrefixOf (x :: xs) then tailGroup ((x :: xs).drop k.length) else none) with
    | some w => some w
    | none => findGroup k xs

/-- `strings.Contains`. -/
def contains (k : Text) : Text → Bool
  | [] => k.isEmpty
  | x :: xs => k.isPrefixOf (x :: xs) || contains k xs

/-- One keyword, schema.go:249-258. `regexp.MustCompile` panics on a keyword that makes the expression invalid. -/
def keyHit (lib : Lib) (textLower k : Text) : Hit :=
  if contains k textLower then
    if k.any isMeta then lib.odd k textLower
    else match findGroup k textLower with
      | some w => .group w
      | none => .none
  else .none

/-- `keywordMap`, schema.go:287-294. -/
def keywordMap : List (Text × List Text) :=
  [("city".toList, ["城市".toList, "地点".toList, "在哪里".toList]),
   ("date".toList, ["日期".toList, "几号".toList, "哪天".toList, "时间".toList]),
   ("amount".toList, ["金额".toList, "钱".toList, "元".toList, "块".toList]),
   ("product".toList, ["产品".toList, "商品".toList, "东西".toList]),
   ("quantity".toList, ["数量".toList, "几个".toList, "多少".toList]),
   ("temperature".toList, ["温度".toList, "气温".toList, "度".toList])]

/-- `extractKeywords`, schema.go:277-301. -/
def keywords (lib : Lib) (description name : Text) : List Text :=
  let n := name.map lib.lower
  n :: ((if description = [] then [] else fields lib.space (description.map lib.lower)) ++ (keywordMap.lookup n).getD [])

def isDigit (x : Char) : Bool := '0' ≤ x && x ≤ '9'

/-- The number a run of digits stands for. -/
def digitsVal (t : Text) : Nat := t.foldl (fun n x => 10 * n + (x.toNat - 48)) 0

/-- The text from the first digit on. -/
def fromDigit (t : Text) : Text := t.dropWhile (fun x => !isDigit x)

/-- The types `coerceType` knows, schema.go:305-331. -/
inductive Ty where
  | string | integer | number | boolean | array | unknown
  deriving DecidableEq, Repr

def tyOf (lib : Lib) (t : Text) : Ty :=
  let l := t.map lib.lower
  if l = "string".toList then .string
  else if l = "integer".toList ∨ l = "int".toList then .integer
  else if l = "number".toList ∨ l = "float".toList then .number
  else if l = "boolean".toList ∨ l = "bool".toList then .boolean
  else if l = "array".toList then .array
  else .unknown

/-- `\d+\.?\d*` read by `Sscanf("%f")`, schema.go:317-324, on a text that starts with a digit. -/
def readNumber (t : Text) : ℚ :=
  let whole := t.takeWhile isDigit
  match t.dropWhile isDigit with
  | x :: xs =>
    if x = '.' then (digitsVal whole : ℚ) + (digitsVal (xs.takeWhile isDigit) : ℚ) / 10 ^ (xs.takeWhile isDigit).length
    else digitsVal whole
  | [] => digitsVal whole

/-- `coerceType`, schema.go:304-334. `Sscanf("%d")` leaves the result 0 when the digits do not fit 64 bits. -/
def coerce (lib : Lib) (value type : Text) : Val :=
  match tyOf lib type with
  | .integer =>
    let d := (fromDigit value).takeWhile isDigit
    if d = [] then .text value else if digitsVal d < 2 ^ 63 then .int (digitsVal d) else .int 0
  | .number => if fromDigit value = [] then .text value else .num (readNumber (fromDigit value))
  | .boolean =>
    let l := value.map lib.lower
    .bool (l = "true".toList || l = "yes".toList || l = "是".toList || l = "好的".toList)
  | .array => .list (value.splitOn ',')
  | _ => .text value

/-- A result that may be a panic. -/
inductive Res (α : Type) where
  | panic
  | ok (a : α)
  deriving DecidableEq, Repr

/-- The loop over the keywords, schema.go:248-260. -/
def tryKeys (lib : Lib) (textLower : Text) : List Text → Res (Option Text)
  | [] => .ok none
  | k :: ks =>
    match keyHit lib textLower k with
    | .panic => .panic
    | .group w => .ok (some w)
    | .none => tryKeys lib textLower ks

/-- `extractValue`, schema.go:244-274. -/
def extractValue (lib : Lib) (text name : Text) (p : ParamSchema) : Res (Option Val) :=
  let low := text.map lib.lower
  match tryKeys lib low (keywords lib p.description name) with
  | .panic => .panic
  | .ok (some w) => .ok (some (coerce lib w p.type))
  | .ok none =>
    match p.enum.find? (fun e => contains (e.map lib.lower) low) with
    | some e => .ok (some (coerce lib e p.type))
    | none => .ok p.default

/-- A registered pattern: `none` does not compile, else the first group it finds in a text. -/
abbrev Pattern := Option (Text → Option Text)

/-- One parameter of `Extract`, schema.go:211-238: `skip` is the `continue` of a pattern that does not compile. -/
inductive One where
  | panic
  | skip
  | value (v : Val)
  | missing
  deriving DecidableEq, Repr

def extractOne (lib : Lib) (pat : Option Pattern) (text name : Text) (p : ParamSchema) : One :=
  let rest : One := match extractValue lib text name p with
    | .panic => .panic
    | .ok (some v) => .value v
    | .ok none => if p.required then .missing else .skip
  match pat with
  | some none => .skip
  | some (some f) => match f text with
    | some w => .value (coerce lib w p.type)
    | none => rest
  | none => rest

/-- `Extract`, schema.go:208-240: the arguments and the missing parameters. -/
def extract (lib : Lib) (pat : Text → Option Pattern) (text : Text) :
    List (Text × ParamSchema) → Res (List (Text × Val) × List Text)
  | [] => .ok ([], [])
  | (n, p) :: ps =>
    match extractOne lib (pat n) text n p, extract lib pat text ps with
    | .panic, _ => .panic
    | _, .panic => .panic
    | .skip, .ok r => .ok r
    | .value v, .ok r => .ok ((n, v) :: r.1, r.2)
    | .missing, .ok r => .ok (r.1, n :: r.2)

/-- `FunctionCall`, schema.go:75-90. -/
structure Call (H : Type) where
  name : Text
  args : List (Text × Val)
  complete : Bool
  missing : List Text
  handler : Option H
  deriving DecidableEq, Repr

/-- What `Execute` does, schema.go:176-186: the handler that is run and its arguments. -/
inductive Exec (H : Type) where
  | noHandler
  | incomplete (missing : List Text)
  | run (h : H) (args : List (Text × Val))
  deriving DecidableEq, Repr

def execute {H : Type} (c : Call H) : Exec H :=
  match c.handler with
  | none => .noHandler
  | some h => if c.complete then .run h c.args else .incomplete c.missing

/-- The function router's own table, schema.go:99-108; `none` stands for a nil schema. -/
abbrev Table (H : Type) := List (Text × Schema H)

/-- `Add`, schema.go:120-136: the key is the name of the function, not the name of the route. -/
def addFn {H : Type} (t : Table H) : Option (Option (Schema H)) → Table H × Bool
  | none => (t, false)
  | some none => (t, false)
  | some (some f) => if f.name = [] then (t, false) else ((f.name, f) :: t.filter (fun x => decide (x.1 ≠ f.name)), true)

inductive Answer (H : Type) where
  | routing
  | noMatch
  | notInTable (route : Text)
  | panic
  | call (c : Call H)
  deriving DecidableEq, Repr

/-- `FunctionRouter.Route` after the semantic routing, schema.go:146-172. The extractor is the one made by
`NewFunctionRouter`, to which no pattern can be registered. -/
def callFor {H : Type} (lib : Lib) (t : Table H) (text : Text) (r : Router.Result Text) : Answer H :=
  match r.matched, r.name with
  | true, some n =>
    if n = [] then .noMatch
    else match t.lookup n with
      | none => .notInTable n
      | some f =>
        match extract lib (fun _ => none) text f.params with
        | .panic => .panic
        | .ok (args, missing) => .call ⟨f.name, args, missing.isEmpty, missing, f.handler⟩
  | _, _ => .noMatch

/-- `FunctionRouter.Route`, schema.go:139-173. -/
def routeFn {H V : Type} (lib : Lib) (c : Router.Cfg Text V) (e : Text → Option V) (s : Router.State Text V) (t : Table H)
    (text : Text) : Router.State Text V × Answer H :=
  match Router.route c e s text with
  | (s', .error _) => (s', .routing)
  | (s', .ok r) => (s', callFor lib t text r)

/-! ### Builder -/

/-- Assignment to a map. -/
def setParam (l : List (Text × ParamSchema)) (n : Text) (p : ParamSchema) : List (Text × ParamSchema) :=
  l.filter (fun x => decide (x.1 ≠ n)) ++ [(n, p)]

/-- Calls on a `SchemaBuilder`. -/
inductive BOp (H : Type) where
  | param (n ty desc : Text) (required : Bool)
  | withDefault (n ty desc : Text) (required : Bool) (d : Option Val)
  | withEnum (n desc : Text) (required : Bool) (vs : List Text)
  | handler (h : Option H)
  | build

/-- schema.go:353-404. -/
def bstep {H : Type} (s : Schema H) : BOp H → Schema H
  | .param n ty desc r => { s with params := setParam s.params n ⟨ty, desc, r, none, []⟩ }
  | .withDefault n ty desc r d => { s with params := setParam s.params n ⟨ty, desc, r, d, []⟩ }
  | .withEnum n desc r vs => { s with params := setParam s.params n ⟨"string".toList, desc, r, none, vs⟩ }
  | .handler h => { s with handler := h }
  | .build => { s with required := s.required ++ (s.params.filter (fun x => x.2.required)).map (·.1) }

/-- `NewSchemaBuilder`, schema.go:342-350, and the calls on it. -/
def brun {H : Type} (name : Text) (ops : List (BOp H)) : Schema H := ops.foldl bstep ⟨name, [], [], none⟩

end Verif.FuncRouter
