import Mathlib.Data.List.Infix

/-!
# The language of full-text queries

Keyword searches hand the caller's text to SQLite as the right-hand side of `MATCH`, as it is
(`/repo/pkg/core/advanced_search.go:80-104`, `/repo/pkg/core/chat.go:235-250`, `/repo/pkg/cortexdb/cortexdb.go:450-470`,
`/repo/pkg/cortexdb/memory_api.go:320-335`). SQLite reads it in the query language of FTS5. This file is that language, for a
table with the single column `content` (`/repo/pkg/core/store_init.go:146, 162`): the split into tokens, the grammar, and what
an accepted query says about a text. It was compared with SQLite 3.46 on random queries.

Simplifications: the special queries `*reads` and `*id` are taken for errors; a text is what the tokenizer makes of it; prefixes,
`^`, `NEAR` and column filters are recognised, and their meaning is a parameter.
-/

namespace Verif.FtsQuery

abbrev Text := List Char

/-- The tokens of the query language. -/
inductive Tok where
  | lp | rp | lcp | rcp | colon | comma | plus | star | minus | caret | kAnd | kOr | kNot
  | str (s : Text) (quoted : Bool)
  deriving DecidableEq, Repr

/-- Characters of a bare word: letters, digits, `_`, the substitute character and everything outside ASCII. -/
def bare (c : Char) : Bool :=
  ('a' ≤ c && c ≤ 'z') || ('A' ≤ c && c ≤ 'Z') || ('0' ≤ c && c ≤ '9') || c == '_' || c.toNat == 26 || decide (128 ≤ c.toNat)

/-- White space between tokens. -/
def white (c : Char) : Bool := c == ' ' || c == '\t' || c == '\n' || c == '\r'

/-- Characters that are a token of their own. -/
def single (c : Char) : Option Tok :=
  if c = '(' then some .lp else if c = ')' then some .rp else if c = '{' then some .lcp else if c = '}' then some .rcp
  else if c = ':' then some .colon else if c = ',' then some .comma else if c = '+' then some .plus
  else if c = '*' then some .star else if c = '-' then some .minus else if c = '^' then some .caret else none

/-- `AND`, `OR` and `NOT` in capitals are operators. -/
def word (w : Text) : Tok :=
  if w = ['A', 'N', 'D'] then .kAnd else if w = ['O', 'R'] then .kOr else if w = ['N', 'O', 'T'] then .kNot else .str w false

/-- Where the scanner is: between tokens, in a bare word, in a quoted string, after a quote that may be doubled. -/
inductive Mode where
  | out
  | bare (acc : Text)
  | quote (acc : Text)
  | quoted (acc : Text)

/-- What a character starts between tokens; `none` is a syntax error. -/
def first (c : Char) : Option (Mode × List Tok) :=
  if white c then some (.out, [])
  else if c = '"' then some (.quote [], [])
  else if bare c then some (.bare [c], [])
  else (single c).map (fun t => (.out, [t]))

/-- The scanner. -/
def scan : Mode → Text → Option (List Tok)
  | .out, [] => some []
  | .out, c :: cs => match first c with
    | none => none
    | some (m, ts) => (scan m cs).map (fun r => ts ++ r)
  | .bare acc, [] => some [word acc]
  | .bare acc, c :: cs =>
    if bare c then scan (.bare (acc ++ [c])) cs
    else match first c with
      | none => none
      | some (m, ts) => (scan m cs).map (fun r => word acc :: (ts ++ r))
  | .quote _, [] => none
  | .quote acc, c :: cs => if c = '"' then scan (.quoted acc) cs else scan (.quote (acc ++ [c])) cs
  | .quoted acc, [] => some [.str acc true]
  | .quoted acc, c :: cs =>
    if c = '"' then scan (.quote (acc ++ ['"'])) cs
    else match first c with
      | none => none
      | some (m, ts) => (scan m cs).map (fun r => .str acc true :: (ts ++ r))

/-- The tokens of a query; the text ends at a NUL character. -/
def tokens (q : Text) : Option (List Tok) := scan .out (q.takeWhile (fun c => decide (c.toNat ≠ 0)))

/-- One string with its prefix mark. -/
abbrev Part := Text × Bool

/-- What stands for one condition on a row: a phrase (strings joined by `+`, each perhaps a prefix), perhaps anchored at the
start by `^`, or `NEAR(...)`; `cols` is false when the column filter leaves no column. -/
structure Leaf where
  phrases : List (List Part)
  caret : Bool := false
  near : Bool := false
  dist : Text := []
  cols : Bool := true
  deriving DecidableEq, Repr

/-- A query that was accepted: conditions next to each other, and the operators. -/
inductive Query where
  | all (ls : List Leaf)
  | and (a b : Query)
  | or (a b : Query)
  | not (a b : Query)
  deriving Repr

/-- `star_opt`. -/
def starOpt : List Tok → Bool × List Tok
  | .star :: r => (true, r)
  | r => (false, r)

/-- `phrase`: strings joined by `+`. -/
def phrase : Nat → List Tok → Option (List Part × List Tok)
  | 0, _ => none
  | n + 1, .str s _ :: r =>
    match starOpt r with
    | (st, .plus :: r') => (phrase n r').map (fun p => ((s, st) :: p.1, p.2))
    | (st, r') => some ([(s, st)], r')
  | _ + 1, _ => none

/-- `nearphrases neardist_opt RP`. -/
def nearList : Nat → List Tok → Option (List (List Part) × Text × List Tok)
  | 0, _ => none
  | n + 1, ts => match phrase n ts with
    | none => none
    | some (p, .rp :: r) => some ([p], [], r)
    | some (p, .comma :: .str d false :: .rp :: r) => if d.all (fun c => '0' ≤ c && c ≤ '9') then some ([p], d, r) else none
    | some (p, r) => (nearList n r).map (fun x => (p :: x.1, x.2.1, x.2.2))

/-- `nearset`. -/
def nearset (n : Nat) : List Tok → Option (Leaf × List Tok)
  | .caret :: r => (phrase n r).map (fun p => ({ phrases := [p.1], caret := true }, p.2))
  | .str s q :: .lp :: r =>
    if s = ['N', 'E', 'A', 'R'] ∧ q = false then
      (nearList n r).map (fun x => ({ phrases := x.1, near := true, dist := x.2.1 }, x.2.2))
    else none
  | ts => (phrase n ts).map (fun p => ({ phrases := [p.1] }, p.2))

/-- ASCII lower case, in which column names are compared. -/
def lowerAscii (c : Char) : Char := if 'A' ≤ c ∧ c ≤ 'Z' then Char.ofNat (c.toNat + 32) else c

/-- Whether a name is the one column there is; another name is an error. -/
def isColumn (s : Text) : Bool := decide (s.map lowerAscii = "content".toList)

/-- `colsetlist RCP`. -/
def colList : Nat → List Tok → Option (List Tok)
  | 0, _ => none
  | n + 1, .str s _ :: r =>
    if isColumn s then
      match r with
      | .rcp :: r' => some r'
      | _ => colList n r
    else none
  | _ + 1, _ => none

/-- `colset COLON`, when the tokens start with one: what remains, and whether the column is kept. -/
inductive Cols where
  | none
  | bad
  | some (keep : Bool) (rest : List Tok)

/-- `colset COLON`. -/
def colset (n : Nat) : List Tok → Cols
  | .str s _ :: .colon :: r => if isColumn s then .some true r else .bad
  | .minus :: .str s _ :: .colon :: r => if isColumn s then .some false r else .bad
  | .minus :: .lcp :: r => match colList n r with
    | Option.some (.colon :: r') => .some false r'
    | _ => .bad
  | .minus :: _ => .bad
  | .lcp :: r => match colList n r with
    | Option.some (.colon :: r') => .some true r'
    | _ => .bad
  | _ => .none

/-- `cnearset`. -/
def cnearset (n : Nat) (ts : List Tok) : Option (Leaf × List Tok) :=
  match colset n ts with
  | .bad => none
  | .none => nearset n ts
  | .some keep r => (nearset n r).map (fun x => ({ x.1 with cols := keep }, x.2))

/-- Whether a token can start a `cnearset`. -/
def starts : List Tok → Bool
  | .str _ _ :: _ => true
  | .caret :: _ => true
  | .minus :: _ => true
  | .lcp :: _ => true
  | _ => false

/-- `exprlist`. -/
def exprlist : Nat → List Tok → Option (List Leaf × List Tok)
  | 0, _ => none
  | n + 1, ts => match cnearset n ts with
    | none => none
    | some (l, r) => if starts r then (exprlist n r).map (fun x => (l :: x.1, x.2)) else some ([l], r)

/-- A column filter in front of parentheses applies to all conditions inside. -/
def Query.drop : Query → Query
  | .all ls => .all (ls.map (fun l => { l with cols := false }))
  | .and a b => .and a.drop b.drop
  | .or a b => .or a.drop b.drop
  | .not a b => .not a.drop b.drop

/-- The operator of a level: `OR` binds least, then `AND`, then `NOT`. -/
def isOp : Nat → Tok → Bool
  | 0, .kOr => true
  | 1, .kAnd => true
  | 2, .kNot => true
  | _, _ => false

/-- The query made by the operator of a level. -/
def mk : Nat → Query → Query → Query
  | 0 => .or
  | 1 => .and
  | _ => .not

mutual
/-- `expr` at a level of precedence; at the last one parentheses, a filtered parenthesis or a list of conditions. -/
def expr : Nat → Nat → List Tok → Option (Query × List Tok)
  | 0, _, _ => none
  | n + 1, l, ts =>
    if l < 3 then
      match expr n (l + 1) ts with
      | none => none
      | some (a, r) => loop n l a r
    else
      match ts with
      | .lp :: r => match expr n 0 r with
        | some (a, .rp :: r') => some (a, r')
        | _ => none
      | ts => match colset n ts with
        | .some keep (.lp :: r) => match expr n 0 r with
          | some (a, .rp :: r') => some (if keep then a else a.drop, r')
          | _ => none
        | _ => (exprlist n ts).map (fun x => (.all x.1, x.2))
/-- The operators of one level, from left to right. -/
def loop : Nat → Nat → Query → List Tok → Option (Query × List Tok)
  | 0, _, _, _ => none
  | n + 1, l, a, t :: r =>
    if isOp l t then
      match expr n (l + 1) r with
      | none => none
      | some (b, r') => loop n l (mk l a b) r'
    else some (a, t :: r)
  | _ + 1, _, a, [] => some (a, [])
end

/-- `input`: the whole text is one expression. `none` is the error that the statement returns. -/
def parse (q : Text) : Option Query :=
  match tokens q with
  | none => none
  | some ts => match expr (8 * ts.length + 8) 0 ts with
    | some (x, []) => some x
    | _ => none

/-- What the tokenizer makes of a text, and what the conditions other than plain phrases say (`none`: the condition is empty). -/
structure Lib (T : Type) where
  tok : Text → List T
  other : Leaf → Option (Text → Bool)

variable {T : Type} [DecidableEq T]

/-- A plain phrase: one or more strings joined by `+`, no prefix, no anchor, no `NEAR`. -/
def plain (l : Leaf) : Option (List Text) :=
  match l with
  | { phrases := [p], caret := false, near := false, dist := [], cols := true } =>
    if p.all (fun x => !x.2) then some (p.map Prod.fst) else none
  | _ => none

/-- What a condition says about a text; `none` when it has no terms. A plain phrase asks for its terms one after the other. -/
def Lib.leaf (L : Lib T) (l : Leaf) : Option (Text → Bool) :=
  match plain l with
  | some ws => if (ws.flatMap L.tok) = [] then none else some (fun c => decide ((ws.flatMap L.tok) <:+: L.tok c))
  | none => L.other l

/-- Whether a text satisfies a query. Empty conditions next to others are ignored; a list of empty conditions matches nothing. -/
def Lib.sat (L : Lib T) (c : Text) : Query → Bool
  | .all ls => match ls.filterMap L.leaf with
    | [] => false
    | ps => ps.all (fun p => p c)
  | .and a b => L.sat c a && L.sat c b
  | .or a b => L.sat c a || L.sat c b
  | .not a b => L.sat c a && !L.sat c b

/-- `SELECT ... WHERE fts MATCH q`: the rows whose text satisfies the query, in the order of their rank; `none` is an error. -/
def Lib.select {R : Type} (L : Lib T) (order : List R → List R) (text : R → Text) (rows : List R) (q : Text) : Option (List R) :=
  (parse q).map (fun x => order (rows.filter (fun r => L.sat (text r) x)))

/-- A message with the owner of its session. -/
structure Msg where
  id : Text
  session : Text
  user : Text
  content : Text
  deriving DecidableEq, Repr

/-- `KeywordSearchMessages` (/repo/pkg/core/chat.go:224-257): the text is the query; an error is returned. `order` is the order by
`bm25`. -/
def Lib.messages (L : Lib T) (order : List Msg → List Msg) (rows : List Msg) (q user exclude : Text) (limit : Int) :
    Except Unit (List Msg) :=
  if q = [] ∨ user = [] then .ok []
  else match parse q with
    | none => .error ()
    | some x =>
      .ok ((order (rows.filter (fun r => L.sat r.content x && decide (r.user = user) &&
        (decide (exclude = []) || decide (r.session ≠ exclude))))).take (if limit ≤ 0 then 10 else limit.toNat))

/-- The keyword part of `HybridSearch` (/repo/pkg/core/advanced_search.go:77-104): the text is the query, an error counts as no match.
`SearchTextOnly` (/repo/pkg/cortexdb/cortexdb.go:415-440) has only this part. `text` gives the text of a record; the index is up to
date (see `Model.Fts` for what it holds after updates). -/
def Lib.keywords {R : Type} (L : Lib T) (order : List R → List R) (text : R → Text) (rows : List R) (q : Text) (topK : Int) : List R :=
  if q = [] then []
  else match L.select order text rows q with
    | none => []
    | some l => l.take (if topK * 3 ≤ 0 then 30 else (topK * 3).toNat)

end Verif.FtsQuery
