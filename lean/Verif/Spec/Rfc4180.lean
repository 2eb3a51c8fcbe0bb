import Mathlib.Tactic.Common

/-!
A reader of comma separated values after RFC 4180, independent of any writer: fields are separated by commas and records
ended by line feeds; a field that starts with a quote runs to the closing quote, takes every character as it is, and a
doubled quote as one. A quote or a carriage return outside quotes, text after a closing quote and a last line without its
end are refused.
-/
namespace Verif.Spec

/-- Where the reader stands: before a field, inside a bare one, inside a quoted one, after a quote in a quoted one. -/
inductive CsvMode where
  | start | plain | quoted | closing
  deriving DecidableEq, Repr

/-- The records of the text, given the part of the current field and record read so far. -/
def readCsv (m : CsvMode) (cur : List Char) (row : List (List Char)) : List Char → Option (List (List (List Char)))
  | [] => if m = .start ∧ row = [] then some [] else none
  | c :: cs =>
    match m with
    | .start =>
      if c = '"' then readCsv .quoted [] row cs
      else if c = ',' then readCsv .start [] (row ++ [[]]) cs
      else if c = '\n' then (readCsv .start [] [] cs).map (fun t => (row ++ [[]]) :: t)
      else if c = '\r' then none
      else readCsv .plain [c] row cs
    | .plain =>
      if c = '"' then none
      else if c = ',' then readCsv .start [] (row ++ [cur]) cs
      else if c = '\n' then (readCsv .start [] [] cs).map (fun t => (row ++ [cur]) :: t)
      else if c = '\r' then none
      else readCsv .plain (cur ++ [c]) row cs
    | .quoted => if c = '"' then readCsv .closing cur row cs else readCsv .quoted (cur ++ [c]) row cs
    | .closing =>
      if c = '"' then readCsv .quoted (cur ++ ['"']) row cs
      else if c = ',' then readCsv .start [] (row ++ [cur]) cs
      else if c = '\n' then (readCsv .start [] [] cs).map (fun t => (row ++ [cur]) :: t)
      else none

/-- The records of a text. -/
def csvRecords (t : List Char) : Option (List (List (List Char))) := readCsv .start [] [] t

end Verif.Spec
