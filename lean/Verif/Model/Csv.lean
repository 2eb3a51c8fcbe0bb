import Verif.Model.Io
import Verif.Base.Utf8

/-!
Model of the CSV export of /repo/pkg/core/io.go:158-198 and of `DumpToFile` (369-384), with the two library writers
they use: `csv.Writer` of encoding/csv, which quotes fields, over the `bufio.Writer` of 4096 bytes that it makes
itself, and a file that can take a limited number of bytes.

Simplifications: strings are valid Unicode. `bufio.Writer.WriteString` may hand a string longer than its buffer to the
file directly; here every byte goes through the buffer. `metaJSON` and `vecJSON` give what `json.Marshal` makes of a
metadata map and of a vector; `vecJSON` is `none` when the vector cannot be expressed (NaN, infinities).
-/
namespace Verif.Csv

open Verif.Model.Store Verif.Io Verif.Base

variable {W HI VI : Type}

/-- `fieldNeedsQuotes` of encoding/csv with a comma as separator; `sp` is `unicode.IsSpace`. -/
def needsQuotes (sp : Char → Bool) (f : List Char) : Bool :=
  match f with
  | [] => false
  | c :: _ =>
    f == ['\\', '.'] || f.any (fun x => x == '\n' || x == '\r' || x == '"' || x == ',') || sp c

/-- A quote is written twice, every other character as it is (`Writer.Write` of encoding/csv, `UseCRLF` false). -/
def escape (f : List Char) : List Char := f.flatMap fun c => if c = '"' then ['"', '"'] else [c]

/-- One field. -/
def field (sp : Char → Bool) (f : List Char) : List Char :=
  if needsQuotes sp f then '"' :: (escape f ++ ['"']) else f

/-- The fields of one record, separated by commas. -/
def fields (sp : Char → Bool) : List (List Char) → List Char
  | [] => []
  | [f] => field sp f
  | f :: g :: fs => field sp f ++ ',' :: fields sp (g :: fs)

/-- One record with its line end. -/
def record (sp : Char → Bool) (r : List (List Char)) : List Char := fields sp r ++ ['\n']

/-- The header (/repo/pkg/core/io.go:171-174). -/
def header (o : DumpOpts) : List (List Char) :=
  ["id".toList, "content".toList, "doc_id".toList, "metadata".toList] ++
    (if o.includeVectors then ["vector".toList] else [])

/-- The row of one record (/repo/pkg/core/io.go:181-192). The error of `json.Marshal` is dropped: a vector that cannot be
expressed is an empty field. -/
def row (metaJSON : Meta → String) (vecJSON : List W → Option String) (o : DumpOpts) (e : Emb W) : List (List Char) :=
  [e.id.toList, e.content.toList, e.docID.toList,
    (match e.metadata with | some m => (metaJSON m).toList | none => [])] ++
    (if o.includeVectors then [((vecJSON (e.vector.getD [])).getD "").toList] else [])

/-- The rows of the export, the header first. -/
def table (metaJSON : Meta → String) (vecJSON : List W → Option String) (o : DumpOpts) (es : List (Emb W)) :
    List (List (List Char)) :=
  header o :: es.map (row metaJSON vecJSON o)

/-- A file on a disk: what it holds and how many bytes it can hold. -/
structure File where
  data : List Nat
  cap : Nat
  deriving DecidableEq, Repr

/-- `os.File.Write`: as much as fits; false when not all of it did. -/
def File.write (f : File) (b : List Nat) : File × Bool :=
  ({ f with data := f.data ++ b.take (f.cap - f.data.length) }, decide (f.data.length + b.length ≤ f.cap))

/-- `bufio.Writer`: the bytes waiting and whether a write has failed, after which nothing is taken any more. -/
structure Buf where
  pending : List Nat
  failed : Bool
  file : File
  deriving DecidableEq, Repr

/-- `bufio.Writer.Flush`. A failed write keeps the error; the bytes not written stay, and are never tried again. -/
def Buf.flush (b : Buf) : Buf :=
  if b.failed then b
  else if b.pending = [] then b
  else
    let w := b.file.write b.pending
    if w.2 then { pending := [], failed := false, file := w.1 } else { b with failed := true, file := w.1 }

/-- The size of the buffer `csv.NewWriter` makes. -/
def bufSize : Nat := 4096

/-- `bufio.Writer.WriteByte`. -/
def Buf.put (b : Buf) (x : Nat) : Buf :=
  if b.failed then b
  else
    let c := if bufSize ≤ b.pending.length then b.flush else b
    if c.failed then c else { c with pending := c.pending ++ [x] }

/-- The bytes of a text one after the other. -/
def Buf.puts (b : Buf) (xs : List Nat) : Buf := xs.foldl Buf.put b

/-- The loop of /repo/pkg/core/io.go:175-195: rows are written until one fails. -/
def writeRows (sp : Char → Bool) (b : Buf) : List (List (List Char)) → Buf × Bool
  | [] => (b, true)
  | r :: rs =>
    let c := b.puts (bytes (record sp r))
    if c.failed then (c, false) else writeRows sp c rs

/-- `dumpCSV` (/repo/pkg/core/io.go:158-198): the file afterwards and the result. The last `Flush` is deferred and its
error is not looked at. -/
def dumpCSV (sp : Char → Bool) (metaJSON : Meta → String) (vecJSON : List W → Option String) (s : St W HI VI)
    (o : DumpOpts) (f : File) : File × Except Err Nat :=
  if s.closed then (f, .error .closed)
  else
    match getAll s.db o with
    | .error er => (f, .error er)
    | .ok es =>
      let w := writeRows sp { pending := [], failed := false, file := f } (table metaJSON vecJSON o es)
      (w.1.flush.file, if w.2 then .ok es.length else .error .io)

/-- What a JSON export writes: `Encode` makes the text of a value in memory and writes it in one call; an error of the
call is returned (/repo/pkg/core/io.go:129-132, 148-151). Each chunk is one value, `none` one that cannot be encoded. -/
def writeChunks (f : File) : List (Option (List Nat)) → File × Bool
  | [] => (f, true)
  | none :: _ => (f, false)
  | some b :: bs =>
    let w := f.write b
    if w.2 then writeChunks w.1 bs else (w.1, false)

/-- `dumpJSONL` (/repo/pkg/core/io.go:138-156) into a file; `enc` is the text of one record with its line end. -/
def dumpLines (enc : Emb W → Option (List Nat)) (s : St W HI VI) (o : DumpOpts) (f : File) : File × Except Err Nat :=
  if s.closed then (f, .error .closed)
  else
    match getAll s.db o with
    | .error er => (f, .error er)
    | .ok es =>
      let w := writeChunks f (es.map enc)
      (w.1, if w.2 then .ok es.length else .error .io)

/-- `dumpJSON` (/repo/pkg/core/io.go:98-135) into a file; `enc` is the text of the whole export. -/
def dumpWhole (enc : List (Emb W) → Option (List Nat)) (s : St W HI VI) (o : DumpOpts) (f : File) :
    File × Except Err Nat :=
  if s.closed then (f, .error .closed)
  else
    match getAll s.db o with
    | .error er => (f, .error er)
    | .ok es =>
      let w := writeChunks f [enc es]
      (w.1, if w.2 then .ok es.length else .error .io)

/-- What stands at a path: nothing or a file's bytes. -/
abbrev Path := Option (List Nat)

/-- `DumpToFile` (/repo/pkg/core/io.go:369-384). `canCreate` says whether `os.Create` succeeds, which empties a file that
is there; `cap` is what the disk can take. After an error the path is removed. -/
def dumpToFile (dump : File → File × Except Err Nat) (canCreate : Bool) (cap : Nat) (p : Path) :
    Path × Except Err Nat :=
  if canCreate then
    let d := dump { data := [], cap := cap }
    match d.2 with
    | .ok n => (some d.1.data, .ok n)
    | .error er => (none, .error er)
  else (p, .error .io)

end Verif.Csv
