import Verif.Base.Sort
import Mathlib.Data.List.Dedup
import Mathlib.Algebra.Order.Field.Rat

/-!
# The full-text index

The tables `embeddings` and `messages` with the FTS5 tables `chunks_fts` and `messages_fts` that triggers keep
(`/repo/pkg/core/store_init.go:144-175`), the statements of the library that write to them, and the queries that read them.

What SQLite does (checked against 3.46):
* Both FTS tables are external-content tables: they hold postings and one size per row, and the row is found by its row
  identifier.  Inserting adds the postings of the text, the command `'delete'` removes the postings of the text it is given; both
  are per row identifier and term, so an entry is there or not.
* A new row gets the largest row identifier in use plus one, found before a conflicting row is removed.
* `INSERT OR REPLACE` removes the conflicting row without running its delete trigger (`recursive_triggers` is off).
  `INSERT ... ON CONFLICT DO UPDATE` runs the update trigger.  Cascaded deletes run the delete trigger.
* `rank` and `bm25` of a row without a size fail with "database disk image is malformed".

Simplifications: texts are what the tokenizer `tok` makes of them; phrases, prefixes and column filters in queries are not
modelled; the value of `rank` is a parameter; a connection that has met a malformed index may go on failing, which is not modelled.
-/

namespace Verif.Fts

open Verif.Base

variable {T A : Type} [DecidableEq T]

/-- A row of `embeddings` or `messages`; `attr` is everything but the identifier and the text. -/
structure FRow (A : Type) where
  rowid : Nat
  id : String
  content : String
  attr : A

/-- A table with its index. -/
structure FSt (T A : Type) where
  rows : List (FRow A) := []
  postings : List (Nat × T) := []
  sizes : List Nat := []

/-- The row identifier of a new row. -/
def nextRow (rows : List (FRow A)) : Nat := (rows.map fun r => r.rowid).foldl max 0 + 1

/-- The insert trigger (/repo/pkg/core/store_init.go:149-151, 166-168). -/
def index (tok : String → List T) (s : FSt T A) (i : Nat) (content : String) : FSt T A :=
  { s with postings := s.postings ++ (tok content).map fun t => (i, t), sizes := s.sizes.filter (fun x => x ≠ i) ++ [i] }

/-- The delete trigger (/repo/pkg/core/store_init.go:152-154, 169-171). -/
def unindex (tok : String → List T) (s : FSt T A) (i : Nat) (content : String) : FSt T A :=
  { s with postings := s.postings.filter (fun p => !(p.1 = i ∧ p.2 ∈ tok content)), sizes := s.sizes.filter fun x => x ≠ i }

/-- `INSERT OR REPLACE INTO embeddings` (/repo/pkg/core/store_crud.go:133-137, 212-216; multi_vector.go:97-100). -/
def replace (tok : String → List T) (s : FSt T A) (id content : String) (a : A) : FSt T A :=
  let i := nextRow s.rows
  index tok { s with rows := s.rows.filter (fun r => r.id ≠ id) ++ [⟨i, id, content, a⟩] } i content

/-- `INSERT INTO messages` (/repo/pkg/core/chat.go:98-101): refused when the identifier is in use. -/
def insert (tok : String → List T) (s : FSt T A) (id content : String) (a : A) : FSt T A :=
  if s.rows.any (fun r => r.id = id) then s
  else
    let i := nextRow s.rows
    index tok { s with rows := s.rows ++ [⟨i, id, content, a⟩] } i content

/-- The rows that go with their entries in the index, one at a time. -/
def removeAll (tok : String → List T) (s : FSt T A) : List (FRow A) → FSt T A
  | [] => s
  | r :: rs => removeAll tok (unindex tok s r.rowid r.content) rs

/-- `DELETE FROM embeddings` or `messages`, with any condition, and cascaded deletes (/repo/pkg/core/store_crud.go:329, 373, 424,
506, 543, 578; collections.go:247; multi_vector.go:365-368; /repo/pkg/cortexdb/memory_api.go:191; foreign keys at
store_init.go:102-103, 134). -/
def delete (tok : String → List T) (s : FSt T A) (p : String → String → A → Bool) : FSt T A :=
  removeAll tok { s with rows := s.rows.filter fun r => !p r.id r.content r.attr } (s.rows.filter fun r => p r.id r.content r.attr)

/-- One row of an `UPDATE` (update trigger, /repo/pkg/core/store_init.go:155-158, 172-175). -/
def updateRows (tok : String → List T) (content : String) (s : FSt T A) : List (FRow A) → FSt T A
  | [] => s
  | r :: rs => updateRows tok content (index tok (unindex tok s r.rowid r.content) r.rowid content) rs

/-- `UPDATE messages SET ... WHERE id = ?` (/repo/pkg/cortexdb/memory_api.go:115-119). -/
def update (tok : String → List T) (s : FSt T A) (id content : String) (a : A) : FSt T A :=
  updateRows tok content { s with rows := s.rows.map fun r => if r.id = id then { r with content := content, attr := a } else r }
    (s.rows.filter fun r => r.id = id)

/-- `INSERT INTO messages ... ON CONFLICT(id) DO UPDATE` (/repo/pkg/cortexdb/memory_api.go:51-60). -/
def save (tok : String → List T) (s : FSt T A) (id content : String) (a : A) : FSt T A :=
  if s.rows.any (fun r => r.id = id) then update tok s id content a else insert tok s id content a

/-- A full-text query. -/
inductive Query (T : Type) where
  | term (t : T)
  | and (a b : Query T)
  | or (a b : Query T)
  | not (a b : Query T)

/-- What a query says about a set of terms. -/
def Query.eval (has : T → Bool) : Query T → Bool
  | .term t => has t
  | .and a b => a.eval has && b.eval has
  | .or a b => a.eval has || b.eval has
  | .not a b => a.eval has && !b.eval has

/-- Whether the index has a match for a row identifier. -/
def hits (s : FSt T A) (q : Query T) (i : Nat) : Bool := q.eval fun t => decide ((i, t) ∈ s.postings)

/-- `... FROM fts JOIN table ON rowid WHERE fts MATCH ? AND ... ORDER BY bm25(fts) LIMIT ?` (/repo/pkg/cortexdb/cortexdb.go:450-467,
/repo/pkg/core/chat.go:235-246, /repo/pkg/cortexdb/memory_api.go:320-329): only rows that exist are ranked.  `order` is the order
by rank. -/
def joined (order : List (FRow A) → List (FRow A)) (s : FSt T A) (q : Query T) (cond : FRow A → Bool) (limit : Nat) :
    Except Unit (List (FRow A)) :=
  let found := s.rows.filter fun r => hits s q r.rowid && cond r
  if found.all (fun r => decide (r.rowid ∈ s.sizes)) then .ok ((order found).take limit) else .error ()

/-- The row identifiers that match, whether the row exists or not. -/
def matching (s : FSt T A) (q : Query T) : List Nat := (s.postings.map fun p => p.1).dedup.filter fun i => hits s q i

/-- `SELECT rowid, rank FROM chunks_fts WHERE chunks_fts MATCH ? ORDER BY rank LIMIT ?` in `HybridSearch`
(/repo/pkg/core/advanced_search.go:80-104): every match is ranked; an error gives no matches. -/
def ranked (order : List Nat → List Nat) (s : FSt T A) (q : Query T) (topK : Int) : List Nat :=
  let limit := if topK * 3 ≤ 0 then 30 else (topK * 3).toNat
  if (matching s q).all (fun i => decide (i ∈ s.sizes)) then (order (matching s q)).take limit else []

/-- The rows that `HybridSearch` fetches for the ranks (/repo/pkg/core/advanced_search.go:128-151). -/
def fetched (order : List Nat → List Nat) (s : FSt T A) (q : Query T) (topK : Int) : List (FRow A) :=
  s.rows.filter fun r => decide (r.rowid ∈ ranked order s q topK)

/-- The statements that write to `embeddings`. -/
inductive ChunkOp (A : Type) where
  | upsert (id content : String) (a : A)
  | delete (p : String → String → A → Bool)

/-- One write to `embeddings`. -/
def chunkStep (tok : String → List T) (s : FSt T A) : ChunkOp A → FSt T A
  | .upsert id content a => replace tok s id content a
  | .delete p => delete tok s p

/-- The statements that write to `messages`. -/
inductive MessageOp (A : Type) where
  | add (id content : String) (a : A)
  | save (id content : String) (a : A)
  | update (id content : String) (a : A)
  | delete (p : String → String → A → Bool)

/-- One write to `messages`. -/
def messageStep (tok : String → List T) (s : FSt T A) : MessageOp A → FSt T A
  | .add id content a => insert tok s id content a
  | .save id content a => save tok s id content a
  | .update id content a => update tok s id content a
  | .delete p => delete tok s p

end Verif.Fts
