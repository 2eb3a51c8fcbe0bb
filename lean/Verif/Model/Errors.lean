import Mathlib.Data.List.Basic

/-!
Model of error values, /repo/pkg/core/errors.go, and of the errors that tell a caller that something is not there.

Simplifications: an error is a tree; `addr` stands for the identity of the value (Go compares the pointers); `errors.Is` is
the loop of Go's standard library for errors with one cause. Texts are strings.
-/
namespace Verif.Errors

/-- `leaf` is `errors.New` or `fmt.Errorf` without `%w`; `store` is `*StoreError` (errors.go:30-33), whose cause may be nil;
`wrap` is `fmt.Errorf` with one `%w` at the end. -/
inductive E where
  | leaf (addr : Nat) (text : String)
  | store (addr : Nat) (op : String) (err : Option E)
  | wrap (addr : Nat) (text : String) (err : E)

def E.addr : E → Nat
  | .leaf a _ => a
  | .store a _ _ => a
  | .wrap a _ _ => a

/-- `errors.Is(err, target)` of the Go library for a non-nil `err`, with `(*StoreError).Is` (errors.go:49-51), which calls
`errors.Is` on the cause, and `Unwrap` (errors.go:44-46). -/
def is (t : Nat) : E → Bool
  | .leaf a _ => a == t
  | .store a _ none => a == t
  | .store a _ (some e) => a == t || is t e || is t e
  | .wrap a _ e => a == t || is t e

/-- `Error()`, errors.go:36-41; `%v` of a nil error prints "<nil>". -/
def text : E → String
  | .leaf _ s => s
  | .store _ op none => if op = "" then "vectorstore: " ++ "<nil>" else "vectorstore: " ++ op ++ ": " ++ "<nil>"
  | .store _ op (some e) => if op = "" then "vectorstore: " ++ text e else "vectorstore: " ++ op ++ ": " ++ text e
  | .wrap _ s e => s ++ ": " ++ text e

/-- `wrapError`, errors.go:54-59; `none` is nil, `fresh` the address of the new value. -/
def wrapError (fresh : Nat) (op : String) : Option E → Option E
  | none => none
  | some e => some (.store fresh op (some e))

/-- `ErrNotFound`, errors.go:14, the sentinel with address 0. -/
def notFound : E := .leaf 0 "embedding not found"

/-- Calls that look for something by id or name. -/
inductive Lookup where
  /-- `GetDocument`, document.go:80 -/
  | getDocument
  /-- `UpdateDocument`, document.go:169 -/
  | updateDocument
  /-- `GetSession`, chat.go:64 -/
  | getSession
  /-- `GetByID`, store_query.go:40 -/
  | getById
  /-- `GetMultiVector`, multi_vector.go:328 -/
  | getMultiVector
  /-- `Delete`, store_crud.go:340 -/
  | delete
  /-- `DeleteBatch`, store_crud.go:439 -/
  | deleteBatch
  /-- `GetMemory`, /repo/pkg/cortexdb/memory_api.go:286-288 -/
  | getMemory
  /-- `GetCollection`, collections.go:138 -/
  | getCollection
  /-- `DeleteCollection`, collections.go:240 -/
  | deleteCollection
  /-- `GetNode` and `DeleteNode`, /repo/pkg/graph/graph.go:213 and 251 -/
  | node
  /-- `DeleteEdge`, graph.go:408 -/
  | edge
  deriving DecidableEq, Repr

/-- The error of each when the thing is not there; `a` and `b` are addresses of new values. -/
def missing (a b : Nat) (name : String) : Lookup → E
  | .getDocument => .store a "get_document" (some notFound)
  | .updateDocument => .store a "update_document" (some notFound)
  | .getSession => .store a "get_session" (some notFound)
  | .getById => .store a "get_by_id" (some notFound)
  | .getMultiVector => .store a "get_multi_vector" (some notFound)
  | .delete => .store a "delete" (some notFound)
  | .deleteBatch => .store a "delete_batch" (some notFound)
  | .getMemory => notFound
  | .getCollection => .store a "get_collection" (some (.leaf b ("collection '" ++ name ++ "' not found")))
  | .deleteCollection => .store a "delete_collection" (some (.leaf b ("collection '" ++ name ++ "' not found")))
  | .node => .leaf a ("node not found: " ++ name)
  | .edge => .leaf a ("edge not found: " ++ name)

end Verif.Errors
