import Verif.Model.Memory
import Verif.Base.Solo

/-!
Calls of the memory API from several goroutines, /repo/pkg/cortexdb/memory_api.go:24-128, 182-202, 234-251. `DB` holds no lock; each call
is a sequence of separate SQL statements, which mix freely with those of other calls.

Simplifications: those of `Verif.Model.Memory`. `fk` says whether foreign keys are enforced on the connections used (see C17): if so the
`INSERT` of a message whose session does not exist is refused (/repo/pkg/core/store.go, table `messages`).
-/
namespace Verif.Memory
open Verif.Base

/-- How a call ends. -/
inductive RaceErr where
  | err (e : Err)
  /-- `INSERT INTO sessions` with an id that exists, chat.go:44-48 -/
  | sessionExists
  /-- `INSERT INTO messages` without its session -/
  | noSession
  deriving DecidableEq, Repr

/-- Where a call stands: the statement it carries out next. -/
inductive Phase (V : Type*) where
  /-- `SaveMemory`: checks, then `GetSession`, memory_api.go:25-37, 235 -/
  | save (now : Int) (q : SaveReq)
  /-- `CreateSession`, memory_api.go:242 -/
  | create (now : Int) (q : SaveReq) (scope bucket : Text)
  /-- the call of the embedder, memory_api.go:40 -/
  | embed (now : Int) (q : SaveReq) (scope bucket : Text)
  /-- `INSERT ... ON CONFLICT DO UPDATE`, memory_api.go:50-62 -/
  | put (r : Row V)
  /-- `loadMemoryRow` of the answer, memory_api.go:64, 123 -/
  | check (id : Text)
  /-- `UpdateMemory`: `loadMemoryRow` and the call of the embedder, memory_api.go:77-113 -/
  | update (now : Int) (q : UpdateReq)
  /-- `UPDATE messages SET content, vector, metadata`, memory_api.go:115-121 -/
  | write (id : Text) (r : Row V)
  /-- `DeleteMemory`: `loadMemoryRow`, memory_api.go:187 -/
  | delete (id : Text)
  /-- `DELETE FROM messages`, memory_api.go:191 -/
  | drop (id bucket : Text)
  /-- `DELETE FROM sessions ... AND NOT EXISTS`, memory_api.go:194-198 -/
  | sweep (bucket : Text)
  | done (r : Except RaceErr Unit)
  deriving DecidableEq

/-- One statement of one goroutine. -/
def advance {V S : Type*} [LinearOrder S] (e : Env V S) (fk : Bool) (s : State V) : Phase V → State V × Phase V
  | .save now q =>
    if q.id = [] then (s, .done (.error (.err .missingId)))
    else if trim e.sp q.content = [] then (s, .done (.error (.err .emptyText)))
    else match resolve e.sp e.lower q.scope q.user q.session q.ns with
      | .error er => (s, .done (.error (.err er)))
      | .ok (scope, bucket) => if bucket ∈ s.buckets then (s, .embed now q scope bucket) else (s, .create now q scope bucket)
  | .create now q scope bucket =>
    if bucket ∈ s.buckets then (s, .done (.error .sessionExists))
    else ({ s with buckets := s.buckets ++ [bucket] }, .embed now q scope bucket)
  | .embed now q scope bucket => match embedContent e q.content with
    | .error er => (s, .done (.error (.err er)))
    | .ok v => (s, .put { id := q.id, bucket := bucket, content := q.content, vector := v, scope := scope
                          ns := normNs e.sp q.ns, ttl := q.ttl, expires := expiresAt now q.ttl })
  | .put r =>
    if fk ∧ r.bucket ∉ s.buckets then (s, .done (.error .noSession))
    else ({ s with rows := upsertRow s.rows r }, .check r.id)
  | .check id => match load s id with
    | .error er => (s, .done (.error (.err er)))
    | .ok _ => (s, .done (.ok ()))
  | .update now q => match load s q.id with
    | .error er => (s, .done (.error (.err er)))
    | .ok row =>
      let cv : Except Err (Text × Option V) := match q.content with
        | none => .ok (row.content, row.vector)
        | some c => if trim e.sp c = [] then .error .emptyText
          else match embedContent e c with
            | .error er => .error er
            | .ok v => .ok (c, v)
      match cv with
      | .error er => (s, .done (.error (.err er)))
      | .ok (c, v) => (s, .write q.id { row with content := c, vector := v, ttl := q.ttl.getD row.ttl
                                                 expires := expiresAt now (q.ttl.getD row.ttl) })
  | .write id r =>
    ({ s with rows := s.rows.map (fun x => if x.id == id then { r with id := x.id, bucket := x.bucket } else x) }, .check id)
  | .delete id => match load s id with
    | .error er => (s, .done (.error (.err er)))
    | .ok row => (s, .drop id row.bucket)
  | .drop id bucket => ({ s with rows := s.rows.filter (fun r => r.id != id) }, .sweep bucket)
  | .sweep bucket =>
    ({ s with buckets := if s.rows.any (fun r => r.bucket == bucket) then s.buckets
        else s.buckets.filter (fun b => b != bucket) }, .done (.ok ()))
  | .done r => (s, .done r)

/-- The first statement of a call. -/
def begin {V : Type*} (p : Int × Op) : Phase V := match p.2 with
  | .save q => .save p.1 q
  | .update q => .update p.1 q
  | .delete id => .delete id

/-- The calls run in goroutines of their own, `sched` names the goroutine of each statement. -/
def race {V S : Type*} [LinearOrder S] (e : Env V S) (fk : Bool) (s : State V) (calls : List (Int × Op)) (sched : List Nat) :
    State V × List (Phase V) :=
  runAll (advance e fk) (s, calls.map begin) sched

end Verif.Memory
