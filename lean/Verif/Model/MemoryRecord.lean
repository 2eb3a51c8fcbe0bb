import Verif.Model.Memory

/-!
Model of the memory record a caller of /repo/pkg/cortexdb/memory_api.go gets back: user, session, role, metadata, importance,
times. `Model/Memory` has buckets, vectors, search and expiry; here the metadata map and the columns it leaves out are kept.

Simplifications: texts are lists of runes, metadata a list of keys and values without order (a key once); a JSON number is a
rational; the embedder does not fail and the database does not either; the clock is passed to each call.
-/
namespace Verif.MemRec
open Verif.Base Verif.Memory

/-- A metadata value: text, number, time (`expires_at`, written as RFC3339) or anything else. -/
inductive Val where
  | text (t : Text)
  | num (q : ℚ)
  | time (t : Int)
  | other (json : Text)
  deriving DecidableEq, Repr

abbrev Info := List (String × Val)

/-- `m[k] = v`. -/
def put (m : Info) (k : String) (v : Val) : Info := m.filter (fun p => p.1 ≠ k) ++ [(k, v)]

/-- `for key, value := range new { m[key] = value }`, memory_api.go:96-98. -/
def putAll (m new : Info) : Info := new.foldl (fun m p => put m p.1 p.2) m

/-- `m[k]`. -/
def get? (m : Info) (k : String) : Option Val := m.lookup k

/-- `buildMemoryMetadata`, memory_api.go:439-452. -/
def build (now : Int) (scope ns : Text) (m : Info) (importance : ℚ) (ttl : Int) : Info :=
  let m := put m "kind" (.text "memory".toList)
  let m := put m "scope" (.text scope)
  let m := put m "namespace" (.text ns)
  let m := put m "importance" (.num importance)
  let m := put m "ttl_seconds" (.num ttl)
  match expiresAt now ttl with
  | some t => put m "expires_at" (.time t)
  | none => m.filter (fun p => p.1 ≠ "expires_at")

/-- A row of `messages`. -/
structure Msg where
  id : Text
  bucket : Text
  role : Text
  content : Text
  info : Info
  created : Int
  deriving DecidableEq, Repr

/-- `sessions` (id and user) and `messages`. -/
structure State where
  buckets : List (Text × Text)
  msgs : List Msg
  deriving DecidableEq, Repr

def init : State := ⟨[], []⟩

/-- `MemoryRecord`, knowledge_memory_types.go:131-145. -/
structure Record where
  id : Text
  user : Text
  session : Text
  scope : Text
  ns : Text
  role : Text
  content : Text
  info : Info
  importance : ℚ
  ttl : Int
  expires : Option Int
  created : Int
  deriving DecidableEq, Repr

def textOf : Option Val → Text
  | some (.text t) => t
  | _ => []

def numOf : Option Val → ℚ
  | some (.num q) => q
  | _ => 0

/-- `int(f)`: towards zero. -/
def intOf (v : Option Val) : Int := (numOf v).num.tdiv (numOf v).den

def timeOf : Option Val → Option Int
  | some (.time t) => some t
  | _ => none

/-- The record of a row, memory_api.go:263-301 with `applyMemoryMetadata` (454-475); `memoryRecordFromMessage` (477-489) is the same
with an empty user. -/
def record (user : Text) (m : Msg) : Record :=
  { id := m.id, user := user, session := m.bucket, scope := textOf (get? m.info "scope"), ns := textOf (get? m.info "namespace")
    role := m.role, content := m.content, info := m.info, importance := numOf (get? m.info "importance")
    ttl := intOf (get? m.info "ttl_seconds"), expires := timeOf (get? m.info "expires_at"), created := m.created }

/-- `loadMemoryRow`, memory_api.go:263-301: the user is the one of the bucket. -/
def load (s : State) (id : Text) : Option Record :=
  if id = [] then none
  else (s.msgs.find? (fun m => m.id == id)).bind (fun m => (s.buckets.lookup m.bucket).map (fun u => record u m))

structure SaveReq where
  id : Text
  user : Text
  session : Text
  scope : Text
  ns : Text
  role : Text
  content : Text
  info : Info
  importance : ℚ
  ttl : Int
  deriving DecidableEq, Repr

/-- `ON CONFLICT(id) DO UPDATE`, memory_api.go:51-61: the creation time is not among the columns set. -/
def upsert (ms : List Msg) (m : Msg) : List Msg :=
  if ms.any (fun x => x.id == m.id) then ms.map (fun x => if x.id == m.id then { m with created := x.created } else x) else ms ++ [m]

/-- `SaveMemory`, memory_api.go:24-69; the flag says whether it succeeded. -/
def save (sp : Char → Bool) (lower : Char → Char) (now : Int) (s : State) (q : SaveReq) : State × Bool :=
  if q.id = [] then (s, false)
  else if trim sp q.content = [] then (s, false)
  else match resolve sp lower q.scope q.user q.session q.ns with
    | .error _ => (s, false)
    | .ok (scope, bucket) =>
      let bs := if (s.buckets.lookup bucket).isSome then s.buckets else s.buckets ++ [(bucket, q.user)]
      let m : Msg :=
        { id := q.id, bucket := bucket, role := if trim sp q.role = [] then "memory".toList else q.role, content := q.content
          info := build now scope (normNs sp q.ns) q.info q.importance q.ttl, created := now }
      (⟨bs, upsert s.msgs m⟩, true)

structure UpdateReq where
  id : Text
  content : Option Text
  info : Info
  importance : Option ℚ
  ttl : Option Int
  deriving DecidableEq, Repr

/-- `UpdateMemory`, memory_api.go:72-128. -/
def update (sp : Char → Bool) (now : Int) (s : State) (q : UpdateReq) : State × Bool :=
  match load s q.id with
  | none => (s, false)
  | some r =>
    if (q.content.map (fun c => decide (trim sp c = []))).getD false then (s, false)
    else
      let info := build now r.scope r.ns (putAll r.info q.info) (q.importance.getD r.importance) (q.ttl.getD r.ttl)
      ({ s with msgs := s.msgs.map (fun m => if m.id == q.id then { m with content := q.content.getD r.content, info := info } else m) }, true)

/-- `DeleteMemory`, memory_api.go:182-202. -/
def delete (s : State) (id : Text) : State :=
  match load s id with
  | none => s
  | some r =>
    let ms := s.msgs.filter (fun m => m.id != id)
    ⟨if ms.any (fun m => m.bucket == r.session) then s.buckets else s.buckets.filter (fun b => b.1 != r.session), ms⟩

/-- The records of a semantic search, memory_api.go:162-169: the user is not looked up. -/
def semanticRecord (m : Msg) : Record := record [] m

inductive Op where
  | save (q : SaveReq)
  | update (q : UpdateReq)
  | delete (id : Text)

def step (sp : Char → Bool) (lower : Char → Char) (s : State) (p : Int × Op) : State :=
  match p.2 with
  | .save q => (save sp lower p.1 s q).1
  | .update q => (update sp p.1 s q).1
  | .delete id => delete s id

def run (sp : Char → Bool) (lower : Char → Char) (s : State) (ops : List (Int × Op)) : State := ops.foldl (step sp lower) s

end Verif.MemRec
