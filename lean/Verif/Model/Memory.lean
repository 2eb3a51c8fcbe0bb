import Verif.Base.Text
import Verif.Base.Sort
import Mathlib.Data.Rat.Defs
import Mathlib.Algebra.Order.Field.Rat
import Mathlib.Data.Int.Order.Basic

/-!
Model of /repo/pkg/cortexdb/memory_api.go: saving, updating, searching and deleting memories.

Simplifications, stated once:
* Texts are lists of runes; `sp` is `unicode.IsSpace`, `lower` is `strings.ToLower` on a rune.
* Of a memory's metadata only `scope`, `namespace`, `ttl_seconds` and `expires_at` are kept: `buildMemoryMetadata`
  always overwrites these keys (memory_api.go:439-452), so the caller's own metadata cannot reach them.
* Time is an integer number of nanoseconds, passed to each call (`time.Now()`); nothing is assumed about it.
  RFC3339 formatting keeps whole seconds (`floorSec`), `time.Duration(ttl) * time.Second` wraps at 64 bits.
* The embedder, the similarity and the full text index are parameters. The database does not fail, and the store is
  open. Only this file writes to the buckets; `Verif.Model.ChatMemory` adds the chat calls, which share the tables.
-/
namespace Verif.Memory
open Verif.Base

abbrev Text := List Char

/-- One row of `messages` that holds a memory, with the decoded metadata fields. -/
structure Row (V : Type*) where
  id : Text
  bucket : Text
  content : Text
  vector : Option V
  scope : Text
  ns : Text
  ttl : Int
  expires : Option Int
  deriving DecidableEq, Repr

/-- `sessions` (ids only) and `messages`. -/
structure State (V : Type*) where
  buckets : List Text
  rows : List (Row V)
  deriving DecidableEq, Repr

def init {V : Type*} : State V := ⟨[], []⟩

inductive Err where
  | missingId
  | emptyText
  | badScope
  | ownerRequired
  | embedding
  | notFound
  | fts
  deriving DecidableEq, Repr

/-- Everything outside the file. -/
structure Env (V S : Type*) [LinearOrder S] where
  sp : Char → Bool
  lower : Char → Char
  /-- `none`: no embedder configured; otherwise the embedder, which may fail -/
  embedder : Option (Text → Option V)
  sim : V → V → S
  /-- `messages_fts MATCH q` over the rows of a bucket, in the order of `bm25`, with the raw rank; `none` is an
  error -/
  fts : Text → List (Row V) → Option (List (Row V × ℚ))
  /-- `sort.Slice` by score descending, then id -/
  sortHits : List (Row V × ℚ) → List (Row V × ℚ)
  /-- `lexicalSearchQueries` (graphrag_tools.go:1278-1316) beyond the query itself -/
  moreQueries : Text → List Text

/-- `normalizeMemoryNamespace`, memory_api.go:431-437. -/
def normNs (sp : Char → Bool) (ns : Text) : Text :=
  let ns := trim sp ns
  if ns = [] then "default".toList else ns

def sGlobal : Text := ['g', 'l', 'o', 'b', 'a', 'l']
def sUser : Text := ['u', 's', 'e', 'r']
def sSession : Text := ['s', 'e', 's', 's', 'i', 'o', 'n']
def sMemory : Text := ['m', 'e', 'm', 'o', 'r', 'y']

/-- The first switch of `resolveMemoryBucket`, memory_api.go:399-411. -/
def resolveScope (sp : Char → Bool) (lower : Char → Char) (scope user session : Text) : Except Err Text :=
  let scope := (trim sp scope).map lower
  if scope = [] then
    .ok (if trim sp session ≠ [] then sSession else if trim sp user ≠ [] then sUser else sGlobal)
  else if scope = sGlobal ∨ scope = sUser ∨ scope = sSession then .ok scope
  else .error .badScope

/-- `resolveMemoryBucket`, memory_api.go:396-429: scope and bucket id. -/
def resolve (sp : Char → Bool) (lower : Char → Char) (scope user session ns : Text) : Except Err (Text × Text) :=
  let ns := normNs sp ns
  match resolveScope sp lower scope user session with
  | .error e => .error e
  | .ok scope =>
    if scope = sGlobal then .ok (scope, sMemory ++ ':' :: scope ++ ':' :: ns)
    else if scope = sUser then
      if trim sp user = [] then .error .ownerRequired
      else .ok (scope, sMemory ++ ':' :: scope ++ ':' :: user ++ ':' :: ns)
    else
      if trim sp session = [] then .error .ownerRequired
      else .ok (scope, sMemory ++ ':' :: scope ++ ':' :: session ++ ':' :: ns)

/-- Conversion to a 64 bit signed integer. -/
def wrap64 (x : Int) : Int := (x + 2 ^ 63) % 2 ^ 64 - 2 ^ 63

/-- RFC3339 keeps whole seconds. -/
def floorSec (t : Int) : Int := t / 1000000000 * 1000000000

/-- `expires_at` of `buildMemoryMetadata`, memory_api.go:446-450. -/
def expiresAt (now ttl : Int) : Option Int :=
  if ttl > 0 then some (floorSec (now + wrap64 (ttl * 1000000000))) else none

/-- `memoryExpired`, memory_api.go:491-496. -/
def expired {V : Type*} (now : Int) (r : Row V) : Bool :=
  match r.expires with
  | none => false
  | some e => decide (e < now)

structure SaveReq where
  id : Text
  content : Text
  scope : Text
  user : Text
  session : Text
  ns : Text
  ttl : Int
  deriving DecidableEq, Repr

/-- `embedMemoryContent`, memory_api.go:248-261. -/
def embedContent {V S : Type*} [LinearOrder S] (e : Env V S) (content : Text) : Except Err (Option V) :=
  match e.embedder with
  | none => .ok none
  | some f => match f content with
    | none => .error .embedding
    | some v => .ok (some v)

/-- `ensureMemoryBucket`, memory_api.go:229-246. -/
def ensureBucket {V : Type*} (s : State V) (b : Text) : State V :=
  if b ∈ s.buckets then s else { s with buckets := s.buckets ++ [b] }

/-- `INSERT ... ON CONFLICT(id) DO UPDATE`, memory_api.go:51-61. -/
def upsertRow {V : Type*} (rows : List (Row V)) (r : Row V) : List (Row V) :=
  if rows.any (fun x => x.id == r.id) then rows.map (fun x => if x.id == r.id then r else x) else rows ++ [r]

/-- `SaveMemory`, memory_api.go:24-69. -/
def save {V S : Type*} [LinearOrder S] (e : Env V S) (now : Int) (s : State V) (q : SaveReq) :
    State V × Except Err Unit :=
  if q.id = [] then (s, .error .missingId)
  else if trim e.sp q.content = [] then (s, .error .emptyText)
  else match resolve e.sp e.lower q.scope q.user q.session q.ns with
    | .error er => (s, .error er)
    | .ok (scope, bucket) =>
      let s := ensureBucket s bucket
      match embedContent e q.content with
      | .error er => (s, .error er)
      | .ok v =>
        let r : Row V :=
          { id := q.id, bucket := bucket, content := q.content, vector := v, scope := scope
            ns := normNs e.sp q.ns, ttl := q.ttl, expires := expiresAt now q.ttl }
        ({ s with rows := upsertRow s.rows r }, .ok ())

/-- `loadMemoryRow`, memory_api.go:263-301 (the join with `sessions`). -/
def load {V : Type*} (s : State V) (id : Text) : Except Err (Row V) :=
  if id = [] then .error .missingId
  else match s.rows.find? (fun r => r.id == id) with
    | some r => if r.bucket ∈ s.buckets then .ok r else .error .notFound
    | none => .error .notFound

structure UpdateReq where
  id : Text
  content : Option Text
  ttl : Option Int
  deriving DecidableEq, Repr

/-- `UpdateMemory`, memory_api.go:72-128. -/
def update {V S : Type*} [LinearOrder S] (e : Env V S) (now : Int) (s : State V) (q : UpdateReq) :
    State V × Except Err Unit :=
  match load s q.id with
  | .error er => (s, .error er)
  | .ok row =>
    let cv : Except Err (Text × Option V) := match q.content with
      | none => .ok (row.content, row.vector)
      | some c => if trim e.sp c = [] then .error .emptyText
        else match embedContent e c with
          | .error er => .error er
          | .ok v => .ok (c, v)
    match cv with
    | .error er => (s, .error er)
    | .ok (c, v) =>
      let ttl := q.ttl.getD row.ttl
      ({ s with rows := s.rows.map (fun x => if x.id == q.id then
          { x with content := c, vector := v, scope := row.scope, ns := row.ns, ttl := ttl
                   expires := expiresAt now ttl } else x) }, .ok ())

/-- `DeleteMemory`, memory_api.go:182-202. -/
def delete {V : Type*} (s : State V) (id : Text) : State V × Except Err Unit :=
  match load s id with
  | .error er => (s, .error er)
  | .ok row =>
    let rows := s.rows.filter (fun r => r.id != id)
    ({ buckets := if rows.any (fun r => r.bucket == row.bucket) then s.buckets
        else s.buckets.filter (fun b => b != row.bucket), rows := rows }, .ok ())

structure SearchReq where
  query : Text
  scope : Text
  user : Text
  session : Text
  ns : Text
  topK : Int
  lexicalOnly : Bool
  deriving DecidableEq, Repr

/-- Weight of the idx-th query, memory_api.go:359-362. -/
def weight (idx : Nat) : ℚ := if 1 - (idx : ℚ) * (1 / 20) < 4 / 5 then 4 / 5 else 1 - (idx : ℚ) * (1 / 20)

/-- Score of a lexical hit, memory_api.go:363. -/
def lexScore (rank : ℚ) (idx : Nat) : ℚ := 1 / (1 + |rank|) * weight idx

/-- `merged[id] = ...` keeps the better score, memory_api.go:364-366 (a map: one entry per id). -/
def mergeHit {V : Type*} (m : List (Row V × ℚ)) (h : Row V × ℚ) : List (Row V × ℚ) :=
  if m.any (fun x => x.1.id == h.1.id) then
    m.map (fun x => if x.1.id == h.1.id && decide (h.2 > x.2) then h else x)
  else m ++ [h]

/-- The loop over the queries of `searchMemoryLexical`, memory_api.go:319-372: merged hits, and whether a query
failed. -/
def lexLoop {V S : Type*} [LinearOrder S] (e : Env V S) (now : Int) (rows : List (Row V)) (topK : Nat) :
    Nat → List Text → List (Row V × ℚ) × Bool → List (Row V × ℚ) × Bool
  | _, [], acc => acc
  | idx, q :: qs, (m, failed) =>
    match e.fts q rows with
    | none => lexLoop e now rows topK (idx + 1) qs (m, true)
    | some hits =>
      let live := ((hits.take (topK * 4)).filter (fun h => !expired now h.1)).map
        (fun h => (h.1, lexScore h.2 idx))
      lexLoop e now rows topK (idx + 1) qs (live.foldl mergeHit m, failed)

/-- `searchMemoryLexical`, memory_api.go:303-394. -/
def searchLexical {V S : Type*} [LinearOrder S] (e : Env V S) (now : Int) (s : State V) (bucket query : Text)
    (topK : Int) : Except Err (List (Row V × ℚ)) :=
  let queries := trim e.sp query :: e.moreQueries query
  if trim e.sp query = [] then .error .emptyText
  else
    let topK := if topK ≤ 0 then 5 else topK.toNat
    let rows := s.rows.filter (fun r => r.bucket == bucket && decide (r.bucket ∈ s.buckets))
    match lexLoop e now rows topK 0 queries ([], false) with
    | (m, failed) =>
      if m.length = 0 ∧ failed then .error .fts
      else .ok ((e.sortHits m).take topK)

/-- Position scores of the semantic branch, memory_api.go:163-170. -/
def semHits {V : Type*} (now : Int) (msgs : List (Row V)) : List (Row V × ℚ) :=
  (msgs.zipIdx.filter (fun p => !expired now p.1)).map
    (fun p => (p.1, (((msgs.length - p.2 : Nat) : ℚ)) / (msgs.length : ℚ)))

/-- `results[j].score > results[i].score`, chat.go:201. -/
def semBefore {V S : Type*} [LinearOrder S] (a b : Row V × Option S) : Bool :=
  match a.2, b.2 with
  | some x, some y => decide (y < x)
  | _, _ => false

/-- `SearchChatHistory` on the bucket (chat.go:160-219, see `Model.Chat`): rows with a vector, best first. -/
def semantic {V S : Type*} [LinearOrder S] (e : Env V S) (s : State V) (qv : V) (bucket : Text) (topK : Nat) :
    List (Row V) :=
  let rows := s.rows.filter (fun r => r.bucket == bucket && r.vector.isSome)
  let scored := rows.map (fun r => (r, (r.vector.map (e.sim qv))))
  ((exchangeSort semBefore scored).take topK).map (·.1)

/-- `SearchMemory`, memory_api.go:140-179. -/
def search {V S : Type*} [LinearOrder S] (e : Env V S) (now : Int) (s : State V) (q : SearchReq) :
    Except Err (List (Row V × ℚ)) :=
  if trim e.sp q.query = [] then .error .emptyText
  else match resolve e.sp e.lower q.scope q.user q.session q.ns with
    | .error er => .error er
    | .ok (_, bucket) =>
      let topK : Int := if q.topK ≤ 0 then 5 else q.topK
      let sem : List (Row V × ℚ) :=
        if q.lexicalOnly then []
        else match e.embedder with
          | none => []
          | some f => match f q.query with
            | none => []
            | some v => semHits now (semantic e s v bucket topK.toNat)
      if sem ≠ [] then .ok sem
      else searchLexical e now s bucket q.query topK

inductive Op where
  | save (q : SaveReq)
  | update (q : UpdateReq)
  | delete (id : Text)
  deriving DecidableEq, Repr

/-- One call at a given time. -/
def step {V S : Type*} [LinearOrder S] (e : Env V S) (s : State V) (p : Int × Op) : State V :=
  match p.2 with
  | .save q => (save e p.1 s q).1
  | .update q => (update e p.1 s q).1
  | .delete id => (delete s id).1

def run {V S : Type*} [LinearOrder S] (e : Env V S) (s : State V) (ops : List (Int × Op)) : State V :=
  ops.foldl (step e) s

end Verif.Memory
