import Verif.Base.Sort
import Mathlib.Data.Int.Order.Basic

/-!
Model of /repo/pkg/core/chat.go: sessions, messages, history and the searches over messages.

Simplifications, stated once:
* A row keeps the caller's vector as given (the codec is the subject of `Model.Codec`; a stored vector decodes to
  itself, C01). `AddMessage` stores NULL for an empty vector (chat.go:88-94).
* `metadata` is opaque text and never influences any of the modelled functions.
* The clock is an argument of `addMessage` (`time.Now().UTC()`, chat.go:105), an arbitrary natural number: nothing
  is assumed about it, not even that it advances.
* SQLite's `ORDER BY created_at DESC` may order ties in any way: it is a parameter `orderDesc`.
* `similarity` is a parameter with values in any linear order (the float is cast to float32 before ranking,
  chat.go:194; the cast belongs to the parameter).
* FTS5 matching and bm25 ranking are parameters.
-/
namespace Verif.Chat

/-- `Session`, /repo/pkg/core/types.go and the table `sessions` (store_init.go:117-125). -/
structure Session where
  id : String
  user : String
  deriving DecidableEq, Repr

/-- A row of table `messages` (store_init.go:127-137). -/
structure Message where
  id : String
  session : String
  role : String
  content : String
  vector : Option (List Int)
  createdAt : Nat
  deriving DecidableEq, Repr

/-- What the database holds, and whether the store was closed. `fk` says whether the connection that serves a
write enforces foreign keys (`PRAGMA foreign_keys = ON` is issued once, on one pooled connection,
store_init.go:42). -/
structure State where
  sessions : List Session
  messages : List Message
  closed : Bool
  deriving DecidableEq, Repr

inductive Err where
  | closed
  | constraint
  | notFound
  deriving DecidableEq, Repr

/-- Result of a call: a value, an error, or a Go panic. -/
inductive Out (α : Type*) where
  | ok (a : α)
  | err (e : Err)
  | panic
  deriving DecidableEq, Repr

/-- The parts outside the modelled code. -/
structure Cfg (S : Type*) [LinearOrder S] where
  /-- `ORDER BY created_at DESC` -/
  orderDesc : List Message → List Message
  /-- `s.similarityFn(query, msg.Vector)` after the cast to float32 -/
  sim : List Int → List Int → S
  /-- `messages_fts MATCH q` on a row -/
  ftsMatch : String → Message → Bool
  /-- `ORDER BY bm25(messages_fts)` for query q -/
  ftsOrder : String → List Message → List Message

/-- What is assumed about `ORDER BY created_at DESC`: the same rows, later ones first. -/
def Cfg.Orders {S : Type*} [LinearOrder S] (c : Cfg S) : Prop :=
  ∀ l, Base.SortedFrom (fun a b => b.createdAt ≤ a.createdAt) l (c.orderDesc l)

def init : State := { sessions := [], messages := [], closed := false }

/-- `CreateSession`, /repo/pkg/core/chat.go:34-51: closed check, then a plain INSERT (duplicate id refused). -/
def createSession (s : State) (x : Session) : State × Out Unit :=
  if s.closed then (s, .err .closed)
  else if s.sessions.any (fun y => y.id == x.id) then (s, .err .constraint)
  else ({ s with sessions := s.sessions ++ [x] }, .ok ())

/-- `GetSession`, chat.go:54-75 (a closed store has a closed database handle, so the query fails). -/
def getSession (s : State) (id : String) : Out Session :=
  if s.closed then .err .closed
  else match s.sessions.find? (fun y => y.id == id) with
    | some x => .ok x
    | none => .err .notFound

/-- The row `AddMessage` writes: the clock's time replaces the caller's, an empty vector becomes NULL
(chat.go:88-107). -/
def stored (now : Nat) (m : Message) : Message :=
  { m with createdAt := now, vector := if m.vector.getD [] = [] then none else m.vector }

/-- `AddMessage`, chat.go:78-110. `fk`: the connection enforces foreign keys. -/
def addMessage (fk : Bool) (now : Nat) (s : State) (m : Message) : State × Out Unit :=
  if s.closed then (s, .err .closed)
  else if s.messages.any (fun y => y.id == m.id) then (s, .err .constraint)
  else if fk && !(s.sessions.any (fun y => y.id == m.session)) then (s, .err .constraint)
  else ({ s with messages := s.messages ++ [stored now m] }, .ok ())

/-- `LIMIT ?` in SQLite: a negative limit means no limit. -/
def sqlLimit {α : Type*} (n : Int) (l : List α) : List α :=
  if n < 0 then l else l.take n.toNat

/-- `GetSessionHistory`, chat.go:113-156: newest `limit` rows of the session, then reversed in place. -/
def getSessionHistory {S : Type*} [LinearOrder S] (c : Cfg S) (s : State) (session : String) (limit : Int) :
    Out (List Message) :=
  if s.closed then .err .closed
  else .ok (sqlLimit limit (c.orderDesc (s.messages.filter (fun m => m.session == session)))).reverse

/-- Scores the rows read by chat.go:176-196 / 283-305 and sorts them with the double loop (chat.go:199-205,
308-314). -/
def rank {S : Type*} [LinearOrder S] (c : Cfg S) (q : List Int) (rows : List Message) : List (Message × S) :=
  Base.exchangeSort (fun a b => decide (b.2 < a.2)) (rows.map (fun m => (m, c.sim q (m.vector.getD []))))

/-- `SearchChatHistory`, chat.go:160-219. `make([]*Message, 0, limit)` panics for a negative limit. -/
def searchChatHistory {S : Type*} [LinearOrder S] (c : Cfg S) (s : State) (q : List Int) (session : String)
    (limit : Int) : Out (List Message) :=
  if s.closed then .err .closed
  else
    let rows := s.messages.filter (fun m => m.session == session && m.vector.isSome)
    let ranked := rank c q rows
    if limit < 0 then .panic
    else .ok ((ranked.take limit.toNat).map (·.1))

/-- Sessions of a user joined with messages: `JOIN sessions s ON m.session_id = s.id WHERE s.user_id = ? AND
(? = '' OR m.session_id != ?)`, chat.go:240-244, 272-277. Session ids are primary keys, so the join yields at most
one row for a message. -/
def ofUser (s : State) (user exclude : String) (m : Message) : Bool :=
  s.sessions.any (fun x => x.id == m.session && x.user == user) && (exclude == "" || m.session != exclude)

/-- `limit <= 0` becomes 10, chat.go:228-230, 262-264. -/
def defLimit (limit : Int) : Nat := if limit ≤ 0 then 10 else limit.toNat

/-- `KeywordSearchMessages`, chat.go:224-254. -/
def keywordSearchMessages {S : Type*} [LinearOrder S] (c : Cfg S) (s : State) (user query exclude : String)
    (limit : Int) : Out (List Message) :=
  if query == "" || user == "" then .ok []
  else if s.closed then .err .closed
  else .ok ((c.ftsOrder query (s.messages.filter (fun m => c.ftsMatch query m && ofUser s user exclude m))).take
      (defLimit limit))

/-- `SearchMessagesByUser`, chat.go:258-323. -/
def searchMessagesByUser {S : Type*} [LinearOrder S] (c : Cfg S) (s : State) (user : String) (q : List Int)
    (exclude : String) (limit : Int) : Out (List Message) :=
  if user == "" || q.isEmpty then .ok []
  else if s.closed then .err .closed
  else
    let rows := s.messages.filter (fun m => m.vector.isSome && ofUser s user exclude m)
    .ok (((rank c q rows).take (defLimit limit)).map (·.1))

/-- `Close` (pkg/core/store_init.go) as seen by this file. -/
def close (s : State) : State := { s with closed := true }

/-- A history of the writes of this file. -/
inductive Op where
  | createSession (x : Session)
  | addMessage (fk : Bool) (now : Nat) (m : Message)
  | close
  deriving Repr

def step (s : State) : Op → State
  | .createSession x => (createSession s x).1
  | .addMessage fk now m => (addMessage fk now s m).1
  | .close => close s

def run (s : State) (ops : List Op) : State := ops.foldl step s

end Verif.Chat
