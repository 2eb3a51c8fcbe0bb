import Verif.Model.MemoryRecord

/-!
Conversations and memories in one database. `CreateSession` and `AddMessage` of /repo/pkg/core/chat.go and the memory calls of
/repo/pkg/cortexdb/memory_api.go write the same tables `sessions` and `messages`; `Verif.Model.Memory` leaves the former out, here both
work on the tables of `Verif.Model.MemoryRecord`.

Simplifications: those of `Verif.Model.MemoryRecord`; vectors, limits and the order of the lists read back are left out (C18, C19, C68);
the store is open.
-/
namespace Verif.MemRec
open Verif.Base Verif.Memory

/-- `CreateSession`, /repo/pkg/core/chat.go:34-51: a plain INSERT, a duplicate id is refused. -/
def createSession (s : State) (id user : Text) : State × Bool :=
  if (s.buckets.lookup id).isSome then (s, false) else ({ s with buckets := s.buckets ++ [(id, user)] }, true)

/-- `AddMessage`, chat.go:78-110: a plain INSERT with the time of the call; a duplicate id is refused, and, on a connection that enforces
foreign keys (`fk`, store_init.go:42), a session that does not exist. -/
def addMessage (fk : Bool) (now : Int) (s : State) (m : Msg) : State × Bool :=
  if s.msgs.any (fun x => x.id == m.id) then (s, false)
  else if fk && (s.buckets.lookup m.bucket).isNone then (s, false)
  else ({ s with msgs := s.msgs ++ [{ m with created := now }] }, true)

/-- The rows of `GetSessionHistory`, chat.go:113-156. -/
def history (s : State) (session : Text) : List Msg := s.msgs.filter (fun m => m.bucket == session)

/-- The rows `KeywordSearchMessages` and `SearchMessagesByUser` choose from, chat.go:236-246, 270-277: those of all the sessions of a
user. -/
def byUser (s : State) (user exclude : Text) : List Msg :=
  s.msgs.filter (fun m => s.buckets.lookup m.bucket == some user && (exclude == [] || m.bucket != exclude))

/-- A call of either interface. -/
inductive Call where
  | memory (now : Int) (op : Op)
  | session (id user : Text)
  | message (fk : Bool) (now : Int) (m : Msg)

def Call.isMemory : Call → Bool
  | .memory _ _ => true
  | _ => false

def callStep (sp : Char → Bool) (lower : Char → Char) (s : State) : Call → State
  | .memory now op => step sp lower s (now, op)
  | .session id user => (createSession s id user).1
  | .message fk now m => (addMessage fk now s m).1

def callRun (sp : Char → Bool) (lower : Char → Char) (s : State) (cs : List Call) : State := cs.foldl (callStep sp lower) s

end Verif.MemRec
