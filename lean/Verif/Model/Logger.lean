import Mathlib.Data.List.Basic

/-!
Model of the logger, /repo/pkg/core/logger.go.

Simplifications: values are texts already printed; the time stamp is a text given with the call; a write to the writer is one
step and never fails. Goroutines are steps of a schedule; a mutex is a number.
-/
namespace Verif.Logger

/-- `LogLevel`, logger.go:13-24. -/
inductive Level where
  | debug
  | info
  | warn
  | error
  deriving DecidableEq, Repr

def Level.num : Level → Nat
  | .debug => 0
  | .info => 1
  | .warn => 2
  | .error => 3

/-- `String`, logger.go:26-39. -/
def Level.name : Level → String
  | .debug => "DEBUG"
  | .info => "INFO"
  | .warn => "WARN"
  | .error => "ERROR"

/-- `defaultLogger`, logger.go:56-62; all loggers of the model share one writer, the prefix is never set. -/
structure Log where
  mutex : Nat
  min : Level
  kvs : List String
  deriving DecidableEq, Repr

/-- `NewLogger`, logger.go:65-70. -/
def new (mutex : Nat) (min : Level) : Log := ⟨mutex, min, []⟩

/-- `With`, logger.go:98-108: the new logger has the same writer and a mutex of its own. -/
def Log.with (l : Log) (fresh : Nat) (kvs : List String) : Log := ⟨fresh, l.min, l.kvs ++ kvs⟩

/-- The loops over key-value pairs, logger.go:122-136: a last key without a value is left out. -/
def pairs : List String → List String
  | k :: v :: rest => (" " ++ k ++ "=" ++ v) :: pairs rest
  | _ => []

/-- A call of `Debug`, `Info`, `Warn` or `Error`, logger.go:78-95. -/
structure Call where
  level : Level
  stamp : String
  msg : String
  kvs : List String
  deriving DecidableEq, Repr

/-- The writes of one call of `log`, logger.go:111-139; none below the minimum level. -/
def writes (l : Log) (c : Call) : List String :=
  if c.level.num < l.min.num then []
  else [c.stamp ++ " [" ++ c.level.name ++ "] "] ++ pairs l.kvs ++ pairs c.kvs ++ [": " ++ c.msg ++ "\n"]

/-- A goroutine that makes calls on one logger: the writes left of the call it is in, and the calls still to make. -/
structure Proc where
  log : Log
  cur : List String
  todo : List Call
  deriving DecidableEq, Repr

structure State where
  out : List String
  procs : List Proc
  deriving DecidableEq, Repr

/-- Whether some goroutine is inside a call on a logger with this mutex. -/
def held (ps : List Proc) (m : Nat) : Bool := ps.any (fun p => decide (p.log.mutex = m) && !p.cur.isEmpty)

/-- One step of goroutine `i`: the next write of its call (the last one gives the mutex back), or the start of the next call,
which waits for the mutex unless the level is below the minimum. -/
def step (s : State) (i : Nat) : State :=
  match s.procs[i]? with
  | none => s
  | some p =>
    match p.cur with
    | w :: ws => ⟨s.out ++ [w], s.procs.set i { p with cur := ws }⟩
    | [] =>
      match p.todo with
      | [] => s
      | c :: cs =>
        if c.level.num < p.log.min.num then ⟨s.out, s.procs.set i { p with todo := cs }⟩
        else if held s.procs p.log.mutex then s
        else ⟨s.out, s.procs.set i { p with cur := writes p.log c, todo := cs }⟩

def start (jobs : List (Log × List Call)) : State := ⟨[], jobs.map (fun j => ⟨j.1, [], j.2⟩)⟩

def run (jobs : List (Log × List Call)) (sched : List Nat) : State := sched.foldl step (start jobs)

end Verif.Logger
