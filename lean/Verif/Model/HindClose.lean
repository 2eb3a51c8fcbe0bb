/-!
Model of closing the memory system while messages arrive: `AddMessage` (/repo/pkg/hindsight/chat.go:52-112), the goroutine it starts for an extraction, and `Close`
(/repo/pkg/hindsight/hindsight.go:114-119), as a state machine over the steps between which other goroutines can run.

Simplifications: every goroutine here is one call of `AddMessage` whose message counts (retention on, an extractor set, a session named, the role counted; the other messages only write their
row). What the extractor sees is in `Model/Hindsight`; here an extraction reads the history in one step and stores its facts in a second, and both fail exactly when the database is closed. The use of
`WaitGroup.Add` while another goroutine is in `Wait` with the counter at zero, which the documentation of Go forbids, is taken to behave as if one came after the other.
-/
namespace Verif.HindClose

/-- Where a call of `AddMessage` is: before writing the message; the message is written (chat.go:54); the trigger was reached (line 71); the wait group counts the extraction (line 82); returned, with the
flag telling whether an extraction was started; refused. -/
inductive PC where
  | begin | wrote | fired | counted | returned (extract : Bool) | refused
  deriving DecidableEq, Repr

/-- Where the extraction of a call is: not started; started (line 83); the history was read (line 88); facts stored or not (line 100); `Done` called (line 84). -/
inductive WC where
  | none | ready | read | ended (stored : Bool) | over (stored : Bool)
  deriving DecidableEq, Repr

/-- A call with its extraction. -/
structure Th where
  p : PC
  w : WC
  deriving DecidableEq, Repr

/-- `Close`: not called; in `wg.Wait()` (hindsight.go:117); past it; the database is closed (line 118). -/
inductive CC where
  | idle | waiting | passed | closed
  deriving DecidableEq, Repr

/-- `every` is `TriggerEvery`, `count` the counter, `wg` the wait group. -/
structure State where
  every : Int
  count : Int
  wg : Nat
  isOpen : Bool
  closer : CC
  th : List Th
  deriving DecidableEq, Repr

/-- `n` calls that have not begun. -/
def init (every : Int) (n : Nat) : State := ⟨every, 0, 0, true, .idle, List.replicate n ⟨.begin, .none⟩⟩

inductive Move where
  | call (i : Nat) | work (i : Nat) | close
  deriving DecidableEq, Repr

/-- The next step of call `i`, chat.go:52-112. -/
def callStep (s : State) (i : Nat) : State :=
  match s.th[i]? with
  | none => s
  | some t =>
    match t.p with
    | .begin => { s with th := s.th.set i { t with p := if s.isOpen then .wrote else .refused } }
    | .wrote =>
      if s.every ≤ s.count + 1 then { s with count := 0, th := s.th.set i { t with p := .fired } }
      else { s with count := s.count + 1, th := s.th.set i { t with p := .returned false } }
    | .fired => { s with wg := s.wg + 1, th := s.th.set i { t with p := .counted } }
    | .counted => { s with th := s.th.set i ⟨.returned true, .ready⟩ }
    | _ => s

/-- The next step of the extraction of call `i`, chat.go:83-109. -/
def workStep (s : State) (i : Nat) : State :=
  match s.th[i]? with
  | none => s
  | some t =>
    match t.w with
    | .ready => { s with th := s.th.set i { t with w := if s.isOpen then .read else .ended false } }
    | .read => { s with th := s.th.set i { t with w := .ended s.isOpen } }
    | .ended b => { s with wg := s.wg - 1, th := s.th.set i { t with w := .over b } }
    | _ => s

/-- The next step of `Close`, hindsight.go:116-119. -/
def closeStep (s : State) : State :=
  match s.closer with
  | .idle => { s with closer := .waiting }
  | .waiting => if s.wg = 0 then { s with closer := .passed } else s
  | .passed => { s with closer := .closed, isOpen := false }
  | .closed => s

def step (s : State) : Move → State
  | .call i => callStep s i
  | .work i => workStep s i
  | .close => closeStep s

def run (s : State) (l : List Move) : State := l.foldl step s

end Verif.HindClose
