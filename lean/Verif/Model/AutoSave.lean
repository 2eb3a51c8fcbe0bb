/-!
Model of the automatic saving of index snapshots: /repo/pkg/core/store_index.go:465-517, store_close.go, store_init.go:62-66.

What a save writes and what a reopen makes of it is in `Model/Recover.lean`; here it is only recorded that a save is
attempted, by whom, and how many committed changes there were since the last attempt. A store has an index to save. The
goroutines of timers run in steps that interleave with everything else. The interval (at least a default of five minutes,
lines 467-470 and 502-505) decides when a timer may fire; here it may fire at any time after it was set.
-/
namespace Verif.AutoSave

/-- `AutoSaveConfig`, /repo/pkg/core/embedding.go:155-160, without the interval. -/
structure Cfg where
  enabled : Bool
  saveOnClose : Bool
  minChanges : Nat
  deriving DecidableEq, Repr

/-- Where a run of `autoSaveLoop` is: it has seen an open store and will save (lines 480-490), or it has saved and will set
the next timer (lines 497-509). -/
inductive Stage where
  | saving | resetting
  deriving DecidableEq, Repr

inductive By where
  | timer | close
  deriving DecidableEq, Repr

/-- `pending` are the timers that are set and have neither fired nor been stopped, `current` is `saveTimer`, `next` a number
no timer has yet. `saves` are the attempts, newest first: by whom, and the changes committed since the attempt before. -/
structure State where
  closed : Bool
  pending : List Nat
  current : Option Nat
  next : Nat
  runs : List Stage
  changes : Nat
  saves : List (By × Nat)
  deriving DecidableEq, Repr

def init : State := ⟨false, [], none, 0, [], 0, []⟩

inductive Event where
  /-- `Init` -/
  | start
  /-- a write that commits; nothing calls `IncrementChanges` (lines 513-517) -/
  | change
  /-- timer `t` fires: `autoSaveLoop` starts and looks whether the store is closed -/
  | fire (t : Nat)
  /-- run `i` saves -/
  | save (i : Nat)
  /-- run `i` sets the next timer and ends -/
  | reset (i : Nat)
  /-- `Close` -/
  | close
  deriving DecidableEq, Repr

/-- `s.saveTimer = time.AfterFunc(…)`, lines 472-474 and 506-508. -/
def setTimer (s : State) : State := { s with pending := s.next :: s.pending, current := some s.next, next := s.next + 1 }

/-- `s.saveTimer.Stop()`, lines 499-501. -/
def stopTimer (s : State) : State :=
  match s.current with
  | none => s
  | some t => { s with pending := s.pending.filter (fun x => decide (x ≠ t)) }

def step (c : Cfg) (s : State) : Event → State
  | .start => if s.closed then s else if c.enabled then setTimer s else s
  | .change => if s.closed then s else { s with changes := s.changes + 1 }
  | .fire t =>
    if t ∈ s.pending then
      let s' := { s with pending := s.pending.filter (fun x => decide (x ≠ t)) }
      if s.closed then s' else { s' with runs := s.runs ++ [.saving] }
    else s
  | .save i =>
    match s.runs[i]? with
    | some .saving => { s with runs := s.runs.set i .resetting, saves := (.timer, s.changes) :: s.saves, changes := 0 }
    | _ => s
  | .reset i =>
    match s.runs[i]? with
    | some .resetting => setTimer (stopTimer { s with runs := s.runs.eraseIdx i })
    | _ => s
  | .close => if s.closed then s else { s with closed := true, saves := (.close, s.changes) :: s.saves, changes := 0 }

def run (c : Cfg) (s : State) (es : List Event) : State := es.foldl (step c) s

end Verif.AutoSave
