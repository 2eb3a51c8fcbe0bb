import Verif.Base.Sort

/-!
Model of /repo/pkg/core/streaming.go: streaming search, merging, collecting, and the incremental index.

Simplifications: a result is an id with a score (the score is computed by the caller of `streamSearch`); time stamps and progress
callbacks are left out. What the scheduler and the clock decide is given by explicit inputs: the outcome of every channel send, the order in which
goroutines run, where a context is cancelled. NaN is excluded.
-/
namespace Verif.Stream
open Verif.Base

variable {I S : Type}

/-- `StreamingResult`, streaming.go:12-16, reduced to what the code inspects. -/
structure Res (I S : Type) where
  id : I
  score : S
  batch : Nat
  deriving DecidableEq, Repr

structure Env (I S : Type) where
  /-- `sort.Slice` by descending score -/
  sort : List (Res I S) → List (Res I S)
  /-- the constant 0.9 of streaming.go:212 -/
  good : S

/-! ### StreamSearch -/

/-- How the `select` around a send ends, streaming.go:94-101. -/
inductive Send where
  | sent
  | late
  | cancelled
  deriving DecidableEq, Repr

/-- The options that matter, streaming.go:19-26; the batch size after the defaults of lines 39-41. -/
structure Opts (S : Type) where
  batch : Nat
  topK : Nat
  early : Bool
  quality : S

/-- Sending one sorted batch, streaming.go:93-109: what was delivered, whether the goroutine goes on, and the outcomes left.
Without further outcomes every send succeeds. -/
def sendBatch [LE S] [DecidableLE S] (o : Opts S) (upTo : Nat) : List (Res I S) → List Send → List (Res I S) × Bool × List Send
  | [], w => ([], true, w)
  | r :: rs, [] =>
    if o.early = true ∧ o.quality ≤ r.score ∧ 0 < o.topK ∧ o.topK ≤ upTo then ([r], false, [])
    else
      let t := sendBatch o upTo rs []
      (r :: t.1, t.2)
  | r :: rs, .sent :: w =>
    if o.early = true ∧ o.quality ≤ r.score ∧ 0 < o.topK ∧ o.topK ≤ upTo then ([r], false, w)
    else
      let t := sendBatch o upTo rs w
      (r :: t.1, t.2)
  | _ :: rs, .late :: w => sendBatch o upTo rs w
  | _ :: _, .cancelled :: w => ([], false, w)

/-- The goroutine of `StreamSearch`, streaming.go:47-121, over scored candidates; `i` is the number of candidates of earlier batches. Every batch takes at
least one candidate, so the loop is bounded by their number. -/
def streamLoop [LE S] [DecidableLE S] (E : Env I S) (o : Opts S) : Nat → Nat → Nat → List (I × S) → List Send → List (Res I S)
  | 0, _, _, _, _ => []
  | f + 1, i, b, cands, w =>
    if cands = [] then []
    else
      let chunk := (cands.take o.batch).map (fun c => (⟨c.1, c.2, b⟩ : Res I S))
      let t := sendBatch o (i + chunk.length) (E.sort chunk) w
      if t.2.1 then t.1 ++ streamLoop E o f (i + o.batch) (b + 1) (cands.drop o.batch) t.2.2 else t.1

def streamSearch [LE S] [DecidableLE S] [DecidableEq I] [DecidableEq S] (E : Env I S) (o : Opts S) (cands : List (I × S)) (w : List Send) : List (Res I S) :=
  streamLoop E o cands.length 0 0 cands w

/-! ### MergeStreamResults -/

/-- The state of the goroutines of `MergeStreamResults`, streaming.go:142-176: what each input still has, and what was put out. -/
structure Merge (α : Type) where
  ins : List (List α)
  out : List α

/-- Goroutine `i` forwards one result. -/
def Merge.forward {α : Type} (m : Merge α) (i : Nat) : Merge α :=
  match m.ins[i]? with
  | some (r :: rs) => ⟨m.ins.set i rs, m.out ++ [r]⟩
  | _ => m

def Merge.run {α : Type} (m : Merge α) (sched : List Nat) : Merge α := sched.foldl Merge.forward m

/-- The output channel is closed when every input is exhausted, streaming.go:169-173. -/
def Merge.closed {α : Type} (m : Merge α) : Prop := ∀ l ∈ m.ins, l = []

/-! ### CollectTopKFromStream -/

/-- streaming.go:194-208: `none` is the index -1 for `k = 0`. -/
def offer [LT S] [DecidableLT S] (E : Env I S) (k : Nat) (top : List (Res I S)) (r : Res I S) : Option (List (Res I S)) :=
  if top.length < k then some (E.sort (top ++ [r]))
  else if k = 0 then none
  else
    match top[k - 1]? with
    | none => none
    | some l => if l.score < r.score then some (E.sort (top.set (k - 1) r)) else some top

/-- streaming.go:211. -/
def done [LT S] [DecidableLT S] (E : Env I S) (k : Nat) (top : List (Res I S)) : Bool :=
  decide (top.length = k) && ((top[k - 1]?).any (fun l => decide (E.good < l.score)))

/-- The loop of `CollectTopKFromStream`, streaming.go:184-224, for a stream that ends; `k = 0` with a result panics (`none`). A cancelled context
ends the loop like the end of the stream, apart from the error it returns. -/
def collectLoop [LT S] [DecidableLT S] [DecidableEq I] (E : Env I S) (k : Nat) : List (Res I S) → List I → List (Res I S) → Option (List (Res I S))
  | [], _, top => some top
  | r :: rs, seen, top =>
    if r.id ∈ seen then collectLoop E k rs seen top
    else
      match offer E k top r with
      | none => none
      | some top' => if done E k top' then some top' else collectLoop E k rs (r.id :: seen) top'

/-- `CollectTopKFromStream`, streaming.go:179-224: making the slice of line 181 panics (`none`) for a negative `k`. -/
def collect [LT S] [DecidableLT S] [DecidableEq I] (E : Env I S) (stream : List (Res I S)) (k : Int) : Option (List (Res I S)) :=
  if k < 0 then none else collectLoop E k.toNat stream [] []

/-! ### IncrementalIndex -/

/-- An update: id, and a version that tells updates of one id apart. -/
structure Upd where
  id : Nat
  ver : Nat
  deriving DecidableEq, Repr

/-- `IncrementalIndex`, streaming.go:228-234, with the local variable `batch` of the worker, the updates that searches hold, and ghost lists: the
updates accepted, and the updates of failed flushes. `stored` is the sequence of updates applied to the store. -/
structure Inc where
  queue : List Upd
  held : List Upd
  batch : List Upd
  stored : List Upd
  closed : Bool
  stopped : Bool
  crashed : Bool
  accepted : List Upd
  lost : List Upd
  deriving DecidableEq, Repr

/-- `NewIncrementalIndex`, streaming.go:237-247. -/
def Inc.new : Inc := ⟨[], [], [], [], false, false, false, [], []⟩

/-- The capacity of the queue and the size of a full batch, streaming.go:240, 332, 349. -/
def cap : Nat := 100

/-- One step of one goroutine. -/
inductive Step where
  /-- `AddAsync` -/
  | add (u : Upd)
  /-- a search takes a pending update -/
  | take
  /-- a search puts back the update at position `i` of those held by searches -/
  | requeue (i : Nat)
  /-- the worker receives; the flag says whether a flush done now succeeds -/
  | recv (ok : Bool)
  /-- the ticker of the worker -/
  | tick (ok : Bool)
  | close
  deriving DecidableEq, Repr

/-- `_ = idx.store.UpsertBatch(batch)`, streaming.go:343, 350, 357: the error is dropped; the batch is all or nothing. -/
def Inc.flush (x : Inc) (ok : Bool) : Inc :=
  if ok then { x with stored := x.stored ++ x.batch, batch := [] } else { x with lost := x.lost ++ x.batch, batch := [] }

/-- streaming.go:250-264 (`add`), 284-311 (`take`, `requeue`), 320-327 (`close`), 330-361 (`recv`, `tick`). A step that cannot happen changes nothing:
receiving from an empty open channel and sending to a full one block. Sending on a closed channel panics. -/
def Inc.step (x : Inc) : Step → Inc
  | .add u => if x.closed ∨ cap ≤ x.queue.length then x else { x with queue := x.queue ++ [u], accepted := x.accepted ++ [u] }
  | .take =>
    match x.queue with
    | [] => x
    | u :: q => { x with queue := q, held := x.held ++ [u] }
  | .requeue i =>
    match x.held[i]? with
    | none => x
    | some u =>
      if x.closed then { x with crashed := true }
      else if cap ≤ x.queue.length then x
      else { x with queue := x.queue ++ [u], held := x.held.eraseIdx i }
  | .recv ok =>
    if x.stopped then x
    else
      match x.queue with
      | [] => if x.closed then { (if x.batch = [] then x else x.flush ok) with stopped := true } else x
      | u :: q =>
        let y := { x with queue := q, batch := x.batch ++ [u] }
        if cap ≤ y.batch.length then y.flush ok else y
  | .tick ok => if x.stopped ∨ x.batch = [] then x else x.flush ok
  | .close => { x with closed := true }

def Inc.run (x : Inc) (steps : List Step) : Inc := steps.foldl Inc.step x

/-- What the store holds for an id: the last applied update. -/
def lookup (stored : List Upd) (id : Nat) : Option Nat := (stored.reverse.find? (fun u => u.id == id)).map Upd.ver

/-- The loop of `SearchWithUpdates` over the pending updates it took, streaming.go:287-304, with their scores; `none` is the index -1. The limit is the caller's
`TopK`, which may be negative. -/
def mergePending [LT S] [DecidableLT S] (E : Env I S) (topK : Int) : List (Res I S) → List (Res I S) → Option (List (Res I S))
  | results, [] => some results
  | results, u :: us =>
    if topK = 0 ∨ (results.length : Int) < topK then
      let s := E.sort (results ++ [u])
      mergePending E topK (if 0 < topK ∧ topK < s.length then s.take topK.toNat else s) us
    else
      match results.getLast? with
      | none => none
      | some l =>
        if l.score < u.score then
          let s := E.sort (results ++ [u])
          mergePending E topK (if 0 < topK ∧ topK < s.length then s.take topK.toNat else s) us
        else mergePending E topK results us

end Verif.Stream
