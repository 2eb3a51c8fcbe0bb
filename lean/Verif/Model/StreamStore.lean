import Verif.Model.Search
import Verif.Model.Stream

/-!
Model of the calls of /repo/pkg/core/streaming.go over a store: `StreamSearch`, `ParallelStreamSearch` and `SearchWithUpdates`, on top of the record store
(`Verif.Model.Store`), searching (`Verif.Model.Search`) and the goroutines (`Verif.Stream`).

Simplifications: those of the three models. The contents that the goroutine reads are an input, since it runs after the call has returned and the lock is released.
Time stamps and the progress callback are left out.
-/
namespace Verif.StreamStore
open Verif.Model.Store Verif.Model.Search Verif.Base
open Verif.Stream (Res Send)

variable {W HI VI : Type}

/-- `StreamingOptions`, streaming.go:19-26, without `MaxLatency` (the outcomes of the sends are an input) and the callback. -/
structure SOpts where
  base : Opts := {}
  batchSize : Int := 0
  early : Bool := false
  quality : ℚ := 0

/-- What happens after the call has returned: the contents that the goroutine reads, whether reading succeeds (streaming.go:51-54), and how its sends end. -/
structure Later (W : Type) where
  db : DB W
  reads : Bool := true
  sends : List Send := []

/-- The options as the goroutine uses them: a batch size that is not positive is 100 (streaming.go:39-41); a limit that is not positive never ends the stream early
(line 106). -/
def SOpts.run (o : SOpts) : Stream.Opts ℚ :=
  { batch := if o.batchSize ≤ 0 then 100 else o.batchSize.toNat, topK := o.base.topK.toNat, early := o.early, quality := o.quality }

/-- The goroutine of `StreamSearch`, streaming.go:48-121: what it puts into the channel before it closes it. The candidates are scored with the query as given (line 81). -/
def deliver [DecidableEq W] (c : Cfg W) (E : Stream.Env (Hit W) ℚ) (query : List W) (o : SOpts) (l : Later W) : List (Res (Hit W) ℚ) :=
  if l.reads then Stream.streamSearch E o.run ((fetchCandidates l.db o.base).map fun h => (h, c.sim query h.vector)) l.sends else []

/-- `StreamSearch`, streaming.go:30-124. -/
def streamSearch [DecidableEq W] (c : Cfg W) (E : Stream.Env (Hit W) ℚ) (closed : Bool) (query : List W) (o : SOpts) (l : Later W) :
    Except Err (List (Res (Hit W) ℚ)) :=
  if closed then .error .closed else .ok (deliver c E query o l)

/-- `ParallelStreamSearch`, streaming.go:127-139. Each query comes with whether the store is closed when its stream is started, and with what happens later. -/
def parallel [DecidableEq W] (c : Cfg W) (E : Stream.Env (Hit W) ℚ) (o : SOpts) : List (List W × Bool × Later W) → Except Err (List (List (Res (Hit W) ℚ)))
  | [] => .ok []
  | (q, closed, l) :: rest =>
    match streamSearch c E closed q o l with
    | .error e => .error e
    | .ok ch =>
      match parallel c E o rest with
      | .error e => .error e
      | .ok chs => .ok (ch :: chs)

/-- The record as the caller sees it, streaming.go:82-88 and 290-293. -/
def shown (r : Res (Hit W) ℚ) : Hit W := { r.id with score := r.score }

/-- A pending update as a result, streaming.go:290-293: with the similarity to the query as given. A nil vector has no components. -/
def pendingHit (c : Cfg W) (query : List W) (e : Emb W) : Res (Hit W) ℚ :=
  { id := { id := e.id, collection := e.collection, vector := e.vector.getD [], content := e.content, docID := e.docID, metadata := e.metadata, score := 0 }
    score := c.sim query (e.vector.getD []), batch := 0 }

/-- `SearchWithUpdates`, streaming.go:267-315, for the pending updates `pend` that it takes from the queue: `some none` is the panic of the index -1. -/
def searchWithUpdates (c : Cfg W) (E : Stream.Env (Hit W) ℚ) (via : Serve W) (s : St W HI VI) (query : List W) (o : Opts) (pend : List (Emb W)) :
    Except Err (Option (List (Hit W))) :=
  match search c via s query o with
  | .error e => .error e
  | .ok results =>
    .ok ((Stream.mergePending E o.topK (results.map fun h => ⟨h, h.score, 0⟩) (pend.map (pendingHit c query))).map (·.map shown))

end Verif.StreamStore
