import Verif.Model.Search
import Verif.Model.Reflect
import Verif.Model.FuncRouter

/-!
The agent memory on the record store: what the strategies of `Recall` and the list of observations ask of `Search`
(/repo/pkg/hindsight/hindsight.go).  `Model/Hindsight` sees those searches as parameters; here they are the searches of
`Model/Search`.

Simplifications:
* A time is a number of nanoseconds; `readInt` is `fmt.Sscanf("%d")` on the stored text and `now` the clock, used when no time is
  stored.  Times that overflow are left out.
* A result is the hit it is made of; what a memory made of it shows is in `Model/Reflect`.
-/
namespace Verif.HindStore

open Verif.Model.Store Verif.Model.Search

variable {W HI VI : Type}

/-- The number of results asked for, hindsight.go:421-432 and 485-491: the strategy's, else the request's, else ten. -/
def askK (stratTopK topK : Int) : Int :=
  let k := if stratTopK = 0 then topK else stratTopK
  if k = 0 then 10 else k

/-- The options of the searches of one bank, hindsight.go:334-338, 435-439 and 500-504; the collection is that of
`getCollection`, lines 180-182. -/
def bankOpts (bank : String) (k : Int) : Opts :=
  { collection := "memories", topK := k, filter := [("bank_id", bank)] }

/-- `TimeRange`, /repo/pkg/hindsight/types.go: an open end is nil. -/
structure TimeRange where
  start : Option Int
  stop : Option Int
  deriving DecidableEq, Repr

/-- The time of the memory made of a hit, hindsight.go:615 and 624-628: whole seconds. -/
def createdAt (readInt : String → Int) (now : Int) (md : Option Meta) : Int :=
  match md.bind (fun m => m.lookup "created_at") with
  | some t => readInt t * 1000000000
  | none => now

/-- The test of the time range, hindsight.go:458-464. -/
def inRange (readInt : String → Int) (now : Int) (tr : TimeRange) (md : Option Meta) : Bool :=
  let t := createdAt readInt now md
  let b := true
  let b := if (match tr.start with | some a => decide (t < a) | none => false) then false else b
  if (match tr.stop with | some z => decide (z < t) | none => false) then false else b

/-- `temporalSearch`, hindsight.go:420-477; `query` is `none` for a nil vector. -/
def temporal (c : Cfg W) (via : Serve W) (s : St W HI VI) (readInt : String → Int) (now : Int) (bank : String)
    (query : Option (List W)) (k : Int) (tr : TimeRange) : List (Hit W) :=
  match query with
  | none => []
  | some q =>
    match search c via s q (bankOpts bank (k * 5)) with
    | .error _ => []
    | .ok hs => hs.filter (fun h => inRange readInt now tr h.metadata)

/-- `strings.Contains` of the entities of a hit, hindsight.go:519-520. -/
def mentions (ent : String) (md : Option Meta) : Bool :=
  match md.bind (fun m => m.lookup "entities") with
  | some es => Verif.FuncRouter.contains ent.toList es.toList
  | none => false

/-- The results of one entity, hindsight.go:516-534: those not seen that mention it. -/
def entityRound (ent : String) : List (Hit W) → List (Hit W) → List (Hit W)
  | acc, [] => acc
  | acc, h :: hs =>
    if acc.any (fun x => decide (x.id = h.id)) then entityRound ent acc hs
    else if mentions ent h.metadata then entityRound ent (acc ++ [h]) hs
    else entityRound ent acc hs

/-- `entitySearch`, hindsight.go:480-540. -/
def entities (c : Cfg W) (via : Serve W) (s : St W HI VI) (bank : String) (query : Option (List W)) (k : Int) :
    List String → List (Hit W) → List (Hit W)
  | [], acc => acc
  | e :: es, acc =>
    match query with
    | none => entities c via s bank query k es acc
    | some q =>
      match search c via s q (bankOpts bank k) with
      | .error _ => entities c via s bank query k es acc
      | .ok hs => entities c via s bank query k es (entityRound e acc hs)

/-- The options of `GetObservations`, hindsight.go:1169-1176. -/
def obsOpts (bank : String) : Opts :=
  { collection := "memories", topK := 100, filter := [("bank_id", bank), ("memory_type", "observation")] }

/-- `GetObservations`, hindsight.go:1168-1214: a search with a vector of one zero; those whose type is not "observation" are
passed over. -/
def observations (c : Cfg W) (via : Serve W) (s : St W HI VI) (zero : W) (bank : String) : Except Err (List (Hit W)) :=
  match search c via s [zero] (obsOpts bank) with
  | .error e => .error e
  | .ok hs => .ok (hs.filter (fun h => (h.metadata.bind (fun m => m.lookup "memory_type")).getD "" == "observation"))

end Verif.HindStore
