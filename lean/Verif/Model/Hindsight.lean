import Verif.Base.Sort
import Mathlib.Algebra.Order.Ring.Rat
import Mathlib.Algebra.BigOperators.Group.List.Basic

/-!
Model of the agent memory /repo/pkg/hindsight (hindsight.go, hooks.go, chat.go, bank.go).

Simplifications: the vector store is seen through the results of its searches (`Env`); times are integers; scores are
rationals; the graph is the table of its nodes (id, type, content).
-/
namespace Verif.Hindsight

open Verif.Base

/-- A row of the store as far as it concerns this package: id and decoded metadata (JSON round trip: C02). -/
structure Row where
  id : String
  md : List (String × String)
  deriving DecidableEq, Repr

/-- `Memory`, types.go: `meta` is the user's metadata, already printed with `%v`. -/
structure Memory where
  id : String
  bank : String
  mtype : String
  created : String
  confidence : String
  entities : List String
  extra : List (String × String)
  deriving DecidableEq, Repr

/-- `Disposition`, bank.go:5-17. -/
structure Disposition where
  skepticism : Int
  literalism : Int
  empathy : Int
  deriving DecidableEq, Repr

/-- `Disposition.Validate`, bank.go:29-40. -/
def Disposition.validate (d : Disposition) : Bool :=
  if d.skepticism < 1 ∨ d.skepticism > 5 then false
  else if d.literalism < 1 ∨ d.literalism > 5 then false
  else if d.empathy < 1 ∨ d.empathy > 5 then false
  else true

/-- `Bank`, bank.go:44-62; the disposition is an embedded pointer. -/
structure Bank where
  id : String
  name : String
  description : String
  background : String
  disposition : Option Disposition
  deriving DecidableEq, Repr

/-- A row of `graph_nodes`. -/
structure Node where
  id : String
  ntype : String
  content : String
  deriving DecidableEq, Repr

structure State where
  rows : List Row
  nodes : List Node
  banks : List Bank
  deriving DecidableEq, Repr

def init : State := ⟨[], [], []⟩

/-- `buildMetadata`, hindsight.go:185-209. The last write of a key wins, so the user's metadata comes first in the list
that is searched from the front. -/
def buildMetadata (m : Memory) : List (String × String) :=
  m.extra ++
  (if m.entities = [] then [] else [("entities", ",".intercalate m.entities)]) ++
  (if m.mtype = "opinion" ∨ m.mtype = "observation" then [("confidence", m.confidence)] else []) ++
  [("created_at", m.created), ("memory_type", m.mtype), ("bank_id", m.bank)]

/-- `GraphStore.UpsertNode`, /repo/pkg/graph/graph.go:133-188, as seen from here: an empty id is rejected; on conflict type
and content are replaced. -/
def upsertNode (nodes : List Node) (n : Node) : List Node :=
  if n.id = "" then nodes
  else if nodes.any (fun x => decide (x.id = n.id)) then nodes.map (fun x => if x.id = n.id then n else x)
  else nodes ++ [n]

/-- `store.Upsert` (`INSERT OR REPLACE` by id). -/
def upsertRow (rows : List Row) (r : Row) : List Row := rows.filter (fun x => decide (x.id ≠ r.id)) ++ [r]

/-- `Retain`, hindsight.go:138-177. `fresh` is the generated id for a memory without one, `up` whether the store accepts
the record. -/
def retain (fresh : String) (up : Bool) (s : State) (m : Memory) : State × Bool :=
  let m := if m.id = "" then { m with id := fresh } else m
  let nodes := m.entities.foldl (fun ns e => upsertNode ns ⟨e, "entity", e⟩) s.nodes
  if up then ({ s with rows := upsertRow s.rows ⟨m.id, buildMetadata m⟩, nodes := nodes }, true)
  else ({ s with nodes := nodes }, false)

/-! ### Recall -/

structure Hit where
  row : Row
  score : ℚ
  deriving DecidableEq, Repr

/-- `RecallResult`; `strat` is 0 for semantic, 1 keyword, 2 temporal, 3 entity. -/
structure RR where
  row : Row
  score : ℚ
  strat : Nat
  deriving DecidableEq, Repr

/-- The searches for the vector and text of one request: `search` is `Search` with the filter `bank_id = …`, `hybrid` is
`HybridSearch` with that filter, `dummy` is `Search` with the one-component dummy vector (hindsight.go:392-401). `none`
is an error. `inRange` and `hasEntity` are the tests at hindsight.go:458-464 and 519-520. -/
structure Env where
  search : List Row → String → Int → Option (List Hit)
  hybrid : List Row → String → Int → Option (List Hit)
  dummy : List Row → String → Int → Option (List Hit)
  inRange : Row → Bool
  hasEntity : String → Row → Bool
  rerank : Option (List RR → Option (List RR))

/-- `RecallRequest` with its strategy. `hasVec`: the query vector is not nil; `hasText`: the query is not empty. -/
structure Req where
  bank : String
  hasVec : Bool
  hasText : Bool
  temporal : Bool
  entities : List String
  memory : Bool
  priming : Bool
  stratTopK : Int
  topK : Int
  deriving DecidableEq, Repr

/-- The number of results asked for, hindsight.go:326-332 (and 361-367, 426-432, 485-491). -/
def askK (r : Req) : Int :=
  let k := if r.stratTopK = 0 then r.topK else r.stratTopK
  if k = 0 then 10 else k

def tag (n : Nat) (hs : List Hit) : List RR := hs.map (fun h => ⟨h.row, h.score, n⟩)

/-- `semanticSearch`, hindsight.go:325-357. -/
def semantic (e : Env) (s : State) (r : Req) : List RR :=
  match e.search s.rows r.bank (askK r) with
  | none => []
  | some hs => tag 0 hs

/-- `keywordSearch`, hindsight.go:360-417. -/
def keyword (e : Env) (s : State) (r : Req) : List RR :=
  match (if r.hasVec then e.hybrid s.rows r.bank (askK r) else e.dummy s.rows r.bank (askK r)) with
  | none => []
  | some hs => tag 1 hs

/-- `temporalSearch`, hindsight.go:420-477. -/
def temporalSearch (e : Env) (s : State) (r : Req) : List RR :=
  if r.hasVec = false then []
  else match e.search s.rows r.bank (askK r * 5) with
    | none => []
    | some hs => tag 2 (hs.filter (fun h => e.inRange h.row))

/-- One round of `entitySearch`, hindsight.go:516-534: hits not yet seen that contain the entity. -/
def entityRound (e : Env) (ent : String) : List Hit → List Hit → List Hit
  | acc, [] => acc
  | acc, h :: hs =>
    if acc.any (fun x => decide (x.row.id = h.row.id)) then entityRound e ent acc hs
    else if e.hasEntity ent h.row then entityRound e ent (acc ++ [h]) hs
    else entityRound e ent acc hs

/-- `entitySearch`, hindsight.go:480-540. -/
def entitySearch (e : Env) (s : State) (r : Req) : List RR :=
  tag 3 (r.entities.foldl (fun acc ent =>
    if r.hasVec then
      match e.search s.rows r.bank (askK r) with
      | none => acc
      | some hs => entityRound e ent acc hs
    else acc) [])

/-- The enabled strategies with their results, hindsight.go:222-267. -/
def runs (e : Env) (s : State) (r : Req) : List (List RR) :=
  (if r.memory ∧ r.hasVec then [semantic e s r] else []) ++
  (if r.priming ∧ r.hasText then [keyword e s r] else []) ++
  (if r.temporal then [temporalSearch e s r] else []) ++
  (if r.entities ≠ [] then [entitySearch e s r] else [])

/-- Rank of an id in a list of results, from 1; a later duplicate overwrites an earlier one (hindsight.go:566-571). -/
def rankIn (id : String) : List RR → Nat → Option Nat
  | [], _ => none
  | x :: xs, i => match rankIn id xs (i + 1) with
    | some k => some k
    | none => if x.row.id = id then some (i + 1) else none

/-- The fused score of an id, hindsight.go:580-587: sum over the strategies. -/
def rrf (results : List RR) (id : String) : ℚ :=
  (([0, 1, 2, 3].map (fun st => match rankIn id (results.filter (fun x => decide (x.strat = st))) 0 with
    | some k => 1 / (60 + (k : ℚ))
    | none => 0))).sum

/-- The result kept for an id: the first one met; strategies are visited in map order `so`. -/
def firstOf (so : List Nat) (results : List RR) (id : String) : Option RR :=
  so.findSome? (fun st => (results.filter (fun x => decide (x.strat = st))).find? (fun x => decide (x.row.id = id)))

/-- `rrfFuse`, hindsight.go:545-602. `so` is the iteration order of the map of strategies, `ord` orders the map of ids. -/
def rrfFuse (so : List Nat) (ord : List String → List String) (results : List RR) : List RR :=
  let ids := ord ((results.map (fun x => x.row.id)).dedup)
  let merged := ids.filterMap (fun id => (firstOf so results id).map (fun x => { x with score := rrf results id }))
  exchangeSort (fun a b => decide (a.score > b.score)) merged

/-- `Recall`, hindsight.go:212-322. `arrive` is the order in which the strategies append their results. -/
def recall (e : Env) (arrive : List (List RR) → List (List RR)) (so : List Nat) (ord : List String → List String)
    (s : State) (r : Req) : List RR :=
  let rs := runs e s r
  let all := (arrive rs).flatten
  let merged :=
    if rs.length > 1 ∧ all ≠ [] then rrfFuse so ord all
    else exchangeSort (fun a b => decide (a.score > b.score)) all
  let merged := match e.rerank with
    | some f => if r.hasText ∧ merged ≠ [] then
        (match f merged with
          | some l => if l ≠ [] then l else merged
          | none => merged)
        else merged
    | none => merged
  if r.topK > 0 ∧ (merged.length : Int) > r.topK then merged.take r.topK.toNat else merged

/-! ### Banks -/

inductive BankRes where
  | ok
  | exists_
  | notFound
  | panic
  deriving DecidableEq, Repr

def findBank (s : State) (id : String) : Option Bank := s.banks.find? (fun b => decide (b.id = id))

/-- `CreateBank`, hindsight.go:745-789. Reading the traits of a nil disposition panics. A failure to persist (empty id) is
only logged. -/
def createBank (s : State) (b : Bank) : State × BankRes :=
  if (findBank s b.id).isSome then (s, .exists_)
  else match b.disposition with
    | none => (s, .panic)
    | some _ => ({ s with nodes := upsertNode s.nodes ⟨b.id, "bank", b.name⟩, banks := s.banks ++ [b] }, .ok)

/-- The bank made from a node, hindsight.go:806-811 and 1228-1233: name and description are the content, there is no
background and no disposition. -/
def bankOfNode (n : Node) : Bank := ⟨n.id, n.content, n.content, "", none⟩

/-- `GetBank`, hindsight.go:793-820. -/
def getBank (s : State) (id : String) : State × Option Bank :=
  match findBank s id with
  | some b => (s, some b)
  | none => match s.nodes.find? (fun n => decide (n.id = id)) with
    | some n => if n.ntype = "bank" then ({ s with banks := s.banks ++ [bankOfNode n] }, some (bankOfNode n)) else (s, none)
    | none => (s, none)

/-- `DeleteBank`, hindsight.go:836-851: the bank and its node; no memory is touched. -/
def deleteBank (s : State) (id : String) : State × BankRes :=
  if (findBank s id).isSome then
    ({ s with banks := s.banks.filter (fun b => decide (b.id ≠ id)), nodes := s.nodes.filter (fun n => decide (n.id ≠ id)) }, .ok)
  else (s, .notFound)

/-- Closing and `New` on the same file: `loadPersistedBanks`, hindsight.go:1217-1239. -/
def restart (s : State) : State :=
  { s with banks := (s.nodes.filter (fun n => decide (n.ntype = "bank"))).map bankOfNode }

/-! ### Observations -/

/-- `calculateConfidence`, hindsight.go:1038-1069; `none` is the panic on a nil disposition. `bank = none` is the nil
bank. -/
def confidence (n : Nat) (bank : Option Bank) : Option ℚ :=
  if n = 0 then some 0
  else
    let base : ℚ := (n : ℚ) / 10
    let base := if base > 9/10 then 9/10 else base
    let adj : Option ℚ := match bank with
      | none => some base
      | some b => match b.disposition with
        | none => none
        | some d =>
          let x := if d.skepticism ≥ 4 then base * (8/10) else base
          some (if d.skepticism ≤ 2 then x * (11/10) else x)
    adj.map (fun x =>
      let x := if x > 1 then 1 else x
      if x < 1/10 then 1/10 else x)

/-- A recalled memory as `detectPatterns` sees it: id, entities, and whether its content has preference words, causal
words. -/
structure Seen where
  id : String
  entities : List String
  pref : Bool
  causal : Bool
  deriving DecidableEq, Repr

structure Obs where
  bank : String
  sources : List String
  conf : ℚ
  deriving DecidableEq, Repr

/-- The memories of an entity, one entry per occurrence, hindsight.go:918-923. -/
def byEntity (ms : List Seen) (ent : String) : List Seen :=
  ms.flatMap (fun m => (m.entities.filter (fun x => decide (x = ent))).map (fun _ => m))

/-- One observation about a group of memories. -/
def mkObs (bank : Option Bank) (bankId : String) (ms : List Seen) : Option Obs :=
  (confidence ms.length bank).map (fun c => ⟨bankId, ms.map (·.id), c⟩)

/-- The observations about one entity, hindsight.go:926-958. -/
def entityObs (bank : Option Bank) (bankId : String) (g : List Seen) : List (Option Obs) :=
  if g.length ≥ 2 then
    (if g.any (·.pref) then [mkObs bank bankId g] else []) ++ (if g.any (·.causal) then [mkObs bank bankId g] else [])
  else []

/-- `detectPatterns`, hindsight.go:909-968; `ord` is the order of the map of entities, `theme` whether some longer word
occurs twice (hindsight.go:1002-1025). An entry `none` is a panic. -/
def detectPatterns (ord : List String → List String) (theme : List Seen → Bool) (ms : List Seen) (bank : Option Bank)
    (bankId : String) : List (Option Obs) :=
  if ms.length < 2 then []
  else
    (ord (ms.flatMap (·.entities)).dedup).flatMap (fun ent => entityObs bank bankId (byEntity ms ent)) ++
    (if ms.length ≥ 3 ∧ theme ms then [mkObs bank bankId ms] else [])

/-- What `Observe` (hindsight.go:857-905) answers after recalling `ms`: it persists observations that reach
`minConf` with a nil vector, which the store rejects, and stops at the first of them. -/
inductive ObserveRes where
  | panic
  | persistError
  | ok (obs : List Obs)
  deriving DecidableEq, Repr

def observe (ord : List String → List String) (theme : List Seen → Bool) (ms : List Seen) (bank : Option Bank)
    (bankId : String) (minConf : ℚ) : ObserveRes :=
  let os := detectPatterns ord theme ms bank bankId
  if os.any (·.isNone) then .panic
  else
    let obs := os.filterMap id
    if obs.any (fun o => decide (o.conf ≥ minConf)) then .persistError else .ok obs

/-- The cut of `Reflect`, hindsight.go:665-672: length of the context (in bytes) and reported token count. -/
def budget (len : Nat) (tokenBudget : Int) : Nat × Int :=
  let count : Int := ((len / 4 : Nat) : Int)
  if tokenBudget > 0 ∧ count > tokenBudget then ((tokenBudget * 4).toNat, tokenBudget) else (len, count)

/-! ### Auto-retain -/

structure Msg where
  session : String
  role : String
  body : Nat
  deriving DecidableEq, Repr

/-- `AutoRetainConfig` after `SetAutoRetain`, hooks.go:213-232. -/
structure ARCfg where
  enabled : Bool
  window : Int
  every : Int
  roles : List String
  deriving DecidableEq, Repr

/-- `SetAutoRetain`, hooks.go:213-232 (a nil config gives the disabled default). -/
def setAutoRetain (c : Option ARCfg) : ARCfg :=
  match c with
  | none => ⟨false, 6, 2, []⟩
  | some c =>
    let c := if c.window ≤ 0 then { c with window := 6 } else c
    if c.every ≤ 0 then { c with every := 2 } else c

/-- The chat side: stored messages in the order of their time, the counter, the extractions started and not yet run
(their session), and what the extractor received. -/
structure Chat where
  log : List Msg
  counter : Int
  pending : List String
  received : List (List Msg)
  fired : Nat
  deriving DecidableEq, Repr

/-- `roleMatches`, chat.go:122-132. -/
def roleMatches (role : String) (filter : List String) : Bool :=
  if filter = [] then true else filter.any (fun r => decide (r = role))

/-- `GetSessionHistory`, /repo/pkg/core/chat.go:113-156: the last `n` messages of the session, oldest first (C18). -/
def history (log : List Msg) (session : String) (n : Int) : List Msg :=
  let l := log.filter (fun m => decide (m.session = session))
  if n < 0 then l else (l.reverse.take n.toNat).reverse

/-- `AddMessage`, chat.go:51-118, up to the start of the goroutine. `up`: the store accepted the message. `ext`: an
extractor is registered. -/
def addMessage (c : ARCfg) (ext : Bool) (s : Chat) (m : Msg) (up : Bool) : Chat :=
  if up = false then s
  else
    let s := { s with log := s.log ++ [m] }
    if c.enabled ∧ ext ∧ m.session ≠ "" then
      if roleMatches m.role c.roles then
        if s.counter + 1 ≥ c.every then
          { s with counter := 0, pending := s.pending ++ [m.session], fired := s.fired + 1 }
        else { s with counter := s.counter + 1 }
      else s
    else s

/-- The goroutine, chat.go:83-112, for the `i`-th pending extraction: fetch the window and reverse it
(`reverseMessages`, chat.go:135-139), call the extractor unless it is empty. -/
def runExtract (c : ARCfg) (s : Chat) (i : Nat) : Chat :=
  match s.pending[i]? with
  | none => s
  | some sess =>
    let recent := history s.log sess c.window
    let s := { s with pending := s.pending.eraseIdx i }
    if recent = [] then s else { s with received := s.received ++ [recent.reverse] }

inductive ChatOp where
  | add (m : Msg) (up : Bool)
  | run (i : Nat)

def chatStep (c : ARCfg) (s : Chat) : ChatOp → Chat
  | .add m up => addMessage c true s m up
  | .run i => runExtract c s i

def chatRun (c : ARCfg) (s : Chat) (ops : List ChatOp) : Chat := ops.foldl (chatStep c) s

def chatInit : Chat := ⟨[], 0, [], [], 0⟩

/-- `RetainFromText`, hooks.go:248-296: counts of retained and skipped facts and of errors. A fact is given by whether it
has an id, has a vector, and whether the store takes it. -/
def retainFacts : List (Bool × Bool × Bool) → Nat × Nat × Nat
  | [] => (0, 0, 0)
  | (hasId, hasVec, up) :: fs =>
    let r := retainFacts fs
    if hasId = false then (r.1, r.2.1 + 1, r.2.2 + 1)
    else if hasVec = false then (r.1, r.2.1 + 1, r.2.2 + 1)
    else if up = false then (r.1, r.2.1, r.2.2 + 1)
    else (r.1 + 1, r.2.1, r.2.2)

end Verif.Hindsight
