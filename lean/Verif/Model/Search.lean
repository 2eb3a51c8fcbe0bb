import Verif.Model.Store
import Verif.Base.Sort
import Mathlib.Algebra.Order.Field.Rat

/-!
Model of vector search over the record store: `/repo/pkg/core/store_search.go` and the ACL and hybrid searches of
`/repo/pkg/core/advanced_search.go`.

Simplifications:
* Scores are exact rationals; float rounding, NaN and infinities are left out. The similarity functions are parameters.
* `sort.Slice` is a parameter `sort`; the theorems assume only that it permutes and orders its argument (`SortsDesc`).
* The candidates proposed by a vector index are an arbitrary list of ids (parameter of `Serve`), so the theorems hold
  for any index contents, stale or damaged.
* SQL queries do not fail. A filter `map[string]string` is an association list.
* The full-text engine is a parameter: the ids of the matching rows in rank order.
* The access list is bound as `[]byte` (store_crud.go:117, 258), so the column holds JSON text in a BLOB. The JSON functions of
  the embedded SQLite are taken to read it as text; SQLite 3.45 and 3.46 refuse such a BLOB of exactly six bytes.
-/
namespace Verif.Model.Search
open Verif.Model.Store Verif.Base

/-- `SearchOptions` (/repo/pkg/core/embedding.go:27-34). -/
structure Opts where
  collection : String := ""
  topK : Int := 0
  filter : Meta := []
  threshold : ℚ := 0
  queryText : String := ""
  textWeight : ℚ := 0

/-- `ScoredEmbedding` as built by `scanEmbedding` (/repo/pkg/core/store_search.go:403-415). -/
structure Hit (W : Type) where
  id : String
  collection : String
  vector : List W
  content : String
  docID : String
  metadata : Option Meta
  score : ℚ
  deriving DecidableEq

/-- What search uses from the store's configuration. -/
structure Cfg (W : Type) where
  sim : List W → List W → ℚ
  textSim : Option (String → String → ℚ)
  textEnabled : Bool
  defaultWeight : ℚ
  validQuery : List W → Bool
  adapt : List W → Nat → Nat → Option (List W)
  sort : List (Hit W) → List (Hit W)

/-- Assumption on `sort.Slice` with `Score` descending (/repo/pkg/core/store_search.go:496-500). -/
def SortsDesc {W : Type} (sort : List (Hit W) → List (Hit W)) : Prop :=
  ∀ l, SortedFrom (fun a b => b.score ≤ a.score) l (sort l)

/-- Which index serves the query and what it proposes (/repo/pkg/core/store_search.go:44-52). `none` from IVF is an error. -/
inductive Serve (W : Type) where
  | linear
  | hnsw (propose : List W → Int → List String)
  | ivf (propose : List W → Int → Option (List String))

/-- Name joined by `LEFT JOIN collections` (/repo/pkg/core/store_search.go:312, 398-401). -/
def collName {W : Type} (db : DB W) (r : Row W) : Option String :=
  (db.collections.find? (fun c => c.id = r.cid)).map (fun c => c.name)

/-- `scanEmbedding` (/repo/pkg/core/store_search.go:378-415). -/
def scan {W : Type} (db : DB W) (r : Row W) : Hit W :=
  { id := r.id, collection := (collName db r).getD "", vector := r.vector, content := r.content
    docID := r.docID.getD "", metadata := r.metadata, score := 0 }

/-- `matchesFilter` (/repo/pkg/core/store_search.go:418-428): `doc_id` is skipped, a missing key reads as "". -/
def matchesFilter {W : Type} (h : Hit W) (filter : Meta) : Bool :=
  filter.all (fun kv =>
    if kv.1 = "doc_id" then true
    else match h.metadata with
      | none => false
      | some m => (m.lookup kv.1).getD "" = kv.2)

/-- `getTextWeight` (/repo/pkg/core/store_search.go:481-493). -/
def textWeight {W : Type} (c : Cfg W) (o : Opts) : ℚ :=
  if o.textWeight > 0 then min o.textWeight 1
  else if c.textSim.isSome && c.textEnabled then c.defaultWeight
  else 0

/-- Combined score (/repo/pkg/core/store_search.go:209-222 and 440-458). -/
def combine {W : Type} (c : Cfg W) (o : Opts) (query : List W) (h : Hit W) : ℚ :=
  let vectorScore := c.sim query h.vector
  let textScore := match c.textSim with
    | some f => if o.queryText ≠ "" then f o.queryText h.content else 0
    | none => 0
  if textWeight c o > 0 ∧ textScore > 0 then
    vectorScore * (1 - textWeight c o) + textScore * textWeight c o
  else vectorScore

/-- The WHERE clause of `buildSearchQuery` (/repo/pkg/core/store_search.go:311-340): the collection by subselect (no
such collection gives NULL, hence no row), `doc_id` in SQL. -/
def sqlMatch {W : Type} (db : DB W) (o : Opts) (r : Row W) : Bool :=
  (if o.collection ≠ "" then
    match db.collections.find? (fun c => c.name = o.collection) with
    | some c => r.cid = c.id
    | none => false
   else true) &&
  o.filter.all (fun kv => if kv.1 = "doc_id" then r.docID = some kv.2 else true)

/-- `fetchCandidates` (/repo/pkg/core/store_search.go:343-375). -/
def fetchCandidates {W : Type} (db : DB W) (o : Opts) : List (Hit W) :=
  ((db.embeddings.filter (sqlMatch db o)).map (scan db)).filter (fun h => matchesFilter h o.filter)

/-- `opts.TopK <= 0` means 10 (/repo/pkg/core/store_search.go:129-131, 156-158, 432-434). -/
def defaultK (k : Int) : Int := if k ≤ 0 then 10 else k

/-- `scoreCandidates` (/repo/pkg/core/store_search.go:431-478). -/
def scoreCandidates {W : Type} (c : Cfg W) (query : List W) (cands : List (Hit W)) (o : Opts) : List (Hit W) :=
  let scored := cands.map (fun h => { h with score := combine c o query h })
  let kept := if o.threshold > 0 then scored.filter (fun h => h.score ≥ o.threshold) else scored
  let sorted := c.sort kept
  if (sorted.length : Int) > defaultK o.topK then sorted.take (defaultK o.topK).toNat else sorted

/-- `processCandidates` (/repo/pkg/core/store_search.go:193-244); `o.topK` has its default already. -/
def processCandidates {W : Type} (c : Cfg W) (query : List W) (cands : List (Hit W)) (o : Opts) : List (Hit W) :=
  let results := cands.filterMap (fun h =>
    if o.collection ≠ "" ∧ h.collection ≠ o.collection then none
    else if !matchesFilter h o.filter then none
    else
      let s := combine c o query h
      if o.threshold > 0 ∧ s < o.threshold then none else some { h with score := s })
  let sorted := c.sort results
  if (sorted.length : Int) > o.topK then sorted.take o.topK.toNat else sorted

/-- `fetchEmbeddingsByIDs` (/repo/pkg/core/store_search.go:247-289). -/
def fetchByIDs {W : Type} (db : DB W) (ids : List String) : List (Hit W) :=
  (db.embeddings.filter (fun r => r.id ∈ ids)).map (scan db)

/-- `searchLinear` (/repo/pkg/core/store_search.go:182-190). -/
def searchLinear {W : Type} (c : Cfg W) (db : DB W) (query : List W) (o : Opts) : List (Hit W) :=
  scoreCandidates c query (fetchCandidates db o) o

/-- `searchWithHNSW` (/repo/pkg/core/store_search.go:128-152). -/
def searchWithHNSW {W : Type} (c : Cfg W) (db : DB W) (propose : List W → Int → List String) (query : List W)
    (o : Opts) : List (Hit W) :=
  let o := { o with topK := defaultK o.topK }
  let ids := propose query (o.topK * 2)
  if ids.length = 0 then searchLinear c db query o
  else processCandidates c query (fetchByIDs db ids) o

/-- `searchWithIVF` (/repo/pkg/core/store_search.go:155-179). -/
def searchWithIVF {W : Type} (c : Cfg W) (db : DB W) (propose : List W → Int → Option (List String)) (query : List W)
    (o : Opts) : List (Hit W) :=
  let o := { o with topK := defaultK o.topK }
  match propose query (o.topK * 4) with
  | none => searchLinear c db query o
  | some ids =>
    if ids.length = 0 then searchLinear c db query o
    else processCandidates c query (fetchByIDs db ids) o

/-- `ValidateVector` (/repo/internal/encoding/utils.go:121-141), called by `validateSearchInput`
(/repo/pkg/core/store_search.go:292-308). `finite` is false for NaN and the infinities. A nil vector is an empty one. -/
def validateVector {W : Type} (finite : W → Bool) (q : List W) : Bool := !q.isEmpty && q.all finite

/-- The common head of `Search` and `SearchWithFilter` (/repo/pkg/core/store_search.go:16-42, 292-308): closed check, query
adaptation, validation. -/
def prepareQuery {W HI VI : Type} (c : Cfg W) (s : St W HI VI) (query : List W) : Except Err (List W) :=
  if s.closed then .error .closed
  else
    let q : Option (List W) :=
      if s.dim > 0 ∧ query.length ≠ s.dim then c.adapt query query.length s.dim else some query
    match q with
    | none => .error .adaptation
    | some q =>
      if !c.validQuery q then .error .invalidVector
      else if s.dim = 0 then .ok q
      else if q.length ≠ s.dim then .error .invalidVector
      else .ok q

/-- The body shared by `Search` and `SearchWithFilter` (/repo/pkg/core/store_search.go:44-60, 93-109). -/
def serve {W HI VI : Type} (c : Cfg W) (via : Serve W) (s : St W HI VI) (q : List W) (o : Opts) : List (Hit W) :=
  match via with
  | .hnsw p => searchWithHNSW c s.db p q o
  | .ivf p => searchWithIVF c s.db p q o
  | .linear => searchLinear c s.db q o

/-- `Search` (/repo/pkg/core/store_search.go:15-61). -/
def search {W HI VI : Type} (c : Cfg W) (via : Serve W) (s : St W HI VI) (query : List W) (o : Opts) :
    Except Err (List (Hit W)) :=
  match prepareQuery c s query with
  | .error e => .error e
  | .ok q => .ok (serve c via s q o)

/-- `filterByMetadata` (/repo/pkg/core/store_search.go:503-535). Expected values are given in the text form
`compareMetadataValues` reduces them to, since stored values are strings (lines 547-566). -/
def filterByMetadata {W : Type} (hs : List (Hit W)) (filters : Meta) : List (Hit W) :=
  hs.filter (fun h => match h.metadata with
    | none => false
    | some m => filters.all (fun kv => m.lookup kv.1 = some kv.2))

/-- `SearchWithFilter` (/repo/pkg/core/store_search.go:64-125): the filter is applied to the finished top K. -/
def searchWithFilter {W HI VI : Type} (c : Cfg W) (via : Serve W) (s : St W HI VI) (query : List W) (o : Opts)
    (filters : Meta) : Except Err (List (Hit W)) :=
  match search c via s query o with
  | .error e => .error e
  | .ok hs => .ok (if filters.length > 0 then filterByMetadata hs filters else hs)

/-- The WHERE clause of `SearchWithACL` joined by `fetchCandidatesWithSQL`
(/repo/pkg/core/advanced_search.go:35-47, advanced_filter.go:588-601): `public OR member AND c.name = ?` without
parentheses, AND binding tighter; with no principals `public AND c.name = ?`. `acl = none` is SQL NULL. -/
def aclMatch {W : Type} (db : DB W) (principals : List String) (collection : String) (r : Row W) : Bool :=
  let isPublic := r.acl.isNone
  let member := match r.acl with
    | none => false
    | some l => l.any (fun a => a ∈ principals)
  let inColl := collName db r = some collection
  if principals.length > 0 then
    if collection ≠ "" then isPublic || (member && inColl) else isPublic || member
  else
    if collection ≠ "" then isPublic && inColl else isPublic

/-- `scoreAndSort` (/repo/pkg/core/advanced_search.go:212-229). -/
def scoreAndSort {W : Type} (c : Cfg W) (query : List W) (cands : List (Hit W)) (o : Opts) : List (Hit W) :=
  let sorted := c.sort (cands.map (fun h => { h with score := c.sim query h.vector }))
  if o.topK > 0 ∧ (sorted.length : Int) > o.topK then sorted.take o.topK.toNat else sorted

/-- `SearchWithACL` (/repo/pkg/core/advanced_search.go:24-56): `Filter` and `Threshold` are not used. -/
def searchWithACL {W HI VI : Type} (c : Cfg W) (s : St W HI VI) (query : List W) (principals : List String) (o : Opts) :
    Except Err (List (Hit W)) :=
  if s.closed then .error .closed
  else .ok (scoreAndSort c query ((s.db.embeddings.filter (aclMatch s.db principals o.collection)).map (scan s.db)) o)

/-- First loop of the fusion (/repo/pkg/core/advanced_search.go:117-121): `fusedScores[res.ID] = 1/(k+i+1)`. -/
def fuseVector {W : Type} (k : ℚ) : Nat → List (Hit W) → List (Hit W)
  | _, [] => []
  | i, h :: hs => { h with score := 1 / (k + (i + 1)) } :: fuseVector k (i + 1) hs

/-- Second loop (/repo/pkg/core/advanced_search.go:151-184): each fetched row adds `1/(k+rank)` to its id, or joins. -/
def addHit {W : Type} (acc : List (Hit W)) (h : Hit W) (inc : ℚ) : List (Hit W) :=
  if acc.any (fun x => x.id = h.id) then
    acc.map (fun x => if x.id = h.id then { x with score := x.score + inc } else x)
  else acc ++ [{ h with score := inc }]

/-- Rank of a row in the full-text answer, from 1 (/repo/pkg/core/advanced_search.go:92-99). -/
def rankOf (fts : List String) (id : String) : Nat := fts.idxOf id + 1

/-- `HybridSearch` (/repo/pkg/core/advanced_search.go:59-209). `fts` is the full-text answer as row ids, best first, cut
to its LIMIT by the caller of the model; rows that no longer exist are not fetched. The fetch ignores the collection and
the filter. Map iteration order is absorbed by `sort`. -/
def hybridSearch {W HI VI : Type} (c : Cfg W) (via : Serve W) (s : St W HI VI) (query : List W) (fts : List String)
    (o : Opts) (rrfK : ℚ) : Except Err (List (Hit W)) :=
  if s.closed then .error .closed
  else
    match (if query.length > 0 then search c via s query o else .ok []) with
    | .error e => .error e
    | .ok vs =>
      let k := if rrfK = 0 then 60 else rrfK
      let rows := (s.db.embeddings.filter (fun r => r.id ∈ fts)).map (scan s.db)
      let fused := rows.foldl (fun acc h => addHit acc h (1 / (k + rankOf fts h.id))) (fuseVector k 0 vs)
      let sorted := c.sort fused
      .ok (if o.topK > 0 ∧ (sorted.length : Int) > o.topK then sorted.take o.topK.toNat else sorted)

end Verif.Model.Search
