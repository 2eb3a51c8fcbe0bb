import Verif.Model.Hnsw
import Verif.Model.Ivf
import Verif.Base.Assoc

/-!
Model of /repo/pkg/index/multi_index.go: the multi index over any parts, the hybrid HNSW and IVF index, and the adapters.

Simplifications: the two slices of a part's answer are one list of pairs; a part is a value of a state type with the methods of
`VectorIndex` (the same object is not registered twice); random levels and map orders are arguments; the goroutines of a parallel insert
work on different parts, so their order does not matter; `k` and `RerankTopK` are not negative; distances are rationals; `none` is a
panic inside a part.
-/
namespace Verif.MultiIndex
open Verif.Base

abbrev Hit := String × ℚ

/-- `VectorIndex`, multi_index.go:62-67; `ρ` are the random choices and map orders of one call; the flags are the errors. -/
structure Lib (σ V ρ : Type) where
  insert : ρ → σ → String → V → Option (σ × Bool)
  search : σ → V → Nat → Option (List Hit)
  delete : ρ → σ → String → Option (σ × Bool)
  size : σ → Nat

/-- `CombineStrategy`, multi_index.go:45-59; anything else is treated as primary only. -/
inductive Strategy where
  | primaryOnly
  | mergeAll
  | rerank
  | voting
  deriving DecidableEq

/-- `MultiIndex` with its configuration, multi_index.go:20-42. -/
structure Multi (σ : Type) where
  indices : List (String × σ)
  primary : String
  secondary : List String
  strategy : Strategy
  rerankTopK : Nat
  parallel : Bool

variable {σ V ρ : Type}

/-- `AddIndex`, multi_index.go:78-82. -/
def addIndex (m : Multi σ) (n : String) (s : σ) : Multi σ := { m with indices := putA m.indices n s }

/-- The sequential loop of `Insert`, multi_index.go:113-117: it stops at the first error. -/
def insertSeq (L : Lib σ V ρ) (coin : String → ρ) (id : String) (v : V) : List (String × σ) → Option (List (String × σ) × Bool)
  | [] => some ([], false)
  | (n, s) :: ps =>
    match L.insert (coin n) s id v with
    | none => none
    | some (s', true) => some ((n, s') :: ps, true)
    | some (s', false) => (insertSeq L coin id v ps).map (fun r => ((n, s') :: r.1, r.2))

/-- The parallel insert, multi_index.go:89-112: every part is tried, the call fails when one of them does. -/
def insertPar (L : Lib σ V ρ) (coin : String → ρ) (id : String) (v : V) : List (String × σ) → Option (List (String × σ) × Bool)
  | [] => some ([], false)
  | (n, s) :: ps =>
    match L.insert (coin n) s id v with
    | none => none
    | some (s', e) => (insertPar L coin id v ps).map (fun r => ((n, s') :: r.1, e || r.2))

/-- `Insert`, multi_index.go:85-121; `order` is the order in which the map is visited. -/
def insert (L : Lib σ V ρ) (coin : String → ρ) (order : List (String × σ) → List (String × σ)) (m : Multi σ) (id : String) (v : V) :
    Option (Multi σ × Bool) :=
  (if m.parallel then insertPar L coin id v (order m.indices) else insertSeq L coin id v (order m.indices)).map
    (fun r => ({ m with indices := r.1 }, r.2))

/-- The loop of `Delete`, multi_index.go:339-343. -/
def deleteSeq (L : Lib σ V ρ) (coin : String → ρ) (id : String) : List (String × σ) → Option (List (String × σ) × Bool)
  | [] => some ([], false)
  | (n, s) :: ps =>
    match L.delete (coin n) s id with
    | none => none
    | some (s', true) => some ((n, s') :: ps, true)
    | some (s', false) => (deleteSeq L coin id ps).map (fun r => ((n, s') :: r.1, r.2))

/-- `Delete`, multi_index.go:335-345. -/
def delete (L : Lib σ V ρ) (coin : String → ρ) (order : List (String × σ) → List (String × σ)) (m : Multi σ) (id : String) :
    Option (Multi σ × Bool) :=
  (deleteSeq L coin id (order m.indices)).map (fun r => ({ m with indices := r.1 }, r.2))

/-- A candidate of the rerank and voting strategies. -/
structure Vote where
  id : String
  score : ℚ
  count : Nat
  deriving DecidableEq

/-- The choices of one search: the order in which the parts and the result map are visited, and what `sort.Slice` does. -/
structure Env (σ : Type) where
  parts : List (String × σ) → List (String × σ)
  hits : List Hit → List Hit
  votes : List (String × Vote) → List (String × Vote)
  sortHits : List Hit → List Hit
  sortScore : List Vote → List Vote
  sortVotes : List Vote → List Vote

/-- `searchPrimaryOnly`, multi_index.go:143-149. -/
def searchPrimary (L : Lib σ V ρ) (m : Multi σ) (q : V) (k : Nat) : Option (List Hit) :=
  match getA m.indices m.primary with
  | none => some []
  | some s => L.search s q k

/-- multi_index.go:164-166. -/
def keepMin (r : List Hit) (h : Hit) : List Hit :=
  match getA r h.1 with
  | none => putA r h.1 h.2
  | some d => if h.2 < d then putA r h.1 h.2 else r

/-- The results of all parts, in the order the parts are visited. -/
def allHits (L : Lib σ V ρ) (E : Env σ) (m : Multi σ) (q : V) (k : Nat) : Option (List Hit) :=
  (allSome (fun p => L.search p.2 q k) (E.parts m.indices)).map List.flatten

/-- `searchMergeAll`, multi_index.go:152-194. -/
def searchMerge (L : Lib σ V ρ) (E : Env σ) (m : Multi σ) (q : V) (k : Nat) : Option (List Hit) :=
  (allHits L E m q k).map (fun hs => (E.sortHits (E.hits (hs.foldl keepMin []))).take k)

/-- multi_index.go:230-235: only candidates are updated. -/
def addScore (r : List (String × Vote)) (h : Hit) : List (String × Vote) :=
  match getA r h.1 with
  | none => r
  | some v => putA r h.1 { v with score := v.score + h.2, count := v.count + 1 }

/-- The answers of the secondary indices that exist, multi_index.go:227-237. -/
def secondaryHits (L : Lib σ V ρ) (m : Multi σ) (q : V) (k : Nat) : Option (List Hit) :=
  (allSome (fun n => match getA m.indices n with | none => some [] | some s => L.search s q k) m.secondary).map List.flatten

/-- multi_index.go:242-244. -/
def average (v : Vote) : Vote := if v.count > 0 then { v with score := v.score / v.count } else v

def asHit (v : Vote) : Hit := (v.id, v.score)

/-- The candidates with no score yet, multi_index.go:221-224. -/
def unscored (cands : List Hit) : List (String × Vote) := cands.foldl (fun r h => putA r h.1 ⟨h.1, 0, 0⟩) []

/-- `searchWithRerank`, multi_index.go:197-266. -/
def searchRerank (L : Lib σ V ρ) (E : Env σ) (m : Multi σ) (q : V) (k : Nat) : Option (List Hit) :=
  match getA m.indices m.primary with
  | none => some []
  | some s =>
    let ck := if m.rerankTopK > 0 then m.rerankTopK else k * 2
    match L.search s q ck with
    | none => none
    | some [] => some []
    | some cands =>
      (secondaryHits L m q ck).map (fun hs =>
        ((E.sortScore ((E.votes (hs.foldl addScore (unscored cands))).map (fun e => average e.2))).take k).map asHit)

/-- multi_index.go:282-295. -/
def addVote (r : List (String × Vote)) (h : Hit) : List (String × Vote) :=
  match getA r h.1 with
  | some v => putA r h.1 { v with score := v.score + h.2, count := v.count + 1 }
  | none => putA r h.1 ⟨h.1, h.2, 1⟩

/-- multi_index.go:306. -/
def bonus (v : Vote) : Vote := { v with score := v.score / v.count - v.count / 10 }

/-- `searchWithVoting`, multi_index.go:269-332. -/
def searchVoting (L : Lib σ V ρ) (E : Env σ) (m : Multi σ) (q : V) (k : Nat) : Option (List Hit) :=
  (allHits L E m q (k * 2)).map (fun hs =>
    ((E.sortVotes ((E.votes (hs.foldl addVote [])).map (fun e => bonus e.2))).take k).map asHit)

/-- `Search`, multi_index.go:124-140. -/
def search (L : Lib σ V ρ) (E : Env σ) (m : Multi σ) (q : V) (k : Nat) : Option (List Hit) :=
  match m.strategy with
  | .primaryOnly => searchPrimary L m q k
  | .mergeAll => searchMerge L E m q k
  | .rerank => searchRerank L E m q k
  | .voting => searchVoting L E m q k

/-- `Size`, multi_index.go:348-356. -/
def size (L : Lib σ V ρ) (m : Multi σ) : Nat := ((getA m.indices m.primary).map L.size).getD 0

/-! ### The adapters -/

/-- A random level and the order in which a map is visited. -/
structure Coin (V : Type) where
  level : Nat
  order : List (Hnsw.Node V) → List (Hnsw.Node V)

def hitOf (i : Hnsw.Item) : Hit := (i.id, i.dist)

/-- `HNSWAdapter.Search`, multi_index.go:514-520, with the default candidate list. -/
def adapterEf (k : Nat) : Nat := if 50 < k then k * 2 else 50

/-- `NewHNSWAdapter`, multi_index.go:506-511: the dimension and M are passed on as `M` and `efConstruction`. -/
def newHnswAdapter (V : Type) (dimension M : Nat) : Hnsw.Index V := Hnsw.new V dimension M

/-- `HNSWAdapter`, multi_index.go:500-525. -/
def hnswLib (E : Hnsw.Env V) : Lib (Hnsw.Index V) V (Coin V) where
  insert c h id v := Hnsw.insert E h id v c.level
  search h q k := (Hnsw.search E h q k (adapterEf k)).map (fun l => l.map hitOf)
  delete c h id := some (Hnsw.delete c.order h id)
  size := Hnsw.size

/-- A call on the IVF index: an error leaves it as it is. -/
def settle (ix : Ivf.Index V) : Except Ivf.Fail (Ivf.Index V) → Option (Ivf.Index V × Bool)
  | .ok ix' => some (ix', false)
  | .error .err => some (ix, true)
  | .error .panic => none

/-- `IVFAdapter`, multi_index.go:528-548: the error of a search is dropped. -/
def ivfSearch (E : Ivf.Env V) (ix : Ivf.Index V) (q : V) (k : Nat) : Option (List Hit) :=
  match Ivf.search E ix q k with
  | .ok l => some l
  | .error .err => some []
  | .error .panic => none

def ivfLib (E : Ivf.Env V) : Lib (Ivf.Index V) V (Coin V) where
  insert _ ix id v := settle ix (Ivf.add E ix id v)
  search := ivfSearch E
  delete _ ix id := settle ix (Ivf.delete ix id)
  size := Ivf.size

/-- Parts of both kinds. -/
def eitherLib {τ : Type} (A : Lib σ V ρ) (B : Lib τ V ρ) : Lib (σ ⊕ τ) V ρ where
  insert c s id v :=
    match s with
    | .inl a => (A.insert c a id v).map (fun r => (.inl r.1, r.2))
    | .inr b => (B.insert c b id v).map (fun r => (.inr r.1, r.2))
  search s q k :=
    match s with
    | .inl a => A.search a q k
    | .inr b => B.search b q k
  delete c s id :=
    match s with
    | .inl a => (A.delete c a id).map (fun r => (.inl r.1, r.2))
    | .inr b => (B.delete c b id).map (fun r => (.inr r.1, r.2))
  size s :=
    match s with
    | .inl a => A.size a
    | .inr b => B.size b

/-! ### The hybrid index -/

/-- `HybridIndex`, multi_index.go:378-383; the weight is never used. -/
structure Hybrid (V : Type) where
  hnsw : Hnsw.Index V
  ivf : Ivf.Index V

/-- `NewHybridIndex`, multi_index.go:386-392. -/
def newHybrid (V : Type) (dimension hnswM ivfCentroids : Nat) : Hybrid V := ⟨Hnsw.new V hnswM 200, Ivf.new V dimension ivfCentroids⟩

/-- `Train`, multi_index.go:395-397. -/
def Hybrid.train (F : Ivf.Env V) (h : Hybrid V) (vs : List V) : Option (Hybrid V × Bool) :=
  (settle h.ivf (Ivf.train F h.ivf vs)).map (fun r => ({ h with ivf := r.1 }, r.2))

/-- `Insert`, multi_index.go:400-408. -/
def Hybrid.insert (E : Hnsw.Env V) (F : Ivf.Env V) (h : Hybrid V) (id : String) (v : V) (level : Nat) : Option (Hybrid V × Bool) :=
  match Hnsw.insert E h.hnsw id v level with
  | none => none
  | some (g, true) => some ({ h with hnsw := g }, true)
  | some (g, false) => (settle h.ivf (Ivf.add F h.ivf id v)).map (fun r => (⟨g, r.1⟩, r.2))

/-- The HNSW results that are added, multi_index.go:438-449. -/
def fill (E : Hnsw.Env V) (g : Hnsw.Index V) (q : V) (k : Nat) (seen : List String) : List Hnsw.Item → List Hit → List Hit
  | [], r => r
  | i :: is, r =>
    if i.id ∉ seen ∧ r.length < k then
      match Hnsw.getNode g i.id with
      | some n => fill E g q k seen is (r ++ [(i.id, E.dist q n.vec)])
      | none => fill E g q k seen is r
    else fill E g q k seen is r

/-- `Search`, multi_index.go:411-470. -/
def Hybrid.search (E : Hnsw.Env V) (F : Ivf.Env V) (sort : List Hit → List Hit) (h : Hybrid V) (q : V) (k : Nat) : Option (List Hit) :=
  match Hnsw.search E h.hnsw q (k * 2) 50, ivfSearch F h.ivf q k with
  | some hs, some vs => some ((sort (fill E h.hnsw q k (vs.map Prod.fst) hs vs)).take k)
  | _, _ => none

/-- `Delete`, multi_index.go:473-483: the error is dropped and the IVF part is left alone. -/
def Hybrid.delete (h : Hybrid V) (id : String) (order : List (Hnsw.Node V) → List (Hnsw.Node V)) : Hybrid V × Bool :=
  ({ h with hnsw := (Hnsw.delete order h.hnsw id).1 }, false)

/-- `Size`, multi_index.go:486-488. -/
def Hybrid.size (h : Hybrid V) : Nat := Hnsw.size h.hnsw

end Verif.MultiIndex
