import Mathlib.Algebra.Order.Ring.Rat

/-!
# Who owns a vector: slices that callers and indexes share

A Go slice is a reference. The model has a memory of the caller's buffers, and the indexes hold either a copy of a vector
or the buffer it was passed in. Only what an index holds is modelled here, not how it is searched (that is in the models
of the indexes); dimension checks come first and are left out. Levels, links and buckets are computed from the contents
at the time of the call and are left out too.
-/
namespace Verif.Alias

/-- A stored vector: a copy, or the buffer of the caller. -/
inductive Cell where
  | own (v : List ℚ)
  | ref (a : Nat)
  deriving DecidableEq, Repr

/-- Where vectors are kept. -/
inductive Kind where
  /-- table `embeddings`: the vector is encoded to bytes (pkg/core/store_crud.go:100-104) -/
  | table
  /-- `FlatIndex` (pkg/index/flat.go:43-62); what normalisation does, the identity without it -/
  | flat (norm : List ℚ → List ℚ)
  /-- `HNSW` (pkg/index/hnsw.go:174-215); the quantizer: the vector a code stands for, or failure -/
  | hnsw (quant : List ℚ → Option (List ℚ))
  /-- `IVFIndex` (pkg/index/ivf.go:107-133) -/
  | ivf
  /-- `LSHIndex` (pkg/index/lsh.go:96-114) -/
  | lsh
  /-- `SimpleHNSW` of the graph (pkg/graph/graph_hnsw.go:55-59) -/
  | graph

/-- The buffers by address, and the entries: id, vector, marked deleted (HNSW only). -/
structure State where
  mem : Nat → List ℚ
  entries : List (String × Cell × Bool)

/-- What is kept of the buffer at `a`: flat.go:52-59 copies; hnsw.go:184-197 keeps the slice unless it could be encoded;
ivf.go:129, lsh.go:105 and graph_hnsw.go:59 keep the slice. -/
def keep (k : Kind) (mem : Nat → List ℚ) (a : Nat) : Cell :=
  match k with
  | .table => .own (mem a)
  | .flat norm => .own (norm (mem a))
  | .hnsw quant =>
    match quant (mem a) with
    | some v => .own v
    | none => .ref a
  | .ivf => .ref a
  | .lsh => .ref a
  | .graph => .ref a

/-- The entries after an insertion: HNSW refuses an id it has (hnsw.go:178-180), IVF appends (ivf.go:129-130), the others
replace. -/
def insertEntry (k : Kind) (es : List (String × Cell × Bool)) (id : String) (c : Cell) : List (String × Cell × Bool) :=
  match k with
  | .hnsw _ => if es.any (fun e => e.1 = id) then es else es ++ [(id, c, false)]
  | .ivf => es ++ [(id, c, false)]
  | _ => es.filter (fun e => e.1 ≠ id) ++ [(id, c, false)]

/-- The entries after a deletion: HNSW marks (hnsw.go:484-506), the others remove. -/
def deleteEntry (k : Kind) (es : List (String × Cell × Bool)) (id : String) : List (String × Cell × Bool) :=
  match k with
  | .hnsw _ => es.map (fun e => if e.1 = id then (e.1, e.2.1, true) else e)
  | _ => es.filter (fun e => e.1 ≠ id)

/-- What happens: the caller fills a buffer, or calls the index with a buffer or an id. -/
inductive Op where
  | fill (a : Nat) (v : List ℚ)
  | insert (id : String) (a : Nat)
  | delete (id : String)
  deriving DecidableEq, Repr

def step (k : Kind) (s : State) : Op → State
  | .fill a v => { s with mem := fun b => if b = a then v else s.mem b }
  | .insert id a => { s with entries := insertEntry k s.entries id (keep k s.mem a) }
  | .delete id => { s with entries := deleteEntry k s.entries id }

def run (k : Kind) (s : State) (ops : List Op) : State := ops.foldl (step k) s

/-- The vector an entry stands for when the index is searched. -/
def value (mem : Nat → List ℚ) : Cell → List ℚ
  | .own v => v
  | .ref a => mem a

/-- The index as a search finds it: ids and vectors of the entries that are not marked deleted. -/
def view (s : State) : List (String × List ℚ) :=
  (s.entries.filter (fun e => !e.2.2)).map (fun e => (e.1, value s.mem e.2.1))

/-! ### The embedding cache -/

/-- `CachedEmbedder` (pkg/semantic-router/embedder.go:60-86): the texts with the slices returned for them; addresses from
`next` on are unused. -/
structure Cache where
  mem : Nat → List ℚ
  cache : List (String × Nat)
  next : Nat

/-- `Embed` (embedder.go:73-86), for an embedder that returns a new slice: the slice. -/
def embed (emb : String → List ℚ) (s : Cache) (text : String) : Cache × Nat :=
  match s.cache.find? (fun e => e.1 = text) with
  | some e => (s, e.2)
  | none => (⟨fun b => if b = s.next then emb text else s.mem b, s.cache ++ [(text, s.next)], s.next + 1⟩, s.next)

/-- The caller writes into a slice. -/
def write (s : Cache) (a : Nat) (v : List ℚ) : Cache := { s with mem := fun b => if b = a then v else s.mem b }

end Verif.Alias
