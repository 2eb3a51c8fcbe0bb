import Verif.Model.Store

/-!
The text operations of `DB` and `Quick` (/repo/pkg/cortexdb/cortexdb.go) on top of the record store.

Simplifications: the embedder is a pair of functions, `none` is an error; contexts and error texts are left out. The order
in which a Go map is visited is the order of the list that stands for it. `generateID` (a random UUID, line 275-277) is the
argument `id` of the operations that draw one.
-/
namespace Verif.Facade
open Verif.Model.Store

/-- `Embedder` (/repo/pkg/cortexdb/embedder.go). A vector may be a nil slice. -/
structure Embedder (W : Type) where
  embed : String → Option (Option (List W))
  embedBatch : List String → Option (List (Option (List W)))

/-- Outcome of a text operation. -/
inductive Out where
  | ok | noEmbedder | emptyText | embedding | panic
  | store (e : Err)
  deriving DecidableEq, Repr

def ofStore : Model.Store.Out → Out
  | .ok => .ok
  | .err e => .store e

variable {W HI VI : Type}

/-- `InsertText`, cortexdb.go:285-306. -/
def insertText (env : Env W HI VI) (emb : Option (Embedder W)) (s : St W HI VI) (fk fault : Bool) (id text : String)
    (md : Option Meta) : St W HI VI × Out :=
  match emb with
  | none => (s, .noEmbedder)
  | some E =>
    if text = "" then (s, .emptyText)
    else
      match E.embed text with
      | none => (s, .embedding)
      | some v =>
        let r := upsert env s fk fault { id := id, vector := v, content := text, metadata := md }
        (r.1, ofStore r.2)

/-- `vectors[i]` for every id, cortexdb.go:335-342: `none` is the index out of range. -/
def pair (md : Option Meta) : List (String × String) → List (Option (List W)) → Option (List (Emb W))
  | [], _ => some []
  | _ :: _, [] => none
  | (id, text) :: l, v :: vs =>
    (pair md l vs).map (fun es => { id := id, vector := v, content := text, metadata := md } :: es)

/-- `InsertTextBatch`, cortexdb.go:310-345. -/
def insertTextBatch (env : Env W HI VI) (emb : Option (Embedder W)) (s : St W HI VI) (fk : Bool) (fault : Option Nat)
    (texts : List (String × String)) (md : Option Meta) : St W HI VI × Out :=
  match emb with
  | none => (s, .noEmbedder)
  | some E =>
    let l := texts.filter (fun p => p.2 ≠ "")
    if l.length = 0 then (s, .ok)
    else
      match E.embedBatch (l.map Prod.snd) with
      | none => (s, .embedding)
      | some vs =>
        match pair md l vs with
        | none => (s, .panic)
        | some es =>
          let r := upsertBatch env s fk fault es
          (r.1, ofStore r.2)

/-- `Quick.AddToCollection`, cortexdb.go:195-206; `Quick.Add` (190-192) is the empty collection. The id is returned in
any case. -/
def quickAdd (env : Env W HI VI) (s : St W HI VI) (fk fault : Bool) (id collection : String) (vector : Option (List W))
    (content : String) : St W HI VI × String × Out :=
  let r := upsert env s fk fault { id := id, collection := collection, vector := vector, content := content }
  (r.1, id, ofStore r.2)

/-- `Quick.AddTextToCollection`, cortexdb.go:232-254; `Quick.AddText` (226-228) is the empty collection. -/
def quickAddText (env : Env W HI VI) (emb : Option (Embedder W)) (s : St W HI VI) (fk fault : Bool)
    (id collection text : String) (md : Option Meta) : St W HI VI × String × Out :=
  match emb with
  | none => (s, "", .noEmbedder)
  | some E =>
    match E.embed text with
    | none => (s, "", .embedding)
    | some v =>
      let r := upsert env s fk fault
        { id := id, collection := collection, vector := v, content := text, metadata := md }
      (r.1, id, ofStore r.2)

/-- The index kinds of `core.IndexType` (/repo/pkg/core/embedding.go:131-140). -/
inductive IndexType where
  | hnsw | ivf | flat | other
  deriving DecidableEq, Repr

/-- The part of `core.Config` that `Open` fills in (cortexdb.go:52-73) and `Info` reports. `sim` names the similarity. -/
structure Config where
  path : String
  dim : Nat
  index : IndexType
  sim : String
  hnswEnabled : Bool
  ivfEnabled : Bool
  deriving DecidableEq, Repr

/-- The configuration of `Open`, cortexdb.go:52-73; the defaults have both indexes off (/repo/pkg/core/embedding.go:62-87). -/
def openConfig (path : String) (dim : Nat) (index : IndexType) (sim : String) : Config :=
  { path := path, dim := dim, index := index, sim := sim
    hnswEnabled := if index = .hnsw then true else false
    ivfEnabled := if index = .ivf then true else false }

/-- `DBInfo`, cortexdb.go:111-121 (the fields modelled). -/
structure Info where
  path : String
  dim : Nat
  index : String
  sim : String
  deriving DecidableEq, Repr

/-- `Info`, cortexdb.go:126-167: the name of the similarity is a constant. -/
def info (c : Config) : Info :=
  { path := c.path, dim := c.dim
    index := match c.index with
      | .hnsw => "HNSW"
      | .ivf => "IVF"
      | .flat => "Flat"
      | .other => "Unknown"
    sim := "cosine" }

end Verif.Facade
