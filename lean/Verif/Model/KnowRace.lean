import Verif.Model.Knowledge
import Verif.Base.Solo

/-!
Calls of the knowledge API from several goroutines. `DB` of /repo/pkg/cortexdb has no lock of its own: each call is a sequence of
separate statements, reads and writes (/repo/pkg/cortexdb/knowledge_api.go:21-187, 260-271, 378-424,
/repo/pkg/cortexdb/graphrag.go:110-358), and the statements of different calls mix freely.

Simplifications: those of `Verif.Model.Knowledge`; the two places that look a document up and then create or change it
(graphrag.go:588-604, knowledge_api.go:402-424) are one statement each.
-/
namespace Verif.Knowledge
open Verif.Base Verif.Rag

/-- What is left of a call: nothing, a write, or a read of an item whose answer decides the rest. -/
inductive Prog where
  | done
  | act (f : Step) (k : Prog)
  | look (id : Text) (k : Option Doc × List Row → Prog)

/-- One statement of a goroutine. -/
def adv (s : State) : Prog → State × Prog
  | .done => (s, .done)
  | .act f k => (f s, k)
  | .look id k => (s, k (getDoc s id, chunksOf s id))

/-- Writes one after the other. -/
def Prog.acts : List Step → Prog → Prog
  | [], k => k
  | f :: fs, k => .act f (Prog.acts fs k)

/-- `cleanupKnowledgeArtifacts`, knowledge_api.go:378-400: schema, read the chunks, delete the nodes, delete the document. -/
def cleanupProg (fk : Bool) (id : Text) (k : Prog) : Prog :=
  .act _root_.id (.look id (fun v => .act (dropNodes (docNodeId id :: v.2.map (·.id))) (.act (dropDoc fk id) k)))

/-- Ingest and write the record, knowledge_api.go:42-60. -/
def storeProg (sp : Char → Bool) (o : IngestOpts) (d : Doc) : Prog :=
  .acts (ingestSteps sp o d.id d.title d.content) (.act (upsertRecord d) .done)

inductive Call where
  | save (q : SaveReq)
  | update (q : UpdateReq)
  | delete (id : Text)
  | ingest (o : IngestOpts) (id title content : Text)

/-- The statements of a call: `SaveKnowledge` knowledge_api.go:21-72 (the document is looked up first; whether to clean up and
which version to write is decided by that answer), `UpdateKnowledge` 75-187, `DeleteKnowledge` 260-271, `InsertGraphDocument`
graphrag.go:110-358. -/
def progOf (sp : Char → Bool) (fk : Bool) : Call → Prog
  | .save q =>
    if q.id = [] then .done
    else if trim sp q.content = [] then .done
    else .look q.id (fun v => match v.1 with
      | some d => cleanupProg fk q.id (storeProg sp q.opts ⟨q.id, q.title, q.content, d.version + 1⟩)
      | none => storeProg sp q.opts ⟨q.id, q.title, q.content, 1⟩)
  | .update q =>
    if q.id = [] then .done
    else .look q.id (fun v => match v.1 with
      | none => .done
      | some d => match q.content with
        | some c => if trim sp c = [] then .done
          else cleanupProg fk q.id (storeProg sp q.opts ⟨q.id, q.title.getD d.title, c, d.version + 1⟩)
        | none =>
          if q.title.isSome then cleanupProg fk q.id (storeProg sp q.opts ⟨q.id, q.title.getD d.title, d.content, d.version + 1⟩)
          else .act (upsertRecord ⟨q.id, q.title.getD d.title, d.content, d.version + 1⟩) .done)
  | .delete id =>
    if id = [] then .done
    else .look id (fun v => match v.1 with
      | none => .done
      | some _ => cleanupProg fk id .done)
  | .ingest o id t c =>
    if id = [] then .done
    else if trim sp c = [] then .done
    else if ingestChunks sp c o = [] then .done
    else .acts (ingestSteps sp o id t c) .done

/-- The calls run in goroutines of their own; `sched` names the goroutine of each statement. -/
def race (sp : Char → Bool) (fk : Bool) (s : State) (calls : List Call) (sched : List Nat) : State × List Prog :=
  runAll adv (s, calls.map (progOf sp fk)) sched

/-- Every call has returned. -/
def Returned (ps : List Prog) : Prop := ∀ p ∈ ps, p = .done

end Verif.Knowledge
