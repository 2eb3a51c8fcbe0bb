import Verif.Model.Io
import Verif.Thm.StoreProps
import Mathlib.Data.List.TakeWhile
import Mathlib.Tactic.Common

/-!
# Dump and Load: C22, C23, C122
-/

namespace Verif.Io

open Verif.Model.Store Verif.Thm.Store

variable {W HI VI : Type}

/-! ## Specification -/

/-- What is counted for one input record. -/
inductive Verdict where
  | imported | skipped | failed
  deriving DecidableEq, Repr

/-- The records of an input, one after the other: `present` ones are skipped when that was asked
for, the others are written with `Upsert`, and the verdict says what became of them. -/
inductive Processed (env : Env W HI VI) (o : LoadOpts) :
    St W HI VI → List (Item W) → List Verdict → St W HI VI → Prop
  | nil (s) : Processed env o s [] [] s
  | badType {s items vs s'} : Processed env o s items vs s' →
      Processed env o s (.badType :: items) (.failed :: vs) s'
  | skipped {s e items vs s' r} : o.skipExisting = true → getByID s e.id = .ok r →
      Processed env o s items vs s' → Processed env o s (.value e :: items) (.skipped :: vs) s'
  | imported {s e items vs s' fk fault} : (upsert env s fk fault e).2 = .ok →
      Processed env o (upsert env s fk fault e).1 items vs s' →
      Processed env o s (.value e :: items) (.imported :: vs) s'
  | failed {s e items vs s' fk fault er} : (upsert env s fk fault e).2 = .err er →
      Processed env o (upsert env s fk fault e).1 items vs s' →
      Processed env o s (.value e :: items) (.failed :: vs) s'

/-- The counters agree with the verdicts. -/
def Agrees (st : Stats) (vs : List Verdict) : Prop :=
  st.imported = vs.count .imported ∧ st.skipped = vs.count .skipped ∧ st.failed = vs.count .failed

/-- A record as it comes back from an export: without its access list, and with nil for an empty
metadata map. -/
def exported (r : Rec W) : Rec W :=
  { r with acl := [], metadata := if r.metadata = some [] then none else r.metadata }

/-- The target of a load is able to take over the records: it is open and empty, its dimension is
that of all the records or not yet known, it has the collections by name and, if foreign keys are
enforced, the documents. -/
structure Accepts (src : DB W) (t : St W HI VI) (fk : Bool) (n : Nat) : Prop where
  isOpen : t.closed = false
  wf : WF t.db
  empty : t.db.embeddings = []
  dim : t.dim = 0 ∨ t.dim = n
  small : n ≤ 2147483647
  lengths : ∀ r ∈ src.embeddings, r.vector.length = n
  colls : ∀ r ∈ src.embeddings, ∃ c ∈ src.collections, c.id = r.cid ∧ c.name ≠ "" ∧
    ∃ c' ∈ t.db.collections, c'.name = c.name
  docs : fk = true → ∀ r ∈ src.embeddings, ∀ d, r.docID = some d → ∃ x ∈ t.db.documents, x.id = d

/-! ## C23 -/

theorem importOne_cases (env : Env W HI VI) (o : LoadOpts) (c : Choice) (s : St W HI VI) (e : Emb W) :
    (o.skipExisting = true ∧ (∃ r, getByID s e.id = .ok r) ∧ importOne env o c s e = (s, .ok true)) ∨
    (∃ s', upsert env s c.fk c.fault e = (s', .ok) ∧ importOne env o c s e = (s', .ok false)) ∨
    (∃ s' er, upsert env s c.fk c.fault e = (s', .err er) ∧ importOne env o c s e = (s', .error er)) := by
  unfold importOne
  by_cases h : (o.skipExisting && existing c s e.id) = true
  · left
    simp only [Bool.and_eq_true] at h
    refine ⟨h.1, ?_, ?_⟩
    · have h2 := h.2
      unfold existing at h2
      split at h2
      · rename_i r hr; exact ⟨r, hr⟩
      · simp at h2
    · simp [h.1, h.2]
  · right
    rw [if_neg h]
    rcases hu : upsert env s c.fk c.fault e with ⟨s', _ | er⟩
    · left; exact ⟨s', rfl, by simp⟩
    · right; exact ⟨s', er, rfl, by simp⟩

theorem loopLines_run (env : Env W HI VI) (o : LoadOpts) (ch : Nat → Choice) :
    ∀ (items : List (Item W)) (n : Nat) (s : St W HI VI) (st : Stats), (.broken : Item W) ∉ items →
    ∃ s' vs, loopLines env o ch (items.length + 1) n items s st
        = some (s', ⟨st.imported + vs.count .imported, st.skipped + vs.count .skipped,
            st.failed + vs.count .failed⟩) ∧
      Processed env o s items vs s'
  | [], n, s, st, _ => ⟨s, [], by simp [loopLines], .nil s⟩
  | .broken :: items, n, s, st, h => by simp at h
  | .badType :: items, n, s, st, h => by
    obtain ⟨s', vs, hrun, hp⟩ := loopLines_run env o ch items (n + 1) s { st with failed := st.failed + 1 }
      (fun hm => h (by simp [hm]))
    refine ⟨s', .failed :: vs, ?_, .badType hp⟩
    simp only [List.length_cons, loopLines]
    rw [hrun]
    simp
    omega
  | .value e :: items, n, s, st, h => by
    obtain ⟨s', vs, hrun, hp⟩ := loopLines_run env o ch items (n + 1) (importOne env o (ch n) s e).1
      (tally st (importOne env o (ch n) s e).2) (fun hm => h (by simp [hm]))
    have hl : loopLines env o ch ((Item.value e :: items).length + 1) n (.value e :: items) s st
        = loopLines env o ch (items.length + 1) (n + 1) items (importOne env o (ch n) s e).1
            (tally st (importOne env o (ch n) s e).2) := rfl
    rw [hl, hrun]
    rcases importOne_cases env o (ch n) s e with ⟨h1, ⟨r, hr⟩, h2⟩ | ⟨s1, h1, h2⟩ | ⟨s1, er, h1, h2⟩
    · rw [h2] at hp ⊢
      refine ⟨s', .skipped :: vs, ?_, .skipped h1 hr hp⟩
      simp [tally]
      omega
    · rw [h2] at hp ⊢
      refine ⟨s', .imported :: vs, ?_, .imported (by rw [h1]) (by rw [h1]; exact hp)⟩
      simp [tally]
      omega
    · rw [h2] at hp ⊢
      refine ⟨s', .failed :: vs, ?_, .failed (by rw [h1]) (by rw [h1]; exact hp)⟩
      simp [tally]
      omega

theorem processed_length {env : Env W HI VI} {o : LoadOpts} {s s' : St W HI VI} {items : List (Item W)}
    {vs : List Verdict} (h : Processed env o s items vs s') : vs.length = items.length := by
  induction h <;> simp_all

theorem count_verdicts (vs : List Verdict) :
    vs.count .imported + vs.count .skipped + vs.count .failed = vs.length := by
  induction vs with
  | nil => rfl
  | cons v vs ih => cases v <;> simp <;> omega

/-- **C23 (partial).** On every JSON lines input that has no unreadable text, whatever the shapes
of its values and the failures of the storage layer, `Load` terminates, and it counts every value
exactly once: as skipped when the record was present, as imported when it was written, as failed
otherwise. -/
theorem C23_lines_partial (env : Env W HI VI) (o : LoadOpts) (ch : Nat → Choice) (s : St W HI VI)
    (file : List (Item W)) (hopen : s.closed = false) (hb : (.broken : Item W) ∉ file) :
    ∃ s' st vs, loadLines env o ch (file.length + 1) s file = some (s', .ok st) ∧
      Processed env o s file vs s' ∧ Agrees st vs ∧
      st.imported + st.skipped + st.failed = file.length := by
  obtain ⟨s', vs, hrun, hp⟩ := loopLines_run env o ch file 0 s {} hb
  refine ⟨s', ⟨vs.count .imported, vs.count .skipped, vs.count .failed⟩, vs, ?_, hp, ⟨rfl, rfl, rfl⟩, ?_⟩
  · simp [loadLines, hopen, hrun]
  · simp only
    rw [count_verdicts, processed_length hp]

example : (.broken : Item Nat) ∉ ([.value Verif.Thm.StoreProps.embA, .badType] : List (Item Nat)) := by decide

/-- **C23, violated.** On every input with text that is not JSON, is cut off or cannot be read,
`Load` never returns, however long it runs. -/
theorem C23_broken_violated (env : Env W HI VI) (o : LoadOpts) (ch : Nat → Choice) :
    ∀ (fuel n : Nat) (items : List (Item W)) (s : St W HI VI) (st : Stats), (.broken : Item W) ∈ items →
    loopLines env o ch fuel n items s st = none
  | 0, _, _, _, _, _ => rfl
  | fuel + 1, n, [], s, st, h => by simp at h
  | fuel + 1, n, .broken :: rest, s, st, h => C23_broken_violated env o ch fuel (n + 1) _ s _ (by simp)
  | fuel + 1, n, .badType :: rest, s, st, h => by
    simp only [loopLines]
    exact C23_broken_violated env o ch fuel (n + 1) _ s _ (by simpa using h)
  | fuel + 1, n, .value e :: rest, s, st, h => by
    simp only [loopLines]
    exact C23_broken_violated env o ch fuel (n + 1) _ _ _ (by simpa using h)

/-- **C23, violated.** … so the call as a whole does not return on an open store. -/
theorem C23_load_hangs_violated (env : Env W HI VI) (o : LoadOpts) (ch : Nat → Choice) (s : St W HI VI)
    (file : List (Item W)) (hopen : s.closed = false) (hb : (.broken : Item W) ∈ file) (fuel : Nat) :
    loadLines env o ch fuel s file = none := by
  simp [loadLines, hopen, C23_broken_violated env o ch fuel 0 file s {} hb]

/-- Elements as items. -/
def Elem.toItem : Elem W → Item W
  | .record e => .value e
  | .null => .badType

theorem loopArray_run (env : Env W HI VI) (o : LoadOpts) (ch : Nat → Choice) :
    ∀ (es : List (Elem W)) (n : Nat) (s : St W HI VI) (st : Stats), (.null : Elem W) ∉ es →
    ∃ s' vs, loopArray env o ch n es s st
        = (s', .ok ⟨st.imported + vs.count .imported, st.skipped + vs.count .skipped,
            st.failed + vs.count .failed⟩) ∧
      Processed env o s (es.map Elem.toItem) vs s'
  | [], n, s, st, _ => ⟨s, [], by simp [loopArray], .nil s⟩
  | .null :: es, n, s, st, h => by simp at h
  | .record e :: es, n, s, st, h => by
    obtain ⟨s', vs, hrun, hp⟩ := loopArray_run env o ch es (n + 1) (importOne env o (ch n) s e).1
      (tally st (importOne env o (ch n) s e).2) (fun hm => h (by simp [hm]))
    simp only [loopArray]
    rw [hrun]
    rcases importOne_cases env o (ch n) s e with ⟨h1, ⟨r, hr⟩, h2⟩ | ⟨s1, h1, h2⟩ | ⟨s1, er, h1, h2⟩
    · rw [h2] at hp ⊢
      refine ⟨s', .skipped :: vs, ?_, .skipped h1 hr hp⟩
      simp [tally]
      omega
    · rw [h2] at hp ⊢
      refine ⟨s', .imported :: vs, ?_, .imported (by rw [h1]) (by rw [h1]; exact hp)⟩
      simp [tally]
      omega
    · rw [h2] at hp ⊢
      refine ⟨s', .failed :: vs, ?_, .failed (by rw [h1]) (by rw [h1]; exact hp)⟩
      simp [tally]
      omega

/-- **C23 (partial), JSON.** Loading a JSON document counts each of its records exactly once when
none of them is `null`. -/
theorem C23_array_partial (env : Env W HI VI) (o : LoadOpts) (ch : Nat → Choice) (s : St W HI VI)
    (es : List (Elem W)) (hopen : s.closed = false) (hb : (.null : Elem W) ∉ es) :
    ∃ s' st vs, loadArray env o ch s (some es) = (s', .ok st) ∧
      Processed env o s (es.map Elem.toItem) vs s' ∧ Agrees st vs ∧
      st.imported + st.skipped + st.failed = es.length := by
  obtain ⟨s', vs, hrun, hp⟩ := loopArray_run env o ch es 0 s {} hb
  refine ⟨s', ⟨vs.count .imported, vs.count .skipped, vs.count .failed⟩, vs, ?_, hp, ⟨rfl, rfl, rfl⟩, ?_⟩
  · simp [loadArray, hopen, hrun]
  · simp only
    rw [count_verdicts, processed_length hp]
    simp

/-- **C23.** A JSON file that does not decode is reported and changes nothing. -/
theorem C23_array_undecodable (env : Env W HI VI) (o : LoadOpts) (ch : Nat → Choice) (s : St W HI VI)
    (hopen : s.closed = false) : loadArray env o ch s none = (s, .err .io) := by
  simp [loadArray, hopen]

/-- **C23, violated.** A `null` among the records of a JSON document makes `Load` panic. -/
theorem C23_null_violated (env : Env W HI VI) (o : LoadOpts) (ch : Nat → Choice) :
    ∀ (es : List (Elem W)) (n : Nat) (s : St W HI VI) (st : Stats), (.null : Elem W) ∈ es →
    (loopArray env o ch n es s st).2 = .panic
  | [], n, s, st, h => by simp at h
  | .null :: es, n, s, st, _ => rfl
  | .record e :: es, n, s, st, h => by
    simp only [loopArray]
    exact C23_null_violated env o ch es (n + 1) _ _ (by simpa using h)

/-! ## C22 -/

theorem upsert_new (env : Env W HI VI) (t : St W HI VI) (fk : Bool) (e : Emb W) (v : List W) (cid : Int) (n : Nat)
    (hopen : t.closed = false) (hdim : t.dim = 0 ∨ t.dim = n) (hv : e.vector = some v) (hlen : v.length = n)
    (hn : n ≤ 2147483647) (hres : resolveCollection t.db e = .ok cid)
    (hcid : ∃ c ∈ t.db.collections, c.id = cid)
    (hdoc : fk = true → e.docID ≠ "" → ∃ x ∈ t.db.documents, x.id = e.docID)
    (hnew : ∀ r ∈ t.db.embeddings, r.id ≠ e.id) :
    ∃ t', upsert env t fk false e = (t', .ok) ∧ t'.closed = false ∧ t'.dim = n ∧
      t'.db = { t.db with embeddings := t.db.embeddings ++
        [{ id := e.id, cid := cid, vector := v, content := e.content
           docID := if e.docID ≠ "" then some e.docID else none
           metadata := e.metadata
           acl := if e.acl.length > 0 then some e.acl else none }] } := by
  have hd1 : (if t.dim = 0 then { t with dim := n } else t).dim = n := by
    rcases hdim with h | h
    · simp [h]
    · by_cases h0 : t.dim = 0
      · rw [if_pos h0]
      · rw [if_neg h0, h]
  have hdb1 : (if t.dim = 0 then { t with dim := n } else t).db = t.db := by split <;> rfl
  have hcl1 : (if t.dim = 0 then { t with dim := n } else t).closed = t.closed := by split <;> rfl
  have hpr : prepareRow t.db { e with vector := some v } = .ok
      { id := e.id, cid := cid, vector := v, content := e.content
        docID := if e.docID ≠ "" then some e.docID else none
        metadata := e.metadata
        acl := if e.acl.length > 0 then some e.acl else none } := by
    have : resolveCollection t.db { e with vector := some v } = .ok cid := by
      rw [← hres]; rfl
    simp only [prepareRow, this, encodable]
    rw [if_neg (by omega)]
  have hfil : t.db.embeddings.filter (fun x => decide (x.id ≠ e.id)) = t.db.embeddings := by
    rw [List.filter_eq_self]
    intro r hr
    simpa using hnew r hr
  have hins : insertRow fk t.db { id := e.id, cid := cid, vector := v, content := e.content
                                  docID := if e.docID ≠ "" then some e.docID else none
                                  metadata := e.metadata
                                  acl := if e.acl.length > 0 then some e.acl else none }
      = .ok { t.db with embeddings := t.db.embeddings ++
        [{ id := e.id, cid := cid, vector := v, content := e.content
           docID := if e.docID ≠ "" then some e.docID else none
           metadata := e.metadata
           acl := if e.acl.length > 0 then some e.acl else none }] } := by
    unfold insertRow
    have hfk : (fk && !fkHolds t.db { id := e.id, cid := cid, vector := v, content := e.content
                                      docID := if e.docID ≠ "" then some e.docID else none
                                      metadata := e.metadata
                                      acl := if e.acl.length > 0 then some e.acl else none }) = false := by
      cases hfk : fk with
      | false => rfl
      | true =>
        simp only [Bool.true_and, Bool.not_eq_false', fkHolds, Bool.and_eq_true, List.any_eq_true, decide_eq_true_eq]
        refine ⟨hcid, ?_⟩
        by_cases hd : e.docID = ""
        · simp [hd]
        · simp only [ne_eq, hd, not_false_eq_true, if_true, List.any_eq_true, decide_eq_true_eq]
          exact hdoc hfk hd
    rw [hfk, if_neg (by simp)]
    simp only [hfil]
  have hinc : (e.vector.getD []).length = n := by simp [hv, hlen]
  unfold upsert
  rw [if_neg (by simp [hopen])]
  have hne : ¬ n ≠ (if t.dim = 0 then { t with dim := n } else t).dim := by rw [hd1]; simp
  simp only [hinc]
  rw [if_neg hne]
  simp only [hdb1, hv, hpr]
  simp only [Bool.false_eq_true, if_false, hins]
  exact ⟨_, rfl, by rw [hcl1]; exact hopen, hd1, rfl⟩

/-- The row a loaded export ends up as. -/
def landed (db : DB W) (tdb : DB W) (r : Row W) : Row W :=
  { r with
    cid := match tdb.collections.find? (fun c => c.name = (exportRow db {} r).collection) with
      | some c => c.id
      | none => 0
    metadata := if r.metadata = some [] then none else r.metadata
    acl := none }

theorem import_row (env : Env W HI VI) (o : LoadOpts) (c : Choice) (src : DB W) (wf : WF src) (t0 t : St W HI VI)
    (n : Nat) (hacc : Accepts src t0 c.fk n) (hr0 : c.fault = false) (r : Row W) (hr : r ∈ src.embeddings)
    (hopen : t.closed = false) (hdim : t.dim = 0 ∨ t.dim = n) (hcol : t.db.collections = t0.db.collections)
    (hdocs : t.db.documents = t0.db.documents) (hnew : ∀ x ∈ t.db.embeddings, x.id ≠ r.id) :
    ∃ t', importOne env o c t (wire (exportRow src {} r)) = (t', .ok false) ∧ t'.closed = false ∧ t'.dim = n ∧
      t'.db = { t.db with embeddings := t.db.embeddings ++ [landed src t0.db r] } := by
  obtain ⟨c0, hc0, hcid0, hname, c1, hc1, hcn⟩ := hacc.colls r hr
  have hfind : src.collections.find? (fun c => c.id = r.cid) = some c0 := by
    cases hf : src.collections.find? (fun c => c.id = r.cid) with
    | none => rw [List.find?_eq_none] at hf; exact absurd hcid0 (by simpa using hf c0 hc0)
    | some c' =>
      have h1 := List.mem_of_find?_eq_some hf
      have h2 := List.find?_some hf
      simp only [decide_eq_true_eq] at h2
      rw [nodup_inj (fun c : Coll => c.id) wf.collIds h1 hc0 (by simp [h2, hcid0])]
  have hcoll : (exportRow src {} r).collection = c0.name := by simp [exportRow, hfind]
  obtain ⟨c2, hf2⟩ : ∃ c2, t0.db.collections.find? (fun c => c.name = c0.name) = some c2 := by
    cases hf : t0.db.collections.find? (fun c => c.name = c0.name) with
    | none => rw [List.find?_eq_none] at hf; exact absurd hcn (by simpa using hf c1 hc1)
    | some c2 => exact ⟨c2, rfl⟩
  have hres : resolveCollection t.db (wire (exportRow src {} r)) = .ok c2.id := by
    unfold resolveCollection
    have h1 : (wire (exportRow src {} r)).collectionID = 0 := rfl
    have h2 : (wire (exportRow src {} r)).collection = c0.name := hcoll
    rw [h1, h2, hcol, hf2]
    simp [hname]
  have hdocid : r.docID ≠ some "" := wf.noEmptyDoc r hr
  obtain ⟨t', hup, hcl', hdim', hdb'⟩ := upsert_new env t c.fk (wire (exportRow src {} r)) r.vector c2.id n hopen hdim rfl
    (hacc.lengths r hr) hacc.small hres (by rw [hcol]; exact ⟨c2, List.mem_of_find?_eq_some hf2, rfl⟩)
    (by
      intro hfk hd
      rw [hdocs]
      have : r.docID = some (wire (exportRow src {} r)).docID := by
        simp only [wire, exportRow] at hd ⊢
        cases h : r.docID with
        | none => simp [h] at hd
        | some d => simp
      exact hacc.docs hfk r hr _ this) hnew
  refine ⟨t', ?_, hcl', hdim', ?_⟩
  · have hne : getByID t (wire (exportRow src {} r)).id = .error .notFound := by
      unfold getByID
      rw [if_neg (by simp [hopen])]
      have : t.db.embeddings.find? (fun x => x.id = (wire (exportRow src {} r)).id) = none := by
        rw [List.find?_eq_none]
        intro x hx
        simpa [wire, exportRow] using hnew x hx
      rw [this]
    have hex : existing c t (wire (exportRow src {} r)).id = false := by simp [existing, hne]
    unfold importOne
    rw [hex, hr0, hup]
    simp
  · rw [hdb']
    congr 3
    unfold landed
    rw [hcoll, hf2]
    simp only [wire, exportRow]
    congr 1
    cases h : r.docID with
    | none => simp
    | some d =>
      have : d ≠ "" := fun hd => hdocid (by rw [h, hd])
      simp [this]

theorem loopLines_import (env : Env W HI VI) (o : LoadOpts) (ch : Nat → Choice) (fk : Bool) (src : DB W) (wf : WF src)
    (t0 : St W HI VI) (k : Nat) (hacc : Accepts src t0 fk k)
    (hch : ∀ i, (ch i).fk = fk ∧ (ch i).fault = false) :
    ∀ (rows : List (Row W)) (n : Nat) (t : St W HI VI) (st : Stats), (∀ r ∈ rows, r ∈ src.embeddings) →
    (rows.map (fun r => r.id)).Nodup →
    t.closed = false → (t.dim = 0 ∨ t.dim = k) → t.db.collections = t0.db.collections →
    t.db.documents = t0.db.documents → (∀ x ∈ t.db.embeddings, ∀ r ∈ rows, x.id ≠ r.id) →
    ∃ t', loopLines env o ch (rows.length + 1) n (rows.map fun r => .value (wire (exportRow src {} r))) t st
        = some (t', { st with imported := st.imported + rows.length }) ∧ t'.closed = false ∧
      t'.db = { t.db with embeddings := t.db.embeddings ++ rows.map (landed src t0.db) }
  | [], n, t, st, _, _, hop, _, _, _, _ => ⟨t, by simp [loopLines], hop, by simp⟩
  | r :: rows, n, t, st, hm, hnd, hop, hdim, hcol, hdoc, hnew => by
    have hacc' : Accepts src t0 (ch n).fk k := by rw [(hch n).1]; exact hacc
    obtain ⟨t1, h1, h2, h3, h4⟩ := import_row env o (ch n) src wf t0 t k hacc' (hch n).2 r (hm r (by simp)) hop hdim hcol hdoc
      (fun x hx => hnew x hx r (by simp))
    simp only [List.map_cons, List.nodup_cons] at hnd
    obtain ⟨t2, g1, g2, g3⟩ := loopLines_import env o ch fk src wf t0 k hacc hch rows (n + 1) t1
      { st with imported := st.imported + 1 } (fun x hx => hm x (by simp [hx])) hnd.2 h2 (Or.inr h3)
      (by rw [h4]; exact hcol) (by rw [h4]; exact hdoc)
      (by
        intro x hx y hy
        rw [h4] at hx
        simp only [List.mem_append, List.mem_singleton] at hx
        rcases hx with hx | rfl
        · exact hnew x hx y (by simp [hy])
        · intro heq
          exact hnd.1 (List.mem_map.2 ⟨y, hy, by simpa [landed] using heq.symm⟩))
    refine ⟨t2, ?_, g2, ?_⟩
    · simp only [List.map_cons, List.length_cons, loopLines, h1, tally]
      rw [g1]
      simp
      omega
    · rw [g3, h4]
      simp

theorem lookup_landed (src : DB W) (wf : WF src) (t0 : St W HI VI) (fk : Bool) (n : Nat) (hacc : Accepts src t0 fk n)
    (s t : St W HI VI) (hs : s.closed = false) (hsrc : s.db = src) (ht : t.closed = false)
    (hdb : t.db = { t0.db with embeddings := t0.db.embeddings ++ src.embeddings.map (landed src t0.db) }) (id : String) :
    getByID t id = (getByID s id).map exported := by
  unfold getByID
  rw [hs, ht, hsrc, hdb, hacc.empty]
  simp only [Bool.false_eq_true, if_false, List.nil_append, List.find?_map]
  have hcomp : ((fun r : Row W => decide (r.id = id)) ∘ landed src t0.db) = fun r => decide (r.id = id) := by
    funext r; rfl
  rw [hcomp]
  cases hf : src.embeddings.find? (fun r => decide (r.id = id)) with
  | none => rfl
  | some r =>
    have hr := List.mem_of_find?_eq_some hf
    obtain ⟨c0, hc0, hcid0, hname, c1, hc1, hcn⟩ := hacc.colls r hr
    have hfind : src.collections.find? (fun c => c.id = r.cid) = some c0 := by
      cases hf : src.collections.find? (fun c => c.id = r.cid) with
      | none => rw [List.find?_eq_none] at hf; exact absurd hcid0 (by simpa using hf c0 hc0)
      | some c' =>
        have h1 := List.mem_of_find?_eq_some hf
        have h2 := List.find?_some hf
        simp only [decide_eq_true_eq] at h2
        rw [nodup_inj (fun c : Coll => c.id) wf.collIds h1 hc0 (by simp [h2, hcid0])]
    obtain ⟨c2, hf2⟩ : ∃ c2, t0.db.collections.find? (fun c => c.name = c0.name) = some c2 := by
      cases hf : t0.db.collections.find? (fun c => c.name = c0.name) with
      | none => rw [List.find?_eq_none] at hf; exact absurd hcn (by simpa using hf c1 hc1)
      | some c2 => exact ⟨c2, rfl⟩
    have hc2 : c2.name = c0.name := by simpa using List.find?_some hf2
    have hfind2 : t0.db.collections.find? (fun c => c.id = c2.id) = some c2 := by
      cases hf : t0.db.collections.find? (fun c => c.id = c2.id) with
      | none => rw [List.find?_eq_none] at hf; simpa using hf c2 (List.mem_of_find?_eq_some hf2)
      | some c' =>
        have h1 := List.mem_of_find?_eq_some hf
        have h2 := List.find?_some hf
        simp only [decide_eq_true_eq] at h2
        rw [nodup_inj (fun c : Coll => c.id) hacc.wf.collIds h1 (List.mem_of_find?_eq_some hf2) h2]
    simp only [Option.map_some, Except.map, toRec, landed, exportRow, hfind, hf2, hfind2, exported, hc2]
    rfl

theorem all_jsonOk (fin : W → Bool) (db : DB W) (h : ∀ r ∈ db.embeddings, ∀ x ∈ r.vector, fin x = true) :
    (db.embeddings.map (exportRow db {})).all (jsonOk fin) = true := by
  simp only [List.all_map, List.all_eq_true, Function.comp_apply, jsonOk]
  intro r hr x hx
  exact h r hr x (by simpa [exportRow] using hx)

/-- **C22 (partial).** Dumping any store whose vectors are finite, and loading the dump into an empty store that has the
collections (and documents, where enforced) and dimension, imports every record, and every identifier then gives the
source's record except for its access list (and an empty metadata map, which becomes nil); identifiers the source does
not have are not there either. -/
theorem C22_lines_partial (env : Env W HI VI) (o : LoadOpts) (ch : Nat → Choice) (fk : Bool) (fin : W → Bool)
    (s t : St W HI VI) (n : Nat) (hs : s.closed = false) (wf : WF s.db) (hacc : Accepts s.db t fk n)
    (hfin : ∀ r ∈ s.db.embeddings, ∀ x ∈ r.vector, fin x = true)
    (hch : ∀ i, (ch i).fk = fk ∧ (ch i).fault = false) :
    ∃ file t', dumpJSONL fin s {} = (file, .ok s.db.embeddings.length) ∧
      loadLines env o ch (file.length + 1) t file = some (t', .ok ⟨s.db.embeddings.length, 0, 0⟩) ∧
      ∀ id, getByID t' id = (getByID s id).map exported := by
  obtain ⟨t', h1, h2, h3⟩ := loopLines_import env o ch fk s.db wf t n hacc hch s.db.embeddings 0 t {} (fun _ h => h)
    wf.embIds hacc.isOpen hacc.dim rfl rfl (by rw [hacc.empty]; simp)
  have hok := all_jsonOk fin s.db hfin
  refine ⟨s.db.embeddings.map fun r => .value (wire (exportRow s.db {} r)), t', ?_, ?_, ?_⟩
  · have htw : (s.db.embeddings.map (exportRow s.db {})).takeWhile (jsonOk fin) = s.db.embeddings.map (exportRow s.db {}) := by
      exact List.takeWhile_eq_self_iff.2 (by simpa using hok)
    have hga : getAll s.db {} = .ok (s.db.embeddings.map (exportRow s.db {})) := rfl
    simp [dumpJSONL, hs, hga, htw, hok]
  · simp only [loadLines, hacc.isOpen]
    rw [List.length_map, h1]
    simp
  · exact lookup_landed s.db wf t fk n hacc s t' hs rfl h2 h3

/-- **C22 (partial), JSON.** The same for the JSON format. -/
theorem C22_array_partial (env : Env W HI VI) (o : LoadOpts) (ch : Nat → Choice) (fk : Bool) (fin : W → Bool)
    (s t : St W HI VI) (n : Nat) (hs : s.closed = false) (wf : WF s.db) (hacc : Accepts s.db t fk n)
    (hfin : ∀ r ∈ s.db.embeddings, ∀ x ∈ r.vector, fin x = true)
    (hch : ∀ i, (ch i).fk = fk ∧ (ch i).fault = false) :
    ∃ file t', dumpJSON fin s {} = .ok file ∧
      loadArray env o ch t (some file) = (t', .ok ⟨s.db.embeddings.length, 0, 0⟩) ∧
      ∀ id, getByID t' id = (getByID s id).map exported := by
  have hconv : ∀ (rows : List (Row W)) (f n : Nat) (t : St W HI VI) (st : Stats) (t' : St W HI VI) (st' : Stats),
      loopLines env o ch f n (rows.map fun r => .value (wire (exportRow s.db {} r))) t st = some (t', st') →
      loopArray env o ch n (rows.map fun r => .record (wire (exportRow s.db {} r))) t st = (t', .ok st') := by
    intro rows
    induction rows with
    | nil =>
      intro f n t st t' st' h
      cases f with
      | zero => simp [loopLines] at h
      | succ f => simp [loopLines] at h; simp [loopArray, h]
    | cons r rows ih =>
      intro f n t st t' st' h
      cases f with
      | zero => simp [loopLines] at h
      | succ f =>
        simp only [List.map_cons, loopLines] at h
        simp only [List.map_cons, loopArray]
        exact ih f (n + 1) _ _ _ _ h
  obtain ⟨t', h1, h2, h3⟩ := loopLines_import env o ch fk s.db wf t n hacc hch s.db.embeddings 0 t {} (fun _ h => h)
    wf.embIds hacc.isOpen hacc.dim rfl rfl (by rw [hacc.empty]; simp)
  have hok := all_jsonOk fin s.db hfin
  refine ⟨s.db.embeddings.map fun r => .record (wire (exportRow s.db {} r)), t', ?_, ?_, ?_⟩
  · have hga : getAll s.db {} = .ok (s.db.embeddings.map (exportRow s.db {})) := rfl
    simp [dumpJSON, hs, hga, hok]
  · simp only [loadArray, hacc.isOpen]
    have := hconv _ _ _ _ _ _ _ h1
    simpa using this
  · exact lookup_landed s.db wf t fk n hacc s t' hs rfl h2 h3

/-- C22, a dump with a filter: exactly the records whose metadata meet it are written, in the order of the table, whatever the store holds; a filter
that cannot be evaluated on some record writes nothing and is an error. -/
theorem C22_filtered (fin : W → Bool) (s : St W HI VI) (hs : s.closed = false) (p : Option Meta → Option Bool) (vecs : Bool)
    (hfin : ∀ r ∈ s.db.embeddings, ∀ x ∈ r.vector, fin x = true) :
    let o : DumpOpts := ⟨vecs, some p⟩
    ((∀ r ∈ s.db.embeddings, p r.metadata ≠ none) →
      ∃ rs : List (Row W), rs.Sublist s.db.embeddings ∧ (∀ r ∈ s.db.embeddings, r ∈ rs ↔ p r.metadata = some true) ∧
        dumpJSONL fin s o = (rs.map fun r => .value (wire (exportRow s.db o r)), .ok rs.length) ∧
        dumpJSON fin s o = .ok (rs.map fun r => .record (wire (exportRow s.db o r)))) ∧
    ((∃ r ∈ s.db.embeddings, p r.metadata = none) →
      (∃ e, dumpJSONL fin s o = ([], .error e)) ∧ ∃ e, dumpJSON fin s o = .error e) := by
  intro o
  have hjs : ∀ r ∈ s.db.embeddings, jsonOk fin (exportRow s.db o r) = true := by
    intro r hr
    unfold jsonOk exportRow
    cases vecs <;> simp [o]
    exact hfin r hr
  constructor
  · intro hp
    have hga : getAll s.db o = .ok ((s.db.embeddings.filter (fun r => p r.metadata == some true)).map (exportRow s.db o)) := by
      unfold getAll
      simp only [o]
      rw [if_neg]
      rw [List.any_eq_true]
      rintro ⟨r, hr, h⟩
      exact hp r hr (by simpa using h)
    set rs := s.db.embeddings.filter (fun r => p r.metadata == some true) with hrs
    have hok : ∀ e ∈ rs.map (exportRow s.db o), jsonOk fin e = true := by
      intro e he
      obtain ⟨r, hr, rfl⟩ := List.mem_map.1 he
      exact hjs r (List.mem_filter.1 hr).1
    have htw : (rs.map (exportRow s.db o)).takeWhile (jsonOk fin) = rs.map (exportRow s.db o) := List.takeWhile_eq_self_iff.2 hok
    have hall : (rs.map (exportRow s.db o)).all (jsonOk fin) = true := List.all_eq_true.2 hok
    refine ⟨rs, List.filter_sublist, ?_, ?_, ?_⟩
    · intro r hr
      simp [hrs, List.mem_filter, hr]
    · unfold dumpJSONL
      rw [if_neg (by simp [hs]), hga]
      simp only [htw, hall, if_true, List.length_map, List.map_map]
      rfl
    · unfold dumpJSON
      rw [if_neg (by simp [hs]), hga]
      simp only [hall, if_true, List.map_map]
      rfl
  · rintro ⟨r, hr, h⟩
    have hga : getAll s.db o = .error .badFilter := by
      unfold getAll
      simp only [o]
      rw [if_pos]
      exact List.any_eq_true.2 ⟨r, hr, by simp [h]⟩
    constructor
    · refine ⟨.badFilter, ?_⟩
      unfold dumpJSONL
      rw [if_neg (by simp [hs]), hga]
    · refine ⟨.badFilter, ?_⟩
      unfold dumpJSON
      rw [if_neg (by simp [hs]), hga]

/-- C22, C23: a closed store neither exports nor imports: every call is an error, writes nothing and leaves the store as it was. -/
theorem C22_closed (env : Env W HI VI) (fin : W → Bool) (s : St W HI VI) (hs : s.closed = true) (d : DumpOpts) (o : LoadOpts) (ch : Nat → Choice) :
    dumpJSON fin s d = .error .closed ∧ dumpJSONL fin s d = ([], .error .closed) ∧
    (∀ fuel file, loadLines env o ch fuel s file = some (s, .error .closed)) ∧
    ∀ file, loadArray env o ch s file = (s, .err .closed) := by
  refine ⟨?_, ?_, ?_, ?_⟩
  · simp [dumpJSON, hs]
  · simp [dumpJSONL, hs]
  · intro fuel file; simp [loadLines, hs]
  · intro file; simp [loadArray, hs]

/-- **C22.** So records that had no access list (and no empty metadata map) come back unchanged. -/
theorem C22_plain_partial (r : Rec W) (ha : r.acl = []) (hm : r.metadata ≠ some []) : exported r = r := by
  cases r
  simp_all [exported]

/-- **C22, violated.** Every record with an access list comes back without it: what only some
users might see is open to all after a dump and a load. -/
theorem C22_acl_lost_violated (env : Env W HI VI) (o : LoadOpts) (ch : Nat → Choice) (fk : Bool) (fin : W → Bool)
    (s t : St W HI VI) (n : Nat) (hs : s.closed = false) (wf : WF s.db) (hacc : Accepts s.db t fk n)
    (hfin : ∀ r ∈ s.db.embeddings, ∀ x ∈ r.vector, fin x = true)
    (hch : ∀ i, (ch i).fk = fk ∧ (ch i).fault = false) (id : String) (r : Rec W)
    (hget : getByID s id = .ok r) (hacl : r.acl ≠ []) :
    ∃ file t' st, dumpJSONL fin s {} = (file, .ok s.db.embeddings.length) ∧
      loadLines env o ch (file.length + 1) t file = some (t', .ok st) ∧
      ∃ r', getByID t' id = .ok r' ∧ r'.acl = [] ∧ r' ≠ r := by
  obtain ⟨file, t', h1, h2, h3⟩ := C22_lines_partial env o ch fk fin s t n hs wf hacc hfin hch
  refine ⟨file, t', _, h1, h2, exported r, ?_, rfl, ?_⟩
  · rw [h3, hget]; rfl
  · intro heq
    exact hacl (by rw [← heq]; rfl)

/-- **C22, violated.** A record of a collection that the target does not have is not loaded: an
empty new store has only the default collection and `Load` creates none. -/
theorem C22_collection_violated (env : Env W HI VI) (o : LoadOpts) (c : Choice) (t : St W HI VI) (e : Emb W)
    (hopen : t.closed = false) (hnew : ∀ r ∈ t.db.embeddings, r.id ≠ e.id) (hid : e.collectionID = 0)
    (hname : e.collection ≠ "") (hno : ∀ c ∈ t.db.collections, c.name ≠ e.collection) :
    (∃ er, (importOne env o c t e).2 = .error er) ∧ getByID (importOne env o c t e).1 e.id = .error .notFound := by
  have hres : ∀ v, resolveCollection t.db { e with vector := v } = .error .noCollection := by
    intro v
    unfold resolveCollection
    have : t.db.collections.find? (fun c => c.name = e.collection) = none := by
      rw [List.find?_eq_none]; simpa using hno
    simp [hid, hname, this]
  have hup : ∃ s' er, upsert env t c.fk c.fault e = (s', .err er) ∧ s'.db = t.db ∧ s'.closed = false := by
    unfold upsert
    rw [if_neg (by simp [hopen])]
    have hdb1 : (if t.dim = 0 then { t with dim := (e.vector.getD []).length } else t).db = t.db := by split <;> rfl
    have hcl1 : (if t.dim = 0 then { t with dim := (e.vector.getD []).length } else t).closed = false := by
      split <;> exact hopen
    simp only
    split
    · exact ⟨_, _, rfl, hdb1, hcl1⟩
    · rename_i v _
      simp only [hdb1, prepareRow, hres]
      exact ⟨_, _, rfl, hdb1, hcl1⟩
  obtain ⟨s', er, hup, hdb, hcl⟩ := hup
  have hnone : t.db.embeddings.find? (fun r => r.id = e.id) = none := by
    rw [List.find?_eq_none]; simpa using hnew
  have hget : getByID t e.id = .error .notFound := by
    unfold getByID
    rw [if_neg (by simp [hopen]), hnone]
  have himp : importOne env o c t e = (s', .error er) := by
    have hex : existing c t e.id = false := by simp [existing, hget]
    unfold importOne
    rw [hex, hup]
    simp
  rw [himp]
  refine ⟨⟨er, rfl⟩, ?_⟩
  unfold getByID
  rw [if_neg (by simp [hcl]), hdb, hnone]

/-- **C22, violated.** One vector with a component JSON cannot express makes the whole JSON dump
fail. -/
theorem C22_nan_violated (fin : W → Bool) (s : St W HI VI) (hs : s.closed = false) (r : Row W)
    (hr : r ∈ s.db.embeddings) (x : W) (hx : x ∈ r.vector) (hf : fin x = false) :
    dumpJSON fin s {} = .error .io := by
  have hga : getAll s.db {} = .ok (s.db.embeddings.map (exportRow s.db {})) := rfl
  have hall : (s.db.embeddings.map (exportRow s.db {})).all (jsonOk fin) = false := by
    rw [List.all_eq_false]
    refine ⟨exportRow s.db {} r, List.mem_map_of_mem hr, ?_⟩
    simp only [jsonOk, exportRow, if_true, Option.getD_some, List.all_eq_true, not_forall]
    exact ⟨x, hx, by simp [hf]⟩
  simp [dumpJSON, hs, hga, hall]

/-! A source with an access list and a second collection, and a target that accepts it. -/

def src0 : St Nat Unit Unit :=
  { db := { collections := [⟨1, "default", 2⟩, ⟨2, "notes", 2⟩], nextColl := 3, documents := [],
            embeddings := [⟨"a", 1, [1, 2], "x", none, some [("k", "v")], none⟩,
                           ⟨"b", 2, [3, 4], "y", some "d", none, some ["alice"]⟩] },
    dim := 2, closed := false, hnsw := none, ivf := none }

def tgt0 : St Nat Unit Unit :=
  { db := { collections := [⟨1, "default", 2⟩, ⟨7, "notes", 2⟩], nextColl := 8, documents := [], embeddings := [] },
    dim := 0, closed := false, hnsw := none, ivf := none }

example : WF src0.db ∧ Accepts src0.db tgt0 false 2 := by
  refine ⟨⟨by decide, by decide, by decide, by decide, by decide, by decide, by decide⟩,
    ⟨rfl, ⟨by decide, by decide, by decide, by decide, by decide, by decide, by decide⟩, rfl, Or.inl rfl, by decide,
      by decide, by decide, by simp⟩⟩

example : getByID src0 "b" = .ok ⟨[3, 4], "y", "d", none, ["alice"], "notes"⟩ := by decide

/-- A filter of `src0` that one record meets. -/
example : (∀ r ∈ src0.db.embeddings, ∀ x ∈ r.vector, (fun _ : Nat => true) x = true) ∧
    (∀ r ∈ src0.db.embeddings, (fun m : Option Meta => some (decide (m = none))) r.metadata ≠ none) ∧
    (dumpJSONL (fun _ => true) src0 ⟨true, some (fun m => some (decide (m = none)))⟩).1.length = 1 := by
  refine ⟨by simp, by simp, by decide⟩

/-! ## C122 -/

/-- **C122 (partial).** With `SkipExisting`, and as long as looking a record up does not fail, no input changes a record that
was there before the load. -/
theorem C122_skip_keeps_partial (env : Env W HI VI) (o : LoadOpts) (ch : Nat → Choice) (hskip : o.skipExisting = true)
    (hch : ∀ i, (ch i).readFault = false) : ∀ (fuel n : Nat) (items : List (Item W)) (s : St W HI VI) (st : Stats)
    (s' : St W HI VI) (st' : Stats), WF s.db → s.closed = false → loopLines env o ch fuel n items s st = some (s', st') →
    ∀ id r, getByID s id = .ok r → ∃ r', getByID s' id = .ok r' ∧ recPayload r' = recPayload r
  | 0, _, _, _, _, _, _, _, _, h => by simp [loopLines] at h
  | fuel + 1, n, [], s, st, s', st', _, _, h => by
    simp only [loopLines, Option.some.injEq, Prod.mk.injEq] at h
    intro id r hr
    rw [← h.1]
    exact ⟨r, hr, rfl⟩
  | fuel + 1, n, .broken :: rest, s, st, s', st', wf, hop, h =>
    C122_skip_keeps_partial env o ch hskip hch fuel (n + 1) _ s _ s' st' wf hop h
  | fuel + 1, n, .badType :: rest, s, st, s', st', wf, hop, h =>
    C122_skip_keeps_partial env o ch hskip hch fuel (n + 1) _ s _ s' st' wf hop h
  | fuel + 1, n, .value e :: rest, s, st, s', st', wf, hop, h => by
    simp only [loopLines] at h
    intro id r hr
    have hone : ∃ s1, (importOne env o (ch n) s e).1 = s1 ∧ WF s1.db ∧ s1.closed = false ∧
        ∃ r1, getByID s1 id = .ok r1 ∧ recPayload r1 = recPayload r := by
      refine ⟨_, rfl, ?_⟩
      have hup : (importOne env o (ch n) s e).1 = s ∨
          ((importOne env o (ch n) s e).1 = (upsert env s (ch n).fk (ch n).fault e).1 ∧ id ≠ e.id) := by
        by_cases hid : id = e.id
        · left
          have hex : existing (ch n) s e.id = true := by simp [existing, ← hid, hr, hch]
          unfold importOne
          simp [hskip, hex]
        · rcases importOne_cases env o (ch n) s e with ⟨_, _, h2⟩ | ⟨s1, h1, h2⟩ | ⟨s1, er, h1, h2⟩
          · left; rw [h2]
          · right; exact ⟨by rw [h1, h2], hid⟩
          · right; exact ⟨by rw [h1, h2], hid⟩
      rcases hup with hup | ⟨hup, hid⟩
      · rw [hup]; exact ⟨wf, hop, r, hr, rfl⟩
      · rw [hup]
        have hsc := step_cases env s wf (.upsert (ch n).fk (ch n).fault e) id
        have hcl : (upsert env s (ch n).fk (ch n).fault e).1.closed = false := by
          unfold upsert
          simp only [hop, Bool.false_eq_true, if_false]
          repeat' split
          all_goals first | exact hop | (split <;> exact hop) | rfl
        refine ⟨hsc.1, hcl, ?_⟩
        have hpay : payload s id = some (recPayload r) := by
          unfold payload
          rw [(getByID_payload s hop id r).1 hr]
          rfl
        rcases hsc.2 with ⟨p, hw, _⟩ | ⟨_, heq⟩ | ⟨_, hnone, _, _, hask⟩
        · exact absurd hw.2.1.symm hid
        · have hp : payload (upsert env s (ch n).fk (ch n).fault e).1 id = some (recPayload r) := by
            rw [← hpay]; exact heq
          unfold payload at hp
          rw [Option.map_eq_some_iff] at hp
          obtain ⟨r1, hr1, hp1⟩ := hp
          exact ⟨r1, (getByID_payload _ hcl id r1).2 hr1, hp1⟩
        · exact absurd hask (by simp [AsksRemoval])
    obtain ⟨s1, hs1, wf1, hop1, r1, hr1, hp1⟩ := hone
    rw [hs1] at h
    obtain ⟨r2, hr2, hp2⟩ := C122_skip_keeps_partial env o ch hskip hch fuel (n + 1) rest s1 _ s' st' wf1 hop1 h id r1 hr1
    exact ⟨r2, hr2, hp2.trans hp1⟩

/-- **C122, violated.** `Replace` and `Upsert` have no effect: what a load does with a record is the
same whether they are set or not … -/
theorem C122_replace_ignored_violated (env : Env W HI VI) (c : Choice) (s : St W HI VI) (e : Emb W) (b1 b2 b3 b4 b5 : Bool) :
    importOne env ⟨b1, b2, b3⟩ c s e = importOne env ⟨b1, b4, b5⟩ c s e := rfl

/-- … so without `SkipExisting` an existing record is overwritten although replacing was not asked
for. -/
theorem C122_overwrites_violated :
    ∃ (s : St Nat Unit Unit) (e : Emb Nat) (r r' : Rec Nat),
      getByID s e.id = .ok r ∧
      getByID (importOne Verif.Thm.StoreProps.env0 ⟨false, false, false⟩ ⟨true, false, false⟩ s e).1 e.id = .ok r' ∧
      r.content = "x" ∧ r'.content = "new" := by
  refine ⟨src0, { id := "a", vector := some [1, 2], content := "new" }, ⟨[1, 2], "x", "", some [("k", "v")], [], "default"⟩,
    ⟨[1, 2], "new", "", none, [], "default"⟩, ?_⟩
  decide

end Verif.Io
