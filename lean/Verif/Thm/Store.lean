import Verif.Model.Store
import Mathlib.Tactic.Common

/-! C03, C04, C05, C06, C15, C16: the record store as a state machine. -/
namespace Verif.Thm.Store
open Verif.Model.Store

variable {W HI VI : Type}

/-! ### Well formed databases -/

/-- Key constraints of the schema, plus what the AUTOINCREMENT counter guarantees. -/
structure WF (db : DB W) : Prop where
  embIds : (db.embeddings.map (fun r => r.id)).Nodup
  collIds : (db.collections.map (fun c => c.id)).Nodup
  collNames : (db.collections.map (fun c => c.name)).Nodup
  counter : ∀ c ∈ db.collections, c.id < db.nextColl
  positive : 1 ≤ db.nextColl
  docIds : (db.documents.map (fun d => d.id)).Nodup
  noEmptyDoc : ∀ r ∈ db.embeddings, r.docID ≠ some ""

theorem nodup_map_filter {α β : Type} (f : α → β) (p : α → Bool) {l : List α} (h : (l.map f).Nodup) :
    ((l.filter p).map f).Nodup := (List.filter_sublist.map f).nodup h

theorem find_filter {α β : Type} [DecidableEq β] (f : α → β) (p : α → Bool) {l : List α} (h : (l.map f).Nodup)
    (i : β) : (l.filter p).find? (fun r => f r = i) = (l.find? (fun r => f r = i)).filter p := by
  induction l with
  | nil => simp
  | cons x xs ih =>
    simp only [List.map_cons, List.nodup_cons] at h
    by_cases hx : f x = i
    · have hnone : ∀ y ∈ xs, f y ≠ i := by
        intro y hy hyi; apply h.1; rw [hx, ← hyi]; exact List.mem_map_of_mem hy
      have : xs.find? (fun r => f r = i) = none := by
        rw [List.find?_eq_none]; simpa using hnone
      by_cases hp : p x
      · simp [hx, hp, Option.filter]
      · simp only [List.filter_cons, hp, List.find?_cons, hx, decide_true]
        simp only [Bool.false_eq_true, if_false]
        rw [ih h.2, this]; simp [Option.filter, hp]
    · by_cases hp : p x
      · simp [hp, hx, ih h.2]
      · simp [hp, hx, ih h.2]

theorem find_upsert {α β : Type} [DecidableEq β] (f : α → β) (l : List α) (r : α) (i : β) :
    (l.filter (fun x => decide (f x ≠ f r)) ++ [r]).find? (fun x => f x = i) =
      if i = f r then some r else l.find? (fun x => f x = i) := by
  rw [List.find?_append]
  split
  · rename_i h
    have : (l.filter (fun x => decide (f x ≠ f r))).find? (fun x => f x = i) = none := by
      rw [List.find?_eq_none]; intro x hx
      simp only [List.mem_filter, decide_eq_true_eq] at hx
      simp [h, hx.2]
    rw [this]; simp [h]
  · rename_i h
    have : (l.filter (fun x => decide (f x ≠ f r))).find? (fun x => f x = i) = l.find? (fun x => f x = i) := by
      rw [List.find?_filter]
      congr 1; funext x
      by_cases hx : f x = i
      · simp [hx, h]
      · simp [hx]
    rw [this]
    have : ¬ f r = i := fun hh => h hh.symm
    simp [this]

theorem nodup_upsert {α β : Type} [DecidableEq β] (f : α → β) {l : List α} (r : α) (h : (l.map f).Nodup) :
    ((l.filter (fun x => decide (f x ≠ f r)) ++ [r]).map f).Nodup := by
  rw [List.map_append, List.nodup_append]
  refine ⟨nodup_map_filter f _ h, by simp, ?_⟩
  intro a ha b hb
  simp only [List.map_cons, List.map_nil, List.mem_singleton] at hb
  obtain ⟨x, hx, rfl⟩ := List.mem_map.1 ha
  simp only [List.mem_filter, decide_eq_true_eq] at hx
  rw [hb]; exact hx.2

theorem nodup_inj {α β : Type} (f : α → β) {l : List α} (h : (l.map f).Nodup) {a b : α} (ha : a ∈ l) (hb : b ∈ l)
    (hab : f a = f b) : a = b := by
  induction l with
  | nil => simp at ha
  | cons x xs ih =>
    simp only [List.map_cons, List.nodup_cons] at h
    rcases List.mem_cons.1 ha with ha | ha <;> rcases List.mem_cons.1 hb with hb | hb
    · rw [ha, hb]
    · exact absurd (by rw [← ha, hab]; exact List.mem_map_of_mem hb) h.1
    · exact absurd (by rw [← hb, ← hab]; exact List.mem_map_of_mem ha) h.1
    · exact ih h.2 ha hb

theorem nodup_snoc {α β : Type} (f : α → β) {l : List α} (r : α) (h : (l.map f).Nodup)
    (hr : ∀ x ∈ l, f x ≠ f r) : ((l ++ [r]).map f).Nodup := by
  rw [List.map_append, List.nodup_append]
  refine ⟨h, by simp, ?_⟩
  intro a ha b hb
  simp only [List.map_cons, List.map_nil, List.mem_singleton] at hb
  obtain ⟨x, hx, rfl⟩ := List.mem_map.1 ha
  rw [hb]; exact hr x hx

theorem prepareRow_ok {db : DB W} {e : Emb W} {r : Row W} (h : prepareRow db e = .ok r) :
    r.id = e.id ∧ e.vector = some r.vector ∧ r.content = e.content ∧ r.docID.getD "" = e.docID ∧
      r.metadata = e.metadata ∧ r.acl.getD [] = e.acl ∧ r.docID ≠ some "" ∧ resolveCollection db e = .ok r.cid := by
  unfold prepareRow at h
  split at h
  · cases h
  · rename_i cid hc
    split at h
    · cases h
    · rename_i v hv
      injection h with h
      subst h
      refine ⟨rfl, ?_, rfl, ?_, rfl, ?_, ?_, hc⟩
      · unfold encodable at hv
        split at hv
        · cases hv
        · rename_i w hw
          split at hv
          · cases hv
          · injection hv with hv; simp [hw, hv]
      · by_cases hd : e.docID = "" <;> simp [hd]
      · by_cases ha : e.acl.length > 0
        · simp [ha]
        · simp only [ha, if_false, Option.getD_none]
          cases hl : e.acl with
          | nil => rfl
          | cons => simp [hl] at ha
      · by_cases hd : e.docID = "" <;> simp [hd]

theorem insertRow_ok {fk : Bool} {db db' : DB W} {r : Row W} (h : insertRow fk db r = .ok db') :
    db' = { db with embeddings := db.embeddings.filter (fun x => x.id ≠ r.id) ++ [r] } := by
  unfold insertRow at h
  split at h
  · cases h
  · injection h with h; exact h.symm

theorem insertRow_wf {fk : Bool} {db db' : DB W} {r : Row W} (wf : WF db) (hd : r.docID ≠ some "")
    (h : insertRow fk db r = .ok db') : WF db' := by
  rw [insertRow_ok h]
  exact { wf with
    embIds := nodup_upsert (fun r : Row W => r.id) r wf.embIds
    noEmptyDoc := by
      intro x hx
      simp only [List.mem_append, List.mem_filter, List.mem_singleton] at hx
      rcases hx with hx | rfl
      · exact wf.noEmptyDoc x hx.1
      · exact hd }

/-! ### What a lookup shows -/

/-- The part of a record that C03 speaks about. -/
structure Payload (W : Type) where
  vector : List W
  content : String
  docID : String
  metadata : Option Meta
  acl : List String

/-- Record `e` as stored with vector `v`. -/
def written (e : Emb W) (v : List W) : Payload W := ⟨v, e.content, e.docID, e.metadata, e.acl⟩

/-- Forget the collection name of a `GetByID` answer. -/
def recPayload (r : Rec W) : Payload W := ⟨r.vector, r.content, r.docID, r.metadata, r.acl⟩

/-- What `GetByID` would answer on an open store with these tables. -/
def lookup (s : St W HI VI) (id : String) : Option (Rec W) :=
  match getByID { s with closed := false } id with
  | .ok r => some r
  | .error _ => none

def rowPayload (r : Row W) : Payload W := ⟨r.vector, r.content, r.docID.getD "", r.metadata, r.acl.getD []⟩

/-- Payload visible under an id. -/
def payload (s : St W HI VI) (id : String) : Option (Payload W) := (lookup s id).map recPayload

def find (db : DB W) (id : String) : Option (Row W) := db.embeddings.find? (fun r => r.id = id)

theorem payload_eq (s : St W HI VI) (id : String) : payload s id = (find s.db id).map rowPayload := by
  unfold payload lookup getByID find
  cases h : s.db.embeddings.find? (fun r => r.id = id) <;> simp [toRec, recPayload, rowPayload]

/-- `GetByID` is `payload` on an open store. -/
theorem getByID_payload (s : St W HI VI) (h : s.closed = false) (id : String) (r : Rec W) :
    getByID s id = .ok r ↔ lookup s id = some r := by
  have hs : { s with closed := false } = s := by cases s; simp_all
  unfold lookup
  rw [hs]
  cases getByID s id <;> simp

/-! ### Specification of single operations -/

/-- "This call, made in this state, is a successful write of payload `p` under `id`." For a single write the vector is
the caller's when it has the store's dimension (or none is fixed yet), otherwise the adapted one. For a batch it is the
last record of the batch with that id, unadapted. -/
def Writes (env : Env W HI VI) (s : St W HI VI) (op : Op W HI VI) (id : String) (p : Payload W) : Prop :=
  (step env s op).2 = .ok ∧
  match op with
  | .upsert _ _ e => e.id = id ∧ ∃ v, p = written e v ∧
      if s.dim = 0 ∨ s.dim = (e.vector.getD []).length then e.vector = some v
      else env.adapt (e.vector.getD []) (e.vector.getD []).length s.dim = some v
  | .upsertBatch _ _ es => ∃ pre e post v, es = pre ++ e :: post ∧ e.id = id ∧ (∀ x ∈ post, x.id ≠ id) ∧
      e.vector = some v ∧ p = written e v
  | _ => False

/-- "This call asks for the removal of the record `r` stored under `id`." -/
def AsksRemoval (op : Op W HI VI) (id : String) (r : Rec W) : Prop :=
  match op with
  | .delete _ i => i = id
  | .deleteByDocID _ d => d ≠ "" ∧ r.docID = d
  | .deleteBatch _ ids => id ∈ ids
  | .deleteByFilter _ (some sel) => sel r.metadata = some true
  | .clear _ => True
  | .clearByDocID _ ds => r.docID ≠ "" ∧ r.docID ∈ ds
  | .deleteCollection _ name => r.collection = name
  | .deleteDocument _ _ d => d ≠ "" ∧ r.docID = d
  | _ => False

theorem find_some_of_filter {db db' : DB W} {q : Row W → Bool} (h : db'.embeddings = db.embeddings.filter q)
    (wf : WF db) (id : String) : find db' id = (find db id).filter q := by
  unfold find; rw [h]; exact find_filter (fun r : Row W => r.id) q wf.embIds id

theorem deleteChunks_eq (fault : Option Nat) (k : Nat) (rows : List (Row W)) (total : Nat) (ids : List String) :
    ∃ gone : List String, (∀ i ∈ gone, i ∈ ids) ∧
      (deleteChunks fault k rows total ids).1 = rows.filter (fun r => !gone.contains r.id) ∧
      (deleteChunks fault k rows total ids).2.1 = total + (rows.length - (deleteChunks fault k rows total ids).1.length) ∧
      ((deleteChunks fault k rows total ids).2.2 = false → ∀ i ∈ ids, i ∈ gone) := by
  induction hn : ids.length using Nat.strongRecOn generalizing ids k rows total with
  | _ n ih =>
    unfold deleteChunks
    split
    · rename_i h0
      refine ⟨[], by simp, by simp, by simp, by simp [h0]⟩
    · rename_i h0
      split
      · refine ⟨[], by simp, ?_, by simp, by simp⟩
        simp
      · have hlt : (ids.drop 500).length < n := by
          have : ids.length ≠ 0 := fun h => h0 (List.length_eq_zero_iff.1 h)
          simp only [List.length_drop]; omega
        obtain ⟨g, hg1, hg2, hg3, hg4⟩ := ih _ hlt (k + 1)
          (rows.filter (fun r => !(ids.take 500).contains r.id))
          (total + (rows.length - (rows.filter (fun r => !(ids.take 500).contains r.id)).length))
          (ids.drop 500) rfl
        refine ⟨ids.take 500 ++ g, ?_, ?_, ?_, ?_⟩
        · intro i hi
          rcases List.mem_append.1 hi with hi | hi
          · exact List.mem_of_mem_take hi
          · exact List.mem_of_mem_drop (hg1 i hi)
        · simp only []
          rw [hg2, List.filter_filter]
          congr 1; funext r
          simp only [List.contains_eq_mem, List.mem_append]
          by_cases h1 : r.id ∈ g <;> by_cases h2 : r.id ∈ ids.take 500 <;> simp [h1, h2]
        · simp only []
          rw [hg3]
          have h1 : (rows.filter (fun r => !(ids.take 500).contains r.id)).length ≤ rows.length :=
            List.length_filter_le _ _
          have h2 := List.length_filter_le (fun r => !g.contains r.id)
            (rows.filter (fun r => !(ids.take 500).contains r.id))
          rw [hg2]; omega
        · intro hf i hi
          rw [← List.take_append_drop 500 ids] at hi
          rcases List.mem_append.1 hi with hi | hi
          · exact List.mem_append_left _ hi
          · exact List.mem_append_right _ (hg4 hf i hi)

theorem clearRows_eq (ds : List String) (rows : List (Row W)) :
    ds.foldl (fun rs d => if d = "" then rs else rs.filter (fun r => r.docID ≠ some d)) rows =
      rows.filter (fun r => !ds.any (fun d => d ≠ "" && r.docID = some d)) := by
  induction ds generalizing rows with
  | nil => simp
  | cons d ds ih =>
    simp only [List.foldl_cons]
    rw [ih]
    by_cases hd : d = ""
    · simp [hd]
    · simp only [hd, if_false, List.filter_filter]
      congr 1; funext r
      simp [hd, Bool.and_comm]

theorem batchLoop_spec {fk : Bool} {fault : Option Nat} {committed : DB W} {n : Nat} {tx tx' : DB W}
    {es : List (Emb W)} (h : batchLoop fk fault committed n tx es = .ok tx') :
    (WF tx → WF tx') ∧ tx'.collections = tx.collections ∧ tx'.documents = tx.documents ∧
    (∀ id, (∃ pre e post v, es = pre ++ e :: post ∧ e.id = id ∧ (∀ x ∈ post, x.id ≠ id) ∧ e.vector = some v ∧
        (find tx' id).map rowPayload = some (written e v)) ∨
      ((∀ e ∈ es, e.id ≠ id) ∧ find tx' id = find tx id)) := by
  induction es generalizing n tx with
  | nil =>
    simp only [batchLoop] at h
    split at h
    · cases h
    · injection h with h; subst h
      exact ⟨id, rfl, rfl, fun _ => Or.inr ⟨by simp, rfl⟩⟩
  | cons e es ih =>
    simp only [batchLoop] at h
    split at h
    · cases h
    · rename_i row hrow
      obtain ⟨h1, h2, h3, h4, h5, h6, h7, _⟩ := prepareRow_ok hrow
      split at h
      · cases h
      · split at h
        · cases h
        · rename_i tx1 hins
          obtain ⟨iw, ic, idoc, ifind⟩ := ih h
          have htx1 := insertRow_ok hins
          refine ⟨fun w => iw (insertRow_wf w h7 hins), by rw [ic, htx1], by rw [idoc, htx1], ?_⟩
          intro id
          have hf1 : find tx1 id = if id = row.id then some row else find tx id := by
            rw [htx1]; exact find_upsert (fun r : Row W => r.id) tx.embeddings row id
          rcases ifind id with ⟨pre, e', post, v, he, a1, a2, a3, a4⟩ | ⟨hno, heq⟩
          · exact Or.inl ⟨e :: pre, e', post, v, by rw [he]; rfl, a1, a2, a3, a4⟩
          · by_cases hid : id = e.id
            · refine Or.inl ⟨[], e, es, row.vector, rfl, hid.symm, hno, h2, ?_⟩
              rw [heq, hf1, if_pos (by rw [h1]; exact hid)]
              simp [rowPayload, written, h3, h4, h5, h6]
            · refine Or.inr ⟨?_, ?_⟩
              · intro x hx
                rcases List.mem_cons.1 hx with rfl | hx
                · exact fun hh => hid hh.symm
                · exact hno x hx
              · rw [heq, hf1, if_neg (by rw [h1]; exact hid)]

theorem ensureDefault_wf {db : DB W} (wf : WF db) (d : Nat) : WF (ensureDefault db d) := by
  unfold ensureDefault
  split
  · exact wf
  · rename_i h
    have hn : ∀ c ∈ db.collections, c.id ≠ 1 ∧ c.name ≠ "default" := by
      simpa using h
    exact { wf with
      collIds := nodup_snoc (fun c : Coll => c.id) _ wf.collIds (fun x hx => (hn x hx).1)
      collNames := nodup_snoc (fun c : Coll => c.name) _ wf.collNames (fun x hx => (hn x hx).2)
      counter := by
        intro c hc
        simp only [List.mem_append, List.mem_singleton] at hc
        rcases hc with hc | rfl
        · have := wf.counter c hc; simp only; omega
        · simp only; omega
      positive := by simp only; omega }

theorem ensureDefault_find (db : DB W) (d : Nat) (id : String) : find (ensureDefault db d) id = find db id := by
  unfold ensureDefault; split <;> rfl

/-! ### One step: effect on rows -/

/-- Every step either is a successful write under `id`, or keeps the row under `id`, or removes it on request. -/
theorem step_cases (env : Env W HI VI) (s : St W HI VI) (wf : WF s.db) (op : Op W HI VI) (id : String) :
    WF (step env s op).1.db ∧
    ((∃ p, Writes env s op id p ∧ payload (step env s op).1 id = some p) ∨
     ((¬ ∃ p, Writes env s op id p) ∧ payload (step env s op).1 id = payload s id) ∨
     ((¬ ∃ p, Writes env s op id p) ∧ payload (step env s op).1 id = none ∧
        ∃ r, lookup s id = some r ∧ AsksRemoval op id r)) := by
  -- a step that only filters rows
  have hfilter : ∀ (s' : St W HI VI) (q : Row W → Bool), s'.db.embeddings = s.db.embeddings.filter q →
      (∀ p, ¬ Writes env s op id p) →
      (∀ r, find s.db id = some r → q r = false → AsksRemoval op id (toRec s.db r)) →
      ((∃ p, Writes env s op id p ∧ payload s' id = some p) ∨
       ((¬ ∃ p, Writes env s op id p) ∧ payload s' id = payload s id) ∨
       ((¬ ∃ p, Writes env s op id p) ∧ payload s' id = none ∧ ∃ r, lookup s id = some r ∧ AsksRemoval op id r)) := by
    intro s' q hq hw hr
    right
    have hw' : ¬ ∃ p, Writes env s op id p := fun ⟨p, hp⟩ => hw p hp
    have hf := find_some_of_filter hq wf id
    cases hfind : find s.db id with
    | none => left; exact ⟨hw', by rw [payload_eq, payload_eq, hf, hfind]; rfl⟩
    | some r =>
      by_cases hqr : q r
      · left; exact ⟨hw', by rw [payload_eq, payload_eq, hf, hfind]; simp [Option.filter, hqr]⟩
      · right
        refine ⟨hw', by rw [payload_eq, hf, hfind]; simp [Option.filter, hqr], toRec s.db r, ?_, hr r hfind (by simpa using hqr)⟩
        unfold lookup getByID
        simp only [Bool.false_eq_true, if_false]
        change find s.db id = some r at hfind
        unfold find at hfind
        rw [hfind]
  have hsame : ∀ (s' : St W HI VI), s'.db.embeddings = s.db.embeddings → (∀ p, ¬ Writes env s op id p) →
      ((∃ p, Writes env s op id p ∧ payload s' id = some p) ∨
       ((¬ ∃ p, Writes env s op id p) ∧ payload s' id = payload s id) ∨
       ((¬ ∃ p, Writes env s op id p) ∧ payload s' id = none ∧ ∃ r, lookup s id = some r ∧ AsksRemoval op id r)) := by
    intro s' hq hw
    apply hfilter s' (fun _ => true) (by rw [hq]; simp) hw
    simp
  have wfFilter : ∀ q : Row W → Bool, WF { s.db with embeddings := s.db.embeddings.filter q } := fun q =>
    { wf with
      embIds := nodup_map_filter _ q wf.embIds
      noEmptyDoc := fun r hr => wf.noEmptyDoc r (List.mem_filter.1 hr).1 }
  have hdoc : ∀ r, find s.db id = some r → ∀ d, r.docID = some d → d ≠ "" ∧ (toRec s.db r).docID = d := by
    intro r hr d hd
    refine ⟨?_, by simp [toRec, hd]⟩
    rintro rfl
    exact wf.noEmptyDoc r (List.mem_of_find?_eq_some hr) hd
  have hid : ∀ r, find s.db id = some r → r.id = id := by
    intro r hr; simpa using List.find?_some hr
  cases op with
  | upsert fk fault e =>
    simp only [step]
    unfold upsert
    split
    · rename_i hc
      refine ⟨wf, hsame s rfl ?_⟩
      intro p hp; simp [Writes, step, upsert, hc] at hp
    rename_i hc
    simp only []
    set inc := (e.vector.getD []).length with hinc
    set s1 : St W HI VI := if s.dim = 0 then { s with dim := inc } else s with hs1
    have hdb : s1.db = s.db := by rw [hs1]; split <;> rfl
    have hstep : (step env s (.upsert fk fault e)) = upsert env s fk fault e := rfl
    have hunf : upsert env s fk fault e =
        match (if inc ≠ s1.dim then (env.adapt (e.vector.getD []) inc s1.dim).map some else some e.vector) with
        | none => (s1, .err .adaptation)
        | some v =>
          match prepareRow s1.db { e with vector := v } with
          | .error er => (s1, .err er)
          | .ok row =>
            if fault then (s1, .err .io)
            else match insertRow fk s1.db row with
              | .error er => (s1, .err er)
              | .ok db' => ({ s1 with
                  db := db'
                  hnsw := s1.hnsw.map (fun h => env.hInsert h row.id row.vector)
                  ivf := s1.ivf.map (fun i => if env.vTrained i then env.vAdd i row.id row.vector else i) }, .ok) := by
      unfold upsert; rw [if_neg hc]; rfl
    have hfail : ∀ er, upsert env s fk fault e = (s1, .err er) → ∀ p, ¬ Writes env s (.upsert fk fault e) id p := by
      intro er he p hp
      have := hp.1
      rw [hstep, he] at this
      cases this
    split
    · rename_i hv
      exact ⟨by rw [hdb]; exact wf, hsame s1 (by rw [hdb]) (hfail _ (by rw [hunf, hv]))⟩
    · rename_i v hv
      split
      · rename_i er hp
        exact ⟨by rw [hdb]; exact wf, hsame s1 (by rw [hdb]) (hfail er (by rw [hunf, hv]; simp only [hp]))⟩
      · rename_i row hp
        obtain ⟨h1, h2, h3, h4, h5, h6, h7, _⟩ := prepareRow_ok hp
        simp only at h1 h2 h3 h4 h5 h6
        split
        · rename_i hfa
          exact ⟨by rw [hdb]; exact wf, hsame s1 (by rw [hdb])
            (hfail .io (by rw [hunf, hv]; simp only [hp, hfa, if_true]))⟩
        · rename_i hfa
          split
          · rename_i er hi
            exact ⟨by rw [hdb]; exact wf, hsame s1 (by rw [hdb])
              (hfail er (by rw [hunf, hv]; simp only [hp, hfa, hi]; rfl))⟩
          · rename_i db' hi
            refine ⟨insertRow_wf (by rw [hdb]; exact wf) h7 hi, ?_⟩
            have hok : (step env s (.upsert fk fault e)).2 = .ok := by
              rw [hstep, hunf, hv]; simp only [hp, hfa, hi]; rfl
            have hf : find db' id = if id = row.id then some row else find s.db id := by
              rw [insertRow_ok hi, ← hdb]
              exact find_upsert (fun r : Row W => r.id) s1.db.embeddings row id
            by_cases hide : id = e.id
            · left
              refine ⟨written e row.vector, ⟨hok, hide.symm, row.vector, rfl, ?_⟩, ?_⟩
              · by_cases h0 : s.dim = 0
                · have hd1 : s1.dim = inc := by rw [hs1]; simp [h0]
                  rw [if_pos (Or.inl h0)]
                  rw [if_neg (by rw [hd1]; simp)] at hv
                  injection hv with hv
                  rw [hv, h2]
                · have hd1 : s1.dim = s.dim := by rw [hs1]; simp [h0]
                  by_cases hl : s.dim = inc
                  · rw [if_pos (Or.inr hl)]
                    rw [if_neg (by rw [hd1]; simp [hl])] at hv
                    injection hv with hv
                    rw [hv, h2]
                  · rw [if_neg (by simp only [not_or]; exact ⟨h0, hl⟩)]
                    rw [if_pos (by rw [hd1]; exact fun hh => hl hh.symm), hd1] at hv
                    rw [Option.map_eq_some_iff] at hv
                    obtain ⟨w, hw, rfl⟩ := hv
                    simp only [Option.some.injEq] at h2
                    rw [← hinc, hw, h2]
              · rw [payload_eq, hf, if_pos (by rw [h1]; exact hide)]
                simp [rowPayload, written, h3, h4, h5, h6]
            · right; left
              refine ⟨?_, ?_⟩
              · rintro ⟨p, hp⟩; exact hide hp.2.1.symm
              · rw [payload_eq, payload_eq, hf, if_neg (by rw [h1]; exact hide)]
  | upsertBatch fk fault es =>
    simp only [step]
    have hfail : ∀ er, upsertBatch env s fk fault es = (s, .err er) → ∀ p, ¬ Writes env s (.upsertBatch fk fault es) id p := by
      intro er he p hp
      have := hp.1
      simp only [step, he] at this
      cases this
    unfold upsertBatch
    split
    · rename_i hc
      exact ⟨wf, hsame s rfl (hfail .closed (by simp [upsertBatch, hc]))⟩
    · rename_i hc
      split
      · rename_i h0
        refine ⟨wf, hsame s rfl ?_⟩
        rintro p ⟨_, pre, e, post, v, he, _⟩
        rw [List.length_eq_zero_iff.1 h0] at he
        simp at he
      · rename_i h0
        split
        · rename_i er hb
          exact ⟨wf, hsame s rfl (hfail er (by unfold upsertBatch; rw [if_neg hc, if_neg h0, hb]))⟩
        · rename_i db' hb
          obtain ⟨hw, hcol, hdocs, hfind⟩ := batchLoop_spec hb
          refine ⟨hw wf, ?_⟩
          have hok : (step env s (.upsertBatch fk fault es)).2 = .ok := by
            simp only [step]; unfold upsertBatch; rw [if_neg hc, if_neg h0, hb]
          rcases hfind id with ⟨pre, e, post, v, a0, a1, a2, a3, a4⟩ | ⟨hno, heq⟩
          · left
            exact ⟨written e v, ⟨hok, pre, e, post, v, a0, a1, a2, a3, rfl⟩, by rw [payload_eq]; exact a4⟩
          · right; left
            refine ⟨?_, by rw [payload_eq, payload_eq, heq]⟩
            rintro ⟨p, _, pre, e, post, v, he, hee, _⟩
            exact hno e (by rw [he]; simp) hee
  | delete fault i =>
    simp only [step, delete]
    split
    · exact ⟨wf, hsame _ rfl (by simp [Writes])⟩
    · split
      · exact ⟨wf, hsame _ rfl (by simp [Writes])⟩
      · split
        · exact ⟨wf, hsame _ rfl (by simp [Writes])⟩
        · split
          · refine ⟨wfFilter _, hfilter _ (fun r => decide (r.id ≠ i)) rfl (by simp [Writes]) ?_⟩
            intro r hr hq
            have := hid r hr
            simp only [AsksRemoval]
            simp only [ne_eq, decide_not, Bool.not_eq_eq_eq_not, Bool.not_false, decide_eq_true_eq] at hq
            rw [← hq, this]
          · exact ⟨wf, hsame _ rfl (by simp [Writes])⟩
  | deleteByDocID fault d =>
    simp only [step, deleteByDocID]
    split
    · exact ⟨wf, hsame _ rfl (by simp [Writes])⟩
    · split
      · exact ⟨wf, hsame _ rfl (by simp [Writes])⟩
      · split
        · exact ⟨wf, hsame _ rfl (by simp [Writes])⟩
        · refine ⟨wfFilter _, hfilter _ (fun r => decide (r.docID ≠ some d)) rfl (by simp [Writes]) ?_⟩
          intro r hr hq
          simp only [ne_eq, decide_not, Bool.not_eq_eq_eq_not, Bool.not_false, decide_eq_true_eq] at hq
          exact hdoc r hr d hq
  | deleteBatch fault ids =>
    simp only [step, deleteBatch]
    split
    · exact ⟨wf, hsame _ rfl (by simp [Writes])⟩
    · split
      · exact ⟨wf, hsame _ rfl (by simp [Writes])⟩
      · split
        · exact ⟨wf, hsame _ rfl (by simp [Writes])⟩
        · obtain ⟨g, hg1, hg2, _, _⟩ := deleteChunks_eq fault 0 s.db.embeddings 0 (ids.filter (fun i => !isBlank i))
          have hask : ∀ r, find s.db id = some r → (!g.contains r.id) = false →
              AsksRemoval (HI := HI) (VI := VI) (.deleteBatch fault ids) id (toRec s.db r) := by
            intro r hr hq
            simp only [Bool.not_eq_eq_eq_not, Bool.not_false, List.contains_eq_mem, decide_eq_true_eq] at hq
            have := hg1 _ hq
            rw [hid r hr] at this
            exact (List.mem_filter.1 this).1
          have hwf : WF { s.db with embeddings := (deleteChunks fault 0 s.db.embeddings 0 (ids.filter (fun i => !isBlank i))).1 } := by
            rw [hg2]; exact wfFilter _
          split
          · exact ⟨hwf, hfilter _ _ hg2 (by simp [Writes]) hask⟩
          · split
            · exact ⟨hwf, hfilter _ _ hg2 (by simp [Writes]) hask⟩
            · exact ⟨hwf, hfilter _ _ hg2 (by simp [Writes]) hask⟩
  | deleteByFilter fault sel =>
    simp only [step, deleteByFilter]
    split
    · exact ⟨wf, hsame _ rfl (by simp [Writes])⟩
    · rename_i p
      split
      · exact ⟨wf, hsame _ rfl (by simp [Writes])⟩
      · split
        · exact ⟨wf, hsame _ rfl (by simp [Writes])⟩
        · split
          · exact ⟨wf, hsame _ rfl (by simp [Writes])⟩
          · split
            · exact ⟨wf, hsame _ rfl (by simp [Writes])⟩
            · refine ⟨wfFilter _, hfilter _ (fun r => !(p r.metadata == some true)) rfl (by simp [Writes]) ?_⟩
              intro r hr hq
              simpa [AsksRemoval, toRec] using hq
  | clear fault =>
    simp only [step, clear]
    split
    · exact ⟨wf, hsame _ rfl (by simp [Writes])⟩
    · split
      · exact ⟨wf, hsame _ rfl (by simp [Writes])⟩
      · refine ⟨?_, hfilter _ (fun _ => false) (by simp) (by simp [Writes]) (by simp [AsksRemoval])⟩
        have := wfFilter (fun _ => false)
        simpa using this
  | clearByDocID fault ds =>
    simp only [step, clearByDocID]
    split
    · exact ⟨wf, hsame _ rfl (by simp [Writes])⟩
    · split
      · exact ⟨wf, hsame _ rfl (by simp [Writes])⟩
      · split
        · exact ⟨wf, hsame _ rfl (by simp [Writes])⟩
        · have hq := clearRows_eq ds s.db.embeddings
          refine ⟨by rw [hq]; exact wfFilter _, hfilter _ _ hq (by simp [Writes]) ?_⟩
          intro r hr hq
          simp only [ne_eq, decide_not, Bool.not_eq_eq_eq_not, Bool.not_false, List.any_eq_true, Bool.and_eq_true,
            Bool.not_eq_true', decide_eq_false_iff_not, decide_eq_true_eq] at hq
          obtain ⟨d, hd, hne, hdd⟩ := hq
          have := hdoc r hr d hdd
          simp only [AsksRemoval]
          rw [this.2]
          exact ⟨this.1, hd⟩
  | createCollection fault name dims =>
    simp only [step, createCollection]
    split
    · exact ⟨wf, hsame _ rfl (by simp [Writes])⟩
    · split
      · exact ⟨wf, hsame _ rfl (by simp [Writes])⟩
      · rename_i hnot
        split
        · exact ⟨wf, hsame _ rfl (by simp [Writes])⟩
        · split
          · exact ⟨wf, hsame _ rfl (by simp [Writes])⟩
          · refine ⟨?_, hsame _ rfl (by simp [Writes])⟩
            have hnot' : ∀ c ∈ s.db.collections, c.name ≠ name := by simpa using hnot
            exact { wf with
              collIds := nodup_snoc (fun c : Coll => c.id) _ wf.collIds
                (fun x hx => by have := wf.counter x hx; simp only; omega)
              collNames := nodup_snoc (fun c : Coll => c.name) _ wf.collNames (fun x hx => hnot' x hx)
              counter := by
                intro c hc
                simp only [List.mem_append, List.mem_singleton] at hc
                rcases hc with hc | rfl
                · have := wf.counter c hc; simp only; omega
                · simp only; omega
              positive := by have := wf.positive; simp only; omega }
  | deleteCollection fault name =>
    simp only [step, deleteCollection]
    split
    · exact ⟨wf, hsame _ rfl (by simp [Writes])⟩
    · split
      · exact ⟨wf, hsame _ rfl (by simp [Writes])⟩
      · rename_i c hc
        split
        · exact ⟨wf, hsame _ rfl (by simp [Writes])⟩
        · have hcm := List.mem_of_find?_eq_some hc
          have hcn : c.name = name := by simpa using List.find?_some hc
          refine ⟨?_, hfilter _ (fun r => decide (r.cid ≠ c.id)) rfl (by simp [Writes]) ?_⟩
          · have := wfFilter (fun r => decide (r.cid ≠ c.id))
            exact { this with
              collIds := nodup_map_filter _ _ wf.collIds
              collNames := nodup_map_filter _ _ wf.collNames
              counter := fun x hx => wf.counter x (List.mem_filter.1 hx).1 }
          · intro r hr hq
            simp only [ne_eq, decide_not, Bool.not_eq_eq_eq_not, Bool.not_false, decide_eq_true_eq] at hq
            simp only [AsksRemoval, toRec]
            have : s.db.collections.find? (fun x => x.id = r.cid) = some c := by
              cases hff : s.db.collections.find? (fun x => x.id = r.cid) with
              | none =>
                rw [List.find?_eq_none] at hff
                exact absurd (hff c hcm) (by simp [hq])
              | some c' =>
                have h1 := List.mem_of_find?_eq_some hff
                have h2 : c'.id = r.cid := by simpa using List.find?_some hff
                have := nodup_inj (fun c : Coll => c.id) wf.collIds h1 hcm (by rw [h2, hq])
                rw [this]
            rw [this, ← hcn]
  | createDocument fault d =>
    simp only [step, createDocument]
    split
    · exact ⟨wf, hsame _ rfl (by simp [Writes])⟩
    · split
      · exact ⟨wf, hsame _ rfl (by simp [Writes])⟩
      · split
        · exact ⟨wf, hsame _ rfl (by simp [Writes])⟩
        · rename_i hnot
          have hnot' : ∀ x ∈ s.db.documents, x.id ≠ d.id := by simpa using hnot
          exact ⟨{ wf with docIds := nodup_snoc (fun d : Doc => d.id) _ wf.docIds hnot' }, hsame _ rfl (by simp [Writes])⟩
  | updateDocument fault d =>
    simp only [step, updateDocument]
    split
    · exact ⟨wf, hsame _ rfl (by simp [Writes])⟩
    · split
      · exact ⟨wf, hsame _ rfl (by simp [Writes])⟩
      · split
        · refine ⟨{ wf with docIds := ?_ }, hsame _ rfl (by simp [Writes])⟩
          simp only [List.map_map]
          have : ((fun d : Doc => d.id) ∘ fun x => if x.id = d.id then d else x) = fun x => x.id := by
            funext x; by_cases hx : x.id = d.id <;> simp [hx]
          rw [this]; exact wf.docIds
        · exact ⟨wf, hsame _ rfl (by simp [Writes])⟩
  | deleteDocument fk fault i =>
    simp only [step, deleteDocument]
    split
    · exact ⟨wf, hsame _ rfl (by simp [Writes])⟩
    · split
      · exact ⟨wf, hsame _ rfl (by simp [Writes])⟩
      · split
        · refine ⟨?_, hfilter _ (fun r => decide (r.docID ≠ some i)) rfl (by simp [Writes]) ?_⟩
          · have := wfFilter (fun r => decide (r.docID ≠ some i))
            exact { this with docIds := nodup_map_filter _ _ wf.docIds }
          · intro r hr hq
            simp only [ne_eq, decide_not, Bool.not_eq_eq_eq_not, Bool.not_false, decide_eq_true_eq] at hq
            exact hdoc r hr i hq
        · exact ⟨{ wf with docIds := nodup_map_filter _ _ wf.docIds }, hsame _ rfl (by simp [Writes])⟩
  | close => exact ⟨wf, hsame _ rfl (by simp [Writes])⟩
  | reopen d h v =>
    refine ⟨ensureDefault_wf wf d, hsame _ ?_ (by simp [Writes])⟩
    simp only [step, reopen, ensureDefault]; split <;> rfl

theorem init_wf (dim : Nat) (h : Option HI) (v : Option VI) : WF (init (W := W) dim h v).db := by
  apply ensureDefault_wf (db := { collections := [], nextColl := 1, documents := [], embeddings := [] })
  exact ⟨by simp, by simp, by simp, by simp, by simp, by simp, by simp⟩

theorem run_wf (env : Env W HI VI) (s : St W HI VI) (wf : WF s.db) (ops : List (Op W HI VI)) :
    WF (run env s ops).db := by
  induction ops generalizing s with
  | nil => exact wf
  | cons op ops ih => exact ih _ (step_cases env s wf op "").1

theorem run_append (env : Env W HI VI) (s : St W HI VI) (a b : List (Op W HI VI)) :
    run env s (a ++ b) = run env (run env s a) b := by simp [run, List.foldl_append]

end Verif.Thm.Store
