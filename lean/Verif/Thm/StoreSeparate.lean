import Verif.Thm.StoreColl
import Mathlib.Data.List.Induction

/-! C234: what calls about one collection do to another; C235: what the declared dimension of a collection does. -/
namespace Verif.Thm.StoreColl
open Verif.Model.Store Verif.Thm.Store Verif.Thm.StoreIndex

variable {W HI VI : Type}

/-! ### Specification -/

/-- The record a collection holds under an id, as `GetByID` shows it. -/
def holds (s : St W HI VI) (name id : String) : Option (Rec W) := (lookup s id).filter (fun r => r.collection = name)

/-- A call that names records and collections, and neither this record nor this collection. Calls that select by metadata or document,
and `Clear`, speak about all collections and are left out. -/
def Elsewhere (name id : String) : Op W HI VI → Prop
  | .upsert _ _ e => e.id ≠ id
  | .upsertBatch _ _ es => ∀ e ∈ es, e.id ≠ id
  | .delete _ i => i ≠ id
  | .deleteBatch _ ids => id ∉ ids
  | .createCollection _ n _ => n ≠ name
  | .deleteCollection _ n => n ≠ name
  | .createDocument _ _ => True
  | .updateDocument _ _ => True
  | .close => True
  | .reopen _ _ _ => name ≠ "default"
  | _ => False

/-! ### Helpers -/

def nameOf (db : DB W) (cid : Int) : String :=
  match db.collections.find? (fun c => c.id = cid) with
  | some c => c.name
  | none => ""

theorem holds_eq (s : St W HI VI) (name id : String) :
    holds s name id = (find s.db id).bind fun r => if nameOf s.db r.cid = name then some (toRec s.db r) else none := by
  unfold holds lookup getByID find
  simp only [Bool.false_eq_true, if_false]
  cases s.db.embeddings.find? (fun r => decide (r.id = id)) with
  | none => rfl
  | some r =>
    show (some (toRec s.db r)).filter _ = if nameOf s.db r.cid = name then some (toRec s.db r) else none
    have : (toRec s.db r).collection = nameOf s.db r.cid := rfl
    simp [Option.filter, this]

theorem holds_of (s s' : St W HI VI) (name id : String) (hf : find s'.db id = find s.db id)
    (hn : ∀ c, nameOf s'.db c = name ↔ nameOf s.db c = name) : holds s' name id = holds s name id := by
  rw [holds_eq, holds_eq, hf]
  cases find s.db id with
  | none => rfl
  | some r =>
    simp only [Option.bind_some]
    by_cases h : nameOf s.db r.cid = name
    · rw [if_pos h, if_pos ((hn _).2 h)]
      have h' := (hn _).2 h
      have e1 : toRec s'.db r = ⟨r.vector, r.content, r.docID.getD "", r.metadata, r.acl.getD [], nameOf s'.db r.cid⟩ := rfl
      have e2 : toRec s.db r = ⟨r.vector, r.content, r.docID.getD "", r.metadata, r.acl.getD [], nameOf s.db r.cid⟩ := rfl
      rw [e1, e2, h, h']
    · rw [if_neg h, if_neg (fun x => h ((hn _).1 x))]

theorem nameOf_snoc (db db' : DB W) (k : Coll) (hc : db'.collections = db.collections ++ [k]) (name : String) (h0 : name ≠ "")
    (hk : k.name ≠ name) (c : Int) : nameOf db' c = name ↔ nameOf db c = name := by
  unfold nameOf
  rw [hc, List.find?_append]
  cases db.collections.find? (fun x => decide (x.id = c)) with
  | some x => rfl
  | none =>
    by_cases h : k.id = c
    · simp [h, hk, Ne.symm h0]
    · simp [h]

theorem nameOf_filter (db db' : DB W) (k : Coll) (hk : k ∈ db.collections) (wf : WF db)
    (hc : db'.collections = db.collections.filter (fun x => x.id ≠ k.id)) (name : String) (h0 : name ≠ "")
    (hn : k.name ≠ name) (c : Int) : nameOf db' c = name ↔ nameOf db c = name := by
  unfold nameOf
  rw [hc, find_filter (fun x : Coll => x.id) _ wf.collIds c]
  cases hf : db.collections.find? (fun x => decide (x.id = c)) with
  | none => rfl
  | some x =>
    by_cases h : x.id = k.id
    · have : x = k := nodup_inj (fun c : Coll => c.id) wf.collIds (List.mem_of_find?_eq_some hf) hk h
      subst this
      simp [Option.filter, hn, Ne.symm h0]
    · simp [Option.filter, h]

theorem find_drop {db db' : DB W} (wf : WF db) (id : String) (q : Row W → Bool) (hq : db'.embeddings = db.embeddings.filter q)
    (h : ∀ r, find db id = some r → q r = true) : find db' id = find db id := by
  rw [find_some_of_filter hq wf id]
  cases hf : find db id with
  | none => rfl
  | some r => simp [Option.filter, h r hf]

theorem find_id {db : DB W} {id : String} {r : Row W} (h : find db id = some r) : r.id = id := by
  simpa using List.find?_some h

/-! ### C234 -/

theorem step_elsewhere (env : Env W HI VI) (s : St W HI VI) (wf : WF s.db) (name id : String) (h0 : name ≠ "") (op : Op W HI VI)
    (ho : Elsewhere name id op) : holds (step env s op).1 name id = holds s name id := by
  have same : ∀ s' : St W HI VI, s'.db = s.db → holds s' name id = holds s name id := fun s' h =>
    holds_of s s' name id (by rw [h]) (by rw [h]; exact fun _ => Iff.rfl)
  cases op with
  | upsert fk f e =>
    rw [step]
    rcases upsert_split env s fk f e with ⟨_, h2, _⟩ | ⟨_, row, hid, _, h2, _⟩
    · exact same _ h2
    · refine holds_of s _ name id ?_ (by rw [h2]; exact fun _ => Iff.rfl)
      rw [h2]
      have := find_upsert (fun r : Row W => r.id) s.db.embeddings row id
      rw [if_neg (by rw [hid]; exact fun h => ho h.symm)] at this
      exact this
  | upsertBatch fk f es =>
    simp only [step, upsertBatch]
    split
    · exact same _ rfl
    split
    · exact same _ rfl
    split
    · exact same _ rfl
    rename_i db' hb
    obtain ⟨_, h2, _, h4⟩ := batchLoop_spec hb
    refine holds_of s _ name id ?_ (by unfold nameOf; simp only [h2, implies_true])
    rcases h4 id with ⟨pre, e, post, _, hs, he, _⟩ | ⟨_, h⟩
    · exact absurd he (ho e (by rw [hs]; simp))
    · exact h
  | delete f i =>
    simp only [step, delete]
    split
    · exact same _ rfl
    split
    · exact same _ rfl
    split
    · exact same _ rfl
    split
    · refine holds_of s _ name id (find_drop wf id _ rfl fun r hr => ?_) (fun _ => Iff.rfl)
      rw [find_id hr]
      simpa using fun h : id = i => ho h.symm
    · exact same _ rfl
  | deleteBatch f ids =>
    have hrows : ∀ s' : St W HI VI, s'.db = { s.db with embeddings := (deleteChunks f 0 s.db.embeddings 0
        (ids.filter (fun i => !isBlank i))).1 } → holds s' name id = holds s name id := by
      intro s' hs'
      obtain ⟨gone, hg, he, _⟩ := deleteChunks_eq f 0 s.db.embeddings 0 (ids.filter (fun i => !isBlank i))
      refine holds_of s s' name id ?_ (by rw [hs']; exact fun _ => Iff.rfl)
      refine find_drop wf id (fun r => !gone.contains r.id) (by rw [hs']; exact he) fun r hr => ?_
      have : id ∉ gone := fun h => ho (List.mem_filter.1 (hg id h)).1
      simp [find_id hr, this]
    simp only [step, deleteBatch]
    split
    · exact same _ rfl
    split
    · exact same _ rfl
    split
    · exact same _ rfl
    split
    · exact hrows _ rfl
    split
    · exact hrows _ rfl
    · exact hrows _ rfl
  | createCollection f n d =>
    simp only [step, createCollection]
    split
    · exact same _ rfl
    split
    · exact same _ rfl
    split
    · exact same _ rfl
    split
    · exact same _ rfl
    · exact holds_of s _ name id rfl (nameOf_snoc _ _ ⟨s.db.nextColl, n, d⟩ rfl name h0 ho)
  | deleteCollection f n =>
    simp only [step, deleteCollection]
    split
    · exact same _ rfl
    split
    · exact same _ rfl
    rename_i c hc
    split
    · exact same _ rfl
    have hcm := List.mem_of_find?_eq_some hc
    have hcn : c.name = n := by simpa using List.find?_some hc
    have hn := nameOf_filter s.db
      ⟨s.db.collections.filter (fun x => x.id ≠ c.id), s.db.nextColl, s.db.documents, s.db.embeddings.filter (fun r => r.cid ≠ c.id)⟩ c hcm wf rfl name h0 (by rw [hcn]; exact ho)
    rw [holds_eq, holds_eq]
    show (find (⟨s.db.collections.filter (fun x => x.id ≠ c.id), s.db.nextColl, s.db.documents,
      s.db.embeddings.filter (fun r => r.cid ≠ c.id)⟩ : DB W) id).bind _ = _
    rw [find_some_of_filter (db := s.db) rfl wf id]
    cases hf : find s.db id with
    | none => rfl
    | some r =>
      by_cases hr : r.cid = c.id
      · have hno : nameOf s.db r.cid ≠ name := by
          have : s.db.collections.find? (fun x => decide (x.id = r.cid)) = some c := by
            cases hf2 : s.db.collections.find? (fun x => decide (x.id = r.cid)) with
            | none => exact absurd (List.find?_eq_none.1 hf2 c hcm) (by simp [hr])
            | some x =>
              have h3 : x.id = r.cid := by simpa using List.find?_some hf2
              exact congrArg some (nodup_inj (fun c : Coll => c.id) wf.collIds (List.mem_of_find?_eq_some hf2) hcm (h3.trans hr))
          unfold nameOf
          rw [this]
          show c.name ≠ name
          rw [hcn]; exact ho
        simp [Option.filter, hr]
        rw [← hr]
        exact fun h => absurd h hno
      · have h1 : Option.filter (fun r : Row W => decide (r.cid ≠ c.id)) (some r) = some r := by simp [Option.filter, hr]
        rw [h1]
        simp only [Option.bind_some]
        by_cases h : nameOf s.db r.cid = name
        · rw [if_pos h]
          have h' := (hn r.cid).2 h
          rw [if_pos h']
          have e2 : toRec s.db r = ⟨r.vector, r.content, r.docID.getD "", r.metadata, r.acl.getD [], nameOf s.db r.cid⟩ := rfl
          rw [e2, h, ← h']
          rfl
        · rw [if_neg h, if_neg (fun x => h ((hn _).1 x))]
  | createDocument f d =>
    simp only [step, createDocument]
    split
    · exact same _ rfl
    split
    · exact same _ rfl
    split
    · exact same _ rfl
    · exact holds_of s _ name id rfl (fun _ => Iff.rfl)
  | updateDocument f d =>
    simp only [step, updateDocument]
    split
    · exact same _ rfl
    split
    · exact same _ rfl
    split
    · exact holds_of s _ name id rfl (fun _ => Iff.rfl)
    · exact same _ rfl
  | close => exact same _ rfl
  | reopen d h v =>
    simp only [step, reopen]
    refine holds_of s _ name id (ensureDefault_find s.db d id) ?_
    unfold ensureDefault
    split
    · exact fun _ => Iff.rfl
    · exact nameOf_snoc _ _ ⟨1, "default", d⟩ rfl name h0 (fun h => ho h.symm)
  | _ => exact ho.elim

/-- C234, proved part: a collection holds under an id what it held, or nothing if it held nothing, through any history of calls that name
other ids and other collections. Missing: the same id in two collections, see `C234_moved_violated`. -/
theorem C234_separate_partial (env : Env W HI VI) (s : St W HI VI) (wf : WF s.db) (name id : String) (h0 : name ≠ "")
    (ops : List (Op W HI VI)) (ho : ∀ op ∈ ops, Elsewhere name id op) : holds (run env s ops) name id = holds s name id := by
  induction ops using List.reverseRecOn with
  | nil => rfl
  | append_singleton ops op ih =>
    rw [run_append]
    show holds (step env (run env s ops) op).1 name id = _
    rw [step_elsewhere env _ (run_wf env s wf ops) name id h0 op (ho op (by simp)), ih (fun o h => ho o (by simp [h]))]

/-- C234 is violated in every state: a successful `Upsert` into another collection under an id that a collection holds takes the record out
of that collection. -/
theorem C234_moved_violated (env : Env W HI VI) (s : St W HI VI) (wf : WF s.db) (fk f : Bool) (e : Emb W) (name : String)
    (hn : e.collection ≠ name) (h0 : e.collectionID = 0) (h1 : e.collection ≠ "") (hok : (step env s (.upsert fk f e)).2 = .ok) :
    holds (step env s (.upsert fk f e)).1 name e.id = none ∧
      ∃ r, holds (step env s (.upsert fk f e)).1 e.collection e.id = some r := by
  have hc : s.closed = false := by
    cases h : s.closed with
    | false => rfl
    | true => simp [step, upsert, h] at hok
  obtain ⟨r, hr, hrc⟩ := C163_shown env s wf hc fk f e h0 h1 hok
  have hl : lookup (step env s (.upsert fk f e)).1 e.id = some r := by
    have hcl : (step env s (.upsert fk f e)).1.closed = false := by
      unfold getByID at hr
      split at hr
      · cases hr
      · rename_i hx; simpa using hx
    exact (getByID_payload _ hcl e.id r).1 hr
  refine ⟨?_, ?_⟩
  · unfold holds
    rw [hl]
    simp [Option.filter, hrc, hn]
  · unfold holds
    rw [hl]
    exact ⟨r, by simp [Option.filter, hrc]⟩

/-! ### C235 -/

/-- The same tables with other declared dimensions. -/
def redimDB (g : Int → Int) (db : DB W) : DB W :=
  ⟨db.collections.map (fun c => ⟨c.id, c.name, g c.id⟩), db.nextColl, db.documents, db.embeddings⟩

/-- The same store with other declared dimensions. -/
def redim (g : Int → Int) (s : St W HI VI) : St W HI VI := ⟨redimDB g s.db, s.dim, s.closed, s.hnsw, s.ivf⟩

theorem prepareRow_redim (g : Int → Int) (db : DB W) (e : Emb W) : prepareRow (redimDB g db) e = prepareRow db e := by
  have h : resolveCollection (redimDB g db) e = resolveCollection db e := by
    unfold resolveCollection redimDB
    split
    · rfl
    split
    · simp only [List.find?_map]
      have : ((fun c : Coll => decide (c.name = e.collection)) ∘ fun c : Coll => (⟨c.id, c.name, g c.id⟩ : Coll)) =
          fun c : Coll => decide (c.name = e.collection) := rfl
      rw [this]
      cases db.collections.find? (fun c => decide (c.name = e.collection)) <;> rfl
    · rfl
  unfold prepareRow
  rw [h]

theorem insertRow_redim (g : Int → Int) (fk : Bool) (db : DB W) (r : Row W) :
    insertRow fk (redimDB g db) r = (insertRow fk db r).map (redimDB g) := by
  have h : fkHolds (redimDB g db) r = fkHolds db r := by
    unfold fkHolds redimDB
    simp only [List.any_map]
    rfl
  unfold insertRow
  rw [h]
  split <;> rfl

theorem batchLoop_redim (g : Int → Int) (fk : Bool) (fault : Option Nat) (db : DB W) (es : List (Emb W)) : ∀ (n : Nat) (tx : DB W),
    batchLoop fk fault (redimDB g db) n (redimDB g tx) es = (batchLoop fk fault db n tx es).map (redimDB g) := by
  induction es with
  | nil =>
    intro n tx
    simp only [batchLoop]
    split <;> rfl
  | cons e es ih =>
    intro n tx
    simp only [batchLoop, prepareRow_redim]
    cases prepareRow db e with
    | error er => rfl
    | ok row =>
      simp only
      split
      · rfl
      rw [insertRow_redim]
      cases insertRow fk tx row with
      | error er => rfl
      | ok tx' => exact ih (n + 1) tx'

/-- C235 is violated in every state: the dimensions collections were created with have no part in writing. With any other declared
dimensions the same calls succeed and store the same. -/
theorem C235_ignored_violated (env : Env W HI VI) (g : Int → Int) (s : St W HI VI) :
    (∀ fk f e, step env (redim g s) (.upsert fk f e) =
      (redim g (step env s (.upsert fk f e)).1, (step env s (.upsert fk f e)).2)) ∧
    ∀ fk f es, step env (redim g s) (.upsertBatch fk f es) =
      (redim g (step env s (.upsertBatch fk f es)).1, (step env s (.upsertBatch fk f es)).2) := by
  constructor
  · intro fk f e
    simp only [step, upsert]
    have h1 : (redim g s).closed = s.closed := rfl
    have h2 : (redim g s).dim = s.dim := rfl
    rw [h1, h2]
    split
    · rfl
    have h3 : (if s.dim = 0 then (⟨(redim g s).db, (e.vector.getD []).length, s.closed, (redim g s).hnsw, (redim g s).ivf⟩ : St W HI VI)
        else redim g s) = redim g (if s.dim = 0 then ⟨s.db, (e.vector.getD []).length, s.closed, s.hnsw, s.ivf⟩ else s) := by
      split <;> rfl
    rw [h3]
    generalize (if s.dim = 0 then (⟨s.db, (e.vector.getD []).length, s.closed, s.hnsw, s.ivf⟩ : St W HI VI) else s) = s1
    have h4 : (redim g s1).dim = s1.dim := rfl
    have h5 : (redim g s1).db = redimDB g s1.db := rfl
    rw [h4, h5]
    generalize (if (e.vector.getD []).length ≠ s1.dim then (env.adapt (e.vector.getD []) (e.vector.getD []).length s1.dim).map some
      else some e.vector) = vec
    cases vec with
    | none => rfl
    | some v =>
      simp only [prepareRow_redim]
      cases prepareRow s1.db { e with vector := v } with
      | error er => rfl
      | ok row =>
        simp only
        split
        · rfl
        rw [insertRow_redim]
        cases insertRow fk s1.db row with
        | error er => rfl
        | ok db' => rfl
  · intro fk f es
    simp only [step, upsertBatch]
    have h1 : (redim g s).closed = s.closed := rfl
    have h5 : (redim g s).db = redimDB g s.db := rfl
    rw [h1, h5]
    split
    · rfl
    split
    · rfl
    rw [batchLoop_redim]
    cases batchLoop fk f s.db 0 s.db es with
    | error er => rfl
    | ok db' => rfl

/-- C235 is violated in every open store: any vector of the store's dimension, or any vector at all when that is not fixed yet, is stored
as it is in every collection, whatever dimension `k.dims` the collection was created with. -/
theorem C235_any_violated (env : Env W HI VI) (s : St W HI VI) (wf : WF s.db) (hc : s.closed = false) (fk : Bool) (k : Coll)
    (hk : k ∈ s.db.collections) (hk0 : k.name ≠ "") (id : String) (v : List W) (hd : s.dim = 0 ∨ s.dim = v.length)
    (hl : v.length ≤ 2147483647) :
    (step env s (.upsert fk false { id := id, collection := k.name, vector := some v })).2 = .ok ∧
      (holds (step env s (.upsert fk false { id := id, collection := k.name, vector := some v })).1 k.name id).map Rec.vector = some v := by
  have hf : s.db.collections.find? (fun c => decide (c.name = k.name)) = some k := by
    cases h : s.db.collections.find? (fun c => decide (c.name = k.name)) with
    | none => exact absurd (List.find?_eq_none.1 h k hk) (by simp)
    | some x =>
      exact congrArg some (nodup_inj (fun c : Coll => c.name) wf.collNames (List.mem_of_find?_eq_some h) hk (by simpa using List.find?_some h))
  have hi : s.db.collections.find? (fun c => decide (c.id = k.id)) = some k := by
    cases h : s.db.collections.find? (fun c => decide (c.id = k.id)) with
    | none => exact absurd (List.find?_eq_none.1 h k hk) (by simp)
    | some x =>
      exact congrArg some (nodup_inj (fun c : Coll => c.id) wf.collIds (List.mem_of_find?_eq_some h) hk (by simpa using List.find?_some h))
  have hany : s.db.collections.any (fun c => decide (c.id = k.id)) = true := List.any_eq_true.2 ⟨k, hk, by simp⟩
  have hrow : ∀ db : DB W, db = s.db → prepareRow db { id := id, collection := k.name, vector := some v } =
      .ok ⟨id, k.id, v, "", none, none, none⟩ := by
    intro db hdb
    subst hdb
    simp [prepareRow, resolveCollection, hk0, hf, encodable, Nat.not_lt.2 hl]
  have hstep : ∃ s' : St W HI VI, step env s (.upsert fk false { id := id, collection := k.name, vector := some v }) = (s', .ok) ∧
      s'.db = ⟨s.db.collections, s.db.nextColl, s.db.documents, s.db.embeddings.filter (fun x => x.id ≠ id) ++
        [⟨id, k.id, v, "", none, none, none⟩]⟩ := by
    have hins : ∀ db : DB W, db = s.db → insertRow fk db ⟨id, k.id, v, "", none, none, none⟩ =
        .ok ⟨s.db.collections, s.db.nextColl, s.db.documents, s.db.embeddings.filter (fun x => x.id ≠ id) ++
          [⟨id, k.id, v, "", none, none, none⟩]⟩ := by
      intro db hdb
      subst hdb
      simp [insertRow, fkHolds, hany]
    simp only [step, upsert, hc, Bool.false_eq_true, if_false, Option.getD_some]
    rcases hd with hd | hd
    · simp only [hd, if_true, ne_eq, not_true_eq_false, if_false]
      rw [hrow _ rfl]
      simp only
      rw [hins _ rfl]
      exact ⟨_, rfl, rfl⟩
    · by_cases h0 : s.dim = 0
      · simp only [h0, if_true, ne_eq, not_true_eq_false, if_false]
        rw [hrow _ rfl]
        simp only
        rw [hins _ rfl]
        exact ⟨_, rfl, rfl⟩
      · simp only [h0, if_false, ← hd, ne_eq, not_true_eq_false]
        rw [hrow _ rfl]
        simp only
        rw [hins _ rfl]
        exact ⟨_, rfl, rfl⟩
  obtain ⟨s', hs, hdb⟩ := hstep
  rw [hs]
  refine ⟨rfl, ?_⟩
  rw [holds_eq]
  have hfind : find s'.db id = some ⟨id, k.id, v, "", none, none, none⟩ := by
    rw [hdb]
    have := find_upsert (fun r : Row W => r.id) s.db.embeddings ⟨id, k.id, v, "", none, none, none⟩ id
    rw [if_pos rfl] at this
    exact this
  rw [hfind]
  have hname : nameOf s'.db k.id = k.name := by
    unfold nameOf
    rw [hdb]
    simp only [hi]
  simp [hname, toRec]

theorem upsert_writes (env : Env W HI VI) (s : St W HI VI) (fk f : Bool) (e : Emb W) (hok : (step env s (.upsert fk f e)).2 = .ok) :
    ∃ p, Writes env s (.upsert fk f e) e.id p := by
  have hx : ∃ v, if s.dim = 0 ∨ s.dim = (e.vector.getD []).length then e.vector = some v
      else env.adapt (e.vector.getD []) (e.vector.getD []).length s.dim = some v := by
    simp only [step, upsert] at hok
    split at hok
    · cases hok
    split at hok
    · cases hok
    rename_i vec hvec
    split at hok
    · cases hok
    rename_i row hrow
    have hv := (prepareRow_ok hrow).2.1
    have hv : vec = some row.vector := hv
    refine ⟨row.vector, ?_⟩
    split
    · rename_i hd
      have hdim : (if s.dim = 0 then (⟨s.db, (e.vector.getD []).length, s.closed, s.hnsw, s.ivf⟩ : St W HI VI) else s).dim =
          (e.vector.getD []).length := by
        rcases hd with hd | hd
        · simp [hd]
        · split
          · rfl
          · exact hd
      rw [hdim] at hvec
      rw [if_neg (by simp)] at hvec
      injection hvec with hvec
      rw [hvec, hv]
    · rename_i hd
      have h0 : s.dim ≠ 0 := fun h => hd (Or.inl h)
      rw [if_neg h0, if_pos (fun h => hd (Or.inr h.symm))] at hvec
      obtain ⟨w, hw, hwv⟩ := Option.map_eq_some_iff.1 hvec
      rw [hw, ← Option.some_inj.1 (hwv.trans hv)]
  obtain ⟨v, hv⟩ := hx
  exact ⟨written e v, hok, rfl, v, rfl, hv⟩

/-- C235, proved part: in a store that adapts to its own dimension, which is the one the collection was created with, a record written by
`Upsert` has a vector of that dimension. -/
theorem C235_store_partial (env : Env W HI VI) (hadapt : ∀ v a b w, env.adapt v a b = some w → w.length = b) (s : St W HI VI) (wf : WF s.db)
    (fk f : Bool) (e : Emb W) (k : Coll) (hd : k.dims = (s.dim : Int)) (h0 : s.dim ≠ 0) (r : Rec W)
    (hok : (step env s (.upsert fk f e)).2 = .ok) (hr : getByID (step env s (.upsert fk f e)).1 e.id = .ok r) :
    (r.vector.length : Int) = k.dims := by
  have hcl : (step env s (.upsert fk f e)).1.closed = false := by
    unfold getByID at hr
    split at hr
    · cases hr
    · rename_i hx; simpa using hx
  have hl := (getByID_payload _ hcl e.id r).1 hr
  rcases (step_cases env s wf (.upsert fk f e) e.id).2 with ⟨p, ⟨_, _, v, rfl, hv⟩, hp⟩ | ⟨hnw, _⟩ | ⟨_, _, _, _, ha⟩
  · unfold payload at hp
    rw [hl] at hp
    have hp : recPayload r = written e v := by simpa using hp
    have hvec : r.vector = v := congrArg Payload.vector hp
    rw [hd, hvec]
    split at hv
    · rename_i h
      rcases h with h | h
      · exact absurd h h0
      · rw [h, hv]; rfl
    · rw [hadapt _ _ _ _ hv]
  · exact absurd (upsert_writes env s fk f e hok) hnw
  · exact ha.elim

/-! ### The hypotheses can be met -/

example : holds (run demoEnv (init 1 none none) [.createCollection false "docs" 3,
      .upsert true false { id := "a", collection := "docs", vector := some [1] }]) "docs" "a" ≠ none ∧
    Elsewhere "docs" "a" (.upsert true false { id := "b", collection := "default", vector := some [1] } : Op Nat Unit Unit) ∧
    (step demoEnv (run demoEnv (init 1 none none) [.createCollection false "docs" 3,
      .upsert true false { id := "a", collection := "docs", vector := some [1] }])
      (.upsert true false { id := "a", collection := "default", vector := some [1] })).2 = .ok := by
  refine ⟨?_, ?_, ?_⟩
  · decide +kernel
  · show "b" ≠ "a"
    decide
  · decide +kernel

end Verif.Thm.StoreColl
