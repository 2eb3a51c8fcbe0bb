import Verif.Thm.MultiVector

/-! C75 and C131: which stores and entities show the violations. -/
namespace Verif.MultiVector
open Verif.Model.Store Verif.Model.Search Verif.Base

variable {W HI : Type}

theorem takeWhile_cut (before rest : List (MRow W)) (r : MRow W) (hb : ∀ x ∈ before, x.json.isSome = true) (hr : r.json = none) :
    (before ++ r :: rest).takeWhile (fun r => r.json.isSome) = before := by
  induction before with
  | nil => simp [hr]
  | cons x before ih =>
    have h1 := hb x (by simp)
    simp only [List.cons_append, List.takeWhile_cons, h1, if_true]
    rw [ih (fun y hy => hb y (by simp [hy]))]

/-- **C75, violated for every store.** A record without metadata hides every field stored after it: the entity is read as if they were not there. -/
theorem C75_any_cut_off_violated [DecidableEq W] (s : MSt W HI) (hopen : s.closed = false) (before rest : List (MRow W)) (r : MRow W) (hrows : s.rows = before ++ r :: rest)
    (hr : r.json = none) (hb : ∀ x ∈ before, x.json.isSome = true) (id : String) (h1 : ∃ x ∈ before, entityOf x = some id) :
    get s id = get { s with rows := before } id := by
  have hall : before.all (fun r => r.json.isSome) = true := List.all_eq_true.2 hb
  have hnot : s.rows.all (fun r => r.json.isSome) = false := by
    rw [hrows, List.all_append, List.all_cons, hr]; simp
  have hself : before.takeWhile (fun r => r.json.isSome) = before := List.takeWhile_eq_self_iff.2 hb
  have hne : before.filter (fun r => decide (entityOf r = some id)) ≠ [] := by
    obtain ⟨x, hx, hid⟩ := h1
    exact List.ne_nil_of_mem (List.mem_filter.2 ⟨hx, decide_eq_true hid⟩)
  have e1 : entityRows s.rows id = .ok (before.filter (fun r => decide (entityOf r = some id))) := by
    unfold entityRows
    simp only
    rw [if_neg (by simp [hnot]), hrows, takeWhile_cut before rest r hb hr, if_neg hne]
  have e2 : entityRows before id = .ok (before.filter (fun r => decide (entityOf r = some id))) := by
    unfold entityRows
    simp only
    rw [if_pos hall, hself]
  unfold get
  simp only [hopen, Bool.false_eq_true, if_false, e1, e2]

/-- **C131, violated for every store.** When a field cannot be encoded the write fails and changes no record, but the index gets the vectors of the fields before it. -/
theorem C131_any_index_violated (encodes : List W → Bool) (hInsert : HI → String → List W → HI) (s : MSt W HI) (hopen : s.closed = false) (h : HI) (hh : s.hnsw = some h) (e : Entity W)
    (pre rest : List (String × List W)) (f : String) (v : List W) (hv : e.vectors = pre ++ (f, v) :: rest) (hmeta : ∀ f' : String, (fieldMeta e f').any (fun kv => decide (kv.2 = .bad)) = false)
    (hpre : ∀ fv ∈ pre, encodes fv.2 = true) (hbad : encodes v = false) (fault : Bool) :
    upsert encodes hInsert false fault s e =
      ({ s with hnsw := some (pre.foldl (fun x fv => hInsert x (compositeID e.id fv.1) fv.2) h) }, .err .invalidVector) := by
  have key : ∀ (l : List (String × List W)), (∀ fv ∈ l, encodes fv.2 = true) → ∀ (rows : List (MRow W)) (x : HI),
      upsertLoop encodes hInsert false s e (l ++ (f, v) :: rest) rows (some x) =
        (.error .invalidVector, some (l.foldl (fun x fv => hInsert x (compositeID e.id fv.1) fv.2) x)) := by
    intro l
    induction l with
    | nil =>
      intro _ rows x
      simp only [List.nil_append, upsertLoop, hmeta, hbad, Bool.false_eq_true, if_false, Bool.not_false, if_true, List.foldl_nil]
    | cons fv l ih =>
      intro hl rows x
      obtain ⟨f', v'⟩ := fv
      have h1 : encodes v' = true := hl (f', v') (by simp)
      simp only [List.cons_append, upsertLoop, hmeta, h1, Bool.false_eq_true, if_false, Bool.not_true, Bool.false_and, List.foldl_cons, Option.map_some]
      exact ih (fun y hy => hl y (by simp [hy])) _ _
  unfold upsert
  rw [if_neg (by simp [hopen]), hv, hh, key pre hpre]

/-- **C75, violated for every store.** Writing the field `c` of the entity `a___b` destroys the entity `a` when its only field is `b___c`, for all texts. -/
theorem C75_any_overwrite_violated [DecidableEq W] (encodes : List W → Bool) (hInsert : HI → String → List W → HI) (fk : Bool) (s : MSt W HI) (hopen : s.closed = false)
    (hjson : ∀ r ∈ s.rows, r.json.isSome = true) (a b c : String) (honly : ∀ r ∈ s.rows, entityOf r = some a → r.id = compositeID a (b ++ "___" ++ c))
    (e : Entity W) (he : e.id = a ++ "___" ++ b) (hc : c ∈ e.vectors.map Prod.fst) (hn : (e.vectors.map Prod.fst).Nodup) (hw : Writable encodes fk s e) :
    (upsert encodes hInsert fk false s e).2 = .ok ∧ get (upsert encodes hInsert fk false s e).1 a = .error .notFound := by
  obtain ⟨h1, h2, h3⟩ := upsert_rows encodes hInsert fk s hopen e hn hw
  refine ⟨h1, ?_⟩
  have hne : e.id ≠ a := by
    rw [he]
    intro h
    have := congrArg (fun x : String => x.toList.length) h
    simp at this
  have hall : ∀ r ∈ (upsert encodes hInsert fk false s e).1.rows, r.json.isSome = true ∧ entityOf r ≠ some a := by
    intro r hr
    rw [h2] at hr
    rcases List.mem_append.1 hr with hr | hr
    · obtain ⟨hr, hid⟩ := List.mem_filter.1 hr
      refine ⟨hjson r hr, fun hea => ?_⟩
      rw [decide_eq_true_eq] at hid
      apply hid
      rw [honly r hr hea, C75_collision_violated a b c, ← he]
      obtain ⟨fv, hfv, rfl⟩ := List.mem_map.1 hc
      exact List.mem_map.2 ⟨fv, hfv, rfl⟩
    · obtain ⟨fv, _, rfl⟩ := List.mem_map.1 hr
      refine ⟨rfl, ?_⟩
      rw [entityOf_fieldRow]
      simpa using hne
  have hrows : entityRows (upsert encodes hInsert fk false s e).1.rows a = .ok [] := by
    unfold entityRows
    simp only
    rw [if_pos (List.all_eq_true.2 fun r hr => (hall r hr).1)]
    congr 1
    rw [List.filter_eq_nil_iff]
    intro r hr
    simpa using (hall r ((List.takeWhile_sublist _).subset hr)).2
  unfold get
  simp only [h3, Bool.false_eq_true, if_false, hrows, List.foldl_nil, List.length_nil, if_true]

/-- A store in which "a" can be read, as the last theorem needs it. -/
example : fieldsOf (put empty { id := "a", vectors := [("b___c", [1])] }) "a" = some [("b___c", [1])] ∧
    ∀ r ∈ (put empty { id := "a", vectors := [("b___c", [1])] }).rows, r.json.isSome = true ∧ r.id = compositeID "a" ("b" ++ "___" ++ "c") := by decide +kernel

end Verif.MultiVector
