import Verif.Thm.FilterSearch

/-! C220: what the in-memory filter accepts, for every expression and all metadata. -/
namespace Verif.Thm.FilterMemory
open Verif.Model.Filter Verif.Model.FilterSearch Verif.Model.Store Verif.Model.Search Verif.Spec
open Verif.Base
open Verif.Thm.Search
open Verif.Thm.Filter (lib0 skip_iff)

variable {F : Type} [LinearOrder F] {W HI VI : Type}

/-! ### Specification -/

/-- The filter value reads as the number `y`: it is that number, or a text that spells it. -/
def IsNum (c : Lib F) (v : V F) (y : F) : Prop := v = .num y ∨ ∃ s, v = .str s ∧ c.parse s = some y

/-- The text of a filter value, as Go prints it. -/
inductive Printed (c : Lib F) : V F → String → Prop where
  | nil : Printed c .nil "<nil>"
  | str (s : String) : Printed c (.str s) s
  | num (x : F) : Printed c (.num x) (c.fmtNum x)
  | yes : Printed c (.bool true) "true"
  | no : Printed c (.bool false) "false"
  | list (vs : List (V F)) : Printed c (.list vs) (c.fmtList vs)

/-- A stored text compared with a filter value: as numbers if both read as numbers, otherwise as texts. -/
def Compares (c : Lib F) (num : F → F → Prop) (txt : String → String → Prop) (a : String) (v : V F) : Prop :=
  (∃ x y, c.parse a = some x ∧ IsNum c v y ∧ num x y) ∨
    ((¬ ∃ x y, c.parse a = some x ∧ IsNum c v y) ∧ ∃ t, Printed c v t ∧ txt a t)

/-- A pattern read in memory: `%` is any text and `_` any character, neither a newline, and letters count with their
case. -/
inductive Fits : List Char → List Char → Prop where
  | nil : Fits [] []
  | many {ps : List Char} (pre : List Char) {t : List Char} : '\n' ∉ pre → Fits ps t → Fits ('%' :: ps) (pre ++ t)
  | one {ps : List Char} (x : Char) {t : List Char} : x ≠ '\n' → Fits ps t → Fits ('_' :: ps) (x :: t)
  | char {p : Char} {ps t : List Char} : p ≠ '%' → p ≠ '_' → Fits ps t → Fits (p :: ps) (p :: t)

/-- A stored text passes a comparison. -/
def Passes (c : Lib F) (op : Cmp) (a : String) (v : V F) : Prop :=
  match op with
  | .eq => Compares c (fun x y => x = y) (fun x y => x = y) a v
  | .ne => Compares c (fun x y => x ≠ y) (fun x y => x ≠ y) a v
  | .gt => Compares c (fun x y => y < x) (fun x y => y < x) a v
  | .gte => Compares c (fun x y => y ≤ x) (fun x y => y ≤ x) a v
  | .lt => Compares c (fun x y => x < y) (fun x y => x < y) a v
  | .lte => Compares c (fun x y => x ≤ y) (fun x y => x ≤ y) a v
  | .in_ => ∃ vs, v = .list vs ∧ ∃ w ∈ vs, Compares c (fun x y => x = y) (fun x y => x = y) a w
  | .between => ∃ lo hi rest, v = .list (lo :: hi :: rest) ∧
      Compares c (fun x y => y ≤ x) (fun x y => y ≤ x) a lo ∧ Compares c (fun x y => x ≤ y) (fun x y => x ≤ y) a hi
  | .like => ∃ p, Printed c v p ∧ Fits p.toList a.toList

mutual
/-- The metadata pass a filter: a missing field passes `!=` and nothing else. -/
def Accepts (c : Lib F) (m : Meta) : Expr F → Prop
  | .nil => True
  | .and cs => AcceptsAll c m cs
  | .or cs => AcceptsAny c m cs
  | .not [] => False
  | .not (k :: _) => ¬ Accepts c m k
  | .cmp op f v => (m.lookup f = none ∧ op = .ne) ∨ ∃ a, m.lookup f = some a ∧ Passes c op a v
  | .other => False
/-- Every member passes. -/
def AcceptsAll (c : Lib F) (m : Meta) : List (Expr F) → Prop
  | [] => True
  | k :: ks => Accepts c m k ∧ AcceptsAll c m ks
/-- Some member passes. -/
def AcceptsAny (c : Lib F) (m : Meta) : List (Expr F) → Prop
  | [] => False
  | k :: ks => Accepts c m k ∨ AcceptsAny c m ks
end

/-- A comparison has a value of the kind it needs: a list for IN, two values for BETWEEN, and a pattern without
characters special to regular expressions for LIKE. -/
def LeafFormed (c : Lib F) (op : Cmp) (v : V F) : Prop :=
  match op with
  | .in_ => ∃ vs, v = .list vs
  | .between => ∃ lo hi rest, v = .list (lo :: hi :: rest)
  | .like => ∀ p, Printed c v p → ∀ x ∈ p.toList, x ∉ "\\.+*?()|[]{}^$".toList
  | _ => True

mutual
/-- Every comparison of the filter is well formed. -/
def Formed (c : Lib F) : Expr F → Prop
  | .and cs => FormedAll c cs
  | .or cs => FormedAll c cs
  | .not cs => FormedAll c cs
  | .cmp op _ v => LeafFormed c op v
  | _ => True
/-- The same for every member. -/
def FormedAll (c : Lib F) : List (Expr F) → Prop
  | [] => True
  | k :: ks => Formed c k ∧ FormedAll c ks
end

/-! ### Proofs -/

theorem printed_iff (c : Lib F) (v : V F) (t : String) : Printed c v t ↔ t = show_ c v := by
  constructor
  · intro h; cases h <;> rfl
  · rintro rfl
    cases v with
    | bool b => cases b <;> constructor
    | _ => constructor

theorem isNum_iff (c : Lib F) (v : V F) (y : F) : IsNum c v y ↔ toFloat c v = some y := by
  cases v <;> simp [IsNum, toFloat]

theorem compares_iff (c : Lib F) (num : F → F → Prop) (txt : String → String → Prop) (a : String) (v : V F) :
    Compares c num txt a v ↔
      match c.parse a, toFloat c v with
      | some x, some y => num x y
      | _, _ => txt a (show_ c v) := by
  simp only [Compares, isNum_iff, printed_iff, exists_eq_left]
  cases c.parse a <;> cases toFloat c v <;> simp

theorem compareValues_iff (c : Lib F) (a : String) (v : V F) :
    (compareValues c a v .eq = true ↔ Compares c (fun x y => x = y) (fun x y => x = y) a v) ∧
    (compareValues c a v .ne = true ↔ Compares c (fun x y => x ≠ y) (fun x y => x ≠ y) a v) ∧
    (compareValues c a v .gt = true ↔ Compares c (fun x y => y < x) (fun x y => y < x) a v) ∧
    (compareValues c a v .gte = true ↔ Compares c (fun x y => y ≤ x) (fun x y => y ≤ x) a v) ∧
    (compareValues c a v .lt = true ↔ Compares c (fun x y => x < y) (fun x y => x < y) a v) ∧
    (compareValues c a v .lte = true ↔ Compares c (fun x y => x ≤ y) (fun x y => x ≤ y) a v) := by
  simp only [compares_iff, compareValues]
  cases c.parse a <;> cases toFloat c v <;> simp [cmpNum]

theorem fits_iff (p t : List Char) :
    likeMatch (fun a b => decide (a = b)) (fun x => decide (x ≠ '\n')) p t = true ↔ Fits p t := by
  induction p generalizing t with
  | nil =>
    simp only [likeMatch]
    constructor
    · intro h; rw [List.isEmpty_iff.1 h]; exact .nil
    · intro h; cases h; rfl
  | cons p ps ih =>
    unfold likeMatch
    split
    · rename_i hp
      subst hp
      rw [skip_iff]
      constructor
      · rintro ⟨pre, suf, h1, h2, h3⟩
        rw [h1]
        refine .many pre ?_ ((ih suf).1 h3)
        intro hm
        have := List.all_eq_true.1 h2 _ hm
        simp at this
      · intro h
        generalize hq : '%' :: ps = q at h
        cases h with
        | nil => cases hq
        | many pre hn h =>
          cases hq
          refine ⟨pre, _, rfl, List.all_eq_true.2 ?_, (ih _).2 h⟩
          intro x hx
          simp only [decide_eq_true_eq]
          rintro rfl; exact hn hx
        | one x _ h => exact absurd (List.cons.inj hq).1 (by decide)
        | char h1 _ _ => cases hq; exact absurd rfl h1
    · rename_i hp
      split
      · rename_i hp'
        subst hp'
        cases t with
        | nil => simp only [Bool.false_eq_true, false_iff]; intro h; cases h
        | cons x xs =>
          simp only [Bool.and_eq_true, decide_eq_true_eq, ih]
          constructor
          · intro h; exact .one x h.1 h.2
          · intro h
            cases h with
            | one x h1 h => exact ⟨h1, h⟩
            | char _ h2 _ => exact absurd rfl h2
      · rename_i hp'
        cases t with
        | nil =>
          simp only [Bool.false_eq_true, false_iff]; intro h
          generalize hq : p :: ps = q at h
          generalize hr : ([] : List Char) = r at h
          cases h with
          | nil => cases hq
          | many pre _ h => exact hp (List.cons.inj hq).1
          | one x _ h => cases hr
          | char _ _ _ => cases hr
        | cons x xs =>
          simp only [Bool.and_eq_true, decide_eq_true_eq, ih]
          constructor
          · rintro ⟨rfl, h⟩; exact .char hp hp' h
          · intro h
            generalize hq : p :: ps = q at h
            generalize hr : x :: xs = r at h
            cases h with
            | nil => cases hq
            | many pre _ h => exact absurd (List.cons.inj hq).1 hp
            | one x _ h => exact absurd (List.cons.inj hq).1 hp'
            | char h1 h2 h4 => cases hq; cases hr; exact ⟨rfl, h4⟩

theorem leaf (c : Lib F) (m : Meta) (op : Cmp) (f : String) (v : V F) (h : LeafFormed c op v) :
    ∃ b, evalCmp c m op f v = some b ∧
      (b = true ↔ (m.lookup f = none ∧ op = .ne) ∨ ∃ a, m.lookup f = some a ∧ Passes c op a v) := by
  unfold evalCmp
  cases m.lookup f with
  | none => exact ⟨_, rfl, by simp⟩
  | some a =>
    simp only [Option.some.injEq, exists_eq_left', reduceCtorEq, false_and, false_or]
    obtain ⟨h1, h2, h3, h4, h5, h6⟩ := compareValues_iff c a v
    cases op with
    | in_ =>
      obtain ⟨vs, rfl⟩ := h
      refine ⟨_, rfl, ?_⟩
      simp only [Passes, V.list.injEq, exists_eq_left', List.any_eq_true, (compareValues_iff c a _).1]
    | between =>
      obtain ⟨lo, hi, rest, rfl⟩ := h
      refine ⟨_, rfl, ?_⟩
      rw [Bool.and_eq_true, (compareValues_iff c a lo).2.2.2.1, (compareValues_iff c a hi).2.2.2.2.2]
      simp only [Passes, V.list.injEq, List.cons.injEq]
      constructor
      · rintro ⟨h1, h2⟩; exact ⟨lo, hi, rest, ⟨rfl, rfl, rfl⟩, h1, h2⟩
      · rintro ⟨_, _, _, ⟨rfl, rfl, rfl⟩, h1, h2⟩; exact ⟨h1, h2⟩
    | like =>
      refine ⟨_, rfl, ?_⟩
      have hm : (show_ c v).toList.any isMeta = false := by
        rw [List.any_eq_false]
        intro x hx
        have := h _ ((printed_iff c v _).2 rfl) x hx
        simpa [isMeta, List.contains_iff_mem] using this
      simp only [Passes, printed_iff, exists_eq_left, ← fits_iff]
      unfold goLike
      rw [if_neg (by rw [hm]; simp)]
    | eq => exact ⟨_, rfl, h1⟩
    | ne => exact ⟨_, rfl, h2⟩
    | gt => exact ⟨_, rfl, h3⟩
    | gte => exact ⟨_, rfl, h4⟩
    | lt => exact ⟨_, rfl, h5⟩
    | lte => exact ⟨_, rfl, h6⟩

mutual
theorem eval_accepts (c : Lib F) (m : Meta) : ∀ e : Expr F, Formed c e →
    ∃ b, eval c m e = some b ∧ (b = true ↔ Accepts c m e)
  | .nil, _ => ⟨true, rfl, by simp [Accepts]⟩
  | .and cs, h => by
    obtain ⟨⟨b, hb, hs⟩, _⟩ := eval_acceptsList c m cs h
    exact ⟨b, by simp only [eval, hb], by simp only [Accepts, hs]⟩
  | .or cs, h => by
    obtain ⟨_, b, hb, hs⟩ := eval_acceptsList c m cs h
    exact ⟨b, by simp only [eval, hb], by simp only [Accepts, hs]⟩
  | .not [], _ => ⟨false, by simp only [eval], by simp [Accepts]⟩
  | .not (k :: ks), h => by
    obtain ⟨b, hb, hs⟩ := eval_accepts c m k h.1
    refine ⟨!b, by simp [eval, hb], ?_⟩
    simp only [Accepts, ← hs]
    cases b <;> simp
  | .cmp op f v, h => by
    obtain ⟨b, hb, hs⟩ := leaf c m op f v h
    exact ⟨b, by simp only [eval, hb], by simp only [Accepts, hs]⟩
  | .other, _ => ⟨false, by simp only [eval], by simp [Accepts]⟩
theorem eval_acceptsList (c : Lib F) (m : Meta) : ∀ cs : List (Expr F), FormedAll c cs →
    (∃ b, evalAnd c m cs = some b ∧ (b = true ↔ AcceptsAll c m cs)) ∧
      (∃ b, evalOr c m cs = some b ∧ (b = true ↔ AcceptsAny c m cs))
  | [], _ => ⟨⟨true, rfl, by simp [AcceptsAll]⟩, ⟨false, rfl, by simp [AcceptsAny]⟩⟩
  | k :: ks, h => by
    obtain ⟨b, hb, hs⟩ := eval_accepts c m k h.1
    obtain ⟨⟨b1, hb1, hs1⟩, ⟨b2, hb2, hs2⟩⟩ := eval_acceptsList c m ks h.2
    constructor
    · cases b with
      | false => exact ⟨false, by simp [evalAnd, hb], by simp [AcceptsAll, ← hs]⟩
      | true => exact ⟨b1, by simp [evalAnd, hb, hb1], by simp [AcceptsAll, ← hs, hs1]⟩
    · cases b with
      | true => exact ⟨true, by simp [evalOr, hb], by simp [AcceptsAny, ← hs]⟩
      | false => exact ⟨b2, by simp [evalOr, hb, hb2], by simp [AcceptsAny, ← hs, hs2]⟩
end

open Classical in
theorem keep_eq (l : Lib F) (c : Cfg W) (q : List W) (db : DB W) (e : Expr F) (he : Formed l e) (rows : List (Row W)) :
    keepMatching l c q (some e) (rows.map (scan db)) =
      some ((rows.filter (fun r => decide (Accepts l (r.metadata.getD []) e))).map
        (fun r => { scan db r with score := c.sim q r.vector })) := by
  induction rows with
  | nil => rfl
  | cons r rs ih =>
    obtain ⟨b, hb, hs⟩ := eval_accepts l (r.metadata.getD []) e he
    have hb' : eval l ((scan db r).metadata.getD []) e = some b := hb
    simp only [List.map_cons, keepMatching, hb', ih, Option.map_some, List.filter_cons]
    cases b with
    | false =>
      have : ¬ Accepts l (r.metadata.getD []) e := fun h => by simpa using hs.2 h
      simp [this]
    | true =>
      have : Accepts l (r.metadata.getD []) e := hs.1 rfl
      simp [this]; rfl

open Classical in
/-- C220: a search with a post-filter returns the K best scored records of the collection among those whose metadata pass
the filter, for every nesting of AND, OR and NOT and for all metadata: a comparison is by number if both sides read as
numbers and by text otherwise, and a missing field passes `!=` only. -/
theorem C220_post_filter (l : Lib F) (c : Cfg W) (hsort : SortsDesc c.sort) (s : St W HI VI) (hopen : s.closed = false)
    (query : List W) (o : Opts) (hk : 0 < o.topK) (e : Expr F) (he : Formed l e) :
    ∃ out, searchAdvanced l c s query o none (some e) = some (.ok out) ∧
      IsTopK (fun x : Hit W => x.score)
        ((s.db.embeddings.filter (fun r => (o.collection = "" ∨ collName s.db r = some o.collection) ∧
            Accepts l (r.metadata.getD []) e)).map
          (fun r => { scan s.db r with score := c.sim query r.vector })) o.topK.toNat out := by
  simp only [searchAdvanced, hopen, Bool.false_eq_true, if_false]
  rw [keep_eq l c query s.db e he, List.filter_filter]
  simp only
  refine ⟨_, rfl, ?_⟩
  have e' : ∀ l : List (Hit W), (if o.topK > 0 ∧ (l.length : Int) > o.topK then l.take o.topK.toNat else l) = l.take o.topK.toNat := by
    intro l
    rw [← take_if l o.topK (by omega)]
    by_cases hl : (l.length : Int) > o.topK
    · rw [if_pos ⟨hk, hl⟩, if_pos hl]
    · rw [if_neg (fun hh => hl hh.2), if_neg hl]
  rw [e']
  have hf : (s.db.embeddings.filter (fun r => decide (Accepts l (r.metadata.getD []) e) &&
      (decide (o.collection = "") || decide (collName s.db r = some o.collection)))) =
      s.db.embeddings.filter (fun r =>
        decide ((o.collection = "" ∨ collName s.db r = some o.collection) ∧ Accepts l (r.metadata.getD []) e)) := by
    apply List.filter_congr
    intro r _
    rw [Bool.eq_iff_iff]
    simp only [Bool.and_eq_true, Bool.or_eq_true, decide_eq_true_eq]
    exact and_comm
  rw [hf]
  exact isTopK_take _ _ _ _ (hsort _)

/-- C220 is violated by a list comparison without a list: an IN filter whose value is not a list, or a BETWEEN filter
whose value is not a list, panics as soon as a record of the collection has the field. -/
theorem C220_panics_violated (l : Lib F) (c : Cfg W) (s : St W HI VI) (hopen : s.closed = false) (query : List W)
    (o : Opts) (op : Cmp) (hop : op = .in_ ∨ op = .between) (f : String) (v : V F) (hv : ∀ vs, v ≠ .list vs)
    (r : Row W) (hr : r ∈ s.db.embeddings) (hc : o.collection = "" ∨ collName s.db r = some o.collection)
    (a : String) (ha : (r.metadata.getD []).lookup f = some a) :
    searchAdvanced l c s query o none (some (.cmp op f v)) = none := by
  have hp : ∀ m : Meta, m.lookup f = some a → eval l m (.cmp op f v) = none := by
    intro m hm
    simp only [eval, evalCmp, hm]
    rcases hop with rfl | rfl <;> cases v <;> first | rfl | exact absurd rfl (hv _)
  have hk : ∀ hs : List (Hit W), (∃ h ∈ hs, (h.metadata.getD []).lookup f = some a) →
      keepMatching l c query (some (.cmp op f v)) hs = none := by
    intro hs
    induction hs with
    | nil => rintro ⟨_, h, _⟩; cases h
    | cons x xs ih =>
      rintro ⟨h, hm, ha⟩
      simp only [keepMatching]
      rcases List.mem_cons.1 hm with rfl | hm
      · rw [hp _ ha]
      · rw [ih ⟨h, hm, ha⟩]
        cases eval l (x.metadata.getD []) (.cmp op f v) <;> rfl
  simp only [searchAdvanced, hopen, Bool.false_eq_true, if_false]
  rw [hk]
  refine ⟨scan s.db r, List.mem_map_of_mem (List.mem_filter.2 ⟨hr, ?_⟩), ha⟩
  simpa using hc

example : Formed lib0 (.and [.not [.cmp .in_ "k" (.list [.str "a"])], .or [.cmp .gt "n" (.str "10"), .cmp .like "t" (.str "a%_")],
    .cmp .between "d" (.list [.str "2024-01-01", .str "2024-12-31"])]) := by
  refine ⟨⟨⟨_, rfl⟩, trivial⟩, ⟨trivial, ?_, trivial⟩, ⟨_, _, _, rfl⟩, trivial⟩
  intro p hp
  cases hp
  decide

example : Accepts lib0 [("n", "9"), ("d", "2024-05-01")] (.and [.cmp .lt "n" (.str "10"), .cmp .gt "d" (.str "2024-01-01"),
    .cmp .ne "k" (.str "x")]) := by
  refine ⟨Or.inr ⟨"9", by decide, Or.inl ⟨9, 10, by decide, Or.inr ⟨"10", rfl, by decide⟩, by decide⟩⟩, Or.inr
    ⟨"2024-05-01", by decide, Or.inr ⟨?_, "2024-01-01", .str _, by decide⟩⟩, Or.inl ⟨by decide, rfl⟩, trivial⟩
  rintro ⟨x, y, h, _⟩
  revert h
  have : lib0.parse "2024-05-01" = none := by decide
  rw [this]; simp

end Verif.Thm.FilterMemory
