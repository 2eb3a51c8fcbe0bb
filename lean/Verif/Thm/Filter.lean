import Verif.Model.Filter
import Verif.Thm.StoreProps
import Mathlib.Data.Int.Order.Basic
import Mathlib.Tactic.Common

/-! C07, C20, C21: filter expressions. -/
namespace Verif.Thm.Filter
open Verif.Model.Filter
open Verif.Model.Store (Meta St Env Out Row)

variable {F : Type} [LinearOrder F]

/-! ### Specification -/

/-- The usual meaning of a LIKE pattern: `%` is any text, `_` any character, letters without regard to ASCII case. -/
inductive Like : List Char → List Char → Prop where
  | nil : Like [] []
  | many {ps : List Char} (pre : List Char) {t : List Char} : Like ps t → Like ('%' :: ps) (pre ++ t)
  | one {ps : List Char} (x : Char) {t : List Char} : Like ps t → Like ('_' :: ps) (x :: t)
  | char {p x : Char} {ps t : List Char} : p ≠ '%' → p ≠ '_' → p.toLower = x.toLower → Like ps t → Like (p :: ps) (x :: t)

/-- The text `a` equals the filter value: as text, as a number or as a truth value. -/
def Equals (c : Lib F) (a : String) : V F → Prop
  | .str t => a = t
  | .num y => c.parse a = some y
  | .bool b => a = if b then "true" else "false"
  | _ => False

/-- The text `a` is related to the filter value by one of the order comparisons: numbers by value, text by text order. -/
def Ordered (c : Lib F) (num : F → F → Prop) (txt : String → String → Prop) (a : String) : V F → Prop
  | .num y => ∃ x, c.parse a = some x ∧ num x y
  | .str t => txt a t
  | _ => False

/-- A present metadata value satisfies a comparison, read the usual way. -/
def Holds (c : Lib F) (op : Cmp) (a : String) (v : V F) : Prop :=
  match op with
  | .eq => Equals c a v
  | .ne => ¬ Equals c a v
  | .gt => Ordered c (fun x y => y < x) (fun x y => y < x) a v
  | .gte => Ordered c (fun x y => y ≤ x) (fun x y => y ≤ x) a v
  | .lt => Ordered c (fun x y => x < y) (fun x y => x < y) a v
  | .lte => Ordered c (fun x y => x ≤ y) (fun x y => x ≤ y) a v
  | .in_ => match v with
    | .list vs => ∃ w ∈ vs, Equals c a w
    | _ => False
  | .between => match v with
    | .list [lo, hi] =>
      Ordered c (fun x y => y ≤ x) (fun x y => y ≤ x) a lo ∧ Ordered c (fun x y => x ≤ y) (fun x y => x ≤ y) a hi
    | _ => False
  | .like => match v with
    | .str p => Like p.toList a.toList
    | _ => False

mutual
/-- Metadata satisfies a filter. -/
def Sat (c : Lib F) (m : Meta) : Expr F → Prop
  | .nil => True
  | .and cs => SatAll c m cs
  | .or cs => SatAny c m cs
  | .not [] => False
  | .not (k :: _) => ¬ Sat c m k
  | .cmp op f v => ∃ a, m.lookup f = some a ∧ Holds c op a v
  | .other => False
/-- Every member is satisfied. -/
def SatAll (c : Lib F) (m : Meta) : List (Expr F) → Prop
  | [] => True
  | k :: ks => Sat c m k ∧ SatAll c m ks
/-- Some member is satisfied. -/
def SatAny (c : Lib F) (m : Meta) : List (Expr F) → Prop
  | [] => False
  | k :: ks => Sat c m k ∨ SatAny c m ks
end

/-- A comparison that the SQL translation expresses: text for equality, lists of texts for IN, numbers for order. -/
def LeafShape (op : Cmp) (v : V F) : Prop :=
  match op with
  | .eq => ∃ t, v = .str t
  | .ne => ∃ t, v = .str t
  | .in_ => ∃ ts : List String, v = .list (ts.map .str)
  | .between => ∃ x y, v = .list [.num x, .num y]
  | .like => ∃ p, v = .str p
  | _ => ∃ x, v = .num x

mutual
/-- Expressions that the SQL translation expresses: no negation, no empty connective, plain field names. -/
def Shape : Expr F → Prop
  | .and cs => cs ≠ [] ∧ ShapeAll cs
  | .or cs => cs ≠ [] ∧ ShapeAll cs
  | .cmp op f v => plainField f = true ∧ LeafShape op v
  | _ => False
/-- The same for every member. -/
def ShapeAll : List (Expr F) → Prop
  | [] => True
  | k :: ks => Shape k ∧ ShapeAll ks
end

/-- The order comparisons. -/
def isOrder : Cmp → Bool
  | .gt | .gte | .lt | .lte | .between => true
  | _ => false

mutual
/-- Wherever the filter orders a field, the stored text is a number that Go and SQLite read alike. -/
def Numeric (c : Lib F) (m : Meta) : Expr F → Prop
  | .and cs => NumericAll c m cs
  | .or cs => NumericAll c m cs
  | .not cs => NumericAll c m cs
  | .cmp op f _ => isOrder op = true → ∀ a, m.lookup f = some a → c.parse a = some (c.cast a)
  | _ => True
/-- The same for every member. -/
def NumericAll (c : Lib F) (m : Meta) : List (Expr F) → Prop
  | [] => True
  | k :: ks => Numeric c m k ∧ NumericAll c m ks
end

/-! ### LIKE -/

theorem skip_iff (one : Char → Bool) (k : List Char → Bool) (t : List Char) :
    skip one k t = true ↔ ∃ pre suf, t = pre ++ suf ∧ pre.all one = true ∧ k suf = true := by
  induction t with
  | nil =>
    simp only [skip]
    constructor
    · intro h; exact ⟨[], [], rfl, rfl, h⟩
    · rintro ⟨pre, suf, h, _, hk⟩
      have := List.append_eq_nil_iff.1 h.symm
      rw [this.2] at hk; exact hk
  | cons x xs ih =>
    simp only [skip, Bool.or_eq_true, Bool.and_eq_true, ih]
    constructor
    · rintro (h | ⟨h1, pre, suf, h2, h3, h4⟩)
      · exact ⟨[], x :: xs, rfl, rfl, h⟩
      · exact ⟨x :: pre, suf, by simp [h2], by simp [h1, h3], h4⟩
    · rintro ⟨pre, suf, h2, h3, h4⟩
      cases pre with
      | nil => left; simp only [List.nil_append] at h2; rw [h2]; exact h4
      | cons y ys =>
        simp only [List.cons_append, List.cons.injEq] at h2
        simp only [List.all_cons, Bool.and_eq_true] at h3
        right; exact ⟨h2.1 ▸ h3.1, ys, suf, h2.2, h3.2, h4⟩

theorem sqlLike_iff (p t : String) : sqlLike p t = true ↔ Like p.toList t.toList := by
  unfold sqlLike
  generalize p.toList = ps
  generalize t.toList = ts
  induction ps generalizing ts with
  | nil =>
    simp only [likeMatch]
    constructor
    · intro h; rw [List.isEmpty_iff.1 h]; exact .nil
    · intro h; cases h; rfl
  | cons p ps ih =>
    unfold likeMatch
    split
    · rename_i hp
      subst hp
      rw [skip_iff]
      constructor
      · rintro ⟨pre, suf, h1, _, h3⟩
        rw [h1]; exact .many pre ((ih suf).1 h3)
      · intro h
        generalize hq : '%' :: ps = q at h
        cases h with
        | nil => cases hq
        | many pre h => cases hq; exact ⟨pre, _, rfl, by simp, (ih _).2 h⟩
        | one x h => exact absurd (List.cons.inj hq).1 (by decide)
        | char h1 _ _ _ => cases hq; exact absurd rfl h1
    · rename_i hp
      split
      · rename_i hp'
        subst hp'
        cases ts with
        | nil => simp only [Bool.false_eq_true, false_iff]; intro h; cases h
        | cons x xs =>
          simp only [Bool.true_and, ih]
          constructor
          · intro h; exact .one x h
          · intro h
            cases h with
            | one x h => exact h
            | char _ h2 _ _ => exact absurd rfl h2
      · rename_i hp'
        cases ts with
        | nil =>
          simp only [Bool.false_eq_true, false_iff]; intro h
          generalize hq : p :: ps = q at h
          generalize hr : ([] : List Char) = r at h
          cases h with
          | nil => cases hq
          | many pre h => exact hp (List.cons.inj hq).1
          | one x h => cases hr
          | char _ _ _ _ => cases hr
        | cons x xs =>
          simp only [Bool.and_eq_true, decide_eq_true_eq, ih]
          constructor
          · intro h; exact .char hp hp' h.1 h.2
          · intro h
            generalize hq : p :: ps = q at h
            generalize hr : x :: xs = r at h
            cases h with
            | nil => cases hq
            | many pre h => exact absurd (List.cons.inj hq).1 hp
            | one x h => exact absurd (List.cons.inj hq).1 hp'
            | char h1 h2 h3 h4 => cases hq; cases hr; exact ⟨h3, h4⟩

/-! ### The SQL translation -/

theorem and3_true (a b : Option Bool) : and3 a b = some true ↔ a = some true ∧ b = some true := by
  rcases a with _ | _ | _ <;> rcases b with _ | _ | _ <;> simp [and3]

theorem or3_true (a b : Option Bool) : or3 a b = some true ↔ a = some true ∨ b = some true := by
  rcases a with _ | _ | _ <;> rcases b with _ | _ | _ <;> simp [or3]

theorem extract_plain (c : Lib F) (f : String) (m : Meta) (h : plainField f = true) : extract c f m = m.lookup f := by
  simp [extract, h]

theorem compileCmp_ok (op : Cmp) (f : String) (v : V F) (h : LeafShape op v) :
    ∃ k, compileCmp op f v = some k ∧ badParam k = false := by
  cases op <;> simp only [LeafShape] at h
  case in_ =>
    obtain ⟨ts, rfl⟩ := h
    refine ⟨_, rfl, ?_⟩
    simp only [badParam, List.any_map, List.any_eq_false, Function.comp]
    intro x _; simp [isList]
  case between => obtain ⟨x, y, rfl⟩ := h; exact ⟨_, rfl, rfl⟩
  all_goals obtain ⟨x, rfl⟩ := h; exact ⟨_, rfl, rfl⟩

theorem sqlIn_strs (x : Option String) (ts : List String) :
    sqlIn x (ts.map (V.str (F := F))) = some true ↔ ∃ a, x = some a ∧ a ∈ ts := by
  unfold sqlIn
  cases ts with
  | nil => simp
  | cons t ts =>
    simp only [List.map_cons, List.isEmpty_cons, Bool.false_eq_true, if_false]
    cases x with
    | none => simp
    | some s =>
      have h1 : ((V.str (F := F) t :: ts.map .str).any (fun v => sqlEq s v == some true)) = true ↔ s ∈ t :: ts := by
        rw [show (V.str (F := F) t :: ts.map .str) = (t :: ts).map .str from rfl, List.any_map, List.any_eq_true]
        simp [sqlEq]
      have h2 : ((V.str (F := F) t :: ts.map .str).any (fun v => (sqlEq s v).isNone)) = false := by
        rw [show (V.str (F := F) t :: ts.map .str) = (t :: ts).map .str from rfl, List.any_map, List.any_eq_false]
        simp [sqlEq]
      simp only [h2]
      by_cases h : s ∈ t :: ts
      · rw [if_pos (h1.2 h)]; simp [List.mem_cons.1 h]
      · rw [if_neg (fun h' => h (h1.1 h'))]
        simp only [Bool.false_eq_true, if_false, Option.some.injEq]
        constructor
        · intro h'; cases h'
        · rintro ⟨a, rfl, ha⟩; exact absurd ha h

theorem leaf_sat (c : Lib F) (m : Meta) (op : Cmp) (f : String) (v : V F) (hf : plainField f = true)
    (h : LeafShape op v) (hn : isOrder op = true → ∀ a, m.lookup f = some a → c.parse a = some (c.cast a))
    (k : Clause F) (hk : compileCmp op f v = some k) :
    evalSQL c m k = some true ↔ ∃ a, m.lookup f = some a ∧ Holds c op a v := by
  cases op <;> simp only [LeafShape] at h
  case in_ =>
    obtain ⟨ts, rfl⟩ := h
    simp only [compileCmp, Option.some.injEq] at hk
    subst hk
    simp only [evalSQL, extract_plain c f m hf, sqlIn_strs, Holds]
    refine exists_congr fun a => and_congr_right fun _ => ?_
    simp [Equals]
  case between =>
    obtain ⟨x, y, rfl⟩ := h
    simp only [compileCmp, Option.some.injEq] at hk
    subst hk
    simp only [evalSQL, extract_plain c f m hf]
    cases hl : m.lookup f with
    | none => simp
    | some a =>
      have := hn rfl a hl
      simp [and3_true, sqlReal, cmpNum, Holds, Ordered, this]
  case eq =>
    obtain ⟨x, rfl⟩ := h
    simp only [compileCmp, Option.some.injEq] at hk
    subst hk
    simp only [evalSQL, extract_plain c f m hf]
    cases hl : m.lookup f with
    | none => simp
    | some a => simp [sqlEq, Holds, Equals]
  case ne =>
    obtain ⟨x, rfl⟩ := h
    simp only [compileCmp, Option.some.injEq] at hk
    subst hk
    simp only [evalSQL, extract_plain c f m hf]
    cases hl : m.lookup f with
    | none => simp
    | some a => simp [sqlEq, Holds, Equals]
  case like =>
    obtain ⟨x, rfl⟩ := h
    simp only [compileCmp, Option.some.injEq] at hk
    subst hk
    simp only [evalSQL, extract_plain c f m hf]
    cases hl : m.lookup f with
    | none => simp
    | some a => simp [sqlPattern, Holds, sqlLike_iff]
  all_goals
    obtain ⟨x, rfl⟩ := h
    simp only [compileCmp, Option.some.injEq] at hk
    subst hk
    simp only [evalSQL, extract_plain c f m hf]
    cases hl : m.lookup f with
    | none => simp
    | some a =>
      have := hn rfl a hl
      simp [sqlReal, cmpNum, Holds, Ordered, this]

mutual
theorem compile_ok : ∀ e : Expr F, Shape e → ∃ k, compile e = some (some k) ∧ badParam k = false
  | .and cs, h => by
    obtain ⟨ks, hk, hlen, hb⟩ := compileList_ok cs h.2
    cases ks with
    | nil =>
      have hc := h.1
      cases cs with
      | nil => exact absurd rfl hc
      | cons x xs => simp at hlen
    | cons k ks => exact ⟨.conj (k :: ks), by simp [compile, hk], hb⟩
  | .or cs, h => by
    obtain ⟨ks, hk, hlen, hb⟩ := compileList_ok cs h.2
    cases ks with
    | nil =>
      have hc := h.1
      cases cs with
      | nil => exact absurd rfl hc
      | cons x xs => simp at hlen
    | cons k ks => exact ⟨.disj (k :: ks), by simp [compile, hk], hb⟩
  | .cmp op f v, h => by
    obtain ⟨k, hk, hb⟩ := compileCmp_ok op f v h.2
    exact ⟨k, by simp [compile, hk], hb⟩
  | .nil, h => h.elim
  | .not _, h => h.elim
  | .other, h => h.elim
theorem compileList_ok : ∀ cs : List (Expr F), ShapeAll cs →
    ∃ ks, compileList cs = some ks ∧ ks.length = cs.length ∧ badParams ks = false
  | [], _ => ⟨[], by simp [compileList], rfl, rfl⟩
  | c :: cs, h => by
    obtain ⟨k, hk, hb⟩ := compile_ok c h.1
    obtain ⟨ks, hks, hl, hbs⟩ := compileList_ok cs h.2
    exact ⟨k :: ks, by simp [compileList, hk, hks], by simp [hl], by simp [badParams, hb, hbs]⟩
end

mutual
theorem sql_sat (c : Lib F) (m : Meta) : ∀ e : Expr F, Shape e → Numeric c m e → ∀ k, compile e = some (some k) →
    (evalSQL c m k = some true ↔ Sat c m e)
  | .and cs, h, hn, k, hk => by
    obtain ⟨ks, hks, _, _⟩ := compileList_ok cs h.2
    simp only [compile, hks] at hk
    cases ks with
    | nil => simp at hk
    | cons k' ks =>
      simp only [Option.some.injEq] at hk
      subst hk
      simp only [evalSQL, Sat]
      exact (sql_satList c m cs h.2 hn _ hks).1
  | .or cs, h, hn, k, hk => by
    obtain ⟨ks, hks, _, _⟩ := compileList_ok cs h.2
    simp only [compile, hks] at hk
    cases ks with
    | nil => simp at hk
    | cons k' ks =>
      simp only [Option.some.injEq] at hk
      subst hk
      simp only [evalSQL, Sat]
      exact (sql_satList c m cs h.2 hn _ hks).2
  | .cmp op f v, h, hn, k, hk => by
    simp only [compile] at hk
    cases hc : compileCmp op f v with
    | none => rw [hc] at hk; simp at hk
    | some k' =>
      rw [hc] at hk
      simp only [Option.map_some, Option.some.injEq] at hk
      subst hk
      simp only [Sat]
      exact leaf_sat c m op f v h.1 h.2 hn _ hc
  | .nil, h, _, _, _ => h.elim
  | .not _, h, _, _, _ => h.elim
  | .other, h, _, _, _ => h.elim
theorem sql_satList (c : Lib F) (m : Meta) : ∀ cs : List (Expr F), ShapeAll cs → NumericAll c m cs →
    ∀ ks, compileList cs = some ks →
    (evalConj c m ks = some true ↔ SatAll c m cs) ∧ (evalDisj c m ks = some true ↔ SatAny c m cs)
  | [], _, _, ks, hk => by
    simp only [compileList, Option.some.injEq] at hk
    subst hk
    simp [evalConj, evalDisj, SatAll, SatAny]
  | x :: xs, h, hn, ks, hk => by
    obtain ⟨k, hk1, _⟩ := compile_ok x h.1
    obtain ⟨ks', hks, _, _⟩ := compileList_ok xs h.2
    simp only [compileList, hk1, hks, Option.toList_some, Option.some.injEq] at hk
    subst hk
    have h1 := sql_sat c m x h.1 hn.1 k hk1
    have h2 := sql_satList c m xs h.2 hn.2 ks' hks
    simp only [List.singleton_append, evalConj, evalDisj, SatAll, SatAny, and3_true, or3_true, h1, h2.1, h2.2]
    exact ⟨trivial, trivial⟩
end

/-! ### C07 -/

section C07
variable {W HI VI : Type}

/-- C07, part: on filters without negation whose comparisons SQL expresses, over records that all have metadata with
numeric texts in the ordered fields, `DeleteByFilter` removes exactly the records that satisfy the filter.
Missing for the full claim: negation, numeric and boolean equality, text order, records without metadata, dotted names;
see the `C07_..._violated` theorems. -/
theorem C07_exact_partial (c : Lib F) (env : Env W HI VI) (s : St W HI VI) (hopen : s.closed = false) (e : Expr F)
    (hs : Shape e) (hr : ∀ r ∈ s.db.embeddings, ∃ m, r.metadata = some m ∧ Numeric c m e) :
    ∃ s', deleteByFilter c env s false e = some (s', .ok) ∧
      (∀ r, r ∈ s'.db.embeddings ↔ r ∈ s.db.embeddings ∧ ¬ ∃ m, r.metadata = some m ∧ Sat c m e) ∧
      s'.db.embeddings.Sublist s.db.embeddings ∧ s'.db.documents = s.db.documents ∧
      s'.db.collections = s.db.collections := by
  obtain ⟨k, hk, hb⟩ := compile_ok e hs
  have hsel : ∀ r ∈ s.db.embeddings, ∃ m, r.metadata = some m ∧
      (whereRow c k r.metadata = some true ↔ Sat c m e) ∧ whereRow c k r.metadata ≠ none := by
    intro r hrm
    obtain ⟨m, hm, hn⟩ := hr r hrm
    refine ⟨m, hm, ?_, ?_⟩
    · rw [hm]
      simp only [whereRow, hb, Bool.false_eq_true, if_false, Option.some.injEq, beq_iff_eq]
      exact sql_sat c m e hs hn k hk
    · rw [hm]; simp [whereRow, hb]
  have hgood : s.db.embeddings.any (fun r => whereRow c k r.metadata == none) = false := by
    rw [List.any_eq_false]
    intro r hrm
    obtain ⟨m, _, _, h⟩ := hsel r hrm
    simpa using h
  have hmem : ∀ r ∈ s.db.embeddings,
      ((whereRow c k r.metadata == some true) = true ↔ ∃ m, r.metadata = some m ∧ Sat c m e) := by
    intro r hrm
    obtain ⟨m, hm, h, _⟩ := hsel r hrm
    rw [beq_iff_eq, h]
    constructor
    · intro h; exact ⟨m, hm, h⟩
    · rintro ⟨m', hm', h⟩
      rw [hm] at hm'; cases hm'; exact h
  have hd : deleteByFilter c env s false e = some (Model.Store.deleteByFilter env s false (some (whereRow c k))) := by
    cases e <;> first | exact hs.elim | simp only [deleteByFilter, hopen, hk, hb, Bool.false_eq_true, if_false]
  rw [hd]
  simp only [Model.Store.deleteByFilter, hopen, hgood, Bool.false_eq_true, if_false]
  split
  · rename_i h0
    rw [List.length_map, List.length_eq_zero_iff, List.filter_eq_nil_iff] at h0
    refine ⟨s, rfl, fun r => ⟨fun h => ⟨h, fun hx => h0 r h ((hmem r h).2 hx)⟩, fun h => h.1⟩, List.Sublist.refl _,
      rfl, rfl⟩
  · refine ⟨_, rfl, fun r => ?_, List.filter_sublist, rfl, rfl⟩
    simp only [List.mem_filter, Bool.not_eq_true']
    refine and_congr_right fun h => ?_
    rw [← hmem r h, Bool.not_eq_true]

/-- C07: an empty filter, and a filter that SQL cannot express at all, are refused and nothing changes. -/
theorem C07_refused (c : Lib F) (env : Env W HI VI) (s : St W HI VI) (fault : Bool) (e : Expr F)
    (h : e = .nil ∨ (∃ cs, e = .not cs) ∨ e = .other ∨ e = .and [] ∨ e = .or []) :
    ∃ er, deleteByFilter c env s fault e = some (s, .err er) := by
  rcases h with rfl | ⟨cs, rfl⟩ | rfl | rfl | rfl <;> unfold deleteByFilter <;> simp only [compile, compileList] <;>
    first | exact ⟨_, rfl⟩ | (split <;> exact ⟨_, rfl⟩)

/-- C07: a call that reports an error has removed nothing. -/
theorem C07_error_atomic (c : Lib F) (env : Env W HI VI) (s s' : St W HI VI) (fault : Bool) (e : Expr F) (er)
    (h : deleteByFilter c env s fault e = some (s', .err er)) : s' = s := by
  unfold deleteByFilter at h
  split at h
  · cases h; rfl
  · split at h
    · cases h; rfl
    · split at h
      · cases h
      · cases h; rfl
      · split at h
        · cases h; rfl
        · simp only [Option.some.injEq, Model.Store.deleteByFilter] at h
          split at h
          · exact (Prod.mk.inj h).1.symm
          · split at h
            · exact (Prod.mk.inj h).1.symm
            · split at h
              · exact absurd (Prod.mk.inj h).2 (by simp)
              · split at h
                · exact (Prod.mk.inj h).1.symm
                · exact absurd (Prod.mk.inj h).2 (by simp)

/-- Decimal digits. -/
def digits (s : String) : Option Int :=
  if s.toList ≠ [] ∧ s.toList.all (fun x => '0' ≤ x && x ≤ '9') then
    some (s.toList.foldl (fun n x => 10 * n + (x.toNat - '0'.toNat : Nat)) 0)
  else none

/-- A library for the witnesses: numbers are integers in decimal. -/
def lib0 : Lib Int where
  parse := digits
  fmtNum x := toString x
  fmtList _ := ""
  regex _ _ := false
  cast s := (digits s).getD 0
  affinity := digits
  sqlText x := toString x
  zero := 0
  one := 1
  oddPath _ _ := none

open Verif.Thm.StoreProps (env0 store0) in
/-- A store with the given records, by upserts. -/
def storeWith (rows : List (String × Option Meta)) : St Nat Unit Unit :=
  Model.Store.run env0 store0 (rows.map fun r =>
    .upsert true false { id := r.1, vector := some [1, 2], metadata := r.2 })

/-- The ids left by a deletion. -/
def left_ (r : Option (St Nat Unit Unit × Out)) : List String :=
  match r with
  | none => []
  | some (s, _) => s.db.embeddings.map (fun r => r.id)

open Verif.Thm.StoreProps (env0)

/-- C07 is violated by negation inside a conjunction: `Equal("t","x").NotIn("k","a")` drops the NOT IN and deletes the
record it was meant to keep. -/
theorem C07_not_in_violated : ∃ (s : St Nat Unit Unit) (b : Build Int) (e : Expr Int), build b = some e ∧
    s.db.embeddings.map (fun r => r.id) = ["r"] ∧
    (∀ r ∈ s.db.embeddings, ∀ m, r.metadata = some m → ¬ Sat lib0 m e) ∧
    ∃ s', deleteByFilter lib0 env0 s false e = some (s', .ok) ∧ s'.db.embeddings = [] := by
  refine ⟨storeWith [("r", some [("t", "x"), ("k", "a")])],
    .notIn (.equal .new "t" (.str "x")) "k" [.str "a"], _, rfl, by decide, ?_, _, rfl, by decide⟩
  intro r hr m hm
  have he : (storeWith [("r", some [("t", "x"), ("k", "a")])]).db.embeddings =
      [{ id := "r", cid := 1, vector := [1, 2], content := "", docID := none,
         metadata := some [("t", "x"), ("k", "a")], acl := none }] := by decide
  rw [he, List.mem_singleton] at hr
  subst hr
  cases hm
  simp only [Sat, SatAll, Holds]
  rintro ⟨_, h, _⟩
  exact h ⟨"a", by decide, .str "a", by simp, rfl⟩

/-- C07 is violated by numeric equality: `Equal("n", 5)` does not delete a record with `n = 5`. -/
theorem C07_number_violated : ∃ (s : St Nat Unit Unit) (e : Expr Int),
    (∃ r ∈ s.db.embeddings, ∃ m, r.metadata = some m ∧ Sat lib0 m e) ∧
    ∃ s', deleteByFilter lib0 env0 s false e = some (s', .ok) ∧ s'.db.embeddings = s.db.embeddings := by
  refine ⟨storeWith [("r", some [("n", "5")])], .cmp .eq "n" (.num 5),
    ⟨{ id := "r", cid := 1, vector := [1, 2], content := "", docID := none, metadata := some [("n", "5")], acl := none },
      by decide, [("n", "5")], rfl, ?_⟩, storeWith [("r", some [("n", "5")])], ?_, rfl⟩
  · simp only [Sat, Holds, Equals]
    exact ⟨"5", by decide, by decide⟩
  · rfl

/-- C07 is violated by a single record without metadata: no filter deletes anything any more. -/
theorem C07_no_metadata_violated : ∃ (s : St Nat Unit Unit) (e : Expr Int), Shape e ∧
    (∃ r ∈ s.db.embeddings, ∃ m, r.metadata = some m ∧ Sat lib0 m e) ∧
    deleteByFilter lib0 env0 s false e = some (s, .err .badFilter) := by
  refine ⟨storeWith [("r", some [("t", "x")]), ("q", none)], .cmp .eq "t" (.str "x"), ?_,
    ⟨{ id := "r", cid := 1, vector := [1, 2], content := "", docID := none, metadata := some [("t", "x")], acl := none },
      by decide, [("t", "x")], rfl, ?_⟩, ?_⟩
  · exact ⟨by decide, "x", rfl⟩
  · simp only [Sat, Holds, Equals]
    exact ⟨"x", by decide, rfl⟩
  · rfl

/-- C07 is violated by a dotted field name: the record with metadata key `a.b` is not deleted. -/
theorem C07_dotted_violated : ∃ (s : St Nat Unit Unit) (e : Expr Int),
    (∃ r ∈ s.db.embeddings, ∃ m, r.metadata = some m ∧ Sat lib0 m e) ∧
    deleteByFilter lib0 env0 s false e = some (s, .ok) := by
  refine ⟨storeWith [("r", some [("a.b", "x")])], .cmp .eq "a.b" (.str "x"),
    ⟨{ id := "r", cid := 1, vector := [1, 2], content := "", docID := none, metadata := some [("a.b", "x")], acl := none },
      by decide, [("a.b", "x")], rfl, ?_⟩, rfl⟩
  simp only [Sat, Holds, Equals]
  exact ⟨"x", by decide, rfl⟩

/-- C07 is violated by a text in an ordered field: `GreaterThan("n", -1)` deletes the record with `n = abc`. -/
theorem C07_text_order_violated : ∃ (s : St Nat Unit Unit) (e : Expr Int), Shape e ∧
    (∀ r ∈ s.db.embeddings, ∀ m, r.metadata = some m → ¬ Sat lib0 m e) ∧ s.db.embeddings ≠ [] ∧
    ∃ s', deleteByFilter lib0 env0 s false e = some (s', .ok) ∧ s'.db.embeddings = [] := by
  refine ⟨storeWith [("r", some [("n", "abc")])], .cmp .gt "n" (.num (-1)), ⟨by decide, _, rfl⟩, ?_, by decide, _, rfl,
    by decide⟩
  intro r hr m hm
  have he : (storeWith [("r", some [("n", "abc")])]).db.embeddings =
      [{ id := "r", cid := 1, vector := [1, 2], content := "", docID := none,
         metadata := some [("n", "abc")], acl := none }] := by decide
  rw [he, List.mem_singleton] at hr
  subst hr
  cases hm
  simp only [Sat, Holds, Ordered]
  rintro ⟨a, ha, x, hx, _⟩
  have : a = "abc" := by
    have h2 : List.lookup "n" [("n", "abc")] = some "abc" := by decide
    rw [h2] at ha; exact (Option.some.inj ha).symm
  subst this
  revert hx
  have : lib0.parse "abc" = none := by decide
  rw [this]; simp

example : Shape (F := Int) (.or [.cmp .eq "t" (.str "x"), .cmp .gt "n" (.num 3)]) ∧
    (∀ r ∈ (storeWith [("r", some [("n", "5")])]).db.embeddings, ∃ m, r.metadata = some m ∧
      Numeric lib0 m (.or [.cmp .eq "t" (.str "x"), .cmp .gt "n" (.num 3)])) := by
  refine ⟨⟨by simp, ⟨by decide, _, rfl⟩, ⟨by decide, _, rfl⟩, trivial⟩, ?_⟩
  intro r hr
  have he : (storeWith [("r", some [("n", "5")])]).db.embeddings =
      [{ id := "r", cid := 1, vector := [1, 2], content := "", docID := none,
         metadata := some [("n", "5")], acl := none }] := by decide
  rw [he, List.mem_singleton] at hr
  subst hr
  refine ⟨_, rfl, (fun h => by simp [isOrder] at h), ?_, trivial⟩
  intro _ a ha
  have h2 : List.lookup "n" [("n", "5")] = some "5" := by decide
  rw [h2] at ha; cases ha
  decide

end C07

/-! ### C21 -/

/-- A comparison on which in-memory evaluation reads values as the specification does: texts to be compared for equality
are not numerals, the field of `!=` is present, patterns have no characters special to regular expressions, and pattern
and text have neither capitals nor newlines. -/
def LeafComparable (c : Lib F) (m : Meta) (op : Cmp) (f : String) (v : V F) : Prop :=
  match op with
  | .eq => ∀ t, v = .str t → c.parse t = none
  | .ne => (∀ t, v = .str t → c.parse t = none) ∧ m.lookup f ≠ none
  | .in_ => ∀ vs, v = .list vs → ∀ t, V.str t ∈ vs → c.parse t = none
  | .like => ∀ p, v = .str p → p.toList.any isMeta = false ∧ (∀ x ∈ p.toList, x.toLower = x) ∧
      ∀ a, m.lookup f = some a → ∀ x ∈ a.toList, x.toLower = x ∧ x ≠ '\n'
  | _ => True

mutual
/-- Every comparison of the expression is `LeafComparable`. -/
def Comparable (c : Lib F) (m : Meta) : Expr F → Prop
  | .and cs => ComparableAll c m cs
  | .or cs => ComparableAll c m cs
  | .not cs => ComparableAll c m cs
  | .cmp op f v => LeafComparable c m op f v
  | _ => True
/-- The same for every member. -/
def ComparableAll (c : Lib F) (m : Meta) : List (Expr F) → Prop
  | [] => True
  | k :: ks => Comparable c m k ∧ ComparableAll c m ks
end

mutual
/-- Expressions made of supported comparisons with AND, OR and NOT, nested in any way. -/
def Typed : Expr F → Prop
  | .nil => True
  | .and cs => TypedAll cs
  | .or cs => TypedAll cs
  | .not cs => cs ≠ [] ∧ TypedAll cs
  | .cmp op _ v => LeafShape op v
  | .other => False
/-- The same for every member. -/
def TypedAll : List (Expr F) → Prop
  | [] => True
  | k :: ks => Typed k ∧ TypedAll ks
end

mutual
theorem Shape.typed : ∀ e : Expr F, Shape e → Typed e
  | .and cs, h => Shape.typedAll cs h.2
  | .or cs, h => Shape.typedAll cs h.2
  | .cmp _ _ _, h => h.2
  | .nil, h => h.elim
  | .not _, h => h.elim
  | .other, h => h.elim
theorem Shape.typedAll : ∀ cs : List (Expr F), ShapeAll cs → TypedAll cs
  | [], _ => trivial
  | k :: ks, h => ⟨Shape.typed k h.1, Shape.typedAll ks h.2⟩
end

theorem skip_congr {one₁ one₂ : Char → Bool} {k₁ k₂ : List Char → Bool} (t : List Char)
    (h1 : ∀ x ∈ t, one₁ x = one₂ x) (h2 : ∀ u, (∀ x ∈ u, x ∈ t) → k₁ u = k₂ u) : skip one₁ k₁ t = skip one₂ k₂ t := by
  induction t with
  | nil => exact h2 [] (by simp)
  | cons x xs ih =>
    simp only [skip]
    rw [h2 (x :: xs) (fun _ h => h), h1 x (by simp),
      ih (fun y hy => h1 y (by simp [hy])) (fun u hu => h2 u (fun y hy => by simp [hu y hy]))]

theorem likeMatch_congr {eq₁ eq₂ : Char → Char → Bool} {one₁ one₂ : Char → Bool} (p : List Char) :
    ∀ t : List Char, (∀ x ∈ t, one₁ x = one₂ x) → (∀ q ∈ p, ∀ x ∈ t, eq₁ q x = eq₂ q x) →
      likeMatch eq₁ one₁ p t = likeMatch eq₂ one₂ p t := by
  induction p with
  | nil => intros; rfl
  | cons q ps ih =>
    intro t h1 h2
    unfold likeMatch
    split
    · exact skip_congr t h1 (fun u hu => ih u (fun x hx => h1 x (hu x hx))
        (fun q hq x hx => h2 q (by simp [hq]) x (hu x hx)))
    · split
      · cases t with
        | nil => rfl
        | cons x xs =>
          show (one₁ x && _) = (one₂ x && _)
          rw [h1 x (by simp), ih xs (fun y hy => h1 y (by simp [hy]))
            (fun q hq y hy => h2 q (by simp [hq]) y (by simp [hy]))]
      · cases t with
        | nil => rfl
        | cons x xs =>
          show (eq₁ q x && _) = (eq₂ q x && _)
          rw [h2 q (by simp) x (by simp), ih xs (fun y hy => h1 y (by simp [hy]))
            (fun q hq y hy => h2 q (by simp [hq]) y (by simp [hy]))]

theorem compareValues_text (c : Lib F) (a t : String) (h : c.parse t = none) (op : Cmp) :
    compareValues c a (.str t) .eq = decide (a = t) ∧ compareValues c a (.str t) .ne = decide (a ≠ t) := by
  unfold compareValues
  simp only [toFloat, h, show_]
  cases c.parse a <;> exact ⟨rfl, rfl⟩

theorem leaf_eval (c : Lib F) (m : Meta) (op : Cmp) (f : String) (v : V F) (h : LeafShape op v)
    (hn : isOrder op = true → ∀ a, m.lookup f = some a → c.parse a = some (c.cast a))
    (hc : LeafComparable c m op f v) :
    ∃ b, evalCmp c m op f v = some b ∧ (b = true ↔ ∃ a, m.lookup f = some a ∧ Holds c op a v) := by
  unfold evalCmp
  cases hl : m.lookup f with
  | none =>
    refine ⟨_, rfl, ?_⟩
    simp only [decide_eq_true_eq, reduceCtorEq, false_and, exists_false, iff_false]
    rintro rfl
    exact hc.2 hl
  | some a =>
    simp only [Option.some.injEq, exists_eq_left']
    cases op <;> simp only [LeafShape] at h
    case in_ =>
      obtain ⟨ts, rfl⟩ := h
      refine ⟨_, rfl, ?_⟩
      simp only [Holds, List.any_map, List.any_eq_true, Function.comp]
      constructor
      · rintro ⟨t, ht, h⟩
        rw [(compareValues_text c a t (hc _ rfl t (List.mem_map_of_mem ht)) .eq).1] at h
        exact ⟨.str t, List.mem_map_of_mem ht, of_decide_eq_true (p := a = t) h⟩
      · rintro ⟨w, hw, h⟩
        obtain ⟨t, ht, rfl⟩ := List.mem_map.1 hw
        refine ⟨t, ht, ?_⟩
        rw [(compareValues_text c a t (hc _ rfl t hw) .eq).1]
        exact decide_eq_true (p := a = t) h
    case between =>
      obtain ⟨x, y, rfl⟩ := h
      refine ⟨_, rfl, ?_⟩
      have := hn rfl a hl
      simp [compareValues, this, toFloat, cmpNum, Holds, Ordered]
    case eq =>
      obtain ⟨t, rfl⟩ := h
      refine ⟨_, rfl, ?_⟩
      rw [(compareValues_text c a t (hc t rfl) .eq).1]
      simp [Holds, Equals]
    case ne =>
      obtain ⟨t, rfl⟩ := h
      refine ⟨_, rfl, ?_⟩
      rw [(compareValues_text c a t (hc.1 t rfl) .eq).2]
      simp [Holds, Equals]
    case like =>
      obtain ⟨p, rfl⟩ := h
      refine ⟨_, rfl, ?_⟩
      obtain ⟨h1, h2, h3⟩ := hc p rfl
      have h3 := h3 a hl
      simp only [Holds, ← sqlLike_iff, goLike, show_, h1, Bool.false_eq_true, if_false, sqlLike]
      rw [likeMatch_congr (eq₂ := fun a b => decide (a.toLower = b.toLower)) (one₂ := fun _ => true)]
      · intro x hx; simp [(h3 x hx).2]
      · intro q hq x hx
        rw [h2 q hq, (h3 x hx).1]
    all_goals
      obtain ⟨x, rfl⟩ := h
      refine ⟨_, rfl, ?_⟩
      have := hn rfl a hl
      simp [compareValues, this, toFloat, cmpNum, Holds, Ordered]

mutual
theorem eval_sat (c : Lib F) (m : Meta) : ∀ e : Expr F, Typed e → Numeric c m e → Comparable c m e →
    ∃ b, eval c m e = some b ∧ (b = true ↔ Sat c m e)
  | .nil, _, _, _ => ⟨true, rfl, by simp [Sat]⟩
  | .and cs, h, hn, hc => by
    obtain ⟨⟨b, hb, hs⟩, _⟩ := eval_satList c m cs h hn hc
    exact ⟨b, by simp only [eval, hb], by simp only [Sat, hs]⟩
  | .or cs, h, hn, hc => by
    obtain ⟨_, b, hb, hs⟩ := eval_satList c m cs h hn hc
    exact ⟨b, by simp only [eval, hb], by simp only [Sat, hs]⟩
  | .not [], h, _, _ => absurd rfl h.1
  | .not (k :: ks), h, hn, hc => by
    obtain ⟨b, hb, hs⟩ := eval_sat c m k h.2.1 hn.1 hc.1
    refine ⟨!b, by simp [eval, hb], ?_⟩
    simp only [Sat, ← hs]
    cases b <;> simp
  | .cmp op f v, h, hn, hc => by
    obtain ⟨b, hb, hs⟩ := leaf_eval c m op f v h hn hc
    exact ⟨b, by simp only [eval, hb], by simp only [Sat, hs]⟩
  | .other, h, _, _ => h.elim
theorem eval_satList (c : Lib F) (m : Meta) : ∀ cs : List (Expr F), TypedAll cs → NumericAll c m cs →
    ComparableAll c m cs →
    (∃ b, evalAnd c m cs = some b ∧ (b = true ↔ SatAll c m cs)) ∧
      (∃ b, evalOr c m cs = some b ∧ (b = true ↔ SatAny c m cs))
  | [], _, _, _ => ⟨⟨true, rfl, by simp [SatAll]⟩, ⟨false, rfl, by simp [SatAny]⟩⟩
  | k :: ks, h, hn, hc => by
    obtain ⟨b, hb, hs⟩ := eval_sat c m k h.1 hn.1 hc.1
    obtain ⟨⟨b1, hb1, hs1⟩, ⟨b2, hb2, hs2⟩⟩ := eval_satList c m ks h.2 hn.2 hc.2
    constructor
    · cases b with
      | false => exact ⟨false, by simp [evalAnd, hb], by simp [SatAll, ← hs]⟩
      | true => exact ⟨b1, by simp [evalAnd, hb, hb1], by simp [SatAll, ← hs, hs1]⟩
    · cases b with
      | true => exact ⟨true, by simp [evalOr, hb], by simp [SatAny, ← hs]⟩
      | false => exact ⟨b2, by simp [evalOr, hb, hb2], by simp [SatAny, ← hs, hs2]⟩
end

/-- C21, part: on expressions without negation and with plain names, for metadata in which ordered fields hold numbers,
text equality is not asked of numerals, the fields of `!=` are present and LIKE patterns are simple and in lower case, the
SQL form selects the record if and only if the in-memory evaluation accepts it. Missing for the full claim: everything
excluded here disagrees, see the `C21_..._violated` theorems. -/
theorem C21_agree_partial (c : Lib F) (m : Meta) (e : Expr F) (hs : Shape e) (hn : Numeric c m e) (hc : Comparable c m e) :
    ∃ k b, compile e = some (some k) ∧ eval c m e = some b ∧ (whereRow c k (some m) = some true ↔ b = true) := by
  obtain ⟨k, hk, hb⟩ := compile_ok e hs
  obtain ⟨b, he, hsat⟩ := eval_sat c m e (Shape.typed e hs) hn hc
  refine ⟨k, b, hk, he, ?_⟩
  rw [hsat, ← sql_sat c m e hs hn k hk]
  simp [whereRow, hb]

/-- C21: in-memory evaluation follows the specification also under negation, at any depth. -/
theorem C21_memory_partial (c : Lib F) (m : Meta) (e : Expr F) (ht : Typed e) (hn : Numeric c m e)
    (hc : Comparable c m e) : ∃ b, eval c m e = some b ∧ (b = true ↔ Sat c m e) := eval_sat c m e ht hn hc

/-- C21 is violated by negation inside AND: SQL accepts, memory refuses. -/
theorem C21_not_violated : ∃ (m : Meta) (e : Expr Int) (k : Clause Int), compile e = some (some k) ∧ Typed e ∧
    whereRow lib0 k (some m) = some true ∧ eval lib0 m e = some false :=
  ⟨[("t", "x"), ("k", "a")], .and [.cmp .eq "t" (.str "x"), .not [.cmp .in_ "k" (.list [.str "a"])]], _, rfl,
    ⟨⟨_, rfl⟩, ⟨by simp, ⟨["a"], rfl⟩, trivial⟩, trivial⟩, by decide, by decide⟩

/-- C21 is violated by `!=` on a missing field: SQL refuses, memory accepts. -/
theorem C21_missing_violated : ∃ (m : Meta) (e : Expr Int) (k : Clause Int), compile e = some (some k) ∧ Shape e ∧
    whereRow lib0 k (some m) = some false ∧ eval lib0 m e = some true :=
  ⟨[], .cmp .ne "t" (.str "x"), _, rfl, ⟨by decide, _, rfl⟩, by decide, by decide⟩

/-- C21 is violated by numerals: memory compares 5 and 05 as numbers, SQL as texts. -/
theorem C21_numeral_violated : ∃ (m : Meta) (e : Expr Int) (k : Clause Int), compile e = some (some k) ∧ Shape e ∧
    whereRow lib0 k (some m) = some false ∧ eval lib0 m e = some true :=
  ⟨[("n", "05")], .cmp .eq "n" (.str "5"), _, rfl, ⟨by decide, _, rfl⟩, by decide, by decide⟩

/-- C21 is violated by LIKE with capitals: SQL ignores case, memory does not. -/
theorem C21_case_violated : ∃ (m : Meta) (e : Expr Int) (k : Clause Int), compile e = some (some k) ∧ Shape e ∧
    whereRow lib0 k (some m) = some true ∧ eval lib0 m e = some false :=
  ⟨[("t", "Ab")], .cmp .like "t" (.str "a%"), _, rfl, ⟨by decide, _, rfl⟩, by decide, by decide⟩

/-- C21 is violated by a connective without children inside OR: memory accepts the empty AND, SQL drops it. -/
theorem C21_empty_violated : ∃ (m : Meta) (e : Expr Int) (k : Clause Int), compile e = some (some k) ∧ Typed e ∧
    whereRow lib0 k (some m) = some false ∧ eval lib0 m e = some true :=
  ⟨[("t", "y")], .or [.and [], .cmp .eq "t" (.str "x")], _, rfl, ⟨trivial, ⟨_, rfl⟩, trivial⟩, by decide, by decide⟩

example : Shape (F := Int) (.and [.cmp .eq "t" (.str "x"), .cmp .like "t" (.str "_%")]) ∧
    Numeric lib0 [("t", "x")] (.and [.cmp .eq "t" (.str "x"), .cmp .like "t" (.str "_%")]) ∧
    Comparable lib0 [("t", "x")] (.and [.cmp .eq "t" (.str "x"), .cmp .like "t" (.str "_%")]) := by
  refine ⟨⟨by simp, ⟨by decide, _, rfl⟩, ⟨by decide, _, rfl⟩, trivial⟩, ⟨(fun h => by simp [isOrder] at h),
    (fun h => by simp [isOrder] at h), trivial⟩, ?_, ?_, trivial⟩
  · rintro t h; cases h; decide
  · rintro p h; cases h
    refine ⟨by decide, by decide, ?_⟩
    intro a ha
    have h2 : List.lookup "t" [("t", "x")] = some "x" := by decide
    rw [h2] at ha; cases ha
    decide

/-! ### C79: the builder -/

/-- The expressions that the builder can make never make either interpreter panic. -/
inductive Safe : Expr F → Prop where
  | nil : Safe .nil
  | and {cs : List (Expr F)} : (∀ x ∈ cs, Safe x) → Safe (.and cs)
  | or {cs : List (Expr F)} : (∀ x ∈ cs, Safe x) → Safe (.or cs)
  | not {cs : List (Expr F)} : (∀ x ∈ cs, Safe x) → Safe (.not cs)
  | in_ (f : String) (vs : List (V F)) : Safe (.cmp .in_ f (.list vs))
  | between (f : String) (lo hi : V F) : Safe (.cmp .between f (.list [lo, hi]))
  | cmp {op : Cmp} (f : String) (v : V F) : op ≠ .in_ → op ≠ .between → Safe (.cmp op f v)

theorem combine_safe (f : Option (Expr F)) (e x : Expr F) (hf : ∀ y, f = some y → Safe y) (he : Safe e)
    (h : combine f e = some x) : Safe x := by
  cases f with
  | none => simp only [combine, Option.some.injEq] at h; exact h ▸ he
  | some y =>
    simp only [combine, Option.some.injEq] at h
    subst h
    exact .and (by simp [hf y rfl, he])

theorem build_safe : ∀ (b : Build F) (x : Expr F), build b = some x → Safe x := by
  intro b
  induction b with
  | new => intro x h; cases h
  | and b o ihb iho =>
    intro x h
    simp only [build] at h
    cases hb : build b <;> cases ho : build o <;> rw [hb, ho] at h <;> simp only [Option.some.injEq, reduceCtorEq] at h
    · subst h; exact iho _ ho
    · subst h; exact ihb _ hb
    · subst h; exact .and (by simp [ihb _ hb, iho _ ho])
  | or b o ihb iho =>
    intro x h
    simp only [build] at h
    cases hb : build b <;> cases ho : build o <;> rw [hb, ho] at h <;> simp only [Option.some.injEq, reduceCtorEq] at h
    · subst h; exact iho _ ho
    · subst h; exact ihb _ hb
    · subst h; exact .or (by simp [ihb _ hb, iho _ ho])
  | notIn b f vs ih =>
    intro x h; exact combine_safe _ _ _ ih (.not (by simp [Safe.in_ f vs])) h
  | isIn b f vs ih => intro x h; exact combine_safe _ _ _ ih (.in_ f vs) h
  | between b f lo hi ih => intro x h; exact combine_safe _ _ _ ih (.between f lo hi) h
  | _ =>
    rename_i ih
    intro x h
    exact combine_safe _ _ _ ih (.cmp _ _ (by simp) (by simp)) h

theorem compileList_total (cs : List (Expr F)) (h : ∀ x ∈ cs, compile x ≠ none) : compileList cs ≠ none := by
  induction cs with
  | nil => simp [compileList]
  | cons x xs ih =>
    have h1 := h x (by simp)
    have h2 := ih (fun y hy => h y (by simp [hy]))
    cases h1' : compile x with
    | none => exact absurd h1' h1
    | some k =>
      cases h2' : compileList xs with
      | none => exact absurd h2' h2
      | some ks => simp [compileList, h1', h2']

theorem compile_total (e : Expr F) (h : Safe e) : compile e ≠ none := by
  induction h with
  | nil => simp [compile]
  | and _ ih =>
    have := compileList_total _ ih
    simp only [compile]
    split
    · rename_i h; exact absurd h this
    all_goals simp
  | or _ ih =>
    have := compileList_total _ ih
    simp only [compile]
    split
    · rename_i h; exact absurd h this
    all_goals simp
  | not _ _ => simp [compile]
  | in_ f vs => simp [compile, compileCmp]
  | between f lo hi => simp [compile, compileCmp]
  | @cmp op f v h1 h2 => cases op <;> simp_all [compile, compileCmp]

theorem evalLists_total (c : Lib F) (m : Meta) (cs : List (Expr F)) (h : ∀ x ∈ cs, eval c m x ≠ none) :
    evalAnd c m cs ≠ none ∧ evalOr c m cs ≠ none := by
  induction cs with
  | nil => simp [evalAnd, evalOr]
  | cons x xs ih =>
    have h1 := h x (by simp)
    have h2 := ih (fun y hy => h y (by simp [hy]))
    cases h1' : eval c m x with
    | none => exact absurd h1' h1
    | some b => cases b <;> simp [evalAnd, evalOr, h1', h2.1, h2.2]

theorem eval_total (c : Lib F) (m : Meta) (e : Expr F) (h : Safe e) : eval c m e ≠ none := by
  induction h with
  | nil => simp [eval]
  | and _ ih => simp only [eval]; exact (evalLists_total c m _ ih).1
  | or _ ih => simp only [eval]; exact (evalLists_total c m _ ih).2
  | @not cs _ ih =>
    cases cs with
    | nil => simp [eval]
    | cons k ks =>
      have := ih k (by simp)
      simp only [eval]
      cases hk : eval c m k with
      | none => exact absurd hk this
      | some b => simp
  | in_ f vs => simp only [eval, evalCmp]; split <;> simp
  | between f lo hi => simp only [eval, evalCmp]; split <;> simp
  | @cmp op f v h1 h2 => cases op <;> simp_all only [eval, evalCmp] <;> split <;> simp_all

/-- C79: a filter made with the filter builder, by any chain of calls with any values, never panics: not when translated
to SQL and not when evaluated in memory. -/
theorem C79_builder_total (c : Lib F) (m : Meta) (b : Build F) (e : Expr F) (h : build b = some e) :
    compile e ≠ none ∧ eval c m e ≠ none := ⟨compile_total e (build_safe b e h), eval_total c m e (build_safe b e h)⟩

/-- What a chain of builder calls asks for. -/
def Asks (c : Lib F) (m : Meta) : Build F → Prop
  | .new => True
  | .equal b f v => Asks c m b ∧ Sat c m (.cmp .eq f v)
  | .notEqual b f v => Asks c m b ∧ Sat c m (.cmp .ne f v)
  | .greater b f v => Asks c m b ∧ Sat c m (.cmp .gt f v)
  | .less b f v => Asks c m b ∧ Sat c m (.cmp .lt f v)
  | .greaterEq b f v => Asks c m b ∧ Sat c m (.cmp .gte f v)
  | .lessEq b f v => Asks c m b ∧ Sat c m (.cmp .lte f v)
  | .isIn b f vs => Asks c m b ∧ Sat c m (.cmp .in_ f (.list vs))
  | .notIn b f vs => Asks c m b ∧ ¬ Sat c m (.cmp .in_ f (.list vs))
  | .between b f lo hi => Asks c m b ∧ Sat c m (.cmp .between f (.list [lo, hi]))
  | .like b f p => Asks c m b ∧ Sat c m (.cmp .like f (.str p))
  | .and b o => Asks c m b ∧ Asks c m o
  | .or b o => if build b = none then Asks c m o else if build o = none then Asks c m b else Asks c m b ∨ Asks c m o

theorem combine_sat (c : Lib F) (m : Meta) (f : Option (Expr F)) (e : Expr F) :
    Sat c m ((combine f e).getD .nil) ↔ Sat c m (f.getD .nil) ∧ Sat c m e := by
  cases f <;> simp [combine, Sat, SatAll]

/-- C79: the built expression means the conjunction of the conditions in the order called; `Or` joins two non-empty
filters with OR, and an empty filter on either side is ignored. -/
theorem C79_builder_meaning (c : Lib F) (m : Meta) (b : Build F) :
    Sat c m ((build b).getD .nil) ↔ Asks c m b := by
  induction b with
  | new => simp [build, Sat, Asks]
  | and b o ihb iho =>
    simp only [Asks, ← ihb, ← iho, build]
    cases hb : build b <;> cases ho : build o <;> simp [Sat, SatAll]
  | or b o ihb iho =>
    simp only [Asks, ← ihb, ← iho, build]
    cases hb : build b <;> cases ho : build o <;> simp [Sat, SatAny]
  | notIn b f vs ih => simp only [Asks, ← ih, build, combine_sat, Sat]
  | _ => rename_i ih; simp only [Asks, ← ih, build, combine_sat]

/-- Outside the builder the type assertion can panic: IN with a value that is not a list. -/
example : compile (F := Int) (.cmp .in_ "t" (.str "x")) = none := rfl

example : build (F := Int) (.or (.notIn (.equal .new "t" (.str "x")) "k" [.str "a"]) (.less .new "n" (.num 3))) ≠ none := by
  simp [build, combine]

end Verif.Thm.Filter
