import Verif.Thm.Filter

/-! C07: which records `DeleteByFilter` removes, for every filter expression. -/
namespace Verif.Thm.FilterSql
open Verif.Model.Filter
open Verif.Model.Store (Meta St Env Out Row)
open Verif.Thm.Filter

variable {F : Type} [LinearOrder F] {W HI VI : Type}

/-! ### Specification -/

/-- A stored number compared with a filter value: with a number by value, with a truth value as one or zero, with a text
by value if it spells a number, and otherwise as `word` says. -/
def RealTest (c : Lib F) (num : F → Prop) (word : Prop) : V F → Prop
  | .num y => num y
  | .bool true => num c.one
  | .bool false => num c.zero
  | .str s => (∃ y, c.affinity s = some y ∧ num y) ∨ (c.affinity s = none ∧ word)
  | _ => False

/-- The text of a pattern. -/
inductive PatternText (c : Lib F) : V F → String → Prop where
  | str (s : String) : PatternText c (.str s) s
  | num (x : F) : PatternText c (.num x) (c.sqlText x)
  | yes : PatternText c (.bool true) "1"
  | no : PatternText c (.bool false) "0"

/-- A stored text passes a comparison in SQL: equality is by text only, so that numbers and truth values are never equal;
order is by the number the text casts to, and a word is greater than all numbers. -/
def Tests (c : Lib F) (op : Cmp) (a : String) (v : V F) : Prop :=
  match op with
  | .eq => v = .str a
  | .ne => (∃ t, v = .str t ∧ t ≠ a) ∨ (∃ y, v = .num y) ∨ ∃ b, v = .bool b
  | .gt => RealTest c (fun y => y < c.cast a) False v
  | .gte => RealTest c (fun y => y ≤ c.cast a) False v
  | .lt => RealTest c (fun y => c.cast a < y) True v
  | .lte => RealTest c (fun y => c.cast a ≤ y) True v
  | .in_ => ∃ vs, v = .list vs ∧ V.str a ∈ vs
  | .between => ∃ lo hi rest, v = .list (lo :: hi :: rest) ∧ RealTest c (fun y => y ≤ c.cast a) False lo ∧
      RealTest c (fun y => c.cast a ≤ y) True hi
  | .like => ∃ p, PatternText c v p ∧ Like p.toList a.toList

mutual
/-- The filter asks for nothing that SQL expresses: nil, NOT, unknown operators, and connectives of such members. -/
def Bare : Expr F → Prop
  | .and cs => BareAll cs
  | .or cs => BareAll cs
  | .cmp _ _ _ => False
  | _ => True
/-- The same for every member. -/
def BareAll : List (Expr F) → Prop
  | [] => True
  | k :: ks => Bare k ∧ BareAll ks
end

mutual
/-- The record is picked by the filter: members that SQL does not express are left out. -/
def Picks (c : Lib F) (m : Meta) : Expr F → Prop
  | .and cs => ¬ BareAll cs ∧ PicksAll c m cs
  | .or cs => PicksAny c m cs
  | .cmp op f v => plainField f = true ∧ ∃ a, m.lookup f = some a ∧ Tests c op a v
  | _ => False
/-- Every member that is not left out picks the record. -/
def PicksAll (c : Lib F) (m : Meta) : List (Expr F) → Prop
  | [] => True
  | k :: ks => (Bare k ∨ Picks c m k) ∧ PicksAll c m ks
/-- Some member that is not left out picks the record. -/
def PicksAny (c : Lib F) (m : Meta) : List (Expr F) → Prop
  | [] => False
  | k :: ks => (¬ Bare k ∧ Picks c m k) ∨ PicksAny c m ks
end

/-- Not a list. -/
def Scalar (v : V F) : Prop := ∀ vs, v ≠ .list vs

/-- A comparison has a value of the kind it needs: a list of values for IN, two values for BETWEEN, one value otherwise. -/
def LeafOk (op : Cmp) (v : V F) : Prop :=
  match op with
  | .in_ => ∃ vs, v = .list vs ∧ ∀ w ∈ vs, Scalar w
  | .between => ∃ lo hi rest, v = .list (lo :: hi :: rest) ∧ Scalar lo ∧ Scalar hi
  | _ => Scalar v

mutual
/-- Every comparison outside NOT has a value of the kind it needs and a name that is plain or dotted. -/
def Ok : Expr F → Prop
  | .and cs => OkAll cs
  | .or cs => OkAll cs
  | .cmp op f v => (plainField f = true ∨ dottedField f = true) ∧ LeafOk op v
  | _ => True
/-- The same for every member. -/
def OkAll : List (Expr F) → Prop
  | [] => True
  | k :: ks => Ok k ∧ OkAll ks
end

/-! ### Proofs -/

theorem isList_false (v : V F) : isList v = false ↔ Scalar v := by
  cases v <;> simp [isList, Scalar]

theorem realTest_iff (c : Lib F) (x : F) (v : V F) (hv : Scalar v) :
    (sqlReal c .gt x v = some true ↔ RealTest c (fun y => y < x) False v) ∧
    (sqlReal c .gte x v = some true ↔ RealTest c (fun y => y ≤ x) False v) ∧
    (sqlReal c .lt x v = some true ↔ RealTest c (fun y => x < y) True v) ∧
    (sqlReal c .lte x v = some true ↔ RealTest c (fun y => x ≤ y) True v) := by
  cases v with
  | nil => simp [sqlReal, RealTest]
  | num y => simp [sqlReal, RealTest, cmpNum]
  | bool b => cases b <;> simp [sqlReal, RealTest, cmpNum]
  | str s => simp only [sqlReal, RealTest]; cases c.affinity s <;> simp [cmpNum]
  | list vs => exact absurd rfl (hv vs)

theorem pattern_iff (c : Lib F) (v : V F) (p : String) : sqlPattern c v = some p ↔ PatternText c v p := by
  constructor
  · intro h
    cases v with
    | bool b => cases b <;> (simp only [sqlPattern] at h; cases h; constructor)
    | _ => simp only [sqlPattern] at h; cases h; try constructor
  · intro h; cases h <;> rfl

theorem extract_eq (c : Lib F) (f : String) (m : Meta) (h : plainField f = true ∨ dottedField f = true) (a : String) :
    extract c f m = some a ↔ plainField f = true ∧ m.lookup f = some a := by
  unfold extract
  by_cases hp : plainField f = true
  · simp [hp]
  · rcases h with h | h
    · exact absurd h hp
    · simp [hp, h]

theorem sqlIn_iff (x : Option String) (vs : List (V F)) :
    sqlIn x vs = some true ↔ ∃ a, x = some a ∧ V.str a ∈ vs := by
  unfold sqlIn
  cases vs with
  | nil => simp
  | cons v vs =>
    simp only [List.isEmpty_cons, Bool.false_eq_true, if_false]
    cases x with
    | none => simp
    | some s =>
      have h1 : ((v :: vs).any (fun v => sqlEq s v == some true)) = true ↔ V.str s ∈ v :: vs := by
        rw [List.any_eq_true]
        constructor
        · rintro ⟨w, hw, h⟩
          cases w <;> simp [sqlEq] at h
          subst h; exact hw
        · intro h; exact ⟨_, h, by simp [sqlEq]⟩
      simp only
      by_cases h : V.str s ∈ v :: vs
      · rw [if_pos (h1.2 h)]; simp only [true_iff]; exact ⟨s, rfl, h⟩
      · rw [if_neg (fun h' => h (h1.1 h'))]
        constructor
        · intro h'; split at h' <;> cases h'
        · rintro ⟨a, ha, hm⟩; cases ha; exact absurd hm h

theorem leaf_sql (op : Cmp) (f : String) (v : V F) (h : LeafOk op v) :
    ∃ k, compileCmp op f v = some k ∧ badParam k = false := by
  cases op with
  | in_ =>
    obtain ⟨vs, rfl, h⟩ := h
    refine ⟨_, rfl, ?_⟩
    simp only [badParam, List.any_eq_false]
    intro w hw
    simp [(isList_false w).2 (h w hw)]
  | between =>
    obtain ⟨lo, hi, rest, rfl, h1, h2⟩ := h
    exact ⟨_, rfl, by simp [badParam, (isList_false _).2 h1, (isList_false _).2 h2]⟩
  | _ => exact ⟨_, rfl, by simpa [badParam] using (isList_false v).2 h⟩

theorem leaf_tests (c : Lib F) (m : Meta) (op : Cmp) (f : String) (v : V F)
    (hf : plainField f = true ∨ dottedField f = true) (h : LeafOk op v) (k : Clause F)
    (hk : compileCmp op f v = some k) :
    evalSQL c m k = some true ↔ plainField f = true ∧ ∃ a, m.lookup f = some a ∧ Tests c op a v := by
  have hx := extract_eq c f m hf
  have hb : ∀ g : String → Option Bool, (extract c f m).bind g = some true ↔
      plainField f = true ∧ ∃ a, m.lookup f = some a ∧ g a = some true := by
    intro g
    rw [Option.bind_eq_some_iff]
    constructor
    · rintro ⟨a, h1, h2⟩; rw [hx] at h1; exact ⟨h1.1, a, h1.2, h2⟩
    · rintro ⟨h0, a, h1, h2⟩; exact ⟨a, (hx a).2 ⟨h0, h1⟩, h2⟩
  cases op with
  | in_ =>
    obtain ⟨vs, rfl, h⟩ := h
    simp only [compileCmp, Option.some.injEq] at hk
    subst hk
    simp only [evalSQL, sqlIn_iff, Tests, V.list.injEq, exists_eq_left']
    constructor
    · rintro ⟨a, h1, h2⟩; rw [hx] at h1; exact ⟨h1.1, a, h1.2, h2⟩
    · rintro ⟨h0, a, h1, h2⟩; exact ⟨a, (hx a).2 ⟨h0, h1⟩, h2⟩
  | between =>
    obtain ⟨lo, hi, rest, rfl, h1, h2⟩ := h
    simp only [compileCmp, Option.some.injEq] at hk
    subst hk
    simp only [evalSQL, hb, and3_true, Tests, (realTest_iff c _ lo h1).2.1, (realTest_iff c _ hi h2).2.2.2]
    refine and_congr_right fun _ => exists_congr fun a => and_congr_right fun _ => ?_
    constructor
    · intro h; exact ⟨lo, hi, rest, rfl, h⟩
    · rintro ⟨_, _, _, he, h⟩; cases he; exact h
  | like =>
    simp only [compileCmp, Option.some.injEq] at hk
    subst hk
    simp only [evalSQL, hb, Tests, Option.map_eq_some_iff, pattern_iff, sqlLike_iff]
  | eq =>
    simp only [compileCmp, Option.some.injEq] at hk
    subst hk
    simp only [evalSQL, hb, Tests]
    refine and_congr_right fun _ => exists_congr fun a => and_congr_right fun _ => ?_
    cases v <;> simp [sqlEq, @eq_comm String a]
  | ne =>
    simp only [compileCmp, Option.some.injEq] at hk
    subst hk
    simp only [evalSQL, hb, Tests]
    refine and_congr_right fun _ => exists_congr fun a => and_congr_right fun _ => ?_
    cases v <;> simp [sqlEq, @eq_comm String a]
  | gt =>
    simp only [compileCmp, Option.some.injEq] at hk
    subst hk
    simp only [evalSQL, hb, Tests, (realTest_iff c _ v h).1]
  | gte =>
    simp only [compileCmp, Option.some.injEq] at hk
    subst hk
    simp only [evalSQL, hb, Tests, (realTest_iff c _ v h).2.1]
  | lt =>
    simp only [compileCmp, Option.some.injEq] at hk
    subst hk
    simp only [evalSQL, hb, Tests, (realTest_iff c _ v h).2.2.1]
  | lte =>
    simp only [compileCmp, Option.some.injEq] at hk
    subst hk
    simp only [evalSQL, hb, Tests, (realTest_iff c _ v h).2.2.2]

/-- What the translation gives on an expression: nothing if it is bare, otherwise a clause that picks as specified. -/
def Gives (c : Lib F) (e : Expr F) : Prop :=
  (Bare e ∧ compile e = some none) ∨
    (¬ Bare e ∧ ∃ k, compile e = some (some k) ∧ badParam k = false ∧ ∀ m, evalSQL c m k = some true ↔ Picks c m e)

/-- The same for the members of a connective. -/
def GivesList (c : Lib F) (cs : List (Expr F)) : Prop :=
  ∃ ks, compileList cs = some ks ∧ badParams ks = false ∧ (ks = [] ↔ BareAll cs) ∧
    (∀ m, evalConj c m ks = some true ↔ PicksAll c m cs) ∧ (∀ m, evalDisj c m ks = some true ↔ PicksAny c m cs)

mutual
theorem gives (c : Lib F) : ∀ e : Expr F, Ok e → Gives c e
  | .nil, _ => Or.inl ⟨trivial, rfl⟩
  | .not _, _ => Or.inl ⟨trivial, rfl⟩
  | .other, _ => Or.inl ⟨trivial, rfl⟩
  | .and cs, h => by
    obtain ⟨ks, h1, h2, h3, h4, _⟩ := givesList c cs h
    cases ks with
    | nil => exact Or.inl ⟨h3.1 rfl, by simp only [compile, h1]⟩
    | cons k ks =>
      have hb : ¬ BareAll cs := fun h => by cases h3.2 h
      refine Or.inr ⟨hb, .conj (k :: ks), by simp only [compile, h1], by simp only [badParam]; exact h2, fun m => ?_⟩
      simp only [evalSQL, h4 m, Picks, hb, not_false_eq_true, true_and]
  | .or cs, h => by
    obtain ⟨ks, h1, h2, h3, _, h4⟩ := givesList c cs h
    cases ks with
    | nil => exact Or.inl ⟨h3.1 rfl, by simp only [compile, h1]⟩
    | cons k ks =>
      have hb : ¬ BareAll cs := fun h => by cases h3.2 h
      exact Or.inr ⟨hb, .disj (k :: ks), by simp only [compile, h1], by simp only [badParam]; exact h2,
        fun m => by simp only [evalSQL, h4 m, Picks]⟩
  | .cmp op f v, h => by
    obtain ⟨k, hk⟩ := leaf_sql op f v h.2
    exact Or.inr ⟨id, k, by simp only [compile, hk.1, Option.map_some], hk.2, fun m => leaf_tests c m op f v h.1 h.2 k hk.1⟩
theorem givesList (c : Lib F) : ∀ cs : List (Expr F), OkAll cs → GivesList c cs
  | [], _ => ⟨[], rfl, rfl, by simp [BareAll], fun m => by simp [evalConj, PicksAll], fun m => by simp [evalDisj, PicksAny]⟩
  | e :: es, h => by
    obtain ⟨ks, h1, h2, h3, h4, h5⟩ := givesList c es h.2
    rcases gives c e h.1 with ⟨hb, hc⟩ | ⟨hb, k, hc, hp, hk⟩
    · refine ⟨ks, by simp only [compileList, hc, h1, Option.toList_none, List.nil_append], h2, ?_, fun m => ?_, fun m => ?_⟩
      · simp [BareAll, hb, h3]
      · simp [PicksAll, hb, h4]
      · simp [PicksAny, hb, h5]
    · refine ⟨k :: ks, by simp only [compileList, hc, h1, Option.toList_some, List.singleton_append], ?_, ?_, fun m => ?_,
        fun m => ?_⟩
      · simp only [badParams, hp, h2, Bool.or_self]
      · simp [BareAll, hb]
      · simp only [evalConj, and3_true, hk, h4, PicksAll, hb, false_or]
      · simp only [evalDisj, or3_true, hk, h5, PicksAny, hb, not_false_eq_true, true_and]
end

/-- C07: on records that all have metadata, `DeleteByFilter` removes exactly the records picked by what SQL expresses of
the filter, for every filter of any depth whose comparisons have values of the kind they need. Negations are left out, so
this is not the full claim: see the `C07_..._violated` theorems for what this means. -/
theorem C07_selected_partial (c : Lib F) (env : Env W HI VI) (s : St W HI VI) (hopen : s.closed = false) (e : Expr F)
    (he : Ok e) (hne : ¬ Bare e) (hr : ∀ r ∈ s.db.embeddings, r.metadata ≠ none) :
    ∃ s', deleteByFilter c env s false e = some (s', .ok) ∧
      (∀ r, r ∈ s'.db.embeddings ↔ r ∈ s.db.embeddings ∧ ¬ ∃ m, r.metadata = some m ∧ Picks c m e) ∧
      s'.db.embeddings.Sublist s.db.embeddings := by
  rcases gives c e he with ⟨h, _⟩ | ⟨_, k, hk, hb, hp⟩
  · exact absurd h hne
  have hd : deleteByFilter c env s false e = some (Model.Store.deleteByFilter env s false (some (whereRow c k))) := by
    cases e <;> first | exact absurd trivial hne | simp only [deleteByFilter, hopen, hk, hb, Bool.false_eq_true, if_false]
  have hmem : ∀ r ∈ s.db.embeddings,
      ((whereRow c k r.metadata == some true) = true ↔ ∃ m, r.metadata = some m ∧ Picks c m e) ∧
        whereRow c k r.metadata ≠ none := by
    intro r hrm
    cases hm : r.metadata with
    | none => exact absurd hm (hr r hrm)
    | some m => simp [whereRow, hb, hp]
  have hgood : s.db.embeddings.any (fun r => whereRow c k r.metadata == none) = false := by
    rw [List.any_eq_false]
    intro r hrm
    simpa using (hmem r hrm).2
  rw [hd]
  simp only [Model.Store.deleteByFilter, hopen, hgood, Bool.false_eq_true, if_false]
  split
  · rename_i h0
    rw [List.length_map, List.length_eq_zero_iff, List.filter_eq_nil_iff] at h0
    exact ⟨s, rfl, fun r => ⟨fun h => ⟨h, fun hx => h0 r h ((hmem r h).1.2 hx)⟩, fun h => h.1⟩, List.Sublist.refl _⟩
  · refine ⟨_, rfl, fun r => ?_, List.filter_sublist⟩
    simp only [List.mem_filter, Bool.not_eq_true']
    refine and_congr_right fun h => ?_
    rw [← (hmem r h).1, Bool.not_eq_true]

/-- C07: a filter of which SQL expresses nothing is refused, at any depth, and nothing changes. -/
theorem C07_bare_refused (c : Lib F) (env : Env W HI VI) (s : St W HI VI) (fault : Bool) (e : Expr F) (he : Ok e)
    (hb : Bare e) : ∃ er, deleteByFilter c env s fault e = some (s, .err er) := by
  rcases gives c e he with ⟨_, h⟩ | ⟨h, _⟩
  · unfold deleteByFilter
    split
    · exact ⟨_, rfl⟩
    · split
      · exact ⟨_, rfl⟩
      · simp only [h]; exact ⟨_, rfl⟩
  · exact absurd hb h

/-- C07: a list where one value is needed is refused, whatever the table holds. -/
theorem C07_list_refused (c : Lib F) (env : Env W HI VI) (s : St W HI VI) (fault : Bool) (op : Cmp) (f : String) (v : V F)
    (h : (op ≠ .in_ ∧ op ≠ .between ∧ ∃ vs, v = .list vs) ∨ (op = .in_ ∧ ∃ vs ws, v = .list vs ∧ V.list ws ∈ vs) ∨
      (op = .between ∧ ∃ lo hi rest, v = .list (lo :: hi :: rest) ∧ (¬ Scalar lo ∨ ¬ Scalar hi))) :
    ∃ er, deleteByFilter c env s fault (.cmp op f v) = some (s, .err er) := by
  unfold deleteByFilter
  simp only
  split
  · exact ⟨_, rfl⟩
  · rcases h with ⟨h1, h2, vs, rfl⟩ | ⟨rfl, vs, ws, rfl, h⟩ | ⟨rfl, lo, hi, rest, rfl, h⟩
    · cases op <;> first | exact absurd rfl h1 | exact absurd rfl h2 | exact ⟨_, rfl⟩
    · have hb : badParam (Clause.inList f vs) = true := by
        simp only [badParam, List.any_eq_true]
        exact ⟨_, h, rfl⟩
      simp only [compile, compileCmp, Option.map_some, hb, if_true]
      exact ⟨_, rfl⟩
    · have hb : badParam (Clause.between f lo hi) = true := by
        simp only [badParam, Bool.or_eq_true]
        rcases h with h | h
        · left; by_contra hx; exact h ((isList_false _).1 (by simpa using hx))
        · right; by_contra hx; exact h ((isList_false _).1 (by simpa using hx))
      simp only [compile, compileCmp, Option.map_some, hb, if_true]
      exact ⟨_, rfl⟩

/-- C07 is violated by IN and BETWEEN without their list: the deletion panics on every open store. -/
theorem C07_panics_violated (c : Lib F) (env : Env W HI VI) (s : St W HI VI) (hopen : s.closed = false) (fault : Bool)
    (op : Cmp) (hop : op = .in_ ∨ op = .between) (f : String) (v : V F) (hv : Scalar v) :
    deleteByFilter c env s fault (.cmp op f v) = none := by
  unfold deleteByFilter
  simp only [hopen, Bool.false_eq_true, if_false]
  rcases hop with rfl | rfl <;> cases v <;> first | rfl | exact absurd rfl (hv _)

/-- C07 is violated by a negated equality with a number: `NotEqual("n", 5)` removes every record that has the field,
those with `n = 5` included. -/
theorem C07_not_equal_number_violated (c : Lib F) (env : Env W HI VI) (s : St W HI VI) (hopen : s.closed = false)
    (f : String) (hf : plainField f = true) (y : F) (hr : ∀ r ∈ s.db.embeddings, r.metadata ≠ none) :
    ∃ s', deleteByFilter c env s false (.cmp .ne f (.num y)) = some (s', .ok) ∧
      ∀ r, r ∈ s'.db.embeddings ↔ r ∈ s.db.embeddings ∧ ∀ m, r.metadata = some m → m.lookup f = none := by
  obtain ⟨s', h1, h2, _⟩ := C07_selected_partial c env s hopen (.cmp .ne f (.num y)) ⟨Or.inl hf, by simp [LeafOk, Scalar]⟩ id hr
  refine ⟨s', h1, fun r => ?_⟩
  rw [h2]
  refine and_congr_right fun _ => ?_
  simp only [Picks, hf, true_and, Tests, V.num.injEq, reduceCtorEq, false_and, exists_false, exists_eq', true_or, or_true, and_true]
  constructor
  · intro h m hm
    cases hl : m.lookup f with
    | none => rfl
    | some a => exact absurd ⟨m, hm, a, hl⟩ h
  · rintro h ⟨m, hm, a, ha⟩
    rw [h m hm] at ha; cases ha

/-- C07 is violated by order against a word, such as a date: `LessThan("d", "2024-01-01")` removes every record that has
the field and `GreaterThan` removes none. -/
theorem C07_word_order_violated (c : Lib F) (env : Env W HI VI) (s : St W HI VI) (hopen : s.closed = false)
    (f : String) (hf : plainField f = true) (t : String) (ht : c.affinity t = none)
    (hr : ∀ r ∈ s.db.embeddings, r.metadata ≠ none) :
    (∃ s', deleteByFilter c env s false (.cmp .lt f (.str t)) = some (s', .ok) ∧
      ∀ r, r ∈ s'.db.embeddings ↔ r ∈ s.db.embeddings ∧ ∀ m, r.metadata = some m → m.lookup f = none) ∧
    ∃ s', deleteByFilter c env s false (.cmp .gt f (.str t)) = some (s', .ok) ∧
      ∀ r, r ∈ s'.db.embeddings ↔ r ∈ s.db.embeddings := by
  constructor
  · obtain ⟨s', h1, h2, _⟩ := C07_selected_partial c env s hopen (.cmp .lt f (.str t)) ⟨Or.inl hf, by simp [LeafOk, Scalar]⟩ id hr
    refine ⟨s', h1, fun r => ?_⟩
    rw [h2]
    refine and_congr_right fun _ => ?_
    simp only [Picks, hf, true_and, Tests, RealTest, ht, reduceCtorEq, false_and, exists_false, and_true, or_true]
    constructor
    · intro h m hm
      cases hl : m.lookup f with
      | none => rfl
      | some a => exact absurd ⟨m, hm, a, hl⟩ h
    · rintro h ⟨m, hm, a, ha⟩
      rw [h m hm] at ha; cases ha
  · obtain ⟨s', h1, h2, _⟩ := C07_selected_partial c env s hopen (.cmp .gt f (.str t)) ⟨Or.inl hf, by simp [LeafOk, Scalar]⟩ id hr
    refine ⟨s', h1, fun r => ?_⟩
    rw [h2]
    simp [Picks, Tests, RealTest, ht]

example : Ok (F := Int) (.and [.cmp .eq "t" (.str "x"), .not [.cmp .in_ "k" (.list [.str "a"])],
      .or [.cmp .between "n" (.list [.num 1, .str "5"]), .cmp .ne "a.b" (.num 3)]]) ∧
    ¬ Bare (F := Int) (.and [.cmp .eq "t" (.str "x"), .not [.cmp .in_ "k" (.list [.str "a"])]]) ∧
    (∀ r ∈ (storeWith [("r", some [("n", "5")])]).db.embeddings, r.metadata ≠ none) := by
  refine ⟨⟨⟨by decide, by simp [LeafOk, Scalar]⟩, trivial, ⟨⟨by decide, ?_⟩, ⟨by decide, by simp [LeafOk, Scalar]⟩, trivial⟩, trivial⟩,
    fun h => h.1.elim, by decide⟩
  exact ⟨_, _, _, rfl, by simp [Scalar], by simp [Scalar]⟩

example : lib0.affinity "2024-01-01" = none ∧ plainField "d" = true ∧ Scalar (F := Int) (.str "a") :=
  ⟨by decide, by decide, by simp [Scalar]⟩

end Verif.Thm.FilterSql
