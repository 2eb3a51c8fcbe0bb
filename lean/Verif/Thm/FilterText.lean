import Verif.Thm.FilterParse

/-! C20: BETWEEN, IN lists and quoted values in filter strings. -/
namespace Verif.Thm.Filter
open Verif.Model.Filter
open Verif.Model.Store (Meta isSpace)

variable {F : Type} [LinearOrder F]

/-! ### BETWEEN -/

mutual
/-- No comparison of the expression is a range. -/
def NoRange : Expr F → Prop
  | .and cs => NoRangeAll cs
  | .or cs => NoRangeAll cs
  | .not cs => NoRangeAll cs
  | .cmp op _ _ => op ≠ .between
  | _ => True
/-- The same for every member. -/
def NoRangeAll : List (Expr F) → Prop
  | [] => True
  | k :: ks => NoRange k ∧ NoRangeAll ks
end

theorem cut_split (pat s a b : List Char) (h : cut pat s = some (a, b)) : s = a ++ (pat ++ b) := by
  induction s generalizing a b with
  | nil =>
    unfold cut at h
    split at h
    · rename_i hp
      rw [List.isEmpty_iff.1 hp]
      simp only [Option.some.injEq, Prod.mk.injEq] at h
      rw [← h.1, ← h.2]; rfl
    · cases h
  | cons x xs ih =>
    unfold cut at h
    split at h
    · rename_i hp
      rw [List.isPrefixOf_iff_prefix] at hp
      simp only [Option.some.injEq, Prod.mk.injEq] at h
      obtain ⟨t, ht⟩ := hp
      rw [← h.1, ← h.2, ← ht]
      simp
    · cases hc : cut pat xs with
      | none => rw [hc] at h; simp at h
      | some r =>
        rw [hc] at h
        simp only [Option.map_some, Option.some.injEq, Prod.mk.injEq] at h
        rw [← h.1, ← h.2]
        simp only [List.cons_append, List.cons.injEq, true_and]
        exact ih r.1 r.2 hc

theorem cut_none_iff (pat : List Char) (hp : pat ≠ []) (s : List Char) : cut pat s = none ↔ ¬ pat <:+: s := by
  constructor
  · intro h
    rintro ⟨u, v, rfl⟩
    induction u with
    | nil =>
      cases pat with
      | nil => exact hp rfl
      | cons x xs =>
        have : (x :: xs).isPrefixOf (x :: (xs ++ v)) = true := by
          rw [List.isPrefixOf_iff_prefix]; exact ⟨v, rfl⟩
        simp only [List.nil_append, List.cons_append, cut] at h
        rw [if_pos this] at h
        cases h
    | cons x xs ih =>
      simp only [List.cons_append, cut] at h
      split at h
      · cases h
      · cases hc : cut pat (xs ++ pat ++ v) with
        | none => exact ih hc
        | some r => rw [hc] at h; cases h
  · intro h
    apply cut_none pat hp
    rintro v w rfl ⟨t, ht⟩
    exact h ⟨v, t, by rw [← ht]; simp⟩

theorem parseOps_noRange (c : Lib F) (s : List Char) : ∀ (l : List (String × Cmp)), (∀ p ∈ l, p.2 ≠ .between) →
    ∀ e, parseOps c s l = .ok e → NoRange e := by
  intro l
  induction l with
  | nil => intro _ e h; cases h
  | cons p rest ih =>
    intro hl e h
    have hrest := ih (fun q hq => hl q (by simp [hq])) e
    obtain ⟨o, op⟩ := p
    simp only [parseOps] at h
    split at h
    · exact hrest h
    · split at h
      · exact hrest h
      · split at h
        · cases h
          exact hl (o, op) (by simp)
        · cases h
        · cases h

theorem parseComparison_noRange (c : Lib F) (s : List Char) (hs : cut " AND ".toList s = none) (e : Expr F)
    (h : parseComparison c s = .ok e) : NoRange e := by
  unfold parseComparison at h
  split at h
  · split at h
    · cases h
    · rename_i a r hr
      have hsr : cut " AND ".toList r = none := by
        rw [cut_none_iff _ (by decide)] at hs ⊢
        intro hi
        apply hs
        unfold split2 at hr
        split at hr
        · cases hr
        · rename_i a' b' hc
          split at hr
          · simp only [Option.some.injEq, Prod.mk.injEq] at hr
            have := cut_split _ _ _ _ hc
            rw [this, hr.2]
            exact hi.trans ⟨a' ++ " BETWEEN ".toList, [], by simp⟩
          · cases hr
      have : split2 " AND ".toList r = none := by unfold split2; rw [hsr]
      rw [this] at h
      cases h
  · split at h
    · split at h
      · cases h
      · dsimp only at h
        split at h
        · cases h
        · split at h
          · cases h; simp [NoRange]
          · cases h
          · cases h
    · exact parseOps_noRange c s operators (by decide) e h

theorem trim_head (s : List Char) (x : Char) (h : (trim s).head? = some x) : isSpace x = false := by
  unfold trim at h
  rw [List.head?_reverse] at h
  have hs : (s.dropWhile isSpace).reverse.dropWhile isSpace <:+ (s.dropWhile isSpace).reverse := List.dropWhile_suffix _
  obtain ⟨t, ht⟩ := hs
  have hl : (s.dropWhile isSpace).reverse.getLast? = some x := by
    rw [← ht, List.getLast?_append, h]; rfl
  rw [List.getLast?_reverse] at hl
  have := List.head?_dropWhile_not isSpace s
  rw [hl] at this
  simpa using this

theorem parseFuel_noRange (c : Lib F) : ∀ (n : Nat) (s : List Char) (e : Expr F), parseFuel c n s = .ok e → NoRange e := by
  intro n
  induction n with
  | zero => intro s e h; cases h
  | succ n ih =>
    intro s e h
    unfold parseFuel at h
    have hh := trim_head s
    generalize trim s = t at h hh
    simp only at h
    split at h
    · exact ih _ _ h
    · have hbin : ∀ (a b : List Char) (mk : Expr F → Expr F → Expr F),
          (∀ l r, NoRange l → NoRange r → NoRange (mk l r)) →
          (match parseFuel c n a with
            | .err => Parsed.err
            | .panic => Parsed.panic
            | .ok l =>
              match parseFuel c n b with
              | .err => Parsed.err
              | .panic => Parsed.panic
              | .ok r => Parsed.ok (mk l r)) = Parsed.ok e → NoRange e := by
        intro a b mk hmk h
        cases ha : parseFuel c n a with
        | err => rw [ha] at h; cases h
        | panic => rw [ha] at h; cases h
        | ok l =>
          rw [ha] at h
          simp only at h
          cases hb : parseFuel c n b with
          | err => rw [hb] at h; cases h
          | panic => rw [hb] at h; cases h
          | ok r =>
            rw [hb] at h
            simp only [Parsed.ok.injEq] at h
            subst h
            exact hmk l r (ih a l ha) (ih b r hb)
      have hne : ∀ (pat a b : List Char), cut pat t = some (a, b) → pat.head? = some ' ' → a ≠ [] := by
        rintro pat a b hc hp rfl
        have := cut_split _ _ _ _ hc
        rw [List.nil_append] at this
        have hx : t.head? = some ' ' := by
          rw [this]
          cases pat with
          | nil => cases hp
          | cons y ys => simpa using hp
        have := hh ' ' hx
        revert this; decide
      cases ha : cut " AND ".toList t with
      | some r =>
        obtain ⟨a, b⟩ := r
        rw [ha] at h
        simp only [hne _ a b ha (by decide), if_false] at h
        exact hbin a b (fun l r => .and [l, r]) (fun l r hl hr => ⟨hl, hr, trivial⟩) h
      | none =>
        rw [ha] at h
        simp only at h
        cases ho : cut " OR ".toList t with
        | some r =>
          obtain ⟨a, b⟩ := r
          rw [ho] at h
          simp only [hne _ a b ho (by decide), if_false] at h
          exact hbin a b (fun l r => .or [l, r]) (fun l r hl hr => ⟨hl, hr, trivial⟩) h
        | none =>
          rw [ho] at h
          exact parseComparison_noRange c t ha e h

/-- C20 is violated by every range: no filter string at all parses to an expression with BETWEEN, because its AND is always
taken for a connective. -/
theorem C20_between_violated (c : Lib F) (s : String) (e : Expr F) (h : parse c s = .ok e) : NoRange e :=
  parseFuel_noRange c _ _ e h

/-! ### IN lists and quoted values -/

/-- Values separated by commas. -/
def listed (v : List Char) (vs : List (List Char)) : List Char := joined "," v vs

/-- A word without a comma. -/
def IsItem (v : List Char) : Prop := v ≠ [] ∧ ∀ x ∈ v, isWord x = true ∧ x ≠ ','

theorem splitOn_listed (v : List Char) (vs : List (List Char)) (hv : IsItem v) (hvs : ∀ x ∈ vs, IsItem x) :
    (listed v vs).splitOn ',' = v :: vs := by
  unfold List.splitOn
  induction vs generalizing v with
  | nil =>
    apply List.splitOnP_eq_singleton
    intro x hx
    simpa using (hv.2 x hx).2
  | cons w ws ih =>
    show List.splitOnP _ (v ++ ",".toList ++ joined "," w ws) = _
    have h1 : ",".toList = [','] := by decide
    rw [h1, List.append_assoc, List.singleton_append,
      List.splitOnP_append_cons_of_forall_mem (fun x hx => by simpa using (hv.2 x hx).2) ',' (by simp)]
    congr 1
    exact ih w (hvs w (by simp)) (fun x hx => hvs x (by simp [hx]))

theorem parseValues_items (c : Lib F) (vs : List (List Char)) (h : ∀ x ∈ vs, IsItem x) :
    parseValues c vs = .ok (vs.map (wordValue c)) := by
  induction vs with
  | nil => rfl
  | cons v vs ih =>
    have hv := h v (by simp)
    simp only [parseValues, parseValue_word c v hv.1 (fun x hx => (hv.2 x hx).1), ih (fun x hx => h x (by simp [hx])),
      List.map_cons]

theorem listed_mem (v : List Char) (vs : List (List Char)) (hv : IsItem v) (hvs : ∀ x ∈ vs, IsItem x) (x : Char)
    (hx : x ∈ listed v vs) : isSpace x = false := by
  induction vs generalizing v with
  | nil => exact isWord_space (hv.2 x hx).1
  | cons w ws ih =>
    rcases List.mem_append.1 (show x ∈ (v ++ ",".toList) ++ joined "," w ws from hx) with h | h
    · rcases List.mem_append.1 h with h | h
      · exact isWord_space (hv.2 x h).1
      · have : ∀ y ∈ ",".toList, isSpace y = false := by decide
        exact this x h
    · exact ih w (hvs w (by simp)) (fun x hx => hvs x (by simp [hx])) h

/-- A pattern between spaces is not found where only the word IN is. -/
theorem not_infix (p f r : List Char) (hp : p ≠ ['I', 'N']) (hps : ' ' ∉ p) (hf : ' ' ∉ f) (hr : ' ' ∉ r) :
    ¬ (' ' :: (p ++ [' '])) <:+: f ++ (' ' :: 'I' :: 'N' :: ' ' :: r) := by
  have key : ∀ (p' : List Char), ' ' ∉ p' → ∀ (q t : List Char), ' ' ∉ q →
      ∀ (v w : List Char), q ++ (' ' :: t) = v ++ ((' ' :: p') ++ w) →
        (v = q ∧ t = p' ++ w) ∨ ∃ v', t = v' ++ ((' ' :: p') ++ w) := by
    intro p' _ q t hq v w h
    rcases List.append_eq_append_iff.1 h with ⟨u, h1, h2⟩ | ⟨u, h1, h2⟩
    · cases u with
      | nil =>
        simp only [List.nil_append, List.cons_append, List.cons.injEq, true_and] at h2
        exact Or.inl ⟨by simpa using h1, h2⟩
      | cons y ys =>
        simp only [List.cons_append, List.cons.injEq] at h2
        exact Or.inr ⟨ys, by simpa using h2.2⟩
    · cases u with
      | nil =>
        simp only [List.nil_append, List.cons_append, List.cons.injEq, true_and] at h2
        exact Or.inl ⟨by simpa using h1.symm, h2.symm⟩
      | cons y ys =>
        simp only [List.cons_append, List.cons.injEq] at h2
        exact absurd (by rw [h1, ← h2.1]; simp) hq
  rintro ⟨v, w, h⟩
  have h' : f ++ (' ' :: 'I' :: 'N' :: ' ' :: r) = v ++ ((' ' :: p) ++ (' ' :: w)) := by
    rw [← h]; simp
  rcases key p hps f _ hf v (' ' :: w) h' with ⟨_, h2⟩ | ⟨v', h2⟩
  · have h3 : ['I', 'N'] ++ (' ' :: r) = p ++ (' ' :: w) := h2
    rcases List.append_eq_append_iff.1 h3 with ⟨u, h4, h5⟩ | ⟨u, h4, h5⟩
    · cases u with
      | nil => exact hp (by simpa using h4)
      | cons y ys =>
        simp only [List.cons_append, List.cons.injEq] at h5
        exact hps (by rw [h4, ← h5.1]; simp)
    · cases u with
      | nil => exact hp (by simpa using h4.symm)
      | cons y ys =>
        simp only [List.cons_append, List.cons.injEq] at h5
        have : y ∈ ['I', 'N'] := by rw [h4]; simp
        rw [← h5.1] at this
        revert this; decide
  · have h3 : ['I', 'N'] ++ (' ' :: r) = v' ++ ((' ' :: p) ++ (' ' :: w)) := h2
    rcases key p hps ['I', 'N'] r (by decide) v' (' ' :: w) h3 with ⟨_, h4⟩ | ⟨v'', h4⟩
    · exact hr (by rw [h4]; simp)
    · exact hr (by rw [h4]; simp)

/-- What the parser makes of `name IN rest`, where neither has a space. -/
theorem parse_in (c : Lib F) (f r : List Char) (hf : f ≠ []) (hfw : ∀ x ∈ f, isWord x = true) (hr : r ≠ [])
    (hrs : ∀ x ∈ r, isSpace x = false) :
    parse c (String.ofList (f ++ (" IN ".toList ++ r))) =
      if !(r.head? = some '(' && r.getLast? = some ')') then .err
      else
        match parseValues c (((r.drop 1).dropLast).splitOn ',') with
        | .ok vs => .ok (.cmp .in_ (String.ofList f) (.list vs))
        | .err => .err
        | .panic => .panic := by
  have hin : " IN ".toList = [' ', 'I', 'N', ' '] := by decide
  have hfs : ' ' ∉ f := fun h => by have := isWord_space (hfw _ h); revert this; decide
  have hrs' : ' ' ∉ r := fun h => by have := hrs _ h; revert this; decide
  have ht : trim (f ++ (" IN ".toList ++ r)) = f ++ (" IN ".toList ++ r) := by
    apply trim_id
    · intro x hx
      cases f with
      | nil => exact absurd rfl hf
      | cons y ys => simp at hx; subst hx; exact isWord_space (hfw _ (by simp))
    · intro x hx
      rw [← List.append_assoc, List.getLast?_append] at hx
      cases hl : r.getLast? with
      | none => exact absurd (List.getLast?_eq_none_iff.1 hl) hr
      | some y =>
        rw [hl] at hx
        simp at hx; subst hx
        exact hrs y (List.mem_of_getLast? hl)
  have hno : ∀ p : List Char, p ≠ ['I', 'N'] → ' ' ∉ p → cut (' ' :: (p ++ [' '])) (f ++ (" IN ".toList ++ r)) = none := by
    intro p hp hps
    rw [cut_none_iff _ (by simp), hin]
    exact not_infix p f r hp hps hfs hrs'
  have htr : trim r = r := by
    apply trim_id
    · intro x hx; exact hrs x (List.mem_of_mem_head? (by rw [hx]; rfl))
    · intro x hx; exact hrs x (List.mem_of_getLast? hx)
  have hcut : cut " IN ".toList (f ++ (" IN ".toList ++ r)) = some (f, r) := by
    rw [hin]; exact cut_first ' ' ['I', 'N', ' '] f r hfs
  have hcut2 : cut " IN ".toList r = none := cut_none_of_not_mem _ _ ' ' (by decide) hrs'
  unfold parse
  rw [String.toList_ofList, parseFuel_plain c _ _ ht]
  · unfold parseComparison
    rw [show " BETWEEN ".toList = ' ' :: (['B', 'E', 'T', 'W', 'E', 'E', 'N'] ++ [' ']) by decide,
      hno _ (by decide) (by decide)]
    simp only [Option.isSome_none, Bool.false_eq_true, if_false, hcut, Option.isSome_some, if_true, split2, hcut2,
      Option.isNone_none, htr, trim_word f hfw]
    split
    · rfl
    · cases parseValues c (List.splitOn ',' (List.drop 1 r).dropLast) <;> rfl
  · rintro ⟨h, _⟩
    cases f with
    | nil => exact hf rfl
    | cons y ys =>
      simp at h; subst h
      exact isWord_ne (hfw '(' (by simp)) (y := '(') (by decide) rfl
  · rw [show " AND ".toList = ' ' :: (['A', 'N', 'D'] ++ [' ']) by decide]
    exact hno _ (by decide) (by decide)
  · rw [show " OR ".toList = ' ' :: (['O', 'R'] ++ [' ']) by decide]
    exact hno _ (by decide) (by decide)

/-- C20: `name IN (a,b,...)` asks for any of the listed values, in any number. -/
theorem C20_in (c : Lib F) (f v : List Char) (vs : List (List Char)) (hf : f ≠ []) (hfw : ∀ x ∈ f, isWord x = true)
    (hv : IsItem v) (hvs : ∀ x ∈ vs, IsItem x) :
    parse c (String.ofList (f ++ (" IN ".toList ++ ('(' :: (listed v vs ++ [')']))))) =
      .ok (.cmp .in_ (String.ofList f) (.list ((v :: vs).map (wordValue c)))) := by
  rw [parse_in c f _ hf hfw (by simp)]
  · have hl : ('(' :: (listed v vs ++ [')'])).getLast? = some ')' := by
      rw [show '(' :: (listed v vs ++ [')']) = ('(' :: listed v vs) ++ [')'] from rfl, List.getLast?_concat]
    rw [hl]
    simp only [List.head?_cons, decide_true, Bool.and_self, Bool.not_true, Bool.false_eq_true, if_false, List.drop_succ_cons,
      List.drop_zero, List.dropLast_concat, splitOn_listed v vs hv hvs]
    rw [parseValues_items c _ (by
      intro x hx
      rcases List.mem_cons.1 hx with rfl | hx
      · exact hv
      · exact hvs x hx)]
  · intro x hx
    simp only [List.mem_cons, List.mem_append, List.not_mem_nil, or_false] at hx
    rcases hx with rfl | hx | rfl
    · decide
    · exact listed_mem v vs hv hvs x hx
    · decide

/-- C20: `name IN rest` is refused unless the rest stands in parentheses. -/
theorem C20_in_refused (c : Lib F) (f r : List Char) (hf : f ≠ []) (hfw : ∀ x ∈ f, isWord x = true) (hr : r ≠ [])
    (hrs : ∀ x ∈ r, isSpace x = false) (hp : r.head? ≠ some '(' ∨ r.getLast? ≠ some ')') :
    parse c (String.ofList (f ++ (" IN ".toList ++ r))) = .err := by
  rw [parse_in c f r hf hfw hr hrs, if_pos]
  rcases hp with hp | hp <;> simp [hp]

/-- The spellings of the comparison operators. -/
def spellings : List (String × Cmp) :=
  [(">=", .gte), ("<=", .lte), ("!=", .ne), (">", .gt), ("<", .lt), ("=", .eq), (":", .eq)]

theorem ops_general (c : Lib F) (f v : List Char) (o : String) (op : Cmp) (hm : (o, op) ∈ spellings)
    (hf : f ≠ []) (hfw : ∀ x ∈ f, x ∉ "<>=!:".toList) (hvw : ∀ x ∈ v, x ∉ "<>=!:".toList) (val : V F)
    (hval : parseValue c v = .ok val) :
    parseOps c (f ++ (o.toList ++ v)) operators = .ok (.cmp op (String.ofList (trim f)) val) := by
  have hno : ∀ (pat : List Char) (y : Char), y ∈ pat → y ∈ "<>=!:".toList → y ∉ o.toList →
      cut pat (f ++ (o.toList ++ v)) = none := by
    intro pat y hy hy2 hyo
    apply cut_none_of_not_mem pat _ y hy
    simp only [List.mem_append, not_or]
    exact ⟨fun h => hfw y h hy2, hyo, fun h => hvw y h hy2⟩
  have hit : ∀ (x : Char) (xs : List Char) (rest : List (String × Cmp)), o.toList = x :: xs → x ∈ "<>=!:".toList →
      parseOps c (f ++ (o.toList ++ v)) ((o, op) :: rest) = .ok (.cmp op (String.ofList (trim f)) val) := by
    intro x xs rest ho hx
    have : cut o.toList (f ++ (o.toList ++ v)) = some (f, v) := by
      rw [ho]
      exact cut_first x xs f v (fun h => hfw x h hx)
    rw [parseOps, this]
    simp only [hf, if_false, hval]
  unfold operators
  simp only [spellings, List.mem_cons, Prod.mk.injEq, List.not_mem_nil, or_false] at hm
  rcases hm with h | h | h | h | h | h | h <;> obtain ⟨rfl, rfl⟩ := h
  · exact hit '>' ['='] _ (by decide) (by decide)
  · rw [parseOps_skip c _ ">=" _ _ (hno _ '>' (by decide) (by decide) (by decide))]
    exact hit '<' ['='] _ (by decide) (by decide)
  · rw [parseOps_skip c _ ">=" _ _ (hno _ '>' (by decide) (by decide) (by decide)),
      parseOps_skip c _ "<=" _ _ (hno _ '<' (by decide) (by decide) (by decide))]
    exact hit '!' ['='] _ (by decide) (by decide)
  · rw [parseOps_skip c _ ">=" _ _ (hno _ '=' (by decide) (by decide) (by decide)),
      parseOps_skip c _ "<=" _ _ (hno _ '<' (by decide) (by decide) (by decide)),
      parseOps_skip c _ "!=" _ _ (hno _ '!' (by decide) (by decide) (by decide))]
    exact hit '>' [] _ (by decide) (by decide)
  · rw [parseOps_skip c _ ">=" _ _ (hno _ '>' (by decide) (by decide) (by decide)),
      parseOps_skip c _ "<=" _ _ (hno _ '=' (by decide) (by decide) (by decide)),
      parseOps_skip c _ "!=" _ _ (hno _ '!' (by decide) (by decide) (by decide)),
      parseOps_skip c _ ">" _ _ (hno _ '>' (by decide) (by decide) (by decide))]
    exact hit '<' [] _ (by decide) (by decide)
  · rw [parseOps_skip c _ ">=" _ _ (hno _ '>' (by decide) (by decide) (by decide)),
      parseOps_skip c _ "<=" _ _ (hno _ '<' (by decide) (by decide) (by decide)),
      parseOps_skip c _ "!=" _ _ (hno _ '!' (by decide) (by decide) (by decide)),
      parseOps_skip c _ ">" _ _ (hno _ '>' (by decide) (by decide) (by decide)),
      parseOps_skip c _ "<" _ _ (hno _ '<' (by decide) (by decide) (by decide))]
    exact hit '=' [] _ (by decide) (by decide)
  · rw [parseOps_skip c _ ">=" _ _ (hno _ '>' (by decide) (by decide) (by decide)),
      parseOps_skip c _ "<=" _ _ (hno _ '<' (by decide) (by decide) (by decide)),
      parseOps_skip c _ "!=" _ _ (hno _ '!' (by decide) (by decide) (by decide)),
      parseOps_skip c _ ">" _ _ (hno _ '>' (by decide) (by decide) (by decide)),
      parseOps_skip c _ "<" _ _ (hno _ '<' (by decide) (by decide) (by decide)),
      parseOps_skip c _ "=" _ _ (hno _ '=' (by decide) (by decide) (by decide)),
      parseOps_skip c _ ":=" _ _ (hno _ '=' (by decide) (by decide) (by decide))]
    exact hit ':' [] _ (by decide) (by decide)

theorem trim_spaces (a b : Nat) (s : List Char) (hs : s ≠ []) (h1 : ∀ x, s.head? = some x → isSpace x = false)
    (h2 : ∀ x, s.getLast? = some x → isSpace x = false) :
    trim (List.replicate a ' ' ++ (s ++ List.replicate b ' ')) = s := by
  have hd : ∀ (n : Nat) (t : List Char), (List.replicate n ' ' ++ t).dropWhile isSpace = t.dropWhile isSpace := by
    intro n t
    induction n with
    | zero => rfl
    | succ n ih => rw [List.replicate_succ, List.cons_append, List.dropWhile_cons_of_pos (by decide), ih]
  unfold trim
  rw [hd, dropWhile_id (s ++ _), List.reverse_append, List.reverse_replicate, hd, dropWhile_id s.reverse, List.reverse_reverse]
  · intro x hx; rw [List.head?_reverse] at hx; exact h2 x hx
  · intro x hx
    cases s with
    | nil => exact absurd rfl hs
    | cons y ys => exact h1 x (by simpa using hx)

/-- C20: a comparison with spaces around its operator and a quoted value, which may hold any characters other than the
operators' and none of the connectives, compares with exactly the text between the quotes. Missing for the full claim:
operators and connectives inside quotes, see `C20_quoted_violated`. -/
theorem C20_quoted_partial (c : Lib F) (f v : List Char) (q : Char) (hq : q = '\'' ∨ q = '"') (a b : Nat) (o : String)
    (op : Cmp) (hm : (o, op) ∈ spellings) (hf : f ≠ []) (hfw : ∀ x ∈ f, isWord x = true)
    (hv : ∀ x ∈ v, x ∉ "<>=!:".toList) (text : List Char)
    (ht : text = f ++ (List.replicate a ' ' ++ (o.toList ++ (List.replicate b ' ' ++ (q :: (v ++ [q]))))))
    (hc : ∀ w ∈ [" AND ", " OR ", " BETWEEN ", " IN "], ¬ w.toList <:+: text) :
    parse c (String.ofList text) = .ok (.cmp op (String.ofList f) (.str (String.ofList v))) := by
  have hqs : isSpace q = false := by rcases hq with rfl | rfl <;> decide
  have hql : (q :: (v ++ [q])).getLast? = some q := by
    rw [show q :: (v ++ [q]) = (q :: v) ++ [q] from rfl, List.getLast?_concat]
  have hne : ∀ w ∈ [" AND ", " OR ", " BETWEEN ", " IN "], w.toList ≠ [] := by decide
  have hcut : ∀ w ∈ [" AND ", " OR ", " BETWEEN ", " IN "], cut w.toList text = none :=
    fun w hw => (cut_none_iff _ (hne w hw) _).2 (hc w hw)
  have hhead : ∀ x, text.head? = some x → isWord x = true := by
    intro x hx
    rw [ht] at hx
    cases f with
    | nil => exact absurd rfl hf
    | cons y ys => simp at hx; subst hx; exact hfw _ (by simp)
  have htr : trim text = text := by
    apply trim_id
    · intro x hx; exact isWord_space (hhead x hx)
    · intro x hx
      have : text.getLast? = some q := by
        rw [ht, List.getLast?_append, List.getLast?_append, List.getLast?_append, List.getLast?_append, hql]
        rfl
      rw [this] at hx; cases hx; exact hqs
  have hval : parseValue c (List.replicate b ' ' ++ (q :: (v ++ [q]))) = .ok (.str (String.ofList v)) := by
    have htv : trim (List.replicate b ' ' ++ (q :: (v ++ [q]))) = q :: (v ++ [q]) := by
      have := trim_spaces b 0 (q :: (v ++ [q])) (by simp) (fun x hx => by simp at hx; subst hx; exact hqs)
        (fun x hx => by rw [hql] at hx; cases hx; exact hqs)
      simpa using this
    have hqq : (quoted '\'' (q :: (v ++ [q])) || quoted '"' (q :: (v ++ [q]))) = true := by
      unfold quoted
      rw [hql]
      rcases hq with rfl | rfl <;> simp
    unfold parseValue
    simp only [htv, hqq, if_true]
    rw [if_neg (by simp)]
    simp
  have hops := ops_general c (f ++ List.replicate a ' ') (List.replicate b ' ' ++ (q :: (v ++ [q]))) o op hm (by simp [hf])
    (by
      intro x hx hx2
      rcases List.mem_append.1 hx with h | h
      · have hsub : ∀ y ∈ "<>=!:".toList, y ∈ "()'\"<>=!:".toList := by decide
        exact isWord_ne (hfw x h) (hsub x hx2) rfl
      · rw [List.mem_replicate] at h
        rw [h.2] at hx2
        revert hx2; decide)
    (by
      intro x hx
      simp only [List.mem_append, List.mem_cons, List.not_mem_nil, or_false] at hx
      rcases hx with h | rfl | h | rfl
      · rw [List.mem_replicate] at h
        rw [h.2]; decide
      · rcases hq with rfl | rfl <;> decide
      · exact hv x h
      · rcases hq with rfl | rfl <;> decide)
    _ hval
  have htf : trim (f ++ List.replicate a ' ') = f := by
    have := trim_spaces 0 a f hf (fun x hx => isWord_space (hfw x (List.mem_of_mem_head? (by rw [hx]; rfl))))
      (fun x hx => isWord_space (hfw x (List.mem_of_getLast? hx)))
    simpa using this
  rw [htf, List.append_assoc, ← ht] at hops
  unfold parse
  rw [String.toList_ofList, parseFuel_plain c _ _ htr _ (hcut _ (by simp)) (hcut _ (by simp))]
  · unfold parseComparison
    rw [hcut " BETWEEN " (by simp), hcut " IN " (by simp)]
    simp only [Option.isSome_none, Bool.false_eq_true, if_false]
    exact hops
  · rintro ⟨h, _⟩
    exact isWord_ne (hhead _ h) (y := '(') (by decide) rfl

/-- C20 is violated by operators and connectives inside quotes: `t='a>b'` is read as `t='a` greater than `b'`, and a
quoted AND splits the value. -/
theorem C20_quoted_violated : parse lib0 "t='a>b'" = .ok (.cmp .gt "t='a" (.str "b'")) ∧
    parse lib0 "t='a AND b'" = .err := ⟨rfl, rfl⟩

example : IsItem "ai".toList ∧ IsItem "7".toList ∧ (∀ x ∈ "tag".toList, isWord x = true) := by
  refine ⟨⟨by decide, ?_⟩, ⟨by decide, ?_⟩, by decide⟩ <;> decide

example : ("!=", Cmp.ne) ∈ spellings ∧ (∀ x ∈ "it is (so), AND".toList, x ∉ "<>=!:".toList) ∧
    ∀ w ∈ [" AND ", " OR ", " BETWEEN ", " IN "], ¬ w.toList <:+: "t  != 'it is (so), AND'".toList := by
  refine ⟨by decide, by decide, ?_⟩
  intro w hw
  rw [← cut_none_iff]
  · revert w; decide
  · revert w; decide

end Verif.Thm.Filter
