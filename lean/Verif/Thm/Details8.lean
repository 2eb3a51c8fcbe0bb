import Verif.Thm.FtsQuery
import Verif.Thm.HybridRouter
import Verif.Model.MultiIndex

/-!
C215: words joined by `+`, column filters and prefixes. C37: a failing part of a multi index is reported. C223: the weight set is used.
-/
namespace Verif.FtsQuery
open Verif.Base

variable {T : Type} [DecidableEq T]

/-- Words with a `+` between them. -/
def joinPlus (w : Text) (ws : List Text) : Text := w ++ ws.flatMap (fun x => '+' :: x)

/-- Their tokens. -/
def plusToks (ws : List Text) : List Tok := ws.flatMap (fun x => [.plus, .str x false])

theorem scan_plus (w : Text) (ws : List Text) (h : ∀ x ∈ w :: ws, PlainWord x) :
    scan .out (joinPlus w ws) = some (.str w false :: plusToks ws) := by
  induction ws generalizing w with
  | nil =>
    obtain ⟨h1, h2, h3⟩ := h w (by simp)
    obtain ⟨c, w', rfl⟩ := List.exists_cons_of_ne_nil h1
    have := scan_run w' [c] [] (fun x hx => h2 x (by simp [hx]))
    rw [List.append_nil] at this
    simp only [joinPlus, List.flatMap_nil, List.append_nil, plusToks]
    rw [scan, first_bare c (h2 c (by simp))]
    simp only [List.nil_append]
    rw [this]
    simp only [List.cons_append, List.nil_append, scan]
    rw [word_plain _ h3]
    rfl
  | cons v vs ih =>
    obtain ⟨h1, h2, h3⟩ := h w (by simp)
    obtain ⟨c, w', rfl⟩ := List.exists_cons_of_ne_nil h1
    have e : joinPlus (c :: w') (v :: vs) = c :: (w' ++ ('+' :: joinPlus v vs)) := by simp [joinPlus]
    rw [e, scan, first_bare c (h2 c (by simp))]
    simp only [List.nil_append]
    rw [scan_run w' [c] _ (fun x hx => h2 x (by simp [hx])), scan, show bare '+' = false by decide,
      show first '+' = some (.out, [.plus]) from (single_first '+' .plus (by decide)).1]
    simp only [Bool.false_eq_true, if_false]
    rw [ih v (fun x hx => h x (List.mem_cons_of_mem _ hx))]
    simp only [Option.map_some, List.cons_append, List.nil_append, word_plain _ h3]
    simp [plusToks]

theorem joinPlus_chars (w : Text) (ws : List Text) (h : ∀ x ∈ w :: ws, PlainWord x) : ∀ c ∈ joinPlus w ws, c.toNat ≠ 0 := by
  intro c hc
  simp only [joinPlus, List.mem_append, List.mem_flatMap, List.mem_cons] at hc
  rcases hc with hc | ⟨x, hx, rfl | hc⟩
  · exact bare_ne_zero c ((h w (by simp)).2.1 c hc)
  · decide
  · exact bare_ne_zero c ((h x (by simp [hx])).2.1 c hc)

theorem phrase_plus (w : Text) (ws : List Text) (n : Nat) (hn : ws.length + 1 ≤ n) :
    phrase n (.str w false :: plusToks ws) = some ((w :: ws).map (fun x => (x, false)), []) := by
  induction ws generalizing w n with
  | nil =>
    obtain ⟨m, rfl⟩ : ∃ m, n = m + 1 := ⟨n - 1, by omega⟩
    simp [plusToks, phrase, starOpt]
  | cons v vs ih =>
    obtain ⟨m, rfl⟩ : ∃ m, n = m + 1 := ⟨n - 1, by simp at hn; omega⟩
    have e : plusToks (v :: vs) = .plus :: .str v false :: plusToks vs := by simp [plusToks]
    rw [e]
    simp only [phrase, starOpt]
    rw [ih v m (by simp at hn; omega)]
    simp

theorem parse_plus (w : Text) (ws : List Text) (h : ∀ x ∈ w :: ws, PlainWord x) :
    parse (joinPlus w ws) = some (.all [{ phrases := [(w :: ws).map (fun x => (x, false))] }]) := by
  rw [parse, tokens, takeWhile_all _ (joinPlus_chars w ws h), scan_plus w ws h]
  have hlen : (Tok.str w false :: plusToks ws).length = 2 * ws.length + 1 := by
    have : (plusToks ws).length = 2 * ws.length := by
      simp [plusToks, List.length_flatMap]; omega
    simp [this]
  simp only
  rw [hlen]
  obtain ⟨m, hm, hm2⟩ : ∃ m, 8 * (2 * ws.length + 1) + 8 = m + 6 ∧ ws.length + 1 ≤ m := ⟨16 * ws.length + 10, by omega, by omega⟩
  rw [hm]
  have hcs : ∀ k, colset k (.str w false :: plusToks ws) = .none := by
    intro k; cases ws <;> simp [plusToks, colset]
  rw [show m + 6 = (m + 5) + 1 by omega]
  have h3' : expr (m + 3) 3 (.str w false :: plusToks ws) = some (.all [{ phrases := [(w :: ws).map (fun x => (x, false))] }], []) := by
    have hp := phrase_plus w ws (m + 1) (by omega)
    have hns : nearset (m + 1) (.str w false :: plusToks ws) = some ({ phrases := [(w :: ws).map (fun x => (x, false))] }, []) := by
      have : nearset (m + 1) (.str w false :: plusToks ws) = (phrase (m + 1) (.str w false :: plusToks ws)).map (fun p => ({ phrases := [p.1] }, p.2)) := by
        cases ws <;> simp [plusToks, nearset]
      rw [this, hp]; rfl
    rw [expr_top _ _ (by simp), hcs]
    simp only
    rw [exprlist, cnearset, hcs, hns]
    simp [starts]
  rw [expr_low _ _ (by decide), expr_low _ _ (by decide), expr_low _ _ (by decide), h3']
  simp [loop]

/-- C215: words joined by `+` are accepted, and the texts that satisfy them are those in which the terms of all the words stand one
after the other, in the order of the words. -/
theorem C215_joined (w : Text) (ws : List Text) (h : ∀ x ∈ w :: ws, PlainWord x) :
    ∃ x, parse (joinPlus w ws) = some x ∧ ∀ (L : Lib T) (c : Text), L.sat c x = true ↔
      (∃ v ∈ w :: ws, L.tok v ≠ []) ∧ ∃ before after, L.tok c = before ++ (w :: ws).flatMap L.tok ++ after := by
  refine ⟨_, parse_plus w ws h, fun L c => ?_⟩
  have hl : L.leaf { phrases := [(w :: ws).map (fun x => (x, false))] } =
      if (w :: ws).flatMap L.tok = [] then none else some (fun c => decide ((w :: ws).flatMap L.tok <:+: L.tok c)) := by
    have : plain { phrases := [(w :: ws).map (fun x => (x, false))] } = some (w :: ws) := by
      simp [plain, Function.comp_def]
    rw [Lib.leaf, this]
  have hne : (∃ v ∈ w :: ws, L.tok v ≠ []) ↔ (w :: ws).flatMap L.tok ≠ [] := by
    rw [Ne, List.flatMap_eq_nil_iff]; push Not; rfl
  rw [hne]
  by_cases h0 : (w :: ws).flatMap L.tok = []
  · rw [if_pos h0] at hl
    simp only [Lib.sat, List.filterMap_cons, hl, List.filterMap_nil, h0]
    simp
  · rw [if_neg h0] at hl
    simp only [Lib.sat, List.filterMap_cons, hl, List.filterMap_nil, List.all_cons, List.all_nil, Bool.and_true, decide_eq_true_eq]
    constructor
    · rintro ⟨a, b, e⟩; exact ⟨h0, a, b, e.symm⟩
    · rintro ⟨-, a, b, e⟩; exact ⟨a, b, e.symm⟩

example : joinPlus "oat".toList ["milk".toList] = "oat+milk".toList ∧
    demo.keywords id id ["Oat milk, cold".toList, "milk of oat".toList] "oat+milk".toList 5 = ["Oat milk, cold".toList] := by decide +kernel

/-! ### Column filters -/

theorem scan_one (w : Text) (h : PlainWord w) : scan .out w = some [.str w false] := by
  have := scan_plus w [] (by simpa using h)
  simpa [joinPlus, plusToks] using this

theorem scan_content (w : Text) (h : PlainWord w) :
    scan .out ("content:".toList ++ w) = some [.str "content".toList false, .colon, .str w false] := by
  have e : "content:".toList ++ w = 'c' :: ("ontent".toList ++ (':' :: w)) := by simp
  rw [e, scan, first_bare 'c' (by decide)]
  simp only [List.nil_append]
  rw [scan_run "ontent".toList ['c'] _ (by decide), scan, show bare ':' = false by decide,
    show first ':' = some (.out, [.colon]) from (single_first ':' .colon (by decide)).1]
  simp only [Bool.false_eq_true, if_false]
  rw [scan_one w h]
  simp [word]

theorem scan_minus (w : Text) (h : PlainWord w) :
    scan .out ("-content:".toList ++ w) = some [.minus, .str "content".toList false, .colon, .str w false] := by
  have e : "-content:".toList ++ w = '-' :: ("content:".toList ++ w) := by simp
  rw [e, scan, show first '-' = some (.out, [.minus]) from (single_first '-' .minus (by decide)).1]
  simp only
  rw [scan_content w h]
  simp

theorem plain_ne_zero (w : Text) (h : PlainWord w) (p : Text) (hp : ∀ c ∈ p, c.toNat ≠ 0) : ∀ c ∈ p ++ w, c.toNat ≠ 0 := by
  intro c hc
  rcases List.mem_append.1 hc with hc | hc
  · exact hp c hc
  · exact bare_ne_zero c (h.2.1 c hc)

/-- C215: `content:` in front of a word asks for the word; `-content:` in front of it leaves no column to look in, so that no text
satisfies the query (given that SQLite finds nothing where there is no column to look in). -/
theorem C215_column (w : Text) (h : PlainWord w) :
    (∃ x, parse ("content:".toList ++ w) = some x ∧ ∀ (L : Lib T) (c : Text), L.sat c x = true ↔ Has L.tok w c) ∧
    (∃ x, parse ("-content:".toList ++ w) = some x ∧ ∀ (L : Lib T),
      (∀ l, l.cols = false → ∀ f, L.other l = some f → ∀ c, f c = false) → ∀ c, L.sat c x = false) := by
  have hcol : isColumn "content".toList = true := by decide
  refine ⟨⟨.all [wordLeaf w], ?_, fun L c => ?_⟩, ⟨.all [{ wordLeaf w with cols := false }], ?_, fun L hL c => ?_⟩⟩
  · rw [parse, tokens, takeWhile_all _ (plain_ne_zero w h _ (by decide)), scan_content w h]
    have hc : ∀ k, colset k [.str "content".toList false, .colon, .str w false] = .some true [.str w false] := by
      intro k; simp only [colset, hcol, if_true]
    have h3 : ∀ k, expr (k + 4) 3 [.str "content".toList false, .colon, .str w false] = some (.all [wordLeaf w], []) := by
      intro k
      rw [expr_top _ _ (by simp), hc]
      simp only
      rw [exprlist, cnearset, hc]
      simp [nearset, phrase, starOpt, starts, wordLeaf]
    simp only [List.length_cons, List.length_nil]
    rw [expr_low _ _ (by decide), expr_low _ _ (by decide), expr_low _ _ (by decide), h3]
    simp [loop]
  · have h1 := sat_words L c [w]
    simp only [List.map_cons, List.map_nil, List.mem_singleton, exists_eq_left, forall_eq] at h1
    rw [h1, Has]; tauto
  · rw [parse, tokens, takeWhile_all _ (plain_ne_zero w h _ (by decide)), scan_minus w h]
    have hc : ∀ k, colset k [.minus, .str "content".toList false, .colon, .str w false] = .some false [.str w false] := by
      intro k; simp only [colset, hcol, if_true]
    have h3 : ∀ k, expr (k + 4) 3 [.minus, .str "content".toList false, .colon, .str w false] =
        some (.all [{ wordLeaf w with cols := false }], []) := by
      intro k
      rw [expr_top _ _ (by simp), hc]
      simp only
      rw [exprlist, cnearset, hc]
      simp [nearset, phrase, starOpt, starts, wordLeaf]
    simp only [List.length_cons, List.length_nil]
    rw [expr_low _ _ (by decide), expr_low _ _ (by decide), expr_low _ _ (by decide), h3]
    simp [loop]
  · have hl : L.leaf { wordLeaf w with cols := false } = L.other { wordLeaf w with cols := false } := by
      simp [Lib.leaf, plain, wordLeaf]
    rcases ho : L.other { wordLeaf w with cols := false } with _ | f
    · simp [Lib.sat, hl, ho]
    · simp [Lib.sat, hl, ho, hL _ rfl f ho c]

example : demo.keywords id id ["Oat milk, cold".toList] "content:milk".toList 5 = ["Oat milk, cold".toList] ∧
    demo.keywords id id ["Oat milk, cold".toList] "-content:milk".toList 5 = [] ∧
    (∀ l, l.cols = false → ∀ f, demo.other l = some f → ∀ c, f c = false) := by
  refine ⟨by decide +kernel, by decide +kernel, ?_⟩
  intro l _ f h; cases h

/-! ### Prefixes -/

/-- C215: a star behind a word asks for what SQLite finds for the prefix, here the texts with a term that `starts` accepts; it does not
ask for the word itself. -/
theorem C215_prefix (w : Text) (h : PlainWord w) : ∃ x, parse (w ++ ['*']) = some x ∧
    ∀ (L : Lib T) (starts : T → Bool), L.other { phrases := [[(w, true)]] } = some (fun c => (L.tok c).any starts) →
      ∀ c, L.sat c x = true ↔ ∃ t ∈ L.tok c, starts t = true := by
  refine ⟨.all [{ phrases := [[(w, true)]] }], ?_, fun L p hL c => ?_⟩
  · have hs : scan .out (w ++ ['*']) = some [.str w false, .star] := by
      obtain ⟨h1, h2, h3⟩ := h
      obtain ⟨c, w', rfl⟩ := List.exists_cons_of_ne_nil h1
      rw [List.cons_append, scan, first_bare c (h2 c (by simp))]
      simp only [List.nil_append]
      rw [scan_run w' [c] _ (fun x hx => h2 x (by simp [hx])), scan, show bare '*' = false by decide,
        show first '*' = some (.out, [.star]) from (single_first '*' .star (by decide)).1]
      simp [scan, word_plain _ h3]
    have hz : ∀ x ∈ w ++ ['*'], x.toNat ≠ 0 := by
      intro x hx
      rcases List.mem_append.1 hx with hx | hx
      · exact bare_ne_zero x (h.2.1 x hx)
      · rw [List.mem_singleton.1 hx]; decide
    rw [parse, tokens, takeWhile_all _ hz, hs]
    have h3 : ∀ k, expr (k + 4) 3 [.str w false, .star] = some (.all [{ phrases := [[(w, true)]] }], []) := by
      intro k
      rw [expr_top _ _ (by simp)]
      simp [colset, exprlist, cnearset, nearset, phrase, starOpt, Verif.FtsQuery.starts]
    simp only [List.length_cons, List.length_nil]
    rw [expr_low _ _ (by decide), expr_low _ _ (by decide), expr_low _ _ (by decide), h3]
    simp [loop]
  · have hl : L.leaf { phrases := [[(w, true)]] } = some (fun c => (L.tok c).any p) := by
      rw [← hL]; simp [Lib.leaf, plain]
    simp [Lib.sat, hl]

example : (parse ("mil".toList ++ ['*'])).isSome = true ∧
    let L : Lib Text := ⟨demo.tok, fun _ => some (fun c => (demo.tok c).any (fun t => "mil".toList.isPrefixOf t))⟩
    L.keywords id id ["oat milk".toList, "tea".toList] "mil*".toList 5 = ["oat milk".toList] := by decide +kernel

end Verif.FtsQuery

namespace Verif.MultiIndex

variable {σ V ρ : Type}

theorem seq_flag (L : Lib σ V ρ) (coin : String → ρ) (id : String) (v : V) : ∀ (ps ps' : List (String × σ)) (e : Bool),
    insertSeq L coin id v ps = some (ps', e) → (e = false ↔ ∀ p ∈ ps, ∃ s', L.insert (coin p.1) p.2 id v = some (s', false))
  | [], ps', e, h => by simp [insertSeq] at h; simp [h.2.symm]
  | (n, s) :: ps, ps', e, h => by
    rw [insertSeq] at h
    rcases hi : L.insert (coin n) s id v with _ | ⟨s', _ | _⟩
    · simp [hi] at h
    · simp only [hi, Option.map_eq_some_iff] at h
      obtain ⟨⟨q, f⟩, h1, h2⟩ := h
      simp only [Prod.mk.injEq] at h2
      have := seq_flag L coin id v ps q f h1
      rw [← h2.2, this]
      simp [hi]
    · simp only [hi, Option.some.injEq, Prod.mk.injEq] at h
      simp [← h.2, hi]

theorem par_flag (L : Lib σ V ρ) (coin : String → ρ) (id : String) (v : V) : ∀ (ps ps' : List (String × σ)) (e : Bool),
    insertPar L coin id v ps = some (ps', e) → (e = false ↔ ∀ p ∈ ps, ∃ s', L.insert (coin p.1) p.2 id v = some (s', false))
  | [], ps', e, h => by simp [insertPar] at h; simp [h.2.symm]
  | (n, s) :: ps, ps', e, h => by
    rw [insertPar] at h
    rcases hi : L.insert (coin n) s id v with _ | ⟨s', f⟩
    · simp [hi] at h
    · simp only [hi, Option.map_eq_some_iff] at h
      obtain ⟨⟨q, g⟩, h1, h2⟩ := h
      simp only [Prod.mk.injEq] at h2
      have := par_flag L coin id v ps q g h1
      rw [← h2.2]
      cases f <;> simp [hi, this]

theorem del_flag (L : Lib σ V ρ) (coin : String → ρ) (id : String) : ∀ (ps ps' : List (String × σ)) (e : Bool),
    deleteSeq L coin id ps = some (ps', e) → (e = false ↔ ∀ p ∈ ps, ∃ s', L.delete (coin p.1) p.2 id = some (s', false))
  | [], ps', e, h => by simp [deleteSeq] at h; simp [h.2.symm]
  | (n, s) :: ps, ps', e, h => by
    rw [deleteSeq] at h
    rcases hi : L.delete (coin n) s id with _ | ⟨s', _ | _⟩
    · simp [hi] at h
    · simp only [hi, Option.map_eq_some_iff] at h
      obtain ⟨⟨q, f⟩, h1, h2⟩ := h
      simp only [Prod.mk.injEq] at h2
      have := del_flag L coin id ps q f h1
      rw [← h2.2, this]
      simp [hi]
    · simp only [hi, Option.some.injEq, Prod.mk.injEq] at h
      simp [← h.2, hi]

/-- C37: a call on a multi index reports success exactly when every part, as it was, does what was asked without an error: one failing part
is reported, in whatever order the parts are visited, one after the other or at once. -/
theorem C37_multi_reported (L : Lib σ V ρ) (coin : String → ρ) (order : List (String × σ) → List (String × σ)) (ho : ∀ l, (order l).Perm l)
    (m m' : Multi σ) (id : String) (e : Bool) :
    (∀ v, insert L coin order m id v = some (m', e) →
      (e = false ↔ ∀ p ∈ m.indices, ∃ s', L.insert (coin p.1) p.2 id v = some (s', false))) ∧
    (delete L coin order m id = some (m', e) →
      (e = false ↔ ∀ p ∈ m.indices, ∃ s', L.delete (coin p.1) p.2 id = some (s', false))) := by
  have hm : ∀ p, p ∈ order m.indices ↔ p ∈ m.indices := fun p => (ho m.indices).mem_iff
  refine ⟨fun v h => ?_, fun h => ?_⟩
  · simp only [insert, Option.map_eq_some_iff] at h
    obtain ⟨⟨q, f⟩, h1, h2⟩ := h
    simp only [Prod.mk.injEq] at h2
    rw [← h2.2]
    simp only [← hm]
    split at h1
    · exact par_flag L coin id v _ q f h1
    · exact seq_flag L coin id v _ q f h1
  · simp only [delete, Option.map_eq_some_iff] at h
    obtain ⟨⟨q, f⟩, h1, h2⟩ := h
    simp only [Prod.mk.injEq] at h2
    rw [← h2.2]
    simp only [← hm]
    exact del_flag L coin id _ q f h1

/-- Two parts, one of which refuses the vector. -/
example : (insert (⟨fun _ s id _ => some (s + 1, decide (id = "bad" ∧ 1 < s)), fun _ _ _ => some [], fun _ s _ => some (s, false), id⟩ : Lib Nat Nat Unit)
    (fun _ => ()) id ⟨[("a", 0), ("b", 2)], "a", ["b"], .mergeAll, 10, false⟩ "bad" 0).map Prod.snd = some true := by decide +kernel

end Verif.MultiIndex

namespace Verif.Router

variable {T V W : Type}

theorem hstep_alpha [DecidableEq T] (g : HCfg T W) (c : Cfg T V) (h : HState T V) (op : HOp T V) (hop : ∀ a, op ≠ .setAlpha a) :
    (hstep g c h op).alpha = h.alpha := by
  cases op with
  | add r s e up => simp only [hstep, hybridAdd]; split <;> (try rfl); split <;> rfl
  | addBatch rs ss e up => simp only [hstep, hybridAddBatch]; split <;> rfl
  | route q e => simp only [hstep, hybridAnswer]; split_ifs <;> (try rfl); split <;> rfl
  | setAlpha a => exact absurd rfl (hop a)

theorem hrun_alpha [DecidableEq T] (g : HCfg T W) (c : Cfg T V) (ops : List (HOp T V)) (s : HState T V)
    (hs : ∀ op ∈ ops, ∀ x, op ≠ .setAlpha x) : (hrun g c s ops).alpha = s.alpha := by
  induction ops generalizing s with
  | nil => rfl
  | cons op ops ih =>
    have := ih (hstep g c s op) (fun o ho => hs o (List.mem_cons_of_mem _ ho))
    rw [hstep_alpha g c s op (hs op (by simp))] at this
    exact this

/-- C223: the weight of the answers is the one set last, whatever was added or asked before and since. -/
theorem C223_weight [DecidableEq T] (g : HCfg T W) (c : Cfg T V) (h : HState T V) (before behind : List (HOp T V)) (a : ℚ)
    (hb : ∀ op ∈ behind, ∀ x, op ≠ .setAlpha x) (e : T → Option V) (query : T) (hq : query ≠ c.empty) (res : HResult T)
    (ho : (hybridAnswer g c e (hrun g c h (before ++ .setAlpha a :: behind)) query).2 = .ok res) :
    res.result.score = a * res.denseScore + (1 - a) * res.sparseScore := by
  have ha : (hrun g c h (before ++ .setAlpha a :: behind)).alpha = a := by
    have e1 : hrun g c h (before ++ .setAlpha a :: behind) = hrun g c (hstep g c (hrun g c h before) (.setAlpha a)) behind := by
      simp [hrun, List.foldl_append]
    rw [e1, hrun_alpha g c behind _ hb]
    rfl
  obtain ⟨d, -, -, -, h4, -⟩ := C223_route g c e _ query hq res ho
  rw [ha] at h4
  exact h4

/-- C223: until a weight is set, the weight of the answers is the one the router was made with. -/
theorem C223_weight_made [DecidableEq T] (g : HCfg T W) (c : Cfg T V) (a : ℚ) (ops : List (HOp T V))
    (hs : ∀ op ∈ ops, ∀ x, op ≠ .setAlpha x) (e : T → Option V) (query : T) (hq : query ≠ c.empty) (res : HResult T)
    (ho : (hybridAnswer g c e (hrun g c (hinit a) ops) query).2 = .ok res) :
    res.result.score = a * res.denseScore + (1 - a) * res.sparseScore := by
  obtain ⟨d, -, -, -, h4, -⟩ := C223_route g c e _ query hq res ho
  rw [hrun_alpha g c ops _ hs] at h4
  exact h4

/-- Sparse routes only: the weight set last moves the score from 3/10 to 3/4. -/
example : (hybridAnswer hcfg (exact false) emb0 (hrun hcfg (exact false) two [.setAlpha (1/4), .route 7 emb0]) 9).2.toOption.map
    (fun r => (r.result.score, r.denseScore, r.sparseScore)) = some (3/4, 0, 1) := by decide +kernel

end Verif.Router
