import Verif.Thm.FilterSql

/-!
Violations of C07 that single witnesses show elsewhere, for all stores.
-/
namespace Verif.Thm.FilterSql
open Verif.Model.Filter
open Verif.Model.Store (Meta St Env Out Row)
open Verif.Thm.Filter

variable {F : Type} [LinearOrder F] {W HI VI : Type}

mutual
/-- A filter all of whose members SQL expresses: no negation, no empty connective, no empty list. -/
def Full : Expr F → Prop
  | .and cs => cs ≠ [] ∧ FullAll cs
  | .or cs => cs ≠ [] ∧ FullAll cs
  | .cmp .in_ _ v => ∃ w ws, v = .list (w :: ws)
  | .cmp .between _ v => ∃ lo hi rest, v = .list (lo :: hi :: rest)
  | .cmp _ _ _ => True
  | _ => False
def FullAll : List (Expr F) → Prop
  | [] => True
  | k :: ks => Full k ∧ FullAll ks
end

mutual
theorem full_reads : ∀ (e : Expr F), Full e → ∃ k, compile e = some (some k) ∧ reads k = true
  | .nil, h => by simp [Full] at h
  | .not _, h => by simp [Full] at h
  | .other, h => by simp [Full] at h
  | .and cs, h => by
    obtain ⟨hne, hall⟩ := h
    obtain ⟨ks, h1, h2, h3, h4⟩ := full_all cs hall
    cases ks with
    | nil => exact absurd (h2.1 rfl) hne
    | cons k ks => exact ⟨.conj (k :: ks), by simp [compile, h1], by simpa [reads] using h3⟩
  | .or cs, h => by
    obtain ⟨hne, hall⟩ := h
    obtain ⟨ks, h1, h2, h3, h4⟩ := full_all cs hall
    cases ks with
    | nil => exact absurd (h2.1 rfl) hne
    | cons k ks => exact ⟨.disj (k :: ks), by simp [compile, h1], by simpa [reads] using h4 (by simp)⟩
  | .cmp op f v, h => by
    cases op
    case in_ =>
      obtain ⟨w, ws, rfl⟩ := h
      exact ⟨_, rfl, rfl⟩
    case between =>
      obtain ⟨lo, hi, rest, rfl⟩ := h
      exact ⟨_, rfl, rfl⟩
    all_goals exact ⟨_, rfl, rfl⟩
theorem full_all : ∀ (cs : List (Expr F)), FullAll cs → ∃ ks, compileList cs = some ks ∧ (ks = [] ↔ cs = []) ∧ readsAll ks = true ∧
    (ks ≠ [] → readsAny ks = true)
  | [], _ => ⟨[], rfl, by simp, rfl, by simp⟩
  | e :: cs, h => by
    obtain ⟨k, h1, h2⟩ := full_reads e h.1
    obtain ⟨ks, g1, -, g3, -⟩ := full_all cs h.2
    exact ⟨k :: ks, by simp [compileList, h1, g1], by simp, by simp [readsAll, h2, g3], by simp [readsAny, h2]⟩
end

/-- C07 is violated on every store that has one record without metadata: no filter, of any depth, deletes anything any more. -/
theorem C07_any_no_metadata_violated (c : Lib F) (env : Env W HI VI) (s : St W HI VI) (hopen : s.closed = false) (fault : Bool) (e : Expr F)
    (he : Full e) (r : Row W) (hr : r ∈ s.db.embeddings) (hm : r.metadata = none) :
    deleteByFilter c env s fault e = some (s, .err .badFilter) := by
  obtain ⟨k, hk, hreads⟩ := full_reads e he
  have hd : deleteByFilter c env s fault e = if badParam k then some (s, .err .badFilter)
      else some (Model.Store.deleteByFilter env s fault (some (whereRow c k))) := by
    cases e <;> first | (simp [Full] at he; done) | simp only [deleteByFilter, hopen, hk, Bool.false_eq_true, if_false]
  rw [hd]
  cases hb : badParam k with
  | true => rfl
  | false =>
    have hany : s.db.embeddings.any (fun r => whereRow c k r.metadata == none) = true := by
      rw [List.any_eq_true]
      exact ⟨r, hr, by simp [whereRow, hb, hm, hreads]⟩
    simp only [Bool.false_eq_true, if_false, Model.Store.deleteByFilter, hopen, hany, if_true]

/-- C07 is violated on every store by equality with a number or a truth value: nothing is removed, also not the records that have that very
number. -/
theorem C07_any_number_violated (c : Lib F) (env : Env W HI VI) (s : St W HI VI) (hopen : s.closed = false)
    (f : String) (hf : plainField f = true) (v : V F) (hv : (∃ y, v = .num y) ∨ ∃ b, v = .bool b) (hr : ∀ r ∈ s.db.embeddings, r.metadata ≠ none) :
    ∃ s', deleteByFilter c env s false (.cmp .eq f v) = some (s', .ok) ∧ ∀ r, r ∈ s'.db.embeddings ↔ r ∈ s.db.embeddings := by
  have hs : Scalar v := by
    intro vs h
    rcases hv with ⟨y, rfl⟩ | ⟨b, rfl⟩ <;> cases h
  obtain ⟨s', h1, h2, -⟩ := C07_selected_partial c env s hopen (.cmp .eq f v) ⟨.inl hf, hs⟩ id hr
  refine ⟨s', h1, fun r => ?_⟩
  rw [h2]
  refine and_iff_left ?_
  rintro ⟨m, -, -, a, -, h⟩
  have h : v = .str a := h
  rcases hv with ⟨y, rfl⟩ | ⟨b, rfl⟩ <;> cases h

/-- C07 is violated on every store by a name with a dot: no comparison on it removes anything, also not the records that have that very
key. -/
theorem C07_any_dotted_violated (c : Lib F) (env : Env W HI VI) (s : St W HI VI) (hopen : s.closed = false) (op : Cmp) (f : String)
    (hf : plainField f = false) (hd : dottedField f = true) (v : V F) (hv : LeafOk op v) (hr : ∀ r ∈ s.db.embeddings, r.metadata ≠ none) :
    ∃ s', deleteByFilter c env s false (.cmp op f v) = some (s', .ok) ∧ ∀ r, r ∈ s'.db.embeddings ↔ r ∈ s.db.embeddings := by
  obtain ⟨s', h1, h2, -⟩ := C07_selected_partial c env s hopen (.cmp op f v) ⟨.inr hd, hv⟩ id hr
  refine ⟨s', h1, fun r => ?_⟩
  rw [h2]
  refine and_iff_left ?_
  rintro ⟨m, -, h, -⟩
  rw [hf] at h
  cases h

/-- C07 is violated on every store by a negation inside a conjunction: it is dropped, and the call does exactly what it does without it. -/
theorem C07_any_negation_violated (c : Lib F) (env : Env W HI VI) (s : St W HI VI) (fault : Bool) (e : Expr F) (he : Full e)
    (ns : List (Expr F)) : deleteByFilter c env s fault (.and [e, .not ns]) = deleteByFilter c env s fault e := by
  obtain ⟨k, hk, -⟩ := full_reads e he
  have hc : compile (.and [e, .not ns]) = some (some (.conj [k])) := by simp [compile, compileList, hk]
  have hb : badParam (.conj [k]) = badParam k := by simp [badParam, badParams]
  have hw : whereRow c (.conj [k]) = whereRow c k := by
    funext m
    have hr : reads (.conj [k]) = reads k := by simp [reads, readsAll]
    have hv : ∀ m, (evalSQL c m (.conj [k]) == some true) = (evalSQL c m k == some true) := by
      intro m
      simp only [evalSQL, evalConj]
      cases evalSQL c m k with
      | none => rfl
      | some b => cases b <;> rfl
    unfold whereRow
    rw [hb, hr]
    cases m with
    | none => rfl
    | some m => simp only [hv]
  have h1 : ∀ e' : Expr F, e' ≠ .nil → ∀ k', compile e' = some (some k') → deleteByFilter c env s fault e' =
      if s.closed then some (s, .err .closed) else if badParam k' then some (s, .err .badFilter)
      else some (Model.Store.deleteByFilter env s fault (some (whereRow c k'))) := by
    intro e' hne k' hk'
    cases e' <;> first | exact absurd rfl hne | simp only [deleteByFilter, hk']
  rw [h1 _ (by simp) _ hc, h1 e (by rintro rfl; simp [Full] at he) k hk, hb, hw]

/-- Filters that meet the premises: a comparison, a list, and a disjunction of them inside a conjunction. -/
example : Full (.and [.cmp .eq "t" (.str "x"), .or [.cmp .gt "n" (.num (5 : Int)), .cmp .in_ "k" (.list [.str "a"])]] : Expr Int) ∧
    plainField "a.b" = false ∧ dottedField "a.b" = true ∧ plainField "n" = true := by
  refine ⟨?_, by decide +kernel, by decide +kernel, by decide +kernel⟩
  simp [Full, FullAll]

end Verif.Thm.FilterSql
