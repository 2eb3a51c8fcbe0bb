import Verif.Model.Search
import Verif.Model.Dimension

/-!
C177: which searches are refused.
-/
namespace Verif.Thm.SearchRefuse

open Verif.Base Verif.Model.Store Verif.Model.Search

variable {W HI VI : Type}

/-- A usable vector: it has components, and all of them are numbers. -/
def Usable (finite : W → Bool) (q : List W) : Prop := q ≠ [] ∧ ∀ x ∈ q, finite x = true

/-- The store validates queries as the code does. -/
def Validates (c : Cfg W) (finite : W → Bool) : Prop := ∀ q, c.validQuery q = validateVector finite q

theorem valid_iff (finite : W → Bool) (q : List W) : validateVector finite q = true ↔ Usable finite q := by
  unfold validateVector Usable
  simp [List.isEmpty_iff]

theorem prepare_iff (c : Cfg W) (finite : W → Bool) (hv : Validates c finite) (s : St W HI VI) (query q : List W) :
    prepareQuery c s query = .ok q ↔
      s.closed = false ∧ Usable finite q ∧ (s.dim = 0 ∨ q.length = s.dim) ∧
      (if s.dim > 0 ∧ query.length ≠ s.dim then c.adapt query query.length s.dim = some q else query = q) := by
  unfold prepareQuery
  cases hc : s.closed with
  | true => simp
  | false =>
    simp only [Bool.false_eq_true, if_false]
    by_cases hd : s.dim > 0 ∧ query.length ≠ s.dim
    · rw [if_pos hd, if_pos hd]
      cases ha : c.adapt query query.length s.dim with
      | none => simp
      | some q' =>
        simp only [hv q']
        by_cases hu : validateVector finite q' = true
        · have hu' := (valid_iff finite q').1 hu
          simp only [hu, Bool.not_true, Bool.false_eq_true, if_false]
          rw [if_neg (by omega)]
          by_cases hl : q'.length = s.dim
          · rw [if_neg (by simpa using hl)]
            constructor
            · intro h; cases h; exact ⟨trivial, hu', Or.inr hl, rfl⟩
            · rintro ⟨-, -, -, h⟩; cases h; rfl
          · rw [if_pos hl]
            constructor
            · intro h; cases h
            · rintro ⟨-, -, h1, h⟩; cases h; omega
        · have hu' : ¬ Usable finite q' := fun h => hu ((valid_iff finite q').2 h)
          have hf : validateVector finite q' = false := by simpa using hu
          simp only [hf, Bool.not_false, if_true]
          constructor
          · intro h; cases h
          · rintro ⟨-, h1, -, h⟩; cases h; exact absurd h1 hu'
    · rw [if_neg hd, if_neg hd]
      simp only [hv query]
      by_cases hu : validateVector finite query = true
      · have hu' := (valid_iff finite query).1 hu
        simp only [hu, Bool.not_true, Bool.false_eq_true, if_false]
        by_cases h0 : s.dim = 0
        · rw [if_pos h0]
          constructor
          · intro h; cases h; exact ⟨trivial, hu', Or.inl h0, rfl⟩
          · rintro ⟨-, -, -, h⟩; rw [h]
        · rw [if_neg h0]
          have hl : query.length = s.dim := by
            by_contra h; exact hd ⟨by omega, h⟩
          rw [if_neg (by simpa using hl)]
          constructor
          · intro h; cases h; exact ⟨trivial, hu', Or.inr hl, rfl⟩
          · rintro ⟨-, -, -, h⟩; rw [h]
      · have hu' : ¬ Usable finite query := fun h => hu ((valid_iff finite query).2 h)
        have hf : validateVector finite query = false := by simpa using hu
        simp only [hf, Bool.not_false, if_true]
        constructor
        · intro h; cases h
        · rintro ⟨-, h1, -, h⟩; rw [← h] at h1; exact absurd h1 hu'

theorem search_ok_iff (c : Cfg W) (via : Serve W) (s : St W HI VI) (query : List W) (o : Opts) :
    (∃ hs, search c via s query o = .ok hs) ↔ ∃ q, prepareQuery c s query = .ok q := by
  unfold search
  cases h : prepareQuery c s query with
  | error e => simp
  | ok q => simp

/-- C177: a query of the store's dimension (any, if the store has none yet) is answered exactly if the store is open and the
query has components that are all numbers. This holds for every index and all options. -/
theorem C177_same_dim (c : Cfg W) (finite : W → Bool) (hv : Validates c finite) (via : Serve W) (s : St W HI VI)
    (query : List W) (o : Opts) (hd : s.dim = 0 ∨ query.length = s.dim) :
    (∃ hs, search c via s query o = .ok hs) ↔ s.closed = false ∧ Usable finite query := by
  rw [search_ok_iff]
  have hn : ¬ (s.dim > 0 ∧ query.length ≠ s.dim) := by omega
  constructor
  · rintro ⟨q, h⟩
    obtain ⟨h1, h2, -, h4⟩ := (prepare_iff c finite hv s query q).1 h
    rw [if_neg hn] at h4
    exact ⟨h1, h4 ▸ h2⟩
  · rintro ⟨h1, h2⟩
    exact ⟨query, (prepare_iff c finite hv s query query).2 ⟨h1, h2, hd, by rw [if_neg hn]⟩⟩

/-- C177: a query of another dimension is answered exactly if the store is open and its policy makes a usable vector of the
store's dimension out of it. -/
theorem C177_other_dim_partial (c : Cfg W) (finite : W → Bool) (hv : Validates c finite) (via : Serve W) (s : St W HI VI)
    (query : List W) (o : Opts) (h0 : s.dim ≠ 0) (hd : query.length ≠ s.dim) :
    (∃ hs, search c via s query o = .ok hs) ↔
      s.closed = false ∧ ∃ q, c.adapt query query.length s.dim = some q ∧ Usable finite q ∧ q.length = s.dim := by
  rw [search_ok_iff]
  have hn : s.dim > 0 ∧ query.length ≠ s.dim := ⟨by omega, hd⟩
  constructor
  · rintro ⟨q, h⟩
    obtain ⟨h1, h2, h3, h4⟩ := (prepare_iff c finite hv s query q).1 h
    rw [if_pos hn] at h4
    exact ⟨h1, q, h4, h2, by omega⟩
  · rintro ⟨h1, q, h2, h3, h4⟩
    exact ⟨q, (prepare_iff c finite hv s query q).2 ⟨h1, h3, Or.inr h4, by rw [if_pos hn]; exact h2⟩⟩

/-- C177: a closed store says so, whatever the query. -/
theorem C177_closed (c : Cfg W) (via : Serve W) (s : St W HI VI) (query : List W) (o : Opts) (f : Meta) (hc : s.closed = true) :
    search c via s query o = .error .closed ∧ searchWithFilter c via s query o f = .error .closed := by
  constructor
  · simp [search, prepareQuery, hc]
  · simp [searchWithFilter, search, prepareQuery, hc]

/-- C177: the search with a metadata filter is refused exactly when the search without is. -/
theorem C177_filter (c : Cfg W) (via : Serve W) (s : St W HI VI) (query : List W) (o : Opts) (f : Meta) (e : Err) :
    searchWithFilter c via s query o f = .error e ↔ search c via s query o = .error e := by
  unfold searchWithFilter search
  cases h : prepareQuery c s query with
  | error e' => simp
  | ok q => simp

/-- What `AutoPad` and `AutoTruncate` make of the empty vector: zeros. -/
theorem adapt_empty (noise : Nat → ℝ) (n : Nat) (hn : n ≠ 0) (p : Verif.Model.Dimension.Policy) (hp : p = .pad ∨ p = .truncate) :
    Verif.Model.Dimension.adaptVector p noise [] 0 n = .ok (List.replicate n 0) := by
  have hs : Verif.Model.Dimension.sumSquares (List.replicate n 0) = 0 := by
    simp [Verif.Model.Dimension.sumSquares]
  rcases hp with rfl | rfl
  · simp [Verif.Model.Dimension.adaptVector, Verif.Model.Dimension.padVector, Verif.Model.Dimension.normalizeVector, hs,
      Ne.symm hn, hn]
  · simp [Verif.Model.Dimension.adaptVector, Verif.Model.Dimension.truncateVector, Verif.Model.Dimension.normalizeVector, hs,
      Ne.symm hn]

/-- C177 fails for a query without components on a store that pads or truncates: every such store that is open and has a
dimension answers it. -/
theorem C177_empty_violated (c : Cfg ℝ) (finite : ℝ → Bool) (hf : finite 0 = true) (hv : Validates c finite)
    (noise : Nat → ℝ) (p : Verif.Model.Dimension.Policy) (hp : p = .pad ∨ p = .truncate)
    (ha : ∀ v a b, c.adapt v a b = (Verif.Model.Dimension.adaptVector p noise v a b).toOption) (via : Serve ℝ)
    (s : St ℝ HI VI) (o : Opts) (hc : s.closed = false) (h0 : s.dim ≠ 0) : ∃ hs, search c via s [] o = .ok hs := by
  rw [C177_other_dim_partial c finite hv via s [] o h0 (by simpa using Ne.symm h0)]
  refine ⟨hc, List.replicate s.dim 0, ?_, ⟨?_, ?_⟩, by simp⟩
  · rw [ha, List.length_nil, adapt_empty noise s.dim h0 p hp]
    rfl
  · intro h
    have := congrArg List.length h
    simp [h0] at this
  · intro x hx
    rw [List.eq_of_mem_replicate hx]
    exact hf

/-- A store of dimension two over small integers; the number 99 stands for NaN. -/
def demo : Cfg ℤ :=
  { sim := fun a b => ((a.zip b).map (fun p => ((p.1 * p.2 : ℤ) : ℚ))).sum
    textSim := none, textEnabled := false, defaultWeight := 0
    validQuery := validateVector (fun x => x != 99)
    adapt := fun _ _ _ => none, sort := id }

example : Validates demo (fun x => x != 99) := fun _ => rfl

example : search demo .linear (init 2 none none : St ℤ Unit Unit) [1, 2] {} = .ok [] ∧
    search demo .linear (init 2 none none : St ℤ Unit Unit) [1, 99] {} = .error .invalidVector ∧
    search demo .linear (init 2 none none : St ℤ Unit Unit) [1] {} = .error .adaptation ∧
    search demo .linear (init 0 none none : St ℤ Unit Unit) [] {} = .error .invalidVector := by
  refine ⟨?_, ?_, ?_, ?_⟩ <;> decide +kernel

end Verif.Thm.SearchRefuse
