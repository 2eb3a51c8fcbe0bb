import Verif.Model.Alias
import Mathlib.Data.List.Induction
import Mathlib.Data.List.Basic

/-!
Properties of shared slices: C208.
-/
namespace Verif.Alias

/-! ### Specification: an index that is handed values -/

/-- What a caller means: a call with the values at the time of the call. -/
inductive Call where
  | insert (id : String) (v : List ℚ)
  | delete (id : String)

/-- The calls of a history with the contents of the buffers at the time. -/
def calls (mem : Nat → List ℚ) : List Op → List Call
  | [] => []
  | .fill a v :: ops => calls (fun b => if b = a then v else mem b) ops
  | .insert id a :: ops => .insert id (mem a) :: calls mem ops
  | .delete id :: ops => .delete id :: calls mem ops

/-- An index of vectors: what it holds, live or deleted. -/
abbrev Plain := List (String × List ℚ × Bool)

/-- The contents an index is to have after a call: the vector (as far as normalisation or quantization keeps it) under the id. -/
def apply (k : Kind) (p : Plain) : Call → Plain
  | .insert id v =>
    match k with
    | .table => p.filter (fun e => e.1 ≠ id) ++ [(id, v, false)]
    | .flat norm => p.filter (fun e => e.1 ≠ id) ++ [(id, norm v, false)]
    | .hnsw quant => if p.any (fun e => e.1 = id) then p else p ++ [(id, (quant v).getD v, false)]
    | .ivf => p ++ [(id, v, false)]
    | .lsh => p.filter (fun e => e.1 ≠ id) ++ [(id, v, false)]
    | .graph => p.filter (fun e => e.1 ≠ id) ++ [(id, v, false)]
  | .delete id =>
    match k with
    | .hnsw _ => p.map (fun e => if e.1 = id then (e.1, e.2.1, true) else e)
    | _ => p.filter (fun e => e.1 ≠ id)

/-- What a search finds. -/
def found (p : Plain) : List (String × List ℚ) := (p.filter (fun e => !e.2.2)).map (fun e => (e.1, e.2.1))

/-! ### Proofs -/

/-- The entries with the vectors they stand for. -/
def plain (s : State) : Plain := s.entries.map (fun e => (e.1, value s.mem e.2.1, e.2.2))

theorem view_plain (s : State) : view s = found (plain s) := by
  unfold view found plain
  rw [List.filter_map, List.map_map]
  rfl

/-- The entry does not depend on the buffer. -/
def Free (a : Nat) (s : State) : Prop := ∀ e ∈ s.entries, e.2.1 ≠ .ref a

theorem fill_plain {k : Kind} {s : State} {a : Nat} (h : Free a s) (v : List ℚ) : plain (step k s (.fill a v)) = plain s := by
  unfold plain step
  simp only
  apply List.map_congr_left
  intro e he
  have := h e he
  cases hc : e.2.1 with
  | own u => rfl
  | ref b =>
    have hb : b ≠ a := by rintro rfl; exact this hc
    simp [value, hb]

theorem filter_plain (mem : Nat → List ℚ) (es : List (String × Cell × Bool)) (id : String) :
    (es.map (fun e => (e.1, value mem e.2.1, e.2.2))).filter (fun e => decide (e.1 ≠ id)) =
    (es.filter (fun e => decide (e.1 ≠ id))).map (fun e => (e.1, value mem e.2.1, e.2.2)) := by
  rw [List.filter_map]; rfl

theorem insert_plain (k : Kind) (s : State) (id : String) (a : Nat) :
    plain (step k s (.insert id a)) = apply k (plain s) (.insert id (s.mem a)) := by
  unfold plain step
  cases k with
  | hnsw quant =>
    simp only [insertEntry, apply, keep, List.any_map]
    have : (fun e : String × Cell × Bool => decide (e.1 = id)) = ((fun e : String × List ℚ × Bool => decide (e.1 = id)) ∘ fun e => (e.1, value s.mem e.2.1, e.2.2)) := rfl
    rw [this]
    split
    · rfl
    · rw [List.map_append]
      cases hq : quant (s.mem a) <;> simp [value]
  | ivf => simp [insertEntry, apply, keep, value]
  | table => simp only [insertEntry, apply, keep]; rw [filter_plain, List.map_append]; rfl
  | flat n => simp only [insertEntry, apply, keep]; rw [filter_plain, List.map_append]; rfl
  | lsh => simp only [insertEntry, apply, keep]; rw [filter_plain, List.map_append]; rfl
  | graph => simp only [insertEntry, apply, keep]; rw [filter_plain, List.map_append]; rfl

theorem delete_plain (k : Kind) (s : State) (id : String) : plain (step k s (.delete id)) = apply k (plain s) (.delete id) := by
  unfold plain step
  cases k with
  | hnsw quant =>
    simp only [deleteEntry, apply, List.map_map]
    apply List.map_congr_left
    intro e he
    simp only [Function.comp]
    split <;> rfl
  | table => exact (filter_plain _ _ _).symm
  | flat n => exact (filter_plain _ _ _).symm
  | ivf => exact (filter_plain _ _ _).symm
  | lsh => exact (filter_plain _ _ _).symm
  | graph => exact (filter_plain _ _ _).symm

/-- No buffer is filled again after it was handed over; `used` are those handed over before. -/
def Once (used : List Nat) : List Op → Prop
  | [] => True
  | .fill a _ :: ops => a ∉ used ∧ Once used ops
  | .insert _ a :: ops => Once (a :: used) ops
  | .delete _ :: ops => Once used ops

theorem entry_refs {k : Kind} {s : State} {op : Op} {e : String × Cell × Bool} (he : e ∈ (step k s op).entries) :
    (∃ e' ∈ s.entries, e'.2.1 = e.2.1) ∨ ∃ id a, op = .insert id a ∧ e.2.1 = keep k s.mem a := by
  cases op with
  | fill a v => exact .inl ⟨e, he, rfl⟩
  | insert id a =>
    simp only [step] at he
    have : e ∈ s.entries ∨ e = (id, keep k s.mem a, false) := by
      cases k <;> simp only [insertEntry] at he
      case hnsw q =>
        split at he
        · exact .inl he
        · simpa using he
      all_goals
        rcases List.mem_append.1 he with he | he
        · first
            | exact .inl he
            | exact .inl (List.mem_filter.1 he).1
        · exact .inr (List.mem_singleton.1 he)
    rcases this with h | rfl
    · exact .inl ⟨e, h, rfl⟩
    · exact .inr ⟨id, a, rfl, rfl⟩
  | delete id =>
    simp only [step] at he
    cases k <;> simp only [deleteEntry] at he
    case hnsw q =>
      obtain ⟨e', he', rfl⟩ := List.mem_map.1 he
      refine .inl ⟨e', he', ?_⟩
      split <;> rfl
    all_goals exact .inl ⟨e, (List.mem_filter.1 he).1, rfl⟩

theorem run_once {k : Kind} (ops : List Op) : ∀ (s : State) (used : List Nat), (∀ e ∈ s.entries, ∀ a, e.2.1 = .ref a → a ∈ used) → Once used ops →
    plain (run k s ops) = (calls s.mem ops).foldl (apply k) (plain s) := by
  induction ops with
  | nil => intro s used _ _; rfl
  | cons op ops ih =>
    intro s used hu ho
    show plain (run k (step k s op) ops) = _
    cases op with
    | fill a v =>
      rw [ih (step k s (.fill a v)) used hu ho.2, fill_plain (fun e he h => ho.1 (hu e he a h))]
      rfl
    | insert id a =>
      rw [ih (step k s (.insert id a)) (a :: used) ?_ ho, insert_plain]
      · rfl
      · intro e he b hb
        rcases entry_refs he with ⟨e', he', h⟩ | ⟨id', a', h, h'⟩
        · exact List.mem_cons_of_mem _ (hu e' he' b (h.trans hb))
        · injection h with _ h
          subst h
          rw [hb] at h'
          cases k <;> simp only [keep] at h'
          case hnsw q =>
            split at h'
            · cases h'
            · injection h' with h'; exact h' ▸ List.mem_cons_self
          all_goals first
            | (injection h' with h'; exact h' ▸ List.mem_cons_self)
            | cases h'
    | delete id =>
      rw [ih (step k s (.delete id)) used ?_ ho, delete_plain]
      · rfl
      · intro e he b hb
        rcases entry_refs he with ⟨e', he', h⟩ | ⟨id', a', h, h'⟩
        · exact hu e' he' b (h.trans hb)
        · cases h

/-- The index copies what it is handed. -/
def Copies : Kind → Prop
  | .table => True
  | .flat _ => True
  | .hnsw quant => ∀ v, (quant v).isSome
  | _ => False

theorem run_copies {k : Kind} (hk : Copies k) (ops : List Op) : ∀ s : State, (∀ e ∈ s.entries, ∃ v, e.2.1 = .own v) →
    plain (run k s ops) = (calls s.mem ops).foldl (apply k) (plain s) := by
  have hkeep : ∀ mem a, ∃ v, keep k mem a = .own v := by
    intro mem a
    cases k <;> simp only [Copies] at hk
    case table => exact ⟨_, rfl⟩
    case flat n => exact ⟨_, rfl⟩
    case hnsw q =>
      obtain ⟨v, hv⟩ := Option.isSome_iff_exists.1 (hk (mem a))
      exact ⟨v, by simp [keep, hv]⟩
  induction ops with
  | nil => intro s _; rfl
  | cons op ops ih =>
    intro s ho
    have hnext : ∀ e ∈ (step k s op).entries, ∃ v, e.2.1 = .own v := by
      intro e he
      rcases entry_refs he with ⟨e', he', h⟩ | ⟨id, a, -, h⟩
      · rw [← h]; exact ho e' he'
      · rw [h]; exact hkeep _ _
    show plain (run k (step k s op) ops) = _
    rw [ih _ hnext]
    cases op with
    | fill a v =>
      rw [fill_plain (fun e he h => by obtain ⟨u, hu⟩ := ho e he; rw [hu] at h; cases h)]
      rfl
    | insert id a => rw [insert_plain]; rfl
    | delete id => rw [delete_plain]; rfl

/-! ### C208 -/

/-- C208: the table, the flat index and a quantised graph index keep what they were handed, whatever the caller does with the buffers afterwards: after every
history a search finds the vectors as they were at the time of the calls. -/
theorem C208_copies_partial {k : Kind} (hk : Copies k) (mem : Nat → List ℚ) (ops : List Op) :
    view (run k ⟨mem, []⟩ ops) = found ((calls mem ops).foldl (apply k) []) := by
  rw [view_plain, run_copies hk ops ⟨mem, []⟩ (fun e he => by cases he)]
  rfl

/-- C208: every index does so for a caller who never fills a buffer again after handing it over. -/
theorem C208_once_partial (k : Kind) (mem : Nat → List ℚ) (ops : List Op) (h : Once [] ops) :
    view (run k ⟨mem, []⟩ ops) = found ((calls mem ops).foldl (apply k) []) := by
  rw [view_plain, run_once ops ⟨mem, []⟩ [] (fun e he => by cases he) h]
  rfl

/-- The kinds that keep the slice. -/
def Shares : Kind → Prop
  | .hnsw quant => ∀ v, quant v = none
  | .ivf => True
  | .lsh => True
  | .graph => True
  | _ => False

/-- C208: a caller who uses one buffer for two records: the graph index, the inverted file, the hash index and the index of the graph then have the second
vector under both ids. -/
theorem C208_reuse_violated {k : Kind} (hk : Shares k) (mem : Nat → List ℚ) (a : Nat) (u v : List ℚ) (i j : String) (hij : i ≠ j) :
    view (run k ⟨mem, []⟩ [.fill a u, .insert i a, .fill a v, .insert j a]) = [(i, v), (j, v)] := by
  have hji : j ≠ i := fun h => hij h.symm
  cases k <;> simp only [Shares] at hk <;> simp [run, step, insertEntry, keep, view, value, hk, hij]

/-- Beside it: the same calls on the flat index and on the table. -/
theorem C208_reuse_copies (mem : Nat → List ℚ) (a : Nat) (u v : List ℚ) (i j : String) (hij : i ≠ j) (norm : List ℚ → List ℚ) :
    view (run .table ⟨mem, []⟩ [.fill a u, .insert i a, .fill a v, .insert j a]) = [(i, u), (j, v)] ∧
    view (run (.flat norm) ⟨mem, []⟩ [.fill a u, .insert i a, .fill a v, .insert j a]) = [(i, norm u), (j, norm v)] := by
  have hji : j ≠ i := fun h => hij h.symm
  constructor <;> simp [run, step, insertEntry, keep, view, value, hij]

/-- C208: the slice an embedding cache returns is the cached one: a caller who writes into it (to normalise it, say) changes what everybody is told
later. -/
theorem C208_cache_violated (emb : String → List ℚ) (s : Cache) (text : String) (v : List ℚ) :
    let r := embed emb s text
    let r' := embed emb (write r.1 r.2 v) text
    r'.1.mem r'.2 = v := by
  unfold embed
  simp only
  cases h : s.cache.find? (fun e => decide (e.1 = text)) with
  | some e => simp [write, h]
  | none => simp [write, List.find?_append, h]

/-- C208: without such writes the cache returns the vector of the embedder for every text, in every history of texts. -/
theorem C208_cache_partial (emb : String → List ℚ) (mem : Nat → List ℚ) (texts : List String) (text : String) :
    let s := texts.foldl (fun s t => (embed emb s t).1) ⟨mem, [], 0⟩
    (embed emb s text).1.mem (embed emb s text).2 = emb text := by
  have key : ∀ texts : List String, let s := texts.foldl (fun s t => (embed emb s t).1) ⟨mem, [], 0⟩
      (∀ e ∈ s.cache, s.mem e.2 = emb e.1 ∧ e.2 < s.next) := by
    intro texts
    induction texts using List.reverseRecOn with
    | nil => intro s e he; cases he
    | append_singleton ts t ih =>
      simp only [List.foldl_append, List.foldl_cons, List.foldl_nil] at ih ⊢
      generalize ts.foldl (fun s t => (embed emb s t).1) ⟨mem, [], 0⟩ = s at ih
      unfold embed
      split
      · exact ih
      · intro e he
        rcases List.mem_append.1 he with he | he
        · obtain ⟨h1, h2⟩ := ih e he
          refine ⟨?_, Nat.lt_succ_of_lt h2⟩
          show (if e.2 = s.next then _ else _) = _
          rw [if_neg (by omega)]; exact h1
        · rw [List.mem_singleton] at he
          subst he
          exact ⟨if_pos rfl, Nat.lt_succ_self _⟩
  have := key texts
  simp only at this ⊢
  generalize texts.foldl (fun s t => (embed emb s t).1) ⟨mem, [], 0⟩ = s at this
  unfold embed
  split
  · rename_i e he
    have h1 := List.find?_some he
    have h2 := (this e (List.mem_of_find?_eq_some he)).1
    rw [show e.1 = text from of_decide_eq_true h1] at h2
    exact h2
  · exact if_pos rfl

/-! ### The hypotheses can be met -/

example : Copies .table ∧ Copies (.flat id) ∧ Copies (.hnsw some) ∧ Shares (.hnsw fun _ => none) ∧ Shares .ivf :=
  ⟨trivial, trivial, fun _ => rfl, fun _ => rfl, trivial⟩

/-- A history with a buffer for every record, and what is found. -/
example : Once [] [.fill 0 [1], .insert "a" 0, .fill 1 [2], .insert "b" 1, .delete "a"] ∧
    view (run .lsh ⟨fun _ => [], []⟩ [.fill 0 [1], .insert "a" 0, .fill 1 [2], .insert "b" 1, .delete "a"]) = [("b", [2])] := by
  refine ⟨?_, by decide +kernel⟩
  simp [Once]

end Verif.Alias
