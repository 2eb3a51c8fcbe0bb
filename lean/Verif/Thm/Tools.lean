import Verif.Model.Tools
import Mathlib.Tactic.NormNum
import Mathlib.Data.List.Nodup

/-!
C180: the tools offered to language models: names, schemas and decoding agree.
-/
namespace Verif.Tools

/-- C180: a name is answered by `Call` exactly if it is published, and exactly if it is a tool of the MCP server, and both use the same
request and the same method. -/
theorem C180_same_tools (name : String) :
    (name ∈ definitions.map (·.name) ↔ (call name).isSome) ∧ call name = mcpTools.lookup name := by
  by_cases h : name ∈ definitions.map (·.name)
  · have : ∀ n ∈ definitions.map (·.name), (call n).isSome ∧ call n = mcpTools.lookup n := by
      intro n hn
      simp only [definitions, List.map_cons, List.map_nil, List.mem_cons, List.not_mem_nil, or_false] at hn
      rcases hn with rfl | rfl | rfl | rfl | rfl | rfl | rfl | rfl | rfl | rfl | rfl | rfl | rfl | rfl | rfl | rfl | rfl | rfl | rfl | rfl <;> exact ⟨rfl, rfl⟩
    obtain ⟨a, b⟩ := this name h
    exact ⟨⟨fun _ => a, fun _ => h⟩, b⟩
  · have hc : call name = none := by
      unfold call
      split <;> first | rfl | exact absurd (by decide) h
    have hl : mcpTools.lookup name = none := by
      rw [List.lookup_eq_none_iff]
      intro p hp
      rw [bne_iff_ne]
      rintro rfl
      apply h
      have : mcpTools.map (·.1) = definitions.map (·.name) := rfl
      rw [← this]
      exact List.mem_map_of_mem hp
    rw [hc, hl]
    exact ⟨⟨fun h' => absurd h' h, by simp⟩, rfl⟩

/-- C180: no name is published twice. -/
theorem C180_names_unique : (definitions.map (·.name)).Nodup := by decide

/-- The kinds that go with the types. -/
def Kind.matches : Kind → GoLeaf → Bool
  | .str, .str => true
  | .enum _, .str => true
  | .int, .int => true
  | .num, .f64 => true
  | .bool, .bool => true
  | .map, .smap => true
  | .map, .amap => true
  | .strs, .strs => true
  | _, _ => false

def matchAll {S T : Type} (m : S → T → Bool) (props : List (String × S)) (fs : List (String × T)) : Bool :=
  props.map (·.1) = fs.map (·.1) && (List.zip (props.map (·.2)) (fs.map (·.2))).all (fun p => m p.1 p.2)

def Schema.matches : Schema → GoTy → Bool
  | .leaf k, .leaf t => k.matches t
  | .objs _ props, .structs fs => matchAll Kind.matches props fs
  | _, _ => false

/-- C180: every published property is a field of the request and the other way round, of a matching type, and the properties published
as required are the fields that are not optional. -/
theorem C180_fields : ∀ d ∈ definitions, ∃ fields m, call d.name = some (fields, m) ∧ matchAll Schema.matches d.props (shape fields) = true ∧
    d.required = (fields.filter (fun f => !f.omitempty)).map (·.name) ∧ (fields.map (·.name)).Nodup := by
  intro d hd
  simp only [definitions, List.mem_cons, List.not_mem_nil, or_false] at hd
  rcases hd with rfl | rfl | rfl | rfl | rfl | rfl | rfl | rfl | rfl | rfl | rfl | rfl | rfl | rfl | rfl | rfl | rfl | rfl | rfl | rfl <;>
    exact ⟨_, _, rfl, by decide, by decide, by decide⟩

/-! ### Decoding -/

/-- What a caller has to keep to beyond the schema: integers are written without fraction and exponent and fit into 64 bits, maps
have strings as values. -/
def GoodLeaf : Kind → J → Prop
  | .int, .num v plain => plain = true ∧ -2 ^ 63 ≤ v.num ∧ v.num < 2 ^ 63
  | .map, .obj kvs => ∀ p ∈ kvs, ∃ s, p.2 = .str s
  | _, _ => True

/-- No key is a listed name in another spelling. -/
def NoFold (fold : String → String) (names : List String) (kvs : List (String × J)) : Prop :=
  ∀ p ∈ kvs, p.1 ∉ names → ∀ n ∈ names, fold n ≠ fold p.1

def GoodObj {S : Type} (fold : String → String) (good : S → J → Prop) (props : List (String × S)) (kvs : List (String × J)) : Prop :=
  NoFold fold (props.map (·.1)) kvs ∧ ∀ p ∈ kvs, ∀ s, props.lookup p.1 = some s → good s p.2

def Good (fold : String → String) : Schema → J → Prop
  | .leaf k, v => GoodLeaf k v
  | .objs _ props, .arr xs => ∀ x ∈ xs, ∀ kvs, x = .obj kvs → GoodObj fold GoodLeaf props kvs
  | _, _ => True

theorem pair_of {S T : Type} (m : S → T → Bool) (props : List (String × S)) : ∀ fs : List (String × T), matchAll m props fs = true → ∀ key,
    (key ∉ props.map (·.1) ∧ props.lookup key = none ∧ fs.find? (fun f => f.1 = key) = none) ∨
      ∃ s t, props.lookup key = some s ∧ fs.find? (fun f => f.1 = key) = some (key, t) ∧ m s t = true := by
  induction props with
  | nil =>
    intro fs h key
    cases fs with
    | nil => exact Or.inl ⟨by simp, rfl, rfl⟩
    | cons f fs => simp [matchAll] at h
  | cons p props ih =>
    intro fs h key
    cases fs with
    | nil => simp [matchAll] at h
    | cons f fs =>
      simp only [matchAll, List.map_cons, List.cons.injEq, Bool.decide_and, List.zip_cons_cons, List.all_cons, Bool.and_eq_true, decide_eq_true_eq] at h
      obtain ⟨⟨h1, h2⟩, h3, h4⟩ := h
      obtain ⟨pk, ps⟩ := p
      obtain ⟨fk, ft⟩ := f
      simp only at h1 h3
      subst h1
      by_cases e : key = pk
      · subst e
        exact Or.inr ⟨ps, ft, by simp, by simp, h3⟩
      · have e' : ¬ pk = key := fun h => e h.symm
        have hb : (key == pk) = false := by simpa using e
        rcases ih fs (by simp [matchAll, h2]; simpa using h4) key with ⟨a, b, c⟩ | ⟨s, t, a, b, c⟩
        · exact Or.inl ⟨by simp [e]; simpa using a, by rw [List.lookup_cons, hb]; exact b, by simp [e']; simpa using c⟩
        · exact Or.inr ⟨s, t, by rw [List.lookup_cons, hb]; exact a, by rw [List.find?_cons]; simp [e', b], c⟩

theorem decodesObj_of {S T : Type} (fold : String → String) (m : S → T → Bool) (acc : S → J → Bool) (good : S → J → Prop) (fits : T → J → Bool)
    (hm : ∀ s t v, m s t = true → acc s v = true → good s v → fits t v = true) (required : List String) (props : List (String × S))
    (fs : List (String × T)) (h : matchAll m props fs = true) (kvs : List (String × J)) (ha : acceptsObj acc required props kvs = true)
    (hg : GoodObj fold good props kvs) : decodesObj fold fits fs kvs = true := by
  unfold decodesObj
  rw [List.all_eq_true]
  intro p hp
  unfold acceptsObj at ha
  rw [Bool.and_eq_true, List.all_eq_true, List.all_eq_true] at ha
  have hp' := ha.2 p hp
  have hn : props.map (·.1) = fs.map (·.1) := by
    unfold matchAll at h
    rw [Bool.and_eq_true, decide_eq_true_eq] at h
    exact h.1
  rcases pair_of m props fs h p.1 with ⟨a, b, c⟩ | ⟨s, t, a, b, c⟩
  · have : fs.find? (fun f => fold f.1 = fold p.1) = none := by
      rw [List.find?_eq_none]
      intro f hf
      simp only [decide_eq_true_eq]
      exact hg.1 p hp a f.1 (hn ▸ List.mem_map_of_mem hf)
    simp only [target, c, this]
  · simp only [target, b]
    rw [a] at hp'
    exact hm s t p.2 c hp' (hg.2 p hp s a)

theorem leaf_fits (k : Kind) (t : GoLeaf) (v : J) (hm : k.matches t = true) (ha : k.accepts v = true) (hg : GoodLeaf k v) : t.fits v = true := by
  cases k <;> cases t <;> simp only [Kind.matches, Bool.false_eq_true] at hm <;> cases v <;> simp only [Kind.accepts, Bool.false_eq_true] at ha <;>
    simp only [GoLeaf.fits]
  · simp only [GoodLeaf] at hg
    simp only [decide_eq_true_eq] at ha
    rw [hg.1, decide_eq_true ha, decide_eq_true hg.2.1, decide_eq_true hg.2.2]
    rfl
  · simp only [GoodLeaf] at hg
    rw [List.all_eq_true]
    intro p hp
    obtain ⟨s, e⟩ := hg p hp
    rw [e]
  · rw [List.all_eq_true] at ha ⊢
    intro x hx
    have := ha x hx
    cases x <;> simp_all

theorem schema_fits (fold : String → String) (s : Schema) (t : GoTy) (v : J) (hm : s.matches t = true) (ha : s.accepts v = true) (hg : Good fold s v) :
    t.fits fold v = true := by
  cases s with
  | leaf k =>
    cases t with
    | leaf t =>
      have := leaf_fits k t v hm ha hg
      cases v <;> simp only [GoTy.fits] <;> first | trivial | exact this
    | structs fs => simp [Schema.matches] at hm
  | objs req props =>
    cases t with
    | leaf t => simp [Schema.matches] at hm
    | structs fs =>
      cases v with
      | arr xs =>
        simp only [Schema.accepts, List.all_eq_true] at ha
        simp only [GoTy.fits, List.all_eq_true]
        intro x hx
        have hx' := ha x hx
        cases x with
        | obj kvs => exact decodesObj_of fold Kind.matches Kind.accepts GoodLeaf GoLeaf.fits leaf_fits req props fs hm kvs hx' (hg _ hx kvs rfl)
        | _ => first | rfl | simp at hx'
      | _ => simp [Schema.accepts] at ha

/-- C180 (partial): arguments that follow the published schema of a tool are decoded, if integers are written without fraction and
exponent and fit into 64 bits, map values are strings, and no other key is a published name in another spelling. -/
theorem C180_decodes_partial (fold : String → String) (d : Def) (hd : d ∈ definitions) (kvs : List (String × J)) (ha : d.accepts kvs = true)
    (hg : GoodObj fold (Good fold) d.props kvs) : ∃ fields m, call d.name = some (fields, m) ∧ decodes fold fields kvs = true := by
  obtain ⟨fields, m, h1, h2, -⟩ := C180_fields d hd
  exact ⟨fields, m, h1, decodesObj_of fold Schema.matches Schema.accepts (Good fold) (GoTy.fits fold) (schema_fits fold) d.required d.props _ h2 kvs ha hg⟩

theorem accepts_append {S : Type} (acc : S → J → Bool) (required : List String) (props : List (String × S)) (kvs : List (String × J)) (p : String × J)
    (h : acceptsObj acc required props kvs = true) (hp : ∀ s, props.lookup p.1 = some s → acc s p.2 = true) : acceptsObj acc required props (kvs ++ [p]) = true := by
  unfold acceptsObj at h ⊢
  rw [Bool.and_eq_true, List.all_eq_true, List.all_eq_true] at h ⊢
  refine ⟨fun r hr => by rw [List.any_append, h.1 r hr]; rfl, ?_⟩
  intro q hq
  rcases List.mem_append.1 hq with hq | hq
  · exact h.2 q hq
  · rw [List.mem_singleton] at hq
    subst hq
    cases hl : props.lookup q.1 with
    | none => rfl
    | some s => exact hp s hl

theorem not_decodes (fold : String → String) (fields : List Field) (hn : (fields.map (·.name)).Nodup) (f : Field) (hf : f ∈ fields) (kvs : List (String × J)) (v : J)
    (hv : f.ty.fits fold v = false) : decodes fold fields (kvs ++ [(f.name, v)]) = false := by
  have ht : target fold (shape fields) f.name = some (f.name, f.ty) := by
    have : (shape fields).find? (fun g => g.1 = f.name) = some (f.name, f.ty) := by
      unfold shape
      induction fields with
      | nil => simp at hf
      | cons g gs ih =>
        rw [List.map_cons, List.nodup_cons] at hn
        rcases List.mem_cons.1 hf with rfl | hf
        · simp
        · have : ¬ g.name = f.name := fun e => hn.1 (e ▸ List.mem_map_of_mem hf)
          simp only [List.map_cons, List.find?_cons, this, decide_false]
          exact ih hn.2 hf
    simp only [target, this]
  unfold decodes decodesObj
  rw [List.all_append]
  simp [ht, hv]

theorem lookup_of_match (d : Def) (fields : List Field) (h : matchAll Schema.matches d.props (shape fields) = true) (hn : (fields.map (·.name)).Nodup) (f : Field) (hf : f ∈ fields)
    (s : Schema) (hs : d.props.lookup f.name = some s) : s.matches f.ty = true := by
  rcases pair_of Schema.matches d.props (shape fields) h f.name with ⟨a, b, c⟩ | ⟨s', t, a, b, c⟩
  · rw [b] at hs; simp at hs
  · rw [a] at hs
    obtain rfl := Option.some.inj hs
    have hm := List.mem_of_find?_eq_some b
    obtain ⟨g, hg, e⟩ := List.mem_map.1 hm
    simp only [Prod.mk.injEq] at e
    have : g = f := by
      have := List.inj_on_of_nodup_map hn hg hf e.1
      exact this
    rw [← this, e.2]
    exact c

/-- C180 is violated: for every tool with a map of strings (metadata of documents and knowledge), arguments that follow the schema are
refused when the map has a number in it, which the schema allows. -/
theorem C180_map_violated (fold : String → String) (d : Def) (hd : d ∈ definitions) (fields : List Field) (m : String) (hc : call d.name = some (fields, m))
    (f : Field) (hf : f ∈ fields) (ht : f.ty = .leaf .smap) (kvs : List (String × J)) (ha : d.accepts kvs = true) :
    d.accepts (kvs ++ [(f.name, .obj [("year", .num 2024 true)])]) = true ∧ decodes fold fields (kvs ++ [(f.name, .obj [("year", .num 2024 true)])]) = false := by
  obtain ⟨fields', m', h1, h2, -, h4⟩ := C180_fields d hd
  rw [hc] at h1
  simp only [Option.some.injEq, Prod.mk.injEq] at h1
  obtain ⟨rfl, -⟩ := h1
  refine ⟨accepts_append _ _ _ _ _ ha ?_, not_decodes fold fields h4 f hf kvs _ (by rw [ht]; rfl)⟩
  intro s hs
  have := lookup_of_match d fields h2 h4 f hf s hs
  rw [ht] at this
  cases s with
  | leaf k => cases k <;> simp_all [Schema.matches, Kind.matches, Schema.accepts, Kind.accepts]
  | objs => simp [Schema.matches] at this

/-- C180 is violated: for every tool with an integer argument, the number 1.0, which the schema allows, is refused. -/
theorem C180_integer_violated (fold : String → String) (d : Def) (hd : d ∈ definitions) (fields : List Field) (m : String) (hc : call d.name = some (fields, m))
    (f : Field) (hf : f ∈ fields) (ht : f.ty = .leaf .int) (kvs : List (String × J)) (ha : d.accepts kvs = true) :
    d.accepts (kvs ++ [(f.name, .num 1 false)]) = true ∧ decodes fold fields (kvs ++ [(f.name, .num 1 false)]) = false := by
  obtain ⟨fields', m', h1, h2, -, h4⟩ := C180_fields d hd
  rw [hc] at h1
  simp only [Option.some.injEq, Prod.mk.injEq] at h1
  obtain ⟨rfl, -⟩ := h1
  refine ⟨accepts_append _ _ _ _ _ ha ?_, not_decodes fold fields h4 f hf kvs _ (by rw [ht]; rfl)⟩
  intro s hs
  have := lookup_of_match d fields h2 h4 f hf s hs
  rw [ht] at this
  cases s with
  | leaf k => cases k <;> simp_all [Schema.matches, Kind.matches, Schema.accepts, Kind.accepts]
  | objs => simp [Schema.matches] at this

/-- C180: a field receives the last value given under its name. -/
theorem C180_received (fold : String → String) (d : Def) (hd : d ∈ definitions) (fields : List Field) (m : String) (hc : call d.name = some (fields, m))
    (kvs : List (String × J)) (hf : NoFold fold (d.props.map (·.1)) kvs) (name : String) (hn : name ∈ d.props.map (·.1)) :
    received fold fields kvs name = (kvs.reverse.find? (fun p => p.1 = name)).map (·.2) := by
  obtain ⟨fields', m', h1, h2, -, h4⟩ := C180_fields d hd
  rw [hc] at h1
  simp only [Option.some.injEq, Prod.mk.injEq] at h1
  obtain ⟨rfl, -⟩ := h1
  have hk : d.props.map (·.1) = (shape fields).map (·.1) := by
    unfold matchAll at h2
    rw [Bool.and_eq_true, decide_eq_true_eq] at h2
    exact h2.1
  unfold received
  congr 1
  have : ∀ p ∈ kvs.reverse, decide (((target fold (shape fields) p.1).map (·.1)) = some name) = decide (p.1 = name) := by
    intro p hp
    rw [List.mem_reverse] at hp
    rcases pair_of Schema.matches d.props (shape fields) h2 p.1 with ⟨a, b, c⟩ | ⟨s, t, a, b, c⟩
    · have hnf : (shape fields).find? (fun f => fold f.1 = fold p.1) = none := by
        rw [List.find?_eq_none]
        intro f hf'
        simp only [decide_eq_true_eq]
        exact hf p hp a f.1 (hk ▸ List.mem_map_of_mem hf')
      have : p.1 ≠ name := fun e => a (e ▸ hn)
      simp [target, c, hnf, this]
    · simp [target, b]
  generalize kvs.reverse = l at this
  induction l with
  | nil => rfl
  | cons p ps ih =>
    rw [List.find?_cons, List.find?_cons, this p List.mem_cons_self, ih (fun q hq => this q (List.mem_cons_of_mem _ hq))]

/-! ### Examples -/

def kvsA : List (String × J) := [("query", .str "go"), ("top_k", .num 3 true), ("keywords", .arr [.str "a", .str "b"]), ("retrieval_mode", .str "graph"), ("extra", .null)]

example : def_search_text ∈ definitions ∧ def_search_text.accepts kvsA = true ∧ decodes id toolSearchTextRequest kvsA = true := by
  refine ⟨by simp [definitions], by decide +kernel, by decide +kernel⟩

example : GoodObj id (Good id) def_search_text.props kvsA := by
  refine ⟨?_, ?_⟩
  · intro p hp h n hn e
    simp only [id_eq] at e
    exact h (e ▸ hn)
  · intro p hp s hs
    simp only [kvsA, List.mem_cons, List.not_mem_nil, or_false] at hp
    rcases hp with rfl | rfl | rfl | rfl | rfl
    all_goals
      simp only [def_search_text, List.lookup_cons, List.lookup_nil] at hs
      revert hs
      simp (decide := true) only
      rintro ⟨⟩ <;> simp [Good, GoodLeaf]

example : def_ingest_document.accepts [("document_id", .str "d"), ("content", .str "x"), ("metadata", .obj [("year", .num 2024 true)])] = true ∧
    decodes id toolIngestDocumentRequest [("document_id", .str "d"), ("content", .str "x"), ("metadata", .obj [("year", .num 2024 true)])] = false ∧
    def_search_text.accepts [("query", .str "go"), ("retrieval_mode", .str "vector")] = false ∧ def_search_text.accepts [("top_k", .num 3 true)] = false := by
  decide +kernel

example : call "memory_delete" = some (memoryDeleteRequest, "DeleteMemory") ∧ call "drop_table" = none ∧ mcpTools.length = 20 := ⟨rfl, rfl, rfl⟩

end Verif.Tools
