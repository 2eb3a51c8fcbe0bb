import Verif.Model.Patterns
import Verif.Thm.FuncRouter
import Mathlib.Data.List.Count
import Mathlib.Data.List.Dedup
import Mathlib.Data.List.Perm.Basic
import Mathlib.Algebra.Order.BigOperators.Group.List

/-!
# C227: what observations say

The specification uses the texts of the recalled memories only: how often a memory names an entity, whether a word occurs in a text,
and how often a longer word occurs in all of them.
-/

namespace Verif.Patterns

open Verif.Base
open Verif.Hindsight (Bank confidence Disposition)
open Verif.FuncRouter (contains contains_iff)

/-- How often the memories name the entity. -/
def Named (ms : List Mem) (e : Text) : Nat := (ms.map fun m => m.entities.count e).sum

/-- Some memory that names the entity has one of the words in its text, in small letters. -/
def Says (lower : Char → Char) (words : List Text) (ms : List Mem) (e : Text) : Prop :=
  ∃ m ∈ ms, e ∈ m.entities ∧ ∃ w ∈ words, w <:+: m.content.map lower

/-- How often a word occurs in the memories, in small letters. -/
def Uses (lower : Char → Char) (space : Char → Bool) (ms : List Mem) (w : Text) : Nat :=
  (ms.map fun m => (fields space (m.content.map lower)).count w).sum

/-! ### Helpers -/

theorem mem_byEntity (ms : List Mem) (e : Text) (m : Mem) : m ∈ byEntity ms e ↔ m ∈ ms ∧ e ∈ m.entities := by
  unfold byEntity
  simp only [List.mem_flatMap, List.mem_map, List.mem_filter, decide_eq_true_eq]
  constructor
  · rintro ⟨x, hx, y, ⟨hy, rfl⟩, rfl⟩
    exact ⟨hx, hy⟩
  · rintro ⟨h1, h2⟩
    exact ⟨m, h1, e, ⟨h2, rfl⟩, rfl⟩

theorem length_byEntity (ms : List Mem) (e : Text) : (byEntity ms e).length = Named ms e := by
  unfold byEntity Named
  rw [List.length_flatMap]
  congr 1
  refine List.map_congr_left fun m _ => ?_
  rw [List.length_map, List.count_eq_length_filter]
  congr 1
  refine List.filter_congr fun x _ => ?_
  by_cases h : x = e <;> simp [h]

theorem speaks_iff (lower : Char → Char) (words : List Text) (ms : List Mem) (e : Text) :
    speaks lower words (byEntity ms e) = true ↔ Says lower words ms e := by
  unfold speaks Says
  simp only [List.any_eq_true, mem_byEntity, contains_iff, and_assoc]

theorem count_longWords (lower : Char → Char) (space : Char → Bool) (ms : List Mem) (w : Text) (h : 4 < (bytes w).length) :
    (longWords lower space ms).count w = Uses lower space ms w := by
  unfold longWords Uses
  rw [List.count_flatMap]
  congr 1
  refine List.map_congr_left fun m _ => ?_
  simp only [Function.comp]
  rw [List.count_filter (by simpa using h)]

theorem long_of_mem (lower : Char → Char) (space : Char → Bool) (ms : List Mem) (w : Text) (h : w ∈ longWords lower space ms) :
    4 < (bytes w).length := by
  unfold longWords at h
  simp only [List.mem_flatMap, List.mem_filter, decide_eq_true_eq] at h
  obtain ⟨_, _, _, h⟩ := h
  exact h

theorem mem_of_uses (lower : Char → Char) (space : Char → Bool) (ms : List Mem) (w : Text) (h : 4 < (bytes w).length)
    (hu : 0 < Uses lower space ms w) : w ∈ longWords lower space ms := by
  rw [← count_longWords lower space ms w h] at hu
  exact List.count_pos_iff.1 hu

/-- The loop over the words ends with a word of the highest count, or with what it had. -/
theorem topTheme_spec (count : Text → Nat) (ts : List Text) : ∀ best : Text × Nat,
    (topTheme count ts best = best ∧ ∀ t ∈ ts, count t ≤ best.2 ∨ count t < 2) ∨
    (∃ pre t post, ts = pre ++ t :: post ∧ topTheme count ts best = (t, count t) ∧ best.2 < count t ∧ 2 ≤ count t ∧
      (∀ u ∈ pre, count u < count t) ∧ ∀ u ∈ post, count u ≤ count t) := by
  induction ts with
  | nil => intro best; exact .inl ⟨rfl, by simp⟩
  | cons t ts ih =>
    intro best
    simp only [topTheme]
    by_cases h : count t > best.2 ∧ count t ≥ 2
    · rw [if_pos h]
      rcases ih (t, count t) with ⟨h1, h2⟩ | ⟨pre, u, post, h0, h1, h2, h3, h4, h5⟩
      · refine .inr ⟨[], t, ts, rfl, h1, h.1, h.2, by simp, fun u hu => ?_⟩
        rcases h2 u hu with h2 | h2
        · exact h2
        · exact le_of_lt (lt_of_lt_of_le h2 h.2)
      · refine .inr ⟨t :: pre, u, post, by rw [h0]; rfl, h1, lt_trans h.1 h2, h3, ?_, h5⟩
        intro x hx
        rcases List.mem_cons.1 hx with rfl | hx
        · exact h2
        · exact h4 x hx
    · rw [if_neg h]
      have hle : count t ≤ best.2 ∨ count t < 2 := by
        by_contra hc
        simp only [not_or, not_le, not_lt] at hc
        exact h ⟨hc.1, hc.2⟩
      rcases ih best with ⟨h1, h2⟩ | ⟨pre, u, post, h0, h1, h2, h3, h4, h5⟩
      · refine .inl ⟨h1, fun x hx => ?_⟩
        rcases List.mem_cons.1 hx with rfl | hx
        · exact hle
        · exact h2 x hx
      · refine .inr ⟨t :: pre, u, post, by rw [h0]; rfl, h1, h2, h3, ?_, h5⟩
        intro x hx
        rcases List.mem_cons.1 hx with rfl | hx
        · rcases hle with hle | hle
          · exact lt_of_le_of_lt hle h2
          · exact lt_of_lt_of_le hle h3
        · exact h4 x hx

theorem mem_detect (lower : Char → Char) (space : Char → Bool) (ord ordT : List Text → List Text) (ho : ∀ l, (ord l).Perm l)
    (ms : List Mem) (bank : Option Bank) (h2 : 2 ≤ ms.length) (x : Option Note) :
    x ∈ detect lower space ord ordT ms bank ↔
      (∃ e, (∃ m ∈ ms, e ∈ m.entities) ∧ x ∈ entityNotes lower bank e (byEntity ms e)) ∨
      (3 ≤ ms.length ∧ x ∈ generalize lower space ordT ms bank) := by
  unfold detect
  rw [if_neg (by omega), List.mem_append, List.mem_flatMap]
  refine or_congr ?_ ?_
  · simp only [(ho _).mem_iff, List.mem_dedup, List.mem_flatMap]
  · split
    · rename_i h; simp [h]
    · rename_i h; simp [h]

/-! ### Agreement with the other model -/

/-- The two models of `detectPatterns` agree: forgetting what an observation says gives the observations of `Model/Hindsight`. -/
theorem detect_agrees (lower : Char → Char) (space : Char → Bool) (ord ordT : List Text → List Text)
    (ord' : List String → List String) (ho : ∀ l, ord' (l.map String.ofList) = (ord l).map String.ofList)
    (ms : List Mem) (bank : Option Bank) (bankId : String) :
    (detect lower space ord ordT ms bank).map (Option.map fun o => (⟨bankId, o.sources, o.conf⟩ : Hindsight.Obs)) =
    Hindsight.detectPatterns ord' (fun _ => decide (generalize lower space ordT ms bank ≠ []))
      (ms.map fun m => ⟨m.id, m.entities.map String.ofList, speaks lower preferenceWords [m], speaks lower causalWords [m]⟩) bank bankId := by
  have hinj : Function.Injective String.ofList := fun a b h => by
    have := congrArg String.toList h
    simpa using this
  unfold detect Hindsight.detectPatterns
  rw [List.length_map]
  by_cases h2 : ms.length < 2
  · rw [if_pos h2, if_pos h2]; rfl
  rw [if_neg h2, if_neg h2, List.map_append]
  have hmk : ∀ (k : Kind) (a : Text) (g : List Mem), (mkNote bank k a g).map (fun o => (⟨bankId, o.sources, o.conf⟩ : Hindsight.Obs)) =
      Hindsight.mkObs bank bankId (g.map fun m => ⟨m.id, m.entities.map String.ofList, speaks lower preferenceWords [m],
        speaks lower causalWords [m]⟩) := by
    intro k a g
    unfold mkNote Hindsight.mkObs
    rw [List.length_map, Option.map_map]
    cases confidence g.length bank with
    | none => rfl
    | some c => simp [Function.comp_def]
  have hsp : ∀ (ws : List Text) (g : List Mem), speaks lower ws g = g.any fun m => speaks lower ws [m] := by
    intro ws g; simp [speaks]
  congr 1
  · have hents : ((ms.map fun m => (⟨m.id, m.entities.map String.ofList, speaks lower preferenceWords [m],
        speaks lower causalWords [m]⟩ : Hindsight.Seen)).flatMap (·.entities)).dedup =
        ((ms.flatMap (·.entities)).dedup).map String.ofList := by
      rw [List.flatMap_map]
      have : (ms.flatMap fun m => m.entities.map String.ofList) = (ms.flatMap (·.entities)).map String.ofList := by
        rw [List.map_flatMap]
      rw [this, List.dedup_map_of_injective hinj]
    rw [hents, ho, List.flatMap_map, List.map_flatMap]
    refine List.flatMap_congr fun e _ => ?_
    have hb : Hindsight.byEntity (ms.map fun m => (⟨m.id, m.entities.map String.ofList, speaks lower preferenceWords [m],
        speaks lower causalWords [m]⟩ : Hindsight.Seen)) (String.ofList e) =
        (byEntity ms e).map fun m => ⟨m.id, m.entities.map String.ofList, speaks lower preferenceWords [m],
          speaks lower causalWords [m]⟩ := by
      unfold Hindsight.byEntity byEntity
      rw [List.flatMap_map, List.map_flatMap]
      refine List.flatMap_congr fun m _ => ?_
      rw [List.filter_map, List.map_map, List.map_map]
      have : ((fun x => decide (x = String.ofList e)) ∘ String.ofList) = fun x : Text => decide (x = e) := by
        funext x
        simp [Function.comp, hinj.eq_iff]
      rw [this]
      rfl
    simp only [hb]
    unfold entityNotes Hindsight.entityObs
    rw [List.length_map, List.any_map, List.any_map, hsp preferenceWords, hsp causalWords]
    simp only [Function.comp_def]
    split
    · split <;> split <;> simp [hmk]
    · rfl
  · by_cases h3 : ms.length ≥ 3
    · rw [if_pos h3]
      unfold generalize
      by_cases ht : (topTheme (fun t => (longWords lower space ms).count t) (ordT (longWords lower space ms).dedup) ([], 0)).1 = []
      · simp [ht]
      · simp [ht, h3, hmk]
    · simp [h3]

/-! ### C227 -/

theorem confidence_some (n : Nat) (bank : Option Bank) (hb : ∀ b, bank = some b → b.disposition ≠ none) :
    ∃ c, confidence n bank = some c := by
  unfold confidence
  split
  · exact ⟨_, rfl⟩
  · cases bank with
    | none => exact ⟨_, rfl⟩
    | some b =>
      cases hd : b.disposition with
      | none => exact absurd hd (hb b rfl)
      | some d => exact ⟨_, by simp only [hd]; rfl⟩

theorem mkNote_some (bank : Option Bank) (k : Kind) (a : Text) (ms : List Mem) (o : Note) (h : mkNote bank k a ms = some o) :
    o.kind = k ∧ o.about = a ∧ o.sources = ms.map (·.id) := by
  unfold mkNote at h
  obtain ⟨c, _, rfl⟩ := Option.map_eq_some_iff.1 h
  exact ⟨rfl, rfl, rfl⟩

theorem mkNote_ex (bank : Option Bank) (hb : ∀ b, bank = some b → b.disposition ≠ none) (k : Kind) (a : Text) (ms : List Mem) :
    ∃ o, mkNote bank k a ms = some o := by
  obtain ⟨c, hc⟩ := confidence_some ms.length bank hb
  exact ⟨_, by unfold mkNote; rw [hc]; rfl⟩

/-- What an observation about an entity is. -/
theorem mem_entityNotes (lower : Char → Char) (bank : Option Bank) (e : Text) (g : List Mem) (x : Option Note) :
    x ∈ entityNotes lower bank e g ↔ 2 ≤ g.length ∧
      ((speaks lower preferenceWords g = true ∧ x = mkNote bank .preference e g) ∨
       (speaks lower causalWords g = true ∧ x = mkNote bank .causal e g)) := by
  unfold entityNotes
  split
  · rename_i h
    simp only [List.mem_append]
    constructor
    · rintro (hx | hx)
      · split at hx
        · rename_i hs; exact ⟨h, .inl ⟨hs, by simpa using hx⟩⟩
        · simp at hx
      · split at hx
        · rename_i hs; exact ⟨h, .inr ⟨hs, by simpa using hx⟩⟩
        · simp at hx
    · rintro ⟨_, ⟨hs, rfl⟩ | ⟨hs, rfl⟩⟩
      · exact .inl (by rw [if_pos hs]; simp)
      · exact .inr (by rw [if_pos hs]; simp)
  · rename_i h
    simp only [List.not_mem_nil, false_iff, not_and]
    intro h'; exact absurd h' h

theorem mem_generalize (lower : Char → Char) (space : Char → Bool) (ordT : List Text → List Text) (ms : List Mem)
    (bank : Option Bank) (x : Option Note) (hx : x ∈ generalize lower space ordT ms bank) :
    ∃ w, w ≠ [] ∧ (topTheme (fun t => (longWords lower space ms).count t) (ordT (longWords lower space ms).dedup) ([], 0)).1 = w ∧
      x = mkNote bank .general w ms := by
  unfold generalize at hx
  simp only at hx
  split at hx
  · simp at hx
  · rename_i h
    exact ⟨_, h, rfl, by simpa using hx⟩

theorem says_twice (lower : Char → Char) (ms : List Mem) (x a b c d f : Text) :
    Says lower [a, b, c, a, d, f] ms x ↔ Says lower [a, b, c, d, f] ms x := by
  unfold Says
  refine exists_congr fun m => and_congr_right fun _ => and_congr_right fun _ => exists_congr fun w => and_congr_left fun _ => ?_
  simp only [List.mem_cons, List.not_mem_nil, or_false]
  tauto

theorem says_pref (lower : Char → Char) (ms : List Mem) (e : Text) : Says lower preferenceWords ms e ↔
    Says lower ["prefers".toList, "likes".toList, "enjoys".toList, "chooses".toList, "selects".toList] ms e :=
  says_twice lower ms e _ _ _ _ _

/-- An observation of a preference or of a cause is made about exactly the entities that are named at least twice and of which some
memory has one of the words in its text. -/
theorem C227_entities (lower : Char → Char) (space : Char → Bool) (ord ordT : List Text → List Text) (ho : ∀ l, (ord l).Perm l)
    (ms : List Mem) (bank : Option Bank) (hb : ∀ b, bank = some b → b.disposition ≠ none)
    (kind : Kind) (words : List Text)
    (hk : (kind = .preference ∧ words = ["prefers".toList, "likes".toList, "enjoys".toList, "chooses".toList, "selects".toList]) ∨
      (kind = .causal ∧ words = ["because".toList, "since".toList, "due to".toList, "caused".toList, "resulted in".toList,
        "led to".toList])) (e : Text) :
    (∃ o, some o ∈ detect lower space ord ordT ms bank ∧ o.kind = kind ∧ o.about = e) ↔
      2 ≤ ms.length ∧ 2 ≤ Named ms e ∧ Says lower words ms e := by
  by_cases h2 : 2 ≤ ms.length
  swap
  · constructor
    · rintro ⟨o, ho, _⟩
      unfold detect at ho
      rw [if_pos (by omega)] at ho
      simp at ho
    · rintro ⟨h, _⟩; exact absurd h h2
  constructor
  · rintro ⟨o, hmem, rfl, rfl⟩
    rw [mem_detect lower space ord ordT ho ms bank h2] at hmem
    refine ⟨h2, ?_⟩
    rcases hmem with ⟨e, _, hx⟩ | ⟨_, hx⟩
    · rw [mem_entityNotes] at hx
      obtain ⟨hl, hx⟩ := hx
      rw [length_byEntity] at hl
      rcases hx with ⟨hs, hx⟩ | ⟨hs, hx⟩
      · obtain ⟨k1, k2, _⟩ := mkNote_some bank _ _ _ o hx.symm
        rw [k2]
        rcases hk with ⟨_, rfl⟩ | ⟨hk, _⟩
        · exact ⟨hl, (says_pref lower ms e).1 ((speaks_iff lower _ ms e).1 hs)⟩
        · rw [k1] at hk; cases hk
      · obtain ⟨k1, k2, _⟩ := mkNote_some bank _ _ _ o hx.symm
        rw [k2]
        rcases hk with ⟨hk, _⟩ | ⟨_, rfl⟩
        · rw [k1] at hk; cases hk
        · exact ⟨hl, (speaks_iff lower causalWords ms e).1 hs⟩
    · obtain ⟨w, _, _, hx⟩ := mem_generalize lower space ordT ms bank _ hx
      obtain ⟨k1, _⟩ := mkNote_some bank _ _ _ o hx.symm
      rcases hk with ⟨hk, _⟩ | ⟨hk, _⟩ <;> rw [k1] at hk <;> cases hk
  · rintro ⟨_, hn, hs⟩
    have hent : ∃ m ∈ ms, e ∈ m.entities := by
      obtain ⟨m, hm, he, _⟩ := hs; exact ⟨m, hm, he⟩
    obtain ⟨o, hmk⟩ := mkNote_ex bank hb kind e (byEntity ms e)
    obtain ⟨k1, k2, _⟩ := mkNote_some bank _ _ _ o hmk
    refine ⟨o, ?_, k1, k2⟩
    rw [mem_detect lower space ord ordT ho ms bank h2]
    refine .inl ⟨e, hent, ?_⟩
    rw [mem_entityNotes, length_byEntity]
    refine ⟨hn, ?_⟩
    rcases hk with ⟨rfl, rfl⟩ | ⟨rfl, rfl⟩
    · exact .inl ⟨(speaks_iff lower preferenceWords ms e).2 ((says_pref lower ms e).2 hs), hmk.symm⟩
    · exact .inr ⟨(speaks_iff lower causalWords ms e).2 hs, hmk.symm⟩

/-- The sources of an observation about an entity are the memories that name it, in the order of the recall and once for each time
they name it; the sources of a generalisation are all the recalled memories.  The content of an observation names the entity or the
theme. -/
theorem C227_sources (lower : Char → Char) (space : Char → Bool) (ord ordT : List Text → List Text) (ho : ∀ l, (ord l).Perm l)
    (ms : List Mem) (bank : Option Bank) (o : Note) (h : some o ∈ detect lower space ord ordT ms bank) :
    2 ≤ o.sources.length ∧ o.about <:+: o.content ∧
    o.sources = if o.kind = .general then ms.map (·.id)
      else ms.flatMap fun m => List.replicate (m.entities.count o.about) m.id := by
  have hcont : o.about <:+: o.content := by
    unfold Note.content
    split
    · exact List.infix_append [] _ _
    · exact List.infix_append [] _ _
    · exact List.infix_append _ _ _
  by_cases h2 : 2 ≤ ms.length
  swap
  · unfold detect at h
    rw [if_pos (by omega)] at h
    simp at h
  rw [mem_detect lower space ord ordT ho ms bank h2] at h
  rcases h with ⟨e, _, hx⟩ | ⟨_, hx⟩
  · rw [mem_entityNotes] at hx
    obtain ⟨hl, hx⟩ := hx
    have key : o.kind ≠ .general ∧ o.about = e ∧ o.sources = (byEntity ms e).map (·.id) := by
      rcases hx with ⟨_, hx⟩ | ⟨_, hx⟩
      · obtain ⟨k1, k2, k3⟩ := mkNote_some bank _ _ _ o hx.symm
        exact ⟨by rw [k1]; simp, k2, k3⟩
      · obtain ⟨k1, k2, k3⟩ := mkNote_some bank _ _ _ o hx.symm
        exact ⟨by rw [k1]; simp, k2, k3⟩
    obtain ⟨k1, k2, k3⟩ := key
    refine ⟨by rw [k3, List.length_map]; exact hl, hcont, ?_⟩
    rw [if_neg k1, k3, k2]
    unfold byEntity
    rw [List.map_flatMap]
    refine List.flatMap_congr fun m _ => ?_
    rw [List.map_map, List.eq_replicate_iff]
    refine ⟨?_, ?_⟩
    · rw [List.length_map, List.count_eq_length_filter]
      congr 1
      refine List.filter_congr fun x _ => ?_
      by_cases h : x = e <;> simp [h]
    · intro b hb
      obtain ⟨_, _, rfl⟩ := List.mem_map.1 hb
      rfl
  · obtain ⟨w, _, _, hx⟩ := mem_generalize lower space ordT ms bank _ hx
    obtain ⟨k1, _, k3⟩ := mkNote_some bank _ _ _ o hx.symm
    refine ⟨by rw [k3, List.length_map]; exact h2, hcont, ?_⟩
    rw [if_pos k1, k3]

/-- The word the loop ends with, for any order of the map. -/
theorem theme_spec (lower : Char → Char) (space : Char → Bool) (ordT : List Text → List Text) (ht : ∀ l, (ordT l).Perm l)
    (ms : List Mem) (w : Text) (hw : w ≠ [])
    (h : (topTheme (fun t => (longWords lower space ms).count t) (ordT (longWords lower space ms).dedup) ([], 0)).1 = w) :
    4 < (bytes w).length ∧ 2 ≤ Uses lower space ms w ∧
      ∀ u : Text, 4 < (bytes u).length → Uses lower space ms u ≤ Uses lower space ms w := by
  rcases topTheme_spec (fun t => (longWords lower space ms).count t) (ordT (longWords lower space ms).dedup) ([], 0) with
    ⟨h1, _⟩ | ⟨pre, t, post, h0, h1, _, h3, h4, h5⟩
  · rw [h1] at h; exact absurd h.symm hw
  · rw [h1] at h
    simp only at h
    subst h
    have hmem : t ∈ longWords lower space ms := by
      have : t ∈ ordT (longWords lower space ms).dedup := by rw [h0]; simp
      rw [(ht _).mem_iff, List.mem_dedup] at this
      exact this
    have hl := long_of_mem lower space ms t hmem
    have hc := count_longWords lower space ms t hl
    refine ⟨hl, by rw [← hc]; exact h3, fun u hu => ?_⟩
    by_cases hu0 : Uses lower space ms u = 0
    · omega
    have humem := mem_of_uses lower space ms u hu (by omega)
    have hcu := count_longWords lower space ms u hu
    have : u ∈ pre ++ t :: post := by rw [← h0, (ht _).mem_iff, List.mem_dedup]; exact humem
    simp only [List.mem_append, List.mem_cons] at this
    rw [← hc, ← hcu]
    rcases this with hu' | rfl | hu'
    · exact le_of_lt (h4 u hu')
    · exact le_rfl
    · exact h5 u hu'

/-- A generalisation is made about three memories or more exactly when some word of more than four bytes occurs twice in them; it is
about such a word that no other beats, and there is at most one. -/
theorem C227_theme (lower : Char → Char) (space : Char → Bool) (ord ordT : List Text → List Text) (ho : ∀ l, (ord l).Perm l)
    (ht : ∀ l, (ordT l).Perm l) (ms : List Mem) (bank : Option Bank) (hb : ∀ b, bank = some b → b.disposition ≠ none) :
    ((∃ o, some o ∈ detect lower space ord ordT ms bank ∧ o.kind = .general) ↔
      3 ≤ ms.length ∧ ∃ w : Text, 4 < (bytes w).length ∧ 2 ≤ Uses lower space ms w) ∧
    (∀ o, some o ∈ detect lower space ord ordT ms bank → o.kind = .general →
      4 < (bytes o.about).length ∧ 2 ≤ Uses lower space ms o.about ∧
      ∀ u : Text, 4 < (bytes u).length → Uses lower space ms u ≤ Uses lower space ms o.about) ∧
    ((detect lower space ord ordT ms bank).filter fun x => (x.map (·.kind)) == some .general).length ≤ 1 := by
  have hno : ∀ e g, ∀ x ∈ entityNotes lower bank e g, x.map (·.kind) ≠ some .general := by
    intro e g x hx hk
    rw [mem_entityNotes] at hx
    obtain ⟨o, rfl, hok⟩ := Option.map_eq_some_iff.1 hk
    rcases hx with ⟨_, ⟨_, hx⟩ | ⟨_, hx⟩⟩
    · have := (mkNote_some bank _ _ _ o hx.symm).1
      rw [hok] at this; cases this
    · have := (mkNote_some bank _ _ _ o hx.symm).1
      rw [hok] at this; cases this
  have hgen : ∀ o, some o ∈ detect lower space ord ordT ms bank → o.kind = .general →
      3 ≤ ms.length ∧ some o ∈ generalize lower space ordT ms bank := by
    intro o h hk
    by_cases h2 : 2 ≤ ms.length
    swap
    · unfold detect at h
      rw [if_pos (by omega)] at h
      simp at h
    rw [mem_detect lower space ord ordT ho ms bank h2] at h
    rcases h with ⟨e, _, hx⟩ | h
    · exact absurd (by simp [hk]) (hno e _ _ hx)
    · exact h
  have hspec : ∀ o, some o ∈ detect lower space ord ordT ms bank → o.kind = .general →
      4 < (bytes o.about).length ∧ 2 ≤ Uses lower space ms o.about ∧
      ∀ u : Text, 4 < (bytes u).length → Uses lower space ms u ≤ Uses lower space ms o.about := by
    intro o h hk
    obtain ⟨_, hg⟩ := hgen o h hk
    obtain ⟨w, hw, htop, hx⟩ := mem_generalize lower space ordT ms bank _ hg
    rw [(mkNote_some bank _ _ _ o hx.symm).2.1]
    exact theme_spec lower space ordT ht ms w hw htop
  refine ⟨⟨?_, ?_⟩, hspec, ?_⟩
  · rintro ⟨o, h, hk⟩
    exact ⟨(hgen o h hk).1, o.about, (hspec o h hk).1, (hspec o h hk).2.1⟩
  · rintro ⟨h3, w, hw, hu⟩
    have hmem := mem_of_uses lower space ms w hw (by omega)
    have htop : (topTheme (fun t => (longWords lower space ms).count t) (ordT (longWords lower space ms).dedup) ([], 0)).1 ≠ [] := by
      rcases topTheme_spec (fun t => (longWords lower space ms).count t) (ordT (longWords lower space ms).dedup) ([], 0) with
        ⟨_, h2⟩ | ⟨pre, t, post, h0, h1, _⟩
      · have := h2 w (by rw [(ht _).mem_iff, List.mem_dedup]; exact hmem)
        simp only [count_longWords lower space ms w hw] at this
        omega
      · rw [h1]
        have : t ∈ ordT (longWords lower space ms).dedup := by rw [h0]; simp
        rw [(ht _).mem_iff, List.mem_dedup] at this
        intro hnil
        have hlong := long_of_mem lower space ms t this
        simp only at hnil
        rw [hnil] at hlong
        simp [bytes] at hlong
    obtain ⟨o, hmk⟩ := mkNote_ex bank hb .general
      (topTheme (fun t => (longWords lower space ms).count t) (ordT (longWords lower space ms).dedup) ([], 0)).1 ms
    refine ⟨o, ?_, (mkNote_some bank _ _ _ o hmk).1⟩
    rw [mem_detect lower space ord ordT ho ms bank (by omega)]
    refine .inr ⟨h3, ?_⟩
    unfold generalize
    simp only
    rw [if_neg htop]
    simp [hmk]
  · unfold detect
    split
    · simp
    · rw [List.filter_append]
      have h1 : ((ord (ms.flatMap (·.entities)).dedup).flatMap (fun e => entityNotes lower bank e (byEntity ms e))).filter
          (fun x => (x.map (·.kind)) == some .general) = [] := by
        rw [List.filter_eq_nil_iff]
        intro x hx
        obtain ⟨e, _, hx⟩ := List.mem_flatMap.1 hx
        simpa using hno e _ x hx
      rw [h1, List.nil_append]
      refine le_trans (List.length_filter_le _ _) ?_
      split
      · unfold generalize
        simp only
        split <;> simp
      · simp

/-! ### Where observations mislead -/

/-- A dislike counts as a preference: "dislikes" has "likes" in it. -/
theorem C227_dislikes_violated (lower : Char → Char) (space : Char → Bool) (ord ordT : List Text → List Text)
    (ho : ∀ l, (ord l).Perm l) (ms : List Mem) (bank : Option Bank) (hb : ∀ b, bank = some b → b.disposition ≠ none) (e : Text)
    (h2 : 2 ≤ ms.length) (hn : 2 ≤ Named ms e) (m : Mem) (hm : m ∈ ms) (he : e ∈ m.entities)
    (hd : "dislikes".toList <:+: m.content.map lower) :
    ∃ o, some o ∈ detect lower space ord ordT ms bank ∧ o.kind = .preference ∧ o.about = e := by
  refine (C227_entities lower space ord ordT ho ms bank hb .preference _ (.inl ⟨rfl, rfl⟩) e).2
    ⟨h2, hn, m, hm, he, "likes".toList, by simp, List.IsInfix.trans ?_ hd⟩
  exact ⟨"dis".toList, [], by decide⟩

/-- One memory that names an entity twice is enough for an observation about the entity, with that memory as its only source, listed
twice. -/
theorem C227_one_memory_violated (lower : Char → Char) (space : Char → Bool) (ord ordT : List Text → List Text)
    (ho : ∀ l, (ord l).Perm l) (m m' : Mem) (bank : Option Bank) (hb : ∀ b, bank = some b → b.disposition ≠ none) (e : Text)
    (he : m.entities.count e = 2) (he' : e ∉ m'.entities) (hd : "likes".toList <:+: m.content.map lower) :
    ∃ o, some o ∈ detect lower space ord ordT [m, m'] bank ∧ o.kind = .preference ∧ o.about = e ∧ o.sources = [m.id, m.id] := by
  have hmem : e ∈ m.entities := List.count_pos_iff.1 (by omega)
  obtain ⟨o, h1, h2, h3⟩ := (C227_entities lower space ord ordT ho [m, m'] bank hb .preference _ (.inl ⟨rfl, rfl⟩) e).2
    ⟨by simp, by simp [Named, he], m, by simp, hmem, "likes".toList, by simp, hd⟩
  refine ⟨o, h1, h2, h3, ?_⟩
  rw [(C227_sources lower space ord ordT ho _ bank o h1).2.2, if_neg (by rw [h2]; simp), h3]
  simp [he, List.count_eq_zero.2 he']

/-- Which of two words that occur equally often a generalisation names depends on the order in which a map is visited: each of them
is named in some run. -/
theorem C227_tie_violated (lower : Char → Char) (space : Char → Bool) (ord : List Text → List Text) (ho : ∀ l, (ord l).Perm l)
    (ms : List Mem) (bank : Option Bank) (hb : ∀ b, bank = some b → b.disposition ≠ none) (h3 : 3 ≤ ms.length) (w : Text)
    (hw : 4 < (bytes w).length) (h2 : 2 ≤ Uses lower space ms w)
    (hmax : ∀ u : Text, 4 < (bytes u).length → Uses lower space ms u ≤ Uses lower space ms w) :
    ∃ ordT : List Text → List Text, (∀ l, (ordT l).Perm l) ∧
      ∃ o, some o ∈ detect lower space ord ordT ms bank ∧ o.kind = .general ∧ o.about = w := by
  classical
  refine ⟨fun l => if w ∈ l then w :: l.erase w else l, fun l => ?_, ?_⟩
  · dsimp only
    split
    · rename_i h; exact (List.perm_cons_erase h).symm
    · exact List.Perm.refl _
  · have hmem := mem_of_uses lower space ms w hw (by omega)
    obtain ⟨o, hmk⟩ := mkNote_ex bank hb .general w ms
    refine ⟨o, ?_, (mkNote_some bank _ _ _ o hmk).1, (mkNote_some bank _ _ _ o hmk).2.1⟩
    rw [mem_detect lower space ord _ ho ms bank (by omega)]
    refine .inr ⟨h3, ?_⟩
    have hne : w ≠ [] := by rintro rfl; simp [bytes] at hw
    have hcw := count_longWords lower space ms w hw
    have hstay : topTheme (fun t => (longWords lower space ms).count t) ((longWords lower space ms).dedup.erase w)
        (w, (longWords lower space ms).count w) = (w, (longWords lower space ms).count w) := by
      rcases topTheme_spec (fun t => (longWords lower space ms).count t) ((longWords lower space ms).dedup.erase w)
        (w, (longWords lower space ms).count w) with ⟨h, _⟩ | ⟨pre, t, post, h0, _, hgt, _⟩
      · exact h
      · exfalso
        have : t ∈ (longWords lower space ms).dedup.erase w := by rw [h0]; simp
        have := List.mem_of_mem_erase this
        rw [List.mem_dedup] at this
        have hl := long_of_mem lower space ms t this
        have := hmax t hl
        simp only [count_longWords lower space ms t hl, hcw] at hgt
        omega
    have htop : (topTheme (fun t => (longWords lower space ms).count t) (w :: (longWords lower space ms).dedup.erase w) ([], 0)).1 =
        w := by
      simp only [topTheme]
      rw [if_pos ⟨by omega, by omega⟩, hstay]
    unfold generalize
    simp only [List.mem_dedup, hmem, if_true, htop, hne, if_false]
    simp [hmk]

/-- A word that occurs twice in one memory and in no other is a theme of all of them: the generalisation lists memories that do not
have the word. -/
theorem C227_theme_of_one_violated (lower : Char → Char) (space : Char → Bool) (ord ordT : List Text → List Text)
    (ho : ∀ l, (ord l).Perm l) (ht : ∀ l, (ordT l).Perm l)
    (ms : List Mem) (bank : Option Bank) (hb : ∀ b, bank = some b → b.disposition ≠ none) (h3 : 3 ≤ ms.length) (w : Text)
    (hw : 4 < (bytes w).length) (m : Mem) (hm : m ∈ ms) (hc : (fields space (m.content.map lower)).count w = 2)
    (hmax : ∀ u : Text, 4 < (bytes u).length → u ≠ w → Uses lower space ms u < 2) :
    ∃ o, some o ∈ detect lower space ord ordT ms bank ∧ o.kind = .general ∧ o.about = w ∧ o.sources = ms.map (·.id) := by
  have hu : 2 ≤ Uses lower space ms w := by
    unfold Uses
    rw [← hc]
    exact List.single_le_sum (by simp) _ (List.mem_map.2 ⟨m, hm, rfl⟩)
  obtain ⟨t1, t2, _⟩ := C227_theme lower space ord ordT ho ht ms bank hb
  obtain ⟨o, h1, h2⟩ := t1.2 ⟨h3, w, hw, hu⟩
  refine ⟨o, h1, h2, ?_, ?_⟩
  · by_contra hne
    have := hmax o.about (t2 o h1 h2).1 hne
    have := (t2 o h1 h2).2.1
    omega
  · rw [(C227_sources lower space ord ordT ho ms bank o h1).2.2, if_pos h2]

/-! ### The hypotheses can be met -/

def lower0 : Char → Char := Char.toLower
def space0 : Char → Bool := fun c => c == ' '

def ann : Mem := ⟨"m1", ["Ann".toList], "Ann dislikes green apples because apples bite".toList⟩
def bob : Mem := ⟨"m2", ["Ann".toList, "Bob".toList], "Ann met Bob".toList⟩
def cat : Mem := ⟨"m3", ["Cat".toList, "Cat".toList], "Cat likes Cat".toList⟩

example : detect lower0 space0 id id [ann, bob, cat] none =
    [some ⟨.preference, "Ann".toList, ["m1", "m2"], 2/10⟩, some ⟨.causal, "Ann".toList, ["m1", "m2"], 2/10⟩,
     some ⟨.preference, "Cat".toList, ["m3", "m3"], 2/10⟩, some ⟨.general, "apples".toList, ["m1", "m2", "m3"], 3/10⟩] := by
  decide +kernel

example : (∀ l : List Text, (id l).Perm l) ∧ (∀ b : Bank, (none : Option Bank) = some b → b.disposition ≠ none) ∧
    2 ≤ Named [ann, bob, cat] "Ann".toList ∧ Says lower0 ["dislikes".toList] [ann, bob, cat] "Ann".toList ∧
    cat.entities.count "Cat".toList = 2 ∧ "Cat".toList ∉ ann.entities ∧
    2 ≤ Uses lower0 space0 [ann, bob, cat] "apples".toList := by
  refine ⟨fun l => List.Perm.refl l, by simp, by decide +kernel, ?_, by decide +kernel, by decide +kernel, by decide +kernel⟩
  refine ⟨ann, by simp, by decide +kernel, "dislikes".toList, by simp, ?_⟩
  decide +kernel

/-- Two words that tie. -/
def tie1 : Mem := ⟨"t1", [], "green apples".toList⟩
example : Uses lower0 space0 [tie1, tie1, bob] "green".toList = 2 ∧ Uses lower0 space0 [tie1, tie1, bob] "apples".toList = 2 ∧
    detect lower0 space0 id id [tie1, tie1, bob] none ≠ detect lower0 space0 id List.reverse [tie1, tie1, bob] none := by
  decide +kernel

end Verif.Patterns
