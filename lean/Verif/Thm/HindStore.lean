import Verif.Model.HindStore
import Verif.Model.Hindsight
import Verif.Thm.Search
import Verif.Thm.FuncRouter

/-!
C224: recall by time. C225: recall by entity. C226: the list of observations.
-/
namespace Verif.Thm.HindStore

open Verif.HindStore Verif.Model.Store Verif.Model.Search Verif.Thm.Search Verif.Spec
open Verif.Thm.StoreProps (InColl)

variable {W HI VI : Type}

/-! ### Specification -/

/-- The row is a memory of the bank. -/
def OfBank (db : DB W) (bank : String) (r : Row W) : Prop :=
  InColl db r "memories" ∧ ∃ m, r.metadata = some m ∧ m.lookup "bank_id" = some bank

/-- The memory was made at a time that lies in the range, as far as what is stored tells. -/
def MadeIn (readInt : String → Int) (tr : TimeRange) (r : Row W) : Prop :=
  ∃ m t, r.metadata = some m ∧ m.lookup "created_at" = some t ∧
    (∀ a, tr.start = some a → a ≤ readInt t * 1000000000) ∧ (∀ z, tr.stop = some z → readInt t * 1000000000 ≤ z)

/-- Every memory has its time stored. -/
def Dated (r : Row W) : Prop := ∀ m, r.metadata = some m → (m.lookup "created_at").isSome = true

/-- The stored names of the entities contain the text. -/
def Mentions (ent : String) (r : Row W) : Prop :=
  ∃ m es, r.metadata = some m ∧ m.lookup "entities" = some es ∧ ent.toList <:+: es.toList

/-- How many results a search for `k` asks for. -/
def wanted (k : Int) : Nat := if k ≤ 0 then 10 else k.toNat

/-! ### Lemmas -/

theorem metaHas_iff (md : Option Meta) (k v : String) (hv : v ≠ "") :
    MetaHas md k v ↔ ∃ m, md = some m ∧ m.lookup k = some v := by
  unfold MetaHas
  constructor
  · rintro ⟨m, hm, h | h⟩
    · exact ⟨m, hm, h⟩
    · exact absurd h.1 hv
  · rintro ⟨m, hm, h⟩
    exact ⟨m, hm, Or.inl h⟩

theorem inScope_bank (db : DB W) (bank : String) (hb : bank ≠ "") (k : Int) (r : Row W) :
    InScope db (bankOpts bank k) r ↔ OfBank db bank r := by
  unfold InScope OfBank FilterOK
  simp only [bankOpts, List.mem_singleton, forall_eq]
  rw [if_neg (by decide), metaHas_iff _ _ _ hb]
  constructor
  · rintro ⟨h1, h2⟩; exact ⟨h1 (by decide), h2⟩
  · rintro ⟨h1, h2⟩; exact ⟨fun _ => h1, h2⟩

/-- The row is an observation of the bank. -/
def IsObs (db : DB W) (bank : String) (r : Row W) : Prop :=
  OfBank db bank r ∧ ∃ m, r.metadata = some m ∧ m.lookup "memory_type" = some "observation"

theorem inScope_obs (db : DB W) (bank : String) (hb : bank ≠ "") (r : Row W) :
    InScope db (obsOpts bank) r ↔ IsObs db bank r := by
  unfold InScope IsObs OfBank FilterOK
  simp only [obsOpts, List.mem_cons, List.not_mem_nil, or_false, forall_eq_or_imp, forall_eq]
  rw [if_neg (by decide), if_neg (by decide), metaHas_iff _ _ _ hb, metaHas_iff _ _ _ (by decide)]
  constructor
  · rintro ⟨h1, h2, h3⟩; exact ⟨⟨h1 (by decide), h2⟩, h3⟩
  · rintro ⟨⟨h1, h2⟩, h3⟩; exact ⟨fun _ => h1, h2, h3⟩

theorem isTopK_all {α : Type} {f : α → ℚ} {pool out : List α} {k : Nat} (h : IsTopK f pool k out) (hk : pool.length ≤ k) :
    out.Perm pool := by
  obtain ⟨rest, hp, _⟩ := h.best
  have h1 := h.size
  have h2 := hp.length_eq
  rw [List.length_append] at h2
  have : rest = [] := List.length_eq_zero_iff.1 (by omega)
  rw [this, List.append_nil] at hp
  exact hp

theorem not_in_topK {α : Type} {f : α → ℚ} {pool out : List α} {k : Nat} (h : IsTopK f pool k out) (x : α)
    (better : List α) (hn : better.Nodup) (hsub : ∀ y ∈ better, y ∈ pool) (hgt : ∀ y ∈ better, f x < f y)
    (hlen : k ≤ better.length) : x ∉ out := by
  intro hx
  obtain ⟨rest, hp, hr⟩ := h.best
  have hin : ∀ y ∈ better, y ∈ out := by
    intro y hy
    rcases List.mem_append.1 (hp.mem_iff.2 (hsub y hy)) with h1 | h1
    · exact h1
    · exact absurd (hr y h1 x hx) (not_le.2 (hgt y hy))
  have hxn : x ∉ better := fun hb => lt_irrefl _ (hgt x hb)
  have hnd : (x :: better).Nodup := List.nodup_cons.2 ⟨hxn, hn⟩
  have hs : (x :: better) ⊆ out := by
    intro y hy
    rcases List.mem_cons.1 hy with rfl | hy
    · exact hx
    · exact hin y hy
  have := (List.subperm_of_subset hnd hs).length_le
  have h2 := h.size
  simp only [List.length_cons] at this
  omega

open Classical in
/-- A linear search of a bank answers with the best of its memories. -/
theorem bank_topK (c : Cfg W) (hsort : SortsDesc c.sort) (s : St W HI VI) (wf : Verif.Thm.Store.WF s.db) (bank : String)
    (hb : bank ≠ "") (query : List W) (k : Int) (out : List (Hit W))
    (h : search c .linear s query (bankOpts bank k) = .ok out) :
    ∃ q, prepareQuery c s query = .ok q ∧
    IsTopK (fun x : Hit W => x.score)
      ((s.db.embeddings.filter (fun r => OfBank s.db bank r)).map (hitOf c s.db (bankOpts bank k) q)) (wanted k) out := by
  obtain ⟨q, hq, ht⟩ := C09_linear_topK c hsort s wf query _ out h
  refine ⟨q, hq, ?_⟩
  have e : (s.db.embeddings.filter (fun r => decide (InScope s.db (bankOpts bank k) r ∧
      (0 < (bankOpts bank k).threshold → (bankOpts bank k).threshold ≤ combine c (bankOpts bank k) q (scan s.db r))))) =
      s.db.embeddings.filter (fun r => decide (OfBank s.db bank r)) := by
    apply List.filter_congr
    intro r _
    rw [decide_eq_decide, inScope_bank s.db bank hb]
    constructor
    · exact fun h => h.1
    · exact fun h => ⟨h, fun h0 => absurd h0 (by simp [bankOpts])⟩
  rw [e] at ht
  exact ht

/-- Every search of a bank, on any path, shows memories of the bank. -/
theorem bank_mem (c : Cfg W) (hsort : SortsDesc c.sort) (via : Serve W) (s : St W HI VI) (wf : Verif.Thm.Store.WF s.db)
    (bank : String) (hb : bank ≠ "") (query : List W) (k : Int) (out : List (Hit W))
    (h : search c via s query (bankOpts bank k) = .ok out) (x : Hit W) (hx : x ∈ out) :
    ∃ r ∈ s.db.embeddings, shows x r ∧ OfBank s.db bank r := by
  obtain ⟨q, _, rfl⟩ := prepared h
  obtain ⟨r, hr, rfl, h1, h2, _⟩ := serve_mem c hsort via s wf q _ x hx
  refine ⟨r, hr, ⟨rfl, rfl, rfl, rfl, rfl⟩, h1 (by simp [bankOpts]), ?_⟩
  have := h2 ("bank_id", bank) (by simp [bankOpts]) (by simp)
  exact (metaHas_iff _ _ _ hb).1 this

theorem inRange_iff (readInt : String → Int) (now : Int) (tr : TimeRange) (r : Row W) (hm : ∃ m, r.metadata = some m)
    (hd : Dated r) : inRange readInt now tr r.metadata = true ↔ MadeIn readInt tr r := by
  obtain ⟨m, hm⟩ := hm
  obtain ⟨t, ht⟩ := Option.isSome_iff_exists.1 (hd m hm)
  have hc : createdAt readInt now r.metadata = readInt t * 1000000000 := by
    simp [createdAt, hm, ht]
  have hmade : MadeIn readInt tr r ↔ (∀ a, tr.start = some a → a ≤ readInt t * 1000000000) ∧
      (∀ z, tr.stop = some z → readInt t * 1000000000 ≤ z) := by
    constructor
    · rintro ⟨m', t', h1, h2, h3⟩
      rw [hm] at h1; injection h1 with h1; subst h1
      rw [ht] at h2; injection h2 with h2; subst h2
      exact h3
    · intro h
      exact ⟨m, t, hm, ht, h⟩
  rw [hmade]
  unfold inRange
  simp only [hc]
  rcases tr with ⟨a, z⟩
  cases a <;> cases z <;> simp [and_comm]

/-! ### C224 -/

/-- **C224.** Recalling by time, with or without an index, shows only memories of the bank whose stored time lies in the
range. -/
theorem C224_sound (c : Cfg W) (hsort : SortsDesc c.sort) (via : Serve W) (s : St W HI VI) (wf : Verif.Thm.Store.WF s.db)
    (readInt : String → Int) (now : Int) (bank : String) (hb : bank ≠ "") (query : Option (List W)) (k : Int) (tr : TimeRange)
    (hd : ∀ r ∈ s.db.embeddings, OfBank s.db bank r → Dated r) (x : Hit W)
    (hx : x ∈ temporal c via s readInt now bank query k tr) :
    ∃ r ∈ s.db.embeddings, shows x r ∧ OfBank s.db bank r ∧ MadeIn readInt tr r := by
  cases query with
  | none => simp [temporal] at hx
  | some q =>
    simp only [temporal] at hx
    split at hx
    · simp at hx
    · rename_i hs hok
      rw [List.mem_filter] at hx
      obtain ⟨r, hr, hsh, hbk⟩ := bank_mem c hsort via s wf bank hb q _ hs hok x hx.1
      refine ⟨r, hr, hsh, hbk, ?_⟩
      have hmd : x.metadata = r.metadata := hsh.2.2.2.2
      rw [hmd] at hx
      obtain ⟨m, hm, _⟩ := hbk.2
      exact (inRange_iff readInt now tr r ⟨m, hm⟩ (hd r hr hbk)).1 hx.2

open Classical in
/-- **C224, part.** Without an index, when the bank has no more memories than five times the number asked for, recalling by
time shows exactly the memories of the bank whose stored time lies in the range. Missing: larger banks and indexes
(`C224_crowded_violated`), times between two seconds (`C224_seconds_violated`), requests without a vector
(`C224_no_vector_violated`). -/
theorem C224_complete_partial (c : Cfg W) (hsort : SortsDesc c.sort) (s : St W HI VI) (wf : Verif.Thm.Store.WF s.db)
    (readInt : String → Int) (now : Int) (bank : String) (hb : bank ≠ "") (query q : List W)
    (hq : prepareQuery c s query = .ok q) (k : Int) (hk : 0 < k) (tr : TimeRange)
    (hd : ∀ r ∈ s.db.embeddings, OfBank s.db bank r → Dated r)
    (hsmall : (s.db.embeddings.filter (fun r => OfBank s.db bank r)).length ≤ 5 * k.toNat) :
    ((temporal c .linear s readInt now bank (some query) k tr).map (fun x => x.id)).Perm
      ((s.db.embeddings.filter (fun r => OfBank s.db bank r ∧ MadeIn readInt tr r)).map (fun r => r.id)) := by
  have hok : ∃ out, search c .linear s query (bankOpts bank (k * 5)) = .ok out := by
    unfold search; rw [hq]; exact ⟨_, rfl⟩
  obtain ⟨out, hok⟩ := hok
  obtain ⟨q', _, ht⟩ := bank_topK c hsort s wf bank hb query (k * 5) out hok
  have hperm := isTopK_all ht (by
    rw [List.length_map]
    unfold wanted
    rw [if_neg (by omega)]
    omega)
  simp only [temporal, hok]
  have h1 := (hperm.filter (fun h => inRange readInt now tr h.metadata)).map (fun x : Hit W => x.id)
  refine h1.trans ?_
  rw [List.filter_map, List.map_map, List.filter_filter]
  apply List.Perm.of_eq
  have e1 : ((fun x : Hit W => x.id) ∘ hitOf c s.db (bankOpts bank (k * 5)) q') = (fun r : Row W => r.id) := rfl
  rw [e1]
  congr 1
  apply List.filter_congr
  intro r hr
  rw [Bool.eq_iff_iff, Bool.and_eq_true, decide_eq_true_iff, decide_eq_true_iff]
  have e2 : ((fun h : Hit W => inRange readInt now tr h.metadata) ∘ hitOf c s.db (bankOpts bank (k * 5)) q') r =
      inRange readInt now tr r.metadata := rfl
  rw [e2]
  constructor
  · rintro ⟨h1, h2⟩
    obtain ⟨m, hm, _⟩ := h2.2
    exact ⟨h2, (inRange_iff readInt now tr r ⟨m, hm⟩ (hd r hr h2)).1 h1⟩
  · rintro ⟨h2, h1⟩
    obtain ⟨m, hm, _⟩ := h2.2
    exact ⟨(inRange_iff readInt now tr r ⟨m, hm⟩ (hd r hr h2)).2 h1, h2⟩

/-- A memory of a bank is not among the `k` best when `k` others are more similar. -/
theorem crowded (c : Cfg W) (hsort : SortsDesc c.sort) (s : St W HI VI) (wf : Verif.Thm.Store.WF s.db)
    (bank : String) (hb : bank ≠ "") (query q : List W) (hq : prepareQuery c s query = .ok q) (k : Int) (r : Row W)
    (hr : r ∈ s.db.embeddings) (better : List (Row W)) (hn : better.Nodup)
    (hsub : ∀ r' ∈ better, r' ∈ s.db.embeddings ∧ OfBank s.db bank r' ∧
      combine c (bankOpts bank k) q (scan s.db r) < combine c (bankOpts bank k) q (scan s.db r'))
    (hlen : wanted k ≤ better.length) (out : List (Hit W)) (hok : search c .linear s query (bankOpts bank k) = .ok out) :
    ∀ x ∈ out, x.id ≠ r.id := by
  classical
  obtain ⟨q', hq', ht⟩ := bank_topK c hsort s wf bank hb query k out hok
  rw [hq] at hq'; injection hq' with hq'; subst hq'
  intro x hx hid
  obtain ⟨rest, hp, _⟩ := ht.best
  have hpool := hp.mem_iff.1 (List.mem_append_left rest hx)
  obtain ⟨r1, hr1, rfl⟩ := List.mem_map.1 hpool
  have hr1 := (List.mem_filter.1 hr1).1
  have : r1 = r := Verif.Thm.Store.nodup_inj (fun r : Row W => r.id) wf.embIds hr1 hr hid
  subst this
  refine not_in_topK ht _ (better.map (hitOf c s.db (bankOpts bank k) q)) ?_ ?_ ?_ ?_ hx
  · refine List.Nodup.map_on ?_ hn
    intro a ha b hb' hab
    exact Verif.Thm.Store.nodup_inj (fun r : Row W => r.id) wf.embIds (hsub a ha).1 (hsub b hb').1
      (congrArg (fun h : Hit W => h.id) hab)
  · intro y hy
    obtain ⟨r2, hr2, rfl⟩ := List.mem_map.1 hy
    exact List.mem_map.2 ⟨r2, List.mem_filter.2 ⟨(hsub r2 hr2).1, decide_eq_true (hsub r2 hr2).2.1⟩, rfl⟩
  · intro y hy
    obtain ⟨r2, hr2, rfl⟩ := List.mem_map.1 hy
    exact (hsub r2 hr2).2.2
  · rw [List.length_map]; exact hlen

/-- **C224, violated.** For every store without an index: a memory of the time asked for is not recalled when five times the
number asked for of the bank's other memories, of whatever time, are more similar. -/
theorem C224_crowded_violated (c : Cfg W) (hsort : SortsDesc c.sort) (s : St W HI VI) (wf : Verif.Thm.Store.WF s.db)
    (readInt : String → Int) (now : Int) (bank : String) (hb : bank ≠ "") (query q : List W)
    (hq : prepareQuery c s query = .ok q) (k : Int) (hk : 0 < k) (tr : TimeRange) (r : Row W) (hr : r ∈ s.db.embeddings)
    (better : List (Row W)) (hn : better.Nodup)
    (hsub : ∀ r' ∈ better, r' ∈ s.db.embeddings ∧ OfBank s.db bank r' ∧
      combine c (bankOpts bank (k * 5)) q (scan s.db r) < combine c (bankOpts bank (k * 5)) q (scan s.db r'))
    (hlen : 5 * k.toNat ≤ better.length) :
    r.id ∉ (temporal c .linear s readInt now bank (some query) k tr).map (fun x => x.id) := by
  obtain ⟨out, hok⟩ : ∃ out, search c .linear s query (bankOpts bank (k * 5)) = .ok out := by
    unfold search; rw [hq]; exact ⟨_, rfl⟩
  intro hmem
  simp only [temporal, hok] at hmem
  obtain ⟨x, hx, hid⟩ := List.mem_map.1 hmem
  refine crowded c hsort s wf bank hb query q hq (k * 5) r hr better hn hsub ?_ out hok x (List.mem_filter.1 hx).1 hid
  unfold wanted
  rw [if_neg (by omega)]
  omega

/-- **C224, violated.** For every store and index: a memory made within the range, but in the second in which the range begins
and after that second has begun (`nanos` of it, the range starting later than the second), is not recalled: only whole seconds
are stored. -/
theorem C224_seconds_violated (c : Cfg W) (hsort : SortsDesc c.sort) (via : Serve W) (s : St W HI VI)
    (wf : Verif.Thm.Store.WF s.db) (readInt : String → Int) (now : Int) (bank : String) (hb : bank ≠ "")
    (query : Option (List W)) (k : Int) (tr : TimeRange) (r : Row W) (hr : r ∈ s.db.embeddings) (m : Meta) (t : String)
    (hm : r.metadata = some m) (ht : m.lookup "created_at" = some t) (nanos a : Int) (ha : tr.start = some a)
    (hlate : readInt t * 1000000000 < a) (_hin : a ≤ readInt t * 1000000000 + nanos) :
    r.id ∉ (temporal c via s readInt now bank query k tr).map (fun x => x.id) := by
  intro hmem
  obtain ⟨x, hx, hid⟩ := List.mem_map.1 hmem
  cases query with
  | none => simp [temporal] at hx
  | some q =>
    simp only [temporal] at hx
    split at hx
    · simp at hx
    · rename_i hs hok
      rw [List.mem_filter] at hx
      obtain ⟨r1, hr1, hsh, _⟩ := bank_mem c hsort via s wf bank hb q _ hs hok x hx.1
      have : r1 = r := Verif.Thm.Store.nodup_inj (fun r : Row W => r.id) wf.embIds hr1 hr (hsh.1.symm.trans hid)
      subst this
      have h2 := hx.2
      rw [hsh.2.2.2.2] at h2
      have hd : Dated r1 → False := by
        intro hd
        obtain ⟨m', t', h1, h3, h4, _⟩ := (inRange_iff readInt now tr r1 ⟨m, hm⟩ hd).1 h2
        rw [hm] at h1; injection h1 with h1; subst h1
        rw [ht] at h3; injection h3 with h3; subst h3
        have := h4 a ha
        omega
      apply hd
      intro m' h1
      rw [hm] at h1; injection h1 with h1; subst h1
      rw [ht]; rfl

/-- **C224, violated.** Without a query vector recalling by time finds nothing at all. -/
theorem C224_no_vector_violated (c : Cfg W) (via : Serve W) (s : St W HI VI) (readInt : String → Int) (now : Int)
    (bank : String) (k : Int) (tr : TimeRange) : temporal c via s readInt now bank none k tr = [] := rfl

/-! ### C225 -/

theorem mentions_iff (ent : String) (r : Row W) : mentions ent r.metadata = true ↔ Mentions ent r := by
  unfold mentions Mentions
  cases hm : r.metadata with
  | none => simp
  | some m =>
    cases hl : m.lookup "entities" with
    | none => simp [hl]
    | some es => simp [hl, Verif.FuncRouter.contains_iff]

theorem entityRound_ids (ent : String) (hs : List (Hit W)) : ∀ acc id,
    id ∈ (entityRound ent acc hs).map (fun x => x.id) ↔
      id ∈ acc.map (fun x => x.id) ∨ ∃ h ∈ hs, h.id = id ∧ mentions ent h.metadata = true := by
  induction hs with
  | nil => intro acc id; simp [entityRound]
  | cons h hs ih =>
    intro acc id
    unfold entityRound
    by_cases h1 : (acc.any (fun x => decide (x.id = h.id))) = true
    · rw [if_pos h1, ih]
      constructor
      · rintro (h2 | ⟨y, hy, hyi⟩)
        · exact Or.inl h2
        · exact Or.inr ⟨y, List.mem_cons_of_mem _ hy, hyi⟩
      · rintro (h2 | ⟨y, hy, hyi⟩)
        · exact Or.inl h2
        · rcases List.mem_cons.1 hy with rfl | hy
          · obtain ⟨x, hx, hxe⟩ := List.any_eq_true.1 h1
            exact Or.inl (List.mem_map.2 ⟨x, hx, (of_decide_eq_true hxe).trans hyi.1⟩)
          · exact Or.inr ⟨y, hy, hyi⟩
    · rw [if_neg h1]
      by_cases h2 : mentions ent h.metadata = true
      · rw [if_pos h2, ih]
        simp only [List.map_append, List.map_cons, List.map_nil, List.mem_append, List.mem_cons, List.not_mem_nil, or_false]
        constructor
        · rintro ((h3 | h3) | ⟨y, hy, hyi⟩)
          · exact Or.inl h3
          · exact Or.inr ⟨h, Or.inl rfl, h3.symm, h2⟩
          · exact Or.inr ⟨y, Or.inr hy, hyi⟩
        · rintro (h3 | ⟨y, rfl | hy, hyi⟩)
          · exact Or.inl (Or.inl h3)
          · exact Or.inl (Or.inr hyi.1.symm)
          · exact Or.inr ⟨y, hy, hyi⟩
      · rw [if_neg h2, ih]
        constructor
        · rintro (h3 | ⟨y, hy, hyi⟩)
          · exact Or.inl h3
          · exact Or.inr ⟨y, List.mem_cons_of_mem _ hy, hyi⟩
        · rintro (h3 | ⟨y, hy, hyi⟩)
          · exact Or.inl h3
          · rcases List.mem_cons.1 hy with rfl | hy
            · exact absurd hyi.2 h2
            · exact Or.inr ⟨y, hy, hyi⟩

theorem entityRound_mem (ent : String) (hs : List (Hit W)) : ∀ acc, ∀ x ∈ entityRound ent acc hs,
    x ∈ acc ∨ (x ∈ hs ∧ mentions ent x.metadata = true) := by
  induction hs with
  | nil => intro acc x hx; exact Or.inl hx
  | cons h hs ih =>
    intro acc x hx
    unfold entityRound at hx
    split at hx
    · rcases ih acc x hx with h1 | h1
      · exact Or.inl h1
      · exact Or.inr ⟨List.mem_cons_of_mem _ h1.1, h1.2⟩
    · split at hx
      · rename_i h2
        rcases ih _ x hx with h1 | h1
        · rcases List.mem_append.1 h1 with h1 | h1
          · exact Or.inl h1
          · rw [List.mem_singleton] at h1
            subst h1
            exact Or.inr ⟨List.mem_cons_self, h2⟩
        · exact Or.inr ⟨List.mem_cons_of_mem _ h1.1, h1.2⟩
      · rcases ih acc x hx with h1 | h1
        · exact Or.inl h1
        · exact Or.inr ⟨List.mem_cons_of_mem _ h1.1, h1.2⟩

theorem entityRound_nodup (ent : String) (hs : List (Hit W)) : ∀ acc, (acc.map (fun x => x.id)).Nodup →
    ((entityRound ent acc hs).map (fun x => x.id)).Nodup := by
  induction hs with
  | nil => intro acc h; exact h
  | cons h hs ih =>
    intro acc hn
    unfold entityRound
    split
    · exact ih acc hn
    · rename_i h1
      split
      · apply ih
        rw [List.map_append, List.nodup_append]
        refine ⟨hn, by simp, ?_⟩
        intro a ha b hb hab
        simp only [List.map_cons, List.map_nil, List.mem_singleton] at hb
        obtain ⟨x, hx, rfl⟩ := List.mem_map.1 ha
        exact h1 (List.any_eq_true.2 ⟨x, hx, decide_eq_true (hab.trans hb)⟩)
      · exact ih acc hn

/-- What the loop over the entities makes of the answer of the search. -/
theorem entities_eq (c : Cfg W) (via : Serve W) (s : St W HI VI) (bank : String) (q : List W) (k : Int) (hs : List (Hit W))
    (hok : search c via s q (bankOpts bank k) = .ok hs) (es : List String) : ∀ acc,
    entities c via s bank (some q) k es acc = es.foldl (fun acc e => entityRound e acc hs) acc := by
  induction es with
  | nil => intro acc; rfl
  | cons e es ih =>
    intro acc
    simp only [entities, hok, List.foldl_cons]
    exact ih _

theorem fold_ids (hs : List (Hit W)) (es : List String) : ∀ acc id,
    id ∈ (es.foldl (fun acc e => entityRound e acc hs) acc).map (fun x => x.id) ↔
      id ∈ acc.map (fun x => x.id) ∨ ∃ e ∈ es, ∃ h ∈ hs, h.id = id ∧ mentions e h.metadata = true := by
  induction es with
  | nil => intro acc id; simp
  | cons e es ih =>
    intro acc id
    rw [List.foldl_cons, ih, entityRound_ids]
    simp only [List.mem_cons, exists_eq_or_imp, or_assoc]

theorem fold_mem (hs : List (Hit W)) (es : List String) : ∀ acc, ∀ x ∈ es.foldl (fun acc e => entityRound e acc hs) acc,
    x ∈ acc ∨ (x ∈ hs ∧ ∃ e ∈ es, mentions e x.metadata = true) := by
  induction es with
  | nil => intro acc x hx; exact Or.inl hx
  | cons e es ih =>
    intro acc x hx
    rw [List.foldl_cons] at hx
    rcases ih _ x hx with h1 | ⟨h1, e', he, hm⟩
    · rcases entityRound_mem e hs acc x h1 with h2 | h2
      · exact Or.inl h2
      · exact Or.inr ⟨h2.1, e, List.mem_cons_self, h2.2⟩
    · exact Or.inr ⟨h1, e', List.mem_cons_of_mem _ he, hm⟩

theorem fold_nodup (hs : List (Hit W)) (es : List String) : ∀ acc, (acc.map (fun x => x.id)).Nodup →
    ((es.foldl (fun acc e => entityRound e acc hs) acc).map (fun x => x.id)).Nodup := by
  induction es with
  | nil => intro acc h; exact h
  | cons e es ih => intro acc h; rw [List.foldl_cons]; exact ih _ (entityRound_nodup e hs acc h)

theorem entities_none (c : Cfg W) (via : Serve W) (s : St W HI VI) (bank : String) (k : Int) (es : List String) :
    ∀ acc, entities c via s bank none k es acc = acc := by
  induction es with
  | nil => intro acc; rfl
  | cons e es ih => intro acc; simp only [entities]; exact ih acc

theorem entities_err (c : Cfg W) (via : Serve W) (s : St W HI VI) (bank : String) (q : List W) (k : Int) (er : Err)
    (herr : search c via s q (bankOpts bank k) = .error er) (es : List String) :
    ∀ acc, entities c via s bank (some q) k es acc = acc := by
  induction es with
  | nil => intro acc; rfl
  | cons e es ih => intro acc; simp only [entities, herr]; exact ih acc

/-- **C225.** Recalling by entities, with or without an index, shows each memory once, and only memories of the bank whose
stored names contain one of the texts asked for. -/
theorem C225_sound (c : Cfg W) (hsort : SortsDesc c.sort) (via : Serve W) (s : St W HI VI) (wf : Verif.Thm.Store.WF s.db)
    (bank : String) (hb : bank ≠ "") (query : Option (List W)) (k : Int) (es : List String) :
    ((entities c via s bank query k es []).map (fun x => x.id)).Nodup ∧
    ∀ x ∈ entities c via s bank query k es [],
      ∃ r ∈ s.db.embeddings, shows x r ∧ OfBank s.db bank r ∧ ∃ e ∈ es, Mentions e r := by
  cases query with
  | none => rw [entities_none]; simp
  | some q =>
    cases hok : search c via s q (bankOpts bank k) with
    | error er => rw [entities_err _ _ _ _ _ _ _ hok]; simp
    | ok hs =>
      rw [entities_eq _ _ _ _ _ _ _ hok]
      refine ⟨fold_nodup hs es [] (by simp), ?_⟩
      intro x hx
      rcases fold_mem hs es [] x hx with h1 | ⟨h1, e, he, hm⟩
      · simp at h1
      · obtain ⟨r, hr, hsh, hbk⟩ := bank_mem c hsort via s wf bank hb q _ hs hok x h1
        rw [hsh.2.2.2.2] at hm
        exact ⟨r, hr, hsh, hbk, e, he, (mentions_iff e r).1 hm⟩

open Classical in
/-- **C225, part.** Without an index, when the bank has no more memories than asked for, recalling by entities finds exactly
the memories of the bank whose stored names contain one of the texts. Missing: larger banks (`C225_crowded_violated`), names
that only contain the text (`C225_inside_violated`), requests without a vector (`C225_no_vector_violated`). -/
theorem C225_complete_partial (c : Cfg W) (hsort : SortsDesc c.sort) (s : St W HI VI) (wf : Verif.Thm.Store.WF s.db)
    (bank : String) (hb : bank ≠ "") (query q : List W) (hq : prepareQuery c s query = .ok q) (k : Int) (es : List String)
    (hsmall : (s.db.embeddings.filter (fun r => OfBank s.db bank r)).length ≤ wanted k) (id : String) :
    id ∈ (entities c .linear s bank (some query) k es []).map (fun x => x.id) ↔
      ∃ r ∈ s.db.embeddings, r.id = id ∧ OfBank s.db bank r ∧ ∃ e ∈ es, Mentions e r := by
  obtain ⟨out, hok⟩ : ∃ out, search c .linear s query (bankOpts bank k) = .ok out := by
    unfold search; rw [hq]; exact ⟨_, rfl⟩
  obtain ⟨q', _, ht⟩ := bank_topK c hsort s wf bank hb query k out hok
  have hperm := isTopK_all ht (by rw [List.length_map]; exact hsmall)
  rw [entities_eq _ _ _ _ _ _ _ hok, fold_ids]
  constructor
  · rintro (h1 | ⟨e, he, h, hh, hid, hm⟩)
    · simp at h1
    · obtain ⟨r, hr, rfl⟩ := List.mem_map.1 (hperm.mem_iff.1 hh)
      rw [List.mem_filter, decide_eq_true_iff] at hr
      exact ⟨r, hr.1, hid, hr.2, e, he, (mentions_iff e r).1 hm⟩
  · rintro ⟨r, hr, hid, hbk, e, he, hm⟩
    exact Or.inr ⟨e, he, _, hperm.mem_iff.2 (List.mem_map.2 ⟨r, List.mem_filter.2 ⟨hr, decide_eq_true hbk⟩, rfl⟩), hid,
      (mentions_iff e r).2 hm⟩

/-- **C225, violated.** For every store without an index: a memory about the entity is not recalled when as many of the bank's
memories as are asked for, about whatever, are more similar. -/
theorem C225_crowded_violated (c : Cfg W) (hsort : SortsDesc c.sort) (s : St W HI VI) (wf : Verif.Thm.Store.WF s.db)
    (bank : String) (hb : bank ≠ "") (query q : List W) (hq : prepareQuery c s query = .ok q) (k : Int) (es : List String)
    (r : Row W) (hr : r ∈ s.db.embeddings) (better : List (Row W)) (hn : better.Nodup)
    (hsub : ∀ r' ∈ better, r' ∈ s.db.embeddings ∧ OfBank s.db bank r' ∧
      combine c (bankOpts bank k) q (scan s.db r) < combine c (bankOpts bank k) q (scan s.db r'))
    (hlen : wanted k ≤ better.length) :
    r.id ∉ (entities c .linear s bank (some query) k es []).map (fun x => x.id) := by
  obtain ⟨out, hok⟩ : ∃ out, search c .linear s query (bankOpts bank k) = .ok out := by
    unfold search; rw [hq]; exact ⟨_, rfl⟩
  rw [entities_eq _ _ _ _ _ _ _ hok, fold_ids]
  rintro (h1 | ⟨e, he, h, hh, hid, hm⟩)
  · simp at h1
  · exact crowded c hsort s wf bank hb query q hq k r hr better hn hsub hlen out hok h hh hid

/-- **C225.** A memory stored with the names of its entities, its user's metadata having no key "entities", mentions each of
them. -/
theorem C225_named (m : Verif.Hindsight.Memory) (r : Row W) (hmd : r.metadata = some (Verif.Hindsight.buildMetadata m))
    (hkey : ∀ kv ∈ m.extra, kv.1 ≠ "entities") (e : String) (he : e ∈ m.entities) : Mentions e r := by
  have hlk : (Verif.Hindsight.buildMetadata m).lookup "entities" = some (",".intercalate m.entities) := by
    have h0 : m.extra.lookup "entities" = none := by
      rw [List.lookup_eq_none_iff]
      intro p hp
      simpa using fun h => hkey p hp h.symm
    have hne : m.entities ≠ [] := List.ne_nil_of_mem he
    unfold Verif.Hindsight.buildMetadata
    rw [List.append_assoc, List.append_assoc, List.lookup_append, h0, if_neg hne]
    simp
  refine ⟨_, _, hmd, hlk, ?_⟩
  generalize m.entities = l at he
  clear hlk hkey hmd
  induction l with
  | nil => simp at he
  | cons w ws ih =>
    cases ws with
    | nil =>
      rw [List.mem_singleton] at he
      subst he
      rw [String.intercalate_singleton]
    | cons w' ws =>
      rw [String.intercalate_cons_cons, String.toList_append, String.toList_append]
      rcases List.mem_cons.1 he with rfl | he
      · rw [List.append_assoc]
        exact (List.prefix_append _ _).isInfix
      · exact (ih he).trans (List.suffix_append _ _).isInfix

open Classical in
/-- **C225, violated.** For every store without an index and every bank that is not too large: a memory is recalled for an
entity it is not about, when the text of its names contains that entity, inside a longer name. -/
theorem C225_inside_violated (c : Cfg W) (hsort : SortsDesc c.sort) (s : St W HI VI) (wf : Verif.Thm.Store.WF s.db)
    (bank : String) (hb : bank ≠ "") (query q : List W) (hq : prepareQuery c s query = .ok q) (k : Int)
    (hsmall : (s.db.embeddings.filter (fun r => OfBank s.db bank r)).length ≤ wanted k) (r : Row W)
    (hr : r ∈ s.db.embeddings) (hbk : OfBank s.db bank r) (m : Meta) (hm : r.metadata = some m) (names : List (List Char))
    (t : String) (hl : m.lookup "entities" = some t) (ht : t.toList = Verif.Reflect.joinComma names) (name : List Char)
    (hname : name ∈ names) (e : String) (_hnot : e.toList ∉ names) (hin : e.toList <:+: name) :
    r.id ∈ (entities c .linear s bank (some query) k [e] []).map (fun x => x.id) := by
  rw [C225_complete_partial c hsort s wf bank hb query q hq k [e] hsmall]
  refine ⟨r, hr, rfl, hbk, e, by simp, m, t, hm, hl, ?_⟩
  rw [ht]
  refine hin.trans ?_
  clear ht hin _hnot
  induction names with
  | nil => simp at hname
  | cons w ws ih =>
    cases ws with
    | nil =>
      rw [List.mem_singleton] at hname
      subst hname
      exact List.infix_rfl
    | cons w' ws =>
      rw [Verif.Reflect.joinComma.eq_3 _ _ (by simp)]
      rcases List.mem_cons.1 hname with rfl | hname
      · exact (List.prefix_append _ _).isInfix
      · exact (ih hname).trans ((List.suffix_cons _ _).isInfix.trans (List.suffix_append _ _).isInfix)

/-- **C225, violated.** Without a query vector recalling by entities finds nothing at all. -/
theorem C225_no_vector_violated (c : Cfg W) (via : Serve W) (s : St W HI VI) (bank : String) (k : Int) (es : List String) :
    entities c via s bank none k es [] = [] := entities_none c via s bank k es []

/-! ### C226 -/

theorem obs_mem (c : Cfg W) (hsort : SortsDesc c.sort) (via : Serve W) (s : St W HI VI) (wf : Verif.Thm.Store.WF s.db)
    (bank : String) (hb : bank ≠ "") (query : List W) (out : List (Hit W))
    (h : search c via s query (obsOpts bank) = .ok out) (x : Hit W) (hx : x ∈ out) :
    ∃ r ∈ s.db.embeddings, shows x r ∧ IsObs s.db bank r := by
  obtain ⟨q, _, rfl⟩ := prepared h
  obtain ⟨r, hr, rfl, h1, h2, _⟩ := serve_mem c hsort via s wf q _ x hx
  refine ⟨r, hr, ⟨rfl, rfl, rfl, rfl, rfl⟩, ⟨h1 (by simp [obsOpts]), ?_⟩, ?_⟩
  · exact (metaHas_iff _ _ _ hb).1 (h2 ("bank_id", bank) (by simp [obsOpts]) (by simp))
  · exact (metaHas_iff _ _ _ (by decide)).1 (h2 ("memory_type", "observation") (by simp [obsOpts]) (by simp))

/-- The last test of `GetObservations` never fails. -/
theorem observations_eq (c : Cfg W) (hsort : SortsDesc c.sort) (via : Serve W) (s : St W HI VI) (wf : Verif.Thm.Store.WF s.db)
    (zero : W) (bank : String) (hb : bank ≠ "") : observations c via s zero bank = search c via s [zero] (obsOpts bank) := by
  unfold observations
  cases hok : search c via s [zero] (obsOpts bank) with
  | error e => rfl
  | ok hs =>
    show Except.ok _ = _
    rw [List.filter_eq_self.2]
    intro x hx
    obtain ⟨r, _, hsh, _, m, hm, hl⟩ := obs_mem c hsort via s wf bank hb _ hs hok x hx
    rw [hsh.2.2.2.2, hm]
    simp [hl]

open Classical in
theorem obs_topK (c : Cfg W) (hsort : SortsDesc c.sort) (s : St W HI VI) (wf : Verif.Thm.Store.WF s.db) (bank : String)
    (hb : bank ≠ "") (query : List W) (out : List (Hit W)) (h : search c .linear s query (obsOpts bank) = .ok out) :
    ∃ q, prepareQuery c s query = .ok q ∧
    IsTopK (fun x : Hit W => x.score)
      ((s.db.embeddings.filter (fun r => IsObs s.db bank r)).map (hitOf c s.db (obsOpts bank) q)) 100 out := by
  obtain ⟨q, hq, ht⟩ := C09_linear_topK c hsort s wf query _ out h
  refine ⟨q, hq, ?_⟩
  have e : (s.db.embeddings.filter (fun r => decide (InScope s.db (obsOpts bank) r ∧
      (0 < (obsOpts bank).threshold → (obsOpts bank).threshold ≤ combine c (obsOpts bank) q (scan s.db r))))) =
      s.db.embeddings.filter (fun r => decide (IsObs s.db bank r)) := by
    apply List.filter_congr
    intro r _
    rw [decide_eq_decide, inScope_obs s.db bank hb]
    constructor
    · exact fun h => h.1
    · exact fun h => ⟨h, fun h0 => absurd h0 (by simp [obsOpts])⟩
  rw [e] at ht
  exact ht

/-- **C226.** The list of observations, with or without an index, shows only observations of the bank. -/
theorem C226_sound (c : Cfg W) (hsort : SortsDesc c.sort) (via : Serve W) (s : St W HI VI) (wf : Verif.Thm.Store.WF s.db)
    (zero : W) (bank : String) (hb : bank ≠ "") (out : List (Hit W)) (h : observations c via s zero bank = .ok out) (x : Hit W)
    (hx : x ∈ out) : ∃ r ∈ s.db.embeddings, shows x r ∧ IsObs s.db bank r := by
  rw [observations_eq c hsort via s wf zero bank hb] at h
  exact obs_mem c hsort via s wf bank hb _ out h x hx

open Classical in
/-- **C226, part.** Without an index, a store whose dimension the one-component query can be adapted to lists the observations
of a bank with at most a hundred of them exactly, each once. Missing: more than a hundred (`C226_hundred_violated`), an index
(`C226_index_violated`), a store that does not adapt vectors (`C226_refused_violated`). -/
theorem C226_complete_partial (c : Cfg W) (hsort : SortsDesc c.sort) (s : St W HI VI) (wf : Verif.Thm.Store.WF s.db)
    (zero : W) (bank : String) (hb : bank ≠ "") (q : List W) (hq : prepareQuery c s [zero] = .ok q)
    (hsmall : (s.db.embeddings.filter (fun r => IsObs s.db bank r)).length ≤ 100) :
    ∃ out, observations c .linear s zero bank = .ok out ∧
      (out.map (fun x => x.id)).Perm ((s.db.embeddings.filter (fun r => IsObs s.db bank r)).map (fun r => r.id)) := by
  rw [observations_eq c hsort .linear s wf zero bank hb]
  obtain ⟨out, hok⟩ : ∃ out, search c .linear s [zero] (obsOpts bank) = .ok out := by
    unfold search; rw [hq]; exact ⟨_, rfl⟩
  obtain ⟨q', _, ht⟩ := obs_topK c hsort s wf bank hb _ out hok
  have hperm := isTopK_all ht (by rw [List.length_map]; exact hsmall)
  refine ⟨out, hok, ?_⟩
  have := hperm.map (fun x : Hit W => x.id)
  rw [List.map_map] at this
  exact this

open Classical in
/-- **C226, violated.** Of every bank with more than a hundred observations, some are not listed. -/
theorem C226_hundred_violated (c : Cfg W) (hsort : SortsDesc c.sort) (s : St W HI VI) (wf : Verif.Thm.Store.WF s.db)
    (zero : W) (bank : String) (hb : bank ≠ "") (hmany : 100 < (s.db.embeddings.filter (fun r => IsObs s.db bank r)).length)
    (out : List (Hit W)) (h : observations c .linear s zero bank = .ok out) :
    ∃ r ∈ s.db.embeddings, IsObs s.db bank r ∧ r.id ∉ out.map (fun x => x.id) := by
  rw [observations_eq c hsort .linear s wf zero bank hb] at h
  obtain ⟨q', _, ht⟩ := obs_topK c hsort s wf bank hb _ out h
  have hlen : out.length ≤ 100 := by rw [ht.size]; exact Nat.min_le_left _ _
  by_contra hno
  push Not at hno
  have hsub : (s.db.embeddings.filter (fun r => decide (IsObs s.db bank r))).map (fun r => r.id) ⊆ out.map (fun x => x.id) := by
    intro i hi
    obtain ⟨r, hr, rfl⟩ := List.mem_map.1 hi
    rw [List.mem_filter, decide_eq_true_iff] at hr
    exact hno r hr.1 hr.2
  have hnd : ((s.db.embeddings.filter (fun r => decide (IsObs s.db bank r))).map (fun r => r.id)).Nodup :=
    (List.filter_sublist.map _).nodup wf.embIds
  have := (List.subperm_of_subset hnd hsub).length_le
  rw [List.length_map, List.length_map] at this
  omega

/-- **C226, violated.** With an index that proposes something for the zero vector, an observation it does not propose is not
listed; for every store and bank. -/
theorem C226_index_violated (c : Cfg W) (hsort : SortsDesc c.sort) (propose : List W → Int → List String) (s : St W HI VI)
    (wf : Verif.Thm.Store.WF s.db) (zero : W) (bank : String) (hb : bank ≠ "") (q : List W)
    (hq : prepareQuery c s [zero] = .ok q) (hsome : propose q 200 ≠ []) (r : Row W) (hmiss : r.id ∉ propose q 200) :
    ∃ out, observations c (.hnsw propose) s zero bank = .ok out ∧ r.id ∉ out.map (fun x => x.id) := by
  rw [observations_eq c hsort _ s wf zero bank hb]
  refine ⟨searchWithHNSW c s.db propose q (obsOpts bank), by unfold search; rw [hq]; rfl, ?_⟩
  intro hmem
  obtain ⟨x, hx, hid⟩ := List.mem_map.1 hmem
  unfold searchWithHNSW at hx
  have hd : defaultK (obsOpts bank).topK = 100 := rfl
  have h2 : (100 : Int) * 2 = 200 := rfl
  simp only [hd, h2] at hx
  rw [if_neg (by simpa using hsome), processCandidates_eq _ _ _ _ _ (by norm_num)] at hx
  have hm := (hsort _).1.mem_iff.1 (List.mem_of_mem_take hx)
  rw [List.mem_filter] at hm
  obtain ⟨r1, hr1, rfl⟩ := List.mem_map.1 hm.1
  rw [List.mem_filter] at hr1
  have := hr1.2
  simp only [Bool.and_eq_true, decide_eq_true_iff] at this
  apply hmiss
  rw [← hid]
  exact this.1.1

/-- **C226, violated.** On a store with a dimension other than one that does not adapt vectors (strict and warning policy),
observations can be added but never listed. -/
theorem C226_refused_violated (c : Cfg W) (via : Serve W) (s : St W HI VI) (hopen : s.closed = false) (zero : W) (bank : String)
    (hdim : s.dim ≠ 0) (hone : s.dim ≠ 1) (hstrict : c.adapt [zero] 1 s.dim = none) :
    observations c via s zero bank = .error .adaptation := by
  have hp : prepareQuery c s [zero] = .error .adaptation := by
    unfold prepareQuery
    rw [if_neg (by simp [hopen])]
    simp only [List.length_cons, List.length_nil, Nat.zero_add]
    rw [if_pos ⟨by omega, by omega⟩, hstrict]
  unfold observations search
  rw [hp]

/-! ### Data for the examples -/

def mem (id : String) (v : Nat) (md : Meta) : Op Nat Unit Unit :=
  .upsert true false { id := id, collection := "memories", vector := some [v], metadata := some md }

/-- A memory of bank "b". -/
def world (t : String) : Meta := [("created_at", t), ("memory_type", "world"), ("bank_id", "b")]

/-- Two banks, memories of different times and entities, an observation. -/
def st1 : St Nat Unit Unit :=
  run Verif.Thm.StoreProps.env0 (init 1 none none) [.createCollection false "memories" 0,
    mem "m1" 5 (("entities", "Anna,Bob") :: world "10"),
    mem "m2" 3 [("created_at", "20"), ("memory_type", "observation"), ("bank_id", "b")],
    mem "m3" 4 [("entities", "Bob"), ("created_at", "10"), ("memory_type", "world"), ("bank_id", "z")]]

theorem st1_wf : Verif.Thm.Store.WF st1.db := Verif.Thm.Store.run_wf _ _ (Verif.Thm.Store.init_wf 1 none none) _

/-- Five memories more similar than the one of the time asked for. -/
def st2 : St Nat Unit Unit :=
  run Verif.Thm.StoreProps.env0 (init 1 none none) [.createCollection false "memories" 0,
    mem "m1" 1 (("entities", "Bob") :: world "10"), mem "m2" 2 (world "20"), mem "m3" 3 (world "20"), mem "m4" 4 (world "20"),
    mem "m5" 5 (world "20"), mem "m6" 6 (world "20")]

theorem st2_wf : Verif.Thm.Store.WF st2.db := Verif.Thm.Store.run_wf _ _ (Verif.Thm.Store.init_wf 1 none none) _

def read1 (t : String) : Int := if t = "10" then 10 else 20

instance (r : Row W) : Decidable (Dated r) :=
  match h : r.metadata with
  | none => .isTrue (fun m hm => by rw [h] at hm; cases hm)
  | some m => if hm : (m.lookup "created_at").isSome = true then
      .isTrue (fun m' h' => by rw [h] at h'; injection h' with h'; exact h' ▸ hm)
    else .isFalse (fun hd => hm (hd m h))

instance (db : DB W) (r : Row W) (n : String) : Decidable (InColl db r n) :=
  inferInstanceAs (Decidable (∃ c ∈ db.collections, c.name = n ∧ c.id = r.cid))

instance (db : DB W) (bank : String) (r : Row W) : Decidable (OfBank db bank r) :=
  match h : r.metadata with
  | none => .isFalse (fun hb => by obtain ⟨m, hm, _⟩ := hb.2; rw [h] at hm; cases hm)
  | some m => if hm : InColl db r "memories" ∧ m.lookup "bank_id" = some bank then
      .isTrue ⟨hm.1, m, h, hm.2⟩
    else .isFalse (fun hb => by
      obtain ⟨m', h1, h2⟩ := hb.2
      rw [h] at h1; injection h1 with h1; subst h1
      exact hm ⟨hb.1, h2⟩)

example : (temporal cfg0 .linear st1 read1 0 "b" (some [1]) 1 ⟨some 10000000000, some 10000000000⟩).map (fun x => x.id) = ["m1"] ∧
    prepareQuery cfg0 st1 [1] = .ok [1] ∧ (∀ r ∈ st1.db.embeddings, OfBank st1.db "b" r → Dated r) ∧
    st1.db.embeddings.length ≤ 5 * (1 : Int).toNat := by
  decide +kernel

/-- The memory was made at 10.5 s, the range starts at 10.25 s. -/
example : (temporal cfg0 .linear st1 read1 0 "b" (some [1]) 1 ⟨some 10250000000, none⟩).map (fun x => x.id) = ["m2"] := by
  decide +kernel

def row1 : Row Nat :=
  { id := "m1", cid := 2, vector := [1], content := "", docID := none, metadata := some (("entities", "Bob") :: world "10"),
    acl := none }

example : row1 ∈ st2.db.embeddings ∧ (∀ r' ∈ st2.db.embeddings.drop 1, r' ∈ st2.db.embeddings ∧ OfBank st2.db "b" r' ∧
      combine cfg0 (bankOpts "b" 5) [1] (scan st2.db row1) <
        combine cfg0 (bankOpts "b" 5) [1] (scan st2.db r')) ∧
    5 * (1 : Int).toNat ≤ (st2.db.embeddings.drop 1).length ∧ (st2.db.embeddings.drop 1).Nodup ∧
    prepareQuery cfg0 st2 [1] = .ok [1] ∧
    temporal cfg0 .linear st2 read1 0 "b" (some [1]) 1 ⟨none, some 10000000000⟩ = [] := by
  decide +kernel

example : (entities cfg0 .linear st1 "b" (some [1]) 5 ["Ann", "Bob"] []).map (fun x => x.id) = ["m1"] ∧
    (entities cfg0 .linear st1 "b" (some [1]) 5 ["Ann"] []).map (fun x => x.id) = ["m1"] ∧
    "Anna,Bob".toList = Verif.Reflect.joinComma ["Anna".toList, "Bob".toList] ∧ "Ann".toList ∉ ["Anna".toList, "Bob".toList] ∧
    st1.db.embeddings.length ≤ wanted 5 := by
  decide +kernel

example : entities cfg0 .linear st2 "b" (some [1]) 5 ["Bob"] [] = [] ∧ wanted 5 ≤ (st2.db.embeddings.drop 1).length := by
  decide +kernel

def bob : Verif.Hindsight.Memory := ⟨"m", "b", "world", "10", "", ["Anna", "Bob"], [("k", "v")]⟩

example : (Verif.Hindsight.buildMetadata bob).lookup "entities" = some "Anna,Bob" := by decide +kernel

example : (observations cfg0 .linear st1 0 "b").toOption.map (fun l => l.map (fun x => x.id)) = some ["m2"] ∧
    prepareQuery cfg0 st1 [0] = .ok [0] ∧ st1.db.embeddings.length ≤ 100 ∧
    (observations cfg0 (.hnsw fun _ _ => ["m1"]) st1 0 "b").toOption.map (fun l => l.map (fun x => x.id)) = some [] := by
  decide +kernel

/-- A hundred and one observations. -/
def st3 : St Nat Unit Unit :=
  run Verif.Thm.StoreProps.env0 (init 1 none none) (.createCollection false "memories" 0 ::
    (List.range 101).map (fun n => mem (String.ofList (List.replicate n 'x')) n
      [("created_at", "20"), ("memory_type", "observation"), ("bank_id", "b")]))

example : st3.db.embeddings.length = 101 ∧
    (observations cfg0 .linear st3 0 "b").toOption.map (fun l => l.length) = some 100 := by
  decide +kernel

/-- A store of dimension two whose vectors are not adapted. -/
example : observations cfg0 .linear { st1 with dim := 2 } 0 "b" = .error .adaptation :=
  C226_refused_violated cfg0 _ _ rfl 0 "b" (by decide) (by decide) rfl

end Verif.Thm.HindStore
