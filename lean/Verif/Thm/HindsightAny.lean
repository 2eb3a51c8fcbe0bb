import Verif.Thm.Hindsight

/-! C60, C62 and C63: which states and requests show the violations. -/
namespace Verif.Hindsight

open Verif.Base

/-- Fusing loses no id. -/
theorem fuse_keeps (so : List Nat) (ord : List String → List String) (hord : ∀ l, (ord l).Perm l) (results : List RR) (y : RR) (hy : y ∈ results) (hst : y.strat ∈ so) :
    ∃ x ∈ rrfFuse so ord results, x.row.id = y.row.id := by
  have hfirst : ∃ z, firstOf so results y.row.id = some z ∧ z.row.id = y.row.id := by
    have hs : (firstOf so results y.row.id).isSome = true := by
      unfold firstOf
      rw [List.findSome?_isSome_iff]
      refine ⟨y.strat, hst, ?_⟩
      rw [List.find?_isSome]
      exact ⟨y, List.mem_filter.2 ⟨hy, by simp⟩, by simp⟩
    obtain ⟨z, hz⟩ := Option.isSome_iff_exists.1 hs
    refine ⟨z, hz, ?_⟩
    obtain ⟨st, _, hf⟩ := List.exists_of_findSome?_eq_some hz
    simpa using List.find?_some hf
  obtain ⟨z, hz, hid⟩ := hfirst
  refine ⟨{ z with score := rrf results y.row.id }, ?_, hid⟩
  unfold rrfFuse
  simp only
  rw [(exchangeSort_perm _ _).mem_iff, List.mem_filterMap]
  refine ⟨y.row.id, ?_, by rw [hz]; rfl⟩
  rw [(hord _).mem_iff, List.mem_dedup]
  exact List.mem_map_of_mem hy

/-- C60 is violated for every state: with the keyword strategy (on by default) whatever the hybrid search of the store proposes is recalled, also rows of other banks; and the hybrid search proposes records
regardless of the bank (`C12_any_scope_violated`). For all orders in which the strategies finish and maps are visited. -/
theorem C60_any_keyword_violated (e : Env) (hre : e.rerank = none) (arrive : List (List RR) → List (List RR)) (ha : ∀ l, (arrive l).Perm l) (so : List Nat) (hso : 1 ∈ so)
    (ord : List String → List String) (hord : ∀ l, (ord l).Perm l) (s : State) (r : Req) (hp : r.priming = true ∧ r.hasText = true ∧ r.hasVec = true) (hk : r.topK ≤ 0)
    (hs : List Hit) (hh : e.hybrid s.rows r.bank (askK r) = some hs) (h : Hit) (hm : h ∈ hs) :
    ∃ x ∈ recall e arrive so ord s r, x.row.id = h.row.id := by
  have hkw : keyword e s r ∈ runs e s r := by
    unfold runs
    simp [hp.1, hp.2.1]
  have hy : (⟨h.row, h.score, 1⟩ : RR) ∈ keyword e s r := by
    unfold keyword
    rw [if_pos hp.2.2, hh]
    exact List.mem_map.2 ⟨h, hm, rfl⟩
  have hall : (⟨h.row, h.score, 1⟩ : RR) ∈ (arrive (runs e s r)).flatten := List.mem_flatten.2 ⟨_, (ha _).mem_iff.2 hkw, hy⟩
  unfold recall
  simp only [hre]
  rw [if_neg (by omega)]
  split_ifs
  · exact fuse_keeps so ord hord _ _ hall hso
  · exact ⟨_, (exchangeSort_perm _ _).mem_iff.2 hall, rfl⟩

/-- C62 is violated for every state: an extraction that runs after as many later messages of the session as the window holds misses the message it was started for. -/
theorem C62_any_delay_violated (c : ARCfg) (s : Chat) (i : Nat) (sess : String) (hp : s.pending[i]? = some sess) (before after : List Msg) (m : Msg) (hlog : s.log = before ++ m :: after)
    (hlate : c.window ≤ (after.filter (fun x => decide (x.session = sess))).length) (hw : 0 < c.window) (hm : m ∉ after) :
    ∃ got, (runExtract c s i).received = s.received ++ [got] ∧ m ∉ got ∧ (got.length : Int) = c.window := by
  set l := after.filter (fun x => decide (x.session = sess)) with hl
  have hhist : history s.log sess c.window = (l.reverse.take c.window.toNat).reverse := by
    unfold history
    simp only
    rw [if_neg (by omega), hlog, List.filter_append, List.reverse_append]
    congr 1
    have hrev : ∃ rest, ((m :: after).filter (fun x => decide (x.session = sess))).reverse = l.reverse ++ rest := by
      rw [List.filter_cons]
      split_ifs
      · exact ⟨[m], by rw [List.reverse_cons]⟩
      · exact ⟨[], by simp [hl]⟩
    obtain ⟨rest, hrest⟩ := hrev
    rw [hrest, List.append_assoc, List.take_append_of_le_length (by rw [List.length_reverse]; omega)]
  have hlen : (l.reverse.take c.window.toNat).length = c.window.toNat := by
    rw [List.length_take, List.length_reverse]; omega
  refine ⟨(history s.log sess c.window).reverse, ?_, ?_, ?_⟩
  · unfold runExtract
    rw [hp]
    simp only
    rw [if_neg]
    rw [hhist]
    intro h
    have : (l.reverse.take c.window.toNat) = [] := by simpa using h
    rw [this] at hlen
    simp at hlen
    omega
  · rw [hhist, List.reverse_reverse]
    intro h
    have := List.mem_of_mem_take h
    rw [List.mem_reverse] at this
    exact hm (List.mem_filter.1 this).1
  · rw [hhist, List.reverse_reverse, hlen]; omega

/-- Writing a node under `i` with the type "entity", once. -/
theorem upsertNode_entity (ns : List Node) (e i : String) (hi : i ≠ "") (h : e = i ∨ ∀ n ∈ ns, n.id = i → n.ntype = "entity") :
    ∀ n ∈ upsertNode ns ⟨e, "entity", e⟩, n.id = i → n.ntype = "entity" := by
  intro n hn hid
  unfold upsertNode at hn
  simp only at hn
  split_ifs at hn with h1 h2
  · rcases h with h | h
    · exact absurd (h.symm.trans h1) hi
    · exact h n hn hid
  · obtain ⟨x, hx, hxn⟩ := List.mem_map.1 hn
    split_ifs at hxn with h3
    · rw [← hxn]
    · subst hxn
      rcases h with h | h
      · exact absurd (hid.trans h.symm) h3
      · exact h _ hx hid
  · rcases List.mem_append.1 hn with hn | hn
    · rcases h with h | h
      · exfalso
        apply h2
        exact List.any_eq_true.2 ⟨n, hn, by simp [hid, h]⟩
      · exact h n hn hid
    · rw [List.mem_singleton.1 hn]

theorem entities_fold (i : String) (hi : i ≠ "") : ∀ (es : List String) (ns : List Node), (i ∈ es ∨ ∀ n ∈ ns, n.id = i → n.ntype = "entity") →
    ∀ n ∈ es.foldl (fun ns e => upsertNode ns ⟨e, "entity", e⟩) ns, n.id = i → n.ntype = "entity" := by
  intro es
  induction es with
  | nil => intro ns h; simpa using h
  | cons e es ih =>
    intro ns h
    rw [List.foldl_cons]
    apply ih
    rcases h with h | h
    · rcases List.mem_cons.1 h with h | h
      · exact Or.inr (upsertNode_entity ns e i hi (Or.inl h.symm))
      · exact Or.inl h
    · exact Or.inr (upsertNode_entity ns e i hi (Or.inr h))

/-- C63 is violated for every state: when a memory names an entity like the id of a bank, the bank is gone after the next restart, even if the memory itself was refused. -/
theorem C63_any_entity_violated (s : State) (fresh id : String) (up : Bool) (m : Memory) (hid : id ≠ "") (hm : id ∈ m.entities) :
    (getBank (restart (retain fresh up s m).1) id).2 = none := by
  have hn : ∀ n ∈ (retain fresh up s m).1.nodes, n.id = id → n.ntype = "entity" := by
    have he : (retain fresh up s m).1.nodes = m.entities.foldl (fun ns e => upsertNode ns ⟨e, "entity", e⟩) s.nodes := by
      unfold retain
      simp only
      split_ifs <;> rfl
    rw [he]
    exact entities_fold id hid m.entities s.nodes (Or.inl hm)
  generalize (retain fresh up s m).1 = t at hn
  have hb : findBank (restart t) id = none := by
    unfold findBank restart
    rw [List.find?_eq_none]
    intro b hb
    obtain ⟨n, hnn, hnb⟩ := List.mem_map.1 hb
    rw [List.mem_filter] at hnn
    rw [decide_eq_true_eq]
    intro h
    rw [← hnb] at h
    have h1 := hn n hnn.1 h
    have h2 := of_decide_eq_true hnn.2
    rw [h1] at h2
    exact absurd h2 (by decide)
  unfold getBank
  rw [hb]
  simp only
  cases hf : (restart t).nodes.find? (fun n => decide (n.id = id)) with
  | none => rfl
  | some n =>
    have h1 := hn n (List.mem_of_find?_eq_some hf) (by simpa using List.find?_some hf)
    simp [h1]

example : ∃ b, (getBank (run init [.create bank0]) "alice").2 = some b := ⟨bank0, by decide +kernel⟩

example : (⟨"s", "user", 1⟩ : Msg) ∉ [(⟨"s", "user", 2⟩ : Msg)] ∧
    (chatRun ⟨true, 1, 1, []⟩ chatInit [.add ⟨"s", "user", 1⟩ true, .add ⟨"s", "user", 2⟩ true]).pending[0]? = some "s" := by decide

end Verif.Hindsight
