import Verif.Thm.Reflect

/-!
C174: a memory comes back as it was retained. C175: an observation comes back as it was added. C176: the configured
collection.
-/
namespace Verif.Thm.ReflectMem

open Verif.Base Verif.Reflect Verif.Model.Store

/-! ### Joining and splitting at commas -/

theorem splitAux_part (w : List Char) (hw : ',' ∉ w) : ∀ cur l, splitAux cur (w ++ l) = splitAux (w.reverse ++ cur) l := by
  induction w with
  | nil => intro cur l; rfl
  | cons c cs ih =>
    intro cur l
    have hc : c ≠ ',' := fun h => hw (by simp [h])
    have hcs : ',' ∉ cs := fun h => hw (by simp [h])
    simp only [List.cons_append, splitAux, if_neg hc]
    rw [ih hcs]
    simp

theorem split_join (ws : List (List Char)) (hne : ws ≠ []) (h : ∀ w ∈ ws, ',' ∉ w) : splitComma (joinComma ws) = ws := by
  unfold splitComma
  induction ws with
  | nil => exact absurd rfl hne
  | cons w ws ih =>
    have hw := h w (by simp)
    cases ws with
    | nil =>
      have := splitAux_part w hw [] []
      simp only [List.append_nil] at this
      rw [joinComma, this]
      simp [splitAux]
    | cons w' ws =>
      show splitAux [] (w ++ ',' :: joinComma (w' :: ws)) = _
      rw [splitAux_part w hw]
      simp only [splitAux, if_true]
      rw [ih (by simp) (fun x hx => h x (by simp [hx]))]
      simp

theorem splitAux_noComma (t : List Char) : ∀ cur, ',' ∉ cur → ∀ w ∈ splitAux cur t, ',' ∉ w := by
  induction t with
  | nil => intro cur hc w hw; simp only [splitAux, List.mem_singleton] at hw; subst hw; simpa using hc
  | cons c cs ih =>
    intro cur hc w hw
    simp only [splitAux] at hw
    split at hw
    · rcases List.mem_cons.1 hw with rfl | hw
      · simpa using hc
      · exact ih [] (by simp) w hw
    · rename_i hne
      exact ih (c :: cur) (by simp [hc, Ne.symm hne]) w hw

theorem split_noComma (t : List Char) : ∀ w ∈ splitComma t, ',' ∉ w := splitAux_noComma t [] (by simp)

/-! ### Reading the metadata -/

theorem look_append (a b : List (String × Val)) (k : String) : look (a ++ b) k = (look b k).or (look a k) := by
  unfold look
  rw [List.filter_append, List.getLast?_append]
  cases h : (List.filter (fun p => p.1 == k) b).getLast? <;> simp

theorem look_extra_none (ex : List (String × List Char)) (k : String) (h : ∀ p ∈ ex, p.1 ≠ k) :
    look (ex.map (fun p => (p.1, Val.text p.2))) k = none := by
  unfold look
  have : (ex.map (fun p => (p.1, Val.text p.2))).filter (fun p => p.1 == k) = [] := by
    rw [List.filter_eq_nil_iff]
    intro p hp
    obtain ⟨q, hq, rfl⟩ := List.mem_map.1 hp
    simp [h q hq]
  simp [this]

/-- The names the memory system uses for its own metadata. -/
def reserved : List String := ["bank_id", "memory_type", "created_at", "confidence", "entities"]

/-- Whether a memory of this type carries a confidence. -/
def believed (m : Memory) : Prop := m.mtype = "opinion".toList ∨ m.mtype = "observation".toList

instance (m : Memory) : Decidable (believed m) := by unfold believed; infer_instance

theorem look_built (lib : Lib) (m : Memory) (h : ∀ p ∈ m.extra, p.1 ∉ reserved) :
    look (buildMetadata lib m) "bank_id" = some (.text m.bank) ∧
    look (buildMetadata lib m) "memory_type" = some (.text m.mtype) ∧
    look (buildMetadata lib m) "created_at" = some (.secs m.secs) ∧
    look (buildMetadata lib m) "confidence" = (if believed m then some (.dec (lib.r4 m.conf)) else none) ∧
    look (buildMetadata lib m) "entities" = (if m.entities.length > 0 then some (.text (joinComma m.entities)) else none) := by
  have hx : ∀ k ∈ reserved, look (m.extra.map (fun p => (p.1, Val.text p.2))) k = none := by
    intro k hk
    apply look_extra_none
    rintro p hp rfl
    exact h p hp hk
  unfold buildMetadata
  simp only [look_append]
  rw [hx _ (by simp [reserved]), hx _ (by simp [reserved]), hx _ (by simp [reserved]), hx _ (by simp [reserved]),
    hx _ (by simp [reserved])]
  have hb : (m.mtype = "opinion".toList ∨ m.mtype = "observation".toList) ↔ believed m := Iff.rfl
  by_cases h1 : believed m <;> by_cases h2 : m.entities.length > 0 <;>
    simp only [if_pos, if_neg, h1, h2, hb, not_false_iff, if_true, if_false] <;> simp [look]

/-! ### C174 -/

/-- What a caller gets back for the memory `m`: the time to the second, the confidence of a belief to four decimals (no
other memory has one), and no metadata. -/
def back (lib : Lib) (m : Memory) : Memory :=
  { m with nanos := 0, conf := if believed m then lib.r4 m.conf else 0, extra := [] }

/-- C174: after a memory has been retained there is one record with its id, it reads as that memory, and the records with
other ids are as before: if its metadata uses none of the reserved names and no entity has a comma or is the empty
text. -/
theorem C174_kept_partial (lib : Lib) (now : Int × Nat) (rows : List Record) (m : Memory)
    (hx : ∀ p ∈ m.extra, p.1 ∉ reserved) (he : ∀ e ∈ m.entities, ',' ∉ e ∧ e ≠ []) :
    ((retain lib rows m).filter (fun r => r.id = m.id)).map (toMemory lib now) = [back lib m] ∧
    (retain lib rows m).filter (fun r => r.id ≠ m.id) = rows.filter (fun r => r.id ≠ m.id) := by
  have hr : toMemory lib now (toRecord lib m) = back lib m := by
    obtain ⟨h1, h2, h3, h4, h5⟩ := look_built lib m hx
    unfold toMemory toRecord
    simp only [h1, h2, h3, h4, h5]
    unfold back
    have hent : (if ((if m.entities.length > 0 then some (Val.text (joinComma m.entities)) else none).map asText).getD [] = []
        then [] else splitComma (((if m.entities.length > 0 then some (Val.text (joinComma m.entities)) else none).map
          asText).getD [])) = m.entities := by
      cases hm : m.entities with
      | nil => simp
      | cons e es =>
        have hj : joinComma (e :: es) ≠ [] := by
          have := (he e (by simp [hm])).2
          cases es with
          | nil => simpa [joinComma] using this
          | cons _ _ => simp [joinComma]
        simp only [List.length_cons, gt_iff_lt, Nat.zero_lt_succ, if_true, Option.map_some, asText, Option.getD_some]
        rw [if_neg hj, split_join _ (by simp) (fun w hw => (he w (by rw [hm]; exact hw)).1)]
    rw [hent]
    by_cases hb : believed m <;> simp [hb, asText, asInt, asNum]
  constructor
  · unfold retain
    rw [List.filter_append, List.map_append]
    have h0 : (rows.filter (fun r => r.id ≠ m.id)).filter (fun r => r.id = m.id) = [] := by
      rw [List.filter_eq_nil_iff]
      intro r hr'
      have := (List.mem_filter.1 hr').2
      simpa using this
    rw [h0, show ([toRecord lib m].filter fun r => r.id = m.id) = [toRecord lib m] by simp [toRecord]]
    simp [hr]
  · unfold retain
    rw [List.filter_append, show ([toRecord lib m].filter fun r => r.id ≠ m.id) = [] by simp [toRecord]]
    simp

/-- C174 fails for metadata: whatever metadata is retained, none comes back. -/
theorem C174_metadata_violated (lib : Lib) (now : Int × Nat) (m : Memory) (h : m.extra ≠ []) :
    (toMemory lib now (toRecord lib m)).extra ≠ m.extra := by
  intro he
  exact h he.symm

/-- C174 fails for an entity with a comma: the entities never come back as they were. -/
theorem C174_comma_violated (lib : Lib) (now : Int × Nat) (m : Memory) (e : List Char) (he : e ∈ m.entities) (hc : ',' ∈ e) :
    (toMemory lib now (toRecord lib m)).entities ≠ m.entities := by
  intro h
  rw [← h] at he
  simp only [toMemory] at he
  split at he
  · simp at he
  · exact split_noComma _ e he hc

/-- C174 fails for metadata under a reserved name: a value given for `bank_id` moves the memory to that bank, and one given
for `memory_type` changes its type. -/
theorem C174_moved_violated (lib : Lib) (now : Int × Nat) (m : Memory) (b : List Char) :
    (toMemory lib now (toRecord lib { m with extra := [("bank_id", b)] })).bank = b ∧
    (toMemory lib now (toRecord lib { m with extra := [("memory_type", b)] })).mtype = b := by
  have hl : ∀ (fs : List (String × Val)) (k : String) (v : Val), look (fs ++ [(k, v)]) k = some v := by
    intro fs k v
    rw [look_append]
    simp [look]
  constructor
  · show ((look (buildMetadata lib _) "bank_id").map asText).getD [] = b
    unfold buildMetadata
    rw [List.map_singleton, hl]
    rfl
  · show ((look (buildMetadata lib _) "memory_type").map asText).getD [] = b
    unfold buildMetadata
    rw [List.map_singleton, hl]
    rfl

def demoLib : Lib := ⟨fun q => q, fun _ => 0, fun _ => 0⟩

def demo : Memory := ⟨"m1", "alice".toList, "opinion".toList, "likes tea", ["Alice".toList, "tea".toList], 3 / 4,
  [("source", "chat".toList)], 1700000000, 123⟩

example : (∀ p ∈ demo.extra, p.1 ∉ reserved) ∧ (∀ e ∈ demo.entities, ',' ∉ e ∧ e ≠ []) := by decide +kernel

example : (retain demoLib [toRecord demoLib { demo with id := "m0" }] demo).length = 2 ∧ back demoLib demo ≠ demo := by
  decide +kernel

/-! ### C175 -/

/-- C175: an observation that was added is among the observations of its bank, exactly once, with its text, confidence (to
four decimals) and time (to the second). `ord` is any order of the search. -/
theorem C175_listed_partial (lib : Lib) (now : Int × Nat) (ord : List Record → List Record) (ho : ∀ l, (ord l).Perm l)
    (rows : List Record) (o : Obs) :
    (getObservations lib now ord (retain lib rows (obsMemory o)) o.bank).filter (fun x => x.id = o.id) =
      [{ o with conf := lib.r4 o.conf, nanos := 0, sources := [], kind := [], reasoning := [] }] := by
  have hx : ∀ p ∈ (obsMemory o).extra, p.1 ∉ reserved := by
    intro p hp
    simp only [obsMemory, List.mem_cons, List.not_mem_nil, or_false] at hp
    rcases hp with rfl | rfl | rfl <;> simp [reserved]
  obtain ⟨h1, h2, h3, h4, -⟩ := look_built lib (obsMemory o) hx
  have hb : believed (obsMemory o) := Or.inr rfl
  have hsel : ((retain lib rows (obsMemory o)).filter
      (fun r => look r.fields "bank_id" == some (.text o.bank) &&
        look r.fields "memory_type" == some (.text "observation".toList))).filter (fun r => r.id = o.id) =
      [toRecord lib (obsMemory o)] := by
    unfold retain
    rw [List.filter_append, List.filter_append]
    have h0 : ((rows.filter (fun r => r.id ≠ (obsMemory o).id)).filter
      (fun r => look r.fields "bank_id" == some (.text o.bank) &&
        look r.fields "memory_type" == some (.text "observation".toList))).filter (fun r => r.id = o.id) = [] := by
      rw [List.filter_eq_nil_iff]
      intro r hr
      have := (List.mem_filter.1 (List.mem_filter.1 hr).1).2
      simpa [obsMemory] using of_decide_eq_true this
    rw [h0, List.nil_append]
    have hk : (look (toRecord lib (obsMemory o)).fields "bank_id" == some (.text o.bank) &&
        look (toRecord lib (obsMemory o)).fields "memory_type" == some (.text "observation".toList)) = true := by
      simp only [toRecord, h1, h2]
      simp [obsMemory]
    rw [List.filter_cons, if_pos hk, List.filter_nil, List.filter_cons_of_pos (by simp [toRecord, obsMemory]), List.filter_nil]
  have hord : (ord ((retain lib rows (obsMemory o)).filter
      (fun r => look r.fields "bank_id" == some (.text o.bank) &&
        look r.fields "memory_type" == some (.text "observation".toList)))).filter (fun r => r.id = o.id) =
      [toRecord lib (obsMemory o)] := by
    have := (ho ((retain lib rows (obsMemory o)).filter
      (fun r => look r.fields "bank_id" == some (.text o.bank) &&
        look r.fields "memory_type" == some (.text "observation".toList)))).filter (fun r => decide (r.id = o.id))
    rw [hsel] at this
    exact List.perm_singleton.1 this
  unfold getObservations
  simp only []
  rw [List.filter_map, List.filter_filter]
  have hcomm : ∀ l : List Record, ((l.map (toMemory lib now)).filter
      (fun m => ((fun x : Obs => decide (x.id = o.id)) ∘ memoryObs) m && m.mtype == "observation".toList)) =
      (((l.filter (fun r => r.id = o.id)).map (toMemory lib now)).filter (fun m => m.mtype == "observation".toList)) := by
    intro l
    rw [List.filter_map, List.filter_map, List.filter_filter]
    congr 1
    apply List.filter_congr
    intro r _
    exact Bool.and_comm _ _
  rw [hcomm, hord]
  have hm : (toMemory lib now (toRecord lib (obsMemory o))).mtype = "observation".toList := by
    simp only [toMemory, toRecord, h2]
    simp [obsMemory, asText]
  rw [List.map_singleton, List.filter_cons_of_pos (by simp [hm]), List.filter_nil, List.map_singleton]
  simp only [memoryObs, toMemory, toRecord, h1, h3, h4, if_pos hb]
  simp [obsMemory, asText, asInt, asNum]

/-- C175 fails for the other fields: no observation that is listed has its sources, its kind or its reasoning. -/
theorem C175_sources_violated (lib : Lib) (now : Int × Nat) (ord : List Record → List Record) (rows : List Record)
    (bank : List Char) :
    ∀ o' ∈ getObservations lib now ord rows bank, o'.sources = [] ∧ o'.kind = [] ∧ o'.reasoning = [] := by
  intro o' ho'
  obtain ⟨m, hm, rfl⟩ := List.mem_map.1 ho'
  obtain ⟨r, -, rfl⟩ := List.mem_map.1 (List.mem_filter.1 hm).1
  simp [memoryObs, toMemory]

/-- C175: only observations of the bank asked for are listed. -/
theorem C175_bank (lib : Lib) (now : Int × Nat) (ord : List Record → List Record) (ho : ∀ l, (ord l).Perm l)
    (rows : List Record) (bank : List Char) :
    ∀ o' ∈ getObservations lib now ord rows bank, o'.bank = bank ∧ ∃ r ∈ rows, r.id = o'.id ∧ r.content = o'.content := by
  intro o' ho'
  obtain ⟨m, hm, rfl⟩ := List.mem_map.1 ho'
  obtain ⟨r, hr, rfl⟩ := List.mem_map.1 (List.mem_filter.1 hm).1
  rw [(ho _).mem_iff, List.mem_filter] at hr
  have hb := (Bool.and_eq_true_iff.1 hr.2).1
  have hb' : look r.fields "bank_id" = some (.text bank) := by simpa using hb
  refine ⟨?_, r, hr.1, rfl, rfl⟩
  simp [memoryObs, toMemory, hb', asText]

def demoObs : Obs := ⟨"o1", "alice".toList, "prefers tea", 1 / 2, ["m1".toList, "m2".toList], "preference".toList,
  "seen twice".toList, 1700000000, 5⟩

example : getObservations demoLib (0, 0) id (retain demoLib [] (obsMemory demoObs)) "alice".toList =
    [{ demoObs with sources := [], kind := [], reasoning := [], nanos := 0 }] := by decide +kernel

/-! ### C176 -/

variable {W HI VI : Type}

/-- C176: with the default name, or with the name "memories", a memory with a vector that fits is accepted. -/
theorem C176_default_partial (env : Env W HI VI) (s : St W HI VI) (hc : s.closed = false) (name : String)
    (hn : name = "" ∨ name = "memories") (dims : Int) (hd : 0 ≤ dims) (fk : Bool) (id : String) (v : List W)
    (hv : v.length = s.dim) (hl : v.length ≤ 2147483647) (content : String) (md : Meta) :
    (retainRow env (new s false name dims) fk false id (some v) content md).2 = .ok := by
  have hname : (if name = "" then "memories" else name) = "memories" := by rcases hn with rfl | rfl <;> simp
  have hnew : (new s false name dims).closed = false ∧ (new s false name dims).dim = s.dim ∧
      ∃ k ∈ (new s false name dims).db.collections, k.name = "memories" := by
    unfold new
    simp only [hname]
    split
    · rename_i h
      obtain ⟨k, hk, hkn⟩ := List.any_eq_true.1 h
      exact ⟨hc, rfl, k, hk, by simpa using hkn⟩
    · rename_i h
      unfold createCollection
      rw [if_neg (by simp [hc]), if_neg h, if_neg (by omega), if_neg (by simp)]
      exact ⟨hc, rfl, ⟨s.db.nextColl, "memories", dims⟩, by simp, rfl⟩
  obtain ⟨h1, h2, k, hk, hkn⟩ := hnew
  set s' := new s false name dims with hs'
  unfold retainRow
  rw [step]
  unfold upsert
  rw [if_neg (by simp [h1])]
  simp only [Option.getD_some]
  have hs1 : (if s'.dim = 0 then { s' with dim := v.length } else s').db = s'.db := by split <;> rfl
  have hs1d : (if s'.dim = 0 then { s' with dim := v.length } else s').dim = v.length := by
    split
    · rfl
    · rw [h2, hv]
  rw [if_neg (by rw [hs1d]; simp)]
  simp only [prepareRow, hs1]
  obtain ⟨k', hk', hf⟩ : ∃ k' ∈ s'.db.collections, s'.db.collections.find? (fun c => c.name = "memories") = some k' := by
    cases hfind : s'.db.collections.find? (fun c => c.name = "memories") with
    | none => have := List.find?_eq_none.1 hfind k hk; simp [hkn] at this
    | some x => exact ⟨x, List.mem_of_find?_eq_some hfind, rfl⟩
  have hr : ∀ e : Emb W, e.collectionID = 0 → e.collection = "memories" → resolveCollection s'.db e = .ok k'.id := by
    intro e h0 h3
    unfold resolveCollection
    rw [if_neg (by simp [h0]), if_pos (by rw [h3]; decide), h3, hf]
  rw [hr _ rfl rfl]
  have he : encodable (some v) = Except.ok v := by
    unfold encodable
    simp only []
    rw [if_neg (by omega)]
  simp only [he]
  have hfk : ∀ row : Row W, row.cid = k'.id → row.docID = none → fkHolds s'.db row = true := by
    intro row h3 h4
    unfold fkHolds
    rw [h4, Bool.and_true, List.any_eq_true]
    exact ⟨k', hk', by simp [h3]⟩
  simp only [insertRow]
  rw [hfk _ rfl (by simp)]
  simp

/-- C176 fails for every other name: on a database without a collection "memories", every memory is refused, whatever its
vector. -/
theorem C176_custom_violated (env : Env W HI VI) (s : St W HI VI) (name : String) (h0 : name ≠ "") (h1 : name ≠ "memories")
    (hm : ∀ k ∈ s.db.collections, k.name ≠ "memories") (fault fk f : Bool) (dims : Int) (id : String)
    (v : Option (List W)) (content : String) (md : Meta) :
    (retainRow env (new s fault name dims) fk f id v content md).2 ≠ .ok ∧
    (retainRow env (new s fault name dims) fk f id v content md).1.db = (new s fault name dims).db := by
  refine Verif.Thm.StoreColl.C163_unknown_refused env _ fk f _ rfl (by simp) ?_
  intro k hk
  unfold new at hk
  simp only [if_neg h0] at hk
  split at hk
  · exact hm k hk
  · unfold createCollection at hk
    repeat' split at hk
    all_goals first
      | exact hm k hk
      | (rcases List.mem_append.1 hk with hk | hk
         · exact hm k hk
         · simp only [List.mem_singleton] at hk
           subst hk
           exact h1)

example : (retainRow Verif.Thm.StoreColl.demoEnv (new (init 2 none none) false "" 2) true false "m" (some [1, 2]) "x" []).2 = .ok ∧
    (retainRow Verif.Thm.StoreColl.demoEnv (new (init 2 none none) false "agents" 2) true false "m" (some [1, 2]) "x" []).2 =
      .err .noCollection := by decide +kernel

example : ∀ k ∈ (init 2 none none : St Nat Unit Unit).db.collections, k.name ≠ "memories" := by decide +kernel

end Verif.Thm.ReflectMem
