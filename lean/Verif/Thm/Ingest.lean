import Verif.Model.Ingest
import Verif.Thm.GraphTools
import Mathlib.Data.List.Dedup
import Mathlib.Data.List.Range

/-!
What an ingestion of a document writes to the graph; the properties are in IngestProps.
-/
namespace Verif.Ingest
open Verif.Base Verif.Graph Verif.GraphTools

/-! ### The loop over the chunks -/

theorem collect_ok {extract : String → Option (Option Extraction)} {vs : List (List ℚ)} : ∀ {ts : List String} {i : Nat} {its : List Item},
    collect extract vs i ts = .ok its →
      its.map Item.i = List.range' i ts.length ∧ its.map Item.text = ts ∧
      ∀ it ∈ its, vs[it.i]? = some it.vec ∧ extract it.text = some it.ext
  | [], i, its, h => by
    simp only [collect, Out.ok.injEq] at h
    subst h
    simp
  | t :: ts, i, its, h => by
    unfold collect at h
    cases hv : vs[i]? with
    | none => rw [hv] at h; cases h
    | some v =>
      rw [hv] at h
      cases hx : extract t with
      | none => rw [hx] at h; cases h
      | some x =>
        rw [hx] at h
        cases hc : collect extract vs (i + 1) ts with
        | error => rw [hc] at h; cases h
        | panic => rw [hc] at h; cases h
        | ok l =>
          rw [hc] at h
          simp only [Out.ok.injEq] at h
          subst h
          obtain ⟨h1, h2, h3⟩ := collect_ok hc
          refine ⟨?_, ?_, ?_⟩
          · rw [List.map_cons, h1, List.length_cons, List.range'_succ]
          · rw [List.map_cons, h2]
          · intro it hit
            rcases List.mem_cons.1 hit with rfl | hit
            · exact ⟨hv, hx⟩
            · exact h3 it hit

/-- The items of the chunks, by position. -/
theorem item_at {ts : List String} {its : List Item} (h1 : its.map Item.i = List.range' 0 ts.length) (h2 : its.map Item.text = ts)
    {i : Nat} {t : String} (ht : ts[i]? = some t) : ∃ it ∈ its, it.i = i ∧ it.text = t := by
  have hl : its.length = ts.length := by rw [← h2, List.length_map]
  have hi : i < ts.length := by
    rcases Nat.lt_or_ge i ts.length with h | h
    · exact h
    · rw [List.getElem?_eq_none h] at ht; cases ht
  have hit : its[i]? = some its[i] := List.getElem?_eq_getElem (by omega)
  refine ⟨its[i], List.getElem_mem _, ?_, ?_⟩
  · have := congrArg (fun l => l[i]?) h1
    simp only [List.getElem?_map, hit, Option.map_some] at this
    rw [List.getElem?_range' (by omega)] at this
    simpa using this
  · have := congrArg (fun l => l[i]?) h2
    simp only [List.getElem?_map, hit, Option.map_some, ht] at this
    simpa using this

theorem item_pos {ts : List String} {its : List Item} (h1 : its.map Item.i = List.range' 0 ts.length) (h2 : its.map Item.text = ts)
    {it : Item} (h : it ∈ its) : ts[it.i]? = some it.text := by
  obtain ⟨k, hk, rfl⟩ := List.mem_iff_getElem.1 h
  have hl : its.length = ts.length := by rw [← h2, List.length_map]
  have hit : its[k]? = some its[k] := List.getElem?_eq_getElem hk
  have hi : its[k].i = k := by
    have := congrArg (fun l => l[k]?) h1
    simp only [List.getElem?_map, hit, Option.map_some] at this
    rw [List.getElem?_range' (by omega)] at this
    simpa using this
  have := congrArg (fun l => l[k]?) h2
  simp only [List.getElem?_map, hit, Option.map_some] at this
  rw [hi, ← this]

/-! ### Writing nodes -/

/-- A batch of nodes with different ids: those with a vector are stored, the others are passed over. -/
theorem nodes_batch {c : Bool} {s : State} {ns : List Node} {k : Counts} (hv : ∀ n ∈ ns, n.id ≠ "")
    (hnd : (ns.map Node.id).Nodup) (h : (upsertNodesBatch c s (ns.map some)).2 = some k) :
    (upsertNodesBatch c s (ns.map some)).1.edges = s.edges ∧
    (∀ n ∈ ns, getNode (upsertNodesBatch c s (ns.map some)).1 n.id = if n.vec = [] then getNode s n.id else some n) ∧
    ∀ id, id ∉ ns.map Node.id → getNode (upsertNodesBatch c s (ns.map some)).1 id = getNode s id := by
  cases ns with
  | nil => simp [upsertNodesBatch]
  | cons a ns =>
    cases c with
    | false => simp [upsertNodesBatch] at h
    | true =>
      have he : (upsertNodesBatch true s ((a :: ns).map some)).1 = (loop batchNode s ((a :: ns).map some)).1 := by
        simp [upsertNodesBatch]
      rw [he]
      have hf : ((a :: ns).map some).filterMap (fun n => if ValidNode n then n else none) = (a :: ns).filter (fun n => decide (n.vec ≠ [])) := by
        have : ∀ l : List Node, (∀ n ∈ l, n.id ≠ "") →
            (l.map some).filterMap (fun n => if ValidNode n then n else none) = l.filter (fun n => decide (n.vec ≠ [])) := by
          intro l
          induction l with
          | nil => intro _; rfl
          | cons b l ih =>
            intro hl
            rw [List.map_cons, List.filterMap_cons, List.filter_cons, ih (fun n hn => hl n (List.mem_cons_of_mem _ hn))]
            have hb := hl b List.mem_cons_self
            by_cases hvb : b.vec = []
            · simp [ValidNode, hvb]
            · simp [ValidNode, hvb, hb]
        exact this _ hv
      refine ⟨?_, ?_, ?_⟩
      · have : ∀ (l : List (Option Node)) (s : State), (loop batchNode s l).1.edges = s.edges := by
          intro l
          induction l with
          | nil => intro s; rfl
          | cons b l ih =>
            intro s
            show (loop batchNode (batchNode s b).1 l).1.edges = _
            rw [ih]
            unfold batchNode
            cases b with
            | none => rfl
            | some b => simp only; split <;> rfl
        exact this _ s
      · intro n hn
        rw [loop_rows, expected, hf]
        cases hfi : ((a :: ns).filter (fun n => decide (n.vec ≠ []))).reverse.find? (fun m => decide (m.id = n.id)) with
        | none =>
          rw [List.find?_eq_none] at hfi
          have : n.vec = [] := by
            by_contra hc
            exact hfi n (List.mem_reverse.2 (List.mem_filter.2 ⟨hn, by simpa using hc⟩)) (decide_eq_true rfl)
          rw [if_pos this]; rfl
        | some m =>
          have h1 := List.find?_some hfi
          have h2 := List.mem_filter.1 (List.mem_reverse.1 (List.mem_of_find?_eq_some hfi))
          have h3 := List.inj_on_of_nodup_map hnd h2.1 hn (of_decide_eq_true h1)
          rw [h3] at h2 ⊢
          rw [if_neg (by simpa using h2.2)]; rfl
      · intro id hid
        rw [loop_rows, expected, hf]
        have : ((a :: ns).filter (fun n => decide (n.vec ≠ []))).reverse.find? (fun m => decide (m.id = id)) = none := by
          rw [List.find?_eq_none]
          intro m hm
          rw [decide_eq_true_eq]
          rintro rfl
          exact hid (List.mem_map_of_mem (List.mem_filter.1 (List.mem_reverse.1 hm)).1)
        rw [this]; rfl

/-- A batch of any nodes changes no edge, and only nodes with ids of the batch. -/
theorem nodes_frame (c : Bool) (s : State) (ns : List Node) :
    (upsertNodesBatch c s (ns.map some)).1.edges = s.edges ∧
    ∀ id, id ∉ ns.map Node.id → getNode (upsertNodesBatch c s (ns.map some)).1 id = getNode s id := by
  unfold upsertNodesBatch
  split
  · exact ⟨rfl, fun _ _ => rfl⟩
  · split
    · exact ⟨rfl, fun _ _ => rfl⟩
    · simp only
      clear * -
      induction ns generalizing s with
      | nil => exact ⟨rfl, fun _ _ => rfl⟩
      | cons b l ih =>
        obtain ⟨h1, h2⟩ := ih (batchNode s (some b)).1
        have hb : (batchNode s (some b)).1.edges = s.edges ∧ ∀ id, b.id ≠ id → getNode (batchNode s (some b)).1 id = getNode s id := by
          unfold batchNode
          simp only
          split
          · exact ⟨rfl, fun _ _ => rfl⟩
          · refine ⟨rfl, fun id hid => ?_⟩
            unfold getNode
            rw [find_put, if_neg hid]
        constructor
        · exact h1.trans hb.1
        · intro id hid
          rw [List.map_cons, List.mem_cons, not_or] at hid
          exact (h2 id hid.2).trans (hb.2 id (fun h => hid.1 h.symm))

theorem hasNode_get (s : State) (id : String) : hasNode s.nodes id = true ↔ getNode s id ≠ none := by
  unfold hasNode getNode
  rw [List.any_eq_true, Ne, List.find?_eq_none]
  push Not
  rfl

/-! ### Ids -/

theorem split_first {s : Char} (a b x y : List Char) (ha : s ∉ a) (hb : s ∉ b) (h : a ++ s :: x = b ++ s :: y) : a = b ∧ x = y := by
  induction a generalizing b with
  | nil =>
    cases b with
    | nil => simpa using h
    | cons c cs =>
      simp only [List.nil_append, List.cons_append, List.cons.injEq] at h
      exact absurd (h.1 ▸ List.mem_cons_self) hb
  | cons c cs ih =>
    cases b with
    | nil =>
      simp only [List.nil_append, List.cons_append, List.cons.injEq] at h
      exact absurd (h.1 ▸ List.mem_cons_self) ha
    | cons d ds =>
      simp only [List.cons_append, List.cons.injEq] at h
      obtain ⟨h1, h2⟩ := ih ds (fun hm => ha (List.mem_cons_of_mem _ hm)) (fun hm => hb (List.mem_cons_of_mem _ hm)) h.2
      exact ⟨by rw [h.1, h1], h2⟩

theorem mem_of_trim {p : Char → Bool} {l : List Char} {c : Char} (h : c ∈ trim p l) : c ∈ l := by
  unfold trim at h
  have h := List.mem_reverse.1 h
  have h := (List.dropWhile_sublist _).subset h
  have h := List.mem_reverse.1 h
  exact (List.dropWhile_sublist _).subset h

/-- The part of an entity id after the prefix. -/
theorem entity_parts (u : Uni) (hc : u.letter ':' = false) (name : String) :
    ∃ x, ':' ∉ x ∧ (entityNode u name).toList = "entity".toList ++ ':' :: x := by
  unfold entityNode Verif.Rag.entityId
  simp only [String.toList_ofList]
  refine ⟨_, ?_, by rw [show "entity:".toList = "entity".toList ++ [':'] from rfl, List.append_assoc]; rfl⟩
  split
  · decide
  · intro hm
    have hm := mem_of_trim hm
    obtain ⟨r, -, hr⟩ := List.mem_filterMap.1 hm
    split at hr
    · rename_i hl
      simp only [Option.some.injEq] at hr
      rw [hr, hc] at hl; cases hl
    · split at hr
      · simp only [Option.some.injEq] at hr
        exact absurd hr (by decide)
      · cases hr

theorem decimal_no_pipe (n : Nat) : '|' ∉ Verif.Rag.decimal n := by
  have key : ∀ k, k < 10 → Char.ofNat (48 + k) ≠ '|' := by decide
  induction n using Nat.strongRecOn with
  | _ n ih =>
    unfold Verif.Rag.decimal
    split
    · simp only [List.mem_singleton]
      exact (key _ (by omega)).symm
    · simp only [List.mem_append, List.mem_singleton, not_or]
      exact ⟨ih _ (by omega), (key _ (by omega)).symm⟩

theorem pad3_no_pipe (n : Nat) : '|' ∉ Verif.Rag.pad3 n := by
  simp [Verif.Rag.pad3, decimal_no_pipe, List.mem_replicate]

theorem entity_no_pipe (u : Uni) (hc : u.letter '|' = false) (name : String) : '|' ∉ (entityNode u name).toList := by
  unfold entityNode Verif.Rag.entityId
  simp only [String.toList_ofList, List.mem_append, not_or]
  refine ⟨by decide, ?_⟩
  split
  · decide
  · intro hm
    have hm := mem_of_trim hm
    obtain ⟨r, -, hr⟩ := List.mem_filterMap.1 hm
    split at hr
    · rename_i hl
      simp only [Option.some.injEq] at hr
      rw [hr, hc] at hl; cases hl
    · split at hr
      · simp only [Option.some.injEq] at hr
        exact absurd hr (by decide)
      · cases hr

theorem chunk_inj {d1 d2 : String} {i j : Nat} (h : chunkId d1 i = chunkId d2 j) : d1 = d2 ∧ i = j := by
  obtain ⟨h1, h2⟩ := Verif.Rag.C72_chunk_ids _ _ _ _ (ofList_inj h)
  exact ⟨String.toList_inj.1 h1, h2⟩

theorem kinds (u : Uni) (d d' e : String) (i : Nat) :
    chunkId d i ≠ docId d' ∧ chunkId d i ≠ entityNode u e ∧ docId d' ≠ entityNode u e := by
  obtain ⟨h1, h2, h3⟩ := Verif.Rag.C72_kinds u.lower u.letter u.space d.toList d'.toList e.toList i
  exact ⟨fun h => h1 (ofList_inj h), fun h => h2 (ofList_inj h), fun h => h3 (ofList_inj h)⟩

theorem ne_empty (u : Uni) (d e : String) (i : Nat) : chunkId d i ≠ "" ∧ docId d ≠ "" ∧ entityNode u e ≠ "" := by
  have h0 : "".toList = [] := rfl
  refine ⟨fun h => ?_, fun h => ?_, fun h => ?_⟩
  · have h := congrArg String.toList h
    rw [h0, chunkId, String.toList_ofList] at h
    have h1 : (Verif.Rag.chunkId d.toList i).head? = some 'c' := rfl
    rw [h] at h1; cases h1
  · have h := congrArg String.toList h
    rw [h0, docId, String.toList_ofList] at h
    have h1 : (Verif.Rag.docNodeId d.toList).head? = some 'd' := rfl
    rw [h] at h1; cases h1
  · have h := congrArg String.toList h
    rw [h0, entityNode, String.toList_ofList] at h
    have h1 : (Verif.Rag.entityId u.lower u.letter u.space e.toList).head? = some 'e' := rfl
    rw [h] at h1; cases h1

/-- The letter that tells the kinds of edges apart. -/
def letter5 (e : Edge) : Option Char := e.id.toList[5]?

theorem letter_of {e : Edge} {p x : String} {c : Char} (h : e.id = p ++ x) (hp : p.toList[5]? = some c) : letter5 e = some c := by
  unfold letter5
  rw [h, String.toList_append, List.getElem?_append_left, hp]
  rcases Nat.lt_or_ge 5 p.toList.length with h1 | h1
  · exact h1
  · rw [List.getElem?_eq_none h1] at hp; cases hp

theorem hasChunk_kind (d : String) (i : Nat) : letter5 (hasChunk d i) = some 'd' :=
  letter_of (p := "edge:doc_chunk:") (x := d ++ ":" ++ dec i) (by simp only [hasChunk, String.append_assoc]) (by decide)
theorem next_kind (d : String) (i : Nat) : letter5 (nextChunk d i) = some 'c' :=
  letter_of (p := "edge:chunk_next:") (x := d ++ (":" ++ dec i))
    (by rw [← String.append_assoc, ← String.append_assoc]; unfold nextChunk; rfl) (by decide)
theorem mention_kind (c e : String) : letter5 (mention c e) = some 'm' :=
  letter_of (p := "edge:mention:") (x := c ++ ":" ++ e) (by simp only [mention, String.append_assoc]) (by decide)
theorem rel_kind (u : Uni) (p : Props) (d : String) (i : Nat) (r : Rel) : letter5 (relEntry u p d i r).2 = some 'r' :=
  letter_of (p := "edge:rel:") (x := chunkId d i ++ ":" ++ entityNode u r.src ++ ":" ++ entityNode u r.dst ++ ":" ++
    firstNonEmpty u r.rtype "related_to") (by simp only [relEntry, String.append_assoc]) (by decide)

theorem dec_last {a b : String} {i j : Nat} (h : a ++ ":" ++ dec i = b ++ ":" ++ dec j) : i = j := by
  have h := congrArg String.toList h
  simp only [String.toList_append, dec, String.toList_ofList] at h
  rw [show ":".toList = [':'] from rfl, List.append_assoc, List.append_assoc] at h
  obtain ⟨-, h2⟩ := Verif.Rag.split_last _ _ _ _ (Verif.Rag.decimal_no_colon i) (Verif.Rag.decimal_no_colon j) h
  rw [← Verif.Rag.readDec_decimal i, h2, Verif.Rag.readDec_decimal]

theorem mention_inj (u : Uni) (hc : u.letter ':' = false) {c c' n n' : String}
    (h : (mention c (entityNode u n)).id = (mention c' (entityNode u n')).id) : c = c' ∧ entityNode u n = entityNode u n' := by
  obtain ⟨x, hx, hxe⟩ := entity_parts u hc n
  obtain ⟨y, hy, hye⟩ := entity_parts u hc n'
  have h := congrArg String.toList h
  simp only [mention, String.toList_append, hxe, hye] at h
  rw [← List.append_assoc, ← List.append_assoc] at h
  obtain ⟨h1, h2⟩ := Verif.Rag.split_last _ _ _ _ hx hy h
  rw [List.append_cancel_right_eq, List.append_cancel_right_eq, List.append_cancel_left_eq] at h1
  refine ⟨String.toList_inj.1 h1, String.toList_inj.1 ?_⟩
  rw [hxe, hye, h2]

theorem rel_inj (u : Uni) (hc : u.letter ':' = false) (p : Props) (d : String) {i j : Nat} {r q : Rel}
    (h : (relEntry u p d i r).2.id = (relEntry u p d j q).2.id) :
    i = j ∧ entityNode u r.src = entityNode u q.src ∧ entityNode u r.dst = entityNode u q.dst ∧
      firstNonEmpty u r.rtype "related_to" = firstNonEmpty u q.rtype "related_to" := by
  obtain ⟨x, hx, hxe⟩ := entity_parts u hc r.src
  obtain ⟨x', hx', hxe'⟩ := entity_parts u hc r.dst
  obtain ⟨y, hy, hye⟩ := entity_parts u hc q.src
  obtain ⟨y', hy', hye'⟩ := entity_parts u hc q.dst
  have h := congrArg String.toList h
  simp only [relEntry, String.toList_append, hxe, hye, hxe', hye', chunkId, Verif.Rag.chunkId, String.toList_ofList] at h
  simp only [List.append_assoc, List.append_cancel_left_eq, List.cons_append, List.cons.injEq, true_and,
    show ":".toList = [':'] from rfl, List.nil_append] at h
  obtain ⟨h1, h⟩ := split_first _ _ _ _ (Verif.Rag.pad3_no_colon i) (Verif.Rag.pad3_no_colon j) h
  simp only [List.append_cancel_left_eq, List.cons.injEq, true_and] at h
  obtain ⟨h2, h⟩ := split_first _ _ _ _ hx hy h
  simp only [List.append_cancel_left_eq, List.cons.injEq, true_and] at h
  obtain ⟨h3, h⟩ := split_first _ _ _ _ hx' hy' h
  refine ⟨by rw [← Verif.Rag.readDec_pad3 i, h1, Verif.Rag.readDec_pad3], String.toList_inj.1 ?_, String.toList_inj.1 ?_, String.toList_inj.1 h⟩
  · rw [hxe, hye, h2]
  · rw [hxe', hye', h3]

/-- The key of a relation determines the chunk, the ends and the type. -/
theorem key_inj (u : Uni) (hc : u.letter '|' = false) (p : Props) (d : String) {i j : Nat} {r q : Rel}
    (h : (relEntry u p d i r).1 = (relEntry u p d j q).1) :
    i = j ∧ entityNode u r.src = entityNode u q.src ∧ entityNode u r.dst = entityNode u q.dst ∧
      firstNonEmpty u r.rtype "related_to" = firstNonEmpty u q.rtype "related_to" := by
  have h := congrArg String.toList h
  simp only [relEntry, String.toList_append, chunkId, Verif.Rag.chunkId, String.toList_ofList] at h
  simp only [List.append_assoc, List.append_cancel_left_eq, List.cons_append, List.cons.injEq, true_and,
    show "|".toList = ['|'] from rfl, List.nil_append] at h
  obtain ⟨h1, h⟩ := split_first _ _ _ _ (pad3_no_pipe i) (pad3_no_pipe j) h
  obtain ⟨h2, h⟩ := split_first _ _ _ _ (entity_no_pipe u hc _) (entity_no_pipe u hc _) h
  obtain ⟨h3, h⟩ := split_first _ _ _ _ (entity_no_pipe u hc _) (entity_no_pipe u hc _) h
  exact ⟨by rw [← Verif.Rag.readDec_pad3 i, h1, Verif.Rag.readDec_pad3], String.toList_inj.1 h2, String.toList_inj.1 h3, String.toList_inj.1 h⟩

/-! ### Maps -/

theorem fold_keys {β : Type} (l : List (String × β)) : ∀ m, KeysOk m → KeysOk (l.foldl (fun m e => putA m e.1 e.2) m) := by
  induction l with
  | nil => intro m h; exact h
  | cons a l ih => intro m h; exact ih _ (keys_put h _ _)

theorem fold_get {β : Type} (l : List (String × β)) : ∀ m x, getA (l.foldl (fun m e => putA m e.1 e.2) m) x =
    ((l.reverse.find? (fun e => decide (e.1 = x))).map Prod.snd).or (getA m x) := by
  induction l with
  | nil => intro m x; simp
  | cons a l ih =>
    intro m x
    rw [List.foldl_cons, ih, get_put, List.reverse_cons, List.find?_append]
    by_cases h : x = a.1
    · rw [if_pos h]
      cases l.reverse.find? (fun e => decide (e.1 = x)) <;> simp [h]
    · rw [if_neg h]
      have : ¬ a.1 = x := fun hh => h hh.symm
      cases l.reverse.find? (fun e => decide (e.1 = x)) <;> simp [this]

/-- The entries of a map filled from a list: for each key of the list the last value. -/
theorem fold_mem {β : Type} (l : List (String × β)) (x : String) (v : β) :
    (x, v) ∈ l.foldl (fun m e => putA m e.1 e.2) [] ↔ l.reverse.find? (fun e => decide (e.1 = x)) = some (x, v) := by
  rw [mem_get (fold_keys l [] (by simp [KeysOk])), fold_get]
  cases h : l.reverse.find? (fun e => decide (e.1 = x)) with
  | none => simp [getA]
  | some e =>
    have := List.find?_some h
    rw [decide_eq_true_eq] at this
    have e1 : (some e.2).or (getA ([] : List (String × β)) x) = some e.2 := rfl
    rw [Option.map_some, e1, Option.some.injEq, Option.some.injEq]
    constructor
    · intro hv; rw [← this, ← hv]
    · rintro rfl; rfl

theorem fold_sub {β : Type} {l : List (String × β)} {e : String × β} (h : e ∈ l.foldl (fun m e => putA m e.1 e.2) []) : e ∈ l := by
  obtain ⟨x, v⟩ := e
  exact List.mem_reverse.1 (List.mem_of_find?_eq_some ((fold_mem l x v).1 h))

theorem fold_key {β : Type} {l : List (String × β)} {e : String × β} (h : e ∈ l) :
    ∃ v, (e.1, v) ∈ l.foldl (fun m e => putA m e.1 e.2) [] := by
  cases hf : l.reverse.find? (fun a => decide (a.1 = e.1)) with
  | none =>
    rw [List.find?_eq_none] at hf
    exact absurd (decide_eq_true rfl) (hf e (List.mem_reverse.2 h))
  | some a =>
    have := List.find?_some hf
    rw [decide_eq_true_eq] at this
    refine ⟨a.2, (fold_mem l e.1 a.2).2 ?_⟩
    rw [hf, ← this]

/-! ### What a call writes -/

/-- The assumptions on the tables and on the orders in which maps are visited: a colon and a bar are not letters, and an order only permutes. -/
structure Fine (u : Uni) (o : Orders) : Prop where
  colon : u.letter ':' = false
  pipe : u.letter '|' = false
  rel : blank u "related_to" = false
  ents : ∀ l, (o.ents l).Perm l
  ments : ∀ l, (o.ments l).Perm l
  rels : ∀ l, (o.rels l).Perm l

/-- All edges handed over. -/
def allEdges (u : Uni) (p : Props) (o : Orders) (doc : String) (its : List Item) : List Edge :=
  its.flatMap (structEdges doc) ++ o.ments (mentions u doc its) ++ (o.rels (relations u p doc its)).map Prod.snd

theorem struct_mem {doc : String} {its : List Item} {e : Edge} (h : e ∈ its.flatMap (structEdges doc)) :
    ∃ it ∈ its, e = hasChunk doc it.i ∨ (0 < it.i ∧ e = nextChunk doc it.i) := by
  obtain ⟨it, hit, he⟩ := List.mem_flatMap.1 h
  refine ⟨it, hit, ?_⟩
  unfold structEdges at he
  rcases List.mem_cons.1 he with rfl | he
  · exact Or.inl rfl
  · split at he
    · rename_i hi
      exact Or.inr ⟨hi, List.mem_singleton.1 he⟩
    · cases he

theorem mention_mem {u : Uni} {doc : String} {its : List Item} {e : Edge} (h : e ∈ mentions u doc its) :
    ∃ it ∈ its, ∃ n ∈ entsOf it, blank u n.name = false ∧ e = mention (chunkId doc it.i) (entityNode u n.name) := by
  obtain ⟨it, hit, he⟩ := List.mem_flatMap.1 h
  obtain ⟨x, hx, rfl⟩ := List.mem_map.1 he
  rw [List.mem_dedup] at hx
  obtain ⟨y, hy, rfl⟩ := List.mem_map.1 hx
  obtain ⟨n, hn, rfl⟩ := List.mem_map.1 hy
  rw [List.mem_filter] at hn
  exact ⟨it, hit, n, hn.1, by simpa using hn.2, rfl⟩

theorem relation_mem {u : Uni} {p : Props} {doc : String} {its : List Item} {e : String × Edge} (h : e ∈ its.flatMap (relEntries u p doc)) :
    ∃ it ∈ its, ∃ r ∈ relsOf it, blank u r.src = false ∧ blank u r.dst = false ∧ e = relEntry u p doc it.i r := by
  obtain ⟨it, hit, he⟩ := List.mem_flatMap.1 h
  obtain ⟨r, hr, rfl⟩ := List.mem_map.1 he
  rw [List.mem_filter] at hr
  have := hr.2
  simp only [Bool.not_or, Bool.and_eq_true, Bool.not_eq_true'] at this
  exact ⟨it, hit, r, hr.1, this.1, this.2, rfl⟩

/-- What an edge handed over can be. -/
theorem all_mem {u : Uni} {p : Props} {o : Orders} (hf : Fine u o) {doc : String} {its : List Item} {e : Edge} (h : e ∈ allEdges u p o doc its) :
    ∃ it ∈ its, e = hasChunk doc it.i ∨ (0 < it.i ∧ e = nextChunk doc it.i) ∨
      (∃ n ∈ entsOf it, blank u n.name = false ∧ e = mention (chunkId doc it.i) (entityNode u n.name)) ∨
      ∃ r ∈ relsOf it, blank u r.src = false ∧ blank u r.dst = false ∧ e = (relEntry u p doc it.i r).2 := by
  unfold allEdges at h
  rcases List.mem_append.1 h with h | h
  · rcases List.mem_append.1 h with h | h
    · obtain ⟨it, h1, h2 | h2⟩ := struct_mem h
      · exact ⟨it, h1, Or.inl h2⟩
      · exact ⟨it, h1, Or.inr (Or.inl h2)⟩
    · obtain ⟨it, h1, h2⟩ := mention_mem ((hf.ments _).mem_iff.1 h)
      exact ⟨it, h1, Or.inr (Or.inr (Or.inl h2))⟩
  · obtain ⟨x, hx, rfl⟩ := List.mem_map.1 h
    obtain ⟨it, h1, r, h2, h3, h4, rfl⟩ := relation_mem (fold_sub ((hf.rels _).mem_iff.1 hx))
    exact ⟨it, h1, Or.inr (Or.inr (Or.inr ⟨r, h2, h3, h4, rfl⟩))⟩

theorem all_valid {u : Uni} {p : Props} {o : Orders} (hf : Fine u o) {doc : String} {its : List Item} :
    ∀ e ∈ allEdges u p o doc its, e.id ≠ "" ∧ e.src ≠ "" ∧ e.dst ≠ "" ∧ e.weight ≠ 0 := by
  intro e he
  have hid : ∀ {c : Char}, letter5 e = some c → e.id ≠ "" := by
    intro c h h0
    rw [letter5, h0] at h
    simp at h
  obtain ⟨it, -, rfl | ⟨-, rfl⟩ | ⟨n, -, -, rfl⟩ | ⟨r, -, -, -, rfl⟩⟩ := all_mem hf he
  · exact ⟨hid (hasChunk_kind _ _), (ne_empty u doc "" 0).2.1, (ne_empty u doc "" _).1, one_ne_zero⟩
  · exact ⟨hid (next_kind _ _), (ne_empty u doc "" _).1, (ne_empty u doc "" _).1, one_ne_zero⟩
  · exact ⟨hid (mention_kind _ _), (ne_empty u doc "" _).1, (ne_empty u doc _ 0).2.2, one_ne_zero⟩
  · refine ⟨hid (rel_kind u p doc it.i r), (ne_empty u doc _ 0).2.2, (ne_empty u doc _ 0).2.2, ?_⟩
    show (if r.weight = 0 then (1 : ℚ) else r.weight) ≠ 0
    split
    · exact one_ne_zero
    · assumption

theorem edge_of_id {doc : String} {its : List Item} (hnd : (its.map Item.i).Nodup) :
    ((its.flatMap (structEdges doc)).map Edge.id).Nodup := by
  induction its with
  | nil => simp
  | cons a its ih =>
    rw [List.map_cons, List.nodup_cons] at hnd
    rw [List.flatMap_cons, List.map_append, List.nodup_append]
    refine ⟨?_, ih hnd.2, ?_⟩
    · unfold structEdges
      split
      · rw [List.map_cons, List.map_cons, List.map_nil, List.nodup_cons, List.mem_singleton]
        refine ⟨fun h => ?_, List.nodup_singleton _⟩
        have h1 := hasChunk_kind doc a.i
        rw [letter5, h, ← letter5, next_kind] at h1
        exact absurd h1 (by decide)
      · exact List.nodup_singleton _
    · rintro x hx y hy rfl
      obtain ⟨e, he, rfl⟩ := List.mem_map.1 hx
      obtain ⟨e', he', hee⟩ := List.mem_map.1 hy
      obtain ⟨it, hit, h'⟩ := struct_mem he'
      obtain ⟨it0, hit0, h⟩ := struct_mem (its := [a]) (by simpa using he)
      rw [List.mem_singleton] at hit0
      subst hit0
      have hk : ∀ {x y : Edge}, x.id = y.id → letter5 x = letter5 y := fun h => by unfold letter5; rw [h]
      have : it0.i = it.i := by
        rcases h with rfl | ⟨-, rfl⟩ <;> rcases h' with rfl | ⟨-, rfl⟩
        · exact (dec_last hee).symm
        · have := hk hee; rw [next_kind, hasChunk_kind] at this; exact absurd this (by decide)
        · have := hk hee; rw [next_kind, hasChunk_kind] at this; exact absurd this (by decide)
        · exact (dec_last hee).symm
      exact hnd.1 (this ▸ List.mem_map_of_mem hit)

theorem mention_nodup {u : Uni} (hc : u.letter ':' = false) {doc : String} {its : List Item} (hnd : (its.map Item.i).Nodup) :
    ((mentions u doc its).map Edge.id).Nodup := by
  induction its with
  | nil => simp [mentions]
  | cons a its ih =>
    rw [List.map_cons, List.nodup_cons] at hnd
    have hm : mentions u doc (a :: its) = (((entries u a).map Prod.fst).dedup).map (mention (chunkId doc a.i)) ++ mentions u doc its := rfl
    have hent : ∀ x ∈ ((entries u a).map Prod.fst).dedup, ∃ n, x = entityNode u n := by
      intro x hx
      rw [List.mem_dedup] at hx
      obtain ⟨y, hy, rfl⟩ := List.mem_map.1 hx
      obtain ⟨n, -, rfl⟩ := List.mem_map.1 hy
      exact ⟨n.name, rfl⟩
    rw [hm, List.map_append, List.nodup_append]
    refine ⟨?_, ih hnd.2, ?_⟩
    · rw [List.map_map]
      refine List.Nodup.map_on ?_ (List.nodup_dedup _)
      intro x hx y hy hxy
      obtain ⟨n, rfl⟩ := hent x hx
      obtain ⟨n', rfl⟩ := hent y hy
      exact (mention_inj u hc hxy).2
    · rintro x hx y hy rfl
      obtain ⟨e, he, rfl⟩ := List.mem_map.1 hx
      obtain ⟨e', he', hee⟩ := List.mem_map.1 hy
      obtain ⟨z, hz, rfl⟩ := List.mem_map.1 he
      obtain ⟨n, rfl⟩ := hent z hz
      obtain ⟨it, hit, n', -, -, rfl⟩ := mention_mem he'
      have := (chunk_inj (mention_inj u hc hee).1).2
      exact hnd.1 (this ▸ List.mem_map_of_mem hit)

theorem rels_nodup {u : Uni} {p : Props} {o : Orders} (hf : Fine u o) {doc : String} {its : List Item} :
    (((o.rels (relations u p doc its)).map Prod.snd).map Edge.id).Nodup := by
  have hk : KeysOk (relations u p doc its) := fold_keys _ [] (by simp [KeysOk])
  rw [List.map_map, ((hf.rels _).map _).nodup_iff]
  refine List.Nodup.map_on ?_ (List.Nodup.of_map _ hk)
  intro x hx y hy hxy
  refine List.inj_on_of_nodup_map hk hx hy ?_
  obtain ⟨it, -, r, -, -, -, rfl⟩ := relation_mem (fold_sub hx)
  obtain ⟨it', -, r', -, -, -, rfl⟩ := relation_mem (fold_sub hy)
  obtain ⟨h1, h2, h3, h4⟩ := rel_inj u hf.colon p doc hxy
  simp only [relEntry, h1, h2, h3, h4]

theorem all_nodup {u : Uni} {p : Props} {o : Orders} (hf : Fine u o) {doc : String} {its : List Item} (hnd : (its.map Item.i).Nodup) :
    ((allEdges u p o doc its).map Edge.id).Nodup := by
  have hk : ∀ {x y : Edge}, x.id = y.id → letter5 x = letter5 y := fun h => by unfold letter5; rw [h]
  have hs : ∀ e ∈ its.flatMap (structEdges doc), letter5 e = some 'd' ∨ letter5 e = some 'c' := by
    intro e he
    obtain ⟨it, -, rfl | ⟨-, rfl⟩⟩ := struct_mem he
    · exact Or.inl (hasChunk_kind _ _)
    · exact Or.inr (next_kind _ _)
  have hm : ∀ e ∈ o.ments (mentions u doc its), letter5 e = some 'm' := by
    intro e he
    obtain ⟨it, -, n, -, -, rfl⟩ := mention_mem ((hf.ments _).mem_iff.1 he)
    exact mention_kind _ _
  have hr : ∀ e ∈ (o.rels (relations u p doc its)).map Prod.snd, letter5 e = some 'r' := by
    intro e he
    obtain ⟨x, hx, rfl⟩ := List.mem_map.1 he
    obtain ⟨it, -, r, -, -, -, rfl⟩ := relation_mem (fold_sub ((hf.rels _).mem_iff.1 hx))
    exact rel_kind _ _ _ _ _
  unfold allEdges
  rw [List.map_append, List.map_append, List.nodup_append, List.nodup_append]
  refine ⟨⟨edge_of_id hnd, ?_, ?_⟩, rels_nodup hf, ?_⟩
  · rw [((hf.ments _).map _).nodup_iff]
    exact mention_nodup hf.colon hnd
  · rintro x hx y hy rfl
    obtain ⟨e, he, rfl⟩ := List.mem_map.1 hx
    obtain ⟨e', he', hee⟩ := List.mem_map.1 hy
    have h1 := hm e' he'
    rw [hk hee] at h1
    rcases hs e he with h | h <;> rw [h] at h1 <;> exact absurd h1 (by decide)
  · rintro x hx y hy rfl
    obtain ⟨e', he', hee⟩ := List.mem_map.1 hy
    have h1 := hr e' he'
    rcases List.mem_append.1 hx with hx | hx
    · obtain ⟨e, he, rfl⟩ := List.mem_map.1 hx
      rw [hk hee] at h1
      rcases hs e he with h | h <;> rw [h] at h1 <;> exact absurd h1 (by decide)
    · obtain ⟨e, he, rfl⟩ := List.mem_map.1 hx
      rw [hk hee, hm e he] at h1
      exact absurd h1 (by decide)

/-- The edges after writing edges with different ids. -/
theorem edges_written {fk c : Bool} {s : State} {es : List Edge} {k : Counts}
    (hv : ∀ e ∈ es, e.id ≠ "" ∧ e.src ≠ "" ∧ e.dst ≠ "" ∧ e.weight ≠ 0) (hnd : (es.map Edge.id).Nodup)
    (h : (upsertEdgesBatch fk c s (es.map some)).2 = some k) :
    (upsertEdgesBatch fk c s (es.map some)).1.nodes = s.nodes ∧
    ∀ e, e ∈ (upsertEdgesBatch fk c s (es.map some)).1.edges ↔
      (e ∈ es ∧ ends fk s e = true) ∨ (e ∈ s.edges ∧ ∀ x ∈ es, ends fk s x = true → x.id ≠ e.id) := by
  have hc : upsertEdgesBatch fk c s (es.map some) = upsertEdgesBatch fk true s (es.map some) := by
    cases c with
    | true => rfl
    | false =>
      cases es with
      | nil => rfl
      | cons a es => simp [upsertEdgesBatch] at h
  rw [hc, (edges_batch fk es hv s).1]
  refine ⟨rfl, fun e => ?_⟩
  obtain ⟨p1, p2, p3⟩ := puts_spec (es.filter (ends fk s)) s.edges
  have hnd' : ((es.filter (ends fk s)).map Edge.id).Nodup := List.Nodup.sublist (List.filter_sublist.map _) hnd
  simp only
  constructor
  · intro he
    rcases p1 e he with h1 | ⟨h1, h2⟩
    · exact Or.inl (List.mem_filter.1 h1)
    · refine Or.inr ⟨h1, fun x hx hxe hid => h2 ?_⟩
      rw [← hid]
      exact List.mem_map_of_mem (List.mem_filter.2 ⟨hx, hxe⟩)
  · rintro (h1 | ⟨h1, h2⟩)
    · have hm := List.mem_filter.2 h1
      obtain ⟨x, h3, h4, h5⟩ := p3 e hm
      rwa [← inj_of_nodup hnd' h4 hm h5]
    · refine p2 e h1 ?_
      intro hm
      obtain ⟨x, hx, hid⟩ := List.mem_map.1 hm
      rw [List.mem_filter] at hx
      exact h2 x hx.1 hx.2 hid

/-- What a finished call has done to the graph. -/
structure Wrote (u : Uni) (p : Props) (o : Orders) (fk : Bool) (doc : String) (dn : Node) (its : List Item) (ev : String → List ℚ) (s s' : State) :
    Prop where
  root : getNode s' (docId doc) = some dn
  chunk : ∀ it ∈ its, getNode s' (chunkId doc it.i) = if it.vec = [] then getNode s (chunkId doc it.i) else some (chunkNode p doc it)
  ent : ∀ e ∈ entityTexts u its, getNode s' e.1 = if ev e.1 = [] then getNode s e.1 else some ⟨e.1, ev e.1, e.2.name, e.2.etype, p e.1⟩
  frame : ∀ id, id ≠ docId doc → (∀ it ∈ its, id ≠ chunkId doc it.i) → (∀ e ∈ entityTexts u its, id ≠ e.1) → getNode s' id = getNode s id
  edges : ∀ e, e ∈ s'.edges ↔ (e ∈ allEdges u p o doc its ∧ ends fk s' e = true) ∨
    (e ∈ s.edges ∧ ∀ x ∈ allEdges u p o doc its, ends fk s' x = true → x.id ≠ e.id)

theorem texts_mem {u : Uni} {its : List Item} {e : String × Ent} (h : e ∈ entityTexts u its) :
    ∃ it ∈ its, ∃ n ∈ entsOf it, blank u n.name = false ∧ e = (entityNode u n.name, ⟨n.name, firstNonEmpty u n.etype "entity"⟩) := by
  obtain ⟨it, hit, he⟩ := List.mem_flatMap.1 (fold_sub h)
  obtain ⟨n, hn, rfl⟩ := List.mem_map.1 he
  rw [List.mem_filter] at hn
  exact ⟨it, hit, n, hn.1, by simpa using hn.2, rfl⟩

theorem mentions_nil {u : Uni} {doc : String} {its : List Item} (h : entityTexts u its = []) : mentions u doc its = [] := by
  rw [List.eq_nil_iff_forall_not_mem]
  intro e he
  obtain ⟨it, hit, n, hn, hb, -⟩ := mention_mem he
  have hm : (entityNode u n.name, (⟨n.name, firstNonEmpty u n.etype "entity"⟩ : Ent)) ∈ its.flatMap (entries u) := by
    refine List.mem_flatMap.2 ⟨it, hit, List.mem_map.2 ⟨n, List.mem_filter.2 ⟨hn, by simp [hb]⟩, rfl⟩⟩
  obtain ⟨v, hv⟩ := fold_key hm
  have hv : _ ∈ entityTexts u its := hv
  rw [h] at hv
  cases hv

theorem entityNodes_some {p : Props} : ∀ {es : List (String × Ent)} {vs : List (List ℚ)} {ns : List Node}, entityNodes p es vs = some ns →
    ns.map Node.id = es.map Prod.fst ∧ (∀ i, i < es.length → (ns[i]?).map Node.vec = vs[i]? ∧ i < vs.length) ∧
    ∀ e ∈ es, ∃ n ∈ ns, n.id = e.1 ∧ n.content = e.2.name ∧ n.ntype = e.2.etype ∧ n.props = p e.1
  | [], _, ns, h => by
    simp only [entityNodes, Option.some.injEq] at h
    subst h
    simp
  | e :: es, [], ns, h => by simp [entityNodes] at h
  | e :: es, v :: vs, ns, h => by
    unfold entityNodes at h
    cases hr : entityNodes p es vs with
    | none => rw [hr] at h; cases h
    | some l =>
      rw [hr] at h
      simp only [Option.map_some, Option.some.injEq] at h
      subst h
      obtain ⟨h1, h2, h3⟩ := entityNodes_some hr
      refine ⟨by simp [h1], ?_, ?_⟩
      · intro i hi
        cases i with
        | zero => simp
        | succ i =>
          have := h2 i (by simpa using hi)
          simpa using this
      · intro x hx
        rcases List.mem_cons.1 hx with rfl | hx
        · exact ⟨_, List.mem_cons_self, rfl, rfl, rfl, rfl⟩
        · obtain ⟨n, hn, h4⟩ := h3 x hx
          exact ⟨n, List.mem_cons_of_mem _ hn, h4⟩

theorem chunkNodes_ok (p : Props) (doc : String) {its : List Item} (hnd : (its.map Item.i).Nodup) :
    ((its.map (chunkNode p doc)).map Node.id).Nodup := by
  rw [List.map_map]
  have : (Node.id ∘ chunkNode p doc) = (fun i => chunkId doc i) ∘ Item.i := rfl
  rw [this, ← List.map_map]
  exact List.Nodup.map (fun a b h => (chunk_inj h).2) hnd

theorem ends_nodes {fk : Bool} {s s' : State} (h : s.nodes = s'.nodes) (e : Edge) : ends fk s e = ends fk s' e := by
  unfold GraphTools.ends; rw [h]

/-- The vectors the embedder gave for the names of the entities, by entity. -/
def Embedded (embed : List String → Option (List (List ℚ))) (es : List (String × Ent)) (ev : String → List ℚ) : Prop :=
  es = [] ∨ ∃ vs, embed (es.map (fun e => e.2.name)) = some vs ∧ ∀ (i : Nat) e, es[i]? = some e → vs[i]? = some (ev e.1)

theorem store_ok {u : Uni} {p : Props} {embed : List String → Option (List (List ℚ))} {o : Orders} {f : Faults} {doc : String}
    {its : List Item} {s1 s' : State} {r : Result} {dn : Node} (hf : Fine u o) (hnd : (its.map Item.i).Nodup)
    (hd : getNode s1 (docId doc) = some dn) (h : store u p embed o f doc its s1 = (s', .ok r)) :
    (∃ ev, Embedded embed (o.ents (entityTexts u its)) ev ∧ Wrote u p o f.fk doc dn its ev s1 s') ∧ r = ⟨docId doc, its.map (fun it => chunkId doc it.i), (o.ents (entityTexts u its)).map Prod.fst⟩ := by
  unfold store at h
  split at h
  · cases h
  · simp only at h
    have hcn : ∀ n ∈ its.map (chunkNode p doc), n.id ≠ "" := by
      intro n hn
      obtain ⟨it, hit, rfl⟩ := List.mem_map.1 hn
      exact (ne_empty u doc "" _).1
    cases h1 : (upsertNodesBatch f.c1 s1 ((its.map (chunkNode p doc)).map some)).2 with
    | none => rw [h1] at h; cases h
    | some k =>
      rw [h1] at h
      simp only at h
      obtain ⟨b1, b2, b3⟩ := nodes_batch hcn (chunkNodes_ok p doc hnd) h1
      set s2 := (upsertNodesBatch f.c1 s1 ((its.map (chunkNode p doc)).map some)).1 with hs2
      have hch : ∀ id, (∀ it ∈ its, id ≠ chunkId doc it.i) → id ∉ (its.map (chunkNode p doc)).map Node.id := by
        intro id hid hm
        obtain ⟨n, hn, rfl⟩ := List.mem_map.1 hm
        obtain ⟨it, hit, rfl⟩ := List.mem_map.1 hn
        exact hid it hit rfl
      have key : ∀ (ev : String → List ℚ) (s3 : State) (ids : List String) (ments : List Edge), Embedded embed (o.ents (entityTexts u its)) ev →
          s3.edges = s1.edges → ids = (o.ents (entityTexts u its)).map Prod.fst →
          ments = o.ments (mentions u doc its) →
          getNode s3 (docId doc) = some dn →
          (∀ it ∈ its, getNode s3 (chunkId doc it.i) = if it.vec = [] then getNode s1 (chunkId doc it.i) else some (chunkNode p doc it)) →
          (∀ e ∈ entityTexts u its, getNode s3 e.1 = if ev e.1 = [] then getNode s1 e.1 else some ⟨e.1, ev e.1, e.2.name, e.2.etype, p e.1⟩) →
          (∀ id, id ≠ docId doc → (∀ it ∈ its, id ≠ chunkId doc it.i) → (∀ e ∈ entityTexts u its, id ≠ e.1) → getNode s3 id = getNode s1 id) →
          finish u p o f doc its s3 ids ments = (s', .ok r) →
            (∃ ev, Embedded embed (o.ents (entityTexts u its)) ev ∧ Wrote u p o f.fk doc dn its ev s1 s') ∧
            r = ⟨docId doc, its.map (fun it => chunkId doc it.i), (o.ents (entityTexts u its)).map Prod.fst⟩ := by
        intro ev s3 ids ments k0 k1 k2 k3 k4 k5 k6 k7 hfin
        subst k2; subst k3
        unfold finish at hfin
        simp only at hfin
        have heq : its.flatMap (structEdges doc) ++ o.ments (mentions u doc its) ++ (o.rels (relations u p doc its)).map Prod.snd =
          allEdges u p o doc its := rfl
        rw [heq] at hfin
        cases h2 : (upsertEdgesBatch f.fk f.c3 s3 ((allEdges u p o doc its).map some)).2 with
        | none => rw [h2] at hfin; cases hfin
        | some k' =>
          rw [h2] at hfin
          simp only [Prod.mk.injEq, Out.ok.injEq] at hfin
          obtain ⟨e1, e2⟩ := edges_written (all_valid hf) (all_nodup hf hnd) h2
          rw [hfin.1] at e1 e2
          have hg : ∀ id, getNode s' id = getNode s3 id := fun id => by unfold getNode; rw [e1]
          refine ⟨⟨ev, k0, ⟨?_, ?_, ?_, ?_, ?_⟩⟩, hfin.2.symm⟩
          · rw [hg]; exact k4
          · intro it hit; rw [hg]; exact k5 it hit
          · intro e he; rw [hg]; exact k6 e he
          · intro id i1 i2 i3; rw [hg]; exact k7 id i1 i2 i3
          · intro e
            rw [e2 e, k1]
            simp only [ends_nodes e1]
      have hdoc2 : getNode s2 (docId doc) = some dn := by
        rw [b3 _ (hch _ (fun it _ => (kinds u doc doc "" it.i).1.symm)), hd]
      have hchunk2 : ∀ it ∈ its, getNode s2 (chunkId doc it.i) =
          if it.vec = [] then getNode s1 (chunkId doc it.i) else some (chunkNode p doc it) :=
        fun it hit => b2 _ (List.mem_map_of_mem hit)
      by_cases he : o.ents (entityTexts u its) = []
      · rw [if_pos he] at h
        have hnil : entityTexts u its = [] := by
          have := hf.ents (entityTexts u its)
          rw [he] at this
          exact this.symm.eq_nil
        refine key (fun _ => []) s2 [] [] (Or.inl he) b1 (by rw [he]; rfl) ?_ hdoc2 hchunk2 ?_ ?_ h
        · rw [mentions_nil hnil]
          exact ((hf.ments []).eq_nil).symm
        · rw [hnil]; simp
        · intro id _ i2 _
          exact b3 id (hch id i2)
      · rw [if_neg he] at h
        cases hv : embed ((o.ents (entityTexts u its)).map (fun e => e.2.name)) with
        | none => rw [hv] at h; simp at h
        | some vs =>
          rw [hv] at h
          simp only at h
          cases hn : entityNodes p (o.ents (entityTexts u its)) vs with
          | none => rw [hn] at h; simp at h
          | some ns =>
            rw [hn] at h
            simp only at h
            obtain ⟨n1, n2, n3⟩ := entityNodes_some hn
            cases h2 : (upsertNodesBatch f.c2 s2 (ns.map some)).2 with
            | none => rw [h2] at h; cases h
            | some k2 =>
              rw [h2] at h
              simp only at h
              have hids : ∀ n ∈ ns, ∃ m : String, n.id = entityNode u m := by
                intro n hn'
                have : n.id ∈ (o.ents (entityTexts u its)).map Prod.fst := n1 ▸ List.mem_map_of_mem hn'
                obtain ⟨x, hx, hxe⟩ := List.mem_map.1 this
                obtain ⟨it, -, m, -, -, rfl⟩ := texts_mem ((hf.ents _).mem_iff.1 hx)
                exact ⟨m.name, hxe.symm⟩
              have hnv : ∀ n ∈ ns, n.id ≠ "" := by
                intro n hn'
                obtain ⟨m, hm⟩ := hids n hn'
                exact hm ▸ (ne_empty u doc m 0).2.2
              have hnn : (ns.map Node.id).Nodup := by
                rw [n1, ((hf.ents _).map _).nodup_iff]
                exact fold_keys _ [] (by simp [KeysOk])
              obtain ⟨q1, q2, q3⟩ := nodes_batch hnv hnn h2
              have hout : ∀ id, (∀ m : String, id ≠ entityNode u m) → id ∉ ns.map Node.id := by
                intro id hid hm
                obtain ⟨n, hn', rfl⟩ := List.mem_map.1 hm
                obtain ⟨m, hm⟩ := hids n hn'
                exact hid m hm
              have hev : ∀ n ∈ ns, ((ns.find? (fun m => decide (m.id = n.id))).map Node.vec).getD [] = n.vec := by
                intro n hn'
                cases hfi : ns.find? (fun m => decide (m.id = n.id)) with
                | none => rw [List.find?_eq_none] at hfi; exact absurd (decide_eq_true rfl) (hfi n hn')
                | some m =>
                  have h1 := List.find?_some hfi
                  rw [List.inj_on_of_nodup_map hnn (List.mem_of_find?_eq_some hfi) hn' (of_decide_eq_true h1)]
                  rfl
              refine key (fun id => ((ns.find? (fun m => decide (m.id = id))).map Node.vec).getD []) _ _ _ (Or.inr ⟨vs, hv, ?_⟩) (q1.trans b1)
                rfl rfl ?_ ?_ ?_ ?_ h
              · intro i e hi
                have hlt : i < (o.ents (entityTexts u its)).length := by
                  rcases Nat.lt_or_ge i (o.ents (entityTexts u its)).length with hh | hh
                  · exact hh
                  · rw [List.getElem?_eq_none hh] at hi; cases hi
                obtain ⟨m1, m2⟩ := n2 i hlt
                have hid : (ns.map Node.id)[i]? = some e.1 := by rw [n1, List.getElem?_map, hi]; rfl
                rw [List.getElem?_map] at hid
                cases hni : ns[i]? with
                | none => rw [hni] at hid; cases hid
                | some n =>
                  rw [hni] at hid m1
                  simp only [Option.map_some, Option.some.injEq] at hid m1
                  rw [← m1, ← hid]
                  exact congrArg some (hev n (List.mem_of_getElem? hni)).symm
              · rw [q3 _ (hout _ (fun m => (kinds u doc doc m 0).2.2)), hdoc2]
              · intro it hit
                rw [q3 _ (hout _ (fun m => (kinds u doc doc m it.i).2.1)), hchunk2 it hit]
              · intro e he'
                obtain ⟨n, hn', i1, i2, i3, i4⟩ := n3 e ((hf.ents _).mem_iff.2 he')
                have hs : getNode s2 e.1 = getNode s1 e.1 := by
                  obtain ⟨it, -, m, -, -, rfl⟩ := texts_mem he'
                  exact b3 _ (hch _ (fun it _ => (kinds u doc doc m.name it.i).2.1.symm))
                rw [← i1, q2 n hn', hev n hn', i1, hs, ← i2, ← i3, ← i4, ← i1]
              · intro id i1 i2 i3
                rw [q3 id ?_, b3 id (hch id i2)]
                intro hm
                rw [n1] at hm
                obtain ⟨x, hx, rfl⟩ := List.mem_map.1 hm
                exact i3 x ((hf.ents _).mem_iff.1 hx) rfl

/-- A call that succeeded: the chunks and what was written. -/
theorem insert_ok {u : Uni} {p : Props} {embed : List String → Option (List (List ℚ))} {dim : Nat}
    {extract : String → Option (Option Extraction)} {o : Orders} {f : Faults} {opts : Verif.Rag.IngestOpts} {doc title content : String}
    {s s' : State} {r : Result} (hf : Fine u o)
    (h : insertDocument u p embed dim extract o f opts doc title content s = (s', .ok r)) :
    ∃ vs its ev, embed (texts u content opts) = some vs ∧ collect extract vs 0 (texts u content opts) = .ok its ∧ its.map Item.i = List.range' 0 (texts u content opts).length ∧
      its.map Item.text = texts u content opts ∧ (∀ it ∈ its, vs[it.i]? = some it.vec ∧ extract it.text = some it.ext) ∧
      Embedded embed (o.ents (entityTexts u its)) ev ∧
      Wrote u p o f.fk doc (docNode u p doc title content (average vs dim)) its ev s s' ∧
      r = ⟨docId doc, its.map (fun it => chunkId doc it.i), (o.ents (entityTexts u its)).map Prod.fst⟩ := by
  unfold insertDocument at h
  split at h
  · cases h
  simp only at h
  split at h
  · cases h
  cases hv : embed (texts u content opts) with
  | none => rw [hv] at h; cases h
  | some vs =>
    rw [hv] at h
    simp only at h
    split at h
    · cases h
    split at h
    · cases h
    rename_i hup
    have hu : upsertNode s (some (docNode u p doc title content (average vs dim))) =
        ({ s with nodes := putNode s.nodes (docNode u p doc title content (average vs dim)),
                  index := reindex s.index (docNode u p doc title content (average vs dim)) }, true) := by
      unfold upsertNode at hup ⊢
      simp only at hup ⊢
      split
      · rename_i h1; simp [h1] at hup
      · rename_i h1
        split
        · rename_i h2; simp [h1, h2] at hup
        · rfl
    rw [hu] at h
    cases hc : collect extract vs 0 (texts u content opts) with
    | error => rw [hc] at h; cases h
    | panic => rw [hc] at h; cases h
    | ok its =>
      rw [hc] at h
      simp only at h
      obtain ⟨c1, c2, c3⟩ := collect_ok hc
      have hd : getNode (⟨putNode s.nodes (docNode u p doc title content (average vs dim)), s.edges,
          reindex s.index (docNode u p doc title content (average vs dim))⟩ : State) (docId doc) =
          some (docNode u p doc title content (average vs dim)) := by
        unfold getNode
        rw [find_put, if_pos (show (docNode u p doc title content (average vs dim)).id = docId doc from rfl)]
      obtain ⟨⟨ev, hev, w⟩, hr⟩ := store_ok hf (by rw [c1]; exact List.nodup_range') hd h
      have hput : ∀ id, id ≠ docId doc → getNode (⟨putNode s.nodes (docNode u p doc title content (average vs dim)), s.edges,
          reindex s.index (docNode u p doc title content (average vs dim))⟩ : State) id = getNode s id := by
        intro id i1
        unfold getNode
        rw [find_put, if_neg (show ¬ (docNode u p doc title content (average vs dim)).id = id from fun h => i1 h.symm)]
      refine ⟨vs, its, ev, rfl, hc, c1, c2, c3, hev, ⟨w.root, ?_, ?_, ?_, w.edges⟩, hr⟩
      · intro it hit
        rw [w.chunk it hit, hput _ (kinds u doc doc "" it.i).1]
      · intro e he
        obtain ⟨it, -, m, -, -, rfl⟩ := texts_mem he
        rw [w.ent _ he, hput _ (kinds u doc doc m.name 0).2.2.symm]
      · intro id i1 i2 i3
        rw [w.frame id i1 i2 i3, hput id i1]

end Verif.Ingest
