import Verif.Model.KnowRecord
import Verif.Thm.Ingest

/-!
C170 and C171: the knowledge record after saving and updating.
-/
namespace Verif.KnowRec
open Verif.Ingest (chunkId chunk_inj)

/-! ### Specification -/

/-- The record of `id` belongs to a request with these fields. -/
structure Shows (r : Record) (id title content source author coll : String) (info : Option (List (String × String))) (n : Nat) : Prop where
  sameId : r.id = id
  sameTitle : r.title = title
  sameContent : r.content = content
  sameSource : r.source = source
  sameAuthor : r.author = author
  sameColl : r.coll = coll
  sameInfo : r.info = info
  chunks : r.chunks = (List.range n).map (chunkId id)

/-- An entity written by a request: the id of its node, its name and its type. -/
structure Written where
  id : String
  name : String
  etype : String

/-- The entities a request writes, in this order: those found in the parts of the content, then the given ones. An entity without a type has the type
`entity`, a given one without a name is named by its id. -/
def writes (e : Env) (parts : List String) (es : List Entity) : List Written :=
  (parts.flatMap (fun t => (e.extract t).filterMap (fun x =>
    if e.blank x.1 then none else some ⟨e.key x.1, x.1, if e.blank x.2 then "entity" else x.2⟩))) ++
  es.filterMap (fun x => if e.blank x.name ∧ e.blank x.id then none
    else some ⟨e.resolve x.id x.name, if e.blank x.name then x.id else x.name, if e.blank x.etype then "entity" else x.etype⟩)

/-- `w` is the last of `ws` for its id. -/
def LastOf (ws : List Written) (w : Written) : Prop := ∃ pre post, ws = pre ++ w :: post ∧ ∀ v ∈ post, v.id ≠ w.id

/-- The entity with the id `i` was found in part `j` of the content of item `id`, or is given for the chunk of that part. -/
def Mentioned (e : Env) (id : String) (parts : List String) (es : List Entity) (j : Nat) (i : String) : Prop :=
  ∃ t, parts[j]? = some t ∧ ((∃ x ∈ e.extract t, e.blank x.1 = false ∧ e.key x.1 = i) ∨
    ∃ x ∈ es, ¬ (e.blank x.name = true ∧ e.blank x.id = true) ∧ e.resolve x.id x.name = i ∧ chunkId id j ∈ x.chunks)

/-- Of the entities a chunk mentions, the first neighbours are some, and all if there are not more than 29 (the document, the chunk before and the one after
are neighbours, too, and 32 are looked at). -/
structure Looks (e : Env) : Prop where
  some : ∀ c l, ∀ i ∈ e.near c l, i ∈ l
  all : ∀ c l, l.length ≤ 29 → ∀ i ∈ l, i ∈ e.near c l

/-- What every history keeps: rows belong to documents, links start at rows, a row with the id of a chunk belongs to
that chunk's document, every row is in a collection and
has the id of a chunk, no link is there twice. -/
structure WF (s : State) : Prop where
  owned : ∀ r ∈ s.rows, ∃ d ∈ s.docs, d.id = r.doc
  linked : ∀ l ∈ s.links, ∃ r ∈ s.rows, r.id = l.chunk
  named : ∀ r ∈ s.rows, ∀ id i, r.id = chunkId id i → r.doc = id
  coll : ∀ r ∈ s.rows, r.coll ≠ ""
  chunky : ∀ r ∈ s.rows, ∃ i, r.id = chunkId r.doc i
  once : s.links.Nodup

/-! ### Lemmas -/

theorem toStr_toAny (m : Option (List (String × String))) : toStr (toAny m) = m := by
  cases m with
  | none => rfl
  | some l =>
    simp only [toStr, toAny, Option.map_some, List.map_map]
    congr 1
    conv_rhs => rw [← List.map_id l]
    apply List.map_congr_left
    intro p _
    rfl

theorem find_map (docs : List Doc) (id : String) (f : Doc → Doc) (hf : ∀ d, (f d).id = d.id) :
    (docs.map (fun d => if d.id = id then f d else d)).find? (fun d => d.id = id) = (docs.find? (fun d => d.id = id)).map f := by
  induction docs with
  | nil => rfl
  | cons d ds ih =>
    by_cases h : d.id = id
    · simp [h, hf]
    · simp [h, ih]

theorem find_map_ne (docs : List Doc) (id k : String) (hk : k ≠ id) (f : Doc → Doc) (hf : ∀ d, (f d).id = d.id) :
    (docs.map (fun d => if d.id = id then f d else d)).find? (fun d => d.id = k) = docs.find? (fun d => d.id = k) := by
  induction docs with
  | nil => rfl
  | cons d ds ih =>
    by_cases h : d.id = id
    · have : ¬ d.id = k := fun h2 => hk (h2.symm.trans h)
      have h3 : ¬ (f d).id = k := by rw [hf]; exact this
      simp only [List.map_cons, if_pos h]
      rw [List.find?_cons_of_neg (by simpa using h3), List.find?_cons_of_neg (by simpa using this), ih]
    · simp only [List.map_cons, if_neg h]
      by_cases h2 : d.id = k
      · rw [List.find?_cons_of_pos (by simpa using h2), List.find?_cons_of_pos (by simpa using h2)]
      · rw [List.find?_cons_of_neg (by simpa using h2), List.find?_cons_of_neg (by simpa using h2), ih]

theorem getDoc_putRecord (s : State) (d : Doc) : ∃ x, getDoc (putRecord s d) d.id = some x ∧ x.id = d.id ∧ x.title = d.title ∧ x.content = d.content ∧
    x.source = d.source ∧ x.version = d.version ∧ x.author = d.author ∧ x.info = d.info ∧ x.updated = s.now ∧
    (x.acl = ((getDoc s d.id).map Doc.acl).getD none) ∧ x.created = ((getDoc s d.id).map Doc.created).getD s.now := by
  unfold putRecord
  cases h : getDoc s d.id with
  | none =>
    refine ⟨{ d with acl := none, created := s.now, updated := s.now }, ?_, rfl, rfl, rfl, rfl, rfl, rfl, rfl, rfl, rfl, rfl⟩
    unfold getDoc at h ⊢
    simp only
    rw [List.find?_append, h]
    simp
  | some y =>
    have hy : y.id = d.id := by
      have := List.find?_some h
      simpa using this
    refine ⟨{ y with title := d.title, content := d.content, source := d.source, version := d.version, author := d.author, info := d.info, updated := s.now },
      ?_, hy, rfl, rfl, rfl, rfl, rfl, rfl, rfl, rfl, rfl⟩
    unfold getDoc at h ⊢
    simp only
    rw [find_map _ _ (fun x => { x with title := d.title, content := d.content, source := d.source, version := d.version, author := d.author, info := d.info, updated := s.now }) (fun _ => rfl), h]
    rfl

theorem putRecord_rest (s : State) (d : Doc) : (putRecord s d).rows = s.rows ∧ (putRecord s d).links = s.links ∧ (putRecord s d).now = s.now ∧
    (putRecord s d).nodes = s.nodes := by
  unfold putRecord
  split <;> exact ⟨rfl, rfl, rfl, rfl⟩

theorem putRecord_ids (s : State) (d : Doc) (id : String) (h : (∃ x ∈ s.docs, x.id = id) ∨ id = d.id) : ∃ x ∈ (putRecord s d).docs, x.id = id := by
  unfold putRecord
  rcases h with ⟨x, hx, rfl⟩ | rfl
  · split
    · exact ⟨x, by simp [hx], rfl⟩
    · refine ⟨_, List.mem_map.2 ⟨x, hx, rfl⟩, ?_⟩
      split <;> rfl
  · cases hg : getDoc s d.id with
    | none => exact ⟨{ d with acl := none, created := s.now, updated := s.now }, by simp, rfl⟩
    | some y =>
      simp only
      refine ⟨_, List.mem_map.2 ⟨y, List.mem_of_find?_eq_some hg, rfl⟩, ?_⟩
      have hy : y.id = d.id := by
        have := List.find?_some hg
        simpa using this
      split <;> exact hy

theorem ingestRecord_rest (s : State) (id t c : String) : (ingestRecord s id t c).rows = s.rows ∧ (ingestRecord s id t c).links = s.links ∧
    (ingestRecord s id t c).now = s.now ∧ (ingestRecord s id t c).nodes = s.nodes := by
  unfold ingestRecord
  split <;> exact ⟨rfl, rfl, rfl, rfl⟩

theorem ingestRecord_ids (s : State) (id t c k : String) (h : (∃ x ∈ s.docs, x.id = k) ∨ k = id) : ∃ x ∈ (ingestRecord s id t c).docs, x.id = k := by
  unfold ingestRecord
  cases hg : getDoc s id with
  | none =>
    rcases h with ⟨x, hx, rfl⟩ | rfl
    · exact ⟨x, by simp [hx], rfl⟩
    · exact ⟨⟨k, t, "", c, 1, "", none, none, s.now, s.now⟩, by simp, rfl⟩
  | some y =>
    have key : ∃ x ∈ s.docs, x.id = k := by
      rcases h with h | rfl
      · exact h
      · exact ⟨y, List.mem_of_find?_eq_some hg, by have := List.find?_some hg; simpa using this⟩
    obtain ⟨x, hx, rfl⟩ := key
    refine ⟨_, List.mem_map.2 ⟨x, hx, rfl⟩, ?_⟩
    split <;> rfl

theorem getDoc_ingestRecord (s : State) (id t c : String) : ∃ x, getDoc (ingestRecord s id t c) id = some x ∧
    x.acl = ((getDoc s id).map Doc.acl).getD none ∧ x.created = ((getDoc s id).map Doc.created).getD s.now := by
  unfold ingestRecord
  cases h : getDoc s id with
  | none =>
    refine ⟨⟨id, t, "", c, 1, "", none, none, s.now, s.now⟩, ?_, rfl, rfl⟩
    unfold getDoc at h ⊢
    simp only
    rw [List.find?_append, h]
    simp
  | some y =>
    refine ⟨{ y with title := t, content := c, version := y.version + 1, updated := s.now }, ?_, rfl, rfl⟩
    unfold getDoc at h ⊢
    simp only
    rw [find_map _ _ (fun d => { d with title := t, content := c, version := d.version + 1, updated := s.now }) (fun _ => rfl), h]
    rfl

theorem fold_putRow (news : List Row) : ∀ rows : List Row, (news.map Row.id).Nodup →
    news.foldl putRow rows = rows.filter (fun r => decide (r.id ∉ news.map Row.id)) ++ news := by
  induction news with
  | nil =>
    intro rows _
    simp
  | cons n ns ih =>
    intro rows hn
    rw [List.map_cons, List.nodup_cons] at hn
    rw [List.foldl_cons, ih _ hn.2, putRow, List.filter_append, List.filter_filter]
    have h1 : ([n].filter (fun r => decide (r.id ∉ ns.map Row.id))) = [n] := by
      rw [List.filter_eq_self]
      intro r hr
      rw [List.mem_singleton.1 hr]
      simpa using hn.1
    rw [h1, List.append_assoc, List.singleton_append]
    congr 1
    apply List.filter_congr
    intro r _
    by_cases h2 : r.id = n.id <;> by_cases h3 : r.id ∈ ns.map Row.id <;> simp_all

theorem newRows_ids (id coll : String) (ts : List String) : (newRows id coll ts).map Row.id = (List.range ts.length).map (chunkId id) := by
  unfold newRows
  rw [List.map_map]
  have : (Row.id ∘ fun p : String × Nat => (⟨chunkId id p.2, id, coll, p.1⟩ : Row)) = (chunkId id) ∘ Prod.snd := rfl
  rw [this, ← List.map_map]
  congr 1
  rw [List.zipIdx_map_snd]
  simp [List.range_eq_range']

theorem newRows_nodup (id coll : String) (ts : List String) : ((newRows id coll ts).map Row.id).Nodup := by
  rw [newRows_ids]
  exact List.nodup_range.map (fun a b h => (chunk_inj h).2)

theorem mem_newRows {id coll : String} {ts : List String} {r : Row} (h : r ∈ newRows id coll ts) : r.doc = id ∧ r.coll = coll ∧ ∃ i, r.id = chunkId id i := by
  obtain ⟨p, -, rfl⟩ := List.mem_map.1 h
  exact ⟨rfl, rfl, p.2, rfl⟩

theorem mem_addLinks (new : List Link) : ∀ (ls : List Link) (l : Link), l ∈ new.foldl addLink ls ↔ l ∈ ls ∨ l ∈ new := by
  induction new with
  | nil => simp
  | cons n ns ih =>
    intro ls l
    rw [List.foldl_cons, ih, addLink]
    split
    · rename_i h
      constructor
      · rintro (h | h)
        · exact Or.inl h
        · exact Or.inr (List.mem_cons_of_mem _ h)
      · rintro (h' | h')
        · exact Or.inl h'
        · rcases List.mem_cons.1 h' with rfl | h'
          · exact Or.inl h
          · exact Or.inr h'
    · simp [or_assoc]

theorem addLinks_nodup (new : List Link) : ∀ ls : List Link, ls.Nodup → (new.foldl addLink ls).Nodup := by
  induction new with
  | nil => exact fun _ h => h
  | cons n ns ih =>
    intro ls h
    rw [List.foldl_cons]
    apply ih
    unfold addLink
    split
    · exact h
    · rename_i hn
      exact List.nodup_append.2 ⟨h, List.nodup_singleton _, fun a ha b hb hab => hn (by rw [List.mem_singleton.1 hb] at hab; exact hab ▸ ha)⟩

theorem mem_named {e : Env} {t : String} {x : String × String} (h : x ∈ named e t) : x ∈ e.extract t ∧ e.blank x.1 = false := by
  obtain ⟨h1, h2⟩ := List.mem_filter.1 h
  exact ⟨h1, by simpa using h2⟩

theorem found_chunk (e : Env) (id : String) (ts : List String) (l : Link) (h : l ∈ found e id ts) :
    ∃ i t, ts[i]? = some t ∧ l.chunk = chunkId id i ∧ ∃ x ∈ e.extract t, e.blank x.1 = false ∧ e.key x.1 = l.ent := by
  obtain ⟨p, hp, hl⟩ := List.mem_flatMap.1 h
  obtain ⟨x, hx, rfl⟩ := List.mem_map.1 hl
  have := List.mem_zipIdx_iff_getElem?.1 hp
  exact ⟨p.2, p.1, this, rfl, x, (mem_named hx).1, (mem_named hx).2, rfl⟩

theorem mem_useful {e : Env} {es : List Entity} {x : Entity} : x ∈ useful e es ↔ x ∈ es ∧ ¬ (e.blank x.name = true ∧ e.blank x.id = true) := by
  unfold useful
  rw [List.mem_filter]
  cases e.blank x.name <;> cases e.blank x.id <;> simp

theorem mem_given {e : Env} {es : List Entity} {l : Link} (h : l ∈ given e es) :
    ∃ x ∈ es, ¬ (e.blank x.name = true ∧ e.blank x.id = true) ∧ e.resolve x.id x.name = l.ent ∧ l.chunk ∈ x.chunks := by
  obtain ⟨x, hx, hl⟩ := List.mem_flatMap.1 h
  obtain ⟨c, hc, rfl⟩ := List.mem_map.1 hl
  exact ⟨x, (mem_useful.1 hx).1, (mem_useful.1 hx).2, rfl, List.mem_of_mem_filter hc⟩

/-- The nodes written are those the specification lists. -/
theorem writes_eq (e : Env) (ts : List String) (es : List Entity) :
    (foundNodes e ts ++ givenNodes e es).map (fun n => (⟨n.id, n.name, n.etype⟩ : Written)) = writes e ts es := by
  have h1 : ∀ t, (named e t).map (fun x => (⟨e.key x.1, x.1, firstOr e x.2 "entity"⟩ : Written)) =
      (e.extract t).filterMap (fun x => if e.blank x.1 then none else some ⟨e.key x.1, x.1, if e.blank x.2 then "entity" else x.2⟩) := by
    intro t
    unfold named
    induction e.extract t with
    | nil => rfl
    | cons a l ih =>
      rw [List.filterMap_cons, List.filter_cons]
      simp only [firstOr] at ih ⊢
      cases h : e.blank a.1 <;> simp [ih]
  have h2 : (useful e es).map (fun x => (⟨e.resolve x.id x.name, firstOr e x.name x.id, firstOr e x.etype "entity"⟩ : Written)) =
      es.filterMap (fun x => if e.blank x.name ∧ e.blank x.id then none
        else some ⟨e.resolve x.id x.name, if e.blank x.name then x.id else x.name, if e.blank x.etype then "entity" else x.etype⟩) := by
    unfold useful
    induction es with
    | nil => rfl
    | cons a l ih =>
      rw [List.filterMap_cons, List.filter_cons]
      simp only [firstOr] at ih ⊢
      cases h : e.blank a.name <;> cases h' : e.blank a.id <;> simp [← ih, h]
  unfold writes foundNodes givenNodes
  rw [List.map_append, List.map_flatMap, List.map_map]
  congr 1
  · apply List.flatMap_congr
    intro t _
    rw [← h1 t, List.map_map]
    rfl

/-- The node with an id after writing: the last one written, or the one before. -/
theorem find_putNodes (i : String) (new : List Node) : ∀ ns : List Node,
    (new.foldl putNode ns).find? (fun n => n.id = i) = (new.reverse.find? (fun n => n.id = i)).or (ns.find? (fun n => n.id = i)) := by
  induction new with
  | nil => intro ns; simp
  | cons n l ih =>
    intro ns
    rw [List.foldl_cons, ih, List.reverse_cons, List.find?_append, putNode, List.find?_append, List.find?_filter]
    by_cases h : n.id = i
    · have e1 : (fun x : Node => decide (decide (x.id ≠ n.id) = true ∧ decide (x.id = i) = true)) = fun _ => false := by
        funext x
        by_cases hx : x.id = i <;> simp [hx, h]
      have e2 : ns.find? (fun x => decide (decide (x.id ≠ n.id) = true ∧ decide (x.id = i) = true)) = none := by
        rw [e1, List.find?_eq_none]; simp
      have e3 : [n].find? (fun x => decide (x.id = i)) = some n := by simp [h]
      simp only [e3]
      rw [e2]
      cases l.reverse.find? (fun n => decide (n.id = i)) <;> rfl
    · have e1 : (fun x : Node => decide (decide (x.id ≠ n.id) = true ∧ decide (x.id = i) = true)) = fun x => decide (x.id = i) := by
        funext x
        by_cases hx : x.id = i
        · have : ¬ i = n.id := fun a => h a.symm
          simp [hx, this]
        · simp [hx]
      have e3 : [n].find? (fun x => decide (x.id = i)) = none := by simp [h]
      simp only [e1, e3, Option.or_none, Option.none_or]

/-- A node found among those written is the last for its id. -/
theorem find_last (i : String) (ws : List Node) (n : Node) (h : ws.reverse.find? (fun n => n.id = i) = some n) :
    n.id = i ∧ ∃ pre post, ws = pre ++ n :: post ∧ ∀ v ∈ post, v.id ≠ i := by
  obtain ⟨h1, as, bs, h2, h3⟩ := List.find?_eq_some_iff_append.1 h
  refine ⟨by simpa using h1, bs.reverse, as.reverse, ?_, ?_⟩
  · rw [← List.reverse_reverse ws, h2]
    simp
  · intro v hv
    simpa using h3 v (List.mem_reverse.1 hv)

theorem find_last_iff (i : String) (ws : List Node) (n : Node) (hn : n.id = i) (pre post : List Node) (h : ws = pre ++ n :: post) (hp : ∀ v ∈ post, v.id ≠ i) :
    ws.reverse.find? (fun n => n.id = i) = some n := by
  subst h
  rw [List.reverse_append, List.reverse_cons, List.append_assoc, List.find?_append]
  have : post.reverse.find? (fun n => decide (n.id = i)) = none := by
    rw [List.find?_eq_none]
    intro v hv
    simpa using hp v (List.mem_reverse.1 hv)
  rw [this]
  simp [hn]

/-! ### The invariant -/

theorem wf_cleanup (s : State) (id : String) (h : WF s) : WF (cleanup s id) := by
  refine ⟨?_, ?_, ?_, fun r hr => h.coll r (List.mem_of_mem_filter hr), fun r hr => h.chunky r (List.mem_of_mem_filter hr), h.once.filter _⟩
  · intro r hr
    obtain ⟨h1, h2⟩ := List.mem_filter.1 hr
    obtain ⟨d, hd, he⟩ := h.owned r h1
    refine ⟨d, List.mem_filter.2 ⟨hd, ?_⟩, he⟩
    simp only [decide_eq_true_eq] at h2 ⊢
    rwa [he]
  · intro l hl
    obtain ⟨h1, h2⟩ := List.mem_filter.1 hl
    obtain ⟨r, hr, he⟩ := h.linked l h1
    refine ⟨r, List.mem_filter.2 ⟨hr, ?_⟩, he⟩
    simp only [decide_eq_true_eq] at h2 ⊢
    intro hd
    apply h2
    rw [← he]
    exact List.mem_map_of_mem (List.mem_filter.2 ⟨hr, by simpa using hd⟩)
  · intro r hr
    exact h.named r (List.mem_of_mem_filter hr)

theorem wf_entities (e : Env) (s : State) (es : List Entity) (h : WF s) : WF (upsertEntities e s es) := by
  unfold upsertEntities
  refine ⟨h.owned, ?_, h.named, h.coll, h.chunky, addLinks_nodup _ _ h.once⟩
  intro l hl
  rcases (mem_addLinks _ _ l).1 hl with hl | hl
  · exact h.linked l hl
  · have := (List.mem_filter.1 hl).2
    simp only [decide_eq_true_eq] at this
    obtain ⟨r, hr, he⟩ := List.mem_map.1 this
    exact ⟨r, hr, he⟩

/-- The state before the given entities are linked. -/
def base (e : Env) (s : State) (id title content coll : String) (size overlap : Int) : State :=
  let s1 := ingestRecord s id title content
  { s1 with rows := (newRows id (if coll = "" then defaultColl else coll) (e.split size overlap content)).foldl putRow s1.rows
            nodes := (foundNodes e (e.split size overlap content)).foldl putNode s1.nodes
            links := (found e id (e.split size overlap content)).foldl addLink s1.links }

theorem ingest_eq (e : Env) (s : State) (id title content coll : String) (size overlap : Int) (es : List Entity) :
    ingest e s id title content coll size overlap es = if e.split size overlap content = [] then (s, false)
      else (upsertEntities e (base e s id title content coll size overlap) es, true) := rfl

theorem base_rows (e : Env) (s : State) (id title content coll : String) (size overlap : Int) :
    (base e s id title content coll size overlap).rows = s.rows.filter (fun r => decide (r.id ∉ (List.range (e.split size overlap content).length).map (chunkId id))) ++
      newRows id (if coll = "" then defaultColl else coll) (e.split size overlap content) := by
  unfold base
  simp only
  rw [fold_putRow _ _ (newRows_nodup _ _ _), newRows_ids, (ingestRecord_rest s id title content).1]

theorem wf_base (e : Env) (s : State) (id title content coll : String) (size overlap : Int) (h : WF s) : WF (base e s id title content coll size overlap) := by
  have hr := base_rows e s id title content coll size overlap
  have hids : ∀ c, (c ∈ (List.range (e.split size overlap content).length).map (chunkId id)) →
      ∃ r ∈ (base e s id title content coll size overlap).rows, r.id = c := by
    intro c hc
    rw [← newRows_ids id (if coll = "" then defaultColl else coll)] at hc
    obtain ⟨r, hr1, hr2⟩ := List.mem_map.1 hc
    exact ⟨r, by rw [hr]; exact List.mem_append_right _ hr1, hr2⟩
  refine ⟨?_, ?_, ?_, ?_, ?_, addLinks_nodup _ _ (by rw [(ingestRecord_rest s id title content).2.1]; exact h.once)⟩
  · intro r hm
    rw [hr] at hm
    apply ingestRecord_ids
    rcases List.mem_append.1 hm with hm | hm
    · exact Or.inl (h.owned r (List.mem_of_mem_filter hm))
    · exact Or.inr (mem_newRows hm).1
  · intro l hl
    rcases (mem_addLinks _ _ l).1 hl with hl | hl
    · rw [(ingestRecord_rest s id title content).2.1] at hl
      obtain ⟨r, h1, h2⟩ := h.linked l hl
      by_cases hc : r.id ∈ (List.range (e.split size overlap content).length).map (chunkId id)
      · rw [← h2]
        exact hids _ hc
      · exact ⟨r, by rw [hr]; exact List.mem_append_left _ (List.mem_filter.2 ⟨h1, by simpa using hc⟩), h2⟩
    · obtain ⟨i, t, h1, h2, -⟩ := found_chunk e id _ l hl
      rw [h2]
      apply hids
      exact List.mem_map.2 ⟨i, List.mem_range.2 (List.getElem?_eq_some_iff.1 h1).1, rfl⟩
  · intro r hm id' i he
    rw [hr] at hm
    rcases List.mem_append.1 hm with hm | hm
    · exact h.named r (List.mem_of_mem_filter hm) id' i he
    · obtain ⟨h1, -, j, h2⟩ := mem_newRows hm
      rw [h1]
      exact (chunk_inj (h2.symm.trans he)).1
  · intro r hm
    rw [hr] at hm
    rcases List.mem_append.1 hm with hm | hm
    · exact h.coll r (List.mem_of_mem_filter hm)
    · rw [(mem_newRows hm).2.1]
      split
      · simp [defaultColl]
      · assumption
  · intro r hm
    rw [hr] at hm
    rcases List.mem_append.1 hm with hm | hm
    · exact h.chunky r (List.mem_of_mem_filter hm)
    · obtain ⟨h1, -, h2⟩ := mem_newRows hm
      rwa [h1]

theorem wf_ingest (e : Env) (s : State) (id title content coll : String) (size overlap : Int) (es : List Entity) (h : WF s) :
    WF (ingest e s id title content coll size overlap es).1 := by
  rw [ingest_eq]
  split
  · exact h
  · exact wf_entities e _ es (wf_base e s id title content coll size overlap h)

theorem wf_putRecord (s : State) (d : Doc) (h : WF s) : WF (putRecord s d) := by
  obtain ⟨h1, h2, -⟩ := putRecord_rest s d
  refine ⟨?_, ?_, ?_, by rw [h1]; exact h.coll, by rw [h1]; exact h.chunky, by rw [h2]; exact h.once⟩
  · intro r hr
    rw [h1] at hr
    exact putRecord_ids s d r.doc (Or.inl (h.owned r hr))
  · rw [h1, h2]
    exact h.linked
  · rw [h1]
    exact h.named

theorem wf_step (e : Env) (s : State) (op : Op) (h : WF s) : WF (step e s op) := by
  cases op with
  | save q =>
    unfold step save
    simp only
    split
    · exact h
    · split
      · exact h
      · repeat' split
        all_goals first
          | exact wf_ingest e _ _ _ _ _ _ _ _ h
          | exact wf_putRecord _ _ (wf_ingest e _ _ _ _ _ _ _ _ h)
          | exact wf_ingest e _ _ _ _ _ _ _ _ (wf_cleanup s q.id h)
          | exact wf_putRecord _ _ (wf_ingest e _ _ _ _ _ _ _ _ (wf_cleanup s q.id h))
  | update q =>
    unfold step update
    simp only
    repeat' split
    all_goals first
      | exact h
      | exact wf_ingest e _ _ _ _ _ _ _ _ (wf_cleanup s q.id h)
      | exact wf_putRecord _ _ (wf_ingest e _ _ _ _ _ _ _ _ (wf_cleanup s q.id h))
      | exact wf_entities e s _ h
      | exact wf_putRecord _ _ (wf_entities e s _ h)
  | document d =>
    refine ⟨?_, h.linked, h.named, h.coll, h.chunky, h.once⟩
    intro r hr
    obtain ⟨x, hx, he⟩ := h.owned r hr
    refine ⟨_, List.mem_map.2 ⟨x, hx, rfl⟩, ?_⟩
    split
    · rename_i hd
      rw [← he, hd]
    · exact he
  | tick => exact ⟨h.owned, h.linked, h.named, h.coll, h.chunky, h.once⟩

theorem wf_run (e : Env) (ops : List Op) : ∀ s, WF s → WF (run e s ops) := by
  induction ops with
  | nil => exact fun s h => h
  | cons op ops ih => exact fun s h => ih _ (wf_step e s op h)

theorem wf_init : WF init := ⟨by simp [init], by simp [init], by simp [init], by simp [init], by simp [init], by simp [init]⟩

/-! ### After an ingestion -/

theorem entities_rest (e : Env) (s : State) (es : List Entity) : (upsertEntities e s es).docs = s.docs ∧ (upsertEntities e s es).rows = s.rows ∧
    (upsertEntities e s es).now = s.now := ⟨rfl, rfl, rfl⟩

theorem ingest_ok (e : Env) (s : State) (id title content coll : String) (size overlap : Int) (es : List Entity)
    (hok : (ingest e s id title content coll size overlap es).2 = true) (hno : chunksOf s id = []) :
    e.split size overlap content ≠ [] ∧
    chunksOf (ingest e s id title content coll size overlap es).1 id = newRows id (if coll = "" then defaultColl else coll) (e.split size overlap content) ∧
    (ingest e s id title content coll size overlap es).1.docs = (ingestRecord s id title content).docs ∧
    (ingest e s id title content coll size overlap es).1.now = s.now ∧
    (∀ l, l ∈ (ingest e s id title content coll size overlap es).1.links ↔ l ∈ s.links ∨ l ∈ found e id (e.split size overlap content) ∨
      l ∈ given e es ∧ l.chunk ∈ (base e s id title content coll size overlap).rows.map Row.id) ∧
    (∀ i, nodeOf (ingest e s id title content coll size overlap es).1 i =
      ((foundNodes e (e.split size overlap content) ++ givenNodes e es).reverse.find? (fun n => n.id = i)).or (nodeOf s i)) := by
  rw [ingest_eq] at hok ⊢
  by_cases hs : e.split size overlap content = []
  · rw [if_pos hs] at hok
    simp at hok
  · rw [if_neg hs] at hok ⊢
    obtain ⟨h1, h2, h3⟩ := entities_rest e (base e s id title content coll size overlap) es
    refine ⟨hs, ?_, h1, ?_, ?_, ?_⟩
    · unfold chunksOf at hno ⊢
      rw [h2, base_rows, List.filter_append, List.filter_filter]
      have e1 : s.rows.filter (fun r => decide (r.doc = id) && decide (r.id ∉ (List.range (e.split size overlap content).length).map (chunkId id))) = [] := by
        rw [List.filter_eq_nil_iff] at hno ⊢
        intro r hr
        have := hno r hr
        simp_all
      rw [e1, List.nil_append, List.filter_eq_self]
      intro r hr
      simpa using (mem_newRows hr).1
    · rw [h3]
      exact (ingestRecord_rest s id title content).2.2.1
    · intro l
      have hb : (base e s id title content coll size overlap).links = (found e id (e.split size overlap content)).foldl addLink s.links := by
        unfold base
        simp only
        rw [(ingestRecord_rest s id title content).2.1]
      unfold upsertEntities
      simp only
      rw [mem_addLinks, hb, mem_addLinks, List.mem_filter, or_assoc]
      simp only [decide_eq_true_eq]
    · intro i
      have hb : (base e s id title content coll size overlap).nodes = (foundNodes e (e.split size overlap content)).foldl putNode s.nodes := by
        unfold base
        simp only
        rw [(ingestRecord_rest s id title content).2.2.2]
      unfold nodeOf upsertEntities
      simp only
      rw [hb, find_putNodes, find_putNodes, List.reverse_append, List.find?_append, Option.or_assoc]

theorem getDoc_congr (s t : State) (id : String) (h : s.docs = t.docs) : getDoc s id = getDoc t id := by
  unfold getDoc
  rw [h]

/-- The record after ingestion and the last write. -/
theorem shown (e : Env) (s : State) (id title content coll : String) (size overlap : Int) (es : List Entity) (source author : String) (v : Nat)
    (info : Option (List (String × String))) (hid : id ≠ "") (hok : (ingest e s id title content coll size overlap es).2 = true) (hno : chunksOf s id = []) :
    ∃ r d, load e (putRecord (ingest e s id title content coll size overlap es).1 ⟨id, title, source, content, v, author, toAny info, none, 0, 0⟩) id = some r ∧
      getDoc (putRecord (ingest e s id title content coll size overlap es).1 ⟨id, title, source, content, v, author, toAny info, none, 0, 0⟩) id = some d ∧
      Shows r id title content source author (if coll = "" then defaultColl else coll) info (e.split size overlap content).length ∧
      d.version = v ∧ r.updated = s.now ∧ r.created = ((getDoc s id).map Doc.created).getD s.now ∧ d.created = r.created ∧ d.acl = ((getDoc s id).map Doc.acl).getD none ∧
      r.ents = ((r.chunks.flatMap (chunkNames e (ingest e s id title content coll size overlap es).1)).filter (fun n => !e.blank n)).dedup := by
  obtain ⟨i1, i2, i3, i4, -⟩ := ingest_ok e s id title content coll size overlap es hok hno
  obtain ⟨x, h1, h2, h3, h4, h5, h6, h7, h8, h9, h10, h11⟩ := getDoc_putRecord (ingest e s id title content coll size overlap es).1
    ⟨id, title, source, content, v, author, toAny info, none, 0, 0⟩
  obtain ⟨p1, p2, -, p4⟩ := putRecord_rest (ingest e s id title content coll size overlap es).1 ⟨id, title, source, content, v, author, toAny info, none, 0, 0⟩
  obtain ⟨y, g1, g2, g3⟩ := getDoc_ingestRecord s id title content
  simp only at h1 h2 h3 h4 h5 h6 h7 h8 h10 h11
  rw [getDoc_congr _ _ id i3, g1] at h10 h11
  simp only [Option.map_some, Option.getD_some] at h10 h11
  have hch : chunksOf (putRecord (ingest e s id title content coll size overlap es).1 ⟨id, title, source, content, v, author, toAny info, none, 0, 0⟩) id =
      newRows id (if coll = "" then defaultColl else coll) (e.split size overlap content) := by
    rw [← i2]
    unfold chunksOf
    rw [p1]
  have hcoll : collOf (putRecord (ingest e s id title content coll size overlap es).1 ⟨id, title, source, content, v, author, toAny info, none, 0, 0⟩) id =
      (if coll = "" then defaultColl else coll) := by
    unfold collOf
    rw [hch]
    cases hz : newRows id (if coll = "" then defaultColl else coll) (e.split size overlap content) with
    | nil =>
      have := congrArg List.length hz
      simp [newRows] at this
      exact absurd this i1
    | cons r rs => exact (mem_newRows (hz ▸ List.mem_cons_self : r ∈ newRows id _ _)).2.1
  have hload : ∀ S, getDoc S id = some x → load e S id = some ⟨x.id, x.title, x.content, x.source, x.author, collOf S id, toStr x.info, (chunksOf S id).map Row.id,
      ((((chunksOf S id).map Row.id).flatMap (chunkNames e S)).filter (fun n => !e.blank n)).dedup, x.created, x.updated⟩ := by
    intro S hS
    unfold load
    rw [if_neg hid, hS]
  refine ⟨_, x, hload _ h1, h1, ⟨h2, h3, h4, h5, h7, hcoll, ?_, ?_⟩, h6, h9.trans i4, h11.trans g3, rfl, h10.trans g2, ?_⟩
  · simp only
    rw [h8, toStr_toAny]
  · simp only
    rw [hch, newRows_ids]
  · simp only
    have : chunkNames e (putRecord (ingest e s id title content coll size overlap es).1 ⟨id, title, source, content, v, author, toAny info, none, 0, 0⟩) =
        chunkNames e (ingest e s id title content coll size overlap es).1 := by
      funext c
      unfold chunkNames
      rw [p2]
      congr 1
      funext i
      unfold nameOf nodeOf
      rw [p4]
    rw [this]

/-- The entities shown after an ingestion: those mentioned, as they were last written. -/
theorem shown_ents (e : Env) (he : Looks e) (s : State) (hw : WF s) (id title content coll : String) (size overlap : Int) (es : List Entity)
    (hok : (ingest e s id title content coll size overlap es).2 = true) (hno : chunksOf s id = []) (hl : ∀ i, ∀ l ∈ s.links, l.chunk ≠ chunkId id i) :
    (∀ j n, n ∈ chunkNames e (ingest e s id title content coll size overlap es).1 (chunkId id j) →
      ∃ i, Mentioned e id (e.split size overlap content) es j i ∧ LastOf (writes e (e.split size overlap content) es) ⟨i, n, "entity"⟩) ∧
    (∀ j i n, Mentioned e id (e.split size overlap content) es j i → LastOf (writes e (e.split size overlap content) es) ⟨i, n, "entity"⟩ →
      ((((e.split size overlap content)[j]?).map (fun t => (e.extract t).length)).getD 0) + (es.filter (fun x => decide (chunkId id j ∈ x.chunks))).length ≤ 29 →
      n ∈ chunkNames e (ingest e s id title content coll size overlap es).1 (chunkId id j)) := by
  obtain ⟨i1, i2, i3, i4, i5, i6⟩ := ingest_ok e s id title content coll size overlap es hok hno
  have hrow : ∀ j, chunkId id j ∈ (base e s id title content coll size overlap).rows.map Row.id ↔ j < (e.split size overlap content).length := by
    intro j
    rw [base_rows, List.map_append, newRows_ids, List.mem_append]
    constructor
    · rintro (h | h)
      · obtain ⟨r, hr, he⟩ := List.mem_map.1 h
        have h1 := hw.named r (List.mem_of_mem_filter hr) id j he
        have : r ∈ chunksOf s id := List.mem_filter.2 ⟨List.mem_of_mem_filter hr, by simpa using h1⟩
        rw [hno] at this
        simp at this
      · obtain ⟨i, hi, he⟩ := List.mem_map.1 h
        rw [← (chunk_inj he).2]
        exact List.mem_range.1 hi
    · intro h
      exact Or.inr (List.mem_map.2 ⟨j, List.mem_range.2 h, rfl⟩)
  have hlink : ∀ j i, (⟨chunkId id j, i⟩ : Link) ∈ (ingest e s id title content coll size overlap es).1.links ↔ Mentioned e id (e.split size overlap content) es j i := by
    intro j i
    rw [i5]
    constructor
    · rintro (h | h | ⟨h, h'⟩)
      · exact absurd rfl (hl j _ h)
      · obtain ⟨k, t, h1, h2, x, h3, h4, h5⟩ := found_chunk e id _ _ h
        have := (chunk_inj h2).2
        exact ⟨t, this ▸ h1, Or.inl ⟨x, h3, h4, h5⟩⟩
      · obtain ⟨x, h1, h2, h3, h4⟩ := mem_given h
        have := (hrow j).1 h'
        exact ⟨_, List.getElem?_eq_getElem this, Or.inr ⟨x, h1, h2, h3, h4⟩⟩
    · rintro ⟨t, ht, ⟨x, h1, h2, h3⟩ | ⟨x, h1, h2, h3, h4⟩⟩
      · right; left
        refine List.mem_flatMap.2 ⟨(t, j), List.mem_zipIdx_iff_getElem?.2 ht, List.mem_map.2 ⟨x, List.mem_filter.2 ⟨h1, by simp [h2]⟩, ?_⟩⟩
        simp [h3]
      · right; right
        refine ⟨List.mem_flatMap.2 ⟨x, mem_useful.2 ⟨h1, h2⟩, List.mem_map.2 ⟨chunkId id j, List.mem_filter.2 ⟨h4, ?_⟩, by rw [h3]⟩⟩, ?_⟩
        · simpa using (Verif.Ingest.ne_empty ⟨fun c => c, fun _ => false, fun _ => false⟩ id "" j).1
        · exact (hrow j).2 (List.getElem?_eq_some_iff.1 ht).1
  have hnode : ∀ j i n, Mentioned e id (e.split size overlap content) es j i → (nameOf (ingest e s id title content coll size overlap es).1 i = some n ↔
      LastOf (writes e (e.split size overlap content) es) ⟨i, n, "entity"⟩) := by
    intro j i n hm
    unfold nameOf
    rw [i6]
    have hex : ∃ w ∈ foundNodes e (e.split size overlap content) ++ givenNodes e es, w.id = i := by
      obtain ⟨t, ht, ⟨x, h1, h2, h3⟩ | ⟨x, h1, h2, h3, h4⟩⟩ := hm
      · exact ⟨⟨e.key x.1, x.1, firstOr e x.2 "entity"⟩, List.mem_append_left _ (List.mem_flatMap.2 ⟨t, List.mem_of_getElem? ht,
          List.mem_map.2 ⟨x, List.mem_filter.2 ⟨h1, by simp [h2]⟩, rfl⟩⟩), h3⟩
      · exact ⟨⟨e.resolve x.id x.name, firstOr e x.name x.id, firstOr e x.etype "entity"⟩, List.mem_append_right _
          (List.mem_map.2 ⟨x, mem_useful.2 ⟨h1, h2⟩, rfl⟩), h3⟩
    rw [← writes_eq]
    cases hf : (foundNodes e (e.split size overlap content) ++ givenNodes e es).reverse.find? (fun n => n.id = i) with
    | none =>
      obtain ⟨w, hw1, hw2⟩ := hex
      have := List.find?_eq_none.1 hf w (List.mem_reverse.2 hw1)
      simp [hw2] at this
    | some w =>
      obtain ⟨h1, pre, post, h2, h3⟩ := find_last i _ w hf
      simp only [Option.some_or]
      constructor
      · intro h
        split at h
        · rename_i ht
          cases h
          refine ⟨pre.map (fun n => ⟨n.id, n.name, n.etype⟩), post.map (fun n => ⟨n.id, n.name, n.etype⟩), ?_, ?_⟩
          · rw [h2, List.map_append, List.map_cons, h1, ht]
          · intro v hv
            obtain ⟨u, hu, rfl⟩ := List.mem_map.1 hv
            exact h3 u hu
        · cases h
      · rintro ⟨pre', post', h4, h5⟩
        obtain ⟨a, b, hab, ha, hb⟩ := List.map_eq_append_iff.1 h4
        obtain ⟨y, b', hb', hy, hb2⟩ := List.map_eq_cons_iff.1 hb
        have hyid : y.id = i := congrArg Written.id hy
        have := find_last_iff i (foundNodes e (e.split size overlap content) ++ givenNodes e es) y hyid a b' (by rw [hab, hb']) (by
          intro v hv hvi
          refine h5 ⟨v.id, v.name, v.etype⟩ ?_ hvi
          rw [← hb2]
          exact List.mem_map.2 ⟨v, hv, rfl⟩)
        rw [hf] at this
        cases this
        have hyt : w.etype = "entity" := congrArg Written.etype hy
        have hyn : w.name = n := congrArg Written.name hy
        rw [if_pos hyt, hyn]
  constructor
  · intro j n hn
    unfold chunkNames at hn
    obtain ⟨i, hi, hin⟩ := List.mem_filterMap.1 hn
    obtain ⟨l, hl1, hl2⟩ := List.mem_map.1 (he.some _ _ i hi)
    obtain ⟨hl3, hl4⟩ := List.mem_filter.1 hl1
    simp only [decide_eq_true_eq] at hl4
    have hm : Mentioned e id (e.split size overlap content) es j i := by
      rw [← hlink, ← hl4, ← hl2]
      exact hl3
    exact ⟨i, hm, (hnode j i n hm).1 hin⟩
  · intro j i n hm hlast hcount
    unfold chunkNames
    refine List.mem_filterMap.2 ⟨i, he.all _ _ ?_ i ?_, (hnode j i n hm).2 hlast⟩
    · refine le_trans ?_ hcount
      obtain ⟨t, ht, -⟩ := hm
      rw [ht]
      simp only [Option.map_some, Option.getD_some]
      have hnd : (((ingest e s id title content coll size overlap es).1.links.filter (fun l => l.chunk = chunkId id j)).map Link.ent).Nodup := by
        apply List.Nodup.map_on
        · intro a ha b hb hab
          have h1 := (List.mem_filter.1 ha).2
          have h2 := (List.mem_filter.1 hb).2
          simp only [decide_eq_true_eq] at h1 h2
          cases a; cases b
          simp_all
        · exact (wf_ingest e s id title content coll size overlap es hw).once.filter _
      have hsub : ((ingest e s id title content coll size overlap es).1.links.filter (fun l => l.chunk = chunkId id j)).map Link.ent ⊆
          (e.extract t).map (fun x => e.key x.1) ++ (es.filter (fun x => decide (chunkId id j ∈ x.chunks))).map (fun x => e.resolve x.id x.name) := by
        intro k hk
        obtain ⟨l, hl1, rfl⟩ := List.mem_map.1 hk
        obtain ⟨hl2, hl3⟩ := List.mem_filter.1 hl1
        simp only [decide_eq_true_eq] at hl3
        have : (⟨chunkId id j, l.ent⟩ : Link) ∈ (ingest e s id title content coll size overlap es).1.links := by rw [← hl3]; exact hl2
        obtain ⟨t', ht', ⟨x, h1, h2, h3⟩ | ⟨x, h1, h2, h3, h4⟩⟩ := (hlink j l.ent).1 this
        · rw [ht] at ht'
          cases ht'
          exact List.mem_append_left _ (List.mem_map.2 ⟨x, h1, h3⟩)
        · exact List.mem_append_right _ (List.mem_map.2 ⟨x, List.mem_filter.2 ⟨h1, by simpa using h4⟩, h3⟩)
      have := (hnd.subperm hsub).length_le
      simpa using this
    · exact List.mem_map.2 ⟨⟨chunkId id j, i⟩, List.mem_filter.2 ⟨(hlink j i).2 hm, by simp⟩, rfl⟩

theorem cleanup_none (s : State) (id : String) : chunksOf (cleanup s id) id = [] ∧ getDoc (cleanup s id) id = none := by
  constructor
  · unfold chunksOf cleanup
    simp only [List.filter_filter]
    rw [List.filter_eq_nil_iff]
    intro r _
    by_cases h : r.doc = id <;> simp [h]
  · unfold getDoc cleanup
    rw [List.find?_eq_none]
    intro d hd
    have := (List.mem_filter.1 hd).2
    simpa using this

/-- No link of the old chunks is left after the cleanup, and no other link starts at a chunk of the document. -/
theorem cleanup_links (s : State) (h : WF s) (id : String) (i : Nat) : ∀ l ∈ (cleanup s id).links, l.chunk ≠ chunkId id i := by
  intro l hl he
  obtain ⟨r, hr, h1⟩ := (wf_cleanup s id h).linked l hl
  have h2 := (wf_cleanup s id h).named r hr id i (h1.trans he)
  have := (List.mem_filter.1 hr).2
  simp only [decide_eq_true_eq] at this
  exact this h2

theorem none_chunks (s : State) (h : WF s) (id : String) (hn : getDoc s id = none) : chunksOf s id = [] := by
  unfold chunksOf
  rw [List.filter_eq_nil_iff]
  intro r hr hd
  obtain ⟨d, hd1, hd2⟩ := h.owned r hr
  have := List.find?_eq_none.1 hn d hd1
  simp at hd this
  exact this (hd2.trans hd)

theorem none_links (s : State) (h : WF s) (id : String) (hn : getDoc s id = none) (i : Nat) : ∀ l ∈ s.links, l.chunk ≠ chunkId id i := by
  intro l hl he
  obtain ⟨r, hr, h1⟩ := h.linked l hl
  have h2 := h.named r hr id i (h1.trans he)
  have : r ∈ chunksOf s id := List.mem_filter.2 ⟨hr, by simpa using h2⟩
  rw [none_chunks s h id hn] at this
  simp at this

/-! ### Other items -/

/-- What an item with id `k` is shown from: its document, its rows, the links of its rows and the entities these lead to. -/
structure Same (s t : State) (k : String) : Prop where
  doc : getDoc t k = getDoc s k
  rows : chunksOf t k = chunksOf s k
  links : ∀ i, t.links.filter (fun l => l.chunk = chunkId k i) = s.links.filter (fun l => l.chunk = chunkId k i)
  nodes : ∀ i, ∀ l ∈ s.links, l.chunk = chunkId k i → nodeOf t l.ent = nodeOf s l.ent

theorem Same.refl (s : State) (k : String) : Same s s k := ⟨rfl, rfl, fun _ => rfl, fun _ _ _ _ => rfl⟩

theorem Same.link {s t : State} {k : String} (h : Same s t k) {l : Link} {i : Nat} (hl : l ∈ s.links) (hc : l.chunk = chunkId k i) : l ∈ t.links := by
  have : l ∈ s.links.filter (fun l => l.chunk = chunkId k i) := List.mem_filter.2 ⟨hl, by simpa using hc⟩
  rw [← h.links i] at this
  exact List.mem_of_mem_filter this

theorem Same.trans {s t u : State} {k : String} (h1 : Same s t k) (h2 : Same t u k) : Same s u k :=
  ⟨h2.doc.trans h1.doc, h2.rows.trans h1.rows, fun i => (h2.links i).trans (h1.links i),
    fun i l hl hc => (h2.nodes i l (h1.link hl hc) hc).trans (h1.nodes i l hl hc)⟩

theorem same_load (e : Env) (he : Looks e) (s t : State) (k : String) (hw : WF s) (h : Same s t k) : load e t k = load e s k := by
  unfold load
  by_cases hk : k = ""
  · rw [if_pos hk, if_pos hk]
  · rw [if_neg hk, if_neg hk, h.doc]
    cases hd : getDoc s k with
    | none => rfl
    | some d =>
      simp only
      have hn : ∀ r ∈ chunksOf s k, chunkNames e t r.id = chunkNames e s r.id := by
        intro r hr
        obtain ⟨h1, h2⟩ := List.mem_filter.1 hr
        obtain ⟨i, hi⟩ := hw.chunky r h1
        have hdoc : r.doc = k := by simpa using h2
        rw [hdoc] at hi
        unfold chunkNames
        rw [hi, h.links i]
        apply List.filterMap_congr
        intro x hx
        obtain ⟨l, hl, rfl⟩ := List.mem_map.1 (he.some _ _ x hx)
        obtain ⟨hl1, hl2⟩ := List.mem_filter.1 hl
        unfold nameOf
        rw [h.nodes i l hl1 (by simpa using hl2)]
      have hc : collOf t k = collOf s k := by
        unfold collOf
        rw [h.rows]
      rw [h.rows, hc]
      congr 4
      rw [List.flatMap_map, List.flatMap_map]
      exact List.flatMap_congr (fun r hr => hn r hr)

theorem addLinks_other (c : String) (new : List Link) : ∀ ls : List Link, (∀ l ∈ new, l.chunk ≠ c) →
    (new.foldl addLink ls).filter (fun l => l.chunk = c) = ls.filter (fun l => l.chunk = c) := by
  induction new with
  | nil => exact fun ls _ => rfl
  | cons n ns ih =>
    intro ls h
    rw [List.foldl_cons, ih _ (fun l hl => h l (List.mem_cons_of_mem _ hl)), addLink]
    split
    · rfl
    · have hn := h n List.mem_cons_self
      rw [List.filter_append]
      simp [hn]

/-- Writing nodes leaves those alone that are written as they are. -/
theorem putNodes_same (i : String) (new ns : List Node) (h : ∀ w ∈ new, w.id = i → ns.find? (fun n => n.id = i) = some w) :
    (new.foldl putNode ns).find? (fun n => n.id = i) = ns.find? (fun n => n.id = i) := by
  rw [find_putNodes]
  cases hf : new.reverse.find? (fun n => n.id = i) with
  | none => rfl
  | some w =>
    have h1 := List.mem_reverse.1 (List.mem_of_find?_eq_some hf)
    have h2 := List.find?_some hf
    rw [h w h1 (by simpa using h2)]
    rfl

theorem same_cleanup (s : State) (hw : WF s) (id k : String) (hk : k ≠ id) : Same s (cleanup s id) k := by
  refine ⟨?_, ?_, ?_, fun _ _ _ _ => rfl⟩
  · unfold getDoc cleanup
    simp only
    rw [List.find?_filter]
    congr 1
    funext d
    by_cases h : d.id = k
    · simp [h, hk]
    · simp [h]
  · unfold chunksOf cleanup
    simp only
    rw [List.filter_filter]
    apply List.filter_congr
    intro r _
    by_cases h : r.doc = k
    · simp [h, hk]
    · simp [h]
  · intro i
    unfold cleanup
    simp only
    rw [List.filter_filter]
    apply List.filter_congr
    intro l _
    by_cases h : l.chunk = chunkId k i
    · have : chunkId k i ∉ (chunksOf s id).map Row.id := by
        intro hm
        obtain ⟨r, hr, he⟩ := List.mem_map.1 hm
        obtain ⟨h1, h2⟩ := List.mem_filter.1 hr
        have h3 := hw.named r h1 k i he
        simp at h2
        exact hk (h3.symm.trans h2)
      simp [h, this]
    · simp [h]

/-- The entities of a request that an item mentions are written as they are. -/
def Keeps (s : State) (ns : List Node) (k : String) : Prop :=
  ∀ i, ∀ l ∈ s.links, l.chunk = chunkId k i → ∀ w ∈ ns, w.id = l.ent → nodeOf s l.ent = some w

theorem Keeps.same {s t : State} {ns : List Node} {k : String} (h : Keeps s ns k) (hs : Same s t k) : Keeps t ns k := by
  intro i l hl hc w hw hi
  have hl' : l ∈ s.links := by
    have : l ∈ t.links.filter (fun l => l.chunk = chunkId k i) := List.mem_filter.2 ⟨hl, by simpa using hc⟩
    rw [hs.links i] at this
    exact List.mem_of_mem_filter this
  rw [hs.nodes i l hl' hc]
  exact h i l hl' hc w hw hi

theorem same_entities (e : Env) (s : State) (es : List Entity) (k : String) (h : ∀ x ∈ es, ∀ c ∈ x.chunks, ∀ i, c ≠ chunkId k i) (hn : Keeps s (givenNodes e es) k) :
    Same s (upsertEntities e s es) k := by
  refine ⟨rfl, rfl, ?_, ?_⟩
  · intro i
    unfold upsertEntities
    apply addLinks_other
    intro l hl
    obtain ⟨x, hx, -, -, hc⟩ := mem_given (List.mem_of_mem_filter hl)
    exact h x hx _ hc i
  · intro i l hl hc
    exact putNodes_same _ _ _ (fun w hw hwi => hn i l hl hc w hw hwi)

theorem same_putRecord (s : State) (d : Doc) (k : String) (hk : k ≠ d.id) : Same s (putRecord s d) k := by
  obtain ⟨h1, h2, -, h4⟩ := putRecord_rest s d
  refine ⟨?_, by unfold chunksOf; rw [h1], fun i => by rw [h2], fun _ _ _ _ => by unfold nodeOf; rw [h4]⟩
  unfold putRecord
  split
  · unfold getDoc
    simp only
    rw [List.find?_append]
    have : ¬ d.id = k := fun h => hk h.symm
    simp [this]
  · unfold getDoc
    simp only
    exact find_map_ne _ _ _ hk (fun x => { x with title := d.title, content := d.content, source := d.source, version := d.version, author := d.author, info := d.info, updated := s.now }) (fun _ => rfl)

theorem base_rest (e : Env) (s : State) (hw : WF s) (id title content coll : String) (size overlap : Int) (k : String) (hk : k ≠ id) :
    getDoc (base e s id title content coll size overlap) k = getDoc s k ∧ chunksOf (base e s id title content coll size overlap) k = chunksOf s k := by
  constructor
  · have : getDoc (base e s id title content coll size overlap) k = getDoc (ingestRecord s id title content) k := rfl
    rw [this]
    unfold ingestRecord
    split
    · unfold getDoc
      simp only
      rw [List.find?_append]
      have : ¬ id = k := fun h => hk h.symm
      simp [this]
    · unfold getDoc
      simp only
      exact find_map_ne _ _ _ hk (fun d => { d with title := title, content := content, version := d.version + 1, updated := s.now }) (fun _ => rfl)
  · unfold chunksOf
    rw [base_rows, List.filter_append, List.filter_filter]
    have e1 : (newRows id (if coll = "" then defaultColl else coll) (e.split size overlap content)).filter (fun r => decide (r.doc = k)) = [] := by
      rw [List.filter_eq_nil_iff]
      intro r hr
      rw [(mem_newRows hr).1]
      simpa using fun h => hk h.symm
    rw [e1, List.append_nil]
    apply List.filter_congr
    intro r hr
    by_cases hd : r.doc = k
    · have : r.id ∉ (List.range (e.split size overlap content).length).map (chunkId id) := by
        intro hm
        obtain ⟨i, -, hi⟩ := List.mem_map.1 hm
        exact hk (hd.symm.trans (hw.named r hr id i hi.symm))
      rw [decide_eq_true hd, decide_eq_true this]
      rfl
    · simp [hd]

theorem same_ingest (e : Env) (s : State) (hw : WF s) (id title content coll : String) (size overlap : Int) (es : List Entity) (k : String) (hk : k ≠ id)
    (h : ∀ x ∈ es, ∀ c ∈ x.chunks, ∀ i, c ≠ chunkId k i) (hn : Keeps s (foundNodes e (e.split size overlap content) ++ givenNodes e es) k) : Same s (ingest e s id title content coll size overlap es).1 k := by
  rw [ingest_eq]
  split
  · exact Same.refl s k
  · have hb : Same s (base e s id title content coll size overlap) k := ?_
    · exact hb.trans (same_entities e _ es k h (fun i l hl hc w hw => (hn.same hb) i l hl hc w (List.mem_append_right _ hw)))
    obtain ⟨b1, b2⟩ := base_rest e s hw id title content coll size overlap k hk
    refine ⟨b1, b2, ?_, ?_⟩
    · intro i
      have : (base e s id title content coll size overlap).links = (found e id (e.split size overlap content)).foldl addLink s.links := by
        unfold base
        simp only
        rw [(ingestRecord_rest s id title content).2.1]
      rw [this]
      apply addLinks_other
      intro l hl he
      obtain ⟨j, t, -, h2, -⟩ := found_chunk e id _ l hl
      exact hk (chunk_inj (he.symm.trans h2)).1
    · intro i l hl hc
      have : (base e s id title content coll size overlap).nodes = (foundNodes e (e.split size overlap content)).foldl putNode s.nodes := by
        unfold base
        simp only
        rw [(ingestRecord_rest s id title content).2.2.2]
      unfold nodeOf
      rw [this]
      exact putNodes_same _ _ _ (fun w hw hwi => hn i l hl hc w (List.mem_append_left _ hw) hwi)

/-- The document and the rows of an item. -/
def Rest (s t : State) (k : String) : Prop := getDoc t k = getDoc s k ∧ chunksOf t k = chunksOf s k

theorem Rest.trans {s t u : State} {k : String} (h1 : Rest s t k) (h2 : Rest t u k) : Rest s u k := ⟨h2.1.trans h1.1, h2.2.trans h1.2⟩

theorem Same.rest {s t : State} {k : String} (h : Same s t k) : Rest s t k := ⟨h.doc, h.rows⟩

theorem rest_load (e : Env) (s t : State) (k : String) (h : Rest s t k) :
    (load e t k).map (fun r => { r with ents := [] }) = (load e s k).map (fun r => { r with ents := [] }) := by
  unfold load
  by_cases hk : k = ""
  · rw [if_pos hk, if_pos hk]
  · rw [if_neg hk, if_neg hk, h.1]
    have hc : collOf t k = collOf s k := by
      unfold collOf
      rw [h.2]
    cases getDoc s k with
    | none => rfl
    | some d =>
      simp only [Option.map_some]
      rw [h.2, hc]

theorem rest_ingest (e : Env) (s : State) (hw : WF s) (id title content coll : String) (size overlap : Int) (es : List Entity) (k : String) (hk : k ≠ id) :
    Rest s (ingest e s id title content coll size overlap es).1 k := by
  rw [ingest_eq]
  split
  · exact ⟨rfl, rfl⟩
  · exact base_rest e s hw id title content coll size overlap k hk

/-! ### C170 -/

/-- C170, round trip: after any history, a save that succeeds is shown as it was given: title, content, source, author, metadata and collection (the
default one if none was given), with one chunk for each part of the content; the version is one more than before, one for a new item. -/
theorem C170_saved (e : Env) (ops : List Op) (q : SaveReq) (hok : (save e (run e init ops) q).2 = true) :
    ∃ r d, load e (save e (run e init ops) q).1 q.id = some r ∧ getDoc (save e (run e init ops) q).1 q.id = some d ∧
      Shows r q.id q.title q.content q.source q.author (if q.coll = "" then "graphrag_chunks" else q.coll) q.info (e.split q.size q.overlap q.content).length ∧
      r.updated = (run e init ops).now ∧ d.version = ((getDoc (run e init ops) q.id).map Doc.version).getD 0 + 1 := by
  have hwf := wf_run e ops init wf_init
  unfold save at hok ⊢
  by_cases h1 : q.id = ""
  · rw [if_pos h1] at hok; simp at hok
  · rw [if_neg h1] at hok ⊢
    by_cases h2 : e.blank q.content = true
    · rw [if_pos h2] at hok; simp at hok
    · rw [if_neg h2] at hok ⊢
      cases hd : getDoc (run e init ops) q.id with
      | none =>
        simp only [hd] at hok ⊢
        by_cases h3 : (ingest e (run e init ops) q.id q.title q.content q.coll q.size q.overlap q.ents).2 = false
        · rw [if_pos h3, h3] at hok; simp at hok
        · rw [if_neg h3]
          obtain ⟨r, d, a1, a2, a3, a4, a5, -⟩ := shown e (run e init ops) q.id q.title q.content q.coll q.size q.overlap q.ents q.source q.author 1 q.info h1
            (by simpa using h3) (none_chunks _ hwf _ hd)
          exact ⟨r, d, a1, a2, a3, a5, a4⟩
      | some d0 =>
        simp only [hd] at hok ⊢
        by_cases h3 : (ingest e (cleanup (run e init ops) q.id) q.id q.title q.content q.coll q.size q.overlap q.ents).2 = false
        · rw [if_pos h3, h3] at hok; simp at hok
        · rw [if_neg h3]
          obtain ⟨r, d, a1, a2, a3, a4, a5, -⟩ := shown e (cleanup (run e init ops) q.id) q.id q.title q.content q.coll q.size q.overlap q.ents q.source q.author
            (d0.version + 1) q.info h1 (by simpa using h3) (cleanup_none _ _).1
          exact ⟨r, d, a1, a2, a3, a5, a4⟩

theorem save_ents (e : Env) (he : Looks e) (ops : List Op) (q : SaveReq) (hok : (save e (run e init ops) q).2 = true) (r : Record)
    (hr : load e (save e (run e init ops) q).1 q.id = some r) :
    ∃ s', WF s' ∧ chunksOf s' q.id = [] ∧ (∀ i, ∀ l ∈ s'.links, l.chunk ≠ chunkId q.id i) ∧
      (ingest e s' q.id q.title q.content q.coll q.size q.overlap q.ents).2 = true ∧
      r.chunks = (List.range (e.split q.size q.overlap q.content).length).map (chunkId q.id) ∧
      r.ents = ((r.chunks.flatMap (chunkNames e (ingest e s' q.id q.title q.content q.coll q.size q.overlap q.ents).1)).filter (fun n => !e.blank n)).dedup := by
  have hwf := wf_run e ops init wf_init
  have key : ∀ s', WF s' → (∀ i, ∀ l ∈ s'.links, l.chunk ≠ chunkId q.id i) → chunksOf s' q.id = [] → ∀ v,
      (ingest e s' q.id q.title q.content q.coll q.size q.overlap q.ents).2 = true → q.id ≠ "" →
      load e (putRecord (ingest e s' q.id q.title q.content q.coll q.size q.overlap q.ents).1 ⟨q.id, q.title, q.source, q.content, v, q.author, toAny q.info, none, 0, 0⟩) q.id = some r →
      ∃ s', WF s' ∧ chunksOf s' q.id = [] ∧ (∀ i, ∀ l ∈ s'.links, l.chunk ≠ chunkId q.id i) ∧
      (ingest e s' q.id q.title q.content q.coll q.size q.overlap q.ents).2 = true ∧
      r.chunks = (List.range (e.split q.size q.overlap q.content).length).map (chunkId q.id) ∧
      r.ents = ((r.chunks.flatMap (chunkNames e (ingest e s' q.id q.title q.content q.coll q.size q.overlap q.ents).1)).filter (fun n => !e.blank n)).dedup := by
    intro s' hw hl hc v hi hid hload
    obtain ⟨r1, d1, a1, -, a3, -, -, -, -, -, a8⟩ := shown e s' q.id q.title q.content q.coll q.size q.overlap q.ents q.source q.author v q.info hid hi hc
    rw [hload] at a1
    cases a1
    exact ⟨s', hw, hc, hl, hi, a3.chunks, a8⟩
  unfold save at hok hr
  by_cases h1 : q.id = ""
  · rw [if_pos h1] at hok; simp at hok
  · rw [if_neg h1] at hok hr
    by_cases h2 : e.blank q.content = true
    · rw [if_pos h2] at hok; simp at hok
    · rw [if_neg h2] at hok hr
      cases hd : getDoc (run e init ops) q.id with
      | none =>
        simp only [hd] at hok hr
        by_cases h3 : (ingest e (run e init ops) q.id q.title q.content q.coll q.size q.overlap q.ents).2 = false
        · rw [if_pos h3, h3] at hok; simp at hok
        · rw [if_neg h3] at hr
          exact key _ hwf (none_links _ hwf _ hd) (none_chunks _ hwf _ hd) 1 (by simpa using h3) h1 hr
      | some d0 =>
        simp only [hd] at hok hr
        by_cases h3 : (ingest e (cleanup (run e init ops) q.id) q.id q.title q.content q.coll q.size q.overlap q.ents).2 = false
        · rw [if_pos h3, h3] at hok; simp at hok
        · rw [if_neg h3] at hr
          exact key _ (wf_cleanup _ _ hwf) (cleanup_links _ hwf _) (cleanup_none _ _).1 _ (by simpa using h3) h1 hr

/-- C170, entities: every entity shown after a save was found in a part of the content or given in the request for one of the item's chunks, and is shown by the
name under which the request last wrote it. -/
theorem C170_entities (e : Env) (he : Looks e) (ops : List Op) (q : SaveReq) (hok : (save e (run e init ops) q).2 = true) (r : Record)
    (hr : load e (save e (run e init ops) q).1 q.id = some r) :
    ∀ n ∈ r.ents, e.blank n = false ∧ ∃ j i, Mentioned e q.id (e.split q.size q.overlap q.content) q.ents j i ∧
      LastOf (writes e (e.split q.size q.overlap q.content) q.ents) ⟨i, n, "entity"⟩ := by
  obtain ⟨s', hw, hc, hl, hi, h1, h2⟩ := save_ents e he ops q hok r hr
  intro n hn
  rw [h2] at hn
  obtain ⟨hn1, hn2⟩ := List.mem_filter.1 (List.mem_dedup.1 hn)
  obtain ⟨c, hcm, hn3⟩ := List.mem_flatMap.1 hn1
  rw [h1] at hcm
  obtain ⟨j, -, rfl⟩ := List.mem_map.1 hcm
  obtain ⟨i, h3, h4⟩ := (shown_ents e he s' hw _ _ _ _ _ _ _ hi hc hl).1 j n hn3
  exact ⟨by simpa using hn2, j, i, h3, h4⟩

/-- C170, entities, the other way round as far as it holds: an entity found in a part of the content or given for its chunk is shown by the name under which the
request last wrote it, if that was with the type `entity` and if no more than 29 entities were found in the part and given for its chunk. Missing: entities with
another type (never shown, `C170_typed_violated`) and chunks with more entities (only 32 neighbours are looked at). -/
theorem C170_shown_partial (e : Env) (he : Looks e) (ops : List Op) (q : SaveReq) (hok : (save e (run e init ops) q).2 = true) (r : Record)
    (hr : load e (save e (run e init ops) q).1 q.id = some r) (j : Nat) (i n : String) (hn : e.blank n = false)
    (hm : Mentioned e q.id (e.split q.size q.overlap q.content) q.ents j i)
    (hw : LastOf (writes e (e.split q.size q.overlap q.content) q.ents) ⟨i, n, "entity"⟩)
    (few : ((((e.split q.size q.overlap q.content)[j]?).map (fun t => (e.extract t).length)).getD 0) +
      (q.ents.filter (fun x => decide (chunkId q.id j ∈ x.chunks))).length ≤ 29) : n ∈ r.ents := by
  obtain ⟨s', hw', hc, hl, hi, h1, h2⟩ := save_ents e he ops q hok r hr
  rw [h2]
  refine List.mem_dedup.2 (List.mem_filter.2 ⟨List.mem_flatMap.2 ⟨chunkId q.id j, ?_, ?_⟩, by simp [hn]⟩)
  · rw [h1]
    obtain ⟨t, ht, -⟩ := hm
    exact List.mem_map.2 ⟨j, List.mem_range.2 (List.getElem?_eq_some_iff.1 ht).1, rfl⟩
  · exact (shown_ents e he s' hw' _ _ _ _ _ _ _ hi hc hl).2 j i n hm hw few

/-- Every entity that item `k` mentions and the request writes is written as it already is. -/
def Agrees (s : State) (ws : List Written) (k : String) : Prop :=
  ∀ i, ∀ l ∈ s.links, l.chunk = chunkId k i → ∀ w ∈ ws, w.id = l.ent → nodeOf s l.ent = some ⟨w.id, w.name, w.etype⟩

theorem keeps_of (e : Env) (s : State) (ts : List String) (es : List Entity) (k : String) (h : Agrees s (writes e ts es) k) :
    Keeps s (foundNodes e ts ++ givenNodes e es) k := by
  intro i l hl hc w hw hi
  have := h i l hl hc ⟨w.id, w.name, w.etype⟩ (by rw [← writes_eq]; exact List.mem_map.2 ⟨w, hw, rfl⟩) hi
  simpa using this

/-- C170, other items, as far as it holds: whether it succeeds or not, a save changes nothing of what is shown of another item, if it names none of that item's chunks
for its entities and writes each entity the other item mentions with the name and the type it has. Missing: entities written differently (violated below, since
entities are shared). -/
theorem C170_others_partial (e : Env) (he : Looks e) (ops : List Op) (q : SaveReq) (k : String) (hk : k ≠ q.id) (h : ∀ x ∈ q.ents, ∀ c ∈ x.chunks, ∀ i, c ≠ chunkId k i)
    (ha : Agrees (run e init ops) (writes e (e.split q.size q.overlap q.content) q.ents) k) :
    load e (save e (run e init ops) q).1 k = load e (run e init ops) k := by
  have hwf := wf_run e ops init wf_init
  apply same_load e he _ _ k hwf
  have hc := same_cleanup _ hwf q.id k hk
  have hcw := wf_cleanup _ q.id hwf
  have hn := keeps_of e _ _ _ k ha
  unfold save
  by_cases h1 : q.id = ""
  · rw [if_pos h1]
    exact Same.refl _ _
  · rw [if_neg h1]
    by_cases h2 : e.blank q.content = true
    · rw [if_pos h2]
      exact Same.refl _ _
    · rw [if_neg h2]
      cases hd : getDoc (run e init ops) q.id with
      | none =>
        simp only
        have hi := same_ingest e _ hwf q.id q.title q.content q.coll q.size q.overlap q.ents k hk h hn
        split
        · exact hi
        · exact hi.trans (same_putRecord _ _ k hk)
      | some d0 =>
        simp only
        have hi := hc.trans (same_ingest e _ hcw q.id q.title q.content q.coll q.size q.overlap q.ents k hk h (hn.same hc))
        split
        · exact hi
        · exact hi.trans (same_putRecord _ _ k hk)

/-- C170, everything but the entities: a save changes nothing of the rest that is shown of another item, whatever it does to entities. -/
theorem C170_others (e : Env) (ops : List Op) (q : SaveReq) (k : String) (hk : k ≠ q.id) :
    (load e (save e (run e init ops) q).1 k).map (fun r => { r with ents := [] }) = (load e (run e init ops) k).map (fun r => { r with ents := [] }) := by
  have hwf := wf_run e ops init wf_init
  apply rest_load
  have hc := (same_cleanup _ hwf q.id k hk).rest
  have hcw := wf_cleanup _ q.id hwf
  unfold save
  by_cases h1 : q.id = ""
  · rw [if_pos h1]
    exact ⟨rfl, rfl⟩
  · rw [if_neg h1]
    by_cases h2 : e.blank q.content = true
    · rw [if_pos h2]
      exact ⟨rfl, rfl⟩
    · rw [if_neg h2]
      cases hd : getDoc (run e init ops) q.id with
      | none =>
        simp only
        have hi := rest_ingest e _ hwf q.id q.title q.content q.coll q.size q.overlap q.ents k hk
        split
        · exact hi
        · exact hi.trans (same_putRecord _ _ k hk).rest
      | some d0 =>
        simp only
        have hi := hc.trans (rest_ingest e _ hcw q.id q.title q.content q.coll q.size q.overlap q.ents k hk)
        split
        · exact hi
        · exact hi.trans (same_putRecord _ _ k hk).rest

/-- C170 is violated: saving over an item forgets who may read it and when it was created, for every item and request. -/
theorem C170_acl_violated (e : Env) (ops : List Op) (q : SaveReq) (hok : (save e (run e init ops) q).2 = true) (d0 : Doc)
    (hd : getDoc (run e init ops) q.id = some d0) :
    ∃ d, getDoc (save e (run e init ops) q).1 q.id = some d ∧ d.acl = none ∧ d.created = (run e init ops).now := by
  unfold save at hok ⊢
  by_cases h1 : q.id = ""
  · rw [if_pos h1] at hok; simp at hok
  · rw [if_neg h1] at hok ⊢
    by_cases h2 : e.blank q.content = true
    · rw [if_pos h2] at hok; simp at hok
    · rw [if_neg h2] at hok ⊢
      simp only [hd] at hok ⊢
      by_cases h3 : (ingest e (cleanup (run e init ops) q.id) q.id q.title q.content q.coll q.size q.overlap q.ents).2 = false
      · rw [if_pos h3, h3] at hok; simp at hok
      · rw [if_neg h3]
        obtain ⟨r, d, a1, a2, -, -, -, a6, a7, a8, -⟩ := shown e (cleanup (run e init ops) q.id) q.id q.title q.content q.coll q.size q.overlap q.ents q.source q.author
          (d0.version + 1) q.info h1 (by simpa using h3) (cleanup_none _ _).1
        rw [(cleanup_none _ _).2] at a6 a8
        exact ⟨d, a2, a8, a7.trans a6⟩

/-! ### C171 -/

/-- The collection named in a request, or the one before; the empty name is the default collection. -/
def wantedColl (q : UpdateReq) (before : String) : String :=
  match q.coll with
  | some "" => "graphrag_chunks"
  | some c => c
  | none => before

theorem update_inv (e : Env) (s : State) (q : UpdateReq) (hok : (update e s q).2 = true) : q.id ≠ "" ∧ ∃ d, getDoc s q.id = some d ∧
    ∀ info, info = (match q.info with | some m => some m | none => toStr d.info) →
    ((q.replaces = true ∧
      (ingest e (cleanup s q.id) q.id (q.title.getD d.title) (q.content.getD d.content) (q.coll.getD (collOf s q.id)) (q.size.getD 0) (q.overlap.getD 0) q.ents).2 = true ∧
      (update e s q).1 = putRecord (ingest e (cleanup s q.id) q.id (q.title.getD d.title) (q.content.getD d.content) (q.coll.getD (collOf s q.id)) (q.size.getD 0)
        (q.overlap.getD 0) q.ents).1 ⟨q.id, q.title.getD d.title, q.source.getD d.source, q.content.getD d.content, d.version + 1, q.author.getD d.author, toAny info, none, 0, 0⟩) ∨
     (q.replaces = false ∧
      (update e s q).1 = putRecord (upsertEntities e s q.ents)
        ⟨q.id, q.title.getD d.title, q.source.getD d.source, q.content.getD d.content, d.version + 1, q.author.getD d.author, toAny info, none, 0, 0⟩)) := by
  unfold update at hok ⊢
  by_cases h1 : q.id = ""
  · rw [if_pos h1] at hok; simp at hok
  · rw [if_neg h1] at hok ⊢
    refine ⟨h1, ?_⟩
    cases hd : getDoc s q.id with
    | none => rw [hd] at hok; simp at hok
    | some d =>
      simp only [hd] at hok ⊢
      refine ⟨d, rfl, ?_⟩
      rintro info rfl
      by_cases h2 : (q.content.map e.blank).getD false = true
      · rw [if_pos h2] at hok; simp at hok
      · rw [if_neg h2] at hok ⊢
        by_cases h3 : q.replaces = true
        · rw [if_pos h3] at hok ⊢
          by_cases h4 : (ingest e (cleanup s q.id) q.id (q.title.getD d.title) (q.content.getD d.content) (q.coll.getD (collOf s q.id)) (q.size.getD 0) (q.overlap.getD 0) q.ents).2 = false
          · rw [if_pos h4, h4] at hok; simp at hok
          · rw [if_neg h4]
            exact Or.inl ⟨h3, by simpa using h4, rfl⟩
        · rw [if_neg h3] at hok ⊢
          exact Or.inr ⟨by simpa using h3, rfl⟩

/-- The record of an update that leaves the chunks alone. -/
theorem shown_plain (e : Env) (s : State) (es : List Entity) (id : String) (hid : id ≠ "") (d0 : Doc) (hd : getDoc s id = some d0) (title source content author : String)
    (v : Nat) (info : Option (List (String × String))) : ∃ r d r0,
      load e (putRecord (upsertEntities e s es) ⟨id, title, source, content, v, author, toAny info, none, 0, 0⟩) id = some r ∧
      getDoc (putRecord (upsertEntities e s es) ⟨id, title, source, content, v, author, toAny info, none, 0, 0⟩) id = some d ∧
      load e s id = some r0 ∧ r.id = id ∧ r.title = title ∧ r.content = content ∧ r.source = source ∧ r.author = author ∧ r.coll = r0.coll ∧ r.info = info ∧
      r.chunks = r0.chunks ∧ d.version = v ∧ r.updated = s.now ∧ r.created = r0.created ∧ d.acl = d0.acl ∧ (es = [] → r.ents = r0.ents) := by
  obtain ⟨e1, e2, e3⟩ := entities_rest e s es
  obtain ⟨x, h1, h2, h3, h4, h5, h6, h7, h8, h9, h10, h11⟩ := getDoc_putRecord (upsertEntities e s es)
    ⟨id, title, source, content, v, author, toAny info, none, 0, 0⟩
  obtain ⟨p1, p2, -, p4⟩ := putRecord_rest (upsertEntities e s es) ⟨id, title, source, content, v, author, toAny info, none, 0, 0⟩
  simp only at h1 h2 h3 h4 h5 h6 h7 h8 h10 h11
  rw [getDoc_congr _ _ id e1, hd] at h10 h11
  simp only [Option.map_some, Option.getD_some] at h10 h11
  have hch : chunksOf (putRecord (upsertEntities e s es) ⟨id, title, source, content, v, author, toAny info, none, 0, 0⟩) id = chunksOf s id := by
    unfold chunksOf
    rw [p1, e2]
  have hload : ∀ S x, getDoc S id = some x → load e S id = some ⟨x.id, x.title, x.content, x.source, x.author, collOf S id, toStr x.info, (chunksOf S id).map Row.id,
      ((((chunksOf S id).map Row.id).flatMap (chunkNames e S)).filter (fun n => !e.blank n)).dedup, x.created, x.updated⟩ := by
    intro S x hS
    unfold load
    rw [if_neg hid, hS]
  refine ⟨_, x, _, hload _ _ h1, h1, hload _ _ hd, h2, h3, h4, h5, h7, ?_, ?_, ?_, h6, h9.trans e3, h11, h10, ?_⟩
  · simp only
    unfold collOf
    rw [hch]
  · simp only
    rw [h8, toStr_toAny]
  · simp only
    rw [hch]
  · rintro rfl
    simp only
    rw [hch]
    have : chunkNames e (putRecord (upsertEntities e s []) ⟨id, title, source, content, v, author, toAny info, none, 0, 0⟩) = chunkNames e s := by
      funext c
      unfold chunkNames
      rw [p2]
      show List.filterMap _ _ = List.filterMap _ _
      congr 1
      funext i
      unfold nameOf nodeOf
      rw [p4]
      rfl
    rw [this]

/-- C171, asked and not asked: after any history, an update that succeeds sets what it names and keeps the rest of title, content, source, author,
collection and metadata as they were shown before, and raises the version by one. -/
theorem C171_fields (e : Env) (ops : List Op) (q : UpdateReq) (hok : (update e (run e init ops) q).2 = true) :
    ∃ r0 d0 r d, load e (run e init ops) q.id = some r0 ∧ getDoc (run e init ops) q.id = some d0 ∧
      load e (update e (run e init ops) q).1 q.id = some r ∧ getDoc (update e (run e init ops) q).1 q.id = some d ∧
      r.id = q.id ∧ r.title = q.title.getD r0.title ∧ r.content = q.content.getD r0.content ∧ r.source = q.source.getD r0.source ∧ r.author = q.author.getD r0.author ∧
      r.info = (match q.info with | some m => some m | none => r0.info) ∧ r.coll = wantedColl q r0.coll ∧ d.version = d0.version + 1 ∧ r.updated = (run e init ops).now := by
  obtain ⟨hid, d0, hd, hc⟩ := update_inv e _ q hok
  have hload : load e (run e init ops) q.id = some ⟨d0.id, d0.title, d0.content, d0.source, d0.author, collOf (run e init ops) q.id, toStr d0.info,
      (chunksOf (run e init ops) q.id).map Row.id,
      ((((chunksOf (run e init ops) q.id).map Row.id).flatMap (chunkNames e (run e init ops))).filter (fun n => !e.blank n)).dedup, d0.created, d0.updated⟩ := by
    unfold load
    rw [if_neg hid, hd]
  rcases hc _ rfl with ⟨h1, h2, h3⟩ | ⟨h1, h3⟩
  · obtain ⟨r, d, a1, a2, a3, a4, a5, -⟩ := shown e (cleanup (run e init ops) q.id) q.id (q.title.getD d0.title) (q.content.getD d0.content) (q.coll.getD (collOf (run e init ops) q.id)) (q.size.getD 0)
      (q.overlap.getD 0) q.ents (q.source.getD d0.source) (q.author.getD d0.author) (d0.version + 1) (match q.info with | some m => some m | none => toStr d0.info) hid h2 (cleanup_none _ _).1
    rw [h3]
    refine ⟨_, d0, r, d, hload, hd, a1, a2, a3.sameId, a3.sameTitle, a3.sameContent, a3.sameSource, a3.sameAuthor, a3.sameInfo, ?_, a4, a5⟩
    rw [a3.sameColl]
    unfold wantedColl
    have hne : collOf (run e init ops) q.id ≠ "" := by
      unfold collOf
      cases hz : chunksOf (run e init ops) q.id with
      | nil => simp [defaultColl]
      | cons r rs => exact (wf_run e ops init wf_init).coll r (List.mem_of_mem_filter (hz ▸ List.mem_cons_self : r ∈ chunksOf (run e init ops) q.id))
    cases hq : q.coll with
    | none => simp [hne]
    | some c =>
      by_cases hc : c = ""
      · subst hc
        rfl
      · simp only [Option.getD_some, if_neg hc]
  · obtain ⟨r, d, r0, a1, a2, a3, a4, a5, a6, a7, a8, a9, a10, a11, a12, a13, -⟩ := shown_plain e (run e init ops) q.ents q.id hid d0 hd (q.title.getD d0.title) (q.source.getD d0.source)
      (q.content.getD d0.content) (q.author.getD d0.author) (d0.version + 1) (match q.info with | some m => some m | none => toStr d0.info)
    rw [h3]
    rw [hload] at a3
    cases a3
    refine ⟨_, d0, r, d, hload, hd, a1, a2, a4, a5, a6, a7, a8, a10, ?_, a12, a13⟩
    rw [a9]
    have hq : q.coll = none := by
      unfold UpdateReq.replaces at h1
      cases hq : q.coll with
      | none => rfl
      | some c => simp [hq] at h1
    unfold wantedColl
    rw [hq]

/-- C171, the rest, as far as it holds: an update that names none of title, content, collection and metadata also keeps the chunks, the readers, the creation
time and, if it names no entities, the entities. Missing: the same for the other updates (violated below). -/
theorem C171_rest_partial (e : Env) (ops : List Op) (q : UpdateReq) (hok : (update e (run e init ops) q).2 = true)
    (hq : q.title = none ∧ q.content = none ∧ q.coll = none ∧ q.info = none) (r0 : Record) (h0 : load e (run e init ops) q.id = some r0) (d0 : Doc)
    (hd : getDoc (run e init ops) q.id = some d0) :
    ∃ r d, load e (update e (run e init ops) q).1 q.id = some r ∧ getDoc (update e (run e init ops) q).1 q.id = some d ∧ r.chunks = r0.chunks ∧ d.acl = d0.acl ∧
      r.created = r0.created ∧ (q.ents = [] → r.ents = r0.ents) := by
  obtain ⟨hid, d1, hd1, hc⟩ := update_inv e _ q hok
  rw [hd] at hd1
  cases hd1
  rcases hc _ rfl with ⟨h1, -, -⟩ | ⟨-, h3⟩
  · simp [UpdateReq.replaces, hq] at h1
  · obtain ⟨r, d, r1, a1, a2, a3, -, -, -, -, -, -, -, a11, -, -, a14, a15, a16⟩ := shown_plain e (run e init ops) q.ents q.id hid d0 hd (q.title.getD d0.title) (q.source.getD d0.source)
      (q.content.getD d0.content) (q.author.getD d0.author) (d0.version + 1) (match q.info with | some m => some m | none => toStr d0.info)
    rw [h3]
    rw [h0] at a3
    cases a3
    exact ⟨r, d, a1, a2, a11, a15, a14, a16⟩

/-- C171 is violated: an update that names a title, a content, a collection or metadata forgets who may read the item and when it was created, and keeps only the
entities found again in the content or named in the request, for every item and request. -/
theorem C171_forgets_violated (e : Env) (he : Looks e) (ops : List Op) (q : UpdateReq) (hok : (update e (run e init ops) q).2 = true)
    (hq : q.title ≠ none ∨ q.content ≠ none ∨ q.coll ≠ none ∨ q.info ≠ none) :
    ∃ r d, load e (update e (run e init ops) q).1 q.id = some r ∧ getDoc (update e (run e init ops) q).1 q.id = some d ∧ d.acl = none ∧
      r.created = (run e init ops).now ∧
      ∀ n ∈ r.ents, ∃ j i, Mentioned e q.id (e.split (q.size.getD 0) (q.overlap.getD 0) r.content) q.ents j i ∧
        LastOf (writes e (e.split (q.size.getD 0) (q.overlap.getD 0) r.content) q.ents) ⟨i, n, "entity"⟩ := by
  have hwf := wf_run e ops init wf_init
  obtain ⟨hid, d0, hd, hc⟩ := update_inv e _ q hok
  rcases hc _ rfl with ⟨h1, h2, h3⟩ | ⟨h1, -⟩
  · obtain ⟨r, d, a1, a2, a3, a4, a5, a6, a7, a8, a9⟩ := shown e (cleanup (run e init ops) q.id) q.id (q.title.getD d0.title) (q.content.getD d0.content) (q.coll.getD (collOf (run e init ops) q.id)) (q.size.getD 0)
      (q.overlap.getD 0) q.ents (q.source.getD d0.source) (q.author.getD d0.author) (d0.version + 1) (match q.info with | some m => some m | none => toStr d0.info) hid h2 (cleanup_none _ _).1
    rw [h3]
    rw [(cleanup_none _ _).2] at a6 a8
    refine ⟨r, d, a1, a2, a8, a6, ?_⟩
    intro n hn
    rw [a9] at hn
    obtain ⟨c, hcm, hn⟩ := List.mem_flatMap.1 (List.mem_of_mem_filter (List.mem_dedup.1 hn))
    rw [a3.chunks] at hcm
    obtain ⟨j, -, rfl⟩ := List.mem_map.1 hcm
    obtain ⟨i, h4, h5⟩ := (shown_ents e he _ (wf_cleanup _ q.id hwf) _ _ _ _ _ _ _ h2 (cleanup_none _ _).1 (cleanup_links _ hwf _)).1 j n hn
    rw [a3.sameContent]
    exact ⟨j, i, h4, h5⟩
  · unfold UpdateReq.replaces at h1
    simp only [Bool.or_eq_false_iff, Option.isSome_eq_false_iff, Option.isNone_iff_eq_none] at h1
    obtain ⟨⟨⟨g1, g2⟩, g3⟩, g4⟩ := h1
    rcases hq with h | h | h | h <;> contradiction

/-- The parts of the content an update splits again: none if it names none of title, content, collection and metadata. -/
def partsAgain (e : Env) (q : UpdateReq) (before : String) : List String :=
  if q.title = none ∧ q.content = none ∧ q.coll = none ∧ q.info = none then [] else e.split (q.size.getD 0) (q.overlap.getD 0) (q.content.getD before)

theorem replaces_iff (q : UpdateReq) : q.replaces = false ↔ q.title = none ∧ q.content = none ∧ q.coll = none ∧ q.info = none := by
  unfold UpdateReq.replaces
  cases q.title <;> cases q.content <;> cases q.coll <;> cases q.info <;> simp

/-- C171, other items, as far as it holds: whether it succeeds or not, an update changes nothing of what is shown of another item, if it names none of that item's
chunks for its entities and writes each entity the other item mentions with the name and the type it has. Missing: entities written differently (violated below). -/
theorem C171_others_partial (e : Env) (he : Looks e) (ops : List Op) (q : UpdateReq) (k : String) (hk : k ≠ q.id) (h : ∀ x ∈ q.ents, ∀ c ∈ x.chunks, ∀ i, c ≠ chunkId k i)
    (ha : ∀ d, getDoc (run e init ops) q.id = some d → Agrees (run e init ops) (writes e (partsAgain e q d.content) q.ents) k) :
    load e (update e (run e init ops) q).1 k = load e (run e init ops) k := by
  have hwf := wf_run e ops init wf_init
  apply same_load e he _ _ k hwf
  have hc := same_cleanup _ hwf q.id k hk
  have hcw := wf_cleanup _ q.id hwf
  unfold update
  by_cases h1 : q.id = ""
  · rw [if_pos h1]
    exact Same.refl _ _
  · rw [if_neg h1]
    cases hd : getDoc (run e init ops) q.id with
    | none => exact Same.refl _ _
    | some d =>
      simp only
      have hn := keeps_of e _ _ _ k (ha d hd)
      by_cases h2 : (q.content.map e.blank).getD false = true
      · rw [if_pos h2]
        exact Same.refl _ _
      · rw [if_neg h2]
        by_cases h3 : q.replaces = true
        · rw [if_pos h3]
          have h4 : partsAgain e q d.content = e.split (q.size.getD 0) (q.overlap.getD 0) (q.content.getD d.content) := by
            unfold partsAgain
            rw [if_neg]
            intro h5
            rw [(replaces_iff q).2 h5] at h3
            cases h3
          rw [h4] at hn
          have hi := hc.trans (same_ingest e _ hcw q.id (q.title.getD d.title) (q.content.getD d.content) (q.coll.getD (collOf (run e init ops) q.id)) (q.size.getD 0)
            (q.overlap.getD 0) q.ents k hk h (hn.same hc))
          split
          · exact hi
          · exact hi.trans (same_putRecord _ _ k hk)
        · rw [if_neg h3]
          exact (same_entities e _ _ k h (fun i l hl hc w hw => hn i l hl hc w (List.mem_append_right _ hw))).trans (same_putRecord _ _ k hk)

/-- C171, everything but the entities: an update changes nothing of the rest that is shown of another item, whatever it does to entities. -/
theorem C171_others (e : Env) (ops : List Op) (q : UpdateReq) (k : String) (hk : k ≠ q.id) :
    (load e (update e (run e init ops) q).1 k).map (fun r => { r with ents := [] }) = (load e (run e init ops) k).map (fun r => { r with ents := [] }) := by
  have hwf := wf_run e ops init wf_init
  apply rest_load
  have hc := (same_cleanup _ hwf q.id k hk).rest
  have hcw := wf_cleanup _ q.id hwf
  have hu : ∀ s, Rest s (upsertEntities e s q.ents) k := fun s => ⟨rfl, rfl⟩
  unfold update
  simp only
  repeat' split
  all_goals first
    | exact ⟨rfl, rfl⟩
    | exact hc.trans (rest_ingest e _ hcw _ _ _ _ _ _ _ k hk)
    | exact (hc.trans (rest_ingest e _ hcw _ _ _ _ _ _ _ k hk)).trans (same_putRecord _ _ k hk).rest
    | exact (hu _).trans (same_putRecord _ _ k hk).rest

/-! ### Examples -/

/-- Parts of `size` characters (ten by default); no entities are found. -/
def chop (n : Nat) : Nat → List Char → List String
  | 0, _ => []
  | _, [] => []
  | f + 1, l => String.ofList (l.take n) :: chop n f (l.drop n)

def plainEnv : Env := ⟨fun s => decide (s = ""), fun size _ t => chop (if size ≤ 0 then 10 else size.toNat) t.length t.toList,
  fun t => if t = "ada" then [("ada", "")] else [], fun n => "entity:" ++ String.ofList (n.toList.map Char.toLower),
  fun i n => "entity:" ++ String.ofList ((if i = "" then n else i).toList.map Char.toLower), fun _ l => l.take 29⟩

theorem plain_looks : Looks plainEnv :=
  ⟨fun _ _ _ h => List.mem_of_mem_take h, fun _ l hl i h => by
    show i ∈ l.take 29
    rwa [List.take_of_length_le hl]⟩

def item : SaveReq := ⟨"k", "t", "abcdef", "u", "a", "c1", 3, 0, some [("x", "1")], [⟨"", "Ada", "", [chunkId "k" 1]⟩]⟩
def rename : UpdateReq := ⟨"k", some "new", none, none, none, none, none, none, none, []⟩
def source : UpdateReq := ⟨"k", none, none, some "v", none, none, none, none, none, []⟩
def readers : Doc := ⟨"k", "t", "u", "abcdef", 1, "a", some [("x", .other "1")], some ["me"], 0, 0⟩

/-- The hypotheses hold: the item is saved in two parts with an entity, its readers are set and time goes by; then the source, or the title, is updated. -/
example : (save plainEnv init item).2 = true ∧ (load plainEnv (run plainEnv init [.save item]) "k").map (fun r => (r.chunks.length, r.ents)) = some (2, ["Ada"]) ∧
    (update plainEnv (run plainEnv init [.save item, .document readers, .tick]) source).2 = true ∧
    (update plainEnv (run plainEnv init [.save item, .document readers, .tick]) rename).2 = true ∧
    (save plainEnv (run plainEnv init [.save item, .document readers, .tick]) item).2 = true ∧
    (getDoc (run plainEnv init [.save item, .document readers, .tick]) "k").map Doc.acl = some (some ["me"]) := by
  decide +kernel

/-- Another item, whose record is shown before and after. -/
example : (load plainEnv (run plainEnv init [.save item, .save { item with id := "m", ents := [] }]) "m").map (fun r => r.chunks.length) = some 2 ∧
    (∀ x ∈ rename.ents, ∀ c ∈ x.chunks, ∀ i, c ≠ chunkId "m" i) := ⟨by decide +kernel, by simp [rename]⟩

/-- The hypotheses of the partial theorems hold: the entity Ada is given for the second part, whose chunk has no other; another item mentions Ada and is
saved with the entity as it is. -/
example : Mentioned plainEnv "k" (plainEnv.split 3 0 "abcdef") item.ents 1 "entity:ada" ∧
    LastOf (writes plainEnv (plainEnv.split 3 0 "abcdef") item.ents) ⟨"entity:ada", "Ada", "entity"⟩ := by
  refine ⟨⟨"def", by decide +kernel, Or.inr ⟨_, List.mem_cons_self, by decide +kernel, by decide +kernel, by decide +kernel⟩⟩, ?_⟩
  have : writes plainEnv (plainEnv.split 3 0 "abcdef") item.ents = [⟨"entity:ada", "Ada", "entity"⟩] := rfl
  rw [this]
  exact ⟨[], [], rfl, by simp⟩

def again : SaveReq := { item with id := "m", ents := [⟨"", "Ada", "", [chunkId "m" 0]⟩] }

example : Agrees (run plainEnv init [.save item]) (writes plainEnv (plainEnv.split 3 0 again.content) again.ents) "k" ∧
    (load plainEnv (save plainEnv (run plainEnv init [.save item]) again).1 "m").map Record.ents = some ["Ada"] := by
  refine ⟨?_, by decide +kernel⟩
  intro i l hl _ w hw hi
  have h1 : (run plainEnv init [.save item]).links = [⟨chunkId "k" 1, "entity:ada"⟩] := by decide +kernel
  have h2 : writes plainEnv (plainEnv.split 3 0 again.content) again.ents = [⟨"entity:ada", "Ada", "entity"⟩] := rfl
  rw [h1] at hl
  rw [h2] at hw
  rw [List.mem_singleton.1 hl, List.mem_singleton.1 hw]
  decide +kernel

/-- C170 is violated: saving an item in whose text the word "ada" is found changes the name of the entity that another item shows, and giving the entity a type in an
item of its own hides it there. -/
theorem C170_shared_violated : ∃ (e : Env) (q : SaveReq), Looks e ∧ ∃ (q1 q2 : SaveReq), q1.id ≠ q.id ∧ q2.id ≠ q.id ∧ q1.ents = [] ∧ (∀ x ∈ q2.ents, x.chunks = []) ∧
    (load e (run e init [.save q]) q.id).map Record.ents = some ["Ada"] ∧
    (load e (run e init [.save q, .save q1]) q.id).map Record.ents = some ["ada"] ∧
    (load e (run e init [.save q, .save q2]) q.id).map Record.ents = some [] :=
  ⟨plainEnv, item, plain_looks, { item with id := "m", content := "ada", ents := [] }, { item with id := "m", ents := [⟨"", "Ada", "person", []⟩] },
    by decide +kernel⟩

/-- C171 is violated in the same way by an update of another item. -/
theorem C171_shared_violated : ∃ (e : Env) (ops : List Op) (k : String) (q : UpdateReq), Looks e ∧ k ≠ q.id ∧ (∀ x ∈ q.ents, x.chunks = []) ∧
    (load e (run e init ops) k).map Record.ents = some ["Ada"] ∧ (load e (update e (run e init ops) q).1 k).map Record.ents = some [] :=
  ⟨plainEnv, [.save item, .save { item with id := "m", ents := [] }], "k", { source with id := "m", ents := [⟨"", "Ada", "person", []⟩] }, plain_looks, by decide +kernel⟩

/-- C170 is violated: an entity given for a chunk that is not there is left out silently, the save succeeds. -/
theorem C170_lost_violated : ∃ (e : Env) (q : SaveReq), Looks e ∧ (save e init q).2 = true ∧ (∃ x ∈ q.ents, x.chunks ≠ [] ∧ x.name = "Ada") ∧
    (load e (save e init q).1 q.id).map Record.ents = some [] :=
  ⟨plainEnv, { item with ents := [⟨"", "Ada", "", [chunkId "k" 7]⟩] }, plain_looks, by decide +kernel⟩

/-- C171 is violated: changing only the title of an item of two chunks with an entity and readers leaves one chunk, no entity and no readers. -/
theorem C171_rename_violated : ∃ (e : Env) (ops : List Op) (q : UpdateReq), q.content = none ∧ q.coll = none ∧ q.info = none ∧ q.ents = [] ∧ q.size = none ∧
    (update e (run e init ops) q).2 = true ∧
    (load e (run e init ops) q.id).map (fun r => (r.chunks.length, r.ents)) = some (2, ["Ada"]) ∧
    ((getDoc (run e init ops) q.id).map Doc.acl) = some (some ["me"]) ∧
    (load e (update e (run e init ops) q).1 q.id).map (fun r => (r.chunks.length, r.ents)) = some (1, []) ∧
    ((getDoc (update e (run e init ops) q).1 q.id).map Doc.acl) = some none :=
  ⟨plainEnv, [.save item, .document readers, .tick], rename, by decide +kernel⟩

/-- C171 is violated: changing only the source turns a metadata value that is not a string into one. -/
theorem C171_metadata_violated : ∃ (e : Env) (ops : List Op) (q : UpdateReq), q.title = none ∧ q.content = none ∧ q.coll = none ∧ q.info = none ∧ q.ents = [] ∧
    (update e (run e init ops) q).2 = true ∧ ((getDoc (run e init ops) q.id).map Doc.info) = some (some [("x", .other "1")]) ∧
    ((getDoc (update e (run e init ops) q).1 q.id).map Doc.info) = some (some [("x", .str "1")]) :=
  ⟨plainEnv, [.save item, .document readers, .tick], source, by decide +kernel⟩

/-- C170 is violated: an entity that was given a type of its own is not shown. -/
theorem C170_typed_violated : ∃ (e : Env) (q : SaveReq) (x : Entity), x ∈ q.ents ∧ (save e init q).2 = true ∧ x.chunks = [chunkId q.id 0] ∧
    (load e (save e init q).1 q.id).map (fun r => (r.chunks, r.ents)) = some ([chunkId q.id 0, chunkId q.id 1], []) :=
  ⟨plainEnv, { item with ents := [⟨"", "Ada", "person", [chunkId "k" 0]⟩] }, ⟨"", "Ada", "person", [chunkId "k" 0]⟩, by decide +kernel⟩

end Verif.KnowRec
