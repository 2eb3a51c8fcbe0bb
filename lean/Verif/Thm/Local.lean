import Verif.Thm.Narrow
import Verif.Thm.AnyOrder
import Verif.Thm.StoreIndex
import Verif.Thm.Flat
import Verif.Thm.GraphRead

/-!
C251: a write shows in a search only through its own record. Everything else in the answer of an unlimited search is as it was before.
-/
namespace Verif.Flat
open Verif.Base

variable {V : Type}

/-- C251, exact index: after one more insertion or deletion a range search gives the other vectors as before. -/
theorem C251_flat (E : Env V) (d : Nat) (ops : List (Op V)) (op : Op V) (k : String) (hop : (∃ v, op = .insert k v) ∨ op = .delete k)
    (o o' : List (String × V) → List (String × V)) (ho : ∀ l, (o l).Perm l) (ho' : ∀ l, (o' l).Perm l) (q : V) (r : ℚ) (x : String × ℚ)
    (hx : x.1 ≠ k) :
    x ∈ rangeSearch E (run E (new V d) (ops ++ [op])) o' q r ↔ x ∈ rangeSearch E (run E (new V d) ops) o q r := by
  obtain ⟨x, y⟩ := x
  simp only at hx
  by_cases hq : E.dim q = d
  · rw [((C35_range_exact E d ops o ho q r).2 hq).2.2 x y, ((C35_range_exact E d (ops ++ [op]) o' ho' q r).2 hq).2.2 x y]
    have e : after E.dim d (ops ++ [op]) x = after E.dim d ops x := by
      unfold after
      rw [List.foldl_append]
      rcases hop with ⟨v, rfl⟩ | rfl
      · simp only [List.foldl_cons, List.foldl_nil, effect]
        split
        · exact if_neg hx
        · rfl
      · exact if_neg hx
    rw [e]
  · rw [(C35_range_exact E d ops o ho q r).1 hq, (C35_range_exact E d (ops ++ [op]) o' ho' q r).1 hq]

example :
    rangeSearch lineEnv (run lineEnv (new Nat 1) [.insert "a" 9, .insert "c" 6]) id 6 4 = [("c", 0), ("a", 3)] ∧
    rangeSearch lineEnv (run lineEnv (new Nat 1) ([.insert "a" 9, .insert "c" 6] ++ [.insert "c" 7])) id 6 4 = [("c", 1), ("a", 3)] := by
  constructor <;> decide +kernel

end Verif.Flat

namespace Verif.Thm.Search
open Verif.Model.Store Verif.Model.Search Verif.Base Verif.Spec Verif.Thm.StoreProps Verif.Thm.Retry

variable {W HI VI : Type}

/-- A call about one record leaves the rows of the others. -/
theorem rows_other (env : Env W HI VI) (s : St W HI VI) (op : Op W HI VI) (k : String) (hk : key op = some k) (r : Row W) (hr : r.id ≠ k) :
    r ∈ (step env s op).1.db.embeddings ↔ r ∈ s.db.embeddings := by
  cases op with
  | upsert fk f e =>
    cases hk
    rcases Verif.Thm.StoreIndex.upsert_split env s fk f e with ⟨_, h, _⟩ | ⟨_, row, h1, _, h2, _⟩
    · simp only [step]; rw [h]
    · simp only [step]; rw [h2]
      simp only [List.mem_append, List.mem_filter, List.mem_singleton, decide_eq_true_eq]
      constructor
      · rintro (h | rfl)
        · exact h.1
        · exact absurd h1 hr
      · exact fun h => Or.inl ⟨h, by rw [h1]; exact hr⟩
  | delete f id =>
    cases hk
    simp only [step, delete]
    split
    · rfl
    split
    · rfl
    split
    · rfl
    split
    · simp only [List.mem_filter, decide_eq_true_eq]
      exact ⟨fun h => h.1, fun h => ⟨h, hr⟩⟩
    · rfl
  | _ => cases hk

theorem inColl_congr {db db' : DB W} (h : db.collections = db'.collections) (r : Row W) (n : String) : InColl db r n ↔ InColl db' r n := by
  unfold InColl; rw [h]

theorem inScope_congr {db db' : DB W} (h : db.collections = db'.collections) (o : Opts) (r : Row W) : InScope db o r ↔ InScope db' o r := by
  unfold InScope; rw [inColl_congr h]

theorem scan_congr {db db' : DB W} (h : db.collections = db'.collections) (r : Row W) : scan db r = scan db' r := by
  unfold scan collName; rw [h]

/-- C251, search of the table: in a store with a dimension, writing or deleting one record changes no other result. -/
theorem C251_search_partial (env : Env W HI VI) (c : Cfg W) (hs : SortsDesc c.sort) (s : St W HI VI) (wf : Verif.Thm.Store.WF s.db)
    (h0 : s.dim ≠ 0) (op : Op W HI VI) (k : String) (hk : key op = some k) (query : List W) (o : Opts)
    (hl : (s.db.embeddings.length : Int) ≤ o.topK) (hl' : ((step env s op).1.db.embeddings.length : Int) ≤ o.topK)
    (out : List (Hit W)) (h : search c .linear s query o = .ok out) :
    ∃ out', search c .linear (step env s op).1 query o = .ok out' ∧ ∀ x : Hit W, x.id ≠ k → (x ∈ out' ↔ x ∈ out) := by
  obtain ⟨q, hq, rfl⟩ := prepared h
  obtain ⟨k1, k2, k3, k4⟩ := single_keeps env s op k hk h0
  have wf' := (Verif.Thm.Store.step_cases env s wf op "").1
  have hq' : prepareQuery c (step env s op).1 query = .ok q := by
    rw [← hq]
    unfold prepareQuery
    rw [k1, k2]
  refine ⟨serve c .linear (step env s op).1 q o, by unfold search; rw [hq'], fun x hx => ?_⟩
  rw [linear_mem c hs s wf q o hl, linear_mem c hs _ wf' q o hl']
  have e : ∀ r, hitOf c (step env s op).1.db o q r = hitOf c s.db o q r := by
    intro r; unfold hitOf; rw [scan_congr k3]
  constructor
  · rintro ⟨r, h1, h2, rfl, h4⟩
    rw [e] at h4 ⊢
    exact ⟨r, (rows_other env s op k hk r hx).1 h1, (inScope_congr k3 o r).1 h2, rfl, h4⟩
  · rintro ⟨r, h1, h2, rfl, h4⟩
    exact ⟨r, (rows_other env s op k hk r hx).2 h1, (inScope_congr k3 o r).2 h2, (e r).symm, h4⟩

/-- C251, access control. -/
theorem C251_acl_partial (env : Env W HI VI) (c : Cfg W) (hs : SortsDesc c.sort) (s : St W HI VI) (h0 : s.dim ≠ 0) (op : Op W HI VI) (k : String)
    (hk : key op = some k) (query : List W) (ps : List String) (o : Opts) (hl : o.topK ≤ 0) (out : List (Hit W))
    (h : searchWithACL c s query ps o = .ok out) :
    ∃ out', searchWithACL c (step env s op).1 query ps o = .ok out' ∧ ∀ x : Hit W, x.id ≠ k → (x ∈ out' ↔ x ∈ out) := by
  obtain ⟨k1, k2, k3, k4⟩ := single_keeps env s op k hk h0
  have hok : ∃ out', searchWithACL c (step env s op).1 query ps o = .ok out' := by
    unfold searchWithACL at h ⊢
    split at h
    · cases h
    · rename_i hcl
      rw [k1, if_neg hcl]
      exact ⟨_, rfl⟩
  obtain ⟨out', h'⟩ := hok
  refine ⟨out', h', fun x hx => ?_⟩
  rw [acl_mem c hs s query ps o hl out h, acl_mem c hs _ query ps o hl out' h']
  have e : ∀ r, aclMatch (step env s op).1.db ps o.collection r = aclMatch s.db ps o.collection r := by
    intro r; unfold aclMatch collName; rw [k3]
  constructor
  · rintro ⟨r, h1, h2, rfl⟩
    rw [e] at h2
    rw [scan_congr k3]
    exact ⟨r, (rows_other env s op k hk r hx).1 h1, h2, rfl⟩
  · rintro ⟨r, h1, h2, rfl⟩
    exact ⟨r, (rows_other env s op k hk r hx).2 h1, by rw [e]; exact h2, by rw [scan_congr k3]⟩

/-- C251 is violated by every store that holds records but has no dimension, as a batch into a new store leaves it: the first single write
sets the dimension to that of its vector, queries are adapted to it, and records of another length all score as vectors of different lengths
do. -/
theorem C251_first_violated (env : Env W HI VI) (c : Cfg W) (hs : SortsDesc c.sort) (s : St W HI VI) (wf : Verif.Thm.Store.WF s.db)
    (h0 : s.dim = 0) (fk f : Bool) (e : Emb W) (v : List W) (hv : e.vector = some v) (hne : v ≠ []) (query : List W) (hlen : query.length ≠ v.length)
    (hadapt : ∀ q a b w, c.adapt q a b = some w → w.length = b) (hsim : ∀ a b : List W, a.length ≠ b.length → c.sim a b = 0)
    (o : Opts) (htext : o.queryText = "") (hok : (step env s (.upsert fk f e)).2 = .ok)
    (hl' : ((step env s (.upsert fk f e)).1.db.embeddings.length : Int) ≤ o.topK) (out : List (Hit W))
    (h : search c .linear (step env s (.upsert fk f e)).1 query o = .ok out) (x : Hit W) (hx : x ∈ out) (hxl : x.vector.length ≠ v.length) :
    x.score = 0 := by
  have wf' := (Verif.Thm.Store.step_cases env s wf (.upsert fk f e) "").1
  have hd : (step env s (.upsert fk f e)).1.dim = v.length := by
    have := (Verif.Facade.upsert_dim env s fk f e hok).1
    rw [if_pos h0, hv] at this
    exact this
  obtain ⟨q, hq, rfl⟩ := prepared h
  have hql : q.length = v.length := by
    unfold prepareQuery at hq
    rw [hd] at hq
    split at hq
    · cases hq
    · rw [if_pos ⟨List.length_pos_iff.2 hne, hlen⟩] at hq
      simp only at hq
      split at hq
      · cases hq
      · rename_i w hw
        have hw' := hadapt _ _ _ _ hw
        by_cases hval : c.validQuery w = true
        · simp [hval, hw'] at hq
          rw [← hq]; exact hw'
        · simp [hval] at hq
  obtain ⟨r, _, _, rfl, _⟩ := (linear_mem c hs _ wf' q o hl' x).1 hx
  have hz : c.sim q r.vector = 0 := hsim _ _ (by rw [hql]; exact fun hh => hxl hh.symm)
  show combine c o q (scan _ r) = 0
  unfold combine
  simp only [htext, ne_eq, not_true_eq_false, if_false]
  cases c.textSim <;> simp [scan, hz]

example : store1.dim ≠ 0 ∧ key (.upsert true false { id := "b", vector := some [9, 9] } : Op Nat Unit Unit) = some "b" ∧
    (search cfg0 .linear store1 [1, 1] { topK := 9 }).toOption.map (List.map (fun x => (x.id, x.score))) = some [("e", 5), ("b", 3), ("a", 1)] ∧
    (search cfg0 .linear (step env0 store1 (.upsert true false { id := "b", vector := some [9, 9] })).1 [1, 1] { topK := 9 }).toOption.map
      (List.map (fun x => (x.id, x.score))) = some [("b", 9), ("e", 5), ("a", 1)] := by decide +kernel

/-- Similarity that is 0 for vectors of different lengths, and adaptation by filling up with zeros. -/
def cfgL : Cfg Nat :=
  { cfg0 with
    sim := fun a b => if a.length = b.length then ((a.headD 0) * (b.headD 0) : Nat) else 0
    adapt := fun q _ b => some ((q ++ List.replicate b 0).take b) }

/-- A store filled by a batch, before and after the first single write. -/
def batched : St Nat Unit Unit := run env0 (init 0 none none) [.upsertBatch true none [{ id := "a", vector := some [1, 2] }, { id := "b", vector := some [3, 4] }]]

example : batched.dim = 0 ∧
    (search cfgL .linear batched [1, 1] { topK := 9 }).toOption.map (List.map (fun x => (x.id, x.score))) = some [("b", 3), ("a", 1)] ∧
    (step env0 batched (.upsert true false { id := "e", vector := some [5, 6, 7] })).2 = .ok ∧
    (search cfgL .linear (step env0 batched (.upsert true false { id := "e", vector := some [5, 6, 7] })).1 [1, 1] { topK := 9 }).toOption.map
      (List.map (fun x => (x.id, x.score))) = some [("e", 5), ("a", 0), ("b", 0)] := by decide +kernel

example : ∀ q a b w, cfgL.adapt q a b = some w → w.length = b := by
  intro q a b w h
  cases h
  simp

example : ∀ a b : List Nat, a.length ≠ b.length → cfgL.sim a b = 0 := fun _ _ h => if_neg h

end Verif.Thm.Search

namespace Verif.Graph
open Verif.Base Verif.Spec

/-- C251, neighbourhood: writing a node changes no other node among the neighbours. -/
theorem C251_neighbors (s : State) (h : Unique s) (m : Node) (id : String) (o : Opts) (hl : o.limit ≤ 0) (hd : GoodDir o.direction) :
    ∃ r r', neighbors s id o = some (some r) ∧ neighbors (upsertNode s (some m)).1 id o = some (some r') ∧
      ∀ n, n.id ≠ m.id → (n ∈ r' ↔ n ∈ r) := by
  have h' : Unique (upsertNode s (some m)).1 := step_unique s h (.upsertNode (some m))
  obtain ⟨r, a1, -, a3⟩ := C42_neighbors_exact_partial s h id o hl hd
  obtain ⟨r', b1, -, b3⟩ := C42_neighbors_exact_partial _ h' id o hl hd
  refine ⟨r, r', a1, b1, fun n hn => ?_⟩
  rw [a3, b3]
  have hedges : (upsertNode s (some m)).1.edges = s.edges := by
    unfold upsertNode; simp only; split
    · rfl
    split <;> rfl
  have hal : Allowed (upsertNode s (some m)).1 o = Allowed s o := by
    unfold Allowed; rw [hedges]
  rw [hal]
  have hnodes : n ∈ (upsertNode s (some m)).1.nodes ↔ n ∈ s.nodes := by
    unfold upsertNode; simp only; split
    · rfl
    split
    · rfl
    · simp only [putNode]
      split
      · rw [List.mem_map]
        constructor
        · rintro ⟨y, hy, rfl⟩
          by_cases hyi : y.id = m.id
          · rw [if_pos hyi] at hn; exact absurd rfl hn
          · rw [if_neg hyi]; exact hy
        · exact fun hh => ⟨n, hh, if_neg hn⟩
      · rw [List.mem_append, List.mem_singleton]
        exact ⟨fun hh => hh.resolve_right (fun e => hn (by rw [e])), Or.inl⟩
  rw [hnodes]

example : (neighbors (upsertNode small (some { typed "c" "person" with vec := [7] })).1 "b" ⟨2, [], [], "", 0⟩).map (Option.map (List.map Node.vec)) =
    some (some [(typed "a" "person").vec, [7]]) := by decide +kernel

end Verif.Graph
