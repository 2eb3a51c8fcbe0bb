import Verif.Model.Ivf
import Mathlib.Data.List.Perm.Subperm
import Mathlib.Data.List.Nodup
import Mathlib.Tactic.Linarith

/-!
C34: the inverted file index over arbitrary histories.
-/
namespace Verif.Ivf
open Verif.Base Verif.Spec

variable {V : Type}

/-! ### Histories and what they mean -/

inductive Op (V : Type) where
  | train (vs : List V)
  | add (id : String) (v : V)
  | delete (id : String)
  | clear
  | setNProbe (n : Nat)

/-- The index after a call: unchanged when the call returns an error, nothing when it panics. -/
def settle (ix : Index V) : Except Fail (Index V) → Option (Index V)
  | .ok ix' => some ix'
  | .error .err => some ix
  | .error .panic => none

def step (E : Env V) (ix : Index V) : Op V → Option (Index V)
  | .train vs => settle ix (train E ix vs)
  | .add id v => settle ix (add E ix id v)
  | .delete id => settle ix (delete ix id)
  | .clear => some (clear ix)
  | .setNProbe n => some (setNProbe ix n)

def run (E : Env V) : Index V → List (Op V) → Option (Index V)
  | ix, [] => some ix
  | ix, op :: ops => (step E ix op).bind (fun ix' => run E ix' ops)

/-- Specification: whether training has succeeded, and the entries added and not removed, oldest first. -/
structure Contents (V : Type) where
  trained : Bool
  entries : List (String × V)

/-- What a call means for an index of the given dimension and number of clusters. -/
def effect (dimOf : V → Nat) (dimension ncent : Nat) (c : Contents V) : Op V → Contents V
  | .train vs => if vs.length < ncent then c else ⟨true, c.entries⟩
  | .add id v => if c.trained = true ∧ dimOf v = dimension then ⟨c.trained, c.entries ++ [(id, v)]⟩ else c
  | .delete id => if c.trained = true then ⟨c.trained, c.entries.eraseP (fun e => decide (e.1 = id))⟩ else c
  | .clear => ⟨c.trained, []⟩
  | .setNProbe _ => c

def after (dimOf : V → Nat) (dimension ncent : Nat) (ops : List (Op V)) : Contents V :=
  ops.foldl (effect dimOf dimension ncent) ⟨false, []⟩

/-- An entry as a search reports it. -/
def scored (E : Env V) (q : V) (e : String × V) : String × ℚ := (e.1, E.dist q e.2)

structure Env.Sound (E : Env V) : Prop where
  sorts : ∀ l, SortedFrom (fun a b => a.2 ≤ b.2) l (E.sort l)
  clusters : ∀ vs k, k ≤ vs.length → (E.kmeans vs k).length = k

/-! ### Invariant -/

structure Inv (ix : Index V) : Prop where
  pos : 0 < ix.ncent
  lists : ix.inv.length = ix.ncent
  cents : ix.trained = true → ix.centroids.length = ix.ncent
  len : ix.ids.length = ix.vecs.length
  perm : ix.inv.flatten.Perm (List.range ix.vecs.length)
  asc : ∀ l ∈ ix.inv, l.Pairwise (· < ·)

def entries (ix : Index V) : List (String × V) := ix.ids.zip ix.vecs

def Holds (ix : Index V) (c : Contents V) : Prop := ix.trained = c.trained ∧ entries ix = c.entries

theorem nearest_lt (E : Env V) (v : V) (N : Nat) (cs : List V) : ∀ i d best, best < N → i + cs.length ≤ N → nearestFrom E v cs i d best < N := by
  induction cs with
  | nil => intro i d best hb _; exact hb
  | cons c cs ih =>
    intro i d best hb hl
    rw [List.length_cons] at hl
    unfold nearestFrom
    split
    · exact ih _ _ _ (by omega) (by omega)
    · exact ih _ _ _ hb (by omega)

theorem flatten_set (inv : List (List Nat)) : ∀ (i : Nat) (l : List Nat) (n : Nat), inv[i]? = some l →
    (inv.set i (l ++ [n])).flatten.Perm (n :: inv.flatten) := by
  induction inv with
  | nil => intro i l n h; simp at h
  | cons a inv ih =>
    intro i l n h
    cases i with
    | zero =>
      simp only [List.getElem?_cons_zero, Option.some.injEq] at h
      subst h
      simp only [List.set_cons_zero, List.flatten_cons]
      rw [List.append_assoc]
      exact List.perm_middle
    | succ i =>
      simp only [List.getElem?_cons_succ] at h
      simp only [List.set_cons_succ, List.flatten_cons]
      exact ((ih i l n h).append_left a).trans List.perm_middle

theorem mem_lt {ix : Index V} (hi : Inv ix) {l : List Nat} (hl : l ∈ ix.inv) {x : Nat} (hx : x ∈ l) : x < ix.vecs.length :=
  List.mem_range.1 (hi.perm.mem_iff.1 (List.mem_flatten.2 ⟨l, hl, hx⟩))

theorem mem_set {inv : List (List Nat)} : ∀ {i : Nat} {m l : List Nat}, l ∈ inv.set i m → l ∈ inv ∨ l = m := by
  intro i m l h
  exact List.mem_or_eq_of_mem_set h

theorem add_spec (E : Env V) (ix : Index V) (id : String) (v : V) (hi : Inv ix) (ht : ix.trained = true) (hd : E.dim v = ix.dimension) :
    ∃ ix', add E ix id v = .ok ix' ∧ Inv ix' ∧ entries ix' = entries ix ++ [(id, v)] ∧ ix'.trained = true ∧ ix'.ncent = ix.ncent ∧
      ix'.dimension = ix.dimension ∧ ix'.nprobe = ix.nprobe := by
  have hlt : nearest E ix v < ix.inv.length := by
    rw [hi.lists]
    refine nearest_lt E v ix.ncent ix.centroids 0 _ 0 hi.pos ?_
    rw [hi.cents ht]
    omega
  have hg : ix.inv[nearest E ix v]? = some (ix.inv[nearest E ix v]'hlt) := List.getElem?_eq_getElem hlt
  unfold add
  rw [if_neg (by rw [ht]; decide), if_neg (by rw [hd]; simp), hg]
  refine ⟨_, rfl, ⟨hi.pos, by simpa using hi.lists, hi.cents, by simp [hi.len], ?_, ?_⟩, ?_, ht, rfl, rfl, rfl⟩
  · simp only [List.length_append, List.length_singleton]
    rw [List.range_succ]
    exact ((flatten_set _ _ _ _ hg).trans (hi.perm.cons _)).trans (List.perm_append_singleton _ _).symm
  · intro l hl
    rcases List.mem_or_eq_of_mem_set hl with hl | rfl
    · exact hi.asc l hl
    · rw [List.pairwise_append]
      refine ⟨hi.asc _ (List.getElem_mem hlt), by simp, ?_⟩
      intro a ha b hb
      rw [List.mem_singleton] at hb
      subst hb
      exact mem_lt hi (List.getElem_mem hlt) ha
  · unfold entries
    simp only
    rw [List.zip_append hi.len]
    rfl

/-! ### Deletion -/

/-- Where a position goes when position `vi` is taken out. -/
def shift (vi x : Nat) : Nat := if vi < x then x - 1 else x

theorem dropFrom_tidy (vi : Nat) (l : List Nat) (ha : l.Pairwise (· < ·)) (h : vi ∈ l → ∀ x ∈ l, x ≤ vi) :
    dropFrom vi l = (l.filter (fun x => decide (x ≠ vi))).map (shift vi) := by
  induction l with
  | nil => rfl
  | cons x xs ih =>
    rw [List.pairwise_cons] at ha
    unfold dropFrom
    by_cases hx : x = vi
    · rw [if_pos hx]
      have hnil : xs = [] := by
        cases xs with
        | nil => rfl
        | cons y ys =>
          have h1 := ha.1 y List.mem_cons_self
          have h2 := h (by rw [hx]; exact List.mem_cons_self) y (by simp)
          omega
      subst hnil
      simp [hx]
    · rw [if_neg hx]
      have ih' := ih ha.2 (fun hm y hy => h (List.mem_cons_of_mem _ hm) y (List.mem_cons_of_mem _ hy))
      rw [List.filter_cons_of_pos (by simpa using hx), List.map_cons, ← ih']
      unfold shift
      split <;> rfl

theorem range_drop (n vi : Nat) (h : vi < n) :
    (((List.range n).filter (fun x => decide (x ≠ vi))).map (shift vi)).Perm (List.range (n - 1)) := by
  rw [List.perm_ext_iff_of_nodup]
  · intro a
    rw [List.mem_map, List.mem_range]
    constructor
    · rintro ⟨x, hx, rfl⟩
      rw [List.mem_filter, List.mem_range] at hx
      have := of_decide_eq_true hx.2
      unfold shift
      split <;> omega
    · intro ha
      by_cases hv : a < vi
      · exact ⟨a, by rw [List.mem_filter, List.mem_range]; exact ⟨by omega, by simp; omega⟩, by unfold shift; rw [if_neg (by omega)]⟩
      · exact ⟨a + 1, by rw [List.mem_filter, List.mem_range]; exact ⟨by omega, by simp; omega⟩, by unfold shift; rw [if_pos (by omega)]; omega⟩
  · refine List.Nodup.map_on ?_ (List.nodup_range.filter _)
    intro x hx y hy he
    rw [List.mem_filter] at hx hy
    have h1 := of_decide_eq_true hx.2
    have h2 := of_decide_eq_true hy.2
    unfold shift at he
    split at he <;> split at he <;> omega
  · exact List.nodup_range

theorem flatten_filter_map (vi : Nat) (inv : List (List Nat)) :
    (inv.map (fun l => (l.filter (fun x => decide (x ≠ vi))).map (shift vi))).flatten =
      (inv.flatten.filter (fun x => decide (x ≠ vi))).map (shift vi) := by
  induction inv with
  | nil => rfl
  | cons a inv ih => simp only [List.map_cons, List.flatten_cons, List.filter_append, List.map_append, ih]

theorem findIdx_zip (id : String) (ids : List String) : ∀ vecs : List V, ids.length = vecs.length →
    (ids.zip vecs).findIdx? (fun e => decide (e.1 = id)) = ids.findIdx? (fun x => decide (x = id)) := by
  induction ids with
  | nil => intro vecs _; rfl
  | cons x xs ih =>
    intro vecs h
    cases vecs with
    | nil => simp at h
    | cons v vs =>
      simp only [List.zip_cons_cons, List.findIdx?_cons]
      rw [ih vs (by simpa using h)]

theorem eraseIdx_zip (ids : List String) : ∀ (vecs : List V) (i : Nat), (ids.eraseIdx i).zip (vecs.eraseIdx i) = (ids.zip vecs).eraseIdx i := by
  induction ids with
  | nil => intro vecs i; simp
  | cons x xs ih =>
    intro vecs i
    cases vecs with
    | nil => simp
    | cons v vs =>
      cases i with
      | zero => simp
      | succ i => simp [ih vs i]

/-- The vector is the last of its cluster, which is the only case in which `Delete` renumbers correctly; training happens on an
empty index. -/
def Tidy (ix : Index V) : Op V → Prop
  | .delete id => ∀ vi, ix.ids.findIdx? (fun x => decide (x = id)) = some vi → ∀ l ∈ ix.inv, vi ∈ l → ∀ x ∈ l, x ≤ vi
  | .train _ => ix.vecs = []
  | _ => True

def AllTidy (E : Env V) : Index V → List (Op V) → Prop
  | _, [] => True
  | ix, op :: ops => Tidy ix op ∧ ∀ ix', step E ix op = some ix' → AllTidy E ix' ops

theorem findIdx_lt {id : String} {ids : List String} {vi : Nat} (h : ids.findIdx? (fun x => decide (x = id)) = some vi) : vi < ids.length := by
  rw [List.findIdx?_eq_some_iff_getElem] at h
  exact h.1

theorem entries_erase (ix : Index V) (hlen : ix.ids.length = ix.vecs.length) (id : String) :
    (entries ix).eraseP (fun e => decide (e.1 = id)) =
      match ix.ids.findIdx? (fun x => decide (x = id)) with
      | none => entries ix
      | some vi => (ix.ids.eraseIdx vi).zip (ix.vecs.eraseIdx vi) := by
  rw [List.eraseP_eq_eraseIdx]
  unfold entries
  rw [findIdx_zip id _ _ hlen]
  cases ix.ids.findIdx? (fun x => decide (x = id)) with
  | none => rfl
  | some vi => exact (eraseIdx_zip _ _ _).symm

theorem step_spec (E : Env V) (hE : E.Sound) (ix : Index V) (op : Op V) (c : Contents V) (hi : Inv ix) (hc : Holds ix c) (ht : Tidy ix op) :
    ∃ ix', step E ix op = some ix' ∧ Inv ix' ∧ Holds ix' (effect E.dim ix.dimension ix.ncent c op) ∧ ix'.ncent = ix.ncent ∧
      ix'.dimension = ix.dimension := by
  obtain ⟨hc1, hc2⟩ := hc
  have hflat0 : ∀ inv : List (List Nat), (inv.map (fun _ => ([] : List Nat))).flatten = [] := by
    intro inv; induction inv with
    | nil => rfl
    | cons a inv ih => simp
  have hempty : ∀ l ∈ ix.inv.map (fun _ => ([] : List Nat)), l.Pairwise (· < ·) := by
    intro l hl
    obtain ⟨_, _, rfl⟩ := List.mem_map.1 hl
    exact List.Pairwise.nil
  cases op with
  | train vs =>
    simp only [step, train, effect]
    by_cases hv : vs.length < ix.ncent
    · rw [if_pos hv, if_pos hv]
      exact ⟨ix, rfl, hi, ⟨hc1, hc2⟩, rfl, rfl⟩
    · rw [if_neg hv, if_neg hv]
      have hv0 : ix.vecs = [] := ht
      refine ⟨_, rfl, ⟨hi.pos, by simpa using hi.lists, fun _ => hE.clusters vs ix.ncent (by omega), hi.len, ?_, hempty⟩, ⟨rfl, hc2⟩, rfl, rfl⟩
      simp only
      rw [hflat0, hv0]
      exact List.Perm.refl _
  | add id v =>
    simp only [step, effect]
    by_cases hg : c.trained = true ∧ E.dim v = ix.dimension
    · rw [if_pos hg]
      obtain ⟨ix', a1, a2, a3, a4, a5, a6, a7⟩ := add_spec E ix id v hi (hc1.trans hg.1) hg.2
      exact ⟨ix', by rw [a1]; rfl, a2, ⟨a4.trans hg.1.symm, by rw [a3, hc2]⟩, a5, a6⟩
    · rw [if_neg hg]
      refine ⟨ix, ?_, hi, ⟨hc1, hc2⟩, rfl, rfl⟩
      unfold add
      by_cases h1 : ix.trained = false
      · rw [if_pos h1]; rfl
      · rw [if_neg h1]
        have h2 : E.dim v ≠ ix.dimension := by
          intro h2
          exact hg ⟨by rw [← hc1]; simpa using h1, h2⟩
        rw [if_pos h2]; rfl
  | delete id =>
    simp only [step, delete, effect]
    by_cases h1 : ix.trained = false
    · rw [if_pos h1, if_neg (by rw [← hc1, h1]; decide)]
      exact ⟨ix, rfl, hi, ⟨hc1, hc2⟩, rfl, rfl⟩
    · rw [if_neg h1, if_pos (by rw [← hc1]; simpa using h1)]
      have he := entries_erase ix hi.len id
      cases hf : ix.ids.findIdx? (fun x => decide (x = id)) with
      | none =>
        rw [hf] at he
        exact ⟨ix, rfl, hi, ⟨hc1, by rw [← hc2]; exact he.symm⟩, rfl, rfl⟩
      | some vi =>
        rw [hf] at he
        have hvi := findIdx_lt hf
        have hvv : vi < ix.vecs.length := hi.len ▸ hvi
        have hmap : ix.inv.map (dropFrom vi) = ix.inv.map (fun l => (l.filter (fun x => decide (x ≠ vi))).map (shift vi)) := by
          apply List.map_congr_left
          intro l hl
          exact dropFrom_tidy vi l (hi.asc l hl) (fun hm => ht vi hf l hl hm)
        refine ⟨_, rfl, ⟨hi.pos, by simpa using hi.lists, hi.cents, ?_, ?_, ?_⟩, ⟨hc1, by rw [← hc2]; exact he.symm⟩, rfl, rfl⟩
        · simp only
          rw [List.length_eraseIdx_of_lt hvi, List.length_eraseIdx_of_lt hvv, hi.len]
        · simp only
          rw [hmap, flatten_filter_map, List.length_eraseIdx_of_lt hvv]
          exact ((hi.perm.filter _).map _).trans (range_drop _ _ hvv)
        · intro l hl
          rw [hmap] at hl
          obtain ⟨m, hm, rfl⟩ := List.mem_map.1 hl
          rw [List.pairwise_map]
          refine List.Pairwise.imp_of_mem ?_ ((hi.asc m hm).filter _)
          intro a b ha hb hab
          rw [List.mem_filter] at ha hb
          have h1 := of_decide_eq_true ha.2
          have h2 := of_decide_eq_true hb.2
          unfold shift
          split <;> split <;> omega
  | clear =>
    refine ⟨_, rfl, ⟨hi.pos, by simpa [clear] using hi.lists, hi.cents, rfl, ?_, hempty⟩, ⟨hc1, rfl⟩, rfl, rfl⟩
    simp only [clear]
    rw [hflat0]
    exact List.Perm.refl _
  | setNProbe n => exact ⟨_, rfl, ⟨hi.pos, hi.lists, hi.cents, hi.len, hi.perm, hi.asc⟩, ⟨hc1, hc2⟩, rfl, rfl⟩

theorem run_spec (E : Env V) (hE : E.Sound) (ops : List (Op V)) : ∀ (ix : Index V) (c : Contents V), Inv ix → Holds ix c → AllTidy E ix ops →
    ∃ ix', run E ix ops = some ix' ∧ Inv ix' ∧ Holds ix' (ops.foldl (effect E.dim ix.dimension ix.ncent) c) ∧ ix'.ncent = ix.ncent ∧
      ix'.dimension = ix.dimension := by
  induction ops with
  | nil => intro ix c hi hc _; exact ⟨ix, rfl, hi, hc, rfl, rfl⟩
  | cons op ops ih =>
    intro ix c hi hc ht
    obtain ⟨ix1, a1, a2, a3, a4, a5⟩ := step_spec E hE ix op c hi hc ht.1
    obtain ⟨ix2, b1, b2, b3, b4, b5⟩ := ih ix1 _ a2 a3 (ht.2 ix1 a1)
    rw [a4, a5] at b3
    exact ⟨ix2, by rw [run, a1]; exact b1, b2, b3, b4.trans a4, b5.trans a5⟩

theorem inv_new (d n : Nat) (h : 0 < n) : Inv (new V d n) := by
  refine ⟨h, by simp [new], fun h => by simp [new] at h, rfl, by simp [new], ?_⟩
  intro l hl
  rw [(List.mem_replicate.1 hl).2]
  exact List.Pairwise.nil

theorem run_new (E : Env V) (hE : E.Sound) (d n : Nat) (hn : 0 < n) (ops : List (Op V)) (ht : AllTidy E (new V d n) ops) :
    ∃ ix, run E (new V d n) ops = some ix ∧ Inv ix ∧ Holds ix (after E.dim d n ops) ∧ ix.ncent = n ∧ ix.dimension = d :=
  run_spec E hE ops (new V d n) _ (inv_new d n hn) ⟨rfl, rfl⟩ ht

/-! ### Search -/

theorem allSome_length {α β : Type} (f : α → Option β) : ∀ (l : List α) (out : List β), allSome f l = some out → out.length = l.length
  | [], out, h => by simp [allSome] at h; subst h; rfl
  | x :: xs, out, h => by
    rw [allSome] at h
    cases hx : f x with
    | none => rw [hx] at h; simp at h
    | some z =>
      rw [hx] at h
      simp only at h
      obtain ⟨o, ho, rfl⟩ := Option.map_eq_some_iff.1 h
      simp [allSome_length f xs o ho]

theorem mapIdx_fst (E : Env V) (q : V) (cs : List V) : (cs.mapIdx (fun i c => (i, E.dist q c))).map Prod.fst = List.range cs.length := by
  apply List.ext_getElem
  · simp
  · intro i h1 h2
    simp

/-- The clusters searched are distinct clusters, and all of them when `nprobe` is the number of clusters. -/
theorem probed_spec (E : Env V) (hE : E.Sound) (ix : Index V) (q : V) (hi : Inv ix) (ht : ix.trained = true) :
    ∃ s : List Nat, s.Perm (List.range ix.ncent) ∧ probed E ix q = s.take (min ix.nprobe ix.ncent) := by
  refine ⟨(E.sort (ix.centroids.mapIdx (fun i c => (i, E.dist q c)))).map Prod.fst, ?_, ?_⟩
  · refine ((hE.sorts _).1.map Prod.fst).trans ?_
    rw [mapIdx_fst, hi.cents ht]
  · unfold probed
    rw [List.map_take]

theorem range_flatMap (inv : List (List Nat)) : (List.range inv.length).flatMap (fun c => (inv[c]?).getD []) = inv.flatten := by
  have : (List.range inv.length).map (fun c => (inv[c]?).getD []) = inv := by
    apply List.ext_getElem
    · simp
    · intro i h1 h2
      simp only [List.getElem_map, List.getElem_range]
      rw [List.getElem?_eq_getElem h2]
      rfl
  rw [List.flatMap_def, this]

def nameOf (ix : Index V) (p : Nat) : String := (ix.ids[p]?).getD ""

def scoreOf (E : Env V) (ix : Index V) (q : V) (p : Nat) : ℚ := ((ix.vecs[p]?).map (E.dist q)).getD 0

theorem entries_map (E : Env V) (ix : Index V) (q : V) (hlen : ix.ids.length = ix.vecs.length) :
    (List.range ix.vecs.length).map (fun p => (nameOf ix p, scoreOf E ix q p)) = (entries ix).map (scored E q) := by
  apply List.ext_getElem
  · simp [entries, hlen]
  · intro i h1 h2
    have hi1 : i < ix.vecs.length := by simpa using h1
    have hi2 : i < ix.ids.length := by omega
    simp [nameOf, scoreOf, entries, scored, List.getElem?_eq_getElem hi1, List.getElem?_eq_getElem hi2]

theorem search_spec (E : Env V) (hE : E.Sound) (ix : Index V) (q : V) (k : Nat) (hi : Inv ix) (ht : ix.trained = true) (hd : E.dim q = ix.dimension) :
    ∃ out pool, search E ix q k = .ok out ∧ pool.Subperm ((entries ix).map (scored E q)) ∧ IsTopK (fun r => -r.2) pool k out ∧
      (ix.ncent ≤ ix.nprobe → pool.Perm ((entries ix).map (scored E q))) := by
  obtain ⟨s, hs, hp⟩ := probed_spec E hE ix q hi ht
  have hlt : ∀ c ∈ probed E ix q, c < ix.inv.length := by
    intro c hc
    rw [hp] at hc
    rw [hi.lists]
    exact List.mem_range.1 (hs.mem_iff.1 (List.mem_of_mem_take hc))
  have h1 : allSome (fun c => ix.inv[c]?) (probed E ix q) = some ((probed E ix q).map (fun c => (ix.inv[c]?).getD [])) := by
    apply allSome_map
    intro c hc
    rw [List.getElem?_eq_getElem (hlt c hc)]
    rfl
  have hwhole : (s.flatMap (fun c => (ix.inv[c]?).getD [])).Perm (List.range ix.vecs.length) := by
    refine (hs.flatMap_right _).trans ?_
    rw [← hi.lists, range_flatMap]
    exact hi.perm
  have hpos : ((probed E ix q).map (fun c => (ix.inv[c]?).getD [])).flatten.Subperm (List.range ix.vecs.length) := by
    rw [hp, ← List.flatMap_def]
    refine List.Subperm.trans ?_ hwhole.subperm
    conv_rhs => rw [← List.take_append_drop (min ix.nprobe ix.ncent) s, List.flatMap_append]
    exact (List.sublist_append_left _ _).subperm
  have hfull : ix.ncent ≤ ix.nprobe → ((probed E ix q).map (fun c => (ix.inv[c]?).getD [])).flatten.Perm (List.range ix.vecs.length) := by
    intro hn
    rw [hp, ← List.flatMap_def, List.take_of_length_le (by rw [hs.length_eq, List.length_range]; omega)]
    exact hwhole
  generalize hposd : ((probed E ix q).map (fun c => (ix.inv[c]?).getD [])).flatten = pos at hpos hfull
  have hposlt : ∀ p ∈ pos, p < ix.vecs.length := fun p hp => List.mem_range.1 (hpos.subset hp)
  have h2 : allSome (scoreAt E ix q) pos = some (pos.map (fun p => (p, scoreOf E ix q p))) := by
    apply allSome_map
    intro p hp
    simp [scoreAt, scoreOf, List.getElem?_eq_getElem (hposlt p hp)]
  obtain ⟨hsp, hso⟩ := hE.sorts (pos.map (fun p => (p, scoreOf E ix q p)))
  have h3 : ∀ m : List (Nat × ℚ), (∀ c ∈ m, c.1 < ix.vecs.length) → allSome (nameAt ix) m = some (m.map (fun c => (nameOf ix c.1, c.2))) := by
    intro m hm
    apply allSome_map
    intro c hc
    have := hm c hc
    rw [← hi.len] at this
    simp [nameAt, nameOf, List.getElem?_eq_getElem this]
  have hlt2 : ∀ c ∈ (E.sort (pos.map (fun p => (p, scoreOf E ix q p)))).take k, c.1 < ix.vecs.length := by
    intro c hc
    obtain ⟨p, hp, rfl⟩ := List.mem_map.1 (hsp.mem_iff.1 (List.mem_of_mem_take hc))
    exact hposlt p hp
  refine ⟨((E.sort (pos.map (fun p => (p, scoreOf E ix q p)))).take k).map (fun c => (nameOf ix c.1, c.2)),
    pos.map (fun p => (nameOf ix p, scoreOf E ix q p)), ?_, ?_, ?_, ?_⟩
  · unfold search
    rw [if_neg (by rw [ht]; decide), if_neg (by rw [hd]; simp), h1]
    simp only
    rw [hposd, h2]
    simp only
    rw [h3 _ hlt2]
  · rw [← entries_map E ix q hi.len]
    obtain ⟨t, ht1, ht2⟩ := hpos
    exact ⟨t.map _, ht1.map _, ht2.map _⟩
  · rw [List.map_take]
    apply isTopK_take
    refine ⟨?_, ?_⟩
    · have := hsp.map (fun c => (nameOf ix c.1, c.2))
      rw [List.map_map] at this
      exact this
    · rw [List.pairwise_map]
      exact hso.imp (fun hab => neg_le_neg hab)
  · intro hn
    rw [← entries_map E ix q hi.len]
    exact (hfull hn).map _

/-! ### C34 -/

/-- C34 as far as it holds: when every deleted vector is the last of its cluster and training happens on an empty index, no call panics,
`Size` is the number of entries added and not deleted, and a search reports the `k` best of some of these entries, each at most as often
as it was added, with its distance; with all clusters probed it reports the `k` best of all. Missing: other deletions and
retraining (both violated below). -/
theorem C34_contents_partial (E : Env V) (hE : E.Sound) (d n : Nat) (hn : 0 < n) (ops : List (Op V)) (ht : AllTidy E (new V d n) ops) (q : V) (k : Nat) :
    ∃ ix, run E (new V d n) ops = some ix ∧ size ix = (after E.dim d n ops).entries.length ∧
      (search E ix q k = .error .err ↔ ¬ ((after E.dim d n ops).trained = true ∧ E.dim q = d)) ∧
      ((after E.dim d n ops).trained = true → E.dim q = d → ∃ out pool, search E ix q k = .ok out ∧
        pool.Subperm ((after E.dim d n ops).entries.map (scored E q)) ∧ IsTopK (fun r => -r.2) pool k out ∧
        (n ≤ ix.nprobe → pool.Perm ((after E.dim d n ops).entries.map (scored E q)))) := by
  obtain ⟨ix, a1, a2, ⟨a3, a4⟩, a5, a6⟩ := run_new E hE d n hn ops ht
  have key : (after E.dim d n ops).trained = true → E.dim q = d → ∃ out pool, search E ix q k = .ok out ∧
        pool.Subperm ((after E.dim d n ops).entries.map (scored E q)) ∧ IsTopK (fun r => -r.2) pool k out ∧
        (n ≤ ix.nprobe → pool.Perm ((after E.dim d n ops).entries.map (scored E q))) := by
    intro h1 h2
    obtain ⟨out, pool, b1, b2, b3, b4⟩ := search_spec E hE ix q k a2 (a3.trans h1) (h2.trans a6.symm)
    rw [a4] at b2 b4
    rw [a5] at b4
    exact ⟨out, pool, b1, b2, b3, b4⟩
  refine ⟨ix, a1, ?_, ?_, key⟩
  · rw [← a4]
    simp [size, entries, a2.len]
  · constructor
    · rintro he ⟨h1, h2⟩
      obtain ⟨out, pool, b1, -⟩ := key h1 h2
      rw [b1] at he
      simp at he
    · intro hnot
      unfold search
      by_cases h1 : ix.trained = false
      · rw [if_pos h1]
      · rw [if_neg h1, if_pos]
        rw [a6]
        intro h2
        exact hnot ⟨by rw [← a3]; simpa using h1, h2⟩

/-- Numbers as vectors of dimension one, the first training vectors as centroids. -/
def lineEnv : Env Nat :=
  ⟨fun _ => 1, fun a b => ((a - b + (b - a) : Nat) : ℚ), 1000, fun l => insertSort (fun r => -r.2) l, fun vs k => vs.take k⟩

theorem lineEnv_sound : lineEnv.Sound := by
  refine ⟨?_, ?_⟩
  · intro l
    obtain ⟨h1, h2⟩ := insertSort_sorts (fun r : Nat × ℚ => -r.2) l
    exact ⟨h1, h2.imp (fun h => by linarith)⟩
  · intro vs k h
    simp [lineEnv, h]

/-- A check of the guard, for the examples. -/
def tidyB (ix : Index V) : Op V → Bool
  | .delete id =>
    match ix.ids.findIdx? (fun x => decide (x = id)) with
    | none => true
    | some vi => ix.inv.all (fun l => decide (vi ∉ l) || l.all (fun x => decide (x ≤ vi)))
  | .train _ => ix.vecs.isEmpty
  | _ => true

def allTidyB (E : Env V) : Index V → List (Op V) → Bool
  | _, [] => true
  | ix, op :: ops =>
    tidyB ix op && (match step E ix op with
      | none => true
      | some ix' => allTidyB E ix' ops)

theorem tidyB_ok (ix : Index V) (op : Op V) (h : tidyB ix op = true) : Tidy ix op := by
  cases op with
  | delete id =>
    intro vi hf l hl hm x hx
    simp only [tidyB, hf, List.all_eq_true, Bool.or_eq_true, decide_eq_true_eq] at h
    rcases h l hl with h | h
    · exact absurd hm h
    · exact h x hx
  | train vs => exact List.isEmpty_iff.1 h
  | add id v => trivial
  | clear => trivial
  | setNProbe n => trivial

theorem allTidyB_ok (E : Env V) (ops : List (Op V)) : ∀ ix : Index V, allTidyB E ix ops = true → AllTidy E ix ops := by
  induction ops with
  | nil => intro ix _; trivial
  | cons op ops ih =>
    intro ix h
    rw [allTidyB, Bool.and_eq_true] at h
    refine ⟨tidyB_ok ix op h.1, ?_⟩
    intro ix' hs
    rw [hs] at h
    exact ih ix' h.2

example : AllTidy lineEnv (new Nat 1 2) [.train [0, 10], .add "a" 1, .add "b" 2, .add "c" 9, .delete "b", .setNProbe 2, .clear, .train [3, 4]] :=
  allTidyB_ok _ _ _ (by decide +kernel)

/-- Two clusters, three vectors, one deleted that is the last of its cluster. -/
example : (run lineEnv (new Nat 1 2) [.train [0, 10], .add "a" 1, .add "b" 2, .add "c" 9, .delete "b"]).map
    (fun ix => (search lineEnv ix 8 5).toOption) = some (some [("c", 1), ("a", 7)]) := by
  decide +kernel

/-- C34 is violated by the deletion of any vector that is followed by another one in its cluster: the next vector of the cluster is
returned by no later search, whatever the query, although it was never deleted. -/
theorem C34_delete_loses_next_violated (E : Env V) (hE : E.Sound) (d n : Nat) (hn : 0 < n) (ops : List (Op V)) (ht : AllTidy E (new V d n) ops)
    (ix : Index V) (hr : run E (new V d n) ops = some ix) (hid : ix.ids.Nodup) (htr : ix.trained = true) (vi p : Nat) (hvi : vi < ix.ids.length)
    (hp : p < ix.ids.length) (l : List Nat) (hl : l ∈ ix.inv) (h1 : vi ∈ l) (h2 : p ∈ l) (hlt : vi < p) (hnext : ∀ x ∈ l, vi < x → p ≤ x) :
    ∃ ix', delete ix ix.ids[vi] = .ok ix' ∧ ix.ids[p] ∈ ix'.ids ∧
      ∀ q k out, search E ix' q k = .ok out → ix.ids[p] ∉ out.map Prod.fst := by
  obtain ⟨ix0, a1, a2, -, -, -⟩ := run_new E hE d n hn ops ht
  obtain rfl : ix0 = ix := by rw [hr] at a1; exact (Option.some.inj a1).symm
  have hf : ix0.ids.findIdx? (fun x => decide (x = ix0.ids[vi])) = some vi := by
    rw [List.findIdx?_eq_some_iff_getElem]
    refine ⟨hvi, by simp, ?_⟩
    intro j hj
    simp only [decide_eq_true_eq]
    intro hc
    have := (List.Nodup.getElem_inj_iff hid).1 hc
    omega
  have hgp : (ix0.ids.eraseIdx vi)[p - 1]? = some ix0.ids[p] := by
    rw [List.getElem?_eraseIdx_of_ge (by omega)]
    rw [show p - 1 + 1 = p by omega]
    exact List.getElem?_eq_getElem hp
  refine ⟨_, by unfold delete; rw [if_neg (by rw [htr]; decide), hf], List.mem_of_getElem? hgp, ?_⟩
  intro q k out hs hmem
  -- the positions a search can look at
  have hpos : ∀ x ∈ (ix0.inv.map (dropFrom vi)).flatten, x ≠ p - 1 := by
    intro x hx
    obtain ⟨m', hm', hx'⟩ := List.mem_flatten.1 hx
    obtain ⟨m, hm, rfl⟩ := List.mem_map.1 hm'
    have hasc := a2.asc m hm
    -- distinct lists share no position
    have hshare : ∀ y, y ∈ m → y ∈ l → m = l := by
      intro y hy1 hy2
      have hnd : ix0.inv.flatten.Nodup := a2.perm.nodup_iff.2 List.nodup_range
      rw [List.nodup_flatten] at hnd
      by_contra hne
      have := hnd.2
      obtain ⟨i, hi, rfl⟩ := List.getElem_of_mem hm
      obtain ⟨j, hj, rfl⟩ := List.getElem_of_mem hl
      have hij : i ≠ j := fun h => hne (by subst h; rfl)
      rw [List.pairwise_iff_getElem] at this
      rcases lt_or_gt_of_ne hij with h | h
      · exact this i j hi hj h hy1 hy2
      · exact this j i hj hi h hy2 hy1
    by_cases hml : m = l
    · subst hml
      -- the list of the deleted vector: smaller ones stay, larger ones keep their old number
      have key : ∀ t : List Nat, t.Pairwise (· < ·) → (vi ∈ t) → ∀ z ∈ dropFrom vi t, z ∈ t ∧ z ≠ vi := by
        intro t
        induction t with
        | nil => intro _ h; simp at h
        | cons w ws ih =>
          intro ha hv z hz
          rw [List.pairwise_cons] at ha
          unfold dropFrom at hz
          by_cases hw : w = vi
          · rw [if_pos hw] at hz
            exact ⟨List.mem_cons_of_mem _ hz, by have := ha.1 z hz; omega⟩
          · rw [if_neg hw] at hz
            have hvw : vi ∈ ws := by
              rcases List.mem_cons.1 hv with h | h
              · exact absurd h.symm hw
              · exact h
            have hwlt := ha.1 vi hvw
            rw [if_neg (by omega)] at hz
            rcases List.mem_cons.1 hz with rfl | hz
            · exact ⟨List.mem_cons_self, hw⟩
            · obtain ⟨b1, b2⟩ := ih ha.2 hvw z hz
              exact ⟨List.mem_cons_of_mem _ b1, b2⟩
      obtain ⟨b1, b2⟩ := key m hasc h1 x hx'
      intro hxp
      have := hnext x b1 (by omega)
      omega
    · have hnv : vi ∉ m := fun h => hml (hshare vi h h1)
      rw [dropFrom_tidy vi m hasc (fun h => absurd h hnv)] at hx'
      obtain ⟨y, hy, rfl⟩ := List.mem_map.1 hx'
      rw [List.mem_filter] at hy
      have hyv := of_decide_eq_true hy.2
      have hyp : y ≠ p := fun h => hml (hshare y hy.1 (h ▸ h2))
      unfold shift
      split <;> omega
  -- a result names the id at a position it looked at
  unfold search at hs
  rw [if_neg (by simp [htr])] at hs
  split at hs
  · simp at hs
  · split at hs
    · simp at hs
    · rename_i lists hlists
      split at hs
      · simp at hs
      · rename_i cands hcands
        split at hs
        · simp at hs
        · rename_i o ho
          obtain rfl : o = out := by simpa using hs
          obtain ⟨r, hr, hrn⟩ := List.mem_map.1 hmem
          obtain ⟨c, hc, hcr⟩ := allSome_inv _ _ _ ho r hr
          have hc' := (hE.sorts cands).1.mem_iff.1 (List.mem_of_mem_take hc)
          obtain ⟨x, hx, hxc⟩ := allSome_inv _ _ _ hcands c hc'
          obtain ⟨v, hv, rfl⟩ := Option.map_eq_some_iff.1 hxc
          obtain ⟨i, hi, rfl⟩ := Option.map_eq_some_iff.1 hcr
          simp only at hi hrn
          obtain ⟨m, hm, hxm⟩ := List.mem_flatten.1 hx
          obtain ⟨ci, -, hci⟩ := allSome_inv _ _ _ hlists m hm
          have hxin : x ∈ (ix0.inv.map (dropFrom vi)).flatten := List.mem_flatten.2 ⟨m, List.mem_of_getElem? hci, hxm⟩
          have hxne := hpos x hxin
          have hndel : (ix0.ids.eraseIdx vi).Nodup := hid.sublist (List.eraseIdx_sublist _ _)
          obtain ⟨hl1, hl2⟩ := List.getElem?_eq_some_iff.1 hi
          obtain ⟨hl3, hl4⟩ := List.getElem?_eq_some_iff.1 hgp
          have : x = p - 1 := (List.Nodup.getElem_inj_iff hndel (hi := hl1) (hj := hl3)).1 (by rw [hl2, hl4, hrn])
          exact hxne this

/-- Three vectors in one cluster: deleting the first makes the second unreachable (and the third would be read out of range when it is
the last). -/
example : (run lineEnv (new Nat 1 1) [.train [0], .add "a" 1, .add "b" 2]).map (fun ix => (ix.ids, ix.inv, ix.trained)) =
    some (["a", "b"], [[0, 1]], true) := by
  decide +kernel

/-- C34 is violated: when the deleted vector shares its cluster with the vector added last, every later search of all clusters panics. -/
theorem C34_delete_then_search_panics_violated (E : Env V) (hE : E.Sound) (d n : Nat) (hn : 0 < n) (ops : List (Op V)) (ht : AllTidy E (new V d n) ops)
    (ix : Index V) (hr : run E (new V d n) ops = some ix) (hid : ix.ids.Nodup) (htr : ix.trained = true) (hnp : n ≤ ix.nprobe) (vi : Nat)
    (hvi : vi + 1 < ix.ids.length) (l : List Nat) (hl : l ∈ ix.inv) (h1 : vi ∈ l) (h2 : ix.ids.length - 1 ∈ l) :
    ∃ ix', delete ix ix.ids[vi] = .ok ix' ∧ ∀ q k, E.dim q = d → search E ix' q k = .error .panic := by
  obtain ⟨ix0, a1, a2, -, a5, a6⟩ := run_new E hE d n hn ops ht
  obtain rfl : ix0 = ix := by rw [hr] at a1; exact (Option.some.inj a1).symm
  have hf : ix0.ids.findIdx? (fun x => decide (x = ix0.ids[vi])) = some vi := by
    rw [List.findIdx?_eq_some_iff_getElem]
    refine ⟨by omega, by simp, ?_⟩
    intro j hj
    simp only [decide_eq_true_eq]
    intro hc
    have := (List.Nodup.getElem_inj_iff hid).1 hc
    omega
  refine ⟨_, by unfold delete; rw [if_neg (by rw [htr]; decide), hf], ?_⟩
  intro q k hd
  have hlast : ix0.ids.length - 1 ∈ dropFrom vi l := by
    have key : ∀ t : List Nat, t.Pairwise (· < ·) → vi ∈ t → ∀ z ∈ t, vi < z → z ∈ dropFrom vi t := by
      intro t
      induction t with
      | nil => intro _ h; simp at h
      | cons w ws ih =>
        intro ha hv z hz hvz
        rw [List.pairwise_cons] at ha
        unfold dropFrom
        by_cases hw : w = vi
        · rw [if_pos hw]
          rcases List.mem_cons.1 hz with h | h
          · omega
          · exact h
        · rw [if_neg hw]
          have hvw : vi ∈ ws := by
            rcases List.mem_cons.1 hv with h | h
            · exact absurd h.symm hw
            · exact h
          have hwlt := ha.1 vi hvw
          rw [if_neg (by omega)]
          rcases List.mem_cons.1 hz with h | h
          · omega
          · exact List.mem_cons_of_mem _ (ih ha.2 hvw z h hvz)
    exact key l (a2.asc l hl) h1 _ h2 (by omega)
  obtain ⟨s, hs, hp⟩ := probed_spec E hE ix0 q a2 htr
  obtain ⟨ci, hci, hcl⟩ := List.getElem_of_mem hl
  have hprobed : ∀ c, c ∈ probed E ix0 q ↔ c < ix0.ncent := by
    intro c
    rw [hp, List.take_of_length_le (by rw [hs.length_eq, List.length_range]; omega), hs.mem_iff, List.mem_range]
  unfold search
  simp only
  rw [if_neg (by rw [htr]; decide), if_neg (by rw [hd, a6]; simp)]
  have hpr : probed E { ix0 with ids := ix0.ids.eraseIdx vi, vecs := ix0.vecs.eraseIdx vi, inv := ix0.inv.map (dropFrom vi) } q = probed E ix0 q := rfl
  rw [hpr]
  have h3 : allSome (fun c => (ix0.inv.map (dropFrom vi))[c]?) (probed E ix0 q) =
      some ((probed E ix0 q).map (fun c => ((ix0.inv.map (dropFrom vi))[c]?).getD [])) := by
    apply allSome_map
    intro c hc
    have hcl : c < (ix0.inv.map (dropFrom vi)).length := by rw [List.length_map, a2.lists]; exact (hprobed c).1 hc
    rw [List.getElem?_eq_getElem hcl]
    rfl
  rw [h3]
  simp only
  have h4 : allSome (scoreAt E { ix0 with ids := ix0.ids.eraseIdx vi, vecs := ix0.vecs.eraseIdx vi, inv := ix0.inv.map (dropFrom vi) } q)
      ((probed E ix0 q).map (fun c => ((ix0.inv.map (dropFrom vi))[c]?).getD [])).flatten = none := by
    apply allSome_none _ _ (ix0.ids.length - 1)
    · rw [List.mem_flatten]
      refine ⟨dropFrom vi l, List.mem_map.2 ⟨ci, (hprobed ci).2 (a2.lists ▸ hci), ?_⟩, hlast⟩
      rw [List.getElem?_map, List.getElem?_eq_getElem hci, hcl]
      rfl
    · unfold scoreAt
      simp only
      rw [List.getElem?_eq_none]
      · rfl
      · rw [List.length_eraseIdx_of_lt (by rw [← a2.len]; omega), a2.len]
  rw [h4]

/-- The panic on two vectors of one cluster. -/
example : (run lineEnv (new Nat 1 1) [.train [0], .add "a" 1, .add "b" 2, .delete "a"]).map (fun ix => search lineEnv ix 1 1) =
    some (.error .panic) := by
  rfl

/-- C34 is violated by an update: adding an id again keeps both entries, and deleting the id removes only the older one, so that a
search of all clusters for everything still returns it. -/
theorem C34_update_keeps_old_violated (E : Env V) (hE : E.Sound) (d n : Nat) (hn : 0 < n) (ops : List (Op V)) (id : String) (v w : V)
    (ht : AllTidy E (new V d n) (ops ++ [.add id w, .delete id])) (hin : (id, v) ∈ (after E.dim d n ops).entries) (htr : (after E.dim d n ops).trained = true)
    (hw : E.dim w = d) (q : V) (hq : E.dim q = d) (k : Nat) (hk : (after E.dim d n ops).entries.length ≤ k) :
    ∃ ix, run E (new V d n) (ops ++ [.add id w, .delete id]) = some ix ∧ (n ≤ ix.nprobe → ∃ out, search E ix q k = .ok out ∧ (id, E.dist q w) ∈ out) := by
  have hafter : after E.dim d n (ops ++ [.add id w, .delete id]) =
      ⟨true, (after E.dim d n ops).entries.eraseP (fun e => decide (e.1 = id)) ++ [(id, w)]⟩ := by
    have h0 : after E.dim d n (ops ++ [.add id w, .delete id]) =
        effect E.dim d n (effect E.dim d n (after E.dim d n ops) (.add id w)) (.delete id) := by
      unfold after; rw [List.foldl_append]; rfl
    have h1 : effect E.dim d n (after E.dim d n ops) (.add id w) = ⟨true, (after E.dim d n ops).entries ++ [(id, w)]⟩ := by
      simp only [effect]
      rw [if_pos ⟨htr, hw⟩, htr]
    rw [h0, h1]
    simp only [effect]
    rw [if_pos trivial, List.eraseP_append_left (a := (id, v)) (by simp) _ hin]
  obtain ⟨ix, a1, -, -, a4⟩ := C34_contents_partial E hE d n hn _ ht q k
  refine ⟨ix, a1, fun hnp => ?_⟩
  rw [hafter] at a4
  obtain ⟨out, pool, b1, b2, b3, b4⟩ := a4 rfl hq
  refine ⟨out, b1, ?_⟩
  have hperm := b4 hnp
  have hlen : pool.length ≤ k := by
    rw [hperm.length_eq, List.length_map, List.length_append, List.length_singleton, List.length_eraseP_of_mem (a := (id, v)) hin (by simp)]
    have := List.length_pos_of_mem hin
    omega
  obtain ⟨rest, hrest, -⟩ := b3.best
  have hsz := b3.size
  have hnil : rest = [] := by
    have := hrest.length_eq
    rw [List.length_append] at this
    exact List.length_eq_zero_iff.1 (by omega)
  rw [hnil, List.append_nil] at hrest
  rw [hrest.mem_iff, hperm.mem_iff]
  exact List.mem_map.2 ⟨(id, w), by simp, rfl⟩

example : AllTidy lineEnv (new Nat 1 2) [.train [0, 10], .add "a" 1, .add "a" 9, .delete "a"] :=
  allTidyB_ok _ _ _ (by decide +kernel)

example : (run lineEnv (new Nat 1 2) [.train [0, 10], .add "a" 1, .add "a" 9, .delete "a"]).map (fun ix => (search lineEnv ix 0 5).toOption) =
    some (some [("a", 9)]) := by
  decide +kernel

/-- C34 is violated by training again: the vectors are still counted and no search returns any of them. -/
theorem C34_retrain_loses_violated (E : Env V) (hE : E.Sound) (ix : Index V) (hl : ix.inv.length = ix.ncent) (vs : List V) (hv : ix.ncent ≤ vs.length) (q : V) (hq : E.dim q = ix.dimension)
    (k : Nat) : ∃ ix', train E ix vs = .ok ix' ∧ size ix' = size ix ∧ search E ix' q k = .ok [] := by
  refine ⟨{ ix with centroids := E.kmeans vs ix.ncent, trained := true, inv := ix.inv.map (fun _ => []) }, by unfold train; rw [if_neg (by omega)], rfl, ?_⟩
  unfold search
  simp only
  rw [if_neg (by decide), if_neg (by rw [hq]; simp)]
  have hall : ∀ c ∈ probed E { ix with centroids := E.kmeans vs ix.ncent, trained := true, inv := ix.inv.map (fun _ => []) } q, c < ix.ncent := by
    intro c hc
    unfold probed at hc
    rw [List.map_take] at hc
    have := List.mem_of_mem_take hc
    rw [((hE.sorts _).1.map Prod.fst).mem_iff, mapIdx_fst, hE.clusters vs _ hv] at this
    exact List.mem_range.1 this
  rw [allSome_map _ (fun _ => []) _ (by
    intro c hc
    have := hall c hc
    rw [List.getElem?_map, List.getElem?_eq_getElem (by omega)]
    rfl)]
  have hnil : ∀ m : List Nat, (m.map (fun _ => ([] : List Nat))).flatten = [] := by
    intro m; induction m with
    | nil => rfl
    | cons a m ih => simp
  simp only
  rw [hnil]
  simp only [allSome]
  have hs : E.sort [] = [] := List.perm_nil.1 (hE.sorts []).1
  rw [hs, List.take_nil]
  rfl

example : (run lineEnv (new Nat 1 1) [.train [0], .add "a" 1]).map (fun ix => ((search lineEnv ix 1 1).toOption, size ix)) = some (some [("a", 0)], 1) ∧
    (run lineEnv (new Nat 1 1) [.train [0], .add "a" 1, .train [0]]).map (fun ix => ((search lineEnv ix 1 1).toOption, size ix)) = some (some [], 1) := by
  constructor <;> decide +kernel

end Verif.Ivf
