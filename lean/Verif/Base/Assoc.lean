import Mathlib.Data.List.Basic
import Mathlib.Data.List.Nodup

/-!
A Go map with string keys as an association list without repeated keys. The order of the list stands for nothing: where a map is
visited, the order is a separate parameter.
-/
namespace Verif.Base

variable {β : Type}

/-- `m[x]`. -/
def getA (l : List (String × β)) (x : String) : Option β := (l.find? (fun e => decide (e.1 = x))).map Prod.snd

/-- `delete(m, x)`. -/
def delA (l : List (String × β)) (x : String) : List (String × β) := l.filter (fun e => decide (e.1 ≠ x))

/-- `m[x] = v`. -/
def putA (l : List (String × β)) (x : String) (v : β) : List (String × β) := (x, v) :: delA l x

def KeysOk (l : List (String × β)) : Prop := (l.map Prod.fst).Nodup

theorem keys_del {l : List (String × β)} (h : KeysOk l) (x : String) : KeysOk (delA l x) :=
  List.Nodup.sublist (List.filter_sublist.map _) h

theorem keys_put {l : List (String × β)} (h : KeysOk l) (x : String) (v : β) : KeysOk (putA l x v) := by
  unfold KeysOk putA
  rw [List.map_cons, List.nodup_cons]
  refine ⟨?_, keys_del h x⟩
  intro hm
  obtain ⟨e, he, hx⟩ := List.mem_map.1 hm
  unfold delA at he
  rw [List.mem_filter] at he
  exact of_decide_eq_true he.2 hx

theorem get_del (l : List (String × β)) (x y : String) : getA (delA l x) y = if y = x then none else getA l y := by
  unfold getA delA
  induction l with
  | nil => simp
  | cons e l ih =>
    by_cases hx : e.1 = x
    · rw [List.filter_cons_of_neg (by simp [hx]), ih]
      by_cases hy : y = x
      · rw [if_pos hy, if_pos hy]
      · rw [if_neg hy, if_neg hy, List.find?_cons_of_neg (by simp; intro hh; exact hy (hh.symm.trans hx))]
    · rw [List.filter_cons_of_pos (by simp [hx])]
      by_cases hy : e.1 = y
      · rw [List.find?_cons_of_pos (by simp [hy]), List.find?_cons_of_pos (by simp [hy]), if_neg (by rw [← hy]; exact hx)]
      · rw [List.find?_cons_of_neg (by simp [hy]), List.find?_cons_of_neg (by simp [hy]), ih]

theorem get_put (l : List (String × β)) (x y : String) (v : β) : getA (putA l x v) y = if y = x then some v else getA l y := by
  unfold putA
  by_cases h : y = x
  · rw [if_pos h, h]
    simp [getA]
  · rw [if_neg h]
    have := get_del l x y
    rw [if_neg h] at this
    rw [← this]
    unfold getA
    rw [List.find?_cons_of_neg (by simp; exact fun hh => h hh.symm)]

theorem mem_get {l : List (String × β)} (h : KeysOk l) (x : String) (v : β) : (x, v) ∈ l ↔ getA l x = some v := by
  unfold getA
  induction l with
  | nil => simp
  | cons e l ih =>
    unfold KeysOk at h
    rw [List.map_cons, List.nodup_cons] at h
    by_cases hx : e.1 = x
    · rw [List.find?_cons_of_pos (by simp [hx])]
      simp only [Option.map_some, Option.some.injEq, List.mem_cons]
      constructor
      · rintro (rfl | hm)
        · rfl
        · exact absurd (List.mem_map.2 ⟨_, hm, rfl⟩) (hx ▸ h.1)
      · rintro rfl
        exact Or.inl (by rw [← hx])
    · rw [List.find?_cons_of_neg (by simp [hx]), ← ih h.2, List.mem_cons]
      constructor
      · rintro (rfl | hm)
        · exact absurd rfl hx
        · exact hm
      · exact Or.inr

end Verif.Base
