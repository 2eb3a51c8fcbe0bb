/-!
Applying a partial function to every element of a list; `none` when it fails on one of them.
-/
namespace Verif.Base

def allSome {α β : Type} (f : α → Option β) : List α → Option (List β)
  | [] => some []
  | x :: xs =>
    match f x with
    | none => none
    | some y => (allSome f xs).map (y :: ·)

theorem allSome_map {α β : Type} (f : α → Option β) (g : α → β) (l : List α) (h : ∀ x ∈ l, f x = some (g x)) :
    allSome f l = some (l.map g) := by
  induction l with
  | nil => rfl
  | cons x xs ih =>
    rw [allSome, h x List.mem_cons_self]
    simp only
    rw [ih (fun y hy => h y (List.mem_cons_of_mem _ hy))]
    rfl

theorem allSome_none {α β : Type} (f : α → Option β) (l : List α) (x : α) (hx : x ∈ l) (h : f x = none) : allSome f l = none := by
  induction l with
  | nil => simp at hx
  | cons y ys ih =>
    rw [allSome]
    cases hy : f y with
    | none => rfl
    | some z =>
      simp only
      rcases List.mem_cons.1 hx with rfl | hx
      · rw [h] at hy; simp at hy
      · rw [ih hx]; rfl

theorem allSome_inv {α β : Type} (f : α → Option β) : ∀ (l : List α) (out : List β), allSome f l = some out →
    ∀ y ∈ out, ∃ x ∈ l, f x = some y
  | [], out, h, y, hy => by simp [allSome] at h; subst h; simp at hy
  | x :: xs, out, h, y, hy => by
    rw [allSome] at h
    cases hx : f x with
    | none => rw [hx] at h; simp at h
    | some z =>
      rw [hx] at h
      simp only at h
      obtain ⟨o, ho, rfl⟩ := Option.map_eq_some_iff.1 h
      rcases List.mem_cons.1 hy with rfl | hy
      · exact ⟨x, List.mem_cons_self, hx⟩
      · obtain ⟨w, hw, hf⟩ := allSome_inv f xs o ho y hy
        exact ⟨w, List.mem_cons_of_mem _ hw, hf⟩

end Verif.Base
