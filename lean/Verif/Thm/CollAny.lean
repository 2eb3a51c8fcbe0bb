import Verif.Thm.StoreColl

/-! Records of collections that do not exist (C163), in every store. -/

namespace Verif.Thm.StoreColl

open Verif.Model.Store Verif.Thm.Store

variable {W HI VI : Type}

/-- **C163, violated.** On a connection that does not enforce foreign keys every open store accepts a record for a collection number it
does not have; the record then reads back without a collection. -/
theorem C163_any_violated (env : Env W HI VI) (s : St W HI VI) (hopen : s.closed = false) (e : Emb W) (v : List W) (hv : e.vector = some v)
    (hl : v.length ≤ 2147483647) (hd : s.dim = 0 ∨ s.dim = v.length) (hc : e.collectionID ≠ 0)
    (hno : ∀ k ∈ s.db.collections, k.id ≠ e.collectionID) :
    (step env s (.upsert false false e)).2 = .ok ∧
    ∃ r, getByID (step env s (.upsert false false e)).1 e.id = .ok r ∧ r.vector = v ∧ r.collection = "" := by
  have hl' : ¬ v.length > 2147483647 := by omega
  have hfind : s.db.collections.find? (fun c => decide (c.id = e.collectionID)) = none := by
    rw [List.find?_eq_none]
    intro k hk
    simpa using hno k hk
  have hnone : ∀ l : List (Row W), l.find? (fun _ => false) = none := fun l => by rw [List.find?_eq_none]; simp
  by_cases h0 : s.dim = 0
  · simp [step, upsert, hopen, hv, prepareRow, resolveCollection, hc, encodable, hl', insertRow, h0, getByID, toRec, hfind, hnone, List.find?_append]
  · have h1 : s.dim = v.length := hd.resolve_left h0
    have h2 : v.length ≠ 0 := h1 ▸ h0
    simp [step, upsert, hopen, hv, prepareRow, resolveCollection, hc, encodable, hl', insertRow, h1, h2, getByID, toRec, hfind, hnone, List.find?_append]

example : (init 1 none none : St Nat Unit Unit).closed = false ∧ (∀ k ∈ (init 1 none none : St Nat Unit Unit).db.collections, k.id ≠ 7) := by
  decide +kernel

end Verif.Thm.StoreColl
