import Verif.Spec.Tensor
import Verif.Model.Voigt
import Mathlib.Tactic.Ring
import Mathlib.Tactic.FieldSimp
import Mathlib.Tactic.FinCases
import Mathlib.Tactic.LinearCombination

/-! Helper lemmas about the Voigt model. -/

namespace Hel
open Spec Matrix

variable {K : Type*}

theorem stores_iff (v : Vec6 K) (T : Ten2 K) : Stores v T ↔ T = Matrix.of (astensor v) := by
  constructor
  · rintro ⟨hs, he⟩
    ext i j
    have hs' : ∀ i j, T j i = T i j := fun i j => by
      have := congrFun (congrFun hs i) j
      simpa [Matrix.transpose_apply] using this
    have h0 := he 0; have h1 := he 1; have h2 := he 2
    have h3 := he 3; have h4 := he 4; have h5 := he 5
    simp [pos] at h0 h1 h2 h3 h4 h5
    clear he hs
    fin_cases i <;> fin_cases j <;> simp [astensor, tab, hs' 0 1, hs' 0 2, hs' 1 2, h0, h1, h2, h3, h4, h5]
  · rintro rfl
    refine ⟨?_, ?_⟩
    · ext i j
      fin_cases i <;> fin_cases j <;> simp [astensor, tab]
    · intro a
      fin_cases a <;> simp [astensor, tab, pos]

theorem stores_astensor (v : Vec6 K) : Stores v (Matrix.of (astensor v)) := (stores_iff _ _).2 rfl

theorem stores_asvoigt {T : Ten2 K} (h : T.IsSymm) : Stores (asvoigt T) T := by
  refine ⟨h, fun a => ?_⟩
  fin_cases a <;> simp [asvoigt, pos]

theorem asvoigt_astensor (v : Vec6 K) : asvoigt (astensor v) = v := by
  ext a
  fin_cases a <;> simp [asvoigt, astensor, tab]

theorem asvoigt4_entry [Zero K] (A : Full4 K) (a b : Fin 6) :
    asvoigt4 A a b = A (pos a).1 (pos a).2 (pos b).1 (pos b).2 := by
  fin_cases a <;> fin_cases b <;>
    simp [asvoigt4, writes, setEntry, pos]

theorem astensor4_minor (M : Mat6 K) : MinorSymm (astensor4 M) := by
  constructor
  · intro i j k l
    simp only [astensor4]
    have : tab i j = tab j i := by revert i j; decide
    rw [this]
  · intro i j k l
    simp only [astensor4]
    have : tab k l = tab l k := by revert k l; decide
    rw [this]

theorem tab_pos (a : Fin 6) : tab (pos a).1 (pos a).2 = a := by revert a; decide
theorem pos_tab (i j : Fin 3) : pos (tab i j) = (i, j) ∨ pos (tab i j) = (j, i) := by
  revert i j; decide
theorem tab_comm (i j : Fin 3) : tab i j = tab j i := by revert i j; decide

theorem stores4_iff (M : Mat6 K) (T : Ten4 K) : Stores4 M T ↔ T = astensor4 M := by
  constructor
  · rintro ⟨⟨h1, h2⟩, he⟩
    ext i j k l
    simp only [astensor4, he]
    rcases pos_tab i j with h | h <;> rcases pos_tab k l with h' | h' <;> simp only [h, h']
    · rw [h2]
    · rw [h1]
    · rw [h1, h2]
  · rintro rfl
    exact ⟨astensor4_minor M, fun a b => by simp [astensor4, tab_pos]⟩

theorem stores4_astensor4 (M : Mat6 K) : Stores4 M (astensor4 M) := (stores4_iff _ _).2 rfl

theorem inv_entry [Field K] (A : Vec6 K) (d : Option K) (a : Fin 6) :
    inv A d a = (![A 1 * A 2 - A 4 * A 4, A 0 * A 2 - A 5 * A 5, A 0 * A 1 - A 3 * A 3,
      A 4 * A 5 - A 3 * A 2, A 3 * A 5 - A 0 * A 4, A 3 * A 4 - A 1 * A 5] a) / d.getD (det A) := by
  cases d <;> fin_cases a <;> simp [inv, invHeap, Heap.store, take]

/-- closed form of every entry of `cdya` -/
theorem cdyaOut_entry [Field K] (same : Bool) (A B : Vec6 K) (out : Option (Mat6 K)) (a b : Fin 6) :
    cdyaOut same A B out a b =
      if a ≤ b then cdyaValue same A B (a, b) else cdyaValue same A B (b, a) := by
  have ht : triu6 = [(0,0),(0,1),(0,2),(0,3),(0,4),(0,5),(1,1),(1,2),(1,3),(1,4),(1,5),
    (2,2),(2,3),(2,4),(2,5),(3,3),(3,4),(3,5),(4,4),(4,5),(5,5)] := by decide
  have hp : ∀ a, tab (pairs a).1 (pairs a).2 = a := by decide
  unfold cdyaOut
  simp only [ht, List.map, hp]
  generalize (cdyaValue same A B) = f
  fin_cases a <;> fin_cases b <;> simp [writes, setEntry]

theorem cdya_entry [Field K] [CharZero K] (same : Bool) (A B : Vec6 K) (out : Option (Mat6 K))
    (hs : same = true → A = B) (a b : Fin 6) :
    cdyaOut same A B out a b = dyadSym (Matrix.of (astensor A)) (Matrix.of (astensor B))
      (pos a).1 (pos a).2 (pos b).1 (pos b).2 := by
  rw [cdyaOut_entry]
  have hpp : pairs = pos := rfl
  have key : ∀ a b, cdyaValue same A B (a, b) =
      dyadSym (Matrix.of (astensor A)) (Matrix.of (astensor B))
      (pos a).1 (pos a).2 (pos b).1 (pos b).2 := by
    intro a b
    unfold cdyaValue dyadSym
    simp only [hpp, astensor, of_apply]
    cases same
    · simp only [if_true]; ring
    · obtain rfl := hs rfl
      simp only [Bool.true_eq_false, if_false]; ring
  split
  · exact key a b
  · rw [key b a]
    unfold dyadSym
    simp only [astensor, of_apply]
    rw [tab_comm (pos b).1 (pos a).1, tab_comm (pos b).2 (pos a).2, tab_comm (pos b).1 (pos a).2,
      tab_comm (pos a).1 (pos b).2]
    ring

theorem dyadSym_minor [Field K] {A B : Ten2 K} (hA : A.IsSymm) (hB : B.IsSymm) :
    MinorSymm (dyadSym A B) := by
  have hA' : ∀ i j, A i j = A j i := fun i j => (hA.apply i j).symm
  have hB' : ∀ i j, B i j = B j i := fun i j => (hB.apply i j).symm
  constructor
  · intro i j k l
    simp only [dyadSym]
    rw [hA' k j, hA' k i, hB' k i, hB' k j]; ring
  · intro i j k l
    simp only [dyadSym]
    rw [hA' k j, hA' l j, hB' l j, hB' k j]; ring

end Hel
