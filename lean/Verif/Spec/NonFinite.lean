import Verif.Model.NonFinite

/-!
# Specification vocabulary: `inf` and `nan` are never hidden
-/

namespace Spec
open Hel Rnd

variable {f : Format}

/-- `np.isfinite(x)` is false. -/
def NotFinite (x : Flt f) : Prop := x.num = .inf ∨ x.num = .ninf ∨ x.num = .nan

/-- A finite number greater than zero. -/
def IsPositive (x : Flt f) : Prop := ∃ r : ℝ, x.num = .fin r ∧ 0 < r

/-- `nan`, zero or a negative number (not `inf`, the result of an overflow). -/
def NotPositive (x : Flt f) : Prop := x.num = .nan ∨ ∃ r : ℝ, x.num = .fin r ∧ r ≤ 0

/-- Every entry of the returned array is `inf` or `nan`. -/
def NowhereFinite : FStress (Flt f) → Prop
  | .voigt s => ∀ a, NotFinite (s a)
  | .full p => ∀ i j, NotFinite (p i j)

/-- Every entry of the returned array is `inf` or `nan`. -/
def NowhereFinite4 : FElasticity (Flt f) → Prop
  | .voigt c => ∀ a b, NotFinite (c a b)
  | .full c => ∀ i j k l, NotFinite (c i j k l)

/-- A sum of products with the terms added, and the factors multiplied, one after the other. -/
noncomputable def sumOfProducts (rnd : ℝ → Num) (ts : List (List Num)) : Num :=
  (ts.map fun t => t.foldl (Num.mul rnd) (.fin 1)).foldl (Num.add rnd) (.fin 0)

/-- `x ** (n / 3)` -/
noncomputable def powThirdOf (rnd : ℝ → Num) (n : ℤ) : Num → Num
  | .nan => .nan
  | .inf => if n < 0 then .fin 0 else .inf
  | .ninf => if n < 0 then .fin 0 else .inf
  | .fin x => if x < 0 then .nan else if x = 0 then (if n < 0 then .inf else .fin 0) else rnd (x ^ ((n : ℝ) / 3))

end Spec
