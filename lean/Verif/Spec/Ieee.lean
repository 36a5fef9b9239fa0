import Verif.Spec.Rounding
import Verif.Model.RoundingLab

/-!
# Specification vocabulary: exact results in floating-point arithmetic

Besides the error bounds of the standard model, IEEE 754 prescribes that an operation with a representable result is
exact.  The laws below are the part of it which is used; they do not fix the order of the sums in `einsum`.
-/

namespace Spec
open Hel Rnd

/-- Some operations are exact.  A sum of products of which all but one contain a factor zero, and the other one has two factors, is the
rounded product of the two factors. -/
structure Ieee (R : RoundingSqrt) : Prop where
  mul_comm : ∀ x y, R.mul x y = R.mul y x
  mul_one : ∀ x y, R.mul (R.mul x y) 1 = R.mul x y
  div_one : ∀ x y, R.div (R.mul x y) 1 = R.mul x y
  one_div_one : R.div 1 1 = 1
  sq_one : R.sq 1 = 1
  sqrt_one : R.sqrt 1 = 1
  one_add_zero : R.add 1 0 = 1
  einsum_pair : ∀ (l r : List (List ℝ)) (x y : ℝ), (∀ t ∈ l ++ r, (0 : ℝ) ∈ t) → R.einsum (l ++ [x, y] :: r) = R.mul x y

/-- The same laws for the operations alone; `fma a b c` is `a * b + c` with one rounding. -/
structure IeeeOps (O : Operations) : Prop where
  mul_comm : ∀ x y, O.mul x y = O.mul y x
  mul_one : ∀ x y, O.mul (O.mul x y) 1 = O.mul x y
  div_one : ∀ x y, O.div (O.mul x y) 1 = O.mul x y
  one_div_one : O.div 1 1 = 1
  one_mul_one : O.mul 1 1 = 1
  fma_zero : ∀ x y, O.fma x y 0 = O.mul x y
  fma_mul : ∀ a b x y, a * b = 0 → O.fma a b (O.mul x y) = O.mul x y

/-- A tensor with zeros outside of the diagonal. -/
def IsDiagonal (A : Full2 ℝ) : Prop := ∀ i j, i ≠ j → A i j = 0

end Spec
