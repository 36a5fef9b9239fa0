import Verif.Spec.Torch
import Verif.Spec.Rounding

/-!
# Specification vocabulary: energy functions in floating-point arithmetic
-/

namespace Spec
open Hel Hel.Torch

/-- The energy is a polynomial: sums, differences, products and integer powers of invariants and constants. -/
def _root_.Hel.Torch.Expr.Polynomial : Expr → Prop
  | .const _ | .leaf _ => True
  | .neg a | .npow a _ | .saved a => a.Polynomial
  | .add a b | .sub a b | .mul a b => a.Polynomial ∧ b.Polynomial
  | .div _ _ | .pow _ _ | .exp _ | .log _ => False

/-- The polynomial with the absolute values of the constants and with plus signs only. -/
def _root_.Hel.Torch.Expr.majorant : Expr → Expr
  | .const c => .const |c|
  | .leaf i => .leaf i
  | .neg a => a.majorant
  | .add a b | .sub a b => .add a.majorant b.majorant
  | .mul a b => .mul a.majorant b.majorant
  | .div a b => .div a.majorant b.majorant
  | .npow a n => .npow a.majorant n
  | .pow a p => .pow a.majorant p
  | .exp a => .exp a.majorant
  | .log a => .log a.majorant
  | .saved a => .saved a.majorant

/-- A bound for the number of roundings on the way from the invariants to the energy, the conversion of the invariants and of
the constants included. -/
def _root_.Hel.Torch.Expr.roundings : Expr → ℕ
  | .const _ | .leaf _ => 1
  | .neg a | .saved a => a.roundings
  | .add a b | .sub a b => max a.roundings b.roundings + 1
  | .mul a b => a.roundings + b.roundings + 1
  | .npow a n => (n + 1) * a.roundings + 3
  | .div _ _ | .pow _ _ | .exp _ | .log _ => 0

/-- `d` is the partial derivative of `f` at `x` with respect to the argument number `i`. -/
def Partial (f : (Fin 3 → ℝ) → ℝ) (i : Fin 3) (x : Fin 3 → ℝ) (d : ℝ) : Prop :=
  HasDerivAt (fun t => f (Function.update x i t)) d (x i)

end Spec
