import Verif.Model.Torch
import Verif.Spec.Api

/-!
# Specification vocabulary: energy functions written with tensor operations
-/

namespace Spec
open Hel Hel.Torch

/-- The tensor operations are applied inside their domain: no division by zero, logarithms and powers
with arbitrary exponents of positive numbers only. -/
def _root_.Hel.Torch.Expr.Defined (x : Fin 3 → ℝ) : Expr → Prop
  | .const _ | .leaf _ => True
  | .neg a | .npow a _ | .exp a | .saved a => a.Defined x
  | .add a b | .sub a b | .mul a b => a.Defined x ∧ b.Defined x
  | .div a b => a.Defined x ∧ b.Defined x ∧ b.eval x ≠ 0
  | .pow a _ | .log a => a.Defined x ∧ 0 < a.eval x

/-- The invariant number `i` occurs in the expression. -/
def _root_.Hel.Torch.Expr.Uses (i : Fin 3) : Expr → Prop
  | .const _ => False
  | .leaf j => j = i
  | .neg a | .npow a _ | .pow a _ | .exp a | .log a | .saved a => a.Uses i
  | .add a b | .sub a b | .mul a b | .div a b => a.Uses i ∨ b.Uses i

/-- The invariant number `i` occurs in the expression at a place which is not the base of a power with the exponent
zero. -/
def _root_.Hel.Torch.Expr.Linked (i : Fin 3) : Expr → Prop
  | .const _ => False
  | .leaf j => j = i
  | .npow a n => n ≠ 0 ∧ a.Linked i
  | .pow a p => p ≠ 0 ∧ a.Linked i
  | .neg a | .exp a | .log a | .saved a => a.Linked i
  | .add a b | .sub a b | .mul a b | .div a b => a.Linked i ∨ b.Linked i

/-- The invariant number `i` occurs in the expression at a place where it enters nonlinearly: in a factor next to another
factor with invariants, in a denominator or above one with invariants, in a power (with the exponent one, too), in an
exponential or in a logarithm. -/
def _root_.Hel.Torch.Expr.Curved (i : Fin 3) : Expr → Prop
  | .const _ | .leaf _ => False
  | .neg a | .saved a => a.Curved i
  | .add a b | .sub a b => a.Curved i ∨ b.Curved i
  | .mul a b => a.Curved i ∨ b.Curved i ∨ (a.Linked i ∧ ∃ j, b.Uses j) ∨ (b.Linked i ∧ ∃ j, a.Uses j)
  | .div a b => a.Curved i ∨ b.Curved i ∨ b.Linked i ∨ (a.Linked i ∧ ∃ j, b.Uses j)
  | .npow a n => a.Curved i ∨ (n ≠ 0 ∧ a.Linked i)
  | .pow a p => a.Curved i ∨ (p ≠ 0 ∧ a.Linked i)
  | .exp a | .log a => a.Curved i ∨ a.Linked i

/-- Some operation in the expression which keeps tensors for its backward pass (a product, a quotient, a power, an
exponential, a logarithm; not a sum, a difference or a sign) depends on the invariant number `i` and on the invariant
number `j`.  The operations which computed a kept tensor do not count. -/
def _root_.Hel.Torch.Expr.Couples (i j : Fin 3) : Expr → Prop
  | .const _ | .leaf _ | .saved _ => False
  | .neg a => a.Couples i j
  | .add a b | .sub a b => a.Couples i j ∨ b.Couples i j
  | .mul a b | .div a b => ((a.Uses i ∨ b.Uses i) ∧ (a.Uses j ∨ b.Uses j)) ∨ a.Couples i j ∨ b.Couples i j
  | .npow a _ | .pow a _ | .exp a | .log a => (a.Uses i ∧ a.Uses j) ∨ a.Couples i j

/-- The expression contains the kept tensor `a`. -/
def Keeps (a : Expr) : Expr → Prop
  | .const _ | .leaf _ => False
  | .neg b | .npow b _ | .pow b _ | .exp b | .log b => Keeps a b
  | .add b c | .sub b c | .mul b c | .div b c => Keeps a b ∨ Keeps a c
  | .saved b => b = a

/-- The tensor `a` is computed on the way to the tensor given by the expression. -/
def PartOf (a : Expr) : Expr → Prop
  | .const c => a = .const c
  | .leaf j => a = .leaf j
  | .neg b => a = .neg b ∨ PartOf a b
  | .npow b n => a = .npow b n ∨ PartOf a b
  | .pow b p => a = .pow b p ∨ PartOf a b
  | .exp b => a = .exp b ∨ PartOf a b
  | .log b => a = .log b ∨ PartOf a b
  | .saved b => a = .saved b ∨ PartOf a b
  | .add b c => a = .add b c ∨ PartOf a b ∨ PartOf a c
  | .sub b c => a = .sub b c ∨ PartOf a b ∨ PartOf a c
  | .mul b c => a = .mul b c ∨ PartOf a b ∨ PartOf a c
  | .div b c => a = .div b c ∨ PartOf a b ∨ PartOf a c

/-- The user's own tensor operations only, no kept tensors. -/
def _root_.Hel.Torch.Expr.Written (e : Expr) : Prop := ∀ a, ¬ Keeps a e

/-- An operation which keeps tensors for its backward pass is applied, at a place where the invariant number `i` enters, to a
tensor which such an operation computed from that invariant; or the invariant enters through an exponential. -/
def _root_.Hel.Torch.Expr.Nested (i : Fin 3) : Expr → Prop
  | .const _ | .leaf _ => False
  | .neg a | .saved a => a.Nested i
  | .add a b | .sub a b => a.Nested i ∨ b.Nested i
  | .mul a b => a.Nested i ∨ b.Nested i ∨ (a.Linked i ∧ b.Couples i i) ∨ (b.Linked i ∧ a.Couples i i)
  | .div a b => a.Nested i ∨ b.Nested i ∨ (a.Linked i ∧ b.Couples i i) ∨ (b.Linked i ∧ (a.Couples i i ∨ b.Couples i i))
  | .npow a n => a.Nested i ∨ (n ≠ 0 ∧ a.Linked i ∧ a.Couples i i)
  | .pow a p => a.Nested i ∨ (p ≠ 0 ∧ a.Linked i ∧ a.Couples i i)
  | .log a => a.Nested i ∨ (a.Linked i ∧ a.Couples i i)
  | .exp a => a.Nested i ∨ a.Linked i

open Classical in
/-- PyTorch's engine as far as `retain_graph=False` is concerned (its default): a backward pass towards the leaf `x` visits
the operations which depend on `x` and releases the tensors which they kept; a later pass over such an operation raises
`RuntimeError` ("Trying to backward through the graph a second time").  The state lists the passes made without
`retain_graph`.  A pass which starts at `e` meets operations visited by earlier passes which started at `e`, and, below a
kept tensor `a`, those visited by earlier passes which started at a tensor computed from `a`. -/
noncomputable def releasing : Engine where
  graph := List (Expr × Fin 3)
  fresh := []
  step e x _ retain s :=
    (if (∃ y, (e, y) ∈ s ∧ e.Couples y x) ∨ ∃ e' y a, (e', y) ∈ s ∧ Keeps a e ∧ PartOf a e' ∧ a.Couples y x
      then some .runtimeError else none, if retain then s else (e, x) :: s)

/-- The user's function, called with three tensors, computes `ψ` by tensor operations which are all
applied inside their domain at the points of `dom`. -/
def Computes {K : Type} (m : TorchModel K) (ψ : (Fin 3 → ℝ) → ℝ) (dom : (Fin 3 → ℝ) → Prop) : Prop :=
  ∃ e, m.func (.leaf 0) (.leaf 1) (.leaf 2) = .ok (.tensor e) ∧ ∀ x, dom x → e.Defined x ∧ e.eval x = ψ x

end Spec
