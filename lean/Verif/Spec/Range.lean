import Mathlib.Data.Real.Basic
import Mathlib.Data.List.Perm.Basic

/-!
# Specification vocabulary: floating-point operations with a finite range

The result of an operation is `none` if it overflows.
-/

namespace Spec

/-- An operation with the results of other operations. -/
def both (f : ℝ → ℝ → Option ℝ) (x y : Option ℝ) : Option ℝ := x.bind fun a => y.bind fun b => f a b

/-- `x` is a product of the numbers `l`, computed in some order and with some brackets. -/
inductive ProductIn (mul : ℝ → ℝ → Option ℝ) : List ℝ → Option ℝ → Prop
  | empty : ProductIn mul [] (some 1)
  | single (a : ℝ) : ProductIn mul [a] (some a)
  | mul {l l' : List ℝ} {x y : Option ℝ} (hl : l ≠ []) (hl' : l' ≠ []) (h : ProductIn mul l x)
      (h' : ProductIn mul l' y) : ProductIn mul (l ++ l') (both mul x y)
  | perm {l l' : List ℝ} {x : Option ℝ} (h : ProductIn mul l x) (hp : l.Perm l') : ProductIn mul l' x

/-- `x` is a sum of the products `ts`, computed in some order and with some brackets: the numbers may be padded by zeros,
several partial sums may be accumulated, and some of the products may be added by a fused multiply-add `fma a b c`, i.e.
`a * b + c` with one rounding. -/
inductive SumIn (add mul : ℝ → ℝ → Option ℝ) (fma : ℝ → ℝ → ℝ → Option ℝ) : List (List ℝ) → Option ℝ → Prop
  | zero : SumIn add mul fma [] (some 0)
  | product {l : List ℝ} {x : Option ℝ} (h : ProductIn mul l x) : SumIn add mul fma [l] x
  | add {ts ts' : List (List ℝ)} {x y : Option ℝ} (h : SumIn add mul fma ts x) (h' : SumIn add mul fma ts' y) :
      SumIn add mul fma (ts ++ ts') (both add x y)
  | fma {l l' : List ℝ} {ts : List (List ℝ)} {a b x : Option ℝ} (hl : l ≠ []) (hl' : l' ≠ [])
      (ha : ProductIn mul l a) (hb : ProductIn mul l' b) (h : SumIn add mul fma ts x) :
      SumIn add mul fma ((l ++ l') :: ts) (a.bind fun a => b.bind fun b => x.bind fun x => fma a b x)
  | perm {ts ts' : List (List ℝ)} {x : Option ℝ} (h : SumIn add mul fma ts x) (hp : ts.Perm ts') :
      SumIn add mul fma ts' x
  | permFactors {ts : List (List ℝ)} {l l' : List ℝ} {x : Option ℝ} (h : SumIn add mul fma (l :: ts) x)
      (hp : l.Perm l') : SumIn add mul fma (l' :: ts) x

/-- `r` is the exact number `x`, rounded: finite if `x` and the error do not exceed the range, with a relative error `u`
and an absolute error `η`. -/
def Rounds (u η Ω x : ℝ) (r : Option ℝ) : Prop :=
  (1 + u) * |x| + η ≤ Ω → ∃ v, r = some v ∧ |v - x| ≤ u * |x| + η

/-- The operations of a floating-point arithmetic with unit roundoff `u`, the largest error `η` of an underflow and the
largest finite number `Ω`; the addition of zero is exact. -/
structure RangeOps where
  u : ℝ
  η : ℝ
  Ω : ℝ
  u_nonneg : 0 ≤ u
  η_nonneg : 0 ≤ η
  η_le : η ≤ 1
  add : ℝ → ℝ → Option ℝ
  sub : ℝ → ℝ → Option ℝ
  mul : ℝ → ℝ → Option ℝ
  div : ℝ → ℝ → Option ℝ
  fma : ℝ → ℝ → ℝ → Option ℝ
  add_ok : ∀ x y, Rounds u η Ω (x + y) (add x y)
  sub_ok : ∀ x y, Rounds u η Ω (x - y) (sub x y)
  mul_ok : ∀ x y, Rounds u η Ω (x * y) (mul x y)
  div_ok : ∀ x y, y ≠ 0 → Rounds u η Ω (x / y) (div x y)
  fma_ok : ∀ x y z, Rounds u η Ω (x * y + z) (fma x y z)
  add_zero : ∀ x, add x 0 = some x
  zero_add : ∀ x, add 0 x = some x

end Spec
