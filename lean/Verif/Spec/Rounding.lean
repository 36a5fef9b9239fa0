import Verif.Spec.Calculus
import Verif.Spec.Kinematics
import Mathlib.Analysis.SpecialFunctions.Pow.Real

/-!
# Specification vocabulary: errors of floating-point results

`Within u n y x m`: the computed number `y` differs from the exact number `x` at most by `n`
roundings, relative to the majorant `m`.  The majorants are the exact formulas with the absolute
values of the data and with plus signs only, i.e. without cancellation.
-/

namespace Spec

/-- `|y - x| ≤ ((1 + u) ^ n - 1) m`, about `n u m`. -/
def Within (u : ℝ) (n : ℕ) (y x m : ℝ) : Prop := |y - x| ≤ ((1 + u) ^ n - 1) * m

/-- The tensor of the absolute values. -/
def abs2 (A : Ten2 ℝ) : Ten2 ℝ := fun i j => |A i j|

/-- The tensor of the absolute values. -/
def abs4 (A : Ten4 ℝ) : Ten4 ℝ := fun i j k l => |A i j k l|

/-- The determinant with plus signs only (the permanent). -/
def detP (A : Ten2 ℝ) : ℝ :=
  A 0 0 * A 1 1 * A 2 2 + A 0 1 * A 1 2 * A 2 0 + A 0 2 * A 1 0 * A 2 1 +
    A 0 2 * A 1 1 * A 2 0 + A 0 1 * A 1 0 * A 2 2 + A 0 0 * A 1 2 * A 2 1

/-- The cofactors with plus signs only. -/
def cofP (A : Ten2 ℝ) : Ten2 ℝ := fun i j =>
  A (i + 1) (j + 1) * A (i + 2) (j + 2) + A (i + 1) (j + 2) * A (i + 2) (j + 1)

/-- The condition number of the determinant. -/
noncomputable def condDet (A : Ten2 ℝ) : ℝ := detP (abs2 A) / |A.det|

/-- The second invariant with a plus sign. -/
noncomputable def inv2P (C : Ten2 ℝ) : ℝ := (C.trace ^ 2 + (C * C).trace) / 2

/-- The parameters of a third-order-deformation material and the value of the invariants in the
undeformed state. -/
structure TodPar where
  C10 : ℝ
  C01 : ℝ
  C11 : ℝ
  C20 : ℝ
  C30 : ℝ
  r : ℝ

namespace TodPar

variable (p : TodPar)

/-- The first derivative `∂ψ/∂I1` with plus signs only. -/
noncomputable def w1 (C : Ten2 ℝ) : ℝ :=
  |p.C10| + |p.C11| * (inv2P C + |p.r|) + 2 * |p.C20| * (C.trace + |p.r|) + 3 * |p.C30| * (C.trace + |p.r|) ^ 2

/-- The second derivative `∂ψ/∂I2` with plus signs only. -/
noncomputable def w2 (C : Ten2 ℝ) : ℝ := |p.C01| + |p.C11| * (C.trace + |p.r|)

/-- The second derivative `∂²ψ/∂I1∂I1` with plus signs only. -/
noncomputable def w11 (C : Ten2 ℝ) : ℝ := 2 * |p.C20| + 6 * |p.C30| * (C.trace + |p.r|)

/-- The derivative `∂I2/∂C` with a plus sign. -/
noncomputable def dI2P (C : Ten2 ℝ) : Ten2 ℝ := C.trace • (1 : Ten2 ℝ) + C

/-- The gradient with respect to `C` with plus signs only. -/
noncomputable def gradP (C : Ten2 ℝ) : Ten2 ℝ := p.w1 C • (1 : Ten2 ℝ) + p.w2 C • dI2P C

/-- The hessian with respect to `C` with plus signs only. -/
noncomputable def hessP (C : Ten2 ℝ) : Ten4 ℝ := fun i j k l =>
  p.w2 C * (dyad (1 : Ten2 ℝ) 1 i j k l + dyadSym (1 : Ten2 ℝ) 1 i j k l) +
  p.w11 C * dyad (1 : Ten2 ℝ) 1 i j k l +
  |p.C11| * (dyad (1 : Ten2 ℝ) (dI2P C) i j k l + dyad (dI2P C) (1 : Ten2 ℝ) i j k l)

/-- The first Piola-Kirchhoff stress with plus signs only, at the absolute values of `F`. -/
noncomputable def stressP (F : Ten2 ℝ) : Ten2 ℝ := abs2 F * ((2 : ℝ) • p.gradP (cauchyGreen (abs2 F)))

/-- The elasticity tensor of the first Piola-Kirchhoff stress with plus signs only. -/
noncomputable def elasticityP (F : Ten2 ℝ) : Ten4 ℝ := fun i J k L =>
  (∑ I, ∑ K, |F i I| * |F k K| * (4 * p.hessP (cauchyGreen (abs2 F)) I J K L)) +
    dyadIK (1 : Ten2 ℝ) ((2 : ℝ) • p.gradP (cauchyGreen (abs2 F))) i J k L

/-- The stress of the distortional space with plus signs only, at the absolute values of `F`, with the exact
determinant. -/
noncomputable def distortionalP (F : Ten2 ℝ) : Ten2 ℝ :=
  let C := cauchyGreen (abs2 F)
  let d := (cauchyGreen F).det
  let S := (2 * d ^ (-1 / 3 : ℝ)) • p.gradP (d ^ (-1 / 3 : ℝ) • C)
  abs2 F * (S + (contract22 S C / 3 / d) • cofP C)

/-- The stress of the dilatational space with plus signs only. -/
noncomputable def dilatationalP (F : Ten2 ℝ) : Ten2 ℝ :=
  let C := cauchyGreen (abs2 F)
  let d := (cauchyGreen F).det
  let S := (2 * d ^ (1 / 3 : ℝ)) • p.gradP (d ^ (1 / 3 : ℝ) • C)
  abs2 F * ((S.trace / 3 / d) • cofP C)

/-- The fictitious elasticity `4 d ^ (±2/3) ∂²ψ/∂C∂C` at `d ^ (±1/3) C`, with the determinant `d` of the right
Cauchy-Green tensor, with plus signs only. -/
noncomputable def fictitiousP (e : ℝ) (F : Ten2 ℝ) : Ten4 ℝ := fun i j k l =>
  let d := (cauchyGreen F).det
  4 * d ^ (2 * e) * p.hessP (d ^ e • cauchyGreen (abs2 F)) i j k l

end TodPar

/-- The inverse of the right Cauchy-Green tensor with plus signs only, with the exact determinant. -/
noncomputable def invP (F : Ten2 ℝ) : Ten2 ℝ := (1 / (cauchyGreen F).det) • cofP (cauchyGreen (abs2 F))

/-- The projection `ℙ : X : ℙᵀ` onto the distortional part with plus signs only. -/
noncomputable def projectP (F : Ten2 ℝ) (X : Ten4 ℝ) : Ten4 ℝ :=
  let C := cauchyGreen (abs2 F)
  contract44 (contract44 (fun i j k l => dyadSym (1 : Ten2 ℝ) 1 i j k l + 1 / 3 * dyad (invP F) C i j k l) X)
    fun i j k l => dyadSym (1 : Ten2 ℝ) 1 i j k l + 1 / 3 * dyad C (invP F) i j k l

/-- `F_iI F_kK X_IJKL` with the absolute values of `F`. -/
noncomputable def pushP (F : Ten2 ℝ) (X : Ten4 ℝ) : Ten4 ℝ := fun i J k L => ∑ I, ∑ K, |F i I| * |F k K| * X I J K L

namespace TodPar

variable (p : TodPar)

/-- The elasticity tensor of the distortional space with plus signs only. -/
noncomputable def distortionalElasticityP (F : Ten2 ℝ) : Ten4 ℝ := fun i J k L =>
  let C := cauchyGreen (abs2 F)
  let d := (cauchyGreen F).det
  let S := (2 * d ^ (-1 / 3 : ℝ)) • p.gradP (d ^ (-1 / 3 : ℝ) • C)
  pushP F (fun I J K L =>
      2 / 3 * (contract22 S C * dyadSym (invP F) (invP F) I J K L + dyad S (invP F) I J K L +
        dyad (invP F) S I J K L + contract22 S C / 3 * dyad (invP F) (invP F) I J K L) +
      projectP F (p.fictitiousP (-1 / 3) F) I J K L) i J k L +
    dyadIK (1 : Ten2 ℝ) (S + (contract22 S C / 3) • invP F) i J k L

/-- The elasticity tensor of the dilatational space with plus signs only. -/
noncomputable def dilatationalElasticityP (F : Ten2 ℝ) : Ten4 ℝ := fun i J k L =>
  let C := cauchyGreen (abs2 F)
  let d := (cauchyGreen F).det
  let S := (2 * d ^ (1 / 3 : ℝ)) • p.gradP (d ^ (1 / 3 : ℝ) • C)
  pushP F (fun I J K L =>
      (2 * S.trace + contract22 1 (contract42 (p.fictitiousP (1 / 3) F) 1)) / 9 * dyad (invP F) (invP F) I J K L +
        2 / 3 * S.trace * dyadSym (invP F) (invP F) I J K L) i J k L +
    dyadIK (1 : Ten2 ℝ) ((S.trace / 3) • invP F) i J k L

end TodPar

/-- A bound for the relative error of the computed determinant of the right Cauchy-Green tensor. -/
noncomputable def detError (u : ℝ) (F : Ten2 ℝ) : ℝ :=
  ((1 + u) ^ 22 - 1) * (detP (cauchyGreen (abs2 F)) / (cauchyGreen F).det)

/-- One plus a bound for the relative error of the computed power `±1/3` of the determinant of the right
Cauchy-Green tensor, and of the computed reciprocal determinant. -/
noncomputable def powFactor (u : ℝ) (F : Ten2 ℝ) : ℝ :=
  (1 + u) ^ 2 * (1 / (1 - detError u F)) ^ (1 + u) * Real.exp (u / 3 * |Real.log (cauchyGreen F).det|)

end Spec

namespace Spec

/-! ### sums of products in any order -/

/-- `x` is a product of the numbers `l`, computed with the multiplication `mul` in some order and
with some brackets. -/
inductive ProductOf (mul : ℝ → ℝ → ℝ) : List ℝ → ℝ → Prop
  | empty : ProductOf mul [] 1
  | single (a : ℝ) : ProductOf mul [a] a
  | mul {l l' : List ℝ} {x y : ℝ} (hl : l ≠ []) (hl' : l' ≠ []) (h : ProductOf mul l x)
      (h' : ProductOf mul l' y) : ProductOf mul (l ++ l') (mul x y)
  | perm {l l' : List ℝ} {x : ℝ} (h : ProductOf mul l x) (hp : l.Perm l') : ProductOf mul l' x

/-- `x` is a sum of the products `ts`, computed in some order and with some brackets: the numbers
may be padded by zeros, several partial sums may be accumulated, and some of the products may be
added by a fused multiply-add `fma a b c`, i.e. `a * b + c` with one rounding. -/
inductive SumOf (add mul : ℝ → ℝ → ℝ) (fma : ℝ → ℝ → ℝ → ℝ) : List (List ℝ) → ℝ → Prop
  | zero : SumOf add mul fma [] 0
  | product {l : List ℝ} {x : ℝ} (h : ProductOf mul l x) : SumOf add mul fma [l] x
  | add {ts ts' : List (List ℝ)} {x y : ℝ} (h : SumOf add mul fma ts x) (h' : SumOf add mul fma ts' y) :
      SumOf add mul fma (ts ++ ts') (add x y)
  | fma {l l' : List ℝ} {ts : List (List ℝ)} {a b x : ℝ} (hl : l ≠ []) (hl' : l' ≠ [])
      (ha : ProductOf mul l a) (hb : ProductOf mul l' b) (h : SumOf add mul fma ts x) :
      SumOf add mul fma ((l ++ l') :: ts) (fma a b x)
  | perm {ts ts' : List (List ℝ)} {x : ℝ} (h : SumOf add mul fma ts x) (hp : ts.Perm ts') :
      SumOf add mul fma ts' x
  | permFactors {ts : List (List ℝ)} {l l' : List ℝ} {x : ℝ} (h : SumOf add mul fma (l :: ts) x)
      (hp : l.Perm l') : SumOf add mul fma (l' :: ts) x

/-- The operations of a floating-point arithmetic with unit roundoff `u`; the addition of zero is
exact. -/
structure Operations where
  u : ℝ
  u_nonneg : 0 ≤ u
  add : ℝ → ℝ → ℝ
  sub : ℝ → ℝ → ℝ
  mul : ℝ → ℝ → ℝ
  div : ℝ → ℝ → ℝ
  fma : ℝ → ℝ → ℝ → ℝ
  add_error : ∀ x y, |add x y - (x + y)| ≤ u * |x + y|
  sub_error : ∀ x y, |sub x y - (x - y)| ≤ u * |x - y|
  mul_error : ∀ x y, |mul x y - x * y| ≤ u * |x * y|
  div_error : ∀ x y, y ≠ 0 → |div x y - x / y| ≤ u * |x / y|
  fma_error : ∀ x y z, |fma x y z - (x * y + z)| ≤ u * |x * y + z|
  add_zero : ∀ x, add x 0 = x
  zero_add : ∀ x, add 0 x = x

end Spec
