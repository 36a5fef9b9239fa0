import Mathlib.Data.PNat.Basic
import Mathlib.Data.PNat.Notation
import Mathlib.Data.Real.Basic
import Mathlib.Analysis.SpecialFunctions.Pow.Real
import Verif.Model.Voigt
import Verif.Model.InvModels

/-!
# Model of the tensor algebra in floating-point arithmetic

The other models of the package compute with exact real numbers.  Here the functions of
`math/_voigt.py`, `ThirdOrderDeformation`, `Invariants` and the spaces are transcribed once more,
at one point of the trailing axes, over an abstract arithmetic `K` with the operations in exactly
the order in which the code performs them: no law of arithmetic is assumed for `K`.  With `K = ℝ`
the programs are the exact functions (proved in `Proofs/RoundingExact`); with `K = Fl R` every
operation is rounded as described by the floating-point arithmetic `R`.

The attributes and the error paths are those of the other models and are not repeated here: the
programs below are the values of the methods.
-/

namespace Hel.Rnd

/-- The operations which the code performs on floats.  `einsum` is a sum of products, as computed
by `np.einsum` and `np.sum`, in an unspecified order; `sq` is `x ** 2`; `divNat` the division by
an integer literal. -/
class Arith (K : Type) extends Add K, Sub K, Mul K where
  /-- a given machine number: an input, a material parameter or a literal -/
  lit : ℝ → K
  sq : K → K
  divNat : K → ℕ+ → K
  einsum : List (List K) → K

export Arith (lit sq divNat einsum)

variable {K : Type} [Arith K]

/-! ### the arithmetic -/

/-- Exact arithmetic. -/
noncomputable instance : Arith ℝ where
  lit x := x
  sq x := x ^ 2
  divNat x n := x / (n : ℕ)
  einsum ts := (ts.map List.prod).sum

/-- A floating-point arithmetic with unit roundoff `u`, in the standard model: every operation
returns the exact result up to a relative error `u` (IEEE 754 without overflow, underflow and
`nan`).  `x ** y` of a positive number and `x ** 2` are computed by the C library and may be off by two
roundings.
A sum of `n` products of at most `p` factors is computed in any order, with or without fused
multiply-adds: its error is at most that of `n + p` roundings relative to the sum of the absolute
values of the products. -/
structure Rounding where
  u : ℝ
  u_nonneg : 0 ≤ u
  add : ℝ → ℝ → ℝ
  sub : ℝ → ℝ → ℝ
  mul : ℝ → ℝ → ℝ
  div : ℝ → ℝ → ℝ
  sq : ℝ → ℝ
  pow : ℝ → ℝ → ℝ
  einsum : List (List ℝ) → ℝ
  add_error : ∀ x y, |add x y - (x + y)| ≤ u * |x + y|
  sub_error : ∀ x y, |sub x y - (x - y)| ≤ u * |x - y|
  mul_error : ∀ x y, |mul x y - x * y| ≤ u * |x * y|
  div_error : ∀ x y, y ≠ 0 → |div x y - x / y| ≤ u * |x / y|
  sq_error : ∀ x, |sq x - x ^ 2| ≤ ((1 + u) ^ 2 - 1) * x ^ 2
  pow_error : ∀ x y, 0 < x → |pow x y - x ^ y| ≤ ((1 + u) ^ 2 - 1) * x ^ y
  einsum_error : ∀ (ts : List (List ℝ)) (p : ℕ), (∀ t ∈ ts, t.length ≤ p) →
    |einsum ts - (ts.map List.prod).sum| ≤
      ((1 + u) ^ (ts.length + p) - 1) * (ts.map fun t => |t.prod|).sum

/-- The numbers of a floating-point arithmetic. -/
structure Fl (R : Rounding) where
  val : ℝ

/-- Rounded arithmetic. -/
noncomputable instance (R : Rounding) : Arith (Fl R) where
  add x y := ⟨R.add x.val y.val⟩
  sub x y := ⟨R.sub x.val y.val⟩
  mul x y := ⟨R.mul x.val y.val⟩
  lit x := ⟨x⟩
  sq x := ⟨R.sq x.val⟩
  divNat x n := ⟨R.div x.val (n : ℕ)⟩
  einsum ts := ⟨R.einsum (ts.map fun t => t.map Fl.val)⟩

/-! ### `math/_voigt.py` -/

/-- `trace(A) = np.sum(A[:3], axis=0)`; `_voigt.py` line 286. -/
def trace (A : Vec6 K) : K := einsum [[A 0], [A 1], [A 2]]

/-- `det(A)`; `_voigt.py` lines 375-381, in the order of evaluation of Python. -/
def det (A : Vec6 K) : K :=
  A 0 * A 1 * A 2 + lit 2 * A 3 * A 4 * A 5 - sq (A 4) * A 0 - sq (A 5) * A 1 - sq (A 3) * A 2

/-- `inv(A, determinant)`; `_voigt.py` lines 434-447.  `divD` is the division by the
determinant. -/
def inv (divD : K → K) (A : Vec6 K) : Vec6 K := fun a =>
  divD (A (![1, 0, 0, 4, 3, 3] a) * A (![2, 2, 1, 5, 5, 4] a) -
    A (![4, 5, 3, 3, 0, 1] a) * A (![4, 5, 3, 2, 4, 5] a))

/-- `dot(A, B)`; `_voigt.py` lines 499-511. -/
def dot (A B : Vec6 K) : Full2 K :=
  ![![A 0 * B 0 + A 3 * B 3 + A 5 * B 5, A 0 * B 3 + A 3 * B 1 + A 5 * B 4,
      A 0 * B 5 + A 3 * B 4 + A 5 * B 2],
    ![A 3 * B 0 + A 1 * B 3 + A 4 * B 5, A 3 * B 3 + A 1 * B 1 + A 4 * B 4,
      A 3 * B 5 + A 1 * B 4 + A 4 * B 2],
    ![A 5 * B 0 + A 4 * B 3 + A 2 * B 5, A 5 * B 3 + A 4 * B 1 + A 2 * B 4,
      A 4 * B 4 + A 5 * B 5 + A 2 * B 2]]

/-- `eye()`; `_voigt.py` lines 548-552. -/
def eye : Vec6 K := ![lit 1, lit 1, lit 1, lit 0, lit 0, lit 0]

/-- `weights = np.array([1, 1, 1, 2, 2, 2])`; `_voigt.py` line 635. -/
def weights : Vec6 K := ![lit 1, lit 1, lit 1, lit 2, lit 2, lit 2]

/-- The sum over an index which runs from 0 to 5. -/
def sum6 (t : Fin 6 → List K) : K := einsum [t 0, t 1, t 2, t 3, t 4, t 5]

/-- The sum over an index which runs from 0 to 2. -/
def sum3 (t : Fin 3 → List K) : K := einsum [t 0, t 1, t 2]

/-- The sum over two indices. -/
def sum33 (t : Fin 3 → Fin 3 → List K) : K :=
  einsum [t 0 0, t 0 1, t 0 2, t 1 0, t 1 1, t 1 2, t 2 0, t 2 1, t 2 2]

/-- `ddot(A, B, mode=(2, 2))`; `_voigt.py` line 637. -/
def ddot (A B : Vec6 K) : K := sum6 fun i => [A i, B i, weights i]

/-- `ddot(A, B, mode=(4, 4))`; `_voigt.py` line 639. -/
def ddot44 (A B : Mat6 K) : Mat6 K := fun i j => sum6 fun k => [A i k, B k j, weights k]

/-- `ddot(A, B, mode=(4, 2))`; `_voigt.py` line 641. -/
def ddot42 (A : Mat6 K) (B : Vec6 K) : Vec6 K := fun i => sum6 fun j => [A i j, B j, weights j]

/-- `ddot(A, B, mode=(2, 4))`; `_voigt.py` line 643. -/
def ddot24 (A : Vec6 K) (B : Mat6 K) : Vec6 K := fun j => sum6 fun i => [A i, B i j, weights i]

/-- `dya(A, B)`; `_voigt.py` lines 697-701. -/
def dya (A B : Vec6 K) : Mat6 K := fun a b => A a * B b

/-- `dev(A)`; `_voigt.py` line 725. -/
def dev (A : Vec6 K) : Vec6 K := fun a => A a - divNat (trace A) 3 * eye a

/-- `cdya_ik(A, B)`; `_voigt.py` line 779. -/
def cdya_ik (A B : Vec6 K) : Full4 K := swap12 (astensor4 (dya A B))

/-- `cdya_il(A, B)`; `_voigt.py` line 833. -/
def cdya_il (A B : Vec6 K) : Full4 K := swap13 (astensor4 (dya A B))

/-- One entry of `values` with two different objects; `_voigt.py` lines 918-941. -/
def cdyaEntry (A B : Vec6 K) (p q : Fin 6) : K :=
  let i := (pairs p).1
  let j := (pairs p).2
  let k := (pairs q).1
  let l := (pairs q).2
  divNat ((A (tab i k) * B (tab j l) + A (tab i l) * B (tab k j)) +
    (B (tab i k) * A (tab j l) + B (tab i l) * A (tab k j))) 4

/-- One entry of `values` with the same object passed twice; `_voigt.py` lines 918-937, 943. -/
def cdyaSelfEntry (A : Vec6 K) (p q : Fin 6) : K :=
  let i := (pairs p).1
  let j := (pairs p).2
  let k := (pairs q).1
  let l := (pairs q).2
  divNat (A (tab i k) * A (tab j l) + A (tab i l) * A (tab k j)) 2

/-- `cdya(A, B)` of two objects; `_voigt.py` lines 913-947: one value for each pair of
`np.triu_indices(6)`, stored in both triangles. -/
def cdya (A B : Vec6 K) : Mat6 K := fun p q => cdyaEntry A B (min p q) (max p q)

/-- `cdya(A, A)`; `_voigt.py` lines 913-947. -/
def cdyaSelf (A : Vec6 K) : Mat6 K := fun p q => cdyaSelfEntry A (min p q) (max p q)

/-! ### `models/invariants/_third_order_deformation.py` -/

/-- `if parameter != 0: value += term`, executed if the condition holds. -/
def addIf (c : Prop) [Decidable c] (x t : K) : K := if c then x + t else x

/-- `ThirdOrderDeformation.gradient`, `dWdI1`; lines 58-82 (`None` if no parameter is set). -/
noncomputable def todD1 (p : TOD ℝ) (I1 I2 : K) : Option K :=
  open Classical in
  if p.C10 ≠ 0 ∨ p.C11 ≠ 0 ∨ p.C20 ≠ 0 ∨ p.C30 ≠ 0 then
    some <|
      let w := addIf (p.C10 ≠ 0) (lit 0) (lit p.C10)
      let w := addIf (p.C11 ≠ 0) w (lit p.C11 * (I2 - lit p.undeformed))
      let w := addIf (p.C20 ≠ 0) w (lit p.C20 * lit 2 * (I1 - lit p.undeformed))
      addIf (p.C30 ≠ 0) w (lit p.C30 * lit 3 * sq (I1 - lit p.undeformed))
  else none

/-- `ThirdOrderDeformation.gradient`, `dWdI2`; lines 59-76. -/
noncomputable def todD2 (p : TOD ℝ) (I1 : K) : Option K :=
  open Classical in
  if p.C01 ≠ 0 ∨ p.C11 ≠ 0 then
    some <|
      let w := addIf (p.C01 ≠ 0) (lit 0) (lit p.C01)
      addIf (p.C11 ≠ 0) w (lit p.C11 * (I1 - lit p.undeformed))
  else none

/-- `ThirdOrderDeformation.hessian`, `d2WdI1I1`; lines 97-98. -/
noncomputable def todD11 (p : TOD ℝ) (I1 : K) : Option K :=
  open Classical in
  if p.C20 ≠ 0 ∨ p.C30 ≠ 0 then
    some (lit p.C20 * lit 2 + lit p.C30 * lit 6 * (I1 - lit p.undeformed))
  else none

/-- `ThirdOrderDeformation.hessian`, `d2WdI1I2`; lines 100-101. -/
noncomputable def todD12 (p : TOD ℝ) : Option K :=
  open Classical in if p.C11 ≠ 0 then some (lit p.C11) else none

/-! ### `frameworks/_invariants.py` -/

/-- `I2 = (I1**2 - ddot(C, C)) / 2`; line 158. -/
def I2 (C : Vec6 K) : K := divNat (sq (trace C) - ddot C C) 2

/-- `dI2dC = I1 * I - C`; line 173. -/
def dI2dC (C : Vec6 K) : Vec6 K := fun a => trace C * eye a - C a

/-- `if w is not None: dWdC = dWdC + w * t`; lines 168-179. -/
def addTerm (x : K) (w : Option K) (t : K) : K :=
  match w with
  | none => x
  | some w => x + w * t

/-- `Invariants(ThirdOrderDeformation).gradient`; lines 150-181. -/
noncomputable def invGrad (p : TOD ℝ) (C : Vec6 K) : Vec6 K := fun a =>
  addTerm (addTerm (lit 0) (todD1 p (trace C) (I2 C)) (eye a)) (todD2 p (trace C)) (dI2dC C a)

/-- `d2I2dCdC = dya(I, I) - cdya(I, I)`; line 210. -/
def d2I2dCdC : Mat6 K := fun a b => dya eye eye a b - cdyaSelf eye a b

/-- `Invariants(ThirdOrderDeformation).hessian`; lines 183-237. -/
noncomputable def invHess (p : TOD ℝ) (C : Vec6 K) : Mat6 K := fun a b =>
  addTerm (addTerm (addTerm (lit 0) (todD2 p (trace C)) (d2I2dCdC a b))
    (todD11 p (trace C)) (dya eye eye a b))
    (todD12 p) (dya eye (dI2dC C) a b + dya (dI2dC C) eye a b)

/-! ### the spaces -/

/-- `asvoigt(einsum("kI...,kJ...->IJ...", F, F))`; `_deformation.py` line 75. -/
def cauchyGreen (F : Full2 K) : Vec6 K := asvoigt fun I J => sum3 fun k => [F k I, F k J]

/-- `einsum("iI...,IJ...->iJ...", F, astensor(S))`; `_space.py` lines 56-68. -/
def piolaStress (F : Full2 K) (S : Vec6 K) : Full2 K := fun i J =>
  sum3 fun I => [F i I, astensor S I J]

/-- `einsum("iI...,kK...,IJKL...->iJkL...", F, F, astensor(C4, 4)) + cdya_ik(eye(S), S)`;
`_space.py` lines 87-104. -/
def piolaElasticity (F : Full2 K) (S : Vec6 K) (C4 : Mat6 K) : Full4 K := fun i J k L =>
  (sum33 fun I K => [F i I, F k K, astensor4 C4 I J K L]) + cdya_ik eye S i J k L

/-- `S = 2 * dWdC`; `_deformation.py` line 78. -/
noncomputable def defS (p : TOD ℝ) (F : Full2 K) : Vec6 K := fun a => lit 2 * invGrad p (cauchyGreen F) a

/-- `DeformationSpace(Invariants(ThirdOrderDeformation)).gradient`; `_deformation.py` lines
69-80. -/
noncomputable def defGradient (p : TOD ℝ) (F : Full2 K) : Full2 K := piolaStress F (defS p F)

/-- `DeformationSpace(Invariants(ThirdOrderDeformation)).hessian`; `_deformation.py` lines
82-91. -/
noncomputable def defHessian (p : TOD ℝ) (F : Full2 K) : Full4 K :=
  piolaElasticity F (defS p F) fun a b => lit 4 * invHess p (cauchyGreen F) a b

/-- `S` in `DistortionalSpace(Invariants(ThirdOrderDeformation)).gradient`; `_distortional.py`
lines 160-169.  `t` is `I3 ** (-1 / 3)`, `divD` the division by `I3`. -/
noncomputable def distS (t : K) (divD : K → K) (p : TOD ℝ) (C : Vec6 K) : Vec6 K :=
  let Cu : Vec6 K := fun a => t * C a
  let dW := invGrad p Cu
  let Sb : Vec6 K := fun a => lit 2 * t * dW a
  let SbC := ddot Sb C
  let invC := inv divD C
  fun a => Sb a - divNat SbC 3 * invC a

/-- `S` in `DilatationalSpace(Invariants(ThirdOrderDeformation)).gradient`; `_dilatational.py`
lines 20-29.  `t` is `I3 ** (1 / 3)`, `divD` the division by `I3`. -/
noncomputable def dilS (t : K) (divD : K → K) (p : TOD ℝ) (C : Vec6 K) : Vec6 K :=
  let Co : Vec6 K := fun a => t * C a
  let dW := invGrad p Co
  let Sb : Vec6 K := fun a => lit 2 * t * dW a
  let trSb := trace Sb
  let invC := inv divD C
  fun a => divNat trSb 3 * invC a

/-- `C4b` in `DistortionalSpace(Invariants(ThirdOrderDeformation)).hessian`, and in that of the dilatational
space; `_distortional.py` lines 182-183, `_dilatational.py` lines 37-38.  `t` is `I3 ** (-1 / 3)` (`I3 ** (1 / 3)`),
`s` is `I3 ** (-2 / 3)` (`I3 ** (2 / 3)`). -/
noncomputable def splitC4b (t s : K) (p : TOD ℝ) (C : Vec6 K) : Mat6 K :=
  let Cu : Vec6 K := fun a => t * C a
  fun a b => lit 4 * s * invHess p Cu a b

/-- `P4 = cdya(I, I) - dya(invC, C) / 3`; `_distortional.py` line 185. -/
def distP4 (divD : K → K) (C : Vec6 K) : Mat6 K := fun a b =>
  cdyaSelf eye a b - divNat (dya (inv divD C) C a b) 3

/-- `C4` in `DistortionalSpace(Invariants(ThirdOrderDeformation)).hessian` before the condition;
`_distortional.py` lines 186-192. -/
noncomputable def distGeo (t : K) (divD : K → K) (p : TOD ℝ) (C : Vec6 K) : Mat6 K :=
  let Cu : Vec6 K := fun a => t * C a
  let dW := invGrad p Cu
  let Sb : Vec6 K := fun a => lit 2 * t * dW a
  let SbC := ddot Sb C
  let invC := inv divD C
  let I4 := cdyaSelf invC
  let SbinvC := dya Sb invC
  let invCSb : Mat6 K := fun a b => SbinvC b a
  let invCinvC := dya invC invC
  fun a b => divNat (lit 2) 3 *
    (SbC * I4 a b - SbinvC a b - invCSb a b + divNat SbC 3 * invCinvC a b)

/-- `ddot(ddot(P4, C4b, mode=(4, 4)), transpose(P4), mode=(4, 4))`; `_distortional.py` line 195. -/
noncomputable def distMat (t s : K) (divD : K → K) (p : TOD ℝ) (C : Vec6 K) : Mat6 K :=
  ddot44 (ddot44 (distP4 divD C) (splitC4b t s p C)) fun a b => distP4 divD C b a

/-- `C4` in `DistortionalSpace(Invariants(ThirdOrderDeformation)).hessian`; `_distortional.py` lines 180-195.
`keep` is the result of `not np.allclose(C4b, 0)`. -/
noncomputable def distC4 (keep : Prop) [Decidable keep] (t s : K) (divD : K → K) (p : TOD ℝ) (C : Vec6 K) : Mat6 K :=
  if keep then fun a b => distGeo t divD p C a b + distMat t s divD p C a b else distGeo t divD p C

/-- `C4` in `DilatationalSpace(Invariants(ThirdOrderDeformation)).hessian`; `_dilatational.py` lines 37-46. -/
noncomputable def dilC4 (t s : K) (divD : K → K) (p : TOD ℝ) (C : Vec6 K) : Mat6 K :=
  let Co : Vec6 K := fun a => t * C a
  let dW := invGrad p Co
  let Sb : Vec6 K := fun a => lit 2 * t * dW a
  let trSb := trace Sb
  let invC := inv divD C
  let trC4b := ddot (ddot24 eye (splitC4b t s p C)) eye
  let I4 := cdyaSelf invC
  fun a b => divNat ((lit 2 * trSb + trC4b) * dya invC invC a b) 9 - divNat (lit 2) 3 * trSb * I4 a b

/-! ### the functions as called by the user

The arguments are arrays of machine numbers; all operations are those of the floating-point
arithmetic `R`. -/

namespace Rounding

variable (R : Rounding)

/-- An array of machine numbers. -/
def arr6 (A : Vec6 ℝ) : Vec6 (Fl R) := fun a => ⟨A a⟩

/-- An array of machine numbers. -/
def arr66 (A : Mat6 ℝ) : Mat6 (Fl R) := fun a b => ⟨A a b⟩

/-- An array of machine numbers. -/
def arr33 (A : Full2 ℝ) : Full2 (Fl R) := fun a b => ⟨A a b⟩

/-- Division of floating-point numbers. -/
def divBy (d x : Fl R) : Fl R := ⟨R.div x.val d.val⟩

/-- `trace(A)` -/
noncomputable def trace (A : Vec6 ℝ) : ℝ := (Rnd.trace (R.arr6 A)).val

/-- `det(A)` -/
noncomputable def det (A : Vec6 ℝ) : ℝ := (Rnd.det (R.arr6 A)).val

/-- `inv(A, determinant)`; without an argument the determinant is computed
(`_voigt.py` lines 429-432). -/
noncomputable def inv (A : Vec6 ℝ) (determinant : Option ℝ := none) : Vec6 ℝ := fun a =>
  (Rnd.inv (R.divBy ⟨determinant.getD (R.det A)⟩) (R.arr6 A) a).val

/-- `dot(A, B)` -/
noncomputable def dot (A B : Vec6 ℝ) : Full2 ℝ := fun i j => (Rnd.dot (R.arr6 A) (R.arr6 B) i j).val

/-- `ddot(A, B)` -/
noncomputable def ddot (A B : Vec6 ℝ) : ℝ := (Rnd.ddot (R.arr6 A) (R.arr6 B)).val

/-- `ddot(A, B, mode=(4, 4))` -/
noncomputable def ddot44 (A B : Mat6 ℝ) : Mat6 ℝ := fun i j => (Rnd.ddot44 (R.arr66 A) (R.arr66 B) i j).val

/-- `ddot(A, B, mode=(4, 2))` -/
noncomputable def ddot42 (A : Mat6 ℝ) (B : Vec6 ℝ) : Vec6 ℝ := fun i => (Rnd.ddot42 (R.arr66 A) (R.arr6 B) i).val

/-- `ddot(A, B, mode=(2, 4))` -/
noncomputable def ddot24 (A : Vec6 ℝ) (B : Mat6 ℝ) : Vec6 ℝ := fun i => (Rnd.ddot24 (R.arr6 A) (R.arr66 B) i).val

/-- `dya(A, B)` -/
noncomputable def dya (A B : Vec6 ℝ) : Mat6 ℝ := fun i j => (Rnd.dya (R.arr6 A) (R.arr6 B) i j).val

/-- `dev(A)` -/
noncomputable def dev (A : Vec6 ℝ) : Vec6 ℝ := fun i => (Rnd.dev (R.arr6 A) i).val

/-- `cdya_ik(A, B)` -/
noncomputable def cdya_ik (A B : Vec6 ℝ) : Full4 ℝ := fun i j k l => (Rnd.cdya_ik (R.arr6 A) (R.arr6 B) i j k l).val

/-- `cdya_il(A, B)` -/
noncomputable def cdya_il (A B : Vec6 ℝ) : Full4 ℝ := fun i j k l => (Rnd.cdya_il (R.arr6 A) (R.arr6 B) i j k l).val

/-- `cdya(A, B)` of two objects -/
noncomputable def cdya (A B : Vec6 ℝ) : Mat6 ℝ := fun i j => (Rnd.cdya (R.arr6 A) (R.arr6 B) i j).val

/-- `cdya(A, A)` -/
noncomputable def cdyaSelf (A : Vec6 ℝ) : Mat6 ℝ := fun i j => (Rnd.cdyaSelf (R.arr6 A) i j).val

/-- `DeformationSpace(Invariants(ThirdOrderDeformation)).gradient` -/
noncomputable def deformationGradient (p : TOD ℝ) (F : Full2 ℝ) : Full2 ℝ := fun i j =>
  (defGradient p (R.arr33 F) i j).val

/-- `DeformationSpace(Invariants(ThirdOrderDeformation)).hessian` -/
noncomputable def deformationHessian (p : TOD ℝ) (F : Full2 ℝ) : Full4 ℝ := fun i j k l =>
  (defHessian p (R.arr33 F) i j k l).val

/-- `DistortionalSpace(Invariants(ThirdOrderDeformation)).gradient`; `_distortional.py` lines
154-171. -/
noncomputable def distortionalGradient (p : TOD ℝ) (F : Full2 ℝ) : Full2 ℝ := fun i j =>
  let C := cauchyGreen (R.arr33 F)
  let I3 := Rnd.det C
  let t : Fl R := ⟨R.pow I3.val (R.div (-1) 3)⟩
  (piolaStress (R.arr33 F) (distS t (R.divBy I3) p C) i j).val

/-- `DilatationalSpace(Invariants(ThirdOrderDeformation)).gradient`; `_dilatational.py` lines
17-30. -/
noncomputable def dilatationalGradient (p : TOD ℝ) (F : Full2 ℝ) : Full2 ℝ := fun i j =>
  let C := cauchyGreen (R.arr33 F)
  let I3 := Rnd.det C
  let t : Fl R := ⟨R.pow I3.val (R.div 1 3)⟩
  (piolaStress (R.arr33 F) (dilS t (R.divBy I3) p C) i j).val

/-- `np.allclose(X, 0)`: the absolute values are compared with the machine number `1e-8`, which is the rounded
quotient of 1 and 100000000. -/
def allclose0 (X : Mat6 (Fl R)) : Prop := ∀ a b, |(X a b).val| ≤ R.div 1 (10 ^ 8)

open Classical in
/-- `DistortionalSpace(Invariants(ThirdOrderDeformation)).hessian`; `_distortional.py` lines
173-197. -/
noncomputable def distortionalHessian (p : TOD ℝ) (F : Full2 ℝ) : Full4 ℝ := fun i j k l =>
  let C := cauchyGreen (R.arr33 F)
  let I3 := Rnd.det C
  let t : Fl R := ⟨R.pow I3.val (R.div (-1) 3)⟩
  let s : Fl R := ⟨R.pow I3.val (R.div (-2) 3)⟩
  (piolaElasticity (R.arr33 F) (distS t (R.divBy I3) p C)
    (distC4 (¬ R.allclose0 (splitC4b t s p C)) t s (R.divBy I3) p C) i j k l).val

/-- `DilatationalSpace(Invariants(ThirdOrderDeformation)).hessian`; `_dilatational.py` lines
32-48. -/
noncomputable def dilatationalHessian (p : TOD ℝ) (F : Full2 ℝ) : Full4 ℝ := fun i j k l =>
  let C := cauchyGreen (R.arr33 F)
  let I3 := Rnd.det C
  let t : Fl R := ⟨R.pow I3.val (R.div 1 3)⟩
  let s : Fl R := ⟨R.pow I3.val (R.div 2 3)⟩
  (piolaElasticity (R.arr33 F) (dilS t (R.divBy I3) p C) (dilC4 t s (R.divBy I3) p C) i j k l).val

end Rounding

end Hel.Rnd
