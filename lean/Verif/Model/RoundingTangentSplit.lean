import Verif.Model.RoundingTangent

/-!
# Model of the tangents of stretch-based materials on the distortional and the dilatational space, in floating-point arithmetic

`Distortional.hessian` and `Dilatational.hessian` for given first and second derivatives of the energy, at one point of the
trailing axes, with the operations in the order of the code, and the same for `Stretches(Ogden)`.
-/

namespace Hel.Rnd

section
variable {K : Type} [Arith K]

/-- `C4b = 4 * I3 ** (-2 / 3) * d2WdCdC` for a given second derivative `H` of the energy; `_distortional.py` line 183,
`_dilatational.py` line 38.  `s` is `I3 ** (-2 / 3)` (`I3 ** (2 / 3)`). -/
def splitC4bOf (s : K) (H : Mat6 K) : Mat6 K := fun a b => lit 4 * s * H a b

/-- `C4` in `DistortionalSpace.hessian` before the condition, for a given derivative `dW` of the energy;
`_distortional.py` lines 164-169, 186-192.  `t` is `I3 ** (-1 / 3)`, `divD` the division by `I3`. -/
def distGeoOf (t : K) (divD : K → K) (dW C : Vec6 K) : Mat6 K :=
  let Sb : Vec6 K := fun a => lit 2 * t * dW a
  let SbC := ddot Sb C
  let invC := inv divD C
  let I4 := cdyaSelf invC
  let SbinvC := dya Sb invC
  let invCSb : Mat6 K := fun a b => SbinvC b a
  let invCinvC := dya invC invC
  fun a b => divNat (lit 2) 3 *
    (SbC * I4 a b - SbinvC a b - invCSb a b + divNat SbC 3 * invCinvC a b)

/-- `ddot(ddot(P4, C4b, mode=(4, 4)), transpose(P4), mode=(4, 4))`; `_distortional.py` line 195. -/
def distMatOf (s : K) (divD : K → K) (H : Mat6 K) (C : Vec6 K) : Mat6 K :=
  ddot44 (ddot44 (distP4 divD C) (splitC4bOf s H)) fun a b => distP4 divD C b a

/-- `C4` in `DistortionalSpace.hessian`; `_distortional.py` lines 180-195.  `keep` is the result of
`not np.allclose(C4b, 0)`. -/
def distC4Of (keep : Prop) [Decidable keep] (t s : K) (divD : K → K) (dW : Vec6 K) (H : Mat6 K) (C : Vec6 K) : Mat6 K :=
  if keep then fun a b => distGeoOf t divD dW C a b + distMatOf s divD H C a b else distGeoOf t divD dW C

/-- `C4` in `DilatationalSpace.hessian` for given derivatives of the energy; `_dilatational.py` lines 24-27, 37-46. -/
def dilC4Of (t s : K) (divD : K → K) (dW : Vec6 K) (H : Mat6 K) (C : Vec6 K) : Mat6 K :=
  let Sb : Vec6 K := fun a => lit 2 * t * dW a
  let trSb := trace Sb
  let invC := inv divD C
  let trC4b := ddot (ddot24 eye (splitC4bOf s H)) eye
  let I4 := cdyaSelf invC
  fun a b => divNat ((lit 2 * trSb + trC4b) * dya invC invC a b) 9 - divNat (lit 2) 3 * trSb * I4 a b

end

namespace RoundingSqrt

variable (R : RoundingSqrt)

/-- The numbers computed by `Distortional(Stretches(Ogden)).hessian` if the condition of line 194 had the value `keep`;
`_distortional.py` lines 154-197. -/
noncomputable def ogdenDistWith (keep : Prop) [Decidable keep] (lapack : Eigh) (τ : ℝ) (m : Ogden) (F : Full2 ℝ) : Full4 ℝ :=
  let C : Vec6 (Fl R.toRounding) := cauchyGreen (R.arr33 F)
  let I3 := Rnd.det C
  let t : Fl R.toRounding := ⟨R.pow I3.val (R.div (-1) 3)⟩
  let s : Fl R.toRounding := ⟨R.pow I3.val (R.div (-2) 3)⟩
  let Cu : Vec6 ℝ := fun a => (t * C a).val
  let dWdC := R.arr6 (R.stretchesGradient lapack m Cu)
  let d2WdCdC := R.arr66 (R.stretchesHessian lapack τ m Cu)
  fun i j k l => (piolaElasticity (R.arr33 F) (distStress t (R.divBy I3) dWdC C)
    (distC4Of keep t s (R.divBy I3) dWdC d2WdCdC C) i j k l).val

/-- `np.allclose(C4b, 0)` in `Distortional(Stretches(Ogden)).hessian`; `_distortional.py` lines 182-183, 194. -/
def ogdenDrops (lapack : Eigh) (τ : ℝ) (m : Ogden) (F : Full2 ℝ) : Prop :=
  let C : Vec6 (Fl R.toRounding) := cauchyGreen (R.arr33 F)
  let I3 := Rnd.det C
  let t : Fl R.toRounding := ⟨R.pow I3.val (R.div (-1) 3)⟩
  let s : Fl R.toRounding := ⟨R.pow I3.val (R.div (-2) 3)⟩
  let Cu : Vec6 ℝ := fun a => (t * C a).val
  R.allclose0 (splitC4bOf s (R.arr66 (R.stretchesHessian lapack τ m Cu)))

open Classical in
/-- `Distortional(Stretches(Ogden)).hessian`; `_distortional.py` lines 173-197. -/
noncomputable def ogdenDistortionalHessian (lapack : Eigh) (τ : ℝ) (m : Ogden) (F : Full2 ℝ) : Full4 ℝ :=
  R.ogdenDistWith (¬ R.ogdenDrops lapack τ m F) lapack τ m F

/-- `Dilatational(Stretches(Ogden)).hessian`; `_dilatational.py` lines 17-48. -/
noncomputable def ogdenDilatationalHessian (lapack : Eigh) (τ : ℝ) (m : Ogden) (F : Full2 ℝ) : Full4 ℝ :=
  let C : Vec6 (Fl R.toRounding) := cauchyGreen (R.arr33 F)
  let I3 := Rnd.det C
  let t : Fl R.toRounding := ⟨R.pow I3.val (R.div 1 3)⟩
  let s : Fl R.toRounding := ⟨R.pow I3.val (R.div 2 3)⟩
  let Co : Vec6 ℝ := fun a => (t * C a).val
  let dWdC := R.arr6 (R.stretchesGradient lapack m Co)
  let d2WdCdC := R.arr66 (R.stretchesHessian lapack τ m Co)
  fun i j k l => (piolaElasticity (R.arr33 F) (dilStress t (R.divBy I3) dWdC C)
    (dilC4Of t s (R.divBy I3) dWdC d2WdCdC C) i j k l).val

end RoundingSqrt

end Hel.Rnd
