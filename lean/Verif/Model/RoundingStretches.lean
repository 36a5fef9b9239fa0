import Verif.Model.RoundingLab
import Verif.Model.Stretches

/-!
# Model of the stretch-based framework in floating-point arithmetic

`eigh`, `Ogden.gradient`, `Stretches.gradient` and the deformation space, at one point of the trailing axes, with the
operations in the order of the code.  `numpy.linalg.eigh` is an arbitrary function.
-/

namespace Hel.Rnd

section
variable {K : Type} [Arith K]

/-- The eigenbases `asvoigt(M) for M in MA.T` with `MA = np.einsum("...ia,...ja->...ija", vA, vA)`; `_voigt.py`
lines 953, 956. -/
def eigenbases (v : Full2 K) (a : Fin 3) : Vec6 K := asvoigt fun j i => einsum [[v i a, v j a]]

/-- `np.sum(np.expand_dims(self.dWdλC, axis=1) * self.M, axis=0)`; `_stretches.py` line 133. -/
def stretchesSum (dWdlC : Fin 3 → K) (v : Full2 K) : Vec6 K := fun i =>
  einsum [[dWdlC 0 * eigenbases v 0 i], [dWdlC 1 * eigenbases v 1 i], [dWdlC 2 * eigenbases v 2 i]]

/-- `S = 2 * dWdC` and `P`; `_deformation.py` lines 78-79. -/
def defStress (F : Full2 K) (dWdC : Vec6 K) : Full2 K := piolaStress F fun a => lit 2 * dWdC a

/-- `S` in `DistortionalSpace.gradient` for a given derivative `dW` of the energy; `_distortional.py` lines 164-169.
`t` is `I3 ** (-1 / 3)`, `divD` the division by `I3`. -/
def distStress (t : K) (divD : K → K) (dW C : Vec6 K) : Vec6 K :=
  let Sb : Vec6 K := fun a => lit 2 * t * dW a
  let SbC := ddot Sb C
  let invC := inv divD C
  fun a => Sb a - divNat SbC 3 * invC a

/-- `S` in `DilatationalSpace.gradient` for a given derivative `dW` of the energy; `_dilatational.py` lines 24-29.
`t` is `I3 ** (1 / 3)`, `divD` the division by `I3`. -/
def dilStress (t : K) (divD : K → K) (dW C : Vec6 K) : Vec6 K :=
  let Sb : Vec6 K := fun a => lit 2 * t * dW a
  let trSb := trace Sb
  let invC := inv divD C
  fun a => divNat trSb 3 * invC a

end

namespace RoundingSqrt

variable (R : RoundingSqrt)

/-- `Ogden.gradient` at one stretch; `_ogden.py` lines 47-52. -/
def ogdenGradient (m : Ogden) (stretch : ℝ) : ℝ :=
  (m.mu.zip m.alpha).foldl (init := 0) fun dW p =>
    R.add dW (R.mul (R.div (R.mul 2 p.1) p.2) (R.pow stretch (R.sub p.2 1)))

/-- `Stretches(Ogden).gradient`; `_stretches.py` lines 121-135. -/
noncomputable def stretchesGradient (lapack : Eigh) (m : Ogden) (C : Vec6 ℝ) : Vec6 ℝ :=
  -- `_voigt.py` lines 952-956
  let r := lapack fun i j => astensor C j i
  let l : Fin 3 → ℝ := fun a => R.sqrt (r.1 a)
  let dWdl : Fin 3 → ℝ := fun a => R.ogdenGradient m (l a)
  let dWdlC : Fin 3 → ℝ := fun a => R.div (dWdl a) (R.mul 2 (l a))
  fun i => (stretchesSum (fun a => (⟨dWdlC a⟩ : Fl R.toRounding)) (R.arr33 r.2) i).val

/-- `Deformation(Stretches(Ogden)).gradient`; `_deformation.py` lines 69-80. -/
noncomputable def ogdenDeformation (lapack : Eigh) (m : Ogden) (F : Full2 ℝ) : Full2 ℝ :=
  let C : Vec6 ℝ := fun a => (cauchyGreen (R.arr33 F) a).val
  let dWdC := R.stretchesGradient lapack m C
  fun i j => (defStress (R.arr33 F) (R.arr6 dWdC) i j).val

/-- `Distortional(Stretches(Ogden)).gradient`; `_distortional.py` lines 154-171. -/
noncomputable def ogdenDistortional (lapack : Eigh) (m : Ogden) (F : Full2 ℝ) : Full2 ℝ :=
  let C : Vec6 (Fl R.toRounding) := cauchyGreen (R.arr33 F)
  let I3 := Rnd.det C
  let t : Fl R.toRounding := ⟨R.pow I3.val (R.div (-1) 3)⟩
  let Cu : Vec6 ℝ := fun a => (t * C a).val
  let dWdC := R.stretchesGradient lapack m Cu
  fun i j => (piolaStress (R.arr33 F) (distStress t (R.divBy I3) (R.arr6 dWdC) C) i j).val

/-- `Dilatational(Stretches(Ogden)).gradient`; `_dilatational.py` lines 17-30. -/
noncomputable def ogdenDilatational (lapack : Eigh) (m : Ogden) (F : Full2 ℝ) : Full2 ℝ :=
  let C : Vec6 (Fl R.toRounding) := cauchyGreen (R.arr33 F)
  let I3 := Rnd.det C
  let t : Fl R.toRounding := ⟨R.pow I3.val (R.div 1 3)⟩
  let Co : Vec6 ℝ := fun a => (t * C a).val
  let dWdC := R.stretchesGradient lapack m Co
  fun i j => (piolaStress (R.arr33 F) (dilStress t (R.divBy I3) (R.arr6 dWdC) C) i j).val

end RoundingSqrt

end Hel.Rnd
