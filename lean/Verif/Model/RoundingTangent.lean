import Verif.Model.RoundingStretches

/-!
# Model of the tangent of the stretch-based framework in floating-point arithmetic

`Ogden.hessian`, `Stretches.hessian` and the deformation space, at one point of the trailing axes, with the operations
in the order of the code.  `numpy.linalg.eigh` is an arbitrary function; the tolerance `atol` of `np.isclose` is a
parameter `τ` (the float nearest to `1e-8`).
-/

namespace Hel.Rnd

section
variable {K : Type} [Arith K]

/-- The loop of `Stretches.hessian` for one component; `_stretches.py` lines 164, 168-181.  `d2` is `d2WdλC2`, `f`
the factor of lines 176-177, which depends on `m`. -/
def stretchesHess (d2 f : Vec6 K) (v : Full2 K) : Mat6 K := fun i j =>
  [0, 1, 2, 3, 4, 5].foldl (init := lit 0) fun acc m =>
    -- line 168
    let al := GenInv.ia m
    let be := GenInv.ib m
    -- lines 169-170
    let M4 := dya (eigenbases v al) (eigenbases v be)
    let acc := acc + d2 m * M4 i j
    -- lines 172, 179 (`transpose(M4)` is the view with the axes exchanged)
    if be ≠ al then
      acc + (d2 m * M4 j i + f m * lit 2 * cdya (eigenbases v al) (eigenbases v be) i j)
    else acc

/-- `S = 2 * dWdC`, `C4 = 4 * d2WdCdC` and `A`; `_deformation.py` lines 78-91. -/
def defElasticity (F : Full2 K) (dWdC : Vec6 K) (d2WdCdC : Mat6 K) : Full4 K :=
  piolaElasticity F (fun a => lit 2 * dWdC a) fun a b => lit 4 * d2WdCdC a b

end

namespace RoundingSqrt

variable (R : RoundingSqrt)

/-- `Ogden.hessian` at one stretch; `_ogden.py` lines 58-63. -/
def ogdenHessian (m : Ogden) (stretch : ℝ) : ℝ :=
  (m.mu.zip m.alpha).foldl (init := 0) fun d2W p =>
    R.add d2W (R.mul (R.mul (R.div (R.mul 2 p.1) p.2) (R.sub p.2 1)) (R.pow stretch (R.sub p.2 2)))

/-- `self.dWdλC`; `_stretches.py` line 131. -/
def rateC (m : Ogden) (l : ℝ) : ℝ := R.div (R.ogdenGradient m l) (R.mul 2 l)

/-- `d2WdλC2`; `_stretches.py` lines 146-152, 161-162, for the list `[*d2Wdλαdλα, None, None, None]`. -/
def d2WdlC2 (m : Ogden) (l : Fin 3 → ℝ) : Vec6 ℝ := fun k =>
  let a := GenInv.ia k
  let b := GenInv.ib k
  let d2Wdldl : ℝ := if a = b then R.ogdenHessian m (l a) else 0
  let d := R.div d2Wdldl (R.mul (R.mul 4 (l a)) (l b))
  if a = b then R.sub d (R.div (R.rateC m (l a)) (R.mul 2 (R.sq (l a)))) else d

/-- `f`; `_stretches.py` lines 173-177. -/
noncomputable def crossFactor (τ : ℝ) (m : Ogden) (l : Fin 3 → ℝ) : Vec6 ℝ := fun k =>
  let a := GenInv.ia k
  let b := GenInv.ib k
  let v := R.sub (R.sq (l a)) (R.sq (l b))
  open Classical in
  if |v| ≤ τ then R.sub (R.d2WdlC2 m l (![0, 1, 2] b)) (R.d2WdlC2 m l k)
  else R.div (R.sub (R.rateC m (l a)) (R.rateC m (l b))) v

/-- `Stretches(Ogden).hessian`; `_stretches.py` lines 143-181. -/
noncomputable def stretchesHessian (lapack : Eigh) (τ : ℝ) (m : Ogden) (C : Vec6 ℝ) : Mat6 ℝ :=
  -- `_voigt.py` lines 952-956
  let r := lapack fun i j => astensor C j i
  let l : Fin 3 → ℝ := fun a => R.sqrt (r.1 a)
  fun i j => (stretchesHess (R.arr6 (R.d2WdlC2 m l)) (R.arr6 (R.crossFactor τ m l)) (R.arr33 r.2) i j).val

/-- `Deformation(Stretches(Ogden)).hessian`; `_deformation.py` lines 82-91. -/
noncomputable def ogdenDeformationHessian (lapack : Eigh) (τ : ℝ) (m : Ogden) (F : Full2 ℝ) : Full4 ℝ :=
  let C : Vec6 ℝ := fun a => (cauchyGreen (R.arr33 F) a).val
  fun i j k l => (defElasticity (R.arr33 F) (R.arr6 (R.stretchesGradient lapack m C))
    (fun a b => (⟨R.stretchesHessian lapack τ m C a b⟩ : Fl R.toRounding)) i j k l).val

end RoundingSqrt

end Hel.Rnd
