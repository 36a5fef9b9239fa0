import Verif.Model.Space
import Verif.Model.Stretches

/-!
# Model of the code on arrays with trailing axes (batches)

`ι` is the index set of the trailing axes (any shape: all the arrays of one evaluation have the
same trailing shape, see `Model/Shapes` for the exceptions), `Arr ι = ι → ℝ` one number at every
point with the elementwise arithmetic of numpy.  `math/_voigt.py`, `ThirdOrderDeformation` and
`frameworks.Invariants` are modelled over any ring with a division, so their batch version is
`Model/Voigt`, `Model/InvModels`, `Model/Invariants` at `K = Arr ι`.  The code with square roots,
powers, masks and `np.allclose` is repeated here on arrays.
-/

namespace Hel

noncomputable section

variable {ι Z μ : Type}

/-- An array over the trailing axes; arithmetic is elementwise. -/
abbrev Arr (ι : Type) := ι → ℝ

namespace Arr
/-- `np.sqrt` -/
def sqrt (x : Arr ι) : Arr ι := fun i => Real.sqrt (x i)
/-- `x ** p` with a Python float `p`. -/
def pow (x : Arr ι) (p : ℝ) : Arr ι := fun i => x i ^ p
/-- A number broadcast over the trailing axes. -/
def const (x : ℝ) : Arr ι := fun _ => x
end Arr

/-! ### spaces -/

namespace Batch

/-- A stress result on a batch. -/
inductive Stress (ι : Type) where
  | voigt (s : Vec6 (Arr ι))
  | full (p : Full2 (Arr ι))

/-- An elasticity result on a batch. -/
inductive Elasticity (ι : Type) where
  | voigt (c : Mat6 (Arr ι))
  | full (a : Full4 (Arr ι))

/-- `asvoigt(self.einsum("kI...,kJ...->IJ...", F, F))`; e.g. `_space.py` line 73. -/
def rightCauchyGreen (F : Full2 (Arr ι)) : Vec6 (Arr ι) := asvoigt fun I J => ∑ k, F k I * F k J

/-- `Space.piola(F, S, detF)` with `C4=None`; `_space.py` lines 52-81. -/
def piolaStress (cfg : SpaceCfg) (F : Full2 (Arr ι)) (S : Vec6 (Arr ι)) (detF : Option (Arr ι)) : Stress ι :=
  if cfg.finalize then
    let stress : Full2 (Arr ι) := astensor S
    let stress : Full2 (Arr ι) := match cfg.force with
      | none => fun i J => ∑ I, F i I * stress I J
      | some _ => stress
    match cfg.area with
    | none =>
      let detF := match detF with
        | none => Arr.sqrt (det (rightCauchyGreen F))
        | some d => d
      .full fun i j => (∑ J, F j J * stress i J) / detF
    | some _ => .full stress
  else .voigt S

/-- `Space.piola(F, S, detF, C4, invC)`; `_space.py` lines 83-139. -/
def piolaElasticity (cfg : SpaceCfg) (F : Full2 (Arr ι)) (S : Vec6 (Arr ι)) (detF : Option (Arr ι))
    (C4 : Mat6 (Arr ι)) (invC : Option (Vec6 (Arr ι))) : Elasticity ι :=
  if cfg.finalize then
    let elasticity : Full4 (Arr ι) := astensor4 C4
    let (elasticity, I3) : Full4 (Arr ι) × Option (Arr ι) := match cfg.force with
      | none =>
        let e : Full4 (Arr ι) := fun i J k L => ∑ I, ∑ K, F i I * F k K * elasticity I J K L
        (fun i J k L => e i J k L + cdya_ik eye S i J k L, none)
      | some _ =>
        match invC with
        | none =>
          let C := rightCauchyGreen F
          let I3 := det C
          (fun i J k L => elasticity i J k L + cdya_ik (inv C (some I3)) S i J k L, some I3)
        | some invC => (fun i J k L => elasticity i J k L + cdya_ik invC S i J k L, none)
    match cfg.area with
    | none =>
      let detF := match detF with
        | none => match I3 with
          | none => Arr.sqrt (det (rightCauchyGreen F))
          | some I3 => Arr.sqrt I3
        | some d => d
      .full fun i j k l => (∑ J, ∑ L, F j J * F l L * elasticity i J k L) / detF
    | some _ => .full elasticity
  else .voigt C4

/-- A space object evaluated on batches. -/
structure SpaceObj (ι Z σ : Type) where
  gradient : Full2 (Arr ι) → Z → PyM σ (Stress ι × Z)
  hessian : Full2 (Arr ι) → Z → PyM σ (Elasticity ι)

/-- Attributes of a `Deformation` object. -/
structure DefSt (ι μ : Type) where
  C : Option (Vec6 (Arr ι)) := none
  S : Option (Vec6 (Arr ι)) := none
  material : μ

namespace Deformation
open PyM

/-- `self.material.<method>` -/
def callMat {α : Type} (m : PyM μ α) : PyM (DefSt ι μ) α :=
  sub (·.material) (fun m s => { s with material := m }) m

/-- `Deformation.gradient`; `_deformation.py` lines 69-80. -/
def gradient (cfg : SpaceCfg) (mat : Material (Arr ι) Z μ) (F : Full2 (Arr ι)) (statevars : Z) :
    PyM (DefSt ι μ) (Stress ι × Z) := do
  assign fun s => { s with C := some (rightCauchyGreen F) }
  let (dWdC, statevars_new) ← callMat (mat.gradient (← attr (·.C)) statevars)
  assign fun s => { s with S := some fun a => 2 * dWdC a }
  pure (piolaStress cfg F (← attr (·.S)) none, statevars_new)

/-- `Deformation.hessian`; `_deformation.py` lines 82-91. -/
def hessian (cfg : SpaceCfg) (mat : Material (Arr ι) Z μ) (F : Full2 (Arr ι)) (statevars : Z) :
    PyM (DefSt ι μ) (Elasticity ι) := do
  let _ ← gradient cfg mat F statevars
  let d2WdCdC ← callMat (mat.hessian (← attr (·.C)) statevars)
  pure (piolaElasticity cfg F (← attr (·.S)) none (fun a b => 4 * d2WdCdC a b) none)

/-- A `Deformation` object. -/
def obj (cfg : SpaceCfg) (mat : Material (Arr ι) Z μ) : SpaceObj ι Z (DefSt ι μ) where
  gradient := gradient cfg mat
  hessian := hessian cfg mat

end Deformation

/-- Attributes of a `Distortional` object. -/
structure DistSt (ι μ : Type) where
  C : Option (Vec6 (Arr ι)) := none
  I3 : Option (Arr ι) := none
  Cu : Option (Vec6 (Arr ι)) := none
  Sb : Option (Vec6 (Arr ι)) := none
  SbC : Option (Arr ι) := none
  invC : Option (Vec6 (Arr ι)) := none
  S : Option (Vec6 (Arr ι)) := none
  material : μ

namespace Distortional
open PyM

/-- `self.material.<method>` -/
def callMat {α : Type} (m : PyM μ α) : PyM (DistSt ι μ) α :=
  sub (·.material) (fun m s => { s with material := m }) m

/-- `Distortional.gradient`; `_distortional.py` lines 154-171. -/
def gradient (cfg : SpaceCfg) (mat : Material (Arr ι) Z μ) (F : Full2 (Arr ι)) (statevars : Z) :
    PyM (DistSt ι μ) (Stress ι × Z) := do
  let C := rightCauchyGreen F
  assign fun s => { s with C := some C }
  let I3 := det C
  assign fun s => { s with I3 := some I3 }
  assign fun s => { s with Cu := some fun a => I3.pow (-1 / 3 : ℝ) * C a }
  let (dWudCu, statevars_new) ← callMat (mat.gradient (← attr (·.Cu)) statevars)
  let Sb : Vec6 (Arr ι) := fun a => 2 * I3.pow (-1 / 3 : ℝ) * dWudCu a
  assign fun s => { s with Sb := some Sb }
  let SbC := ddot Sb C
  assign fun s => { s with SbC := some SbC }
  let invC := inv C (some I3)
  assign fun s => { s with invC := some invC }
  assign fun s => { s with S := some fun a => Sb a - SbC / 3 * invC a }
  pure (piolaStress cfg F (← attr (·.S)) (some (Arr.sqrt (← attr (·.I3)))), statevars_new)

/-- `np.allclose(X, 0)` on an array with trailing axes: one answer for the whole batch. -/
def allclose0 (X : Mat6 (Arr ι)) : Prop := ∀ a b i, |X a b i| ≤ 1 / 10 ^ 8

open Classical in
/-- `Distortional.hessian`; `_distortional.py` lines 173-197. -/
def hessian (cfg : SpaceCfg) (mat : Material (Arr ι) Z μ) (F : Full2 (Arr ι)) (statevars : Z) :
    PyM (DistSt ι μ) (Elasticity ι) := do
  let _ ← gradient cfg mat F statevars
  let I : Vec6 (Arr ι) := eye
  let d2WdCdC ← callMat (mat.hessian (← attr (·.Cu)) statevars)
  let I3 ← attr (·.I3)
  let C4b : Mat6 (Arr ι) := fun a b => 4 * I3.pow (-2 / 3 : ℝ) * d2WdCdC a b
  let invC ← attr (·.invC)
  let C ← attr (·.C)
  let P4 : Mat6 (Arr ι) := fun a b => cdyaSelf I a b - dya invC C a b / 3
  let I4 := cdyaSelf invC
  let Sb ← attr (·.Sb)
  let SbinvC := dya Sb invC
  let invCSb := transpose SbinvC
  let invCinvC := dya invC invC
  let SbC ← attr (·.SbC)
  let C4 : Mat6 (Arr ι) := fun a b =>
    2 / 3 * (SbC * I4 a b - SbinvC a b - invCSb a b + SbC / 3 * invCinvC a b)
  -- lines 194-195: one decision for the whole batch
  let C4 : Mat6 (Arr ι) :=
    if ¬ allclose0 C4b then fun a b => C4 a b + ddot44 (ddot44 P4 C4b) (transpose P4) a b else C4
  pure (piolaElasticity cfg F (← attr (·.S)) (some (Arr.sqrt I3)) C4 (some invC))

/-- A `Distortional` object. -/
def obj (cfg : SpaceCfg) (mat : Material (Arr ι) Z μ) : SpaceObj ι Z (DistSt ι μ) where
  gradient := gradient cfg mat
  hessian := hessian cfg mat

end Distortional

/-- Attributes of a `Dilatational` object. -/
structure DilSt (ι μ : Type) where
  C : Option (Vec6 (Arr ι)) := none
  I3 : Option (Arr ι) := none
  Co : Option (Vec6 (Arr ι)) := none
  Sb : Option (Vec6 (Arr ι)) := none
  tr_Sb : Option (Arr ι) := none
  invC : Option (Vec6 (Arr ι)) := none
  S : Option (Vec6 (Arr ι)) := none
  material : μ

namespace Dilatational
open PyM

/-- `self.material.<method>` -/
def callMat {α : Type} (m : PyM μ α) : PyM (DilSt ι μ) α :=
  sub (·.material) (fun m s => { s with material := m }) m

/-- `Dilatational.gradient`; `_dilatational.py` lines 17-30. -/
def gradient (cfg : SpaceCfg) (mat : Material (Arr ι) Z μ) (F : Full2 (Arr ι)) (statevars : Z) :
    PyM (DilSt ι μ) (Stress ι × Z) := do
  assign fun s => { s with C := some (rightCauchyGreen F) }
  let C ← attr (·.C)
  assign fun s => { s with I3 := some (det C) }
  let I3 ← attr (·.I3)
  assign fun s => { s with Co := some fun a => I3.pow (1 / 3 : ℝ) * C a }
  let (dWodCo, statevars_new) ← callMat (mat.gradient (← attr (·.Co)) statevars)
  assign fun s => { s with Sb := some fun a => 2 * I3.pow (1 / 3 : ℝ) * dWodCo a }
  let Sb ← attr (·.Sb)
  assign fun s => { s with tr_Sb := some (trace Sb) }
  assign fun s => { s with invC := some (inv C (some I3)) }
  let tr_Sb ← attr (·.tr_Sb)
  let invC ← attr (·.invC)
  assign fun s => { s with S := some fun a => tr_Sb / 3 * invC a }
  pure (piolaStress cfg F (← attr (·.S)) (some (Arr.sqrt I3)), statevars_new)

/-- `Dilatational.hessian`; `_dilatational.py` lines 32-48. -/
def hessian (cfg : SpaceCfg) (mat : Material (Arr ι) Z μ) (F : Full2 (Arr ι)) (statevars : Z) :
    PyM (DilSt ι μ) (Elasticity ι) := do
  let _ ← gradient cfg mat F statevars
  let d2WodCodCo ← callMat (mat.hessian (← attr (·.Co)) statevars)
  let I3 ← attr (·.I3)
  let C4b : Mat6 (Arr ι) := fun a b => 4 * I3.pow (2 / 3 : ℝ) * d2WodCodCo a b
  let I : Vec6 (Arr ι) := eye
  let tr_C4b := ddot (ddot24 I C4b) I
  let invC ← attr (·.invC)
  let I4 := cdyaSelf invC
  let tr_Sb ← attr (·.tr_Sb)
  let C4 : Mat6 (Arr ι) := fun a b =>
    (2 * tr_Sb + tr_C4b) * dya invC invC a b / 9 - 2 / 3 * tr_Sb * I4 a b
  pure (piolaElasticity cfg F (← attr (·.S)) (some (Arr.sqrt I3)) C4 (some invC))

/-- A `Dilatational` object. -/
def obj (cfg : SpaceCfg) (mat : Material (Arr ι) Z μ) : SpaceObj ι Z (DilSt ι μ) where
  gradient := gradient cfg mat
  hessian := hessian cfg mat

end Dilatational

/-! ### stretch-based models and framework -/

/-- What a stretch-based model's `hessian` returns on a batch: an ndarray or a list whose items
may be `None`. -/
inductive StrHess (ι : Type) where
  | array (h : Vec6 (Arr ι))
  | list (h : Fin 6 → Option (Arr ι))

/-- A stretch-based material object evaluated on batches. -/
structure StrMat (ι Z μ : Type) where
  gradient : Vec3 (Arr ι) → Z → PyM μ (Vec3 (Arr ι) × Z)
  hessian : Vec3 (Arr ι) → Z → PyM μ (StrHess ι)

/-- `Ogden.gradient`; `_ogden.py` lines 43-52. -/
def ogdenGradient (m : Ogden) (stretches : Vec3 (Arr ι)) (statevars : Z) : Res (Vec3 (Arr ι) × Z) := do
  let dW ← (m.mu.zip m.alpha).foldlM (init := (fun _ => 0 : Vec3 (Arr ι))) fun acc p =>
    if p.2 = 0 then .error .zeroDivision
    else .ok fun a => acc a + Arr.const (2 * p.1 / p.2) * (stretches a).pow (p.2 - 1)
  .ok (dW, statevars)

/-- `Ogden.hessian`; `_ogden.py` lines 54-63. -/
def ogdenHessian (m : Ogden) (stretches : Vec3 (Arr ι)) (_statevars : Z) : Res (StrHess ι) := do
  let d2W ← (m.mu.zip m.alpha).foldlM (init := (fun _ => 0 : Vec3 (Arr ι))) fun acc p =>
    if p.2 = 0 then .error .zeroDivision
    else .ok fun a => acc a + Arr.const (2 * p.1 / p.2 * (p.2 - 1)) * (stretches a).pow (p.2 - 2)
  .ok (.list ![some (d2W 0), some (d2W 1), some (d2W 2), none, none, none])

/-- `Ogden` as a material object. -/
def ogdenMat (m : Ogden) : StrMat ι Z Unit where
  gradient l z := PyM.lift (ogdenGradient m l z)
  hessian l z := PyM.lift (ogdenHessian m l z)

/-- `eigh(A, fun=np.sqrt)`; `math/_voigt.py` lines 950-956.  `numpy.linalg.eigh` works on every
matrix of a stack separately. -/
def eighSqrt (lapack : Eigh) (A : Vec6 (Arr ι)) : Vec3 (Arr ι) × (Fin 3 → Vec6 (Arr ι)) :=
  let wA : Vec3 (Arr ι) := fun a p => (lapack fun i j => astensor A j i p).1 a
  let vA : Full2 (Arr ι) := fun i a p => (lapack fun i j => astensor A j i p).2 i a
  let MA : Fin 3 → Fin 3 → Fin 3 → Arr ι := fun i j a => vA i a * vA j a
  (fun a => (wA a).sqrt, fun a => asvoigt fun j i => MA i j a)

/-- Attributes of a `Stretches` object. -/
structure StrSt (ι μ : Type) where
  l : Option (Vec3 (Arr ι)) := none
  M : Option (Fin 3 → Vec6 (Arr ι)) := none
  dWdl : Option (Vec3 (Arr ι)) := none
  dWdlC : Option (Vec3 (Arr ι)) := none
  material : μ

namespace Stretches
open PyM

/-- `self.material.<method>` -/
def callMat {α : Type} (m : PyM μ α) : PyM (StrSt ι μ) α :=
  sub (·.material) (fun m s => { s with material := m }) m

/-- `Stretches.gradient`; `_stretches.py` lines 121-135. -/
def gradient (lapack : Eigh) (mat : StrMat ι Z μ) (C : Vec6 (Arr ι)) (statevars : Z) :
    PyM (StrSt ι μ) (Vec6 (Arr ι) × Z) := do
  let r := eighSqrt lapack C
  assign fun s => { s with l := some r.1, M := some r.2 }
  let l ← attr (·.l)
  let (dWdl, statevars_new) ← callMat (mat.gradient l statevars)
  assign fun s => { s with dWdl := some dWdl }
  assign fun s => { s with dWdlC := some fun a => dWdl a / (2 * l a) }
  let dWdlC ← attr (·.dWdlC)
  let M ← attr (·.M)
  let dWdC : Vec6 (Arr ι) := fun i => ∑ a, dWdlC a * M a i
  pure (dWdC, statevars_new)

open Classical in
/-- `mask = np.isclose(v, 0); f = ...; f[~mask] = ...`; lines 173-177: a choice at every point. -/
def divided (v close apart : Arr ι) : Arr ι := fun i =>
  if Hel.Stretches.isclose0 (v i) then close i else apart i

/-- The body of the loop in lines 168-179 for one `m`. -/
def term (l dWdlC : Vec3 (Arr ι)) (M : Fin 3 → Vec6 (Arr ι)) (d2 : Vec6 (Arr ι)) (m : Fin 6) : Mat6 (Arr ι) :=
  let al := GenInv.ia m
  let be := GenInv.ib m
  let M4 := dya (M al) (M be)
  let t1 : Mat6 (Arr ι) := fun i j => d2 m * M4 i j
  if be ≠ al then
    let v := l al ^ 2 - l be ^ 2
    let f := divided v (d2 (![0, 1, 2] be) - d2 m) ((dWdlC al - dWdlC be) / v)
    fun i j => t1 i j + (d2 m * transpose M4 i j + f * 2 * cdya (M al) (M be) i j)
  else t1

/-- `Stretches.hessian`; lines 137-181. -/
def hessian (lapack : Eigh) (mat : StrMat ι Z μ) (C : Vec6 (Arr ι)) (statevars : Z) :
    PyM (StrSt ι μ) (Mat6 (Arr ι)) := do
  let (_, statevars) ← gradient lapack mat C statevars
  let h ← callMat (mat.hessian (← attr (·.l)) statevars)
  let d2Wdldl : Vec6 (Arr ι) := match h with
    | .array x => x
    | .list x => fun m => (x m).getD 0
  let l ← attr (·.l)
  let M ← attr (·.M)
  let dWdlC ← attr (·.dWdlC)
  let d2 : Vec6 (Arr ι) := fun m => d2Wdldl m / (4 * l (GenInv.ia m) * l (GenInv.ib m))
  let d2 : Vec6 (Arr ι) := ![d2 0 - dWdlC 0 / (2 * l 0 ^ 2), d2 1 - dWdlC 1 / (2 * l 1 ^ 2),
    d2 2 - dWdlC 2 / (2 * l 2 ^ 2), d2 3, d2 4, d2 5]
  pure ((List.finRange 6).foldl (fun acc m => fun i j => acc i j + term l dWdlC M d2 m i j)
    fun _ _ => 0)

/-- A `Stretches` object as a material for the spaces. -/
def material (lapack : Eigh) (mat : StrMat ι Z μ) : Material (Arr ι) Z (StrSt ι μ) where
  gradient := gradient lapack mat
  hessian := hessian lapack mat

end Stretches

end Batch

end

end Hel
