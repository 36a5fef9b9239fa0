import Verif.Model.Invariants
import Mathlib.Analysis.SpecialFunctions.Pow.Real

/-!
# Model of `src/hyperelastic/spaces/`

The base class with the Piola transformation and the three spaces, at one point of the
trailing axes.  `F` is the array of shape `(3, 3)`.  Shapes and broadcasting are in
`Model/Shapes`, batches in `Model/Batch`.
-/

namespace Hel

noncomputable section

variable {Z μ : Type}

/-- `self.finalize`, `self.force`, `self.area`; `_space.py` lines 29-37. -/
structure SpaceCfg where
  finalize : Bool := true
  force : Option Int := none
  area : Option Int := some 0

/-- A stress result: Voigt storage if `finalize=False`, a full tensor otherwise. -/
inductive Stress where
  | voigt (s : Vec6 ℝ)
  | full (p : Full2 ℝ)

/-- An elasticity result. -/
inductive Elasticity where
  | voigt (c : Mat6 ℝ)
  | full (a : Full4 ℝ)

/-- `asvoigt(self.einsum("kI...,kJ...->IJ...", F, F))`; e.g. `_space.py` line 73. -/
def rightCauchyGreen (F : Full2 ℝ) : Vec6 ℝ := asvoigt fun I J => ∑ k, F k I * F k J

/-- `Space.piola(F, S, detF)` with `C4=None`; `_space.py` lines 52-81. -/
def piolaStress (cfg : SpaceCfg) (F : Full2 ℝ) (S : Vec6 ℝ) (detF : Option ℝ) : Stress :=
  if cfg.finalize then
    -- line 57
    let stress : Full2 ℝ := astensor S
    -- lines 60-68
    let stress : Full2 ℝ := match cfg.force with
      | none => fun i J => ∑ I, F i I * stress I J
      | some _ => stress
    -- lines 71-79
    match cfg.area with
    | none =>
      let detF := match detF with
        | none => Real.sqrt (det (rightCauchyGreen F))
        | some d => d
      .full fun i j => (∑ J, F j J * stress i J) / detF
    | some _ => .full stress
  else .voigt S

/-- `Space.piola(F, S, detF, C4, invC)`; `_space.py` lines 83-139. -/
def piolaElasticity (cfg : SpaceCfg) (F : Full2 ℝ) (S : Vec6 ℝ) (detF : Option ℝ) (C4 : Mat6 ℝ)
    (invC : Option (Vec6 ℝ)) : Elasticity :=
  if cfg.finalize then
    -- line 88
    let elasticity : Full4 ℝ := astensor4 C4
    -- lines 92-115; the second component is the local `I3`
    let (elasticity, I3) : Full4 ℝ × Option ℝ := match cfg.force with
      | none =>
        let e : Full4 ℝ := fun i J k L => ∑ I, ∑ K, F i I * F k K * elasticity I J K L
        (fun i J k L => e i J k L + cdya_ik eye S i J k L, none)
      | some _ =>
        match invC with
        | none =>
          let C := rightCauchyGreen F
          let I3 := det C
          (fun i J k L => elasticity i J k L + cdya_ik (inv C (some I3)) S i J k L, some I3)
        | some invC => (fun i J k L => elasticity i J k L + cdya_ik invC S i J k L, none)
    -- lines 118-137
    match cfg.area with
    | none =>
      let detF := match detF with
        | none => match I3 with
          | none => Real.sqrt (det (rightCauchyGreen F))
          | some I3 => Real.sqrt I3
        | some d => d
      .full fun i j k l => (∑ J, ∑ L, F j J * F l L * elasticity i J k L) / detF
    | some _ => .full elasticity
  else .voigt C4

/-- A space object: the two methods of the public API. -/
structure SpaceObj (Z σ : Type) where
  gradient : Full2 ℝ → Z → PyM σ (Stress × Z)
  hessian : Full2 ℝ → Z → PyM σ Elasticity

/-! ### Deformation -/

/-- Attributes of a `Deformation` object that its methods assign. -/
structure DefSt (μ : Type) where
  C : Option (Vec6 ℝ) := none
  S : Option (Vec6 ℝ) := none
  material : μ

namespace Deformation
open PyM

/-- `self.material.<method>` -/
def callMat {α : Type} (m : PyM μ α) : PyM (DefSt μ) α :=
  sub (·.material) (fun m s => { s with material := m }) m

/-- `Deformation.gradient`; `_deformation.py` lines 69-80. -/
def gradient (cfg : SpaceCfg) (mat : Material ℝ Z μ) (F : Full2 ℝ) (statevars : Z) :
    PyM (DefSt μ) (Stress × Z) := do
  -- line 75
  assign fun s => { s with C := some (rightCauchyGreen F) }
  -- line 76
  let (dWdC, statevars_new) ← callMat (mat.gradient (← attr (·.C)) statevars)
  -- line 78
  assign fun s => { s with S := some fun a => 2 * dWdC a }
  -- line 80
  pure (piolaStress cfg F (← attr (·.S)) none, statevars_new)

/-- `Deformation.hessian`; `_deformation.py` lines 82-91. -/
def hessian (cfg : SpaceCfg) (mat : Material ℝ Z μ) (F : Full2 ℝ) (statevars : Z) :
    PyM (DefSt μ) Elasticity := do
  -- line 88
  let _ ← gradient cfg mat F statevars
  -- line 89
  let d2WdCdC ← callMat (mat.hessian (← attr (·.C)) statevars)
  -- line 91
  pure (piolaElasticity cfg F (← attr (·.S)) none (fun a b => 4 * d2WdCdC a b) none)

/-- A `Deformation` object. -/
def obj (cfg : SpaceCfg) (mat : Material ℝ Z μ) : SpaceObj Z (DefSt μ) where
  gradient := gradient cfg mat
  hessian := hessian cfg mat

end Deformation

/-! ### Distortional -/

/-- Attributes of a `Distortional` object that its methods assign. -/
structure DistSt (μ : Type) where
  C : Option (Vec6 ℝ) := none
  I3 : Option ℝ := none
  Cu : Option (Vec6 ℝ) := none
  Sb : Option (Vec6 ℝ) := none
  SbC : Option ℝ := none
  invC : Option (Vec6 ℝ) := none
  S : Option (Vec6 ℝ) := none
  material : μ

namespace Distortional
open PyM

/-- `self.material.<method>` -/
def callMat {α : Type} (m : PyM μ α) : PyM (DistSt μ) α :=
  sub (·.material) (fun m s => { s with material := m }) m

/-- `Distortional.gradient`; `_distortional.py` lines 154-171. -/
def gradient (cfg : SpaceCfg) (mat : Material ℝ Z μ) (F : Full2 ℝ) (statevars : Z) :
    PyM (DistSt μ) (Stress × Z) := do
  -- lines 160-162
  let C := rightCauchyGreen F
  assign fun s => { s with C := some C }
  let I3 := det C
  assign fun s => { s with I3 := some I3 }
  assign fun s => { s with Cu := some fun a => I3 ^ (-1 / 3 : ℝ) * C a }
  -- line 163
  let (dWudCu, statevars_new) ← callMat (mat.gradient (← attr (·.Cu)) statevars)
  -- lines 165-167
  let Sb : Vec6 ℝ := fun a => 2 * I3 ^ (-1 / 3 : ℝ) * dWudCu a
  assign fun s => { s with Sb := some Sb }
  let SbC := ddot Sb C
  assign fun s => { s with SbC := some SbC }
  let invC := inv C (some I3)
  assign fun s => { s with invC := some invC }
  -- line 169
  assign fun s => { s with S := some fun a => Sb a - SbC / 3 * invC a }
  -- line 171
  pure (piolaStress cfg F (← attr (·.S)) (some (Real.sqrt (← attr (·.I3)))), statevars_new)

/-- `np.allclose(X, 0)`: every entry has absolute value at most `atol = 1e-8`. -/
def allclose0 (X : Mat6 ℝ) : Prop := ∀ a b, |X a b| ≤ 1 / 10 ^ 8

open Classical in
/-- `Distortional.hessian`; `_distortional.py` lines 173-197. -/
def hessian (cfg : SpaceCfg) (mat : Material ℝ Z μ) (F : Full2 ℝ) (statevars : Z) :
    PyM (DistSt μ) Elasticity := do
  -- line 179
  let _ ← gradient cfg mat F statevars
  -- line 180
  let I : Vec6 ℝ := eye
  -- lines 182-183
  let d2WdCdC ← callMat (mat.hessian (← attr (·.Cu)) statevars)
  let I3 ← attr (·.I3)
  let C4b : Mat6 ℝ := fun a b => 4 * I3 ^ (-2 / 3 : ℝ) * d2WdCdC a b
  -- lines 185-186
  let invC ← attr (·.invC)
  let C ← attr (·.C)
  let P4 : Mat6 ℝ := fun a b => cdyaSelf I a b - dya invC C a b / 3
  let I4 := cdyaSelf invC
  -- lines 188-190
  let Sb ← attr (·.Sb)
  let SbinvC := dya Sb invC
  let invCSb := transpose SbinvC
  let invCinvC := dya invC invC
  -- line 192
  let SbC ← attr (·.SbC)
  let C4 : Mat6 ℝ := fun a b =>
    2 / 3 * (SbC * I4 a b - SbinvC a b - invCSb a b + SbC / 3 * invCinvC a b)
  -- lines 194-195
  let C4 : Mat6 ℝ :=
    if ¬ allclose0 C4b then fun a b => C4 a b + ddot44 (ddot44 P4 C4b) (transpose P4) a b else C4
  -- line 197
  pure (piolaElasticity cfg F (← attr (·.S)) (some (Real.sqrt I3)) C4 (some invC))

/-- A `Distortional` object. -/
def obj (cfg : SpaceCfg) (mat : Material ℝ Z μ) : SpaceObj Z (DistSt μ) where
  gradient := gradient cfg mat
  hessian := hessian cfg mat

end Distortional

/-! ### Dilatational -/

/-- Attributes of a `Dilatational` object that its methods assign. -/
structure DilSt (μ : Type) where
  C : Option (Vec6 ℝ) := none
  I3 : Option ℝ := none
  Co : Option (Vec6 ℝ) := none
  Sb : Option (Vec6 ℝ) := none
  tr_Sb : Option ℝ := none
  invC : Option (Vec6 ℝ) := none
  S : Option (Vec6 ℝ) := none
  material : μ

namespace Dilatational
open PyM

/-- `self.material.<method>` -/
def callMat {α : Type} (m : PyM μ α) : PyM (DilSt μ) α :=
  sub (·.material) (fun m s => { s with material := m }) m

/-- `Dilatational.gradient`; `_dilatational.py` lines 17-30.  Line 22 scales `C` (not the
identity) with `I3 ** (1/3)`; the model does the same. -/
def gradient (cfg : SpaceCfg) (mat : Material ℝ Z μ) (F : Full2 ℝ) (statevars : Z) :
    PyM (DilSt μ) (Stress × Z) := do
  -- lines 20-22
  assign fun s => { s with C := some (rightCauchyGreen F) }
  let C ← attr (·.C)
  assign fun s => { s with I3 := some (det C) }
  let I3 ← attr (·.I3)
  assign fun s => { s with Co := some fun a => I3 ^ (1 / 3 : ℝ) * C a }
  -- line 23
  let (dWodCo, statevars_new) ← callMat (mat.gradient (← attr (·.Co)) statevars)
  -- lines 25-27
  assign fun s => { s with Sb := some fun a => 2 * I3 ^ (1 / 3 : ℝ) * dWodCo a }
  let Sb ← attr (·.Sb)
  assign fun s => { s with tr_Sb := some (trace Sb) }
  assign fun s => { s with invC := some (inv C (some I3)) }
  -- line 29
  let tr_Sb ← attr (·.tr_Sb)
  let invC ← attr (·.invC)
  assign fun s => { s with S := some fun a => tr_Sb / 3 * invC a }
  -- line 30
  pure (piolaStress cfg F (← attr (·.S)) (some (Real.sqrt I3)), statevars_new)

/-- `Dilatational.hessian`; `_dilatational.py` lines 32-48. -/
def hessian (cfg : SpaceCfg) (mat : Material ℝ Z μ) (F : Full2 ℝ) (statevars : Z) :
    PyM (DilSt μ) Elasticity := do
  -- line 35
  let _ ← gradient cfg mat F statevars
  -- lines 37-38
  let d2WodCodCo ← callMat (mat.hessian (← attr (·.Co)) statevars)
  let I3 ← attr (·.I3)
  let C4b : Mat6 ℝ := fun a b => 4 * I3 ^ (2 / 3 : ℝ) * d2WodCodCo a b
  -- lines 40-42
  let I : Vec6 ℝ := eye
  let tr_C4b := ddot (ddot24 I C4b) I
  let invC ← attr (·.invC)
  let I4 := cdyaSelf invC
  -- lines 44-46
  let tr_Sb ← attr (·.tr_Sb)
  let C4 : Mat6 ℝ := fun a b =>
    (2 * tr_Sb + tr_C4b) * dya invC invC a b / 9 - 2 / 3 * tr_Sb * I4 a b
  -- line 48
  pure (piolaElasticity cfg F (← attr (·.S)) (some (Real.sqrt I3)) C4 (some invC))

/-- A `Dilatational` object. -/
def obj (cfg : SpaceCfg) (mat : Material ℝ Z μ) : SpaceObj Z (DilSt μ) where
  gradient := gradient cfg mat
  hessian := hessian cfg mat

end Dilatational

end

end Hel
