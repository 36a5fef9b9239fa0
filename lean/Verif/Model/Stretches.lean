import Verif.Model.StretchModels
import Verif.Model.Invariants

/-!
# Model of `src/hyperelastic/frameworks/_stretches.py` (class `Stretches`) and of
`frameworks/_generalized.py` (class `GeneralizedInvariants`)

One point of the trailing axes.  `numpy.linalg.eigh` is an arbitrary function `lapack`
from a 3x3 array to eigenvalues and a matrix whose columns are the eigenvectors; what is
assumed about it is stated in the theorems.
-/

namespace Hel

noncomputable section

variable {Z μ : Type}

/-- `numpy.linalg.eigh` on a 3x3 array: eigenvalues `w` and columns `v[:, a]`. -/
abbrev Eigh := Full2 ℝ → Vec3 ℝ × Full2 ℝ

/-- `eigh(A, fun=np.sqrt)`; `math/_voigt.py` lines 950-956: the roots of the eigenvalues and
the eigenbases `M_a = v_a ⊗ v_a` in Voigt storage.  (`astensor(A).T` only moves the trailing
axes to the front and swaps the two tensor axes of a symmetric array.) -/
def eighSqrt (lapack : Eigh) (A : Vec6 ℝ) : Vec3 ℝ × (Fin 3 → Vec6 ℝ) :=
  -- line 952
  let r := lapack fun i j => astensor A j i
  -- line 953: MA[i, j, a] = vA[i, a] * vA[j, a]
  let MA : Fin 3 → Fin 3 → Fin 3 → ℝ := fun i j a => r.2 i a * r.2 j a
  -- lines 954-955
  let w : Vec3 ℝ := fun a => Real.sqrt (r.1 a)
  -- line 956: MA.T has axes a, j, i
  (w, fun a => asvoigt fun j i => MA i j a)

/-- Attributes of a `Stretches` object that its methods assign. -/
structure StrSt (μ : Type) where
  l : Option (Vec3 ℝ) := none
  M : Option (Fin 3 → Vec6 ℝ) := none
  dWdl : Option (Vec3 ℝ) := none
  dWdlC : Option (Vec3 ℝ) := none
  material : μ

namespace Stretches
open PyM

/-- `self.material.<method>` -/
def callMat {α : Type} (m : PyM μ α) : PyM (StrSt μ) α :=
  sub (·.material) (fun m s => { s with material := m }) m

/-- `Stretches.gradient`; `_stretches.py` lines 121-135. -/
def gradient (lapack : Eigh) (mat : StrMat Z μ) (C : Vec6 ℝ) (statevars : Z) :
    PyM (StrSt μ) (Vec6 ℝ × Z) := do
  -- line 126
  let r := eighSqrt lapack C
  assign fun s => { s with l := some r.1, M := some r.2 }
  let l ← attr (·.l)
  -- lines 128-129
  let (dWdl, statevars_new) ← callMat (mat.gradient l statevars)
  assign fun s => { s with dWdl := some dWdl }
  -- line 131
  assign fun s => { s with dWdlC := some fun a => dWdl a / (2 * l a) }
  -- line 133
  let dWdlC ← attr (·.dWdlC)
  let M ← attr (·.M)
  let dWdC : Vec6 ℝ := fun i => ∑ a, dWdlC a * M a i
  -- line 135
  pure (dWdC, statevars_new)

/-- `np.isclose(v, 0)`: `|v| ≤ atol = 1e-8`. -/
def isclose0 (v : ℝ) : Prop := |v| ≤ 1 / 10 ^ 8

open Classical in
/-- The body of the loop in lines 168-179 for one `m`. -/
def term (l dWdlC : Vec3 ℝ) (M : Fin 3 → Vec6 ℝ) (d2 : Vec6 ℝ) (m : Fin 6) : Mat6 ℝ :=
  let al := GenInv.ia m
  let be := GenInv.ib m
  -- lines 169-170
  let M4 := dya (M al) (M be)
  let t1 : Mat6 ℝ := fun i j => d2 m * M4 i j
  if be ≠ al then
    -- lines 173-177
    let v := l al ^ 2 - l be ^ 2
    let f := if isclose0 v then d2 (![0, 1, 2] be) - d2 m else (dWdlC al - dWdlC be) / v
    -- line 179
    fun i j => t1 i j + (d2 m * transpose M4 i j + f * 2 * cdya (M al) (M be) i j)
  else t1

/-- `Stretches.hessian`; lines 137-181. -/
def hessian (lapack : Eigh) (mat : StrMat Z μ) (C : Vec6 ℝ) (statevars : Z) :
    PyM (StrSt μ) (Mat6 ℝ) := do
  -- line 143 (the old state variables are overwritten)
  let (_, statevars) ← gradient lapack mat C statevars
  -- line 144
  let h ← callMat (mat.hessian (← attr (·.l)) statevars)
  -- lines 146-152
  let d2Wdldl : Vec6 ℝ := match h with
    | .array x => x
    | .list x => fun m => (x m).getD 0
  -- lines 154-156
  let l ← attr (·.l)
  let M ← attr (·.M)
  let dWdlC ← attr (·.dWdlC)
  -- lines 158-162
  let d2 : Vec6 ℝ := fun m => d2Wdldl m / (4 * l (GenInv.ia m) * l (GenInv.ib m))
  let d2 : Vec6 ℝ := ![d2 0 - dWdlC 0 / (2 * l 0 ^ 2), d2 1 - dWdlC 1 / (2 * l 1 ^ 2),
    d2 2 - dWdlC 2 / (2 * l 2 ^ 2), d2 3, d2 4, d2 5]
  -- lines 164-181
  pure ((List.finRange 6).foldl (fun acc m => fun i j => acc i j + term l dWdlC M d2 m i j)
    fun _ _ => 0)

/-- A `Stretches` object as a material for the spaces. -/
def material (lapack : Eigh) (mat : StrMat Z μ) : Material ℝ Z (StrSt μ) where
  gradient := gradient lapack mat
  hessian := hessian lapack mat

end Stretches

/-- `GeneralizedInvariants.__init__`; `frameworks/_generalized.py` lines 204-209: a
`Stretches` object whose material is a `GeneralizedInvariantsModel`. -/
def generalizedFramework (lapack : Eigh) (g : GenInv) (mat : InvMat ℝ Z μ) :
    Material ℝ Z (StrSt (GenSt μ)) :=
  Stretches.material lapack (g.mat mat)

end

end Hel
