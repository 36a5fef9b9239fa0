import Verif.Model.Lab
import Verif.Model.BatchGeneralized

/-!
# Model of simulations of generalized-invariants materials

What the user's factory returns in a session with `GeneralizedInvariantsModel`, as in
`tests/test_generalized.py` lines 11-30.
-/

namespace Hel

noncomputable section

variable {Z : Type}

/-- `P.reshape(3, 3, -1)`, from the trailing shape `(1, n)`; `_simulation.py` line 117. -/
def Batch.Stress.last {n : ℕ} : Batch.Stress (Fin 1 × Fin n) → Batch.Stress (Fin n)
  | .voigt s => .voigt fun a i => s a (0, i)
  | .full p => .full fun a b i => p a b (0, i)

/-- A space object with its initial attributes as a material object, called with the trailing shape `(1, n)`
of `F.reshape(3, 3, 1, -1)`; `_simulation.py` lines 116-117. -/
def MatObj.of1 {σ : ℕ → Type} (obj : ∀ n, Batch.SpaceObj (Fin 1 × Fin n) Z (σ n)) (init : ∀ n, σ n) : MatObj Z where
  gradient n F z := ((obj n).gradient (fun a b i => F a b i.2) z (init n)).1.map fun r => (r.1.last, r.2)

open Classical in
/-- `GeneralizedInvariants(material=ThirdOrderDeformation(C10, C01, C11, C20, C30, strain), fun=…)` on batches with the trailing
shape `(1, n)`; `frameworks/_generalized.py` lines 204-209. -/
def genFramework (lapack : Eigh) (g : GenInv) (c : Fin 5 → ℝ) (b : Bool) (n : ℕ) :
    Material (Arr (Fin 1 × Fin n)) Z (Batch.StrSt (Fin 1 × Fin n) (Batch.GenSt (Fin 1 × Fin n) Unit)) :=
  Batch.Stretches.material lapack (Batch.GenInv.mat g (TOD.init (Arr.const (c 0)) (Arr.const (c 1)) (Arr.const (c 2))
    (Arr.const (c 3)) (Arr.const (c 4) : Arr (Fin 1 × Fin n)) b).mat)

/-- `DeformationSpace(GeneralizedInvariants(ThirdOrderDeformation(...), fun))`, freshly constructed. -/
def genDeformation (lapack : Eigh) (g : GenInv) (c : Fin 5 → ℝ) (b : Bool) : MatObj Z :=
  MatObj.of1 (fun n => Batch.Deformation.obj {} (genFramework lapack g c b n)) fun _ => { material := { material := { material := () } } }

/-- `DistortionalSpace(GeneralizedInvariants(ThirdOrderDeformation(...), fun))`, freshly constructed. -/
def genDistortional (lapack : Eigh) (g : GenInv) (c : Fin 5 → ℝ) (b : Bool) : MatObj Z :=
  MatObj.of1 (fun n => Batch.Distortional.obj {} (genFramework lapack g c b n)) fun _ => { material := { material := { material := () } } }

end

end Hel
