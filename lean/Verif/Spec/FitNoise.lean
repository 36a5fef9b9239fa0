import Verif.Spec.Fit

/-!
# Specification vocabulary: fits to inexact measurements
-/

namespace Spec
open Hel

noncomputable section

variable {Z : Type}

/-- One stress per stretch, in every test. -/
def Measured (xs ys : List (List ℝ)) : Prop := List.Forall₂ (fun x y => x.length = y.length) xs ys

/-- Two fits of the same `n` parameters at the same stretches, to different stresses: the squared distance of the best
parameters is at most `K` times the squared distance of the stresses.  (`sqErr` is the sum of the squared differences.) -/
def Amplifies (w : World Z) (op : Optimizer) (xs : List (List ℝ)) (n : ℕ) (K : ℝ) : Prop :=
  ∀ ys ys' p p', Measured xs ys → Measured xs ys' → p.length = n → p'.length = n →
    BestFit w op xs ys p → BestFit w op xs ys' p' → sqErr p p' ≤ K * sqErr ys.flatten ys'.flatten

/-- The normal force of the neo-Hookean material with `C10 = 1` along the load cases. -/
def LoadKind.force : LoadKind → ℝ → ℝ
  | .uniaxial, l => 2 * (l - 1 / l ^ 2)
  | .planar, l => 2 * (l - 1 / l ^ 3)
  | .biaxial, l => 2 * (l - 1 / l ^ 5)

end

end Spec
