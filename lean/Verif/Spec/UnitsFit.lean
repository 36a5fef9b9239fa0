import Verif.Spec.Fit

/-!
# Specification vocabulary: the same measurements in other units
-/

namespace Spec
open Hel

noncomputable section

variable {Z : Type}

/-- All numbers of a list times `c`. -/
def timesL (c : ℝ) (l : List ℝ) : List ℝ := l.map (c * ·)

/-- The optimizer `op'` fits the same simulations to the same selection of the same measurements,
with the stresses in another unit. -/
structure InUnit (c : ℝ) (op op' : Optimizer) : Prop where
  sims : op'.simulations = op.simulations
  mask : op'.mask = op.mask
  data : List.Forall₂ (fun e e' : Experiment => e'.stretch = e.stretch ∧ e'.stress = timesL c e.stress)
    op.experiments op'.experiments

end

end Spec
