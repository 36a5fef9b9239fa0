import Verif.Model.Optimize

/-!
# Specification vocabulary: optimizers

Which data points a mask selects, the total squared error, what a well-behaved solver returns.
-/

namespace Spec
open Hel

noncomputable section

variable {Z : Type}

/-- A position counted from the end if negative. -/
def fromEnd (n : ℕ) (i : Int) : Int := if i < 0 then i + n else i

/-- The mask selects the positions `ps` (in this order) from `n` data points.
Slices: `start, start + step, ...` up to but not including `stop`, cut off at the ends of the data.
Booleans: the positions of the `True`s.  Integers: the listed positions, negative ones count from
the end. -/
def Picks (n : ℕ) : Mask → List ℕ → Prop
  | .slice start stop step, ps =>
    let d : Int := step.getD 1
    if 0 < d then
      let a : Int := max 0 (fromEnd n (start.getD 0))
      let b : Int := (stop.map (fromEnd n)).getD n
      ps.Pairwise (· < ·) ∧ ∀ p : ℕ, p ∈ ps ↔ p < n ∧ a ≤ p ∧ p < b ∧ d ∣ p - a
    else if d < 0 then
      let a : Int := min ((n : Int) - 1) ((start.map (fromEnd n)).getD n)
      let b : Int := (stop.map (fromEnd n)).getD (-1)
      ps.Pairwise (· > ·) ∧ ∀ p : ℕ, p ∈ ps ↔ p < n ∧ p ≤ a ∧ b < p ∧ d ∣ p - a
    else False
  | .bools b, ps => b.length = n ∧ ps.Pairwise (· < ·) ∧ ∀ p : ℕ, p ∈ ps ↔ b[p]? = some true
  | .index is, ps => List.Forall₂ (fun i p => p < n ∧ fromEnd n i = (p : Int)) is ps

/-- `l` are the entries of the data `a` which the mask selects. -/
def Selected (m : Mask) (a l : List ℝ) : Prop :=
  ∃ ps, Picks a.length m ps ∧ List.Forall₂ (fun p v => a[p]? = some v) ps l

/-- The selected stretches and stresses of the experiments of an optimizer. -/
def FitData (op : Optimizer) (xs ys : List (List ℝ)) : Prop :=
  List.Forall₂ (fun e x => Selected e.1 e.2.stretch x) (op.mask.zip op.experiments) xs ∧
  List.Forall₂ (fun e y => Selected e.1 (e.2.force.map (· / e.2.area)) y) (op.mask.zip op.experiments) ys

/-- The curves `vs` of the simulations of the optimizer at the stretches `xs` with the parameters
`p`. -/
def Curves (w : World Z) (op : Optimizer) (xs : List (List ℝ)) (p : List ℝ) (vs : List (List ℝ)) : Prop :=
  List.Forall₂ (fun e v => (w.sims e.1).sim.stressCurveFit e.2 p = .ok v) (op.simulations.zip xs) vs

/-- The function `F(x, p)` is the concatenation of the curves of the simulations, whatever `x`. -/
def Objective (w : World Z) (op : Optimizer) (xs : List (List ℝ)) (F : List ℝ → List ℝ → Res (List ℝ)) : Prop :=
  ∀ x p v, F x p = .ok v ↔ ∃ vs, vs ≠ [] ∧ Curves w op xs p vs ∧ v = vs.flatten

/-- Total squared error. -/
def sqErr (v y : List ℝ) : ℝ := ((List.zipWith (· - ·) v y).map fun d => d ^ 2).sum

/-- The optimizer has one mask and one simulation per experiment, and one force per displacement. -/
def Matched (op : Optimizer) : Prop :=
  op.mask.length = op.experiments.length ∧ op.simulations.length = op.experiments.length ∧
  ∀ e ∈ op.experiments, e.stretch.length = e.force.length

/-- A solver which returns as many parameters as it got, and their covariance matrix. -/
def Solver.WellFormed (solver : Solver) : Prop := ∀ F x y p0 popt pcov, solver F x y p0 = .ok (popt, pcov) →
  popt.length = p0.length ∧ pcov.length = p0.length ∧ ∀ row ∈ pcov, row.length = p0.length

/-- The optimizer `o` is coherent with the parameters `p`: they are the contents of its parameter
object, all its simulations hold this very object, and its residuals are the simulated minus the
measured stresses of the selected data at these parameters. -/
def Coherent (w : World Z) (o : ℕ) (p : List ℝ) : Prop :=
  (w.params (w.opts o).parameters).vals = p ∧
  (∀ s ∈ (w.opts o).simulations, (w.sims s).parameters = (w.opts o).parameters) ∧
  ∃ xs ys vs d, FitData (w.opts o) xs ys ∧ Curves w (w.opts o) xs p vs ∧ npSub vs.flatten ys.flatten = .ok d ∧
    (w.opts o).residuals = some d

/-- Several fits of the same optimizer, one after the other; the exceptions are caught. -/
def fits (o : ℕ) (solvers : List Solver) (w : World Z) : World Z :=
  solvers.foldl (fun w solver => (curveFit o solver w).2) w

/-- Parameter objects which can be overwritten without loss. -/
def Writable (k : ParamKind) : Prop := k = .list ∨ k = .floatArray

end

end Spec
