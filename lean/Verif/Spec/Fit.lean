import Verif.Spec.Optimize
import Verif.Spec.Lab

/-!
# Specification vocabulary: best fits

The total squared error of parameters, parameters which are optimal among all parameters or among
close ones, solvers which stop at a local optimum, tests of third-order-deformation materials.
-/

namespace Spec
open Hel

noncomputable section

variable {Z : Type}

/-- With the parameters `p` the simulations of the optimizer evaluate at the stretches `xs`, and
the total squared error to the stresses `ys` is `E`. -/
def HasError (w : World Z) (op : Optimizer) (xs ys : List (List ℝ)) (p : List ℝ) (E : ℝ) : Prop :=
  ∃ vs, Curves w op xs p vs ∧ E = sqErr vs.flatten ys.flatten

/-- No other parameters (as many) have a smaller total squared error. -/
def BestFit (w : World Z) (op : Optimizer) (xs ys : List (List ℝ)) (p : List ℝ) : Prop :=
  ∃ E, HasError w op xs ys p E ∧ ∀ p' E', p'.length = p.length → HasError w op xs ys p' E' → E ≤ E'

/-- The parameters differ by less than `ε`. -/
def CloseTo (ε : ℝ) (p p' : List ℝ) : Prop := List.Forall₂ (fun a b => |a - b| < ε) p p'

/-- No other parameters close to these have a smaller total squared error. -/
def LocalFit (w : World Z) (op : Optimizer) (xs ys : List (List ℝ)) (p : List ℝ) : Prop :=
  ∃ E, HasError w op xs ys p E ∧
    ∃ ε > 0, ∀ p' E', CloseTo ε p p' → HasError w op xs ys p' E' → E ≤ E'

/-- A solver which stops at parameters where the squared error of the function it is given is
locally minimal. -/
def Solver.StopsAtMinimum (solver : Solver) : Prop := ∀ F x y p0 popt pcov, solver F x y p0 = .ok (popt, pcov) →
  ∃ v, F x popt = .ok v ∧ ∃ ε > 0, ∀ p' v', CloseTo ε popt p' → F x p' = .ok v' → sqErr v y ≤ sqErr v' y

/-- `a * p + b * q`, entry by entry. -/
def combine (a b : ℝ) (p q : List ℝ) : List ℝ := List.zipWith (fun u v => a * u + b * v) p q

/-- The simulation evaluates at the stretches `x` for all parameters, and its curve is linear in the
parameters. -/
def LinearCurve (sim : Simulation Z) (x : List ℝ) : Prop := ∀ p q : List ℝ, p.length = q.length →
  ∃ u v, sim.stressCurveFit x p = .ok u ∧ sim.stressCurveFit x q = .ok v ∧
    ∀ a b, sim.stressCurveFit x (combine a b p q) = .ok (combine a b u v)

/-- All simulations of the optimizer have curves which are linear in the parameters. -/
def LinearTests (w : World Z) (op : Optimizer) (xs : List (List ℝ)) : Prop :=
  ∀ e ∈ op.simulations.zip xs, LinearCurve (w.sims e.1).sim e.2

/-- A simulation of a third-order-deformation material on one of the load cases. -/
def TodTest (sim : Simulation Z) (k : LoadKind) : Prop :=
  (∃ lab, sim.loadcase = k.case lab) ∧ (sim.material = todDeformation ∨ sim.material = todDistortional) ∧
  ∀ name ∈ sim.labels, name ∈ ["C10", "C01", "C11", "C20", "C30"]

/-- All simulations of the optimizer are such tests. -/
def TodTests (w : World Z) (op : Optimizer) : Prop := ∀ s ∈ op.simulations, ∃ k, TodTest (w.sims s).sim k

/-- All stretches are positive. -/
def PositiveData (xs : List (List ℝ)) : Prop := ∀ x ∈ xs, ∀ l ∈ x, 0 < l

/-- The data `x` contain `n` different stretches other than one. -/
def DistinctStretches (n : ℕ) (x : List ℝ) : Prop := ∃ S : Finset ℝ, S.card = n ∧ ∀ l ∈ S, l ∈ x ∧ l ≠ 1

/-- A stretch at which the optimizer compares the load case `k` with a measured stress. -/
def DataPoint (w : World Z) (op : Optimizer) (xs : List (List ℝ)) (k : LoadKind) (l : ℝ) : Prop :=
  ∃ s x, (s, x) ∈ op.simulations.zip xs ∧ TodTest (w.sims s).sim k ∧ l ∈ x

/-- The square of the second stretch, along the load cases: the weight of `∂ψ/∂I2` relative to
`∂ψ/∂I1` in the normal force. -/
def LoadKind.weight : LoadKind → ℝ → ℝ
  | .uniaxial, l => 1 / l
  | .planar, _ => 1
  | .biaxial, l => l ^ 2

/-- There is exactly one best fit with `n` parameters. -/
def UniqueFit (w : World Z) (op : Optimizer) (xs ys : List (List ℝ)) (n : ℕ) : Prop :=
  ∃! p : List ℝ, p.length = n ∧ BestFit w op xs ys p

end

end Spec
