import Verif.Spec.Api

/-!
# Model of the initial variables `x` and of the argument lists

Frameworks and spaces carry a list of initial variables, `self.x`, "for calling
`self.gradient(self.x)` and `self.hessian(self.x)`".  The methods of the spaces take such a
list and read its first and its last entry.  The methods themselves, once these two entries
have been read, are those of `Model/Space`.
-/

namespace Hel

noncomputable section

/-- An array in the list of variables, without trailing axes: a tensor of shape `(3, 3)` or a
vector of `n` state variables.  Arrays of other shapes are in `Model/Shapes`. -/
inductive Arg where
  | tensor (F : Full2 ℝ)
  | vector (n : ℕ) (v : Fin n → ℝ)

/-- `x[0]` and `x[-1]` of a list; `IndexError` if it is empty.  E.g. `_deformation.py` line 73. -/
def firstLast (x : List Arg) : Res (Arg × Arg) :=
  match x with
  | [] => .error .indexError
  | a :: l => .ok (a, (a :: l).getLast (by simp))

/-- `self.x = [np.eye(3), np.zeros(nstatevars)]`; `_invariants.py` line 148, `_stretches.py`
line 119. -/
def frameworkX (nstatevars : ℕ) : List Arg :=
  [.tensor fun i j => if i = j then 1 else 0, .vector nstatevars fun _ => 0]

/-- `self.x = [material.x[0], material.x[-1]]`; `_deformation.py` line 65, `_distortional.py`
line 150, `_dilatational.py` line 13.  `matX` is `material.x` of whatever object is given. -/
def spaceX (matX : List Arg) : Res (List Arg) := do
  let (a, z) ← firstLast matX
  pure [a, z]

variable {σ : Type}

/-- `F, statevars = x[0], x[-1]` at the beginning of a method, followed by the method.  A first
entry which is not a tensor is refused by the product `self.einsum("kI...,kJ...->IJ...", F, F)`
(`ValueError`); `_deformation.py` lines 73-75, `_distortional.py` lines 158-160,
`_dilatational.py` lines 18-20.  In `hessian` the list is read again by the `gradient` called in
it (`_deformation.py` line 88, `_distortional.py` line 179, `_dilatational.py` line 35), with the
same result. -/
def withList {α : Type} (m : Full2 ℝ → Arg → PyM σ α) (x : List Arg) : PyM σ α := fun s =>
  match firstLast x with
  | .error e => (.error e, s)
  | .ok (.vector _ _, _) => (.error .valueError, s)
  | .ok (.tensor F, z) => m F z s

/-- `space.gradient(x)` with a list. -/
def SpaceObj.gradientL (sp : SpaceObj Arg σ) (x : List Arg) : PyM σ (Stress × Arg) := withList sp.gradient x

/-- `space.hessian(x)` with a list. -/
def SpaceObj.hessianL (sp : SpaceObj Arg σ) (x : List Arg) : PyM σ Elasticity := withList sp.hessian x

end

end Hel
