import Verif.Model.Batch
import Mathlib.Analysis.SpecialFunctions.Log.Basic

/-!
# Model of `src/hyperelastic/models/invariants/_torch.py` (`TorchModel`)

A tensor which takes part in automatic differentiation is the expression which computed it from
the three leaf tensors `I1, I2, I3` (torch's graph; a graph node used twice is repeated in the
expression; in a derivative `saved` marks the nodes of the graph which was differentiated).  `torch.autograd.grad` is not code of this repository: its model here is reverse-mode
differentiation with the backward formulas of `derivatives.yaml` of PyTorch; it raises
`RuntimeError` for a tensor which does not require grad, returns `None` for a leaf which does not
take part, and an arbitrary `Engine` decides about all further exceptions (buffers freed by an
earlier call, for example).  The arithmetic is any type of numbers `K`: real numbers (or arrays of them) in most theorems,
the numbers `Num P` of torch's default dtype in C72.
-/

namespace Hel

noncomputable section

/-- Elementwise functions of arrays which the energy functions use. -/
class Elementwise (K : Type) where
  const : ℝ → K
  rpow : K → ℝ → K
  exp : K → K
  log : K → K

instance : Elementwise ℝ where
  const c := c
  rpow x p := x ^ p
  exp := Real.exp
  log := Real.log

instance {ι : Type} : Elementwise (Arr ι) where
  const := Arr.const
  rpow := Arr.pow
  exp x := fun i => Real.exp (x i)
  log x := fun i => Real.log (x i)

namespace Torch

/-- A tensor: how it was computed from the leaves.  `const` is a Python float or a tensor which does
not require grad. -/
inductive Expr where
  | const (c : ℝ)
  | leaf (i : Fin 3)
  | neg (a : Expr)
  | add (a b : Expr)
  | sub (a b : Expr)
  | mul (a b : Expr)
  | div (a b : Expr)
  | npow (a : Expr) (n : ℕ)
  | pow (a : Expr) (p : ℝ)
  | exp (a : Expr)
  | log (a : Expr)
  /-- the tensor `a`, which an operation kept when it was computed, used in a backward pass -/
  | saved (a : Expr)

namespace Expr

/-- The numbers in a tensor, given the numbers in the leaves. -/
def eval {K : Type} [Neg K] [Add K] [Sub K] [Mul K] [Div K] [Pow K ℕ] [Elementwise K] (x : Fin 3 → K) : Expr → K
  | const c => Elementwise.const c
  | leaf i => x i
  | neg a => -a.eval x
  | add a b => a.eval x + b.eval x
  | sub a b => a.eval x - b.eval x
  | mul a b => a.eval x * b.eval x
  | div a b => a.eval x / b.eval x
  | npow a n => a.eval x ^ n
  | pow a p => Elementwise.rpow (a.eval x) p
  | exp a => Elementwise.exp (a.eval x)
  | log a => Elementwise.log (a.eval x)
  | saved a => a.eval x

/-- `tensor.requires_grad`: a leaf takes part. -/
def requiresGrad : Expr → Bool
  | const _ => false
  | leaf _ => true
  | neg a | npow a _ | pow a _ | exp a | log a | saved a => a.requiresGrad
  | add a b | sub a b | mul a b | div a b => a.requiresGrad || b.requiresGrad

/-- Accumulation of the contributions of two branches (`None`: no contribution). -/
def accumulate : Option Expr → Option Expr → Option Expr
  | none, y => y
  | x, none => x
  | some a, some b => some (add a b)

/-- The backward pass: the contributions to the leaf `x` of a tensor with the incoming gradient
`g`. -/
def backward (x : Fin 3) : Expr → Expr → Option Expr
  | const _, _ => none
  | leaf i, g => if i = x then some g else none
  | neg a, g => a.backward x (neg g)
  | add a b, g => accumulate (a.backward x g) (b.backward x g)
  | sub a b, g => accumulate (a.backward x g) (b.backward x (neg g))
  | mul a b, g => accumulate (a.backward x (mul g (saved b))) (b.backward x (mul g (saved a)))
  | div a b, g => accumulate (a.backward x (div g (saved b)))
      (b.backward x (mul (neg g) (div (div (saved a) (saved b)) (saved b))))
  | npow a n, g => a.backward x (if n = 0 then const 0 else mul g (mul (const n) (npow (saved a) (n - 1))))
  | pow a p, g => a.backward x (if p = 0 then const 0 else mul g (mul (const p) (pow (saved a) (p - 1))))
  | exp a, g => a.backward x (mul g (saved (exp a)))
  | log a, g => a.backward x (div g (saved a))
  | saved a, g => a.backward x g

end Expr

/-- Whether and how `torch.autograd.grad` raises, apart from tensors which do not require grad:
anything that depends on the tensor, the leaf, the flags `create_graph` and `retain_graph` and the
calls which have been made on the same graph. -/
structure Engine where
  graph : Type
  fresh : graph
  step : Expr → Fin 3 → Bool → Bool → graph → Option PyErr × graph

/-- `torch.autograd.grad(fun.sum(), x, allow_unused=True, …)[0]`: the derivative of the sum of all
the numbers in `fun` with respect to the numbers in the leaf `x`. -/
def autograd (eng : Engine) (e : Expr) (x : Fin 3) (create retain : Bool) : PyM eng.graph (Option Expr) := fun s =>
  if e.requiresGrad then
    match eng.step e x create retain s with
    | (some err, s') => (.error err, s')
    | (none, s') => (.ok (e.backward x (.const 1)), s')
  else (.error .runtimeError, s)

/-- The Python objects handled by `TorchModel`. -/
inductive Obj (K : Type) where
  | none
  | tensor (e : Expr)
  | array (a : K)
  /-- anything else without an attribute `grad_fn`, a float for example -/
  | other

/-- `TorchModel._grad`; `_torch.py` lines 42-55.  `leaves` are the numbers in the leaf tensors. -/
def grad {K : Type} [Neg K] [Add K] [Sub K] [Mul K] [Div K] [Pow K ℕ] [Elementwise K] (eng : Engine) (leaves : Fin 3 → K) (f : Obj K) (x : Fin 3)
    (numpy create retain : Bool) : PyM eng.graph (Obj K) :=
  match f with
  | .tensor e => do
    let out ← autograd eng e x create retain
    match out with
    | some d => if numpy then pure (.array (d.eval leaves)) else pure (.tensor d)
    | Option.none => pure .none
  | _ => pure .none

/-- The attributes of `TorchModel`: `fun`, called with `**self.kwargs`; lines 38-40.  `fun` is called with the leaf
tensors and returns an object or raises. -/
structure TorchModel (K : Type) where
  func : Expr → Expr → Expr → Res (Obj K)

variable {K Z : Type} [Neg K] [Add K] [Sub K] [Mul K] [Div K] [Pow K ℕ] [Elementwise K]

/-- `TorchModel.gradient`; lines 66-85.  (`_astensors`, lines 57-64, makes the leaf tensors, with `tensor=True` the
arguments are the leaf tensors.) -/
def TorchModel.gradientObj (m : TorchModel K) (eng : Engine) (leaves : Fin 3 → K) (statevars : Z)
    (numpy create retain : Bool) : PyM eng.graph (Obj K × Obj K × Obj K × Z) := do
  let f ← PyM.lift (m.func (.leaf 0) (.leaf 1) (.leaf 2))
  let g1 ← grad eng leaves f 0 numpy create retain
  let g2 ← grad eng leaves f 1 numpy create retain
  let g3 ← grad eng leaves f 2 numpy create retain
  pure (g1, g2, g3, statevars)

/-- `TorchModel.hessian`; lines 87-100. -/
def TorchModel.hessianObj (m : TorchModel K) (eng : Engine) (leaves : Fin 3 → K) (statevars : Z) (numpy : Bool) :
    PyM eng.graph (Obj K × Obj K × Obj K × Obj K × Obj K × Obj K) := do
  let (dWdI1, dWdI2, dWdI3, _) ← m.gradientObj eng leaves statevars false true false
  let h1 ← grad eng leaves dWdI1 0 numpy false false
  let h2 ← grad eng leaves dWdI2 1 numpy false false
  let h3 ← grad eng leaves dWdI3 2 numpy false false
  let h4 ← grad eng leaves dWdI1 1 numpy false false
  let h5 ← grad eng leaves dWdI2 2 numpy false false
  let h6 ← grad eng leaves dWdI1 2 numpy false false
  pure (h1, h2, h3, h4, h5, h6)

/-- What the frameworks do with an object: `None` is skipped, an array is used.  (With `numpy=True`, the default and the
only way the frameworks call, nothing else is returned.) -/
def Obj.toOption : Obj K → Option K
  | .array a => some a
  | _ => Option.none

/-- `TorchModel` as a material object.  It has no mutable attributes; every call computes `fun` anew and with it a
fresh graph. -/
def TorchModel.mat (m : TorchModel K) (eng : Engine) : InvMat K Z Unit where
  gradient I1 I2 I3 z := PyM.lift <| (m.gradientObj eng ![I1, I2, I3] z true false false eng.fresh).1.map fun r =>
    { d1 := r.1.toOption, d2 := r.2.1.toOption, d3 := r.2.2.1.toOption, sv := r.2.2.2 }
  hessian I1 I2 I3 z := PyM.lift <| (m.hessianObj eng ![I1, I2, I3] z true eng.fresh).1.map fun r =>
    { h11 := r.1.toOption, h22 := r.2.1.toOption, h33 := r.2.2.1.toOption, h12 := r.2.2.2.1.toOption,
      h23 := r.2.2.2.2.1.toOption, h13 := r.2.2.2.2.2.toOption }

/-! ### the precision of torch's default dtype -/

/-- The floating-point numbers of torch's default dtype (`float32`, unless the user changes it): `torch.Tensor(x)` rounds to
the nearest of them (lines 57-64), and so does every operation.  Integer powers may be off by two roundings.  Overflow and
underflow are not modelled. -/
structure Precision where
  u : ℝ
  u_nonneg : 0 ≤ u
  rnd : ℝ → ℝ
  rnd_error : ∀ x, |rnd x - x| ≤ u * |x|
  npow : ℝ → ℕ → ℝ
  npow_error : ∀ x n, |npow x n - x ^ n| ≤ ((1 + u) ^ 2 - 1) * |x ^ n|
  pow : ℝ → ℝ → ℝ
  exp : ℝ → ℝ
  log : ℝ → ℝ

/-- The numbers in a tensor of the default dtype. -/
structure Num (P : Precision) where
  val : ℝ

namespace Num
variable {P : Precision}

instance : Neg (Num P) := ⟨fun x => ⟨-x.val⟩⟩
instance : Add (Num P) := ⟨fun x y => ⟨P.rnd (x.val + y.val)⟩⟩
instance : Sub (Num P) := ⟨fun x y => ⟨P.rnd (x.val - y.val)⟩⟩
instance : Mul (Num P) := ⟨fun x y => ⟨P.rnd (x.val * y.val)⟩⟩
instance : Div (Num P) := ⟨fun x y => ⟨P.rnd (x.val / y.val)⟩⟩
instance : Pow (Num P) ℕ := ⟨fun x n => ⟨P.npow x.val n⟩⟩
/-- A Python float is converted to the default dtype when it meets a tensor. -/
instance : Elementwise (Num P) where
  const c := ⟨P.rnd c⟩
  rpow x p := ⟨P.pow x.val p⟩
  exp x := ⟨P.exp x.val⟩
  log x := ⟨P.log x.val⟩

end Num

/-- `TorchModel` as a material object which computes in the default dtype: `_astensors` (lines 57-64) rounds the invariants,
`out.detach().numpy()` (line 54) returns the numbers of that dtype. -/
def TorchModel.matIn (P : Precision) (m : TorchModel (Num P)) (eng : Engine) : InvMat ℝ Z Unit where
  gradient I1 I2 I3 z := PyM.lift <|
    (m.gradientObj eng ![⟨P.rnd I1⟩, ⟨P.rnd I2⟩, ⟨P.rnd I3⟩] z true false false eng.fresh).1.map fun r =>
    { d1 := r.1.toOption.map Num.val, d2 := r.2.1.toOption.map Num.val, d3 := r.2.2.1.toOption.map Num.val, sv := r.2.2.2 }
  hessian I1 I2 I3 z := PyM.lift <|
    (m.hessianObj eng ![⟨P.rnd I1⟩, ⟨P.rnd I2⟩, ⟨P.rnd I3⟩] z true eng.fresh).1.map fun r =>
    { h11 := r.1.toOption.map Num.val, h22 := r.2.1.toOption.map Num.val, h33 := r.2.2.1.toOption.map Num.val,
      h12 := r.2.2.2.1.toOption.map Num.val, h23 := r.2.2.2.2.1.toOption.map Num.val,
      h13 := r.2.2.2.2.2.toOption.map Num.val }

end Torch
end
end Hel
