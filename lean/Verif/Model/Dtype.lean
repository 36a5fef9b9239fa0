import Verif.Model.Space

/-!
# Model of the code on integer and floating-point arrays

numpy arrays carry a dtype.  The other models take every array as an array of real numbers; here
an array is either of an integer dtype (`int32`, `int64`), with silent wrap-around, or of dtype
`float64` (exact: rounding is in `Model/Rounding`).  numpy decides the dtype of every result and
raises `TypeError` (`UFuncTypeError`) if a result does not fit the dtype of an `out=` array.

The functions are transcribed at one point of the trailing axes.  Attributes which one method
stores for another are passed as results (that no stale attribute is ever read is C35).
-/

namespace Hel.Dt

noncomputable section

/-! ### numpy -/

/-- The integer dtypes. -/
inductive IntTy where
  | i32 | i64
  deriving DecidableEq, Repr

/-- Number of bits. -/
def IntTy.bits : IntTy → ℕ
  | .i32 => 32
  | .i64 => 64

/-- `np.result_type` of two integer dtypes. -/
def IntTy.join : IntTy → IntTy → IntTy
  | .i32, .i32 => .i32
  | _, _ => .i64

/-- Storing an integer in two's complement: silent wrap-around. -/
def wrap (w : IntTy) (x : ℤ) : ℤ := Int.bmod x (2 ^ w.bits)

/-- An array with the index set `ι`, of an integer dtype or of dtype `float64`. -/
inductive NArr (ι : Type) where
  | int (w : IntTy) (v : ι → ℤ)
  | f64 (v : ι → ℝ)

/-- A numpy scalar. -/
abbrev Num := NArr Unit

variable {ι κ α β Z μ : Type}

namespace NArr

/-- The numbers in an array. -/
def val : NArr ι → ι → ℝ
  | .int _ v, i => v i
  | .f64 v, i => v i

/-- The integers in an integer array. -/
def ints : NArr ι → ι → ℤ
  | .int _ v, i => v i
  | .f64 _, _ => 0

/-- Fancy indexing, `reshape`, `swapaxes` and broadcasting: the dtype is kept. -/
def reindex (A : NArr ι) (f : κ → ι) : NArr κ :=
  match A with
  | .int w v => .int w fun k => v (f k)
  | .f64 v => .f64 fun k => v (f k)

/-- A binary ufunc which maps integers to integers. -/
def binop (fi : ℤ → ℤ → ℤ) (fr : ℝ → ℝ → ℝ) : NArr ι → NArr ι → NArr ι
  | .int w a, .int w' b => .int (w.join w') fun i => wrap (w.join w') (fi (a i) (b i))
  | A, B => .f64 fun i => fr (A.val i) (B.val i)

instance : Add (NArr ι) := ⟨binop (· + ·) (· + ·)⟩
instance : Sub (NArr ι) := ⟨binop (· - ·) (· - ·)⟩
instance : Mul (NArr ι) := ⟨binop (· * ·) (· * ·)⟩

/-- `A / B`: true division gives floats, also for integers. -/
def div (A B : NArr ι) : NArr ι := .f64 fun i => A.val i / B.val i

/-- `A / n` with a Python integer. -/
def divLit (A : NArr ι) (n : ℤ) : NArr ι := .f64 fun i => A.val i / n

/-- `n * A` with a Python integer: the dtype of the array is kept. -/
def intMul (n : ℤ) : NArr ι → NArr ι
  | .int w v => .int w fun i => wrap w (n * v i)
  | .f64 v => .f64 fun i => n * v i

/-- `A - n` with a Python integer. -/
def subLit : NArr ι → ℤ → NArr ι
  | .int w v, n => .int w fun i => wrap w (v i - n)
  | .f64 v, n => .f64 fun i => v i - n

/-- `x * A` with a Python float. -/
def floatMul (x : ℝ) (A : NArr ι) : NArr ι := .f64 fun i => x * A.val i

/-- `A ** 2` with the Python integer 2. -/
def sq : NArr ι → NArr ι
  | .int w v => .int w fun i => wrap w (v i ^ 2)
  | .f64 v => .f64 fun i => v i ^ 2

/-- `A ** x` with a Python float. -/
def powFloat (A : NArr ι) (x : ℝ) : NArr ι := .f64 fun i => A.val i ^ x

/-- `np.sqrt(A)`. -/
def sqrt (A : NArr ι) : NArr ι := .f64 fun i => Real.sqrt (A.val i)

/-- The dtype of the result fits the dtype of `out` (casting rule `same_kind` of the ufuncs and of
the augmented assignments): floats are not cast to integers. -/
def store (out : NArr ι) (r : NArr ι) : Res (NArr ι) :=
  match out, r with
  | .int w _, .int _ v => .ok (.int w fun i => wrap w (v i))
  | .int _ _, .f64 _ => .error .typeError
  | .f64 _, r => .ok (.f64 r.val)

/-- `A += B`. -/
def iadd (A B : NArr ι) : Res (NArr ι) := store A (A + B)

/-- The common integer dtype of a list of operands; `none` if one of them is of dtype `float64`. -/
def common : List (NArr ι) → Option IntTy
  | [] => some .i32
  | .int w _ :: r => (common r).map w.join
  | .f64 _ :: _ => none

/-- `np.einsum`: the sum over `κ` of the products of the operands.  The operands are cast to their
common dtype.  (Sums and products of integers wrap around at every step, which is the same as once
at the end.) -/
def einsum [Fintype κ] (ops : List (NArr (ι × κ))) : NArr ι :=
  match common ops with
  | some w => .int w fun i => wrap w (∑ k, (ops.map fun A => A.ints (i, k)).prod)
  | none => .f64 fun i => ∑ k, (ops.map fun A => A.val (i, k)).prod

/-- `np.einsum(..., out=out)`: casting rule `safe`. -/
def einsumOut [Fintype κ] (out : NArr ι) (ops : List (NArr (ι × κ))) : Res (NArr ι) :=
  match out, einsum ops with
  | .int w _, .int w' v => if w.join w' = w then .ok (.int w v) else .error .typeError
  | .int _ _, .f64 _ => .error .typeError
  | .f64 _, r => .ok (.f64 r.val)

end NArr

open NArr

/-- A scalar broadcast to an array. -/
def bc (x : Num) : NArr ι := x.reindex fun _ => ()

/-- The item of an array. -/
def item (A : NArr ι) (i : ι) : Num := A.reindex fun _ => i

/-- Arrays of shapes `(6,)`, `(6, 6)`, `(3, 3)` and `(3, 3, 3, 3)`. -/
abbrev V6 := NArr (Fin 6)
abbrev M6 := NArr (Fin 6 × Fin 6)
abbrev F2 := NArr (Fin 3 × Fin 3)
abbrev F4 := NArr (Fin 3 × Fin 3 × Fin 3 × Fin 3)

/-! ### `math/_voigt.py` -/

/-- `asvoigt(A)`; `_voigt.py` lines 89-93. -/
def asvoigt (A : F2) : V6 := A.reindex fun a => (![0, 1, 2, 0, 1, 0] a, ![0, 1, 2, 1, 2, 2] a)

/-- `astensor(A)`; lines 214-216. -/
def astensor (A : V6) : F2 := A.reindex fun p => tab p.1 p.2

/-- `astensor(A, mode=4)`; lines 218-221. -/
def astensor4 (A : M6) : F4 := A.reindex fun p => (tab p.1 p.2.1, tab p.2.2.1 p.2.2.2)

/-- `trace(A) = np.sum(A[:3], axis=0)`; line 286.  `np.sum` of integers is of dtype `int64`. -/
def trace : V6 → Num
  | .int _ v => .int .i64 fun _ => wrap .i64 (v 0 + v 1 + v 2)
  | .f64 v => .f64 fun _ => v 0 + v 1 + v 2

/-- `transpose(A)`; line 343. -/
def transpose (A : M6) : M6 := A.reindex fun p => (p.2, p.1)

/-- `det(A)`; lines 375-381. -/
def det (A : V6) : Num :=
  item A 0 * item A 1 * item A 2 + intMul 2 (item A 3) * item A 4 * item A 5
    - (item A 4).sq * item A 0 - (item A 5).sq * item A 1 - (item A 3).sq * item A 2

/-- `inv(A, determinant=None, out=None)`; lines 427-448.  Without `out` the result is stored in
`Ai`, which has the dtype of `A`. -/
def inv (A : V6) (determinant : Option Num := none) (out : Option V6 := none) : Res V6 := do
  let detA := determinant.getD (det A)
  let Ai := A.reindex ![1, 0, 0, 4, 3, 3]
  let Aj := A.reindex ![2, 2, 1, 5, 5, 4]
  let Ak := A.reindex ![4, 5, 3, 3, 0, 1]
  let Al := A.reindex ![4, 5, 3, 2, 4, 5]
  let out := out.getD Ai
  let Aij ← store Ai (Ai * Aj)
  let Akl ← store Ak (Ak * Al)
  let detAinvA ← store out (Aij - Akl)
  store detAinvA (detAinvA.div (bc detA))

/-- `eye(A)`; lines 548-552: always of dtype `float64`. -/
def eye : V6 := .f64 ![1, 1, 1, 0, 0, 0]

/-- `weights = np.array([1, 1, 1, 2, 2, 2])`; line 635. -/
def weights : NArr (Fin 6) := .int .i64 ![1, 1, 1, 2, 2, 2]

/-- `ddot(A, B)`; line 637. -/
def ddot (A B : V6) : Num :=
  einsum [A.reindex Prod.snd, B.reindex Prod.snd, weights.reindex Prod.snd]

/-- `ddot(A, B, mode=(4, 4))`; line 639. -/
def ddot44 (A B : M6) : M6 :=
  einsum (κ := Fin 6) [A.reindex fun p => (p.1.1, p.2), B.reindex fun p => (p.2, p.1.2),
    weights.reindex Prod.snd]

/-- `ddot(A, B, mode=(2, 4))`; line 643. -/
def ddot24 (A : V6) (B : M6) : V6 :=
  einsum (κ := Fin 6) [A.reindex Prod.snd, B.reindex fun p => (p.2, p.1), weights.reindex Prod.snd]

/-- `dya(A, B)`; lines 697-701. -/
def dya (A B : V6) : M6 := A.reindex Prod.fst * B.reindex Prod.snd

/-- `cdya_ik(A, B)`; line 779. -/
def cdya_ik (A B : V6) : F4 := (astensor4 (dya A B)).reindex fun p => (p.1, p.2.2.1, p.2.1, p.2.2.2)

/-- The index arrays `ik`, `jl`, `il`, `kj` of `cdya`; lines 913-927.  They are given here for all
pairs: the code computes the pairs `p.1 ≤ p.2` and copies the values to the other triangle
(`Hel.cdyaOut`). -/
def cdyaIdx (i j : Fin 3 × Fin 3 → Fin 3 × Fin 3 → Fin 3) (p : Fin 6 × Fin 6) : Fin 6 :=
  let q := if p.1 ≤ p.2 then p else (p.2, p.1)
  tab (i (pairs q.1) (pairs q.2)) (j (pairs q.1) (pairs q.2))

/-- `cdya(A, B)`; lines 913-947.  `same` is the outcome of `A is B`. -/
def cdya (same : Bool) (A B : V6) : Res M6 := do
  let ik := cdyaIdx (fun p _ => p.1) (fun _ q => q.1)
  let jl := cdyaIdx (fun p _ => p.2) (fun _ q => q.2)
  let il := cdyaIdx (fun p _ => p.1) (fun _ q => q.2)
  let kj := cdyaIdx (fun _ q => q.1) (fun p _ => p.2)
  -- line 930
  let out : M6 := .f64 fun _ => 0
  -- lines 933-935
  let x ← store (A.reindex ik) (A.reindex ik * B.reindex jl)
  let y ← store (A.reindex il) (A.reindex il * B.reindex kj)
  let values := x + y
  let values ← if same = false then do
      -- lines 938-941
      let x ← store (B.reindex ik) (B.reindex ik * A.reindex jl)
      let y ← store (B.reindex il) (B.reindex il * A.reindex kj)
      let values ← iadd values (x + y)
      store values (values.divLit 4)
    else
      -- line 943
      store values (values.divLit 2)
  -- line 945
  store out values

/-! ### `ThirdOrderDeformation` and `Invariants` -/

/-- `x += y` on a local that may be `None`. -/
def addTo (x : Option Num) (y : Num) : Res (Option Num) :=
  match x with
  | some a => .ok (some (a + y))
  | none => .error .typeError

/-- `ThirdOrderDeformation.gradient`; `_third_order_deformation.py` lines 54-84, with Python
floats as parameters.  The invariants may be integers. -/
def todGradient (m : TOD ℝ) (I1 I2 _I3 : Num) (statevars : Z) : Res (InvGrad Num Z) := open Classical in do
  let undeformed : ℤ := if m.undeformed = 0 then 0 else 3
  let flt : ℝ → Num := fun x => .f64 fun _ => x
  -- lines 58-66
  let dWdI1 : Option Num :=
    if m.C10 ≠ 0 ∨ m.C11 ≠ 0 ∨ m.C20 ≠ 0 ∨ m.C30 ≠ 0 then some (flt 0) else none
  let dWdI2 : Option Num := if m.C01 ≠ 0 ∨ m.C11 ≠ 0 then some (flt 0) else none
  let dWdI3 : Option Num := none
  -- lines 68-82
  let dWdI1 ← if m.C10 ≠ 0 then addTo dWdI1 (flt m.C10) else .ok dWdI1
  let dWdI2 ← if m.C01 ≠ 0 then addTo dWdI2 (flt m.C01) else .ok dWdI2
  let dWdI1 ← if m.C11 ≠ 0 then addTo dWdI1 (floatMul m.C11 (I2.subLit undeformed)) else .ok dWdI1
  let dWdI2 ← if m.C11 ≠ 0 then addTo dWdI2 (floatMul m.C11 (I1.subLit undeformed)) else .ok dWdI2
  let dWdI1 ← if m.C20 ≠ 0 then addTo dWdI1 (floatMul (m.C20 * 2) (I1.subLit undeformed)) else .ok dWdI1
  let dWdI1 ← if m.C30 ≠ 0 then addTo dWdI1 (floatMul (m.C30 * 3) (I1.subLit undeformed).sq)
    else .ok dWdI1
  .ok { d1 := dWdI1, d2 := dWdI2, d3 := dWdI3, sv := statevars }

/-- `ThirdOrderDeformation.hessian`; lines 86-103. -/
def todHessian (m : TOD ℝ) (I1 _I2 _I3 : Num) (_statevars : Z) : Res (InvHess Num) := open Classical in
  let undeformed : ℤ := if m.undeformed = 0 then 0 else 3
  .ok {
    h11 := if m.C20 ≠ 0 ∨ m.C30 ≠ 0 then
        some (.f64 fun _ => m.C20 * 2 + (floatMul (m.C30 * 6) (I1.subLit undeformed)).val ()) else none
    h22 := none
    h33 := none
    h12 := if m.C11 ≠ 0 then some (.f64 fun _ => m.C11) else none
    h23 := none
    h13 := none }

/-- An invariant-based material object on numbers with a dtype. -/
structure InvMatT (Z μ : Type) where
  gradient : Num → Num → Num → Z → PyM μ (InvGrad Num Z)
  hessian : Num → Num → Num → Z → PyM μ (InvHess Num)

/-- `ThirdOrderDeformation` as a material object. -/
def todMat (m : TOD ℝ) : InvMatT Z Unit where
  gradient I1 I2 I3 z := PyM.lift (todGradient m I1 I2 I3 z)
  hessian I1 I2 I3 z := PyM.lift (todHessian m I1 I2 I3 z)

/-- A Total-Lagrange material object as seen by the spaces. -/
structure MaterialT (Z μ : Type) where
  gradient : V6 → Z → PyM μ (V6 × Z)
  hessian : V6 → Z → PyM μ M6

/-- What `Invariants.gradient` computes; the first two components are returned, the others are the
attributes. -/
structure InvOut (Z : Type) where
  dWdC : V6
  sv : Z
  I1 : Num
  I2 : Num
  I3 : Num
  r : InvGrad Num Z
  dI1dC : Option V6
  dI2dC : Option V6
  dI3dC : Option V6
  invC : Option V6

/-- Lines 168-170 of `_invariants.py` (the derivative of `I1` is the identity). -/
def addI1 (dWdC : V6) : Option Num → V6 × Option V6
  | some w => (dWdC + bc w * eye, some eye)
  | none => (dWdC, none)

/-- Lines 172-174. -/
def addI2 (C : V6) (I1 : Num) (dWdC : V6) : Option Num → V6 × Option V6
  | some w => (dWdC + bc w * (bc I1 * eye - C), some (bc I1 * eye - C))
  | none => (dWdC, none)

/-- Lines 176-179. -/
def addI3 (C : V6) (I3 : Num) (dWdC : V6) : Option Num → Res (V6 × Option V6 × Option V6)
  | some w => do
    let invC ← inv C (some I3)
    .ok (dWdC + bc w * (bc I3 * invC), some (bc I3 * invC), some invC)
  | none => .ok (dWdC, none, none)

/-- `Invariants.gradient` with the attributes it sets; `_invariants.py` lines 150-181. -/
def invGradientFull (mat : InvMatT Z μ) (C : V6) (statevars : Z) : PyM μ (InvOut Z) := do
  let I1 := trace C
  let I2 := (I1.sq - ddot C C).divLit 2
  let I3 := det C
  let r ← mat.gradient I1 I2 I3 statevars
  let dWdC : V6 := .f64 fun _ => 0
  let p1 := addI1 dWdC r.d1
  let p2 := addI2 C I1 p1.1 r.d2
  let p3 ← PyM.lift (addI3 C I3 p2.1 r.d3)
  pure { dWdC := p3.1, sv := r.sv, I1, I2, I3, r, dI1dC := p1.2, dI2dC := p2.2, dI3dC := p3.2.1,
         invC := p3.2.2 }

/-- `Invariants.gradient`. -/
def invGradient (mat : InvMatT Z μ) (C : V6) (statevars : Z) : PyM μ (V6 × Z) := do
  let o ← invGradientFull mat C statevars
  pure (o.dWdC, o.sv)

/-- `if cond is not None: acc = acc + coef * T(x, y)`. -/
def addTerm (acc : M6) (cond coef : Option Num) (x y : Option V6) (T : V6 → V6 → M6) : PyM μ M6 :=
  match cond with
  | some _ => do
    let x ← PyM.localVar x
    let y ← PyM.localVar y
    match coef with
    | some d => pure (acc + bc d * T x y)
    | none => PyM.raise .typeError
  | none => pure acc

/-- `dya(x, y) + dya(y, x)` -/
def dyaSum (x y : V6) : M6 := dya x y + dya y x

/-- Lines 208-211. -/
def addH2 (acc : M6) : Option Num → Res M6
  | some w => do
    let c ← cdya true eye eye
    .ok (acc + bc w * (dya eye eye - c))
  | none => .ok acc

/-- Lines 213-217. -/
def addH3 (acc : M6) (I3 : Num) (invC : Option V6) : Option Num → PyM μ M6
  | some w => do
    let invC ← PyM.localVar invC
    let c ← PyM.lift (cdya true invC invC)
    pure (acc + bc w * (bc I3 * (dya invC invC - c)))
  | none => pure acc

/-- `Invariants.hessian`; lines 183-237. -/
def invHessian (mat : InvMatT Z μ) (C : V6) (statevars : Z) : PyM μ M6 := do
  let o ← invGradientFull mat C statevars
  let h ← mat.hessian o.I1 o.I2 o.I3 o.sv
  let d2WdCdC : M6 := .f64 fun _ => 0
  let d2WdCdC ← PyM.lift (addH2 d2WdCdC o.r.d2)
  let d2WdCdC ← addH3 d2WdCdC o.I3 o.invC o.r.d3
  let d2WdCdC ← addTerm d2WdCdC h.h11 h.h11 o.dI1dC o.dI1dC dya
  let d2WdCdC ← addTerm d2WdCdC h.h22 h.h22 o.dI2dC o.dI2dC dya
  let d2WdCdC ← addTerm d2WdCdC h.h33 h.h22 o.dI2dC o.dI2dC dya
  let d2WdCdC ← addTerm d2WdCdC h.h12 h.h12 o.dI1dC o.dI2dC dyaSum
  let d2WdCdC ← addTerm d2WdCdC h.h23 h.h23 o.dI2dC o.dI3dC dyaSum
  let d2WdCdC ← addTerm d2WdCdC h.h13 h.h13 o.dI1dC o.dI3dC dyaSum
  pure d2WdCdC

/-- An `Invariants` object as a material. -/
def invMaterial (mat : InvMatT Z μ) : MaterialT Z μ where
  gradient := invGradient mat
  hessian := invHessian mat

/-- A material which computes with the numbers it is given and returns floats, such as a
`Stretches` object: `np.linalg.eigh` (`_voigt.py` line 952) converts integers to `float64`, and all
that follows are floats. -/
def floatMaterial (mat : Material ℝ Z μ) : MaterialT Z μ where
  gradient C z := do
    let r ← mat.gradient C.val z
    pure (.f64 r.1, r.2)
  hessian C z := do
    let r ← mat.hessian C.val z
    pure (.f64 fun p => r p.1 p.2)

/-! ### the spaces -/

/-- A stress or an elasticity result. -/
inductive StressT where
  | voigt (s : V6)
  | full (p : F2)

inductive ElasticityT where
  | voigt (c : M6)
  | full (a : F4)

/-- `asvoigt(self.einsum("kI...,kJ...->IJ...", F, F))`; e.g. `_space.py` line 73. -/
def rightCauchyGreen (F : F2) : V6 :=
  asvoigt (einsum (κ := Fin 3) [F.reindex fun p => (p.2, p.1.1), F.reindex fun p => (p.2, p.1.2)])

/-- The force configuration of a stress; `_space.py` lines 60-68. -/
def forceStress (force : Option Int) (F : F2) (stress : F2) : Res F2 :=
  match force with
  | none => einsumOut (κ := Fin 3) stress
      [F.reindex fun p => (p.1.1, p.2), stress.reindex fun p => (p.2, p.1.2)]
  | some _ => .ok stress

/-- `Space.piola(F, S, detF)`; `_space.py` lines 52-81. -/
def piolaStress (cfg : SpaceCfg) (F : F2) (S : V6) (detF : Option Num) : Res StressT :=
  if cfg.finalize then do
    let stress ← forceStress cfg.force F (astensor S)
    match cfg.area with
    | none =>
      let detF := detF.getD (det (rightCauchyGreen F)).sqrt
      let e ← einsumOut (κ := Fin 3) stress
        [F.reindex fun p => (p.1.2, p.2), stress.reindex fun p => (p.1.1, p.2)]
      .ok (.full (e.div (bc detF)))
    | some _ => .ok (.full stress)
  else .ok (.voigt S)

/-- The force configuration of an elasticity tensor and the local `I3`; `_space.py` lines 92-115. -/
def forceElasticity (force : Option Int) (F : F2) (S : V6) (elasticity : F4) (invC : Option V6) :
    Res (F4 × Option Num) :=
  match force with
  | none => do
    let e ← einsumOut (κ := Fin 3 × Fin 3) elasticity
      [F.reindex fun p => (p.1.1, p.2.1), F.reindex fun p => (p.1.2.2.1, p.2.2),
       elasticity.reindex fun p => (p.2.1, p.1.2.1, p.2.2, p.1.2.2.2)]
    let e ← iadd e (cdya_ik eye S)
    .ok (e, none)
  | some _ =>
    match invC with
    | none => do
      let C := rightCauchyGreen F
      let I3 := det C
      let invC ← inv C (some I3)
      let e ← iadd elasticity (cdya_ik invC S)
      .ok (e, some I3)
    | some invC => do
      let e ← iadd elasticity (cdya_ik invC S)
      .ok (e, none)

/-- `Space.piola(F, S, detF, C4, invC)`; `_space.py` lines 83-139. -/
def piolaElasticity (cfg : SpaceCfg) (F : F2) (S : V6) (detF : Option Num) (C4 : M6)
    (invC : Option V6) : Res ElasticityT :=
  if cfg.finalize then do
    let (e, I3) ← forceElasticity cfg.force F S (astensor4 C4) invC
    match cfg.area with
    | none =>
      let detF := detF.getD (I3.getD (det (rightCauchyGreen F))).sqrt
      let r ← einsumOut (κ := Fin 3 × Fin 3) e
        [F.reindex fun p => (p.1.2.1, p.2.1), F.reindex fun p => (p.1.2.2.2, p.2.2),
         e.reindex fun p => (p.1.1, p.2.1, p.1.2.2.1, p.2.2)]
      .ok (.full (r.div (bc detF)))
    | some _ => .ok (.full e)
  else .ok (.voigt C4)

/-- `Deformation.gradient`; `_deformation.py` lines 69-80. -/
def defGradient (cfg : SpaceCfg) (mat : MaterialT Z μ) (F : F2) (statevars : Z) :
    PyM μ (StressT × Z) := do
  let C := rightCauchyGreen F
  let r ← mat.gradient C statevars
  let S := intMul 2 r.1
  let P ← PyM.lift (piolaStress cfg F S none)
  pure (P, r.2)

/-- `Deformation.hessian`; `_deformation.py` lines 82-91. -/
def defHessian (cfg : SpaceCfg) (mat : MaterialT Z μ) (F : F2) (statevars : Z) :
    PyM μ ElasticityT := do
  let C := rightCauchyGreen F
  let r ← mat.gradient C statevars
  let S := intMul 2 r.1
  let _ ← PyM.lift (piolaStress cfg F S none)
  let d2WdCdC ← mat.hessian C statevars
  PyM.lift (piolaElasticity cfg F S none (intMul 4 d2WdCdC) none)

/-- The attributes set by `Distortional.gradient`. -/
structure DistOut (Z : Type) where
  C : V6
  I3 : Num
  Cu : V6
  Sb : V6
  SbC : Num
  invC : V6
  S : V6
  P : StressT
  sv : Z

/-- `Distortional.gradient` with the attributes; `_distortional.py` lines 154-171. -/
def distGradientFull (cfg : SpaceCfg) (mat : MaterialT Z μ) (F : F2) (statevars : Z) :
    PyM μ (DistOut Z) := do
  let C := rightCauchyGreen F
  let I3 := det C
  let Cu := bc (I3.powFloat (-1 / 3)) * C
  let r ← mat.gradient Cu statevars
  let Sb := bc (intMul 2 (I3.powFloat (-1 / 3))) * r.1
  let SbC := ddot Sb C
  let invC ← PyM.lift (inv C (some I3))
  let S := Sb - bc (SbC.divLit 3) * invC
  let P ← PyM.lift (piolaStress cfg F S (some I3.sqrt))
  pure { C, I3, Cu, Sb, SbC, invC, S, P, sv := r.2 }

/-- `Distortional.gradient`. -/
def distGradient (cfg : SpaceCfg) (mat : MaterialT Z μ) (F : F2) (statevars : Z) :
    PyM μ (StressT × Z) := do
  let o ← distGradientFull cfg mat F statevars
  pure (o.P, o.sv)

open Classical in
/-- Lines 194-195 of `_distortional.py`. -/
def distAdd (C4 C4b P4 : M6) : Res M6 :=
  if ¬ ∀ p, |C4b.val p| ≤ 1 / 10 ^ 8 then iadd C4 (ddot44 (ddot44 P4 C4b) (transpose P4)) else .ok C4

/-- `Distortional.hessian`; `_distortional.py` lines 173-197. -/
def distHessian (cfg : SpaceCfg) (mat : MaterialT Z μ) (F : F2) (statevars : Z) :
    PyM μ ElasticityT := do
  let o ← distGradientFull cfg mat F statevars
  let d2WdCdC ← mat.hessian o.Cu statevars
  let C4b := bc (intMul 4 (o.I3.powFloat (-2 / 3))) * d2WdCdC
  let II ← PyM.lift (cdya true eye eye)
  let P4 := II - (dya o.invC o.C).divLit 3
  let I4 ← PyM.lift (cdya true o.invC o.invC)
  let SbinvC := dya o.Sb o.invC
  let invCSb := transpose SbinvC
  let invCinvC := dya o.invC o.invC
  let C4 := floatMul (2 / 3) (bc o.SbC * I4 - SbinvC - invCSb + bc (o.SbC.divLit 3) * invCinvC)
  let C4 ← PyM.lift (distAdd C4 C4b P4)
  PyM.lift (piolaElasticity cfg F o.S (some o.I3.sqrt) C4 (some o.invC))

/-- The attributes set by `Dilatational.gradient`. -/
structure DilOut (Z : Type) where
  C : V6
  I3 : Num
  Co : V6
  tr_Sb : Num
  invC : V6
  S : V6
  P : StressT
  sv : Z

/-- `Dilatational.gradient` with the attributes; `_dilatational.py` lines 17-30. -/
def dilGradientFull (cfg : SpaceCfg) (mat : MaterialT Z μ) (F : F2) (statevars : Z) :
    PyM μ (DilOut Z) := do
  let C := rightCauchyGreen F
  let I3 := det C
  let Co := bc (I3.powFloat (1 / 3)) * C
  let r ← mat.gradient Co statevars
  let Sb := bc (intMul 2 (I3.powFloat (1 / 3))) * r.1
  let tr_Sb := trace Sb
  let invC ← PyM.lift (inv C (some I3))
  let S := bc (tr_Sb.divLit 3) * invC
  let P ← PyM.lift (piolaStress cfg F S (some I3.sqrt))
  pure { C, I3, Co, tr_Sb, invC, S, P, sv := r.2 }

/-- `Dilatational.gradient`. -/
def dilGradient (cfg : SpaceCfg) (mat : MaterialT Z μ) (F : F2) (statevars : Z) :
    PyM μ (StressT × Z) := do
  let o ← dilGradientFull cfg mat F statevars
  pure (o.P, o.sv)

/-- `Dilatational.hessian`; `_dilatational.py` lines 32-48. -/
def dilHessian (cfg : SpaceCfg) (mat : MaterialT Z μ) (F : F2) (statevars : Z) :
    PyM μ ElasticityT := do
  let o ← dilGradientFull cfg mat F statevars
  let d2WodCodCo ← mat.hessian o.Co statevars
  let C4b := bc (intMul 4 (o.I3.powFloat (2 / 3))) * d2WodCodCo
  let tr_C4b := ddot (ddot24 eye C4b) eye
  let I4 ← PyM.lift (cdya true o.invC o.invC)
  let C4 := (bc (intMul 2 o.tr_Sb + tr_C4b) * dya o.invC o.invC).divLit 9
    - bc (floatMul (2 / 3) o.tr_Sb) * I4
  PyM.lift (piolaElasticity cfg F o.S (some o.I3.sqrt) C4 (some o.invC))

/-! ### `Ogden`, the load cases -/

/-- `Ogden.gradient`; `models/stretches/_ogden.py` lines 43-52, with Python floats as parameters. -/
def ogdenGradient (terms : List (ℝ × ℝ)) (stretches : NArr (Fin 3)) (statevars : Z) :
    Res (NArr (Fin 3) × Z) := do
  -- np.zeros_like(stretches): the dtype of the stretches
  let zero : NArr (Fin 3) := match stretches with
    | .int w _ => .int w fun _ => 0
    | .f64 _ => .f64 fun _ => 0
  let dW ← terms.foldlM (fun acc (t : ℝ × ℝ) =>
    iadd acc (floatMul (2 * t.1 / t.2) (stretches.powFloat (t.2 - 1)))) zero
  .ok (dW, statevars)

/-- `1 / A`. -/
def recip (A : NArr ι) : NArr ι := .f64 fun i => 1 / A.val i

/-- `np.array([[..], [..], [..]])` of arrays of one shape: the common dtype. -/
def array33 (A : Fin 3 → Fin 3 → NArr ι) : NArr (Fin 3 × Fin 3 × ι) :=
  match common ((List.finRange 3).flatMap fun i => (List.finRange 3).map fun j => A i j) with
  | some w => .int w fun p => (A p.1 p.2.1).ints p.2.2
  | none => .f64 fun p => (A p.1 p.2.1).val p.2.2

/-- `np.zeros_like(A)`, `np.ones_like(A)`. -/
def fullLike (A : NArr ι) (n : ℤ) : NArr ι :=
  match A with
  | .int w _ => .int w fun _ => n
  | .f64 _ => .f64 fun _ => n

/-- `Uniaxial.defgrad`; `_load_case.py` lines 85-92. -/
def uniaxial (stretch : NArr ι) : NArr (Fin 3 × Fin 3 × ι) :=
  let x := stretch
  let y := recip stretch.sqrt
  let z := fullLike stretch 0
  array33 ![![x, z, z], ![z, y, z], ![z, z, y]]

/-- `Biaxial.defgrad`; lines 110-117. -/
def biaxial (stretch : NArr ι) : NArr (Fin 3 × Fin 3 × ι) :=
  let x := stretch
  let y := recip stretch.sq
  let z := fullLike stretch 0
  array33 ![![x, z, z], ![z, x, z], ![z, z, y]]

/-- `Planar.defgrad`; lines 135-143. -/
def planar (stretch : NArr ι) : NArr (Fin 3 × Fin 3 × ι) :=
  let x := stretch
  let y := recip stretch
  let o := fullLike stretch 1
  let z := fullLike stretch 0
  array33 ![![x, z, z], ![z, o, z], ![z, z, y]]

end

end Hel.Dt
