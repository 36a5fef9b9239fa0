import Verif.Model.Space

/-!
# Shapes: the code as it acts on array shapes

Every array is replaced by its shape and every numpy call by its effect on shapes,
including the `ValueError` raised for shapes which do not fit.  State variables are opaque
to the library and left out.  Cached attributes are passed as results (that no stale
attribute is ever read is C35).
-/

namespace Hel.Sh

/-- The shape of an array. -/
abbrev Shape := List ℕ

/-- numpy broadcasting of two axis lengths. -/
def axis (a b : ℕ) : Res ℕ :=
  if a = b then .ok a else if a = 1 then .ok b else if b = 1 then .ok a else .error .valueError

/-- Right-aligned broadcasting, on reversed shapes. -/
def bcastRev : Shape → Shape → Res Shape
  | [], ys => .ok ys
  | x :: xs, [] => .ok (x :: xs)
  | x :: xs, y :: ys => do
    let d ← axis x y
    let r ← bcastRev xs ys
    .ok (d :: r)

/-- `np.broadcast_shapes(a, b)`; also the shape of `a * b`, `a + b`, ... -/
def bcast (a b : Shape) : Res Shape := do
  let r ← bcastRev a.reverse b.reverse
  .ok r.reverse

/-- Shape of `a` after `a += b` (in place): the broadcast shape must be the shape of `a`. -/
def inplace (a b : Shape) : Res Shape := do
  let r ← bcast a b
  if r = a then .ok a else .error .valueError

/-- `np.broadcast_to(a, s)`. -/
def broadcastTo (a s : Shape) : Res Shape := do
  let r ← bcast a s
  if r = s then .ok s else .error .valueError

/-- An operand of an `einsum` call: its subscripts before `...`, whether it has `...`, its
shape. -/
structure Op where
  labels : List Char
  ell : Bool := true
  shape : Shape

/-- The axes of an operand belonging to its subscripts; `einsum` raises if there are not
enough axes, or too many without an ellipsis. -/
def Op.check (o : Op) : Res Unit :=
  if o.shape.length < o.labels.length ∨ (o.ell = false ∧ o.shape.length ≠ o.labels.length) then
    .error .valueError
  else .ok ()

/-- The trailing axes of an operand. -/
def Op.trailing (o : Op) : Shape := o.shape.drop o.labels.length

/-- The length of the axis `c`: axes with the same subscript are broadcast against each
other. -/
def labelDim (ops : List Op) (c : Char) : Res ℕ :=
  ((ops.flatMap fun o => (o.labels.zip o.shape).filter fun p => p.1 == c).map Prod.snd).foldlM axis 1

/-- `np.einsum(subscripts, *ops, out=buf)`: subscripts of the operands in `ops`, result
subscripts `out...`.  The output operand is not broadcast. -/
def einsum (ops : List Op) (out : List Char) (buf : Option Shape := none) : Res Shape := do
  ops.forM Op.check
  let core ← out.mapM (labelDim ops)
  let tr ← (ops.map Op.trailing).foldlM bcast []
  let r := core ++ tr
  match buf with
  | none => .ok r
  | some b =>
    if b.length ≠ r.length then .error .valueError
    else do
      let r' ← bcast r b
      if r' = b then .ok b else .error .valueError

/-- `np.allclose(a, b)` of two tuples of integers: they are broadcast against each other
(one axis each); then `|a - b| ≤ 1e-8 + 1e-5 * |b|` everywhere. -/
def allcloseShapes (a b : Shape) : Res Bool :=
  let close : ℕ → ℕ → Bool := fun x y => decide (|(x : ℤ) - y| * 10 ^ 8 ≤ 1 + 1000 * y)
  match a, b with
  | [x], b => .ok (b.all (close x))
  | a, [y] => .ok (a.all (close · y))
  | a, b => if a.length = b.length then .ok ((a.zip b).all fun p => close p.1 p.2)
            else .error .valueError

/-! ### `math/_voigt.py` -/

/-- `A[idx]` with index arrays of shape `idx` reaching up to `n - 1` on the first axis. -/
def fancy (n : ℕ) (idx : Shape) : Shape → Res Shape
  | [] => .error .indexError
  | d :: t => if n ≤ d then .ok (idx ++ t) else .error .indexError

/-- The same with two index arrays for the first two axes. -/
def fancy2 (n m : ℕ) (idx : Shape) : Shape → Res Shape
  | d :: e :: t => if n ≤ d ∧ m ≤ e then .ok (idx ++ t) else .error .indexError
  | _ => .error .indexError

/-- `asvoigt(A)`, mode 2; `_voigt.py` lines 85-89. -/
def asvoigt (A : Shape) : Res Shape := fancy2 3 3 [6] A

/-- `astensor(A)`, mode 2; lines 213-216. -/
def astensor (A : Shape) : Res Shape := fancy 6 [3, 3] A

/-- `astensor(A, mode=4)`; lines 218-221. -/
def astensor4 (A : Shape) : Res Shape := fancy2 6 6 [3, 3, 3, 3] A

/-- `A[i]`. -/
def item : Shape → Res Shape
  | [] => .error .indexError
  | _ :: t => .ok t

/-- `trace`, `np.sum(A[:3], axis=0)`; line 286. -/
def trace (A : Shape) : Res Shape := item A

/-- `transpose`, `np.swapaxes`-like exchange of the first two axes; line 343. -/
def transpose : Shape → Res Shape
  | a :: b :: t => .ok (b :: a :: t)
  | _ => .error .valueError

/-- `det`; lines 375-381: sums and products of the entries. -/
def det (A : Shape) : Res Shape := item A

/-- `inv(A, determinant=d)`; lines 428-447 (`out=None`: the result is stored in `Ai`, which
has the shape of `A`; the determinant is broadcast against it). -/
def inv (A : Shape) (determinant : Shape) : Res Shape := do
  let Ai ← fancy 6 [6] A
  let _ ← broadcastTo determinant Ai
  .ok Ai

/-- `eye(A)`; lines 548-552. -/
def eye (A : Shape) : Shape := 6 :: (A.drop 1).map fun _ => 1

/-- `ddot(A, B, mode=(2, 2))`; line 636. -/
def ddot (A B : Shape) : Res Shape :=
  einsum [⟨['i'], true, A⟩, ⟨['i'], true, B⟩, ⟨['i'], false, [6]⟩] []

/-- `ddot(A, B, mode=(4, 4))`; line 638. -/
def ddot44 (A B : Shape) : Res Shape :=
  einsum [⟨['i', 'k'], true, A⟩, ⟨['k', 'j'], true, B⟩, ⟨['k'], false, [6]⟩] ['i', 'j']

/-- `ddot(A, B, mode=(2, 4))`; line 642. -/
def ddot24 (A B : Shape) : Res Shape :=
  einsum [⟨['i'], true, A⟩, ⟨['i', 'j'], true, B⟩, ⟨['i'], false, [6]⟩] ['j']

/-- `A.reshape(-1, 1, *A.shape[1:])` (`pos = 0`) or `A.reshape(1, -1, *A.shape[1:])`: numpy
cannot infer the axis `-1` of an empty array and raises. -/
def reshapeDya (first : Bool) (A : Shape) : Res Shape := do
  match A with
  | [] => .error .indexError
  | d :: t =>
    if t.prod = 0 then .error .valueError
    else .ok (if first then d :: 1 :: t else 1 :: d :: t)

/-- `dya(A, B)`; lines 697-701. -/
def dya (A B : Shape) : Res Shape := do
  let a ← reshapeDya true A
  let b ← reshapeDya false B
  bcast a b

/-- `cdya_ik(A, B)`; line 779 (swapping axes 1 and 2, both of length three). -/
def cdya_ik (A B : Shape) : Res Shape := do
  let d ← dya A B
  match ← astensor4 d with
  | a :: b :: c :: t => .ok (a :: c :: b :: t)
  | _ => .error .valueError

/-- `cdya(A, B)`, `out=None`; lines 909-947: the buffer, the broadcast arguments, the values
at the 21 upper-triangle positions, written at `[ij, kl]` and `[kl, ij]`. -/
def cdya (A B : Shape) : Res Shape := do
  let s ← bcast A B
  let out := 6 :: s
  let values ← fancy 6 [21] s
  let target ← fancy2 6 6 [21] out
  let _ ← broadcastTo values target
  .ok out

/-! ### `spaces/_space.py` -/

/-- `asvoigt(self.einsum("kI...,kJ...->IJ...", F, F))`. -/
def rightCauchyGreen (F : Shape) : Res Shape := do
  let E ← einsum [⟨['k', 'I'], true, F⟩, ⟨['k', 'J'], true, F⟩] ['I', 'J']
  asvoigt E

/-- The broadcast destination array; `_space.py` lines 64-66 and 96-98. -/
def widen (new_shape a : Shape) : Res Shape := do
  let same ← allcloseShapes new_shape a
  if same then .ok a else broadcastTo a new_shape

/-- `detF`, computed from `F` if it is not given; lines 72-75 and 120-126 (the value of `I3`
computed earlier in the same call has the same shape). -/
def detFOf (F : Shape) (detF : Option Shape) : Res Shape :=
  match detF with
  | some d => .ok d
  | none => do
    let C ← rightCauchyGreen F
    det C

/-- `invC`, computed from `F` if it is not given; lines 109-112. -/
def invCOf (F : Shape) (invC : Option Shape) : Res Shape :=
  match invC with
  | some x => .ok x
  | none => do
    let C ← rightCauchyGreen F
    let I3 ← det C
    inv C I3

/-- Lines 62-68: force to the deformed configuration. -/
def forceStress (F stress : Shape) : Res Shape := do
  let new_shape ← bcast F stress
  let stress ← widen new_shape stress
  einsum [⟨['i', 'I'], true, F⟩, ⟨['I', 'J'], true, stress⟩] ['i', 'J'] (some stress)

/-- Lines 72-79: area to the deformed configuration. -/
def areaStress (F stress : Shape) (detF : Option Shape) : Res Shape := do
  let detF ← detFOf F detF
  let stress ←
    einsum [⟨['j', 'J'], true, F⟩, ⟨['i', 'J'], true, stress⟩] ['i', 'j'] (some stress)
  bcast stress detF

/-- `Space.piola`, stress branch; `_space.py` lines 52-81. -/
def piolaStress (cfg : SpaceCfg) (F S : Shape) (detF : Option Shape) : Res Shape :=
  if cfg.finalize then do
    let stress ← astensor S
    let stress ← (if cfg.force.isNone then forceStress F stress else .ok stress)
    (if cfg.area.isNone then areaStress F stress detF else .ok stress)
  else .ok S

/-- Lines 94-104: force to the deformed configuration, initial stress contribution. -/
def forceElasticity (F S elasticity : Shape) : Res Shape := do
  let new_shape ← bcast (3 :: 3 :: F) elasticity
  let elasticity ← widen new_shape elasticity
  let elasticity ← einsum [⟨['i', 'I'], true, F⟩, ⟨['k', 'K'], true, F⟩,
    ⟨['I', 'J', 'K', 'L'], true, elasticity⟩] ['i', 'J', 'k', 'L'] (some elasticity)
  let geo ← cdya_ik (eye S) S
  inplace elasticity geo

/-- Lines 109-115: force in the undeformed configuration. -/
def referenceElasticity (F S elasticity : Shape) (invC : Option Shape) : Res Shape := do
  let invC ← invCOf F invC
  let geo ← cdya_ik invC S
  inplace elasticity geo

/-- Lines 120-137: area to the deformed configuration. -/
def areaElasticity (F elasticity : Shape) (detF : Option Shape) : Res Shape := do
  let detF ← detFOf F detF
  let elasticity ← einsum [⟨['j', 'J'], true, F⟩, ⟨['l', 'L'], true, F⟩,
      ⟨['i', 'J', 'k', 'L'], true, elasticity⟩] ['i', 'j', 'k', 'l'] (some elasticity)
  bcast elasticity detF

/-- `Space.piola`, elasticity branch; `_space.py` lines 83-139. -/
def piolaElasticity (cfg : SpaceCfg) (F S : Shape) (detF : Option Shape) (C4 : Shape)
    (invC : Option Shape) : Res Shape :=
  if cfg.finalize then do
    let elasticity ← astensor4 C4
    let elasticity ← (if cfg.force.isNone then forceElasticity F S elasticity
      else referenceElasticity F S elasticity invC)
    (if cfg.area.isNone then areaElasticity F elasticity detF else .ok elasticity)
  else .ok C4

/-- A framework as seen by a space: the shapes of `dWdC` and `d2WdCdC` for the shape of `C`. -/
structure Mat where
  gradient : Shape → Res Shape
  hessian : Shape → Res Shape

/-! ### The three spaces -/

/-- `Deformation.gradient`; `_deformation.py` lines 69-80; returns `self.S` as well. -/
def Deformation.gradientS (cfg : SpaceCfg) (mat : Mat) (F : Shape) : Res (Shape × Shape) := do
  let C ← rightCauchyGreen F
  let dWdC ← mat.gradient C
  let S ← bcast [] dWdC
  let P ← piolaStress cfg F S none
  .ok (P, S)

/-- The shape of the stress returned by `Deformation.gradient`. -/
def Deformation.gradient (cfg : SpaceCfg) (mat : Mat) (F : Shape) : Res Shape := do
  let r ← gradientS cfg mat F
  .ok r.1

/-- `Deformation.hessian`; `_deformation.py` lines 82-91. -/
def Deformation.hessian (cfg : SpaceCfg) (mat : Mat) (F : Shape) : Res Shape := do
  let r ← gradientS cfg mat F
  let C ← rightCauchyGreen F
  let d2WdCdC ← mat.hessian C
  let C4 ← bcast [] d2WdCdC
  piolaElasticity cfg F r.2 none C4 none

/-- Attributes assigned by `Distortional.gradient`. -/
structure DistAttrs where
  C : Shape
  I3 : Shape
  Cu : Shape
  Sb : Shape
  SbC : Shape
  invC : Shape
  S : Shape
  P : Shape

/-- `Distortional.gradient`; `_distortional.py` lines 154-171. -/
def Distortional.run (cfg : SpaceCfg) (mat : Mat) (F : Shape) : Res DistAttrs := do
  let C ← rightCauchyGreen F
  let I3 ← det C
  let Cu ← bcast I3 C
  let dWudCu ← mat.gradient Cu
  let Sb ← bcast I3 dWudCu
  let SbC ← ddot Sb C
  let invC ← inv C I3
  let SbCinvC ← bcast SbC invC
  let S ← bcast Sb SbCinvC
  let P ← piolaStress cfg F S (some I3)
  .ok ⟨C, I3, Cu, Sb, SbC, invC, S, P⟩

/-- The shape of the stress returned by `Distortional.gradient`. -/
def Distortional.gradient (cfg : SpaceCfg) (mat : Mat) (F : Shape) : Res Shape := do
  let r ← run cfg mat F
  .ok r.P

/-- `if not np.allclose(C4b, 0): C4 += ...`; `_distortional.py` lines 194-195. -/
def Distortional.addProjected (small : Bool) (P4 C4b C4 : Shape) : Res Shape :=
  if small then .ok C4 else do
    let X ← ddot44 P4 C4b
    let Pt ← transpose P4
    let X ← ddot44 X Pt
    inplace C4 X

/-- `Distortional.hessian`; `_distortional.py` lines 173-197.  `small` is the outcome of
`np.allclose(C4b, 0)`. -/
def Distortional.hessian (cfg : SpaceCfg) (mat : Mat) (small : Bool) (F : Shape) : Res Shape := do
  let r ← run cfg mat F
  let I := eye r.C
  let d2WdCdC ← mat.hessian r.Cu
  let C4b ← bcast r.I3 d2WdCdC
  let II ← cdya I I
  let iC ← dya r.invC r.C
  let P4 ← bcast II iC
  let I4 ← cdya r.invC r.invC
  let SbinvC ← dya r.Sb r.invC
  let invCSb ← transpose SbinvC
  let invCinvC ← dya r.invC r.invC
  let C4 ← bcast r.SbC I4
  let C4 ← bcast C4 SbinvC
  let C4 ← bcast C4 invCSb
  let last ← bcast r.SbC invCinvC
  let C4 ← bcast C4 last
  let C4 ← addProjected small P4 C4b C4
  piolaElasticity cfg F r.S (some r.I3) C4 (some r.invC)

/-- Attributes assigned by `Dilatational.gradient`. -/
structure DilAttrs where
  C : Shape
  I3 : Shape
  Co : Shape
  trSb : Shape
  invC : Shape
  S : Shape
  P : Shape

/-- `Dilatational.gradient`; `_dilatational.py` lines 17-30. -/
def Dilatational.run (cfg : SpaceCfg) (mat : Mat) (F : Shape) : Res DilAttrs := do
  let C ← rightCauchyGreen F
  let I3 ← det C
  let Co ← bcast I3 C
  let dWodCo ← mat.gradient Co
  let Sb ← bcast I3 dWodCo
  let trSb ← trace Sb
  let invC ← inv C I3
  let S ← bcast trSb invC
  let P ← piolaStress cfg F S (some I3)
  .ok ⟨C, I3, Co, trSb, invC, S, P⟩

/-- The shape of the stress returned by `Dilatational.gradient`. -/
def Dilatational.gradient (cfg : SpaceCfg) (mat : Mat) (F : Shape) : Res Shape := do
  let r ← run cfg mat F
  .ok r.P

/-- `Dilatational.hessian`; `_dilatational.py` lines 32-48. -/
def Dilatational.hessian (cfg : SpaceCfg) (mat : Mat) (F : Shape) : Res Shape := do
  let r ← run cfg mat F
  let d2WodCodCo ← mat.hessian r.Co
  let C4b ← bcast r.I3 d2WodCodCo
  let I := eye r.C
  let X ← ddot24 I C4b
  let trC4b ← ddot X I
  let I4 ← cdya r.invC r.invC
  let f ← bcast r.trSb trC4b
  let D ← dya r.invC r.invC
  let A ← bcast f D
  let B ← bcast r.trSb I4
  let C4 ← bcast A B
  piolaElasticity cfg F r.S (some r.I3) C4 (some r.invC)

/-! ### `frameworks/_invariants.py` -/

/-- An invariant-based model on shapes: the three first derivatives and the six second
derivatives (11, 22, 33, 12, 23, 13), `None` allowed.  A Python number has the shape `()`. -/
structure InvModel where
  gradient : Shape → Shape → Shape → Res (InvGrad Shape Unit)
  hessian : Shape → Shape → Shape → Res (InvHess Shape)

/-- `if d is not None: acc = acc + d * x`. -/
def addTerm (acc : Shape) (d : Option Shape) (x : Res Shape) : Res Shape :=
  match d with
  | none => .ok acc
  | some s => do
    let x ← x
    let p ← bcast s x
    bcast acc p

/-- Attributes assigned by `Invariants.gradient`. -/
structure InvAttrs where
  I : Shape
  I1 : Shape
  I2 : Shape
  I3 : Shape
  g : InvGrad Shape Unit
  dI1dC : Option Shape
  dI2dC : Option Shape
  dI3dC : Option Shape
  invC : Option Shape
  dWdC : Shape

/-- Values computed inside `if d is not None:`. -/
def ifGiven (d : Option Shape) (x : Res Shape) : Res (Option Shape) :=
  match d with
  | none => .ok none
  | some _ => do
    let s ← x
    .ok (some s)

/-- A local variable that is unbound unless its `if` branch was taken. -/
def bound (x : Option Shape) : Res Shape :=
  match x with
  | some s => .ok s
  | none => .error .unboundLocal

/-- `Invariants.gradient`; `_invariants.py` lines 150-181. -/
def Invariants.run (mat : InvModel) (C : Shape) : Res InvAttrs := do
  let I := eye C
  let I1 ← trace C
  let CC ← ddot C C
  let I2 ← bcast I1 CC
  let I3 ← det C
  let g ← mat.gradient I1 I2 I3
  let dWdC : Shape := 6 :: (C.drop 1).map fun _ => 1
  -- lines 168-170
  let dI1dC ← ifGiven g.d1 (.ok I)
  let dWdC ← addTerm dWdC g.d1 (bound dI1dC)
  -- lines 172-174
  let dI2dC ← ifGiven g.d2 (do
    let I1I ← bcast I1 I
    bcast I1I C)
  let dWdC ← addTerm dWdC g.d2 (bound dI2dC)
  -- lines 176-179
  let invC ← ifGiven g.d3 (inv C I3)
  let dI3dC ← ifGiven g.d3 (do
    let i ← bound invC
    bcast I3 i)
  let dWdC ← addTerm dWdC g.d3 (bound dI3dC)
  .ok { I, I1, I2, I3, g, dWdC, dI1dC, dI2dC, dI3dC, invC }

/-- `dya(x, y)` of two locals that may be unbound. -/
def dyaOf (x y : Option Shape) : Res Shape := do
  let a ← bound x
  let b ← bound y
  dya a b

/-- `dya(x, y) + dya(y, x)`. -/
def dyaSum (x y : Option Shape) : Res Shape := do
  let p ← dyaOf x y
  let q ← dyaOf y x
  bcast p q

/-- `if d2WdI3dI3 is not None: acc = acc + d2WdI2dI2 * dya(dI2dC, dI2dC)` (sic), lines 225-226;
`None * array` is a `TypeError`. -/
def thirdTerm (acc : Shape) (h33 h22 : Option Shape) (x : Res Shape) : Res Shape :=
  match h33 with
  | none => .ok acc
  | some _ => match h22 with
    | some s => addTerm acc (some s) x
    | none => do
      let _ ← x
      .error .typeError

/-- `Invariants.hessian`; `_invariants.py` lines 183-237. -/
def Invariants.hessian (mat : InvModel) (C : Shape) : Res Shape := do
  let r ← run mat C
  let h ← mat.hessian r.I1 r.I2 r.I3
  let acc : Shape := 6 :: 6 :: (C.drop 1).map fun _ => 1
  -- lines 208-211
  let acc ← addTerm acc r.g.d2 (do
    let p ← dya r.I r.I
    let q ← cdya r.I r.I
    bcast p q)
  -- lines 213-217
  let acc ← addTerm acc r.g.d3 (do
    let invC ← bound r.invC
    let p ← dya invC invC
    let q ← cdya invC invC
    let d ← bcast p q
    bcast r.I3 d)
  -- lines 219-220
  let acc ← addTerm acc h.h11 (dyaOf r.dI1dC r.dI1dC)
  -- lines 222-223
  let acc ← addTerm acc h.h22 (dyaOf r.dI2dC r.dI2dC)
  -- lines 225-226 (sic)
  let acc ← thirdTerm acc h.h33 h.h22 (dyaOf r.dI2dC r.dI2dC)
  -- lines 228-235
  let acc ← addTerm acc h.h12 (dyaSum r.dI1dC r.dI2dC)
  let acc ← addTerm acc h.h23 (dyaSum r.dI2dC r.dI3dC)
  addTerm acc h.h13 (dyaSum r.dI1dC r.dI3dC)

/-- `frameworks.Invariants` as a material of a space. -/
def Invariants.mat (m : InvModel) : Mat where
  gradient C := do
    let r ← run m C
    .ok r.dWdC
  hessian C := hessian m C

/-! ### `models/invariants/_third_order_deformation.py` -/

/-- `x += y` on a local that may be `None`. -/
def addTo (x : Option Shape) (y : Shape) : Res (Option Shape) :=
  match x with
  | some a => do
    let s ← bcast a y
    .ok (some s)
  | none => .error .typeError

open Classical in
/-- `if c: x += y`. -/
noncomputable def addIf (c : Prop) (x : Option Shape) (y : Shape) : Res (Option Shape) :=
  if c then addTo x y else .ok x

open Classical in
/-- `ThirdOrderDeformation` with number coefficients; lines 54-103. -/
noncomputable def tod (m : TOD ℝ) : InvModel := {
    gradient := fun I1 I2 _ => do
      let d1 : Option Shape :=
        if m.C10 ≠ 0 ∨ m.C11 ≠ 0 ∨ m.C20 ≠ 0 ∨ m.C30 ≠ 0 then some [] else none
      let d2 : Option Shape := if m.C01 ≠ 0 ∨ m.C11 ≠ 0 then some [] else none
      let d1 ← addIf (m.C10 ≠ 0) d1 []
      let d2 ← addIf (m.C01 ≠ 0) d2 []
      let d1 ← addIf (m.C11 ≠ 0) d1 I2
      let d2 ← addIf (m.C11 ≠ 0) d2 I1
      let d1 ← addIf (m.C20 ≠ 0) d1 I1
      let d1 ← addIf (m.C30 ≠ 0) d1 I1
      .ok { d1, d2, d3 := none, sv := () }
    hessian := fun I1 _ _ => .ok {
      h11 := if m.C20 ≠ 0 ∨ m.C30 ≠ 0 then some I1 else none
      h22 := none
      h33 := none
      h12 := if m.C11 ≠ 0 then some [] else none
      h23 := none
      h13 := none } }

/-! ### `frameworks/_stretches.py` and the models in principal stretches -/

/-- What the hessian of a stretch-based model returns: an `ndarray`, or a list of six arrays
or `None`. -/
inductive StrHess where
  | array (s : Shape)
  | list (l : Fin 6 → Option Shape)

/-- A model in principal stretches on shapes. -/
structure StrModel where
  gradient : Shape → Res Shape
  hessian : Shape → Res StrHess

/-- `eigh(C, fun=np.sqrt)`; `_voigt.py` lines 950-956: the shapes of `λ` and `M`.
`np.linalg.eigh` takes the last two axes of the reversed (`.T`) array. -/
def eigh (A : Shape) : Res (Shape × Shape) := do
  let T ← astensor A
  match T with
  | _ :: _ :: t => .ok (3 :: t, 3 :: 6 :: t)
  | _ => .error .valueError

/-- Attributes assigned by `Stretches.gradient`. -/
structure StrAttrs where
  lam : Shape
  M : Shape
  dWdlC : Shape
  dWdC : Shape

/-- `np.expand_dims(a, axis=1)`. -/
def expandDims1 : Shape → Res Shape
  | d :: t => .ok (d :: 1 :: t)
  | [] => .error .valueError

/-- `Stretches.gradient`; `_stretches.py` lines 121-135. -/
def Stretches.run (mat : StrModel) (C : Shape) : Res StrAttrs := do
  let e ← eigh C
  let dWdl ← mat.gradient e.1
  let dWdlC ← bcast dWdl e.1
  let x ← expandDims1 dWdlC
  let prod ← bcast x e.2
  let dWdC ← item prod
  .ok ⟨e.1, e.2, dWdlC, dWdC⟩

/-- One turn `m`, `(α, β)` of the loop in lines 167-179: the added terms for the diagonal
(`β = α`) and the off-diagonal positions; `t` is the shape of `f`. -/
def Stretches.turn (acc M4a lam d2 dWdlC : Shape) (offDiagonal : Bool) : Res Shape := do
  let Ma ← item M4a
  let M4 ← dya Ma Ma
  let w ← item d2
  let p ← bcast w M4
  let acc ← inplace acc p
  if offDiagonal then do
    let f ← item lam
    let la ← item lam
    let v ← bcast la la
    let g ← item dWdlC
    -- `f[~mask] = ...`, `f[mask] = ...`: masks of the shape of `v` index all three arrays
    if v = f ∧ g = v ∧ w = v then do
      let T ← transpose M4
      let x ← bcast w T
      let c ← cdya Ma Ma
      let y ← bcast f c
      let z ← bcast x y
      inplace acc z
    else .error .indexError
  else .ok acc

/-- One entry of the list returned by the model, broadcast to the shape of `λ[0]`. -/
def broadcastEntry (l0 : Shape) : Option Shape → Res Unit
  | some s => do
    let _ ← broadcastTo s l0
    .ok ()
  | none => .ok ()

/-- `d2Wdλdλ` as one array; `_stretches.py` lines 146-153. -/
def collect (l0 : Shape) : StrHess → Res Shape
  | .array s => .ok s
  | .list l => do
    broadcastEntry l0 (l 0)
    broadcastEntry l0 (l 1)
    broadcastEntry l0 (l 2)
    broadcastEntry l0 (l 3)
    broadcastEntry l0 (l 4)
    broadcastEntry l0 (l 5)
    .ok (6 :: l0)

/-- `Stretches.hessian`; `_stretches.py` lines 137-181. -/
def Stretches.hessian (mat : StrModel) (C : Shape) : Res Shape := do
  let r ← run mat C
  let h ← mat.hessian r.lam
  let l0 ← item r.lam
  let d2 ← collect l0 h
  let la ← fancy 3 [6] r.lam
  let ll ← bcast la la
  let d2C ← bcast d2 ll
  -- `d2WdλC2[:3] -= dWdλC / (2 * λ**2)`
  let q ← bcast r.dWdlC r.lam
  let rest ← item d2C
  let _ ← inplace (3 :: rest) q
  let tr ← item r.dWdlC
  let acc : Shape := 6 :: 6 :: tr
  let acc ← turn acc r.M r.lam d2C r.dWdlC false
  let acc ← turn acc r.M r.lam d2C r.dWdlC false
  let acc ← turn acc r.M r.lam d2C r.dWdlC false
  let acc ← turn acc r.M r.lam d2C r.dWdlC true
  let acc ← turn acc r.M r.lam d2C r.dWdlC true
  turn acc r.M r.lam d2C r.dWdlC true

/-- `frameworks.Stretches` as a material of a space. -/
def Stretches.mat (m : StrModel) : Mat where
  gradient C := do
    let r ← run m C
    .ok r.dWdC
  hessian C := hessian m C

/-- `Ogden` with `n` terms and number coefficients; `_ogden.py` lines 43-63: every term has
the shape of the stretches. -/
def ogden (n : ℕ) : StrModel where
  gradient s := (List.replicate n s).foldlM inplace s
  hessian s := do
    let d ← (List.replicate n s).foldlM inplace s
    let d0 ← item d
    .ok (.list ![some d0, some d0, some d0, none, none, none])

/-- Attributes assigned by `GeneralizedInvariantsModel.gradient`. -/
structure GenAttrs where
  E : Shape
  I : Shape
  g : InvGrad Shape Unit
  dWdl : Shape

/-- `if d is not None: acc += d * x` (in place). -/
def addInplace (acc : Shape) (d : Option Shape) (x : Res Shape) : Res Shape :=
  match d with
  | none => .ok acc
  | some s => do
    let x ← x
    let p ← bcast s x
    inplace acc p

/-- `GeneralizedInvariantsModel.gradient`; `_generalized_invariants.py` lines 227-266.  The
strain measure is applied entry by entry, so `E`, `dEdλ` and `d2Edλdλ` have the shape of the
stretches; the constants `c1`, `c2` are numbers. -/
def GenInv.run (mat : InvModel) (stretches : Shape) : Res GenAttrs := do
  let E := stretches
  let I ← item E
  let g ← mat.gradient I I I
  let Eb ← fancy 3 [3] E
  let dI ← bcast Eb Eb
  let x ← bcast dI E
  let acc := stretches
  let acc ← addInplace acc g.d1 (.ok x)
  let acc ← addInplace acc g.d2 (.ok x)
  let acc ← addInplace acc g.d3 (.ok x)
  .ok ⟨E, I, g, acc⟩

/-- `d2[3:] += d * x` or `d2[:3] += d * x` on an array of shape `(6, ...)`. -/
def addHalf (acc : Shape) (d : Option Shape) (x : Shape) : Res Shape := do
  let rest ← item acc
  let _ ← addInplace (3 :: rest) d (.ok x)
  .ok acc

/-- `GeneralizedInvariantsModel.hessian`; lines 268-338, with the literal list
`Eγ = [2, 0, 1]` (shape `(3,)`) of line 288. -/
def GenInv.hessian (mat : InvModel) (stretches : Shape) : Res StrHess := do
  let r ← run mat stretches
  let h ← mat.hessian r.I r.I r.I
  let tr ← item r.dWdl
  let acc : Shape := 6 :: tr
  let da ← fancy 3 [6] r.E
  let dd ← bcast da da
  let acc ← addInplace acc h.h11 (.ok dd)
  let acc ← addInplace acc h.h22 (.ok dd)
  let acc ← addInplace acc h.h33 (.ok dd)
  let acc ← addInplace acc h.h12 (.ok dd)
  let acc ← addInplace acc h.h23 (.ok dd)
  let acc ← addInplace acc h.h13 (.ok dd)
  let acc ← addHalf acc r.g.d2 []
  let acc ← addHalf acc r.g.d3 [3]
  let acc ← inplace acc dd
  let acc ← addHalf acc r.g.d1 r.E
  let acc ← addHalf acc r.g.d2 r.E
  let acc ← addHalf acc r.g.d3 r.E
  .ok (.array acc)

/-- `GeneralizedInvariantsModel` as a model in principal stretches. -/
def GenInv.model (m : InvModel) : StrModel where
  gradient s := do
    let r ← run m s
    .ok r.dWdl
  hessian s := hessian m s

end Hel.Sh
