import Verif.Model.Memory

/-!
# Model of the stretch-based framework and of Ogden's model on arrays in memory

See `Model/Memory` for the conventions.
-/

namespace Hel.Memory

noncomputable section

open PyM

variable {T : Type} [Encodable T] {Z σ μ : Type}

/-- What a stretch-based model's `hessian` returns: an array, or a list with `None`, numbers or arrays (among them
views). -/
inductive StrHessRef (T : Type) [Encodable T] where
  | array (h : V T)
  | list (h : Fin 6 → Option (Num T))

/-- A stretch-based material object.  (The gradient is returned as an array; `np.asarray` in `_stretches.py` line 129 does
not copy it.) -/
structure StrMat (T Z μ : Type) [Encodable T] where
  gradient : Nd (Vec3 (Arr T)) → Z → PyM (Mem × μ) (Nd (Vec3 (Arr T)) × Z)
  hessian : Nd (Vec3 (Arr T)) → Z → PyM (Mem × μ) (StrHessRef T)

/-! ### `Ogden` -/

/-- One pass of the loop `dW += 2 * mu / alpha * ...` (in place); `_ogden.py` lines 49-50, 60-61.  Here
`k (mu, alpha)` is the factor and `e alpha` the exponent. -/
def ogdenLoop (k : ℝ × ℝ → ℝ) (e : ℝ → ℝ) (stretches dW : Nd (Vec3 (Arr T))) : List (ℝ × ℝ) → PyM (Mem × σ) Unit
  | [] => pure ()
  | p :: ps => do
    if p.2 = 0 then raise .zeroDivision
    else mem do
      let l ← rd stretches
      let x ← rd dW
      put dW fun a => x a + Arr.const (k p) * (l a).pow (e p.2)
    ogdenLoop k e stretches dW ps

/-- `Ogden.gradient`; `_ogden.py` lines 43-52. -/
def ogdenGradient (m : Ogden) (stretches : Nd (Vec3 (Arr T))) (statevars : Z) :
    PyM (Mem × σ) (Nd (Vec3 (Arr T)) × Z) := do
  let dW ← mem (new (fun _ => 0 : Vec3 (Arr T)))
  ogdenLoop (fun p => 2 * p.1 / p.2) (fun a => a - 1) stretches dW (m.mu.zip m.alpha)
  pure (dW, statevars)

/-- `Ogden.hessian`; `_ogden.py` lines 54-63.  The items of the list are views of the array. -/
def ogdenHessian (m : Ogden) (stretches : Nd (Vec3 (Arr T))) (_statevars : Z) : PyM (Mem × σ) (StrHessRef T) := do
  let d2W ← mem (new (fun _ => 0 : Vec3 (Arr T)))
  ogdenLoop (fun p => 2 * p.1 / p.2 * (p.2 - 1)) (fun a => a - 2) stretches d2W (m.mu.zip m.alpha)
  pure (.list ![some (.arr (d2W.row 0)), some (.arr (d2W.row 1)), some (.arr (d2W.row 2)), none, none, none])

/-- `Ogden` as a material object. -/
def ogdenMat (m : Ogden) : StrMat T Z Unit where
  gradient := ogdenGradient m
  hessian := ogdenHessian m

/-! ### `Stretches` -/

/-- `eigh(A, fun=np.sqrt)`; `math/_voigt.py` lines 950-956: all results are new arrays (the first one is a view of a new
array). -/
def eighSqrt (lapack : Eigh) (A : V T) : MemM (Nd (Vec3 (Arr T)) × Nd (Fin 3 → Vec6 (Arr T))) := do
  let a ← rd A
  let l ← new (Batch.eighSqrt lapack a).1
  let M ← new (Batch.eighSqrt lapack a).2
  pure (l, M)

/-- Attributes of a `Stretches` object: references. -/
structure StrSt (T μ : Type) [Encodable T] where
  l : Option (Nd (Vec3 (Arr T))) := none
  M : Option (Nd (Fin 3 → Vec6 (Arr T))) := none
  dWdl : Option (Nd (Vec3 (Arr T))) := none
  dWdlC : Option (Nd (Vec3 (Arr T))) := none
  material : μ

namespace Stretches

/-- `self.material.<method>` -/
def callMat {τ : Type} (p : PyM (Mem × μ) τ) : PyM (Mem × StrSt T μ) τ :=
  call (·.material) (fun m s => { s with material := m }) p

/-- `Stretches.gradient`; `_stretches.py` lines 121-135. -/
def gradient (lapack : Eigh) (mat : StrMat T Z μ) (C : V T) (statevars : Z) : PyM (Mem × StrSt T μ) (V T × Z) := do
  -- line 126
  let r ← mem (eighSqrt lapack C)
  set' fun s => { s with l := some r.1, M := some r.2 }
  -- lines 128-129
  let (dWdl, statevars_new) ← callMat (mat.gradient (← at' (·.l)) statevars)
  set' fun s => { s with dWdl := some dWdl }
  -- line 131
  let dWdl ← at' (·.dWdl)
  let l ← at' (·.l)
  let dWdlC ← mem do
    let g ← rd dWdl
    let x ← rd l
    new (fun a => g a / (2 * x a) : Vec3 (Arr T))
  set' fun s => { s with dWdlC := some dWdlC }
  -- line 133
  let dWdlC ← at' (·.dWdlC)
  let M ← at' (·.M)
  let dWdC ← mem do
    let g ← rd dWdlC
    let M ← rd M
    new (fun i => ∑ a, g a * M a i : Vec6 (Arr T))
  pure (dWdC, statevars_new)

/-- The loop in lines 149-151: `_d2Wdλdλ[a] = np.broadcast_to(d2Wdλdλ[a], newshape)`. -/
def fill (A : V T) (h : Fin 6 → Option (Num T)) : List (Fin 6) → MemM Unit
  | [] => pure ()
  | a :: as =>
    match h a with
    | some x => do
      let v ← rdNum x
      put (A.row a) v
      fill A h as
    | none => fill A h as

/-- Lines 146-152: a list is converted to an array. -/
def asarray (h : StrHessRef T) : MemM (V T) :=
  match h with
  | .array A => pure A
  | .list h => do
    let A ← new (fun _ => 0 : Vec6 (Arr T))
    fill A h (List.finRange 6)
    pure A

/-- Lines 161-162: the second one is `-=` on a view. -/
def second (d2Wdldl : V T) (l dWdlC : Nd (Vec3 (Arr T))) : MemM (V T) := do
  let h ← rd d2Wdldl
  let x ← rd l
  let d2 ← new (fun m => h m / (4 * x (GenInv.ia m) * x (GenInv.ib m)) : Vec6 (Arr T))
  let d ← rd d2.first3
  let g ← rd dWdlC
  put d2.first3 fun a => d a - g a / (2 * x a ^ 2)
  pure d2

/-- Lines 171-179 of the loop: `f` keeps its content from the previous pass. -/
def mixed (l dWdlC : Nd (Vec3 (Arr T))) (M : Nd (Fin 3 → Vec6 (Arr T))) (d2 : V T) (acc : Hel.Memory.M T) (f : Nd (Arr T))
    (m : Fin 6) (M4 : Hel.Memory.M T) : MemM Unit := do
  let al := GenInv.ia m
  let be := GenInv.ib m
  -- line 172
  let x ← rd (l.row al)
  let y ← rd (l.row be)
  let v ← new (x ^ 2 - y ^ 2)
  -- lines 173-175: `f[~mask] = ...`
  let w ← rd v
  let x ← rd (dWdlC.row al)
  let y ← rd (dWdlC.row be)
  let o ← rd f
  put f (Batch.Stretches.divided w o ((x - y) / w))
  -- line 176: `f[mask] = ...`
  let x ← rd (d2.row (![0, 1, 2] be))
  let y ← rd (d2.row m)
  let o ← rd f
  put f (Batch.Stretches.divided w (x - y) o)
  -- line 178
  let c ← rd (← cdya false (M.row al) (M.row be) none)
  let d ← rd (d2.row m)
  let X ← rd (transpose M4)
  let o ← rd f
  let a ← rd acc
  put acc fun i j => a i j + (d * X i j + o * 2 * c i j)

/-- The loop in lines 168-179. -/
def loop (l dWdlC : Nd (Vec3 (Arr T))) (M : Nd (Fin 3 → Vec6 (Arr T))) (d2 : V T) (acc : Hel.Memory.M T) (f : Nd (Arr T)) :
    List (Fin 6) → MemM Unit
  | [] => pure ()
  | m :: ms => do
    let M4 ← dya (M.row (GenInv.ia m)) (M.row (GenInv.ib m)) none
    let d ← rd (d2.row m)
    let X ← rd M4
    let a ← rd acc
    put acc fun i j => a i j + d * X i j
    if GenInv.ib m ≠ GenInv.ia m then mixed l dWdlC M d2 acc f m M4 else pure ()
    loop l dWdlC M d2 acc f ms

/-- `Stretches.hessian`; lines 137-181. -/
def hessian (lapack : Eigh) (mat : StrMat T Z μ) (C : V T) (statevars : Z) : PyM (Mem × StrSt T μ) (M T) := do
  -- lines 143-144
  let (_, statevars) ← gradient lapack mat C statevars
  let h ← callMat (mat.hessian (← at' (·.l)) statevars)
  -- lines 146-152
  let d2Wdldl ← mem (asarray h)
  -- lines 154-156
  let l ← at' (·.l)
  let M ← at' (·.M)
  let dWdlC ← at' (·.dWdlC)
  mem do
    -- lines 161-166
    let d2 ← second d2Wdldl l dWdlC
    let acc ← new (fun _ _ => 0 : Mat6 (Arr T))
    let f ← new (0 : Arr T)
    -- lines 168-181
    loop l dWdlC M d2 acc f (List.finRange 6)
    pure acc

/-- A `Stretches` object as a material for the spaces. -/
def material (lapack : Eigh) (mat : StrMat T Z μ) : Mat T Z (StrSt T μ) where
  gradient := gradient lapack mat
  hessian := hessian lapack mat

end Stretches

end

end Hel.Memory
