import Verif.Model.Batch
import Mathlib.Logic.Encodable.Basic

/-!
# Model of the code on numpy arrays in memory

Here an array is a reference into a memory, as in numpy: a buffer (`loc`) and the address of every
entry in it (`addr`).  Views (`A[0]`, `np.swapaxes`, ...) share the buffer, fancy indexing and
arithmetic allocate, `out=` and `+=` overwrite.  The functions below follow the code statement by
statement as far as allocation and writing are concerned; the arithmetic inside of one expression
is that of `Model/Voigt`, `Model/Batch`.

Simplifications: temporary arrays of an expression which are dropped at once are not allocated;
all arrays of one evaluation have the same trailing axes `T` (see `Model/Shapes`), so an array with
trailing axes of length one is represented by its broadcast content; `np.einsum(..., out=X)` and the
ufuncs with `out=X` read their operands before they write (numpy's documented behaviour for
overlapping memory).
-/

namespace Hel.Memory

noncomputable section

/-! ### arrays -/

/-- The possible contents of an array: nested functions to the real numbers, with the set `Ix` of
multi-indices. -/
class Content (α : Type) where
  Ix : Type
  enc : Encodable Ix
  toFun : α → Ix → ℝ
  ofFun : (Ix → ℝ) → α
  left : ∀ a, ofFun (toFun a) = a
  right : ∀ f, toFun (ofFun f) = f

instance : Content ℝ where
  Ix := Unit
  enc := inferInstance
  toFun x _ := x
  ofFun f := f ()
  left _ := rfl
  right _ := rfl

instance {ι α : Type} [Encodable ι] [Content α] : Content (ι → α) where
  Ix := ι × Content.Ix α
  enc := letI := Content.enc (α := α); inferInstance
  toFun a i := Content.toFun (a i.1) i.2
  ofFun f i := Content.ofFun fun j => f (i, j)
  left a := by funext i; simp [Content.left]
  right f := by funext ⟨i, j⟩; simp [Content.right]

/-- The memory: `next` buffers have been allocated so far; `cell l k` is number `k` of buffer `l`. -/
structure Mem where
  next : ℕ
  cell : ℕ → ℕ → ℝ

/-- An array with contents in `α`: a buffer, and the address in it of every entry. -/
structure Nd (α : Type) [Content α] where
  loc : ℕ
  addr : Content.Ix α → ℕ

variable {α β γ ι κ : Type} [Content α] [Content β] [Content γ] [Encodable ι] [Encodable κ]

/-- The content of an array. -/
def Mem.read (m : Mem) (A : Nd α) : α := Content.ofFun fun i => m.cell A.loc (A.addr i)

/-- `A[i]` with an integer: a view. -/
def Nd.row (A : Nd (ι → α)) (i : ι) : Nd α := ⟨A.loc, fun x => A.addr (i, x)⟩

/-- `A[:3]`: a view. -/
def Nd.first3 (A : Nd (Fin 6 → α)) : Nd (Fin 3 → α) := ⟨A.loc, fun x => A.addr (![0, 1, 2] x.1, x.2)⟩

/-- `np.swapaxes(A, 0, 1)`: a view. -/
def Nd.swap01 (A : Nd (ι → κ → α)) : Nd (κ → ι → α) := ⟨A.loc, fun x => A.addr (x.2.1, x.1, x.2.2)⟩

/-- `np.swapaxes(A, 1, 2)`: a view. -/
def Nd.swap12 (A : Nd (Full4 α)) : Nd (Full4 α) :=
  ⟨A.loc, fun x => A.addr (x.1, x.2.2.1, x.2.1, x.2.2.2)⟩

/-- `np.swapaxes(A, 1, 3)`: a view. -/
def Nd.swap13 (A : Nd (Full4 α)) : Nd (Full4 α) :=
  ⟨A.loc, fun x => A.addr (x.1, x.2.2.2.1, x.2.2.1, x.2.1, x.2.2.2.2)⟩

/-! ### statements -/

/-- Statements which do not raise. -/
def MemM (α : Type) : Type := Mem → α × Mem

instance : Monad MemM where
  pure a := fun m => (a, m)
  bind p f := fun m => let r := p m; f r.1 r.2

/-- Read an array. -/
def rd (A : Nd α) : MemM α := fun m => (m.read A, m)

/-- Allocate an array with the given content (`np.zeros`, results of arithmetic, of fancy indexing
and of `.copy()`). -/
def new (v : α) : MemM (Nd α) := fun m =>
  letI := Content.enc (α := α)
  (⟨m.next, Encodable.encode⟩, ⟨m.next + 1, fun l k =>
    if l = m.next then ((Encodable.decode k).map (Content.toFun v)).getD 0 else m.cell l k⟩)

open Classical in
/-- Write the entries of an array. -/
def put (A : Nd α) (v : α) : MemM Unit := fun m =>
  ((), ⟨m.next, fun l k => if h : l = A.loc ∧ ∃ i, A.addr i = k then Content.toFun v h.2.choose else m.cell l k⟩)

/-- `if x is None: x = p` -/
def given {τ : Type} (x : Option τ) (p : MemM τ) : MemM τ :=
  match x with
  | none => p
  | some x => pure x

/-- `A.copy()` -/
def copy (A : Nd α) : MemM (Nd α) := do new (← rd A)

/-! ### `math/_voigt.py` -/

variable {T : Type} [Encodable T]

/-- A second-order tensor in Voigt storage, with trailing axes `T`. -/
abbrev V (T : Type) [Encodable T] := Nd (Vec6 (Arr T))
/-- A fourth-order tensor in Voigt storage. -/
abbrev M (T : Type) [Encodable T] := Nd (Mat6 (Arr T))

/-- `asvoigt(A)`; line 93 (fancy indexing). -/
def asvoigt (A : Nd (Full2 (Arr T))) : MemM (V T) := do new (Hel.asvoigt (← rd A))

/-- `astensor(A)`; line 216 (fancy indexing). -/
def astensor (A : V T) : MemM (Nd (Full2 (Arr T))) := do new (Hel.astensor (← rd A))

/-- `astensor(A, 4)`; line 221 (fancy indexing). -/
def astensor4 (A : M T) : MemM (Nd (Full4 (Arr T))) := do new (Hel.astensor4 (← rd A))

/-- `tril_from_triu(A, dim, out)`; lines 224-232.  The right-hand side `A[i, j]` is a copy. -/
def trilFromTriu {n : ℕ} (A : Nd (Fin n → Fin n → Arr T)) (dim : ℕ) (out : Option (Nd (Fin n → Fin n → Arr T))) :
    MemM (Nd (Fin n → Fin n → Arr T)) := do
  let out ← given out (copy A)
  let a ← rd A
  let o ← rd out
  put out fun r c => if c < r ∧ r.val < dim then a c r else o r c
  pure out

/-- `triu_from_tril(A, dim, out)`; lines 235-243. -/
def triuFromTril {n : ℕ} (A : Nd (Fin n → Fin n → Arr T)) (dim : ℕ) (out : Option (Nd (Fin n → Fin n → Arr T))) :
    MemM (Nd (Fin n → Fin n → Arr T)) := do
  let out ← given out (copy A)
  let a ← rd A
  let o ← rd out
  put out fun r c => if r < c ∧ c.val < dim then a c r else o r c
  pure out

/-- `trace(A)`; line 286. -/
def trace (A : V T) : MemM (Nd (Arr T)) := do new (Hel.trace (← rd A))

/-- `transpose(A)`; line 343: a view. -/
def transpose (A : M T) : M T := A.swap01

/-- `det(A)`; lines 375-381. -/
def det (A : V T) : MemM (Nd (Arr T)) := do new (Hel.det (← rd A))

/-- `inv(A, determinant, out)`; lines 427-448. -/
def inv (A : V T) (determinant : Option (Nd (Arr T))) (out : Option (V T)) : MemM (V T) := do
  -- line 427
  let _ ← new (fun _ => 0 : Vec6 (Arr T))
  -- lines 429-432
  let detA ← given determinant (det A)
  -- lines 434-437 (fancy indexing)
  let Ai ← new (take (← rd A) ![1, 0, 0, 4, 3, 3])
  let Aj ← new (take (← rd A) ![2, 2, 1, 5, 5, 4])
  let Ak ← new (take (← rd A) ![4, 5, 3, 3, 0, 1])
  let Al ← new (take (← rd A) ![4, 5, 3, 2, 4, 5])
  -- lines 439-440
  let out := out.getD Ai
  -- lines 442-443
  let x ← rd Ai
  let y ← rd Aj
  put Ai fun a => x a * y a
  let x ← rd Ak
  let y ← rd Al
  put Ak fun a => x a * y a
  -- line 445
  let x ← rd Ai
  let y ← rd Ak
  put out fun a => x a - y a
  -- line 447
  let x ← rd out
  let d ← rd detA
  put out fun a => x a / d
  pure out

/-- `dot(A, B)`; lines 499-511. -/
def dot (A B : V T) : MemM (Nd (Full2 (Arr T))) := do new (Hel.dot (← rd A) (← rd B))

/-- `eye(A)`; lines 548-552. -/
def eye : MemM (V T) := new Hel.eye

/-- `ddot(A, B)`; line 637. -/
def ddot (A B : V T) : MemM (Nd (Arr T)) := do new (Hel.ddot (← rd A) (← rd B))

/-- `ddot(A, B, mode=(4, 4))`; line 639. -/
def ddot44 (A B : M T) : MemM (M T) := do new (Hel.ddot44 (← rd A) (← rd B))

/-- `ddot(A, B, mode=(2, 4))`; line 643. -/
def ddot24 (A : V T) (B : M T) : MemM (V T) := do new (Hel.ddot24 (← rd A) (← rd B))

/-- `dya(A, B, out)`; lines 697-701. -/
def dya (A B : V T) (out : Option (M T)) : MemM (M T) := do
  let a ← rd A
  let b ← rd B
  match out with
  | none => new (Hel.dya a b)
  | some o => do
    put o (Hel.dya a b)
    pure o

/-- `cdya_ik(A, B, out)`; line 779: a view of the copy made by `astensor`. -/
def cdya_ik (A B : V T) (out : Option (M T)) : MemM (Nd (Full4 (Arr T))) := do
  let t ← astensor4 (← dya A B out)
  pure t.swap12

/-- `cdya_il(A, B, out)`; line 833. -/
def cdya_il (A B : V T) (out : Option (M T)) : MemM (Nd (Full4 (Arr T))) := do
  let t ← astensor4 (← dya A B out)
  pure t.swap13

/-- The pair number `n` of `np.triu_indices(6)`. -/
def triu (n : Fin triu6.length) : Fin 6 × Fin 6 := triu6.get n

/-- The index arrays of lines 918-928. -/
def ij (n : Fin triu6.length) : Fin 6 := tab (pairs (triu n).1).1 (pairs (triu n).1).2
/-- `kl` -/
def kl (n : Fin triu6.length) : Fin 6 := tab (pairs (triu n).2).1 (pairs (triu n).2).2
/-- `ik` -/
def ik (n : Fin triu6.length) : Fin 6 := tab (pairs (triu n).1).1 (pairs (triu n).2).1
/-- `jl` -/
def jl (n : Fin triu6.length) : Fin 6 := tab (pairs (triu n).1).2 (pairs (triu n).2).2
/-- `il` -/
def il (n : Fin triu6.length) : Fin 6 := tab (pairs (triu n).1).1 (pairs (triu n).2).2
/-- `kj` -/
def kj (n : Fin triu6.length) : Fin 6 := tab (pairs (triu n).2).1 (pairs (triu n).1).2

/-- `cdya(A, B, out)`; lines 930-947.  `same` is the outcome of `A is B` (line 937). -/
def cdya (same : Bool) (A B : V T) (out : Option (M T)) : MemM (M T) := do
  -- lines 930-931
  let out ← given out (new (fun _ _ => 0 : Mat6 (Arr T)))
  -- line 934 (fancy indexing)
  let Aik ← new (take (← rd A) ik)
  let Bjl ← new (take (← rd B) jl)
  let Ail ← new (take (← rd A) il)
  let Bkj ← new (take (← rd B) kj)
  -- line 936
  let x ← rd Aik
  let y ← rd Bjl
  put Aik fun n => x n * y n
  let x ← rd Ail
  let y ← rd Bkj
  put Ail fun n => x n * y n
  let x ← rd Aik
  let y ← rd Ail
  let values ← new fun n => x n + y n
  -- lines 938-944
  if same = false then
    let Bik ← new (take (← rd B) ik)
    let Ajl ← new (take (← rd A) jl)
    let Bil ← new (take (← rd B) il)
    let Akj ← new (take (← rd A) kj)
    let x ← rd Bik
    let y ← rd Ajl
    put Bik fun n => x n * y n
    let x ← rd Bil
    let y ← rd Akj
    put Bil fun n => x n * y n
    let v ← rd values
    let x ← rd Bik
    let y ← rd Bil
    put values fun n => v n + (x n + y n)
    let v ← rd values
    put values fun n => v n / 4
  else
    let v ← rd values
    put values fun n => v n / 2
  -- line 946: first the left target of the chained assignment, then the right one
  let v ← rd values
  let o ← rd out
  put out (writes o ((List.finRange _).map fun n => (ij n, kl n, v n)))
  let o ← rd out
  put out (writes o ((List.finRange _).map fun n => (kl n, ij n, v n)))
  pure out

/-! ### objects: methods with the memory and attributes -/

open PyM

variable {Z σ μ : Type}

/-- Statements of a method on the memory. -/
def mem {τ : Type} (p : MemM τ) : PyM (Mem × σ) τ := fun s => let r := p s.1; (.ok r.1, (r.2, s.2))

/-- Read an attribute. -/
def at' {τ : Type} (f : σ → Option τ) : PyM (Mem × σ) τ := attr fun s => f s.2

/-- Assign attributes. -/
def set' (f : σ → σ) : PyM (Mem × σ) Unit := assign fun s => (s.1, f s.2)

/-- `self.material.<method>` -/
def call {τ : Type} (get : σ → μ) (put : μ → σ → σ) (p : PyM (Mem × μ) τ) : PyM (Mem × σ) τ :=
  sub (fun s => (s.1, get s.2)) (fun r s => (r.1, put r.2 s.2)) p

/-- A Total-Lagrange material object. -/
structure Mat (T Z μ : Type) [Encodable T] where
  gradient : V T → Z → PyM (Mem × μ) (V T × Z)
  hessian : V T → Z → PyM (Mem × μ) (M T)

/-- What `piola` returns for a stress: the array in Voigt storage or a full tensor. -/
inductive StressRef (T : Type) [Encodable T] where
  | voigt (s : V T)
  | full (p : Nd (Full2 (Arr T)))

/-- What `piola` returns for an elasticity. -/
inductive ElasticityRef (T : Type) [Encodable T] where
  | voigt (c : M T)
  | full (a : Nd (Full4 (Arr T)))

/-- `asvoigt(self.einsum("kI...,kJ...->IJ...", F, F))` -/
def rightCauchyGreen (F : Nd (Full2 (Arr T))) : MemM (V T) := do
  let f ← rd F
  asvoigt (← new fun I J => ∑ k, f k I * f k J)

/-- Lines 60-68 of `Space.piola`: force in the deformed configuration.  `bc` is the outcome of the comparison
of the shapes in line 64. -/
def piolaForce (cfg : SpaceCfg) (bc : Bool) (F stress : Nd (Full2 (Arr T))) : MemM (Nd (Full2 (Arr T))) :=
  match cfg.force with
  | none => do
    let stress ← if bc then copy stress else pure stress
    let f ← rd F
    let s ← rd stress
    put stress fun i J => ∑ I, f i I * s I J
    pure stress
  | some _ => pure stress

/-- `detF = np.sqrt(I3)` with the determinant of the right Cauchy-Green deformation tensor; lines 73-75,
122-126. -/
def detFOf (F : Nd (Full2 (Arr T))) (I3 : Option (Nd (Arr T))) : MemM (Nd (Arr T)) := do
  let I3 ← given I3 do det (← rightCauchyGreen F)
  let i ← rd I3
  new i.sqrt

/-- Lines 71-79 of `Space.piola`: area in the deformed configuration. -/
def piolaArea (cfg : SpaceCfg) (F : Nd (Full2 (Arr T))) (detF : Option (Nd (Arr T))) (stress : Nd (Full2 (Arr T))) :
    MemM (Nd (Full2 (Arr T))) :=
  match cfg.area with
  | none => do
    let detF ← given detF (detFOf F none)
    let f ← rd F
    let s ← rd stress
    put stress fun i j => ∑ J, f j J * s i J
    let s ← rd stress
    let d ← rd detF
    new fun i j => s i j / d
  | some _ => pure stress

/-- `Space.piola(F, S, detF)`; `_space.py` lines 52-81.  Without `finalize` the array `S` itself is returned
(line 53). -/
def piolaStress (cfg : SpaceCfg) (bc : Bool) (F : Nd (Full2 (Arr T))) (S : V T) (detF : Option (Nd (Arr T))) :
    MemM (StressRef T) :=
  if cfg.finalize then do
    let stress ← astensor S
    let stress ← piolaForce cfg bc F stress
    let stress ← piolaArea cfg F detF stress
    pure (.full stress)
  else pure (.voigt S)

/-- `invC = inv(C, determinant=I3)` if it is not given; lines 109-112.  Also returns `I3`. -/
def invCOf (F : Nd (Full2 (Arr T))) (invC : Option (V T)) : MemM (V T × Option (Nd (Arr T))) :=
  match invC with
  | none => do
    let C ← rightCauchyGreen F
    let I3 ← det C
    let i ← inv C (some I3) none
    pure (i, some I3)
  | some i => pure (i, none)

/-- `elasticity += cdya_ik(A, S)`; lines 104, 115: in place. -/
def geometric (A S : V T) (elasticity : Nd (Full4 (Arr T))) : MemM Unit := do
  let G ← cdya_ik A S none
  let g ← rd G
  let e ← rd elasticity
  put elasticity fun i J k L => e i J k L + g i J k L

/-- Lines 92-115 of `Space.piola`. -/
def piolaForce4 (cfg : SpaceCfg) (bc : Bool) (F : Nd (Full2 (Arr T))) (S : V T) (invC : Option (V T))
    (elasticity : Nd (Full4 (Arr T))) : MemM (Nd (Full4 (Arr T)) × Option (Nd (Arr T))) :=
  match cfg.force with
  | none => do
    let elasticity ← if bc then copy elasticity else pure elasticity
    let f ← rd F
    let e ← rd elasticity
    put elasticity fun i J k L => ∑ I, ∑ K, f i I * f k K * e I J K L
    let I ← eye
    geometric I S elasticity
    pure (elasticity, none)
  | some _ => do
    let r ← invCOf F invC
    geometric r.1 S elasticity
    pure (elasticity, r.2)

/-- Lines 118-137 of `Space.piola`. -/
def piolaArea4 (cfg : SpaceCfg) (F : Nd (Full2 (Arr T))) (detF I3 : Option (Nd (Arr T)))
    (elasticity : Nd (Full4 (Arr T))) : MemM (Nd (Full4 (Arr T))) :=
  match cfg.area with
  | none => do
    let detF ← given detF (detFOf F I3)
    let f ← rd F
    let e ← rd elasticity
    put elasticity fun i j k l => ∑ J, ∑ L, f j J * f l L * e i J k L
    let e ← rd elasticity
    let d ← rd detF
    new fun i j k l => e i j k l / d
  | some _ => pure elasticity

/-- `Space.piola(F, S, detF, C4, invC)`; `_space.py` lines 83-139. -/
def piolaElasticity (cfg : SpaceCfg) (bc : Bool) (F : Nd (Full2 (Arr T))) (S : V T) (detF : Option (Nd (Arr T)))
    (C4 : M T) (invC : Option (V T)) : MemM (ElasticityRef T) :=
  if cfg.finalize then do
    let elasticity ← astensor4 C4
    let r ← piolaForce4 cfg bc F S invC elasticity
    let elasticity ← piolaArea4 cfg F detF r.2 r.1
    pure (.full elasticity)
  else pure (.voigt C4)

/-- A space object.  (`x = [F, ..., statevars]`.) -/
structure SpaceObj (T Z σ : Type) [Encodable T] where
  gradient : Nd (Full2 (Arr T)) → Z → PyM (Mem × σ) (StressRef T × Z)
  hessian : Nd (Full2 (Arr T)) → Z → PyM (Mem × σ) (ElasticityRef T)

/-! ### Deformation -/

/-- Attributes of a `Deformation` object: references. -/
structure DefSt (T μ : Type) [Encodable T] where
  C : Option (V T) := none
  S : Option (V T) := none
  material : μ

namespace Deformation

/-- `self.material.<method>` -/
def callMat {τ : Type} (p : PyM (Mem × μ) τ) : PyM (Mem × DefSt T μ) τ :=
  call (·.material) (fun m s => { s with material := m }) p

/-- `Deformation.gradient`; `_deformation.py` lines 69-80. -/
def gradient (cfg : SpaceCfg) (bc : Bool) (mat : Mat T Z μ) (F : Nd (Full2 (Arr T))) (statevars : Z) :
    PyM (Mem × DefSt T μ) (StressRef T × Z) := do
  -- line 75
  let C ← mem (rightCauchyGreen F)
  set' fun s => { s with C := some C }
  -- line 76
  let (dWdC, statevars_new) ← callMat (mat.gradient (← at' (·.C)) statevars)
  -- line 78
  let S ← mem do
    let g ← rd dWdC
    new (fun a => 2 * g a : Vec6 (Arr T))
  set' fun s => { s with S := some S }
  -- line 80
  let S ← at' (·.S)
  pure (← mem (piolaStress cfg bc F S none), statevars_new)

/-- `Deformation.hessian`; `_deformation.py` lines 82-91. -/
def hessian (cfg : SpaceCfg) (bc bc4 : Bool) (mat : Mat T Z μ) (F : Nd (Full2 (Arr T))) (statevars : Z) :
    PyM (Mem × DefSt T μ) (ElasticityRef T) := do
  -- line 88
  let _ ← gradient cfg bc mat F statevars
  -- line 89
  let d2WdCdC ← callMat (mat.hessian (← at' (·.C)) statevars)
  -- line 91
  let S ← at' (·.S)
  let C4 ← mem do
    let h ← rd d2WdCdC
    new (fun a b => 4 * h a b : Mat6 (Arr T))
  mem (piolaElasticity cfg bc4 F S none C4 none)

/-- A `Deformation` object. -/
def obj (cfg : SpaceCfg) (bc bc4 : Bool) (mat : Mat T Z μ) : SpaceObj T Z (DefSt T μ) where
  gradient := gradient cfg bc mat
  hessian := hessian cfg bc bc4 mat

end Deformation

/-! ### Distortional -/

/-- Attributes of a `Distortional` object: references. -/
structure DistSt (T μ : Type) [Encodable T] where
  C : Option (V T) := none
  I3 : Option (Nd (Arr T)) := none
  Cu : Option (V T) := none
  Sb : Option (V T) := none
  SbC : Option (Nd (Arr T)) := none
  invC : Option (V T) := none
  S : Option (V T) := none
  material : μ

namespace Distortional

/-- `self.material.<method>` -/
def callMat {τ : Type} (p : PyM (Mem × μ) τ) : PyM (Mem × DistSt T μ) τ :=
  call (·.material) (fun m s => { s with material := m }) p

/-- `Distortional.gradient`; `_distortional.py` lines 154-171. -/
def gradient (cfg : SpaceCfg) (bc : Bool) (mat : Mat T Z μ) (F : Nd (Full2 (Arr T))) (statevars : Z) :
    PyM (Mem × DistSt T μ) (StressRef T × Z) := do
  -- lines 160-162
  let C ← mem (rightCauchyGreen F)
  set' fun s => { s with C := some C }
  let I3 ← mem (det C)
  set' fun s => { s with I3 := some I3 }
  let Cu ← mem do
    let i ← rd I3
    let c ← rd C
    new (fun a => i.pow (-1 / 3 : ℝ) * c a : Vec6 (Arr T))
  set' fun s => { s with Cu := some Cu }
  -- line 163
  let (dWudCu, statevars_new) ← callMat (mat.gradient (← at' (·.Cu)) statevars)
  -- lines 165-167
  let Sb ← mem do
    let i ← rd I3
    let g ← rd dWudCu
    new (fun a => 2 * i.pow (-1 / 3 : ℝ) * g a : Vec6 (Arr T))
  set' fun s => { s with Sb := some Sb }
  let SbC ← mem (ddot Sb C)
  set' fun s => { s with SbC := some SbC }
  let invC ← mem (inv C (some I3) none)
  set' fun s => { s with invC := some invC }
  -- line 169
  let S ← mem do
    let x ← rd Sb
    let y ← rd SbC
    let z ← rd invC
    new (fun a => x a - y / 3 * z a : Vec6 (Arr T))
  set' fun s => { s with S := some S }
  -- line 171
  let S ← at' (·.S)
  let I3 ← at' (·.I3)
  let detF ← mem do
    let i ← rd I3
    new i.sqrt
  pure (← mem (piolaStress cfg bc F S (some detF)), statevars_new)

open Classical in
/-- `Distortional.hessian`; `_distortional.py` lines 173-197. -/
def hessian (cfg : SpaceCfg) (bc bc4 : Bool) (mat : Mat T Z μ) (F : Nd (Full2 (Arr T))) (statevars : Z) :
    PyM (Mem × DistSt T μ) (ElasticityRef T) := do
  -- lines 179-180
  let _ ← gradient cfg bc mat F statevars
  let I ← mem eye
  -- lines 182-183
  let d2WdCdC ← callMat (mat.hessian (← at' (·.Cu)) statevars)
  let I3 ← at' (·.I3)
  let C4b ← mem do
    let i ← rd I3
    let h ← rd d2WdCdC
    new (fun a b => 4 * i.pow (-2 / 3 : ℝ) * h a b : Mat6 (Arr T))
  -- lines 185-186
  let invC ← at' (·.invC)
  let C ← at' (·.C)
  let P4 ← mem do
    let x ← rd (← cdya true I I none)
    let y ← rd (← dya invC C none)
    new (fun a b => x a b - y a b / 3 : Mat6 (Arr T))
  let I4 ← mem (cdya true invC invC none)
  -- lines 188-190; `transpose` returns a view
  let Sb ← at' (·.Sb)
  let SbinvC ← mem (dya Sb invC none)
  let invCSb := transpose SbinvC
  let invCinvC ← mem (dya invC invC none)
  -- line 192
  let SbC ← at' (·.SbC)
  let C4 ← mem do
    let s ← rd SbC
    let w ← rd I4
    let x ← rd SbinvC
    let y ← rd invCSb
    let z ← rd invCinvC
    new (fun a b => 2 / 3 * (s * w a b - x a b - y a b + s / 3 * z a b) : Mat6 (Arr T))
  -- lines 194-195
  mem do
    let c ← rd C4b
    if ¬ Batch.Distortional.allclose0 c then do
      let x ← rd (← ddot44 (← ddot44 P4 C4b) (transpose P4))
      let c ← rd C4
      put C4 fun a b => c a b + x a b
    else pure ()
  -- line 197
  let S ← at' (·.S)
  let detF ← mem do
    let i ← rd I3
    new i.sqrt
  mem (piolaElasticity cfg bc4 F S (some detF) C4 (some invC))

/-- A `Distortional` object. -/
def obj (cfg : SpaceCfg) (bc bc4 : Bool) (mat : Mat T Z μ) : SpaceObj T Z (DistSt T μ) where
  gradient := gradient cfg bc mat
  hessian := hessian cfg bc bc4 mat

end Distortional

/-! ### Dilatational -/

/-- Attributes of a `Dilatational` object: references. -/
structure DilSt (T μ : Type) [Encodable T] where
  C : Option (V T) := none
  I3 : Option (Nd (Arr T)) := none
  Co : Option (V T) := none
  Sb : Option (V T) := none
  tr_Sb : Option (Nd (Arr T)) := none
  invC : Option (V T) := none
  S : Option (V T) := none
  material : μ

namespace Dilatational

/-- `self.material.<method>` -/
def callMat {τ : Type} (p : PyM (Mem × μ) τ) : PyM (Mem × DilSt T μ) τ :=
  call (·.material) (fun m s => { s with material := m }) p

/-- `Dilatational.gradient`; `_dilatational.py` lines 17-30. -/
def gradient (cfg : SpaceCfg) (bc : Bool) (mat : Mat T Z μ) (F : Nd (Full2 (Arr T))) (statevars : Z) :
    PyM (Mem × DilSt T μ) (StressRef T × Z) := do
  -- lines 20-22
  let C ← mem (rightCauchyGreen F)
  set' fun s => { s with C := some C }
  let C ← at' (·.C)
  let I3 ← mem (det C)
  set' fun s => { s with I3 := some I3 }
  let I3 ← at' (·.I3)
  let Co ← mem do
    let i ← rd I3
    let c ← rd C
    new (fun a => i.pow (1 / 3 : ℝ) * c a : Vec6 (Arr T))
  set' fun s => { s with Co := some Co }
  -- line 23
  let (dWodCo, statevars_new) ← callMat (mat.gradient (← at' (·.Co)) statevars)
  -- lines 25-27
  let Sb ← mem do
    let i ← rd I3
    let g ← rd dWodCo
    new (fun a => 2 * i.pow (1 / 3 : ℝ) * g a : Vec6 (Arr T))
  set' fun s => { s with Sb := some Sb }
  let Sb ← at' (·.Sb)
  let tr_Sb ← mem (trace Sb)
  set' fun s => { s with tr_Sb := some tr_Sb }
  let invC ← mem (inv C (some I3) none)
  set' fun s => { s with invC := some invC }
  -- line 29
  let tr_Sb ← at' (·.tr_Sb)
  let invC ← at' (·.invC)
  let S ← mem do
    let y ← rd tr_Sb
    let z ← rd invC
    new (fun a => y / 3 * z a : Vec6 (Arr T))
  set' fun s => { s with S := some S }
  -- line 30
  let S ← at' (·.S)
  let detF ← mem do
    let i ← rd I3
    new i.sqrt
  pure (← mem (piolaStress cfg bc F S (some detF)), statevars_new)

/-- `Dilatational.hessian`; `_dilatational.py` lines 32-48. -/
def hessian (cfg : SpaceCfg) (bc bc4 : Bool) (mat : Mat T Z μ) (F : Nd (Full2 (Arr T))) (statevars : Z) :
    PyM (Mem × DilSt T μ) (ElasticityRef T) := do
  -- line 35
  let _ ← gradient cfg bc mat F statevars
  -- lines 37-38
  let d2WodCodCo ← callMat (mat.hessian (← at' (·.Co)) statevars)
  let I3 ← at' (·.I3)
  let C4b ← mem do
    let i ← rd I3
    let h ← rd d2WodCodCo
    new (fun a b => 4 * i.pow (2 / 3 : ℝ) * h a b : Mat6 (Arr T))
  -- lines 40-42
  let I ← mem eye
  let tr_C4b ← mem do ddot (← ddot24 I C4b) I
  let invC ← at' (·.invC)
  let I4 ← mem (cdya true invC invC none)
  -- lines 44-46
  let tr_Sb ← at' (·.tr_Sb)
  let C4 ← mem do
    let s ← rd tr_Sb
    let t ← rd tr_C4b
    let x ← rd (← dya invC invC none)
    let w ← rd I4
    new (fun a b => (2 * s + t) * x a b / 9 - 2 / 3 * s * w a b : Mat6 (Arr T))
  -- line 48
  let S ← at' (·.S)
  let detF ← mem do
    let i ← rd I3
    new i.sqrt
  mem (piolaElasticity cfg bc4 F S (some detF) C4 (some invC))

/-- A `Dilatational` object. -/
def obj (cfg : SpaceCfg) (bc bc4 : Bool) (mat : Mat T Z μ) : SpaceObj T Z (DilSt T μ) where
  gradient := gradient cfg bc mat
  hessian := hessian cfg bc bc4 mat

end Dilatational

/-! ### invariant-based framework and model -/

/-- A value returned by a model: a Python number or an array. -/
inductive Num (T : Type) [Encodable T] where
  | num (x : ℝ)
  | arr (A : Nd (Arr T))

/-- The value, broadcast over the trailing axes. -/
def rdNum (x : Num T) : MemM (Arr T) :=
  match x with
  | .num x => pure (Arr.const x)
  | .arr A => rd A

/-- An invariant-based material object. -/
structure InvMat (T Z μ : Type) [Encodable T] where
  gradient : Nd (Arr T) → Nd (Arr T) → Nd (Arr T) → Z → PyM (Mem × μ) (InvGrad (Num T) Z)
  hessian : Nd (Arr T) → Nd (Arr T) → Nd (Arr T) → Z → PyM (Mem × μ) (InvHess (Num T))

/-- `x += y` for a local `x` which may be `None`, a number or an array (in place), and a number or
array `y`. -/
def iadd (x : Option (Num T)) (y : Num T) : PyM (Mem × σ) (Option (Num T)) :=
  match x, y with
  | none, _ => raise .typeError
  | some (.num a), .num b => pure (some (.num (a + b)))
  | some (.num a), .arr B => mem do
    let b ← rd B
    pure (some (.arr (← new (Arr.const a + b))))
  | some (.arr A), y => mem do
    let a ← rd A
    let b ← rdNum y
    put A (a + b)
    pure (some (.arr A))

/-- `if c: x += y` -/
def addIf (c : Prop) [Decidable c] (x : Option (Num T)) (y : MemM (Num T)) : PyM (Mem × σ) (Option (Num T)) :=
  if c then do
    let y ← mem y
    iadd x y
  else pure x

/-- The array `k * (I - self.undeformed) ** n`. -/
def power (m : TOD ℝ) (k : ℝ) (I : Nd (Arr T)) (n : ℕ) : MemM (Num T) := do
  let i ← rd I
  let y ← new (Arr.const k * (i - Arr.const m.undeformed) ^ n)
  pure (.arr y)

/-- `ThirdOrderDeformation.gradient`; `_third_order_deformation.py` lines 54-84. -/
def todGradient (m : TOD ℝ) (I1 I2 _I3 : Nd (Arr T)) (statevars : Z) : PyM (Mem × σ) (InvGrad (Num T) Z) := do
  -- lines 58-66
  let dWdI1 : Option (Num T) := if m.C10 ≠ 0 ∨ m.C11 ≠ 0 ∨ m.C20 ≠ 0 ∨ m.C30 ≠ 0 then some (.num 0) else none
  let dWdI2 : Option (Num T) := if m.C01 ≠ 0 ∨ m.C11 ≠ 0 then some (.num 0) else none
  -- lines 68-72
  let dWdI1 ← addIf (m.C10 ≠ 0) dWdI1 (pure (.num m.C10))
  let dWdI2 ← addIf (m.C01 ≠ 0) dWdI2 (pure (.num m.C01))
  -- lines 74-76
  let dWdI1 ← addIf (m.C11 ≠ 0) dWdI1 (power m m.C11 I2 1)
  let dWdI2 ← addIf (m.C11 ≠ 0) dWdI2 (power m m.C11 I1 1)
  -- lines 78-82
  let dWdI1 ← addIf (m.C20 ≠ 0) dWdI1 (power m (m.C20 * 2) I1 1)
  let dWdI1 ← addIf (m.C30 ≠ 0) dWdI1 (power m (m.C30 * 3) I1 2)
  -- line 84
  pure { d1 := dWdI1, d2 := dWdI2, d3 := none, sv := statevars }

/-- The array `self.C20 * 2 + self.C30 * 6 * (I1 - self.undeformed)`; line 91. -/
def todH11 (m : TOD ℝ) (I1 : Nd (Arr T)) : MemM (Option (Num T)) := do
  let i ← rd I1
  let y ← new (Arr.const (m.C20 * 2) + Arr.const (m.C30 * 6) * (i - Arr.const m.undeformed))
  pure (some (.arr y))

/-- `ThirdOrderDeformation.hessian`; lines 86-103. -/
def todHessian (m : TOD ℝ) (I1 _I2 _I3 : Nd (Arr T)) (_statevars : Z) : PyM (Mem × σ) (InvHess (Num T)) := do
  let h11 ← mem (if m.C20 ≠ 0 ∨ m.C30 ≠ 0 then todH11 m I1 else pure none)
  pure { h11 := h11, h22 := none, h33 := none, h12 := if m.C11 ≠ 0 then some (.num m.C11) else none,
         h23 := none, h13 := none }

/-- `ThirdOrderDeformation` as a material object. -/
def todMat (m : TOD ℝ) : InvMat T Z Unit where
  gradient := todGradient m
  hessian := todHessian m

/-- Attributes of an `Invariants` object: references. -/
structure InvSt (T μ : Type) [Encodable T] where
  I : Option (V T) := none
  I1 : Option (Nd (Arr T)) := none
  I2 : Option (Nd (Arr T)) := none
  I3 : Option (Nd (Arr T)) := none
  dWdI1 : Option (Option (Num T)) := none
  dWdI2 : Option (Option (Num T)) := none
  dWdI3 : Option (Option (Num T)) := none
  dI1dC : Option (V T) := none
  dI2dC : Option (V T) := none
  invC : Option (V T) := none
  dI3dC : Option (V T) := none
  material : μ

namespace Invariants

/-- `self.material.<method>` -/
def callMat {τ : Type} (p : PyM (Mem × μ) τ) : PyM (Mem × InvSt T μ) τ :=
  call (·.material) (fun m s => { s with material := m }) p

/-- `dWdC = dWdC + w * x`; lines 170, 174, 179 (a new array). -/
def addVec (acc : V T) (w : Num T) (x : V T) : MemM (V T) := do
  let a ← rd acc
  let w ← rdNum w
  let x ← rd x
  new (fun i => a i + w * x i : Vec6 (Arr T))

/-- Lines 168-170: the attribute `dI1dC` is the array `I` itself. -/
def term1 (I dWdC : V T) : PyM (Mem × InvSt T μ) (V T) := do
  match ← at' (·.dWdI1) with
  | some w => do
    set' fun s => { s with dI1dC := some I }
    let x ← at' (·.dI1dC)
    mem (addVec dWdC w x)
  | none => pure dWdC

/-- Lines 172-174. -/
def term2 (C I : V T) (I1 : Nd (Arr T)) (dWdC : V T) : PyM (Mem × InvSt T μ) (V T) := do
  match ← at' (·.dWdI2) with
  | some w => do
    let x ← mem do
      let i1 ← rd I1
      let i ← rd I
      let c ← rd C
      new (fun a => i1 * i a - c a : Vec6 (Arr T))
    set' fun s => { s with dI2dC := some x }
    let x ← at' (·.dI2dC)
    mem (addVec dWdC w x)
  | none => pure dWdC

/-- Lines 176-179. -/
def term3 (C : V T) (I3 : Nd (Arr T)) (dWdC : V T) : PyM (Mem × InvSt T μ) (V T) := do
  match ← at' (·.dWdI3) with
  | some w => do
    let d ← at' (·.I3)
    let invC ← mem (inv C (some d) none)
    set' fun s => { s with invC := some invC }
    let x ← mem do
      let i3 ← rd I3
      let i ← rd invC
      new (fun a => i3 * i a : Vec6 (Arr T))
    set' fun s => { s with dI3dC := some x }
    let x ← at' (·.dI3dC)
    mem (addVec dWdC w x)
  | none => pure dWdC

/-- `Invariants.gradient`; `_invariants.py` lines 150-181. -/
def gradient (mat : InvMat T Z μ) (C : V T) (statevars : Z) : PyM (Mem × InvSt T μ) (V T × Z) := do
  -- lines 155-159
  let I ← mem eye
  set' fun s => { s with I := some I }
  let I1 ← mem (trace C)
  set' fun s => { s with I1 := some I1 }
  let I2 ← mem do
    let i ← rd I1
    let d ← rd (← ddot C C)
    new ((i ^ 2 - d) / 2)
  set' fun s => { s with I2 := some I2 }
  let I3 ← mem (det C)
  set' fun s => { s with I3 := some I3 }
  -- lines 161-163
  let r ← callMat (mat.gradient (← at' (·.I1)) (← at' (·.I2)) (← at' (·.I3)) statevars)
  set' fun s => { s with dWdI1 := some r.d1, dWdI2 := some r.d2, dWdI3 := some r.d3 }
  -- lines 165-166
  let dWdC ← mem (new (fun _ => 0 : Vec6 (Arr T)))
  -- lines 168-179
  let dWdC ← term1 I dWdC
  let dWdC ← term2 C I I1 dWdC
  let dWdC ← term3 C I3 dWdC
  -- line 181
  pure (dWdC, r.sv)

/-- `acc = acc + w * x` (a new array) for fourth-order tensors. -/
def addMat (acc : M T) (w : Num T) (x : M T) : MemM (M T) := do
  let a ← rd acc
  let w ← rdNum w
  let x ← rd x
  new (fun i j => a i j + w * x i j : Mat6 (Arr T))

/-- `if cond is not None: acc = acc + coef * op(x, y)`, see `Hel.Invariants.addTerm`. -/
def addTerm (acc : M T) (cond coef : Option (Num T)) (x y : Option (V T)) (op : V T → V T → MemM (M T)) :
    PyM (Mem × σ) (M T) :=
  match cond with
  | some _ => do
    let x ← localVar x
    let y ← localVar y
    let t ← mem (op x y)
    match coef with
    | some d => mem (addMat acc d t)
    | none => raise .typeError
  | none => pure acc

/-- `dya(x, y)` -/
def dya' (x y : V T) : MemM (M T) := dya x y none

/-- `dya(x, y) + dya(y, x)` -/
def dyaSum (x y : V T) : MemM (M T) := do
  let a ← rd (← dya x y none)
  let b ← rd (← dya y x none)
  new (fun i j => a i j + b i j : Mat6 (Arr T))

/-- Lines 203-206. -/
def local1 : PyM (Mem × InvSt T μ) (Option (V T)) := do
  match ← at' (·.dWdI1) with
  | some _ => do pure (some (← at' (·.dI1dC)))
  | none => pure none

/-- Lines 208-211: the local `dI2dC` and the sum. -/
def local2 (I : V T) (d2WdCdC : M T) : PyM (Mem × InvSt T μ) (Option (V T) × M T) := do
  match ← at' (·.dWdI2) with
  | some w => do
    let dI2dC ← at' (·.dI2dC)
    let t ← mem do
      let x ← rd (← dya I I none)
      let y ← rd (← cdya true I I none)
      new (fun a b => x a b - y a b : Mat6 (Arr T))
    let d2WdCdC ← mem (addMat d2WdCdC w t)
    pure (some dI2dC, d2WdCdC)
  | none => pure (none, d2WdCdC)

/-- Lines 213-217: the local `dI3dC` and the sum. -/
def local3 (d2WdCdC : M T) : PyM (Mem × InvSt T μ) (Option (V T) × M T) := do
  match ← at' (·.dWdI3) with
  | some w => do
    let dI3dC ← at' (·.dI3dC)
    let invC ← at' (·.invC)
    let I3 ← at' (·.I3)
    let t ← mem do
      let i ← rd I3
      let x ← rd (← dya invC invC none)
      let y ← rd (← cdya true invC invC none)
      new (fun a b => i * (x a b - y a b) : Mat6 (Arr T))
    let d2WdCdC ← mem (addMat d2WdCdC w t)
    pure (some dI3dC, d2WdCdC)
  | none => pure (none, d2WdCdC)

/-- `Invariants.hessian`; lines 183-237 (with the terms of line 226 as written). -/
def hessian (mat : InvMat T Z μ) (C : V T) (statevars : Z) : PyM (Mem × InvSt T μ) (M T) := do
  -- line 189
  let (_, statevars) ← gradient mat C statevars
  -- lines 190-198
  let h ← callMat (mat.hessian (← at' (·.I1)) (← at' (·.I2)) (← at' (·.I3)) statevars)
  let I ← at' (·.I)
  -- lines 200-201
  let d2WdCdC ← mem (new (fun _ _ => 0 : Mat6 (Arr T)))
  -- lines 203-217
  let dI1dC ← local1
  let (dI2dC, d2WdCdC) ← local2 I d2WdCdC
  let (dI3dC, d2WdCdC) ← local3 d2WdCdC
  -- lines 219-235
  let d2WdCdC ← addTerm d2WdCdC h.h11 h.h11 dI1dC dI1dC dya'
  let d2WdCdC ← addTerm d2WdCdC h.h22 h.h22 dI2dC dI2dC dya'
  let d2WdCdC ← addTerm d2WdCdC h.h33 h.h22 dI2dC dI2dC dya'
  let d2WdCdC ← addTerm d2WdCdC h.h12 h.h12 dI1dC dI2dC dyaSum
  let d2WdCdC ← addTerm d2WdCdC h.h23 h.h23 dI2dC dI3dC dyaSum
  let d2WdCdC ← addTerm d2WdCdC h.h13 h.h13 dI1dC dI3dC dyaSum
  pure d2WdCdC

/-- An `Invariants` object as a material for the spaces. -/
def material (mat : InvMat T Z μ) : Mat T Z (InvSt T μ) where
  gradient := gradient mat
  hessian := hessian mat

end Invariants

end

end Hel.Memory
