import Verif.Model.Space
import Verif.Model.Invariants
import Verif.Model.Stretches

/-!
# Methods as sequences of atomic attribute accesses, and threads

Python threads interleave between the bytecodes of a method; what another thread can observe or
disturb are the attributes of shared objects.  `Prog σ α` is a method of an object with the
attributes `σ` as a sequence of atomic reads and writes of attributes (local computations between
them are invisible).  The method bodies below repeat `Model/Space` and `Model/Invariants` with every
read `self.x` of the source as a read of its own; `Proofs/Threads` proves that run without
interruption they are the methods of `Model/Space` and `Model/Invariants`.
-/

namespace Hel

/-- A method: finished with a result or exception, or an atomic access: in the attribute record `s` it continues as
`next s` and leaves `upd s`. -/
inductive Prog (σ α : Type) where
  | done (r : Res α)
  | act (upd : σ → σ) (next : σ → Prog σ α)

namespace Prog

variable {σ τ α β : Type}

/-- Run without interruption. -/
def run : Prog σ α → PyM σ α
  | done r => fun s => (r, s)
  | act upd next => fun s => (next s).run (upd s)

/-- Sequence; an exception skips the rest. -/
def andThen : Prog σ α → (α → Prog σ β) → Prog σ β
  | done (.ok a), f => f a
  | done (.error e), _ => done (.error e)
  | act upd next, f => act upd fun s => (next s).andThen f

instance : Monad (Prog σ) where
  pure a := done (.ok a)
  bind := andThen

/-- Read an attribute. -/
def attr (f : σ → Option α) : Prog σ α := act id fun s =>
  match f s with
  | some a => done (.ok a)
  | none => done (.error .attributeError)

/-- Assign an attribute. -/
def assign (f : σ → σ) : Prog σ Unit := act f fun _ => done (.ok ())

/-- Call a method of an object stored in this one. -/
def sub (get : σ → τ) (put : τ → σ → σ) : Prog τ α → Prog σ α
  | done r => done r
  | act upd next => act (fun s => put (upd (get s)) s) fun s => (next (get s)).sub get put

end Prog

/-! ### Threads -/

/-- A machine: a shared state and the programs which remain to be run by the threads `ι`. -/
structure Machine (ι σ : Type) (α : ι → Type) where
  state : σ
  thread : (i : ι) → Prog σ (α i)

namespace Machine

variable {ι σ : Type} {α : ι → Type} [DecidableEq ι]

/-- One atomic access of the thread `i` (nothing happens if it has finished). -/
def step (m : Machine ι σ α) (i : ι) : Machine ι σ α :=
  match m.thread i with
  | .done _ => m
  | .act upd next => { state := upd m.state, thread := Function.update m.thread i (next m.state) }

/-- A schedule is a list of threads; every entry grants one access. -/
def exec (m : Machine ι σ α) : List ι → Machine ι σ α
  | [] => m
  | i :: sched => (m.step i).exec sched

/-- Threads with objects of their own: the thread `i` runs the program `p i` on the object `i`. -/
def separate {σ : ι → Type} (s : (i : ι) → σ i) (p : (i : ι) → Prog (σ i) (α i)) : Machine ι ((i : ι) → σ i) α where
  state := s
  thread i := (p i).sub (fun S => S i) (fun t S => Function.update S i t)

/-- Threads which share one object. -/
def shared (s : σ) (p : (i : ι) → Prog σ (α i)) : Machine ι σ α where
  state := s
  thread := p

end Machine

/-! ### The methods -/

noncomputable section

variable {Z μ : Type}

/-- A material with methods as sequences of atomic accesses. -/
structure MatProg (Z μ : Type) where
  gradient : Vec6 ℝ → Z → Prog μ (Vec6 ℝ × Z)
  hessian : Vec6 ℝ → Z → Prog μ (Mat6 ℝ)

/-- The same material in the sequential model. -/
def MatProg.material (M : MatProg Z μ) : Material ℝ Z μ where
  gradient c z := (M.gradient c z).run
  hessian c z := (M.hessian c z).run

namespace Threads
open Prog

/-- `Deformation.gradient`; `_deformation.py` lines 69-80. -/
def defGradient (cfg : SpaceCfg) (M : MatProg Z μ) (F : Full2 ℝ) (statevars : Z) : Prog (DefSt μ) (Stress × Z) := do
  -- line 75
  assign fun s => { s with C := some (rightCauchyGreen F) }
  -- line 76
  let C ← attr (·.C)
  let (dWdC, statevars_new) ← sub (·.material) (fun m s => { s with material := m }) (M.gradient C statevars)
  -- line 78
  assign fun s => { s with S := some fun a => 2 * dWdC a }
  -- line 80
  let S ← attr (·.S)
  pure (piolaStress cfg F S none, statevars_new)

/-- `Deformation.hessian`; `_deformation.py` lines 82-91. -/
def defHessian (cfg : SpaceCfg) (M : MatProg Z μ) (F : Full2 ℝ) (statevars : Z) : Prog (DefSt μ) Elasticity := do
  -- line 88
  let _ ← defGradient cfg M F statevars
  -- line 89
  let C ← attr (·.C)
  let d2WdCdC ← sub (·.material) (fun m s => { s with material := m }) (M.hessian C statevars)
  -- line 91
  let S ← attr (·.S)
  pure (piolaElasticity cfg F S none (fun a b => 4 * d2WdCdC a b) none)

/-- `Distortional.gradient`; `_distortional.py` lines 154-171 (`C`, `I3`, `Sb`, `SbC` and `invC` are local variables as
well as attributes). -/
def distGradient (cfg : SpaceCfg) (M : MatProg Z μ) (F : Full2 ℝ) (statevars : Z) : Prog (DistSt μ) (Stress × Z) := do
  -- lines 160-162
  let C := rightCauchyGreen F
  assign fun s => { s with C := some C }
  let I3 := det C
  assign fun s => { s with I3 := some I3 }
  assign fun s => { s with Cu := some fun a => I3 ^ (-1 / 3 : ℝ) * C a }
  -- line 163
  let Cu ← attr (·.Cu)
  let (dWudCu, statevars_new) ← sub (·.material) (fun m s => { s with material := m }) (M.gradient Cu statevars)
  -- lines 165-167
  let Sb : Vec6 ℝ := fun a => 2 * I3 ^ (-1 / 3 : ℝ) * dWudCu a
  assign fun s => { s with Sb := some Sb }
  let SbC := ddot Sb C
  assign fun s => { s with SbC := some SbC }
  let invC := inv C (some I3)
  assign fun s => { s with invC := some invC }
  -- line 169
  assign fun s => { s with S := some fun a => Sb a - SbC / 3 * invC a }
  -- line 171
  let S ← attr (·.S)
  let I3' ← attr (·.I3)
  pure (piolaStress cfg F S (some (Real.sqrt I3')), statevars_new)

open Classical in
/-- `Distortional.hessian`; `_distortional.py` lines 173-197. -/
def distHessian (cfg : SpaceCfg) (M : MatProg Z μ) (F : Full2 ℝ) (statevars : Z) : Prog (DistSt μ) Elasticity := do
  -- line 179
  let _ ← distGradient cfg M F statevars
  -- line 180 (only the shape of `self.C` matters)
  let _ ← attr (·.C)
  let I : Vec6 ℝ := eye
  -- lines 182-183
  let Cu ← attr (·.Cu)
  let d2WdCdC ← sub (·.material) (fun m s => { s with material := m }) (M.hessian Cu statevars)
  let I3 ← attr (·.I3)
  let C4b : Mat6 ℝ := fun a b => 4 * I3 ^ (-2 / 3 : ℝ) * d2WdCdC a b
  -- line 185
  let invC ← attr (·.invC)
  let C ← attr (·.C)
  let P4 : Mat6 ℝ := fun a b => cdyaSelf I a b - dya invC C a b / 3
  -- line 186
  let invC₁ ← attr (·.invC)
  let invC₂ ← attr (·.invC)
  let I4 := cdya invC₁ invC₂
  -- lines 188-190
  let Sb ← attr (·.Sb)
  let invC₃ ← attr (·.invC)
  let SbinvC := dya Sb invC₃
  let invCSb := transpose SbinvC
  let invC₄ ← attr (·.invC)
  let invC₅ ← attr (·.invC)
  let invCinvC := dya invC₄ invC₅
  -- line 192
  let SbC ← attr (·.SbC)
  let SbC' ← attr (·.SbC)
  let C4 : Mat6 ℝ := fun a b =>
    2 / 3 * (SbC * I4 a b - SbinvC a b - invCSb a b + SbC' / 3 * invCinvC a b)
  -- lines 194-195
  let C4 : Mat6 ℝ :=
    if ¬ Distortional.allclose0 C4b then fun a b => C4 a b + ddot44 (ddot44 P4 C4b) (transpose P4) a b else C4
  -- line 197
  let S ← attr (·.S)
  let I3' ← attr (·.I3)
  let invC₆ ← attr (·.invC)
  pure (piolaElasticity cfg F S (some (Real.sqrt I3')) C4 (some invC₆))

/-- `Dilatational.gradient`; `_dilatational.py` lines 17-30. -/
def dilGradient (cfg : SpaceCfg) (M : MatProg Z μ) (F : Full2 ℝ) (statevars : Z) : Prog (DilSt μ) (Stress × Z) := do
  -- lines 20-22
  assign fun s => { s with C := some (rightCauchyGreen F) }
  let C ← attr (·.C)
  assign fun s => { s with I3 := some (det C) }
  let I3 ← attr (·.I3)
  let C ← attr (·.C)
  assign fun s => { s with Co := some fun a => I3 ^ (1 / 3 : ℝ) * C a }
  -- line 23
  let Co ← attr (·.Co)
  let (dWodCo, statevars_new) ← sub (·.material) (fun m s => { s with material := m }) (M.gradient Co statevars)
  -- lines 25-27
  let I3 ← attr (·.I3)
  assign fun s => { s with Sb := some fun a => 2 * I3 ^ (1 / 3 : ℝ) * dWodCo a }
  let Sb ← attr (·.Sb)
  assign fun s => { s with tr_Sb := some (trace Sb) }
  let C ← attr (·.C)
  let I3 ← attr (·.I3)
  assign fun s => { s with invC := some (inv C (some I3)) }
  -- line 29
  let tr_Sb ← attr (·.tr_Sb)
  let invC ← attr (·.invC)
  assign fun s => { s with S := some fun a => tr_Sb / 3 * invC a }
  -- line 30
  let S ← attr (·.S)
  let I3 ← attr (·.I3)
  pure (piolaStress cfg F S (some (Real.sqrt I3)), statevars_new)

/-- `Dilatational.hessian`; `_dilatational.py` lines 32-48. -/
def dilHessian (cfg : SpaceCfg) (M : MatProg Z μ) (F : Full2 ℝ) (statevars : Z) : Prog (DilSt μ) Elasticity := do
  -- line 35
  let _ ← dilGradient cfg M F statevars
  -- lines 37-38
  let Co ← attr (·.Co)
  let d2WodCodCo ← sub (·.material) (fun m s => { s with material := m }) (M.hessian Co statevars)
  let I3 ← attr (·.I3)
  let C4b : Mat6 ℝ := fun a b => 4 * I3 ^ (2 / 3 : ℝ) * d2WodCodCo a b
  -- lines 40-42
  let _ ← attr (·.C)
  let I : Vec6 ℝ := eye
  let tr_C4b := ddot (ddot24 I C4b) I
  let invC₁ ← attr (·.invC)
  let invC₂ ← attr (·.invC)
  let I4 := cdya invC₁ invC₂
  -- lines 44-46
  let tr_Sb ← attr (·.tr_Sb)
  let invC₃ ← attr (·.invC)
  let invC₄ ← attr (·.invC)
  let tr_Sb' ← attr (·.tr_Sb)
  let C4 : Mat6 ℝ := fun a b =>
    (2 * tr_Sb + tr_C4b) * dya invC₃ invC₄ a b / 9 - 2 / 3 * tr_Sb' * I4 a b
  -- line 48
  let S ← attr (·.S)
  let I3' ← attr (·.I3)
  let invC₅ ← attr (·.invC)
  pure (piolaElasticity cfg F S (some (Real.sqrt I3')) C4 (some invC₅))

/-- An invariant-based model with methods as sequences of atomic accesses. -/
structure InvProg (Z μ : Type) where
  gradient : ℝ → ℝ → ℝ → Z → Prog μ (InvGrad ℝ Z)
  hessian : ℝ → ℝ → ℝ → Z → Prog μ (InvHess ℝ)

/-- The same model in the sequential model. -/
def InvProg.mat (M : InvProg Z μ) : InvMat ℝ Z μ where
  gradient I1 I2 I3 z := (M.gradient I1 I2 I3 z).run
  hessian I1 I2 I3 z := (M.hessian I1 I2 I3 z).run

/-- `ThirdOrderDeformation`: its methods read the parameters only, which nobody assigns. -/
def todProg (m : TOD ℝ) : InvProg Z Unit where
  gradient I1 I2 I3 z := done (open Classical in m.gradient I1 I2 I3 z)
  hessian I1 I2 I3 z := done (open Classical in m.hessian I1 I2 I3 z)

/-- Read a local variable that may be unbound. -/
def localVar {σ α : Type} (v : Option α) : Prog σ α := match v with
  | some a => done (.ok a)
  | none => done (.error .unboundLocal)

/-- `self.x * y`, where the attribute may be `None`. -/
def number {σ α : Type} (v : Option α) : Prog σ α := match v with
  | some a => done (.ok a)
  | none => done (.error .typeError)

/-- `Invariants.gradient`, lines 168-170. -/
def invGrad1 (I dWdC : Vec6 ℝ) : Prog (InvSt ℝ μ) (Vec6 ℝ) := (attr (·.dWdI1)).andThen fun
  | some _ => do
    assign fun s => { s with dI1dC := some I }
    let w ← number (← attr (·.dWdI1))
    let dI1dC ← attr (·.dI1dC)
    pure (fun a => dWdC a + w * dI1dC a)
  | none => pure dWdC

/-- `Invariants.gradient`, lines 172-174. -/
def invGrad2 (I C : Vec6 ℝ) (I1 : ℝ) (dWdC : Vec6 ℝ) : Prog (InvSt ℝ μ) (Vec6 ℝ) := (attr (·.dWdI2)).andThen fun
  | some _ => do
    assign fun s => { s with dI2dC := some (fun a => I1 * I a - C a) }
    let w ← number (← attr (·.dWdI2))
    let dI2dC ← attr (·.dI2dC)
    pure (fun a => dWdC a + w * dI2dC a)
  | none => pure dWdC

/-- `Invariants.gradient`, lines 176-179. -/
def invGrad3 (C : Vec6 ℝ) (I3 : ℝ) (dWdC : Vec6 ℝ) : Prog (InvSt ℝ μ) (Vec6 ℝ) := (attr (·.dWdI3)).andThen fun
  | some _ => do
    let I3' ← attr (·.I3)
    let invC := inv C (some I3')
    assign fun s => { s with invC := some invC }
    assign fun s => { s with dI3dC := some (fun a => I3 * invC a) }
    let w ← number (← attr (·.dWdI3))
    let dI3dC ← attr (·.dI3dC)
    pure (fun a => dWdC a + w * dI3dC a)
  | none => pure dWdC

/-- `Invariants.gradient`; `_invariants.py` lines 150-181. -/
def invGradient (M : InvProg Z μ) (C : Vec6 ℝ) (statevars : Z) : Prog (InvSt ℝ μ) (Vec6 ℝ × Z) := do
  -- lines 155-159
  let I : Vec6 ℝ := eye
  assign fun s => { s with I := some I }
  let I1 := trace C
  assign fun s => { s with I1 := some I1 }
  assign fun s => { s with I2 := some ((I1 ^ 2 - ddot C C) / 2) }
  let I3 := det C
  assign fun s => { s with I3 := some I3 }
  -- lines 161-163
  let x1 ← attr (·.I1)
  let x2 ← attr (·.I2)
  let x3 ← attr (·.I3)
  let r ← sub (·.material) (fun m s => { s with material := m }) (M.gradient x1 x2 x3 statevars)
  assign fun s => { s with dWdI1 := some r.d1 }
  assign fun s => { s with dWdI2 := some r.d2 }
  assign fun s => { s with dWdI3 := some r.d3 }
  -- lines 165-179
  let dWdC ← invGrad1 I fun _ => 0
  let dWdC ← invGrad2 I C I1 dWdC
  let dWdC ← invGrad3 C I3 dWdC
  -- line 181
  pure (dWdC, r.sv)

/-- `if cond is not None: acc = acc + coef * T(x, y)` with local variables, as `Invariants.addTerm`. -/
def addTerm {σ : Type} (acc : Mat6 ℝ) (cond coef : Option ℝ) (x y : Option (Vec6 ℝ))
    (T : Vec6 ℝ → Vec6 ℝ → Mat6 ℝ) : Prog σ (Mat6 ℝ) :=
  match cond with
  | some _ => do
    let x ← localVar x
    let y ← localVar y
    let d ← number coef
    pure (fun a b => acc a b + d * T x y a b)
  | none => pure acc

/-- `Invariants.hessian`, lines 203-206. -/
def invHess1 : Prog (InvSt ℝ μ) (Option (Vec6 ℝ)) := (attr (·.dWdI1)).andThen fun
  | some _ => do pure (some (← attr (·.dI1dC)))
  | none => pure none

/-- `Invariants.hessian`, lines 208-211. -/
def invHess2 (I : Vec6 ℝ) (d2WdCdC : Mat6 ℝ) : Prog (InvSt ℝ μ) (Option (Vec6 ℝ) × Mat6 ℝ) :=
  (attr (·.dWdI2)).andThen fun
    | some _ => do
      let dI2dC ← attr (·.dI2dC)
      let d2I2dCdC : Mat6 ℝ := fun a b => dya I I a b - cdyaSelf I a b
      let w ← number (← attr (·.dWdI2))
      pure (some dI2dC, fun a b => d2WdCdC a b + w * d2I2dCdC a b)
    | none => pure (none, d2WdCdC)

/-- `Invariants.hessian`, lines 213-217. -/
def invHess3 (d2WdCdC : Mat6 ℝ) : Prog (InvSt ℝ μ) (Option (Vec6 ℝ) × Mat6 ℝ) :=
  (attr (·.dWdI3)).andThen fun
    | some _ => do
      let dI3dC ← attr (·.dI3dC)
      let invC ← attr (·.invC)
      let I3 ← attr (·.I3)
      let d2I3dCdC : Mat6 ℝ := fun a b => I3 * (dya invC invC a b - cdyaSelf invC a b)
      let w ← number (← attr (·.dWdI3))
      pure (some dI3dC, fun a b => d2WdCdC a b + w * d2I3dCdC a b)
    | none => pure (none, d2WdCdC)

/-- `Invariants.hessian`; `_invariants.py` lines 183-237. -/
def invHessian (M : InvProg Z μ) (C : Vec6 ℝ) (statevars : Z) : Prog (InvSt ℝ μ) (Mat6 ℝ) := do
  -- line 189
  let (_, statevars) ← invGradient M C statevars
  -- lines 190-197
  let x1 ← attr (·.I1)
  let x2 ← attr (·.I2)
  let x3 ← attr (·.I3)
  let h ← sub (·.material) (fun m s => { s with material := m }) (M.hessian x1 x2 x3 statevars)
  -- line 198
  let I ← attr (·.I)
  -- lines 200-217
  let dI1dC ← invHess1
  let (dI2dC, d2WdCdC) ← invHess2 I fun _ _ => 0
  let (dI3dC, d2WdCdC) ← invHess3 d2WdCdC
  -- lines 219-237
  let d2WdCdC ← addTerm d2WdCdC h.h11 h.h11 dI1dC dI1dC dya
  let d2WdCdC ← addTerm d2WdCdC h.h22 h.h22 dI2dC dI2dC dya
  let d2WdCdC ← addTerm d2WdCdC h.h33 h.h22 dI2dC dI2dC dya
  let d2WdCdC ← addTerm d2WdCdC h.h12 h.h12 dI1dC dI2dC Invariants.dyaSum
  let d2WdCdC ← addTerm d2WdCdC h.h23 h.h23 dI2dC dI3dC Invariants.dyaSum
  addTerm d2WdCdC h.h13 h.h13 dI1dC dI3dC Invariants.dyaSum

/-- An `Invariants` object with methods as sequences of atomic accesses. -/
def invariants (M : InvProg Z μ) : MatProg Z (InvSt ℝ μ) where
  gradient := invGradient M
  hessian := invHessian M

/-- A stretch-based model with methods as sequences of atomic accesses. -/
structure StrProg (Z μ : Type) where
  gradient : Vec3 ℝ → Z → Prog μ (Vec3 ℝ × Z)
  hessian : Vec3 ℝ → Z → Prog μ StrHess

/-- The same model in the sequential model. -/
def StrProg.mat (M : StrProg Z μ) : StrMat Z μ where
  gradient l z := (M.gradient l z).run
  hessian l z := (M.hessian l z).run

/-- `Ogden`: its methods read the parameters only, which nobody assigns. -/
def ogdenProg (o : Ogden) : StrProg Z Unit where
  gradient l z := done (o.gradient l z)
  hessian l z := done (o.hessian l z)

/-- `if self.dWdI is not None: dWdλ += self.dWdI * self.dIdE * self.dEdλ`; `_generalized_invariants.py` lines 257-264. -/
def genAdd (w : GenSt μ → Option (Option ℝ)) (dIdE : GenSt μ → Option (Vec3 ℝ)) (dWdl : Vec3 ℝ) : Prog (GenSt μ) (Vec3 ℝ) :=
  (attr w).andThen fun
    | some _ => do
      let w ← number (← attr w)
      let d ← attr dIdE
      let dE ← attr (·.dE)
      pure (fun a => dWdl a + w * d a * dE a)
    | none => pure dWdl

/-- `if self.dWdI is not None: x[3:] += self.dWdI * y`; lines 317-323. -/
def genTail (w : GenSt μ → Option (Option ℝ)) (y : Vec3 ℝ) (x : Vec6 ℝ) : Prog (GenSt μ) (Vec6 ℝ) :=
  (attr w).andThen fun
    | some _ => do
      let w ← number (← attr w)
      pure (GenInv.addTail x fun a => w * y a)
    | none => pure x

/-- `if self.dWdI is not None: x[:3] += self.dWdI * dIdE * d2Edλdλ`; lines 329-336. -/
def genHead (w : GenSt μ → Option (Option ℝ)) (dIdE d2E : Vec3 ℝ) (x : Vec6 ℝ) : Prog (GenSt μ) (Vec6 ℝ) :=
  (attr w).andThen fun
    | some _ => do
      let w ← number (← attr w)
      pure (GenInv.addHead x fun a => w * dIdE a * d2E a)
    | none => pure x

/-- `GeneralizedInvariantsModel.gradient`; `_generalized_invariants.py` lines 227-266. -/
def genGradient (g : GenInv) (M : InvProg Z μ) (stretches : Vec3 ℝ) (statevars : Z) : Prog (GenSt μ) (Vec3 ℝ × Z) := do
  -- lines 232-233
  assign fun s => { s with E := some fun a => (g.strain.eval (stretches a)).E }
  assign fun s => { s with dE := some fun a => (g.strain.eval (stretches a)).dE }
  assign fun s => { s with d2E := some fun a => (g.strain.eval (stretches a)).d2E }
  let E ← attr (·.E)
  -- lines 236-242
  let I1 := E 0 + E 1 + E 2
  let I2 := E 0 * E 1 + E 1 * E 2 + E 2 * E 0
  let I3 := E 0 * E 1 * E 2
  assign fun s => { s with I1 := some (g.c1 * I1 - g.I10 * (g.c1 - 1)) }
  assign fun s => { s with I2 := some (g.c2 * I2 - g.I20 * (g.c2 - 1)) }
  assign fun s => { s with I3 := some I3 }
  -- lines 244-246
  let x1 ← attr (·.I1)
  let x2 ← attr (·.I2)
  let x3 ← attr (·.I3)
  let r ← sub (·.material) (fun m s => { s with material := m }) (M.gradient x1 x2 x3 statevars)
  assign fun s => { s with dWdI1 := some r.d1 }
  assign fun s => { s with dWdI2 := some r.d2 }
  assign fun s => { s with dWdI3 := some r.d3 }
  -- lines 248-253
  let Eb := take E ![1, 0, 0]
  let Ec := take E ![2, 2, 1]
  assign fun s => { s with dI1dE := some fun _ => g.c1 * 1 }
  assign fun s => { s with dI2dE := some fun a => g.c2 * (Eb a + Ec a) }
  assign fun s => { s with dI3dE := some fun a => Eb a * Ec a }
  -- lines 255-266
  let dWdl ← genAdd (·.dWdI1) (·.dI1dE) fun _ => 0
  let dWdl ← genAdd (·.dWdI2) (·.dI2dE) dWdl
  let dWdl ← genAdd (·.dWdI3) (·.dI3dE) dWdl
  pure (dWdl, r.sv)

/-- `GeneralizedInvariantsModel.hessian`; lines 268-338, for arguments without trailing axes as in
`GenInv.hessian`. -/
def genHessian (g : GenInv) (M : InvProg Z μ) (stretches : Vec3 ℝ) (statevars : Z) : Prog (GenSt μ) StrHess := do
  -- line 272
  let _ ← genGradient g M stretches statevars
  -- lines 273-280
  let x1 ← attr (·.I1)
  let x2 ← attr (·.I2)
  let x3 ← attr (·.I3)
  let h ← sub (·.material) (fun m s => { s with material := m }) (M.hessian x1 x2 x3 statevars)
  -- lines 282-286
  let dI1dE ← attr (·.dI1dE)
  let dI2dE ← attr (·.dI2dE)
  let dI3dE ← attr (·.dI3dE)
  let dE ← attr (·.dE)
  let d2E ← attr (·.d2E)
  -- lines 290-311
  let d2W : Vec6 ℝ := fun _ => 0
  let d2W := GenInv.addVec d2W h.h11 fun m => dI1dE (GenInv.ia m) * dI1dE (GenInv.ib m)
  let d2W := GenInv.addVec d2W h.h22 fun m => dI2dE (GenInv.ia m) * dI2dE (GenInv.ib m)
  let d2W := GenInv.addVec d2W h.h33 fun m => dI3dE (GenInv.ia m) * dI3dE (GenInv.ib m)
  let d2W := GenInv.addVec d2W h.h12 fun m =>
    dI1dE (GenInv.ia m) * dI2dE (GenInv.ib m) + dI2dE (GenInv.ia m) * dI1dE (GenInv.ib m)
  let d2W := GenInv.addVec d2W h.h23 fun m =>
    dI2dE (GenInv.ia m) * dI3dE (GenInv.ib m) + dI3dE (GenInv.ia m) * dI2dE (GenInv.ib m)
  let d2W := GenInv.addVec d2W h.h13 fun m =>
    dI1dE (GenInv.ia m) * dI3dE (GenInv.ib m) + dI3dE (GenInv.ia m) * dI1dE (GenInv.ib m)
  -- lines 317-323
  let d2W ← genTail (·.dWdI2) (fun _ => g.c2) d2W
  let d2W ← genTail (·.dWdI3) ![2, 0, 1] d2W
  -- lines 326-327
  let d2W : Vec6 ℝ := fun m => d2W m * (dE (GenInv.ia m) * dE (GenInv.ib m))
  -- lines 329-336
  let d2W ← genHead (·.dWdI1) dI1dE d2E d2W
  let d2W ← genHead (·.dWdI2) dI2dE d2E d2W
  let d2W ← genHead (·.dWdI3) dI3dE d2E d2W
  -- line 338
  pure (.array d2W)

/-- A `GeneralizedInvariantsModel` with methods as sequences of atomic accesses. -/
def genModel (g : GenInv) (M : InvProg Z μ) : StrProg Z (GenSt μ) where
  gradient := genGradient g M
  hessian := genHessian g M

/-- `Stretches.gradient`; `_stretches.py` lines 121-135. -/
def strGradient (lapack : Eigh) (M : StrProg Z μ) (C : Vec6 ℝ) (statevars : Z) : Prog (StrSt μ) (Vec6 ℝ × Z) := do
  -- line 126
  let r := eighSqrt lapack C
  assign fun s => { s with l := some r.1 }
  assign fun s => { s with M := some r.2 }
  -- line 128
  let l ← attr (·.l)
  let (dWdl, statevars_new) ← sub (·.material) (fun m s => { s with material := m }) (M.gradient l statevars)
  assign fun s => { s with dWdl := some dWdl }
  -- line 129
  let dWdl ← attr (·.dWdl)
  assign fun s => { s with dWdl := some dWdl }
  -- line 131
  let dWdl ← attr (·.dWdl)
  let l ← attr (·.l)
  assign fun s => { s with dWdlC := some fun a => dWdl a / (2 * l a) }
  -- line 133
  let dWdlC ← attr (·.dWdlC)
  let M ← attr (·.M)
  -- line 135
  pure ((fun i => ∑ a, dWdlC a * M a i), statevars_new)

/-- `Stretches.hessian`; lines 137-181 (the reads of `self.λ` in lines 146-152 only matter for its shape). -/
def strHessian (lapack : Eigh) (M : StrProg Z μ) (C : Vec6 ℝ) (statevars : Z) : Prog (StrSt μ) (Mat6 ℝ) := do
  -- line 143
  let (_, statevars) ← strGradient lapack M C statevars
  -- line 144
  let l ← attr (·.l)
  let h ← sub (·.material) (fun m s => { s with material := m }) (M.hessian l statevars)
  -- lines 146-152
  let d2Wdldl : Vec6 ℝ := match h with
    | .array x => x
    | .list x => fun m => (x m).getD 0
  -- lines 154-156
  let l ← attr (·.l)
  let M ← attr (·.M)
  let dWdlC ← attr (·.dWdlC)
  -- lines 158-162
  let d2 : Vec6 ℝ := fun m => d2Wdldl m / (4 * l (GenInv.ia m) * l (GenInv.ib m))
  let d2 : Vec6 ℝ := ![d2 0 - dWdlC 0 / (2 * l 0 ^ 2), d2 1 - dWdlC 1 / (2 * l 1 ^ 2),
    d2 2 - dWdlC 2 / (2 * l 2 ^ 2), d2 3, d2 4, d2 5]
  -- lines 164-181
  pure ((List.finRange 6).foldl (fun acc m => fun i j => acc i j + Stretches.term l dWdlC M d2 m i j) fun _ _ => 0)

/-- A `Stretches` object with methods as sequences of atomic accesses. -/
def stretches (lapack : Eigh) (M : StrProg Z μ) : MatProg Z (StrSt μ) where
  gradient := strGradient lapack M
  hessian := strHessian lapack M

end Threads

end

end Hel
