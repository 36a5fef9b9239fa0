import Verif.Model.BatchGeneralized
import Verif.Proofs.BatchRun

/-! What the methods of `GeneralizedInvariantsModel` do on batches, as equations. -/

namespace Hel
namespace Batch
namespace GenInv
open Spec PyM

variable {ι κ Z Zb μ ν : Type} {n : ℕ}

/-- the strain measure of the stretches -/
def ev (g : Hel.GenInv) (l : Vec3 (Arr ι)) : Vec3 (Arr ι) := fun a i => (g.strain.eval (l a i)).E
/-- its first derivative -/
def dev (g : Hel.GenInv) (l : Vec3 (Arr ι)) : Vec3 (Arr ι) := fun a i => (g.strain.eval (l a i)).dE
/-- its second derivative -/
def d2ev (g : Hel.GenInv) (l : Vec3 (Arr ι)) : Vec3 (Arr ι) := fun a i => (g.strain.eval (l a i)).d2E

/-- normalized first invariant -/
noncomputable def J1 (g : Hel.GenInv) (E : Vec3 (Arr ι)) : Arr ι :=
  Arr.const g.c1 * (E 0 + E 1 + E 2) - Arr.const (g.I10 * (g.c1 - 1))
/-- normalized second invariant -/
noncomputable def J2 (g : Hel.GenInv) (E : Vec3 (Arr ι)) : Arr ι :=
  Arr.const g.c2 * (E 0 * E 1 + E 1 * E 2 + E 2 * E 0) - Arr.const (g.I20 * (g.c2 - 1))
/-- third invariant -/
noncomputable def J3 (E : Vec3 (Arr ι)) : Arr ι := E 0 * E 1 * E 2

/-- derivative of the second invariant -/
noncomputable def dJ2 (g : Hel.GenInv) (E : Vec3 (Arr ι)) : Vec3 (Arr ι) := fun a =>
  Arr.const g.c2 * (E (![1, 0, 0] a) + E (![2, 2, 1] a))
/-- derivative of the third invariant -/
noncomputable def dJ3 (E : Vec3 (Arr ι)) : Vec3 (Arr ι) := fun a => E (![1, 0, 0] a) * E (![2, 2, 1] a)

/-- the gradient -/
noncomputable def gradPure (g : Hel.GenInv) (l : Vec3 (Arr ι)) (r : InvGrad (Arr ι) Z) : Vec3 (Arr ι) :=
  addVec (addVec (addVec (fun _ => 0) r.d1 fun a => Arr.const g.c1 * 1 * dev g l a) r.d2
    fun a => dJ2 g (ev g l) a * dev g l a) r.d3 fun a => dJ3 (ev g l) a * dev g l a

/-- state after a successful gradient -/
noncomputable def post (g : Hel.GenInv) (l : Vec3 (Arr ι)) (r : InvGrad (Arr ι) Z) (m : μ) : GenSt ι μ where
  E := some (ev g l)
  dE := some (dev g l)
  d2E := some (d2ev g l)
  I1 := some (J1 g (ev g l))
  I2 := some (J2 g (ev g l))
  I3 := some (J3 (ev g l))
  dWdI1 := some r.d1
  dWdI2 := some r.d2
  dWdI3 := some r.d3
  dI1dE := some fun _ => Arr.const g.c1 * 1
  dI2dE := some (dJ2 g (ev g l))
  dI3dE := some (dJ3 (ev g l))
  material := m

/-- state after a failed gradient -/
noncomputable def pre (g : Hel.GenInv) (l : Vec3 (Arr ι)) (s : GenSt ι μ) (m : μ) : GenSt ι μ :=
  { s with E := some (ev g l), dE := some (dev g l), d2E := some (d2ev g l), I1 := some (J1 g (ev g l)),
           I2 := some (J2 g (ev g l)), I3 := some (J3 (ev g l)), material := m }

theorem gradient_run (g : Hel.GenInv) (mat : InvMat (Arr ι) Z μ) (l : Vec3 (Arr ι)) (z : Z) (s : GenSt ι μ) :
    gradient g mat l z s =
      match mat.gradient (J1 g (ev g l)) (J2 g (ev g l)) (J3 (ev g l)) z s.material with
      | (.ok r, m) => (.ok (gradPure g l r, r.sv), post g l r m)
      | (.error e, m) => (.error e, pre g l s m) := by
  unfold gradient callMat
  simp only [bind_run, assign_run, attr_run, sub_run]
  change (match (mat.gradient (J1 g (ev g l)) (J2 g (ev g l)) (J3 (ev g l)) z s.material) with | _ => _) = _
  rcases h : mat.gradient (J1 g (ev g l)) (J2 g (ev g l)) (J3 (ev g l)) z s.material with ⟨_ | r, m⟩
  · unfold J1 J2 J3 ev at h; simp only [h]; rfl
  · unfold J1 J2 J3 ev at h; simp only [h]; rfl

/-- lines 282-319 -/
noncomputable def hessA (g : Hel.GenInv) (l : Vec3 (Arr ι)) (r : InvGrad (Arr ι) Z) (h : InvHess (Arr ι)) :
    Vec6 (Arr ι) :=
  let ia := Hel.GenInv.ia
  let ib := Hel.GenInv.ib
  let d1 : Vec3 (Arr ι) := fun _ => Arr.const g.c1 * 1
  let d2 := dJ2 g (ev g l)
  let d3 := dJ3 (ev g l)
  let x : Vec6 (Arr ι) := fun _ => 0
  let x := addVec x h.h11 fun m => d1 (ia m) * d1 (ib m)
  let x := addVec x h.h22 fun m => d2 (ia m) * d2 (ib m)
  let x := addVec x h.h33 fun m => d3 (ia m) * d3 (ib m)
  let x := addVec x h.h12 fun m => d1 (ia m) * d2 (ib m) + d2 (ia m) * d1 (ib m)
  let x := addVec x h.h23 fun m => d2 (ia m) * d3 (ib m) + d3 (ia m) * d2 (ib m)
  let x := addVec x h.h13 fun m => d1 (ia m) * d3 (ib m) + d3 (ia m) * d1 (ib m)
  match r.d2 with
    | some w => addTail x fun _ => w * Arr.const g.c2
    | none => x

/-- lines 326-338 -/
noncomputable def hessB (g : Hel.GenInv) (l : Vec3 (Arr ι)) (r : InvGrad (Arr ι) Z) (x : Vec6 (Arr ι)) :
    Vec6 (Arr ι) :=
  let ia := Hel.GenInv.ia
  let ib := Hel.GenInv.ib
  let d1 : Vec3 (Arr ι) := fun _ => Arr.const g.c1 * 1
  let d2 := dJ2 g (ev g l)
  let d3 := dJ3 (ev g l)
  let dE := dev g l
  let d2E := d2ev g l
  let x : Vec6 (Arr ι) := fun m => x m * (dE (ia m) * dE (ib m))
  let x := match r.d1 with
    | some w => addHead x fun a => w * d1 a * d2E a
    | none => x
  let x := match r.d2 with
    | some w => addHead x fun a => w * d2 a * d2E a
    | none => x
  match r.d3 with
    | some w => addHead x fun a => w * d3 a * d2E a
    | none => x

theorem hessian_run (g : Hel.GenInv) (mat : InvMat (Arr (κ × Fin n)) Z μ) (l : Vec3 (Arr (κ × Fin n))) (z : Z)
    (s : GenSt (κ × Fin n) μ) :
    hessian g mat l z s =
      match mat.gradient (J1 g (ev g l)) (J2 g (ev g l)) (J3 (ev g l)) z s.material with
      | (.error e, m) => (.error e, pre g l s m)
      | (.ok r, m) =>
        match mat.hessian (J1 g (ev g l)) (J2 g (ev g l)) (J3 (ev g l)) z m with
        | (.error e, m) => (.error e, post g l r m)
        | (.ok h, m) => ((addThird (hessA g l r h) r.d3).map fun x => .array (hessB g l r x), post g l r m) := by
  unfold hessian callMat
  simp only [bind_run, gradient_run]
  rcases mat.gradient (J1 g (ev g l)) (J2 g (ev g l)) (J3 (ev g l)) z s.material with ⟨_ | r, m⟩
  · rfl
  · have e1 : (post g l r m).I1 = some (J1 g (ev g l)) := rfl
    have e2 : (post g l r m).I2 = some (J2 g (ev g l)) := rfl
    have e3 : (post g l r m).I3 = some (J3 (ev g l)) := rfl
    simp only [attr_run, sub_run, e1, e2, e3]
    rcases hh : mat.hessian (J1 g (ev g l)) (J2 g (ev g l)) (J3 (ev g l)) z m with ⟨_ | h, m'⟩
    · rw [show (post g l r m).material = m from rfl, hh]; rfl
    · rw [show (post g l r m).material = m from rfl, hh]
      have h1 : n ≠ 3 → ∀ d3, ∀ x : Vec6 (Arr (κ × Fin n)), addThird x (some d3) = .error .valueError := by
        intro hn d3 x
        unfold addThird; simp only [dif_neg hn]
      rcases r with ⟨_ | d1, _ | d2, _ | d3, sv⟩
      iterate 4
        · rfl
        · by_cases hn : n = 3
          · subst hn; rfl
          · simp only [post, lift_run, h1 hn]
            rfl

/-! ### one point -/

theorem ev_pt (i : ι) (g : Hel.GenInv) (l : Vec3 (Arr ι)) : pt i (ev g l) = g.ev (pt i l) := rfl

theorem J_pt (i : ι) (g : Hel.GenInv) (l : Vec3 (Arr ι)) :
    J1 g (ev g l) i = g.J1 (g.ev (pt i l)) ∧ J2 g (ev g l) i = g.J2 (g.ev (pt i l)) ∧
      J3 (ev g l) i = Hel.GenInv.J3 (g.ev (pt i l)) := ⟨rfl, rfl, rfl⟩

theorem addVec_pt {k : ℕ} (i : ι) (acc : Fin k → Arr ι) (d : Option (Arr ι)) (x : Fin k → Arr ι) :
    pt i (addVec acc d x) = Hel.GenInv.addVec (pt i acc) (d.map (· i)) (pt i x) := by
  cases d <;> rfl

theorem addTail_pt (i : ι) (x : Vec6 (Arr ι)) (y : Vec3 (Arr ι)) :
    pt i (addTail x y) = Hel.GenInv.addTail (pt i x) (pt i y) := by
  funext a; fin_cases a <;> rfl

theorem addHead_pt (i : ι) (x : Vec6 (Arr ι)) (y : Vec3 (Arr ι)) :
    pt i (addHead x y) = Hel.GenInv.addHead (pt i x) (pt i y) := by
  funext a; fin_cases a <;> rfl

theorem gradPure_pt (i : ι) (π : Zb → Z) (g : Hel.GenInv) (l : Vec3 (Arr ι)) (r : InvGrad (Arr ι) Zb) :
    pt i (gradPure g l r) = g.gradPure (pt i l) (InvGrad.at i π r) := by
  unfold gradPure
  rw [addVec_pt, addVec_pt, addVec_pt]
  rfl

/-- lines 282-319 at one point -/
noncomputable def ptA (g : Hel.GenInv) (l : Vec3 ℝ) (r : InvGrad ℝ Z) (h : InvHess ℝ) : Vec6 ℝ :=
  let ia := Hel.GenInv.ia
  let ib := Hel.GenInv.ib
  let d1 : Vec3 ℝ := fun _ => g.c1 * 1
  let d2 := g.dJ2 (g.ev l)
  let d3 := Hel.GenInv.dJ3 (g.ev l)
  let x : Vec6 ℝ := fun _ => 0
  let x := Hel.GenInv.addVec x h.h11 fun m => d1 (ia m) * d1 (ib m)
  let x := Hel.GenInv.addVec x h.h22 fun m => d2 (ia m) * d2 (ib m)
  let x := Hel.GenInv.addVec x h.h33 fun m => d3 (ia m) * d3 (ib m)
  let x := Hel.GenInv.addVec x h.h12 fun m => d1 (ia m) * d2 (ib m) + d2 (ia m) * d1 (ib m)
  let x := Hel.GenInv.addVec x h.h23 fun m => d2 (ia m) * d3 (ib m) + d3 (ia m) * d2 (ib m)
  let x := Hel.GenInv.addVec x h.h13 fun m => d1 (ia m) * d3 (ib m) + d3 (ia m) * d1 (ib m)
  match r.d2 with
    | some w => Hel.GenInv.addTail x fun _ => w * g.c2
    | none => x

/-- lines 326-338 at one point -/
noncomputable def ptB (g : Hel.GenInv) (l : Vec3 ℝ) (r : InvGrad ℝ Z) (x : Vec6 ℝ) : Vec6 ℝ :=
  let ia := Hel.GenInv.ia
  let ib := Hel.GenInv.ib
  let d1 : Vec3 ℝ := fun _ => g.c1 * 1
  let d2 := g.dJ2 (g.ev l)
  let d3 := Hel.GenInv.dJ3 (g.ev l)
  let dE := g.dev l
  let d2E := g.d2ev l
  let x : Vec6 ℝ := fun m => x m * (dE (ia m) * dE (ib m))
  let x := match r.d1 with
    | some w => Hel.GenInv.addHead x fun a => w * d1 a * d2E a
    | none => x
  let x := match r.d2 with
    | some w => Hel.GenInv.addHead x fun a => w * d2 a * d2E a
    | none => x
  match r.d3 with
    | some w => Hel.GenInv.addHead x fun a => w * d3 a * d2E a
    | none => x

theorem hessPure_eq (g : Hel.GenInv) (l : Vec3 ℝ) (r : InvGrad ℝ Z) (h : InvHess ℝ) :
    g.hessPure l r h = ptB g l r (match r.d3 with
      | some w => Hel.GenInv.addTail (ptA g l r h) fun a => w * (![2, 0, 1] : Vec3 ℝ) a
      | none => ptA g l r h) := rfl

theorem hessA_pt (i : ι) (π : Zb → Z) (g : Hel.GenInv) (l : Vec3 (Arr ι)) (r : InvGrad (Arr ι) Zb)
    (h : InvHess (Arr ι)) :
    pt i (hessA g l r h) = ptA g (pt i l) (InvGrad.at i π r) (InvHess.at i h) := by
  unfold hessA ptA
  rcases r with ⟨d1, _ | d2, d3, sv⟩
  · simp only [addVec_pt]; rfl
  · simp only [addTail_pt, addVec_pt]; rfl

theorem hessB_pt (i : ι) (π : Zb → Z) (g : Hel.GenInv) (l : Vec3 (Arr ι)) (r : InvGrad (Arr ι) Zb)
    (x : Vec6 (Arr ι)) : pt i (hessB g l r x) = ptB g (pt i l) (InvGrad.at i π r) (pt i x) := by
  unfold hessB ptB
  rcases r with ⟨_ | d1, _ | d2, _ | d3, sv⟩ <;> simp only [addHead_pt] <;> rfl

theorem ptB_tail (g : Hel.GenInv) (l : Vec3 ℝ) (r : InvGrad ℝ Z) (x : Vec6 ℝ) :
    ptB g l r x 3 = x 3 * (g.dev l 0 * g.dev l 1) ∧ ptB g l r x 4 = x 4 * (g.dev l 1 * g.dev l 2) ∧
      ptB g l r x 5 = x 5 * (g.dev l 0 * g.dev l 2) := by
  unfold ptB
  generalize r.d1 = d1
  generalize r.d2 = d2
  generalize r.d3 = d3
  cases d1 <;> cases d2 <;> cases d3 <;> exact ⟨rfl, rfl, rfl⟩

theorem ptB_head (g : Hel.GenInv) (l : Vec3 ℝ) (r : InvGrad ℝ Z) (x y : Vec6 ℝ) (h0 : x 0 = y 0) (h1 : x 1 = y 1)
    (h2 : x 2 = y 2) :
    ptB g l r x 0 = ptB g l r y 0 ∧ ptB g l r x 1 = ptB g l r y 1 ∧ ptB g l r x 2 = ptB g l r y 2 := by
  unfold ptB
  generalize r.d1 = d1
  generalize r.d2 = d2
  generalize r.d3 = d3
  cases d1 <;> cases d2 <;> cases d3 <;> simp [Hel.GenInv.addHead, h0, h1, h2]

end GenInv
end Batch
end Hel
