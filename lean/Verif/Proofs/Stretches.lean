import Verif.Proofs.PyM
import Verif.Proofs.Tensor
import Verif.Spec.Api

/-! What the methods of the `Stretches` framework and of `GeneralizedInvariantsModel` do, as
equations. -/

namespace Hel
open PyM Spec

variable {Z μ : Type}

namespace Stretches

/-- `dWdλα / (2 λα)` -/
noncomputable def dlC (l g : Vec3 ℝ) : Vec3 ℝ := fun a => g a / (2 * l a)

/-- the gradient -/
noncomputable def gradPure (l : Vec3 ℝ) (M : Fin 3 → Vec6 ℝ) (g : Vec3 ℝ) : Vec6 ℝ := fun i =>
  ∑ a, dlC l g a * M a i

/-- state after a successful gradient -/
noncomputable def post (r : Vec3 ℝ × (Fin 3 → Vec6 ℝ)) (g : Vec3 ℝ) (m : μ) : StrSt μ where
  l := some r.1
  M := some r.2
  dWdl := some g
  dWdlC := some (dlC r.1 g)
  material := m

/-- state after a failed gradient -/
def pre (r : Vec3 ℝ × (Fin 3 → Vec6 ℝ)) (s : StrSt μ) (m : μ) : StrSt μ :=
  { s with l := some r.1, M := some r.2, material := m }

theorem gradient_run (lapack : Eigh) (mat : StrMat Z μ) (C : Vec6 ℝ) (z : Z) (s : StrSt μ) :
    gradient lapack mat C z s =
      match mat.gradient (eighSqrt lapack C).1 z s.material with
      | (.ok (g, z'), m) => (.ok (gradPure (eighSqrt lapack C).1 (eighSqrt lapack C).2 g, z'),
          post (eighSqrt lapack C) g m)
      | (.error e, m) => (.error e, pre (eighSqrt lapack C) s m) := by
  unfold gradient callMat
  simp only [bind_run, assign_run, attr_run, sub_run]
  rcases mat.gradient (eighSqrt lapack C).1 z s.material with ⟨_ | ⟨g, z'⟩, m⟩ <;> rfl

/-- lines 146-162 -/
noncomputable def d2Of (l g : Vec3 ℝ) (h : StrHess) : Vec6 ℝ :=
  let d2 : Vec6 ℝ := fun m => StrHess.vec h m / (4 * l (GenInv.ia m) * l (GenInv.ib m))
  ![d2 0 - dlC l g 0 / (2 * l 0 ^ 2), d2 1 - dlC l g 1 / (2 * l 1 ^ 2),
    d2 2 - dlC l g 2 / (2 * l 2 ^ 2), d2 3, d2 4, d2 5]

/-- the hessian -/
noncomputable def hessPure (l : Vec3 ℝ) (M : Fin 3 → Vec6 ℝ) (g : Vec3 ℝ) (h : StrHess) : Mat6 ℝ :=
  fun i j => ∑ m, term l (dlC l g) M (d2Of l g h) m i j

theorem foldl_term (f : Fin 6 → Mat6 ℝ) :
    ((List.finRange 6).foldl (fun acc m => fun i j => acc i j + f m i j) fun _ _ => 0) =
      fun i j => ∑ m, f m i j := by
  funext i j
  simp [List.finRange_succ, Fin.sum_univ_succ]
  ring

theorem hessian_run (lapack : Eigh) (mat : StrMat Z μ) (C : Vec6 ℝ) (z : Z) (s : StrSt μ) :
    hessian lapack mat C z s =
      match mat.gradient (eighSqrt lapack C).1 z s.material with
      | (.error e, m) => (.error e, pre (eighSqrt lapack C) s m)
      | (.ok (g, z'), m) =>
        match mat.hessian (eighSqrt lapack C).1 z' m with
        | (.error e, m) => (.error e, post (eighSqrt lapack C) g m)
        | (.ok h, m) => (.ok (hessPure (eighSqrt lapack C).1 (eighSqrt lapack C).2 g h),
            post (eighSqrt lapack C) g m) := by
  unfold hessian callMat
  simp only [bind_run, gradient_run]
  rcases mat.gradient (eighSqrt lapack C).1 z s.material with ⟨_ | ⟨g, z'⟩, m⟩
  · rfl
  · have e1 : (post (eighSqrt lapack C) g m).l = some (eighSqrt lapack C).1 := rfl
    simp only [attr_run, sub_run, e1]
    rcases hh : mat.hessian (eighSqrt lapack C).1 z' m with ⟨_ | h, m'⟩
    · rw [show (post (eighSqrt lapack C) g m).material = m from rfl, hh]; rfl
    · rw [show (post (eighSqrt lapack C) g m).material = m from rfl, hh]
      simp only [foldl_term]
      rcases h with h | h <;> rfl

theorem returns_gradient (lapack : Eigh) (mat : StrMat Z μ) (C : Vec6 ℝ) (z : Z) (s : StrSt μ)
    (G : Vec6 ℝ) (z' : Z) : Returns (gradient lapack mat C z) s (G, z') ↔
      ∃ g, Returns (mat.gradient (eighSqrt lapack C).1 z) s.material (g, z') ∧
        G = gradPure (eighSqrt lapack C).1 (eighSqrt lapack C).2 g := by
  unfold Returns
  rw [gradient_run]
  rcases mat.gradient (eighSqrt lapack C).1 z s.material with ⟨_ | ⟨g, z''⟩, m⟩
  · simp
  · simp only [Except.ok.injEq, Prod.mk.injEq]
    constructor
    · rintro ⟨rfl, rfl⟩; exact ⟨g, ⟨rfl, rfl⟩, rfl⟩
    · rintro ⟨g', ⟨rfl, rfl⟩, rfl⟩; exact ⟨rfl, rfl⟩

theorem returns_hessian (lapack : Eigh) (mat : StrMat Z μ) (C : Vec6 ℝ) (z : Z) (s : StrSt μ)
    (H : Mat6 ℝ) : Returns (hessian lapack mat C z) s H ↔
      ∃ g z' m h, mat.gradient (eighSqrt lapack C).1 z s.material = (.ok (g, z'), m) ∧
        Returns (mat.hessian (eighSqrt lapack C).1 z') m h ∧
        H = hessPure (eighSqrt lapack C).1 (eighSqrt lapack C).2 g h := by
  unfold Returns
  rw [hessian_run]
  rcases mat.gradient (eighSqrt lapack C).1 z s.material with ⟨_ | ⟨g, z''⟩, m⟩
  · simp
  · simp only
    rcases hh : mat.hessian (eighSqrt lapack C).1 z'' m with ⟨_ | h, m'⟩
    · constructor
      · intro h; cases h
      · rintro ⟨g', z', m'', h', h1, h2, rfl⟩
        cases h1
        rw [hh] at h2
        cases h2
    · constructor
      · intro h1
        cases h1
        exact ⟨g, z'', m, h, rfl, by rw [hh], rfl⟩
      · rintro ⟨g', z', m'', h', h1, h2, rfl⟩
        cases h1
        rw [hh] at h2
        cases h2
        rfl

end Stretches

namespace GenInv

/-- the strain measure of the stretches -/
def ev (g : GenInv) (l : Vec3 ℝ) : Vec3 ℝ := fun a => (g.strain.eval (l a)).E
/-- its first derivative -/
def dev (g : GenInv) (l : Vec3 ℝ) : Vec3 ℝ := fun a => (g.strain.eval (l a)).dE
/-- its second derivative -/
def d2ev (g : GenInv) (l : Vec3 ℝ) : Vec3 ℝ := fun a => (g.strain.eval (l a)).d2E

/-- normalized first invariant -/
noncomputable def J1 (g : GenInv) (E : Vec3 ℝ) : ℝ := g.c1 * (E 0 + E 1 + E 2) - g.I10 * (g.c1 - 1)
/-- normalized second invariant -/
noncomputable def J2 (g : GenInv) (E : Vec3 ℝ) : ℝ :=
  g.c2 * (E 0 * E 1 + E 1 * E 2 + E 2 * E 0) - g.I20 * (g.c2 - 1)
/-- third invariant -/
noncomputable def J3 (E : Vec3 ℝ) : ℝ := E 0 * E 1 * E 2

/-- derivative of the second invariant -/
noncomputable def dJ2 (g : GenInv) (E : Vec3 ℝ) : Vec3 ℝ := fun a =>
  g.c2 * (take E ![1, 0, 0] a + take E ![2, 2, 1] a)
/-- derivative of the third invariant -/
noncomputable def dJ3 (E : Vec3 ℝ) : Vec3 ℝ := fun a => take E ![1, 0, 0] a * take E ![2, 2, 1] a

/-- the gradient -/
noncomputable def gradPure (g : GenInv) (l : Vec3 ℝ) (r : InvGrad ℝ Z) : Vec3 ℝ :=
  addVec (addVec (addVec (fun _ => 0) r.d1 fun a => g.c1 * 1 * g.dev l a) r.d2
    fun a => g.dJ2 (g.ev l) a * g.dev l a) r.d3 fun a => dJ3 (g.ev l) a * g.dev l a

/-- state after a successful gradient -/
noncomputable def post (g : GenInv) (l : Vec3 ℝ) (r : InvGrad ℝ Z) (m : μ) : GenSt μ where
  E := some (g.ev l)
  dE := some (g.dev l)
  d2E := some (g.d2ev l)
  I1 := some (g.J1 (g.ev l))
  I2 := some (g.J2 (g.ev l))
  I3 := some (J3 (g.ev l))
  dWdI1 := some r.d1
  dWdI2 := some r.d2
  dWdI3 := some r.d3
  dI1dE := some fun _ => g.c1 * 1
  dI2dE := some (g.dJ2 (g.ev l))
  dI3dE := some (dJ3 (g.ev l))
  material := m

/-- state after a failed gradient -/
noncomputable def pre (g : GenInv) (l : Vec3 ℝ) (s : GenSt μ) (m : μ) : GenSt μ :=
  { s with E := some (g.ev l), dE := some (g.dev l), d2E := some (g.d2ev l), I1 := some (g.J1 (g.ev l)),
           I2 := some (g.J2 (g.ev l)), I3 := some (J3 (g.ev l)), material := m }

theorem gradient_run (g : GenInv) (mat : InvMat ℝ Z μ) (l : Vec3 ℝ) (z : Z) (s : GenSt μ) :
    gradient g mat l z s =
      match mat.gradient (g.J1 (g.ev l)) (g.J2 (g.ev l)) (J3 (g.ev l)) z s.material with
      | (.ok r, m) => (.ok (gradPure g l r, r.sv), post g l r m)
      | (.error e, m) => (.error e, pre g l s m) := by
  unfold gradient callMat
  simp only [bind_run, assign_run, attr_run, sub_run]
  change (match (mat.gradient (g.J1 (g.ev l)) (g.J2 (g.ev l)) (J3 (g.ev l)) z s.material) with | _ => _) = _
  rcases h : mat.gradient (g.J1 (g.ev l)) (g.J2 (g.ev l)) (J3 (g.ev l)) z s.material with ⟨_ | r, m⟩
  · unfold J1 J2 J3 ev at h; simp only [h]; rfl
  · unfold J1 J2 J3 ev at h; simp only [h]; rfl

/-- lines 282-338 -/
noncomputable def hessPure (g : GenInv) (l : Vec3 ℝ) (r : InvGrad ℝ Z) (h : InvHess ℝ) : Vec6 ℝ :=
  let d1 : Vec3 ℝ := fun _ => g.c1 * 1
  let d2 := g.dJ2 (g.ev l)
  let d3 := dJ3 (g.ev l)
  let dE := g.dev l
  let d2E := g.d2ev l
  let x : Vec6 ℝ := fun _ => 0
  let x := addVec x h.h11 fun m => d1 (ia m) * d1 (ib m)
  let x := addVec x h.h22 fun m => d2 (ia m) * d2 (ib m)
  let x := addVec x h.h33 fun m => d3 (ia m) * d3 (ib m)
  let x := addVec x h.h12 fun m => d1 (ia m) * d2 (ib m) + d2 (ia m) * d1 (ib m)
  let x := addVec x h.h23 fun m => d2 (ia m) * d3 (ib m) + d3 (ia m) * d2 (ib m)
  let x := addVec x h.h13 fun m => d1 (ia m) * d3 (ib m) + d3 (ia m) * d1 (ib m)
  let x := match r.d2 with
    | some w => addTail x fun _ => w * g.c2
    | none => x
  let x := match r.d3 with
    | some w => addTail x fun a => w * (![2, 0, 1] : Vec3 ℝ) a
    | none => x
  let x : Vec6 ℝ := fun m => x m * (dE (ia m) * dE (ib m))
  let x := match r.d1 with
    | some w => addHead x fun a => w * d1 a * d2E a
    | none => x
  let x := match r.d2 with
    | some w => addHead x fun a => w * d2 a * d2E a
    | none => x
  match r.d3 with
    | some w => addHead x fun a => w * d3 a * d2E a
    | none => x

theorem hessian_run (g : GenInv) (mat : InvMat ℝ Z μ) (l : Vec3 ℝ) (z : Z) (s : GenSt μ) :
    hessian g mat l z s =
      match mat.gradient (g.J1 (g.ev l)) (g.J2 (g.ev l)) (J3 (g.ev l)) z s.material with
      | (.error e, m) => (.error e, pre g l s m)
      | (.ok r, m) =>
        match mat.hessian (g.J1 (g.ev l)) (g.J2 (g.ev l)) (J3 (g.ev l)) z m with
        | (.error e, m) => (.error e, post g l r m)
        | (.ok h, m) => (.ok (.array (hessPure g l r h)), post g l r m) := by
  unfold hessian callMat
  simp only [bind_run, gradient_run]
  rcases mat.gradient (g.J1 (g.ev l)) (g.J2 (g.ev l)) (J3 (g.ev l)) z s.material with ⟨_ | r, m⟩
  · rfl
  · have e1 : (post g l r m).I1 = some (g.J1 (g.ev l)) := rfl
    have e2 : (post g l r m).I2 = some (g.J2 (g.ev l)) := rfl
    have e3 : (post g l r m).I3 = some (J3 (g.ev l)) := rfl
    simp only [attr_run, sub_run, e1, e2, e3]
    rcases hh : mat.hessian (g.J1 (g.ev l)) (g.J2 (g.ev l)) (J3 (g.ev l)) z m with ⟨_ | h, m'⟩
    · rw [show (post g l r m).material = m from rfl, hh]; rfl
    · rw [show (post g l r m).material = m from rfl, hh]; rfl

theorem returns_gradient (g : GenInv) (mat : InvMat ℝ Z μ) (l : Vec3 ℝ) (z : Z) (s : GenSt μ)
    (d : Vec3 ℝ) (z' : Z) : Returns (gradient g mat l z) s (d, z') ↔
      ∃ r, Returns (mat.gradient (g.J1 (g.ev l)) (g.J2 (g.ev l)) (J3 (g.ev l)) z) s.material r ∧
        d = gradPure g l r ∧ z' = r.sv := by
  unfold Returns
  rw [gradient_run]
  rcases mat.gradient (g.J1 (g.ev l)) (g.J2 (g.ev l)) (J3 (g.ev l)) z s.material with ⟨_ | r, m⟩
  · simp
  · simp [eq_comm]

theorem returns_hessian (g : GenInv) (mat : InvMat ℝ Z μ) (l : Vec3 ℝ) (z : Z) (s : GenSt μ)
    (H : StrHess) : Returns (hessian g mat l z) s H ↔
      ∃ r m h, mat.gradient (g.J1 (g.ev l)) (g.J2 (g.ev l)) (J3 (g.ev l)) z s.material = (.ok r, m) ∧
        Returns (mat.hessian (g.J1 (g.ev l)) (g.J2 (g.ev l)) (J3 (g.ev l)) z) m h ∧
        H = .array (hessPure g l r h) := by
  unfold Returns
  rw [hessian_run]
  rcases mat.gradient (g.J1 (g.ev l)) (g.J2 (g.ev l)) (J3 (g.ev l)) z s.material with ⟨_ | r, m⟩
  · simp
  · simp only
    rcases hh : mat.hessian (g.J1 (g.ev l)) (g.J2 (g.ev l)) (J3 (g.ev l)) z m with ⟨_ | h, m'⟩
    · simp [hh]
    · constructor
      · intro h1
        cases h1
        exact ⟨r, m, h, rfl, by rw [hh], rfl⟩
      · rintro ⟨r', m'', h', h1, h2, rfl⟩
        cases h1
        rw [hh] at h2
        cases h2
        rfl

end GenInv

end Hel
