import Verif.Proofs.Batch

/-! What the methods of the spaces do on batches, as equations. -/

namespace Hel
namespace Batch
open Spec PyM

variable {ι Z μ : Type}

namespace Deformation

theorem gradient_run (cfg : SpaceCfg) (mat : Material (Arr ι) Z μ) (F : Full2 (Arr ι)) (z : Z) (s : DefSt ι μ) :
    gradient cfg mat F z s =
      match mat.gradient (rightCauchyGreen F) z s.material with
      | (.ok (g, z'), m) => (.ok (piolaStress cfg F (fun a => 2 * g a) none, z'),
          { C := some (rightCauchyGreen F), S := some fun a => 2 * g a, material := m })
      | (.error e, m) => (.error e, { C := some (rightCauchyGreen F), S := s.S, material := m }) := by
  unfold gradient callMat
  simp only [bind_run, assign_run, attr_run, sub_run]
  rcases mat.gradient (rightCauchyGreen F) z s.material with ⟨_ | ⟨g, z'⟩, m⟩ <;> rfl

theorem hessian_run (cfg : SpaceCfg) (mat : Material (Arr ι) Z μ) (F : Full2 (Arr ι)) (z : Z) (s : DefSt ι μ) :
    hessian cfg mat F z s =
      match mat.gradient (rightCauchyGreen F) z s.material with
      | (.error e, m) => (.error e, { C := some (rightCauchyGreen F), S := s.S, material := m })
      | (.ok (g, _), m) =>
        match mat.hessian (rightCauchyGreen F) z m with
        | (.error e, m) => (.error e,
          { C := some (rightCauchyGreen F), S := some fun a => 2 * g a, material := m })
        | (.ok h, m) =>
          (.ok (piolaElasticity cfg F (fun a => 2 * g a) none (fun a b => 4 * h a b) none),
            { C := some (rightCauchyGreen F), S := some fun a => 2 * g a, material := m }) := by
  unfold hessian callMat
  simp only [bind_run, gradient_run]
  rcases mat.gradient (rightCauchyGreen F) z s.material with ⟨_ | ⟨g, z'⟩, m⟩
  · rfl
  · simp only [attr_run, sub_run]
    rcases mat.hessian (rightCauchyGreen F) z m with ⟨_ | h, m'⟩ <;> rfl

end Deformation

namespace Distortional

/-- the tensor handed to the material -/
noncomputable def cu (F : Full2 (Arr ι)) : Vec6 (Arr ι) := fun a =>
  Arr.pow (det (rightCauchyGreen F)) (-1 / 3 : ℝ) * rightCauchyGreen F a

/-- the fictitious stress -/
noncomputable def sb (F : Full2 (Arr ι)) (g : Vec6 (Arr ι)) : Vec6 (Arr ι) := fun a =>
  2 * Arr.pow (det (rightCauchyGreen F)) (-1 / 3 : ℝ) * g a

/-- inverse of C -/
noncomputable def ic (F : Full2 (Arr ι)) : Vec6 (Arr ι) :=
  inv (rightCauchyGreen F) (some (det (rightCauchyGreen F)))

/-- the stress -/
noncomputable def st (F : Full2 (Arr ι)) (g : Vec6 (Arr ι)) : Vec6 (Arr ι) := fun a =>
  sb F g a - ddot (sb F g) (rightCauchyGreen F) / 3 * ic F a

/-- state after a successful gradient -/
noncomputable def post (F : Full2 (Arr ι)) (g : Vec6 (Arr ι)) (m : μ) : DistSt ι μ where
  C := some (rightCauchyGreen F)
  I3 := some (det (rightCauchyGreen F))
  Cu := some (cu F)
  Sb := some (sb F g)
  SbC := some (ddot (sb F g) (rightCauchyGreen F))
  invC := some (ic F)
  S := some (st F g)
  material := m

/-- state after a failed gradient -/
noncomputable def pre (F : Full2 (Arr ι)) (s : DistSt ι μ) (m : μ) : DistSt ι μ :=
  { s with C := some (rightCauchyGreen F), I3 := some (det (rightCauchyGreen F)),
           Cu := some (cu F), material := m }

theorem gradient_run (cfg : SpaceCfg) (mat : Material (Arr ι) Z μ) (F : Full2 (Arr ι)) (z : Z) (s : DistSt ι μ) :
    gradient cfg mat F z s =
      match mat.gradient (cu F) z s.material with
      | (.ok (g, z'), m) => (.ok (piolaStress cfg F (st F g)
          (some (Arr.sqrt (det (rightCauchyGreen F)))), z'), post F g m)
      | (.error e, m) => (.error e, pre F s m) := by
  unfold gradient callMat
  simp only [bind_run, assign_run, attr_run, sub_run]
  change (match mat.gradient (cu F) z s.material with | _ => _) = _
  rcases h : mat.gradient (cu F) z s.material with ⟨_ | ⟨g, z'⟩, m⟩
  all_goals (unfold cu at h; rw [h]; rfl)

open Classical in
/-- the elasticity of the fictitious configuration and its transformation -/
noncomputable def c4 (F : Full2 (Arr ι)) (g : Vec6 (Arr ι)) (h : Mat6 (Arr ι)) : Mat6 (Arr ι) :=
  let C4b : Mat6 (Arr ι) := fun a b => 4 * Arr.pow (det (rightCauchyGreen F)) (-2 / 3 : ℝ) * h a b
  let P4 : Mat6 (Arr ι) := fun a b => cdyaSelf eye a b - dya (ic F) (rightCauchyGreen F) a b / 3
  let SbC := ddot (sb F g) (rightCauchyGreen F)
  let C4 : Mat6 (Arr ι) := fun a b => 2 / 3 * (SbC * cdyaSelf (ic F) a b - dya (sb F g) (ic F) a b -
    transpose (dya (sb F g) (ic F)) a b + SbC / 3 * dya (ic F) (ic F) a b)
  if ¬ allclose0 C4b then fun a b => C4 a b + ddot44 (ddot44 P4 C4b) (transpose P4) a b else C4

theorem hessian_run (cfg : SpaceCfg) (mat : Material (Arr ι) Z μ) (F : Full2 (Arr ι)) (z : Z) (s : DistSt ι μ) :
    hessian cfg mat F z s =
      match mat.gradient (cu F) z s.material with
      | (.error e, m) => (.error e, pre F s m)
      | (.ok (g, _), m) =>
        match mat.hessian (cu F) z m with
        | (.error e, m) => (.error e, post F g m)
        | (.ok h, m) => (.ok (piolaElasticity cfg F (st F g)
            (some (Arr.sqrt (det (rightCauchyGreen F)))) (c4 F g h) (some (ic F))), post F g m) := by
  unfold hessian callMat
  simp only [bind_run, gradient_run]
  rcases mat.gradient (cu F) z s.material with ⟨_ | ⟨g, z'⟩, m⟩
  · rfl
  · have e1 : (post F g m).Cu = some (cu F) := rfl
    simp only [attr_run, sub_run, e1]
    rcases hh : mat.hessian (cu F) z m with ⟨_ | h, m'⟩
    all_goals (rw [show (post F g m).material = m from rfl, hh]; rfl)

end Distortional

namespace Dilatational


/-- the tensor handed to the material -/
noncomputable def co (F : Full2 (Arr ι)) : Vec6 (Arr ι) := fun a =>
  Arr.pow (det (rightCauchyGreen F)) (1 / 3 : ℝ) * rightCauchyGreen F a

/-- `Sb` -/
noncomputable def sb (F : Full2 (Arr ι)) (g : Vec6 (Arr ι)) : Vec6 (Arr ι) := fun a =>
  2 * Arr.pow (det (rightCauchyGreen F)) (1 / 3 : ℝ) * g a

/-- inverse of C -/
noncomputable def ic (F : Full2 (Arr ι)) : Vec6 (Arr ι) :=
  inv (rightCauchyGreen F) (some (det (rightCauchyGreen F)))

/-- the stress -/
noncomputable def st (F : Full2 (Arr ι)) (g : Vec6 (Arr ι)) : Vec6 (Arr ι) := fun a => trace (sb F g) / 3 * ic F a

/-- the elasticity -/
noncomputable def c4 (F : Full2 (Arr ι)) (g : Vec6 (Arr ι)) (h : Mat6 (Arr ι)) : Mat6 (Arr ι) :=
  let C4b : Mat6 (Arr ι) := fun a b => 4 * Arr.pow (det (rightCauchyGreen F)) (2 / 3 : ℝ) * h a b
  fun a b => (2 * trace (sb F g) + ddot (ddot24 eye C4b) eye) * dya (ic F) (ic F) a b / 9 -
    2 / 3 * trace (sb F g) * cdyaSelf (ic F) a b

/-- state after a successful gradient -/
noncomputable def post (F : Full2 (Arr ι)) (g : Vec6 (Arr ι)) (m : μ) : DilSt ι μ where
  C := some (rightCauchyGreen F)
  I3 := some (det (rightCauchyGreen F))
  Co := some (co F)
  Sb := some (sb F g)
  tr_Sb := some (trace (sb F g))
  invC := some (ic F)
  S := some (st F g)
  material := m

/-- state after a failed gradient -/
noncomputable def pre (F : Full2 (Arr ι)) (s : DilSt ι μ) (m : μ) : DilSt ι μ :=
  { s with C := some (rightCauchyGreen F), I3 := some (det (rightCauchyGreen F)),
           Co := some (co F), material := m }

theorem gradient_run (cfg : SpaceCfg) (mat : Material (Arr ι) Z μ) (F : Full2 (Arr ι)) (z : Z) (s : DilSt ι μ) :
    gradient cfg mat F z s =
      match mat.gradient (co F) z s.material with
      | (.ok (g, z'), m) => (.ok (piolaStress cfg F (st F g)
          (some (Arr.sqrt (det (rightCauchyGreen F)))), z'), post F g m)
      | (.error e, m) => (.error e, pre F s m) := by
  unfold gradient callMat
  simp only [bind_run, assign_run, attr_run, sub_run]
  change (match mat.gradient (co F) z s.material with | _ => _) = _
  rcases h : mat.gradient (co F) z s.material with ⟨_ | ⟨g, z'⟩, m⟩
  all_goals (unfold co at h; rw [h]; rfl)

theorem hessian_run (cfg : SpaceCfg) (mat : Material (Arr ι) Z μ) (F : Full2 (Arr ι)) (z : Z) (s : DilSt ι μ) :
    hessian cfg mat F z s =
      match mat.gradient (co F) z s.material with
      | (.error e, m) => (.error e, pre F s m)
      | (.ok (g, _), m) =>
        match mat.hessian (co F) z m with
        | (.error e, m) => (.error e, post F g m)
        | (.ok h, m) => (.ok (piolaElasticity cfg F (st F g)
            (some (Arr.sqrt (det (rightCauchyGreen F)))) (c4 F g h) (some (ic F))), post F g m) := by
  unfold hessian callMat
  simp only [bind_run, gradient_run]
  rcases mat.gradient (co F) z s.material with ⟨_ | ⟨g, z'⟩, m⟩
  · rfl
  · have e1 : (post F g m).Co = some (co F) := rfl
    simp only [attr_run, sub_run, e1]
    rcases hh : mat.hessian (co F) z m with ⟨_ | h, m'⟩
    all_goals (rw [show (post F g m).material = m from rfl, hh]; rfl)

end Dilatational

namespace Stretches

/-- the six second derivatives, `None` as zero -/
def vec : StrHess ι → Vec6 (Arr ι)
  | .array h => h
  | .list h => fun m => (h m).getD 0

/-- `dWdλα / (2 λα)` -/
noncomputable def dlC (l g : Vec3 (Arr ι)) : Vec3 (Arr ι) := fun a => g a / (2 * l a)

/-- the gradient -/
noncomputable def gradPure (l : Vec3 (Arr ι)) (M : Fin 3 → Vec6 (Arr ι)) (g : Vec3 (Arr ι)) : Vec6 (Arr ι) := fun i =>
  ∑ a, dlC l g a * M a i

/-- state after a successful gradient -/
noncomputable def post (r : Vec3 (Arr ι) × (Fin 3 → Vec6 (Arr ι))) (g : Vec3 (Arr ι)) (m : μ) : StrSt ι μ where
  l := some r.1
  M := some r.2
  dWdl := some g
  dWdlC := some (dlC r.1 g)
  material := m

/-- state after a failed gradient -/
def pre (r : Vec3 (Arr ι) × (Fin 3 → Vec6 (Arr ι))) (s : StrSt ι μ) (m : μ) : StrSt ι μ :=
  { s with l := some r.1, M := some r.2, material := m }

theorem gradient_run (lapack : Eigh) (mat : StrMat ι Z μ) (C : Vec6 (Arr ι)) (z : Z) (s : StrSt ι μ) :
    gradient lapack mat C z s =
      match mat.gradient (eighSqrt lapack C).1 z s.material with
      | (.ok (g, z'), m) => (.ok (gradPure (eighSqrt lapack C).1 (eighSqrt lapack C).2 g, z'),
          post (eighSqrt lapack C) g m)
      | (.error e, m) => (.error e, pre (eighSqrt lapack C) s m) := by
  unfold gradient callMat
  simp only [bind_run, assign_run, attr_run, sub_run]
  rcases mat.gradient (eighSqrt lapack C).1 z s.material with ⟨_ | ⟨g, z'⟩, m⟩ <;> rfl

/-- lines 146-162 -/
noncomputable def d2Of (l g : Vec3 (Arr ι)) (h : StrHess ι) : Vec6 (Arr ι) :=
  let d2 : Vec6 (Arr ι) := fun m => vec h m / (4 * l (GenInv.ia m) * l (GenInv.ib m))
  ![d2 0 - dlC l g 0 / (2 * l 0 ^ 2), d2 1 - dlC l g 1 / (2 * l 1 ^ 2),
    d2 2 - dlC l g 2 / (2 * l 2 ^ 2), d2 3, d2 4, d2 5]

/-- the hessian -/
noncomputable def hessPure (l : Vec3 (Arr ι)) (M : Fin 3 → Vec6 (Arr ι)) (g : Vec3 (Arr ι)) (h : StrHess ι) : Mat6 (Arr ι) :=
  fun i j => ∑ m, term l (dlC l g) M (d2Of l g h) m i j

theorem foldl_term (f : Fin 6 → Mat6 (Arr ι)) :
    ((List.finRange 6).foldl (fun acc m => fun i j => acc i j + f m i j) fun _ _ => 0) =
      fun i j => ∑ m, f m i j := by
  funext i j
  simp [List.finRange_succ, Fin.sum_univ_succ]
  ring

theorem hessian_run (lapack : Eigh) (mat : StrMat ι Z μ) (C : Vec6 (Arr ι)) (z : Z) (s : StrSt ι μ) :
    hessian lapack mat C z s =
      match mat.gradient (eighSqrt lapack C).1 z s.material with
      | (.error e, m) => (.error e, pre (eighSqrt lapack C) s m)
      | (.ok (g, z'), m) =>
        match mat.hessian (eighSqrt lapack C).1 z' m with
        | (.error e, m) => (.error e, post (eighSqrt lapack C) g m)
        | (.ok h, m) => (.ok (hessPure (eighSqrt lapack C).1 (eighSqrt lapack C).2 g h),
            post (eighSqrt lapack C) g m) := by
  unfold hessian callMat
  simp only [bind_run, gradient_run]
  rcases mat.gradient (eighSqrt lapack C).1 z s.material with ⟨_ | ⟨g, z'⟩, m⟩
  · rfl
  · have e1 : (post (eighSqrt lapack C) g m).l = some (eighSqrt lapack C).1 := rfl
    simp only [attr_run, sub_run, e1]
    rcases hh : mat.hessian (eighSqrt lapack C).1 z' m with ⟨_ | h, m'⟩
    · rw [show (post (eighSqrt lapack C) g m).material = m from rfl, hh]; rfl
    · rw [show (post (eighSqrt lapack C) g m).material = m from rfl, hh]
      simp only [foldl_term]
      rcases h with h | h <;> rfl

end Stretches

end Batch
end Hel
