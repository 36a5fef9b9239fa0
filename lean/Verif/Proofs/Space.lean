import Verif.Proofs.PyM
import Verif.Proofs.Tensor
import Verif.Spec.Api

/-! What the methods of the spaces do, as equations. -/

namespace Hel
open PyM Spec

variable {Z μ : Type}

theorem T2_rightCauchyGreen (F : Ten2 ℝ) : T2 (rightCauchyGreen F) = F.transpose * F := by
  have h : (F.transpose * F).IsSymm := by
    rw [Matrix.IsSymm, Matrix.transpose_mul, Matrix.transpose_transpose]
  have e : rightCauchyGreen F = asvoigt (F.transpose * F) := by
    unfold rightCauchyGreen
    congr 1
  rw [e]
  exact T2_eq (stores_asvoigt h)

namespace Deformation

theorem gradient_run (cfg : SpaceCfg) (mat : Material ℝ Z μ) (F : Full2 ℝ) (z : Z) (s : DefSt μ) :
    gradient cfg mat F z s =
      match mat.gradient (rightCauchyGreen F) z s.material with
      | (.ok (g, z'), m) => (.ok (piolaStress cfg F (fun a => 2 * g a) none, z'),
          { C := some (rightCauchyGreen F), S := some fun a => 2 * g a, material := m })
      | (.error e, m) => (.error e, { C := some (rightCauchyGreen F), S := s.S, material := m }) := by
  unfold gradient callMat
  simp only [bind_run, assign_run, attr_run, sub_run]
  rcases mat.gradient (rightCauchyGreen F) z s.material with ⟨_ | ⟨g, z'⟩, m⟩ <;> rfl

theorem hessian_run (cfg : SpaceCfg) (mat : Material ℝ Z μ) (F : Full2 ℝ) (z : Z) (s : DefSt μ) :
    hessian cfg mat F z s =
      match mat.gradient (rightCauchyGreen F) z s.material with
      | (.error e, m) => (.error e, { C := some (rightCauchyGreen F), S := s.S, material := m })
      | (.ok (g, _), m) =>
        match mat.hessian (rightCauchyGreen F) z m with
        | (.error e, m) => (.error e,
          { C := some (rightCauchyGreen F), S := some fun a => 2 * g a, material := m })
        | (.ok h, m) =>
          (.ok (piolaElasticity cfg F (fun a => 2 * g a) none (fun a b => 4 * h a b) none),
            { C := some (rightCauchyGreen F), S := some fun a => 2 * g a, material := m }) := by
  unfold hessian callMat
  simp only [bind_run, gradient_run]
  rcases mat.gradient (rightCauchyGreen F) z s.material with ⟨_ | ⟨g, z'⟩, m⟩
  · rfl
  · simp only [attr_run, sub_run]
    rcases mat.hessian (rightCauchyGreen F) z m with ⟨_ | h, m'⟩ <;> rfl

theorem returns_gradient (cfg : SpaceCfg) (mat : Material ℝ Z μ) (F : Full2 ℝ) (z : Z) (s : DefSt μ)
    (σ : Stress) (z' : Z) : Returns (gradient cfg mat F z) s (σ, z') ↔
      ∃ g, Returns (mat.gradient (rightCauchyGreen F) z) s.material (g, z') ∧
        σ = piolaStress cfg F (fun a => 2 * g a) none := by
  unfold Returns
  rw [gradient_run]
  rcases mat.gradient (rightCauchyGreen F) z s.material with ⟨_ | ⟨g, z''⟩, m⟩
  · simp
  · simp only [Except.ok.injEq, Prod.mk.injEq]
    constructor
    · rintro ⟨rfl, rfl⟩; exact ⟨g, ⟨rfl, rfl⟩, rfl⟩
    · rintro ⟨g', ⟨rfl, rfl⟩, rfl⟩; exact ⟨rfl, rfl⟩

theorem returns_hessian (cfg : SpaceCfg) (mat : Material ℝ Z μ) (F : Full2 ℝ) (z : Z) (s : DefSt μ)
    (A : Elasticity) : Returns (hessian cfg mat F z) s A ↔
      ∃ g z' m h, mat.gradient (rightCauchyGreen F) z s.material = (.ok (g, z'), m) ∧
        Returns (mat.hessian (rightCauchyGreen F) z) m h ∧
        A = piolaElasticity cfg F (fun a => 2 * g a) none (fun a b => 4 * h a b) none := by
  unfold Returns
  rw [hessian_run]
  rcases mat.gradient (rightCauchyGreen F) z s.material with ⟨_ | ⟨g, z''⟩, m⟩
  · simp
  · simp only
    rcases hh : mat.hessian (rightCauchyGreen F) z m with ⟨_ | h, m'⟩
    · simp [hh]
    · constructor
      · intro h1
        cases h1
        exact ⟨g, z'', m, h, rfl, by rw [hh], rfl⟩
      · rintro ⟨g', z', m'', h', h1, h2, rfl⟩
        cases h1
        rw [hh] at h2
        cases h2
        rfl

end Deformation

namespace Distortional

/-- the tensor handed to the material -/
noncomputable def cu (F : Full2 ℝ) : Vec6 ℝ := fun a =>
  det (rightCauchyGreen F) ^ (-1 / 3 : ℝ) * rightCauchyGreen F a

/-- the fictitious stress -/
noncomputable def sb (F : Full2 ℝ) (g : Vec6 ℝ) : Vec6 ℝ := fun a =>
  2 * det (rightCauchyGreen F) ^ (-1 / 3 : ℝ) * g a

/-- inverse of C -/
noncomputable def ic (F : Full2 ℝ) : Vec6 ℝ :=
  inv (rightCauchyGreen F) (some (det (rightCauchyGreen F)))

/-- the stress -/
noncomputable def st (F : Full2 ℝ) (g : Vec6 ℝ) : Vec6 ℝ := fun a =>
  sb F g a - ddot (sb F g) (rightCauchyGreen F) / 3 * ic F a

/-- state after a successful gradient -/
noncomputable def post (F : Full2 ℝ) (g : Vec6 ℝ) (m : μ) : DistSt μ where
  C := some (rightCauchyGreen F)
  I3 := some (det (rightCauchyGreen F))
  Cu := some (cu F)
  Sb := some (sb F g)
  SbC := some (ddot (sb F g) (rightCauchyGreen F))
  invC := some (ic F)
  S := some (st F g)
  material := m

/-- state after a failed gradient -/
noncomputable def pre (F : Full2 ℝ) (s : DistSt μ) (m : μ) : DistSt μ :=
  { s with C := some (rightCauchyGreen F), I3 := some (det (rightCauchyGreen F)),
           Cu := some (cu F), material := m }

theorem gradient_run (cfg : SpaceCfg) (mat : Material ℝ Z μ) (F : Full2 ℝ) (z : Z) (s : DistSt μ) :
    gradient cfg mat F z s =
      match mat.gradient (cu F) z s.material with
      | (.ok (g, z'), m) => (.ok (piolaStress cfg F (st F g)
          (some (Real.sqrt (det (rightCauchyGreen F)))), z'), post F g m)
      | (.error e, m) => (.error e, pre F s m) := by
  unfold gradient callMat
  simp only [bind_run, assign_run, attr_run, sub_run]
  change (match mat.gradient (cu F) z s.material with | _ => _) = _
  rcases h : mat.gradient (cu F) z s.material with ⟨_ | ⟨g, z'⟩, m⟩
  all_goals (unfold cu at h; rw [h]; rfl)

open Classical in
/-- the elasticity of the fictitious configuration and its transformation -/
noncomputable def c4 (F : Full2 ℝ) (g : Vec6 ℝ) (h : Mat6 ℝ) : Mat6 ℝ :=
  let C4b : Mat6 ℝ := fun a b => 4 * det (rightCauchyGreen F) ^ (-2 / 3 : ℝ) * h a b
  let P4 : Mat6 ℝ := fun a b => cdyaSelf eye a b - dya (ic F) (rightCauchyGreen F) a b / 3
  let SbC := ddot (sb F g) (rightCauchyGreen F)
  let C4 : Mat6 ℝ := fun a b => 2 / 3 * (SbC * cdyaSelf (ic F) a b - dya (sb F g) (ic F) a b -
    transpose (dya (sb F g) (ic F)) a b + SbC / 3 * dya (ic F) (ic F) a b)
  if ¬ allclose0 C4b then fun a b => C4 a b + ddot44 (ddot44 P4 C4b) (transpose P4) a b else C4

theorem hessian_run (cfg : SpaceCfg) (mat : Material ℝ Z μ) (F : Full2 ℝ) (z : Z) (s : DistSt μ) :
    hessian cfg mat F z s =
      match mat.gradient (cu F) z s.material with
      | (.error e, m) => (.error e, pre F s m)
      | (.ok (g, _), m) =>
        match mat.hessian (cu F) z m with
        | (.error e, m) => (.error e, post F g m)
        | (.ok h, m) => (.ok (piolaElasticity cfg F (st F g)
            (some (Real.sqrt (det (rightCauchyGreen F)))) (c4 F g h) (some (ic F))), post F g m) := by
  unfold hessian callMat
  simp only [bind_run, gradient_run]
  rcases mat.gradient (cu F) z s.material with ⟨_ | ⟨g, z'⟩, m⟩
  · rfl
  · have e1 : (post F g m).Cu = some (cu F) := rfl
    simp only [attr_run, sub_run, e1]
    rcases hh : mat.hessian (cu F) z m with ⟨_ | h, m'⟩
    all_goals (rw [show (post F g m).material = m from rfl, hh]; rfl)

theorem returns_gradient (cfg : SpaceCfg) (mat : Material ℝ Z μ) (F : Full2 ℝ) (z : Z) (s : DistSt μ)
    (σ : Stress) (z' : Z) : Returns (gradient cfg mat F z) s (σ, z') ↔
      ∃ g, Returns (mat.gradient (cu F) z) s.material (g, z') ∧
        σ = piolaStress cfg F (st F g) (some (Real.sqrt (det (rightCauchyGreen F)))) := by
  unfold Returns
  rw [gradient_run]
  rcases mat.gradient (cu F) z s.material with ⟨_ | ⟨g, z''⟩, m⟩
  · simp
  · simp only [Except.ok.injEq, Prod.mk.injEq]
    constructor
    · rintro ⟨rfl, rfl⟩; exact ⟨g, ⟨rfl, rfl⟩, rfl⟩
    · rintro ⟨g', ⟨rfl, rfl⟩, rfl⟩; exact ⟨rfl, rfl⟩

theorem returns_hessian (cfg : SpaceCfg) (mat : Material ℝ Z μ) (F : Full2 ℝ) (z : Z) (s : DistSt μ)
    (A : Elasticity) : Returns (hessian cfg mat F z) s A ↔
      ∃ g z' m h, mat.gradient (cu F) z s.material = (.ok (g, z'), m) ∧
        Returns (mat.hessian (cu F) z) m h ∧
        A = piolaElasticity cfg F (st F g) (some (Real.sqrt (det (rightCauchyGreen F))))
          (c4 F g h) (some (ic F)) := by
  unfold Returns
  rw [hessian_run]
  rcases mat.gradient (cu F) z s.material with ⟨_ | ⟨g, z''⟩, m⟩
  · simp
  · simp only
    rcases hh : mat.hessian (cu F) z m with ⟨_ | h, m'⟩
    · simp [hh]
    · constructor
      · intro h1
        cases h1
        exact ⟨g, z'', m, h, rfl, by rw [hh], rfl⟩
      · rintro ⟨g', z', m'', h', h1, h2, rfl⟩
        cases h1
        rw [hh] at h2
        cases h2
        rfl

end Distortional

namespace Dilatational

/-- the tensor handed to the material -/
noncomputable def co (F : Full2 ℝ) : Vec6 ℝ := fun a =>
  det (rightCauchyGreen F) ^ (1 / 3 : ℝ) * rightCauchyGreen F a

/-- `Sb` -/
noncomputable def sb (F : Full2 ℝ) (g : Vec6 ℝ) : Vec6 ℝ := fun a =>
  2 * det (rightCauchyGreen F) ^ (1 / 3 : ℝ) * g a

/-- inverse of C -/
noncomputable def ic (F : Full2 ℝ) : Vec6 ℝ :=
  inv (rightCauchyGreen F) (some (det (rightCauchyGreen F)))

/-- the stress -/
noncomputable def st (F : Full2 ℝ) (g : Vec6 ℝ) : Vec6 ℝ := fun a => trace (sb F g) / 3 * ic F a

/-- the elasticity -/
noncomputable def c4 (F : Full2 ℝ) (g : Vec6 ℝ) (h : Mat6 ℝ) : Mat6 ℝ :=
  let C4b : Mat6 ℝ := fun a b => 4 * det (rightCauchyGreen F) ^ (2 / 3 : ℝ) * h a b
  fun a b => (2 * trace (sb F g) + ddot (ddot24 eye C4b) eye) * dya (ic F) (ic F) a b / 9 -
    2 / 3 * trace (sb F g) * cdyaSelf (ic F) a b

/-- state after a successful gradient -/
noncomputable def post (F : Full2 ℝ) (g : Vec6 ℝ) (m : μ) : DilSt μ where
  C := some (rightCauchyGreen F)
  I3 := some (det (rightCauchyGreen F))
  Co := some (co F)
  Sb := some (sb F g)
  tr_Sb := some (trace (sb F g))
  invC := some (ic F)
  S := some (st F g)
  material := m

/-- state after a failed gradient -/
noncomputable def pre (F : Full2 ℝ) (s : DilSt μ) (m : μ) : DilSt μ :=
  { s with C := some (rightCauchyGreen F), I3 := some (det (rightCauchyGreen F)),
           Co := some (co F), material := m }

theorem gradient_run (cfg : SpaceCfg) (mat : Material ℝ Z μ) (F : Full2 ℝ) (z : Z) (s : DilSt μ) :
    gradient cfg mat F z s =
      match mat.gradient (co F) z s.material with
      | (.ok (g, z'), m) => (.ok (piolaStress cfg F (st F g)
          (some (Real.sqrt (det (rightCauchyGreen F)))), z'), post F g m)
      | (.error e, m) => (.error e, pre F s m) := by
  unfold gradient callMat
  simp only [bind_run, assign_run, attr_run, sub_run]
  change (match mat.gradient (co F) z s.material with | _ => _) = _
  rcases h : mat.gradient (co F) z s.material with ⟨_ | ⟨g, z'⟩, m⟩
  all_goals (unfold co at h; rw [h]; rfl)

theorem hessian_run (cfg : SpaceCfg) (mat : Material ℝ Z μ) (F : Full2 ℝ) (z : Z) (s : DilSt μ) :
    hessian cfg mat F z s =
      match mat.gradient (co F) z s.material with
      | (.error e, m) => (.error e, pre F s m)
      | (.ok (g, _), m) =>
        match mat.hessian (co F) z m with
        | (.error e, m) => (.error e, post F g m)
        | (.ok h, m) => (.ok (piolaElasticity cfg F (st F g)
            (some (Real.sqrt (det (rightCauchyGreen F)))) (c4 F g h) (some (ic F))), post F g m) := by
  unfold hessian callMat
  simp only [bind_run, gradient_run]
  rcases mat.gradient (co F) z s.material with ⟨_ | ⟨g, z'⟩, m⟩
  · rfl
  · have e1 : (post F g m).Co = some (co F) := rfl
    simp only [attr_run, sub_run, e1]
    rcases hh : mat.hessian (co F) z m with ⟨_ | h, m'⟩
    all_goals (rw [show (post F g m).material = m from rfl, hh]; rfl)

theorem returns_gradient (cfg : SpaceCfg) (mat : Material ℝ Z μ) (F : Full2 ℝ) (z : Z) (s : DilSt μ)
    (σ : Stress) (z' : Z) : Returns (gradient cfg mat F z) s (σ, z') ↔
      ∃ g, Returns (mat.gradient (co F) z) s.material (g, z') ∧
        σ = piolaStress cfg F (st F g) (some (Real.sqrt (det (rightCauchyGreen F)))) := by
  unfold Returns
  rw [gradient_run]
  rcases mat.gradient (co F) z s.material with ⟨_ | ⟨g, z''⟩, m⟩
  · simp
  · simp only [Except.ok.injEq, Prod.mk.injEq]
    constructor
    · rintro ⟨rfl, rfl⟩; exact ⟨g, ⟨rfl, rfl⟩, rfl⟩
    · rintro ⟨g', ⟨rfl, rfl⟩, rfl⟩; exact ⟨rfl, rfl⟩

theorem returns_hessian (cfg : SpaceCfg) (mat : Material ℝ Z μ) (F : Full2 ℝ) (z : Z) (s : DilSt μ)
    (A : Elasticity) : Returns (hessian cfg mat F z) s A ↔
      ∃ g z' m h, mat.gradient (co F) z s.material = (.ok (g, z'), m) ∧
        Returns (mat.hessian (co F) z) m h ∧
        A = piolaElasticity cfg F (st F g) (some (Real.sqrt (det (rightCauchyGreen F))))
          (c4 F g h) (some (ic F)) := by
  unfold Returns
  rw [hessian_run]
  rcases mat.gradient (co F) z s.material with ⟨_ | ⟨g, z''⟩, m⟩
  · simp
  · simp only
    rcases hh : mat.hessian (co F) z m with ⟨_ | h, m'⟩
    · simp [hh]
    · constructor
      · intro h1
        cases h1
        exact ⟨g, z'', m, h, rfl, by rw [hh], rfl⟩
      · rintro ⟨g', z', m'', h', h1, h2, rfl⟩
        cases h1
        rw [hh] at h2
        cases h2
        rfl

end Dilatational

end Hel
