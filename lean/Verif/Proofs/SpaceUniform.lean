import Verif.Proofs.SpaceConfig

/-! The three spaces, uniformly. -/

namespace Hel
open Spec Matrix

variable {Z μ : Type}

/-- the tensor handed to the material -/
noncomputable def arg : Space → Full2 ℝ → Vec6 ℝ
  | .deformation, F => rightCauchyGreen F
  | .distortional, F => Distortional.cu F
  | .dilatational, F => Dilatational.co F

/-- the second Piola-Kirchhoff stress -/
noncomputable def stressOf : Space → Full2 ℝ → Vec6 ℝ → Vec6 ℝ
  | .deformation, _, g => fun a => 2 * g a
  | .distortional, F, g => Distortional.st F g
  | .dilatational, F, g => Dilatational.st F g

/-- the material elasticity -/
noncomputable def elastOf : Space → Full2 ℝ → Vec6 ℝ → Mat6 ℝ → Mat6 ℝ
  | .deformation, _, _, h => fun a b => 4 * h a b
  | .distortional, F, g, h => Distortional.c4 F g h
  | .dilatational, F, g, h => Dilatational.c4 F g h

/-- the determinant argument of piola -/
noncomputable def detOf : Space → Full2 ℝ → Option ℝ
  | .deformation, _ => none
  | .distortional, F => some √(det (rightCauchyGreen F))
  | .dilatational, F => some √(det (rightCauchyGreen F))

/-- the invC argument of piola -/
noncomputable def invOf : Space → Full2 ℝ → Option (Vec6 ℝ)
  | .deformation, _ => none
  | .distortional, F => some (Distortional.ic F)
  | .dilatational, F => some (Dilatational.ic F)

theorem detOf_getD (w : Space) (F : Ten2 ℝ) :
    (detOf w F).getD √(cauchyGreen F).det = √(cauchyGreen F).det := by
  cases w
  · rfl
  · simp only [detOf, Option.getD_some]; rw [T2_det, T2_rcg]
  · simp only [detOf, Option.getD_some]; rw [T2_det, T2_rcg]

theorem invOf_eq (w : Space) {F : Ten2 ℝ} (hF : F.det ≠ 0) :
    ∀ v, invOf w F = some v → T2 v = (cauchyGreen F)⁻¹ := by
  cases w
  · simp [invOf]
  · simp only [invOf, Option.some.injEq]; rintro v rfl; exact Distortional.T2_ic hF
  · simp only [invOf, Option.some.injEq]; rintro v rfl; exact Dilatational.T2_ic hF

theorem Space.returns_gradient (w : Space) (cfg : SpaceCfg) (mat : Material ℝ Z μ) (F : Full2 ℝ) (z : Z)
    (s : w.St μ) (σ : Stress) (z' : Z) : Returns ((w.obj cfg mat).gradient F z) s (σ, z') ↔
      ∃ g, Returns (mat.gradient (arg w F) z) (w.inner s) (g, z') ∧
        σ = piolaStress cfg F (stressOf w F g) (detOf w F) := by
  cases w
  · exact Deformation.returns_gradient ..
  · exact Distortional.returns_gradient ..
  · exact Dilatational.returns_gradient ..

theorem Space.returns_hessian (w : Space) (cfg : SpaceCfg) (mat : Material ℝ Z μ) (F : Full2 ℝ) (z : Z)
    (s : w.St μ) (A : Elasticity) : Returns ((w.obj cfg mat).hessian F z) s A ↔
      ∃ g z' m h, mat.gradient (arg w F) z (w.inner s) = (.ok (g, z'), m) ∧
        Returns (mat.hessian (arg w F) z) m h ∧
        A = piolaElasticity cfg F (stressOf w F g) (detOf w F) (elastOf w F g h) (invOf w F) := by
  cases w
  · exact Deformation.returns_hessian ..
  · exact Distortional.returns_hessian ..
  · exact Dilatational.returns_hessian ..

/-- everything is a function of the right Cauchy-Green deformation tensor -/
theorem rcg_congr (w : Space) {F F' : Full2 ℝ} (h : rightCauchyGreen F' = rightCauchyGreen F) :
    arg w F' = arg w F ∧ stressOf w F' = stressOf w F ∧ elastOf w F' = elastOf w F ∧
    detOf w F' = detOf w F ∧ invOf w F' = invOf w F := by
  cases w
  · exact ⟨h, rfl, rfl, rfl, rfl⟩
  · refine ⟨?_, ?_, ?_, ?_, ?_⟩
    · simp only [arg]; unfold Distortional.cu; rw [h]
    · funext g; simp only [stressOf]; unfold Distortional.st Distortional.sb Distortional.ic; rw [h]
    · funext g m; simp only [elastOf]; unfold Distortional.c4 Distortional.sb Distortional.ic; rw [h]
    · simp only [detOf]; rw [h]
    · simp only [invOf]; unfold Distortional.ic; rw [h]
  · refine ⟨?_, ?_, ?_, ?_, ?_⟩
    · simp only [arg]; unfold Dilatational.co; rw [h]
    · funext g; simp only [stressOf]; unfold Dilatational.st Dilatational.sb Dilatational.ic; rw [h]
    · funext g m; simp only [elastOf]; unfold Dilatational.c4 Dilatational.sb Dilatational.ic; rw [h]
    · simp only [detOf]; rw [h]
    · simp only [invOf]; unfold Dilatational.ic; rw [h]

namespace Deformation

theorem reference_congr (mat : Material ℝ Z μ) (z : Z) {F F' : Full2 ℝ}
    (hr : rightCauchyGreen F' = rightCauchyGreen F) :
    gradient { finalize := false } mat F' z = gradient { finalize := false } mat F z ∧
    hessian { finalize := false } mat F' z = hessian { finalize := false } mat F z := by
  constructor
  · funext s
    rw [gradient_run, gradient_run, hr]; rfl
  · funext s
    rw [hessian_run, hessian_run, hr]; rfl

end Deformation

namespace Distortional

theorem reference_congr (mat : Material ℝ Z μ) (z : Z) {F F' : Full2 ℝ}
    (hr : rightCauchyGreen F' = rightCauchyGreen F) :
    gradient { finalize := false } mat F' z = gradient { finalize := false } mat F z ∧
    hessian { finalize := false } mat F' z = hessian { finalize := false } mat F z := by
  have e1 : cu F' = cu F := (rcg_congr .distortional hr).1
  have e2 : st F' = st F := (rcg_congr .distortional hr).2.1
  have e3 : c4 F' = c4 F := (rcg_congr .distortional hr).2.2.1
  have e4 : ∀ (s : DistSt μ) m, pre F' s m = pre F s m := by
    intro s m; simp only [pre, hr, e1]
  have e5 : ∀ (g : Vec6 ℝ) (m : μ), post F' g m = post F g m := by
    intro g m
    have e6 : sb F' = sb F := by
      funext g; unfold sb; rw [hr]
    have e7 : ic F' = ic F := by unfold ic; rw [hr]
    simp only [post, hr, e1, e2, e6, e7]
  constructor
  · funext s
    rw [gradient_run, gradient_run, e1]
    simp only [e2, e4, e5]; rfl
  · funext s
    rw [hessian_run, hessian_run, e1]
    simp only [e2, e3, e4, e5]; rfl

theorem material_congr {mat mat' : Material ℝ Z μ} {z : Z} (cfg : SpaceCfg) {F : Full2 ℝ}
    (h2 : mat.gradient (cu F) z = mat'.gradient (cu F) z)
    (h3 : mat.hessian (cu F) z = mat'.hessian (cu F) z) :
    gradient cfg mat F z = gradient cfg mat' F z ∧ hessian cfg mat F z = hessian cfg mat' F z := by
  constructor
  · funext s
    rw [gradient_run, gradient_run, h2]
  · funext s
    rw [hessian_run, hessian_run, h2, h3]

end Distortional

namespace Dilatational

theorem reference_congr (mat : Material ℝ Z μ) (z : Z) {F F' : Full2 ℝ}
    (hr : rightCauchyGreen F' = rightCauchyGreen F) :
    gradient { finalize := false } mat F' z = gradient { finalize := false } mat F z ∧
    hessian { finalize := false } mat F' z = hessian { finalize := false } mat F z := by
  have e1 : co F' = co F := (rcg_congr .dilatational hr).1
  have e2 : st F' = st F := (rcg_congr .dilatational hr).2.1
  have e3 : c4 F' = c4 F := (rcg_congr .dilatational hr).2.2.1
  have e4 : ∀ (s : DilSt μ) m, pre F' s m = pre F s m := by
    intro s m; simp only [pre, hr, e1]
  have e5 : ∀ (g : Vec6 ℝ) (m : μ), post F' g m = post F g m := by
    intro g m
    have e6 : sb F' = sb F := by
      funext g; unfold sb; rw [hr]
    have e7 : ic F' = ic F := by unfold ic; rw [hr]
    simp only [post, hr, e1, e2, e6, e7]
  constructor
  · funext s
    rw [gradient_run, gradient_run, e1]
    simp only [e2, e4, e5]; rfl
  · funext s
    rw [hessian_run, hessian_run, e1]
    simp only [e2, e3, e4, e5]; rfl

theorem material_congr {mat mat' : Material ℝ Z μ} {z : Z} (cfg : SpaceCfg) {F : Full2 ℝ}
    (h2 : mat.gradient (co F) z = mat'.gradient (co F) z)
    (h3 : mat.hessian (co F) z = mat'.hessian (co F) z) :
    gradient cfg mat F z = gradient cfg mat' F z ∧ hessian cfg mat F z = hessian cfg mat' F z := by
  constructor
  · funext s
    rw [gradient_run, gradient_run, h2]
  · funext s
    rw [hessian_run, hessian_run, h2, h3]

end Dilatational

namespace Deformation

theorem state_congr (cfg : SpaceCfg) (mat : Material ℝ Z μ) (F : Full2 ℝ) (z : Z) (s s' : DefSt μ)
    (hs : s.material = s'.material) :
    (gradient cfg mat F z s).1 = (gradient cfg mat F z s').1 ∧
    (gradient cfg mat F z s).2.material = (gradient cfg mat F z s').2.material ∧
    (hessian cfg mat F z s).1 = (hessian cfg mat F z s').1 ∧
    (hessian cfg mat F z s).2.material = (hessian cfg mat F z s').2.material := by
  rw [gradient_run, gradient_run, hessian_run, hessian_run, hs]
  rcases mat.gradient (rightCauchyGreen F) z s'.material with ⟨_ | ⟨g, z'⟩, m⟩
  · exact ⟨rfl, rfl, rfl, rfl⟩
  · refine ⟨rfl, rfl, ?_⟩
    rcases mat.hessian (rightCauchyGreen F) z m with ⟨_ | h, m'⟩ <;> exact ⟨rfl, rfl⟩

theorem history_free (cfg : SpaceCfg) (mat : Material ℝ Z μ) (h : Material.HistoryFree mat) (F : Full2 ℝ)
    (z : Z) (s s' : DefSt μ) :
    (gradient cfg mat F z s).1 = (gradient cfg mat F z s').1 ∧
    (hessian cfg mat F z s).1 = (hessian cfg mat F z s').1 := by
  rw [gradient_run, gradient_run, hessian_run, hessian_run]
  have h1 := (h (rightCauchyGreen F) z s.material s'.material).1
  revert h1
  rcases mat.gradient (rightCauchyGreen F) z s.material with ⟨_ | ⟨r, z1⟩, m⟩ <;>
    rcases mat.gradient (rightCauchyGreen F) z s'.material with ⟨_ | ⟨r', z2⟩, m'⟩ <;>
    intro h1 <;> cases h1
  · exact ⟨rfl, rfl⟩
  · refine ⟨rfl, ?_⟩
    have h2 := (h (rightCauchyGreen F) z m m').2
    revert h2
    dsimp only
    rcases mat.hessian (rightCauchyGreen F) z m with ⟨_ | k, n⟩ <;>
      rcases mat.hessian (rightCauchyGreen F) z m' with ⟨_ | k', n'⟩ <;>
      intro h2 <;> cases h2 <;> rfl

theorem calls_gradient {cfg : SpaceCfg} {mat : Material ℝ Z μ} {F : Full2 ℝ} {z z' : Z} {P : Stress}
    {s s' : DefSt μ} (h : gradient cfg mat F z s = (.ok (P, z'), s')) :
    ∃ g, mat.gradient (rightCauchyGreen F) z s.material = (.ok (g, z'), s'.material) := by
  rw [gradient_run] at h
  revert h
  rcases mat.gradient (rightCauchyGreen F) z s.material with ⟨_ | ⟨g, z''⟩, m⟩ <;> intro h <;> cases h
  exact ⟨g, rfl⟩

theorem calls_hessian {cfg : SpaceCfg} {mat : Material ℝ Z μ} {F : Full2 ℝ} {z : Z} {A : Elasticity}
    {s s' : DefSt μ} (h : hessian cfg mat F z s = (.ok A, s')) :
    ∃ g z' m k, mat.gradient (rightCauchyGreen F) z s.material = (.ok (g, z'), m) ∧
      mat.hessian (rightCauchyGreen F) z m = (.ok k, s'.material) := by
  rw [hessian_run] at h
  revert h
  rcases mat.gradient (rightCauchyGreen F) z s.material with ⟨_ | ⟨g, z''⟩, m⟩
  · intro h; cases h
  · intro h
    refine ⟨g, z'', m, ?_⟩
    revert h
    dsimp only
    rcases mat.hessian (rightCauchyGreen F) z m with ⟨_ | k, n⟩ <;> intro h <;> cases h
    exact ⟨k, rfl, rfl⟩

end Deformation

namespace Distortional

theorem state_congr (cfg : SpaceCfg) (mat : Material ℝ Z μ) (F : Full2 ℝ) (z : Z) (s s' : DistSt μ)
    (hs : s.material = s'.material) :
    (gradient cfg mat F z s).1 = (gradient cfg mat F z s').1 ∧
    (gradient cfg mat F z s).2.material = (gradient cfg mat F z s').2.material ∧
    (hessian cfg mat F z s).1 = (hessian cfg mat F z s').1 ∧
    (hessian cfg mat F z s).2.material = (hessian cfg mat F z s').2.material := by
  rw [gradient_run, gradient_run, hessian_run, hessian_run, hs]
  rcases mat.gradient (cu F) z s'.material with ⟨_ | ⟨g, z'⟩, m⟩
  · exact ⟨rfl, rfl, rfl, rfl⟩
  · refine ⟨rfl, rfl, ?_⟩
    rcases mat.hessian (cu F) z m with ⟨_ | h, m'⟩ <;> exact ⟨rfl, rfl⟩

theorem history_free (cfg : SpaceCfg) (mat : Material ℝ Z μ) (h : Material.HistoryFree mat) (F : Full2 ℝ)
    (z : Z) (s s' : DistSt μ) :
    (gradient cfg mat F z s).1 = (gradient cfg mat F z s').1 ∧
    (hessian cfg mat F z s).1 = (hessian cfg mat F z s').1 := by
  rw [gradient_run, gradient_run, hessian_run, hessian_run]
  have h1 := (h (cu F) z s.material s'.material).1
  revert h1
  rcases mat.gradient (cu F) z s.material with ⟨_ | ⟨r, z1⟩, m⟩ <;>
    rcases mat.gradient (cu F) z s'.material with ⟨_ | ⟨r', z2⟩, m'⟩ <;>
    intro h1 <;> cases h1
  · exact ⟨rfl, rfl⟩
  · refine ⟨rfl, ?_⟩
    have h2 := (h (cu F) z m m').2
    revert h2
    dsimp only
    rcases mat.hessian (cu F) z m with ⟨_ | k, n⟩ <;>
      rcases mat.hessian (cu F) z m' with ⟨_ | k', n'⟩ <;>
      intro h2 <;> cases h2 <;> rfl

theorem calls_gradient {cfg : SpaceCfg} {mat : Material ℝ Z μ} {F : Full2 ℝ} {z z' : Z} {P : Stress}
    {s s' : DistSt μ} (h : gradient cfg mat F z s = (.ok (P, z'), s')) :
    ∃ g, mat.gradient (cu F) z s.material = (.ok (g, z'), s'.material) := by
  rw [gradient_run] at h
  revert h
  rcases mat.gradient (cu F) z s.material with ⟨_ | ⟨g, z''⟩, m⟩ <;> intro h <;> cases h
  exact ⟨g, rfl⟩

theorem calls_hessian {cfg : SpaceCfg} {mat : Material ℝ Z μ} {F : Full2 ℝ} {z : Z} {A : Elasticity}
    {s s' : DistSt μ} (h : hessian cfg mat F z s = (.ok A, s')) :
    ∃ g z' m k, mat.gradient (cu F) z s.material = (.ok (g, z'), m) ∧
      mat.hessian (cu F) z m = (.ok k, s'.material) := by
  rw [hessian_run] at h
  revert h
  rcases mat.gradient (cu F) z s.material with ⟨_ | ⟨g, z''⟩, m⟩
  · intro h; cases h
  · intro h
    refine ⟨g, z'', m, ?_⟩
    revert h
    dsimp only
    rcases mat.hessian (cu F) z m with ⟨_ | k, n⟩ <;> intro h <;> cases h
    exact ⟨k, rfl, rfl⟩

end Distortional

namespace Dilatational

theorem state_congr (cfg : SpaceCfg) (mat : Material ℝ Z μ) (F : Full2 ℝ) (z : Z) (s s' : DilSt μ)
    (hs : s.material = s'.material) :
    (gradient cfg mat F z s).1 = (gradient cfg mat F z s').1 ∧
    (gradient cfg mat F z s).2.material = (gradient cfg mat F z s').2.material ∧
    (hessian cfg mat F z s).1 = (hessian cfg mat F z s').1 ∧
    (hessian cfg mat F z s).2.material = (hessian cfg mat F z s').2.material := by
  rw [gradient_run, gradient_run, hessian_run, hessian_run, hs]
  rcases mat.gradient (co F) z s'.material with ⟨_ | ⟨g, z'⟩, m⟩
  · exact ⟨rfl, rfl, rfl, rfl⟩
  · refine ⟨rfl, rfl, ?_⟩
    rcases mat.hessian (co F) z m with ⟨_ | h, m'⟩ <;> exact ⟨rfl, rfl⟩

theorem history_free (cfg : SpaceCfg) (mat : Material ℝ Z μ) (h : Material.HistoryFree mat) (F : Full2 ℝ)
    (z : Z) (s s' : DilSt μ) :
    (gradient cfg mat F z s).1 = (gradient cfg mat F z s').1 ∧
    (hessian cfg mat F z s).1 = (hessian cfg mat F z s').1 := by
  rw [gradient_run, gradient_run, hessian_run, hessian_run]
  have h1 := (h (co F) z s.material s'.material).1
  revert h1
  rcases mat.gradient (co F) z s.material with ⟨_ | ⟨r, z1⟩, m⟩ <;>
    rcases mat.gradient (co F) z s'.material with ⟨_ | ⟨r', z2⟩, m'⟩ <;>
    intro h1 <;> cases h1
  · exact ⟨rfl, rfl⟩
  · refine ⟨rfl, ?_⟩
    have h2 := (h (co F) z m m').2
    revert h2
    dsimp only
    rcases mat.hessian (co F) z m with ⟨_ | k, n⟩ <;>
      rcases mat.hessian (co F) z m' with ⟨_ | k', n'⟩ <;>
      intro h2 <;> cases h2 <;> rfl

theorem calls_gradient {cfg : SpaceCfg} {mat : Material ℝ Z μ} {F : Full2 ℝ} {z z' : Z} {P : Stress}
    {s s' : DilSt μ} (h : gradient cfg mat F z s = (.ok (P, z'), s')) :
    ∃ g, mat.gradient (co F) z s.material = (.ok (g, z'), s'.material) := by
  rw [gradient_run] at h
  revert h
  rcases mat.gradient (co F) z s.material with ⟨_ | ⟨g, z''⟩, m⟩ <;> intro h <;> cases h
  exact ⟨g, rfl⟩

theorem calls_hessian {cfg : SpaceCfg} {mat : Material ℝ Z μ} {F : Full2 ℝ} {z : Z} {A : Elasticity}
    {s s' : DilSt μ} (h : hessian cfg mat F z s = (.ok A, s')) :
    ∃ g z' m k, mat.gradient (co F) z s.material = (.ok (g, z'), m) ∧
      mat.hessian (co F) z m = (.ok k, s'.material) := by
  rw [hessian_run] at h
  revert h
  rcases mat.gradient (co F) z s.material with ⟨_ | ⟨g, z''⟩, m⟩
  · intro h; cases h
  · intro h
    refine ⟨g, z'', m, ?_⟩
    revert h
    dsimp only
    rcases mat.hessian (co F) z m with ⟨_ | k, n⟩ <;> intro h <;> cases h
    exact ⟨k, rfl, rfl⟩

end Dilatational

theorem T2_stressOf_symm (w : Space) (F : Full2 ℝ) (g : Vec6 ℝ) : (T2 (stressOf w F g)).IsSymm := T2_symm _

theorem pushForce4_piolaT {Q : Ten2 ℝ} (hQ : Orthogonal Q) (F S : Ten2 ℝ) (C4 : Ten4 ℝ) :
    pushForce4 Q (piolaT F S C4) = piolaT (Q * F) S C4 := by
  have h1 : ∀ i k, ∑ m, Q i m * Q k m = (1 : Ten2 ℝ) i k := by
    intro i k
    rw [← hQ.mul_transpose, Matrix.mul_apply]
    rfl
  ext i J k L
  have h2 := h1 i k
  simp only [pushForce4, piolaT, mul_add, Finset.sum_add_distrib, Matrix.mul_apply]
  congr 1
  · simp only [Fin.sum_univ_three]; ring
  · simp only [dyadIK]
    rw [← h2]
    simp [Fin.sum_univ_three, Matrix.one_apply]
    ring

theorem pushArea_rotate {Q : Ten2 ℝ} (F P : Ten2 ℝ) (J : ℝ) :
    pushArea (Q * F) (Q * P) J = rotate Q (pushArea F P J) := by
  simp only [pushArea, rotate, Matrix.transpose_mul, Matrix.mul_smul, Matrix.smul_mul, Matrix.mul_assoc]

theorem pushArea4_rotate {Q : Ten2 ℝ} (F : Ten2 ℝ) (A : Ten4 ℝ) (J : ℝ) :
    pushArea4 (Q * F) (pushForce4 Q A) J = rotate4 Q (pushArea4 F A J) := by
  ext i j k l
  simp only [pushArea4, pushForce4, rotate4, Matrix.mul_apply, Fin.sum_univ_three]
  ring

end Hel
