import Verif.Props.Work

/-! # Property C51 for stretch-based materials: the work integral exists -/

namespace Props
open Spec Hel Matrix Filter Topology

variable {Z μ : Type}

theorem workExists_of_continuous {F' P p : ℝ → Ten2 ℝ} {a b : ℝ}
    (hF' : ∀ i j, ContinuousOn (fun t => F' t i j) (Set.uIcc a b))
    (hp : ∀ t ∈ Set.uIcc a b, ContinuousAt p t) (hP : ∀ t ∈ Set.uIcc a b, P t = p t) : WorkExists P F' a b := by
  refine ContinuousOn.intervalIntegrable ?_
  unfold stressPower contract22
  refine continuousOn_finset_sum _ fun i _ => continuousOn_finset_sum _ fun j _ => ContinuousOn.mul ?_ (hF' i j)
  have h2 : ContinuousOn (fun t => p t i j) (Set.uIcc a b) := fun t ht =>
    (tendsto_pi_nhds.1 (tendsto_pi_nhds.1 (hp t ht).continuousWithinAt i) j)
  exact h2.congr fun t ht => by rw [hP t ht]

theorem moves_continuousAt {X : ℝ → Ten2 ℝ} {X' : Ten2 ℝ} {t : ℝ} (h : Moves X X' t) : ContinuousAt X t :=
  tendsto_pi_nhds.2 fun i => tendsto_pi_nhds.2 fun j => (h i j).continuousAt

/-- The gradient of `Stretches` along motions of positive definite tensors. -/
structure Smooth (mat : Material ℝ Z μ) (z : Z) (γ : Ten2 ℝ → Ten2 ℝ) : Prop where
  ret : ∀ C, PosDef C → Material.Grad mat z C (γ C)
  unique : ∀ C G, PosDef C → Material.Grad mat z C G → G = γ C
  cont : ∀ (X : ℝ → Ten2 ℝ) X' t₀, (∀ᶠ t in 𝓝 t₀, PosDef (X t)) → Moves X X' t₀ → ContinuousAt (fun t => γ (X t)) t₀

theorem stretches_smooth (lapack : Eigh) (hl : EighValid lapack) (mat : StrMat Z μ) (z : Z) (hs : StrMat.Symmetric mat)
    (ht : StrMat.Total mat z) (hz : StrMat.KeepsState mat z)
    (h : IsHessian3 Positive (StrMat.Grad mat z) (StrMat.Hess mat z))
    (hH : ∀ C, PosDef C → ∃ H, Material.Hess (Stretches.material lapack mat) z C H) :
    ∃ γ, Smooth (Stretches.material lapack mat) z γ := by
  have htot : ∀ C, PosDef C → ∃ G, Material.Grad (Stretches.material lapack mat) z C G := fun C hC => by
    obtain ⟨g, hg⟩ := ht _ (Stretches.roots_pos (w := Stretches.vals lapack C) fun a => (hl C hC.1).pos hC a)
    exact ⟨_, (Stretches.grad_iff ..).2 ⟨hC.1, g, hg, rfl⟩⟩
  choose! γ hγ using htot
  refine ⟨γ, hγ, fun C G hC hG => ?_, fun X X' t₀ hX hm => ?_⟩
  · obtain ⟨H, hHC⟩ := hH C hC
    obtain ⟨g, k, -, -, -, -, -, hD⟩ := moves_exact lapack hl mat z hs ht hz h (X := fun _ => C) (X' := 0) (t₀ := 0)
      (G := fun t => if t = 0 then G else γ C) (.of_forall fun _ => hC) (fun i j => hasDerivAt_const _ _)
      (.of_forall fun t => by split_ifs; exacts [hG, hγ C hC]) hHC
    ext i j
    refine eq_of_hasDerivAt_ite (t₀ := 0) (c := _) ((hD i j).congr_of_eventuallyEq (.of_forall fun t => ?_))
    dsimp only
    split_ifs <;> rfl
  · obtain ⟨H, hHC⟩ := hH _ hX.self_of_nhds
    obtain ⟨g, k, -, -, -, -, -, hD⟩ := moves_exact lapack hl mat z hs ht hz h hX hm (G := fun t => γ (X t))
      (hX.mono fun t ht => hγ _ ht) hHC
    exact moves_continuousAt hD

theorem Smooth.deformation {mat : Material ℝ Z μ} {z : Z} {γ : Ten2 ℝ → Ten2 ℝ} (hγ : Smooth mat z γ) {F F' P : ℝ → Ten2 ℝ}
    {a b : ℝ} (hd : ∀ t ∈ Set.uIcc a b, (F t).det ≠ 0) (hm : MotionOn F F' a b)
    (hF' : ∀ i j, ContinuousOn (fun t => F' t i j) (Set.uIcc a b))
    (hP : ∀ t ∈ Set.uIcc a b, SpaceObj.Grad (Deformation.obj {} mat) z (F t) (P t)) : WorkExists P F' a b := by
  refine workExists_of_continuous (p := fun t => F t * ((2 : ℝ) • γ (cauchyGreen (F t)))) hF' (fun t ht => ?_) fun t ht => ?_
  · have h1 := hγ.cont _ _ t ((motionOn_det_ne hm hd t ht).mono fun s hs => posDef_cauchyGreen hs) (moves_cauchyGreen (hm t ht))
    exact (motionOn_continuousAt hm ht).mul (h1.const_smul (2 : ℝ))
  · obtain ⟨G, hG, h⟩ := (Deformation.grad_iff _ _ _ _).1 (hP t ht)
    rw [h, hγ.unique _ _ (posDef_cauchyGreen (hd t ht)) hG]

theorem posDef_unimodular {F : Ten2 ℝ} (hF : F.det ≠ 0) : PosDef (unimodular (cauchyGreen F)) :=
  (posDef_cauchyGreen hF).smul (Real.rpow_pos_of_pos (det_cauchyGreen_pos hF) _)

theorem Smooth.distortional {mat : Material ℝ Z μ} {z : Z} {γ : Ten2 ℝ → Ten2 ℝ} (hγ : Smooth mat z γ) {F F' P : ℝ → Ten2 ℝ}
    {a b : ℝ} (hd : ∀ t ∈ Set.uIcc a b, (F t).det ≠ 0) (hm : MotionOn F F' a b)
    (hF' : ∀ i j, ContinuousOn (fun t => F' t i j) (Set.uIcc a b))
    (hP : ∀ t ∈ Set.uIcc a b, SpaceObj.Grad (Distortional.obj {} mat) z (F t) (P t)) : WorkExists P F' a b := by
  refine workExists_of_continuous (p := fun t => F t * distS (cauchyGreen (F t)) (γ (unimodular (cauchyGreen (F t))))) hF'
    (fun t ht => ?_) fun t ht => ?_
  · have hF := motionOn_continuousAt hm ht
    have hdt := (det_cauchyGreen_pos (hd t ht)).ne'
    have hc : ContinuousAt (fun t => cauchyGreen (F t)) t := continuous_cauchyGreen.continuousAt.comp hF
    have h1 : ContinuousAt (fun t => (cauchyGreen (F t)).det ^ (-1 / 3 : ℝ)) t :=
      ContinuousAt.comp (f := fun t => cauchyGreen (F t)) (continuousAt_unimodular hdt _) hc
    have h2 : ContinuousAt (fun t => (cauchyGreen (F t))⁻¹) t :=
      ContinuousAt.comp (f := fun t => cauchyGreen (F t)) (continuousAt_inv hdt) hc
    have h3 := hγ.cont _ _ t ((motionOn_det_ne hm hd t ht).mono fun s hs => posDef_unimodular hs)
      (moves_unimodular (symInv_cauchyGreen (hd t ht)) (det_cauchyGreen_pos (hd t ht)) (moves_cauchyGreen (hm t ht)))
    have h4 : ContinuousAt (fun t => (2 * (cauchyGreen (F t)).det ^ (-1 / 3 : ℝ)) • γ (unimodular (cauchyGreen (F t)))) t :=
      (continuousAt_const.mul h1).smul h3
    have h5 : ContinuousAt (fun t => contract22 ((2 * (cauchyGreen (F t)).det ^ (-1 / 3 : ℝ)) •
        γ (unimodular (cauchyGreen (F t)))) (cauchyGreen (F t))) t := by
      unfold contract22
      refine tendsto_finset_sum _ fun i _ => tendsto_finset_sum _ fun j _ => Tendsto.mul ?_ ?_
      · exact tendsto_pi_nhds.1 (tendsto_pi_nhds.1 h4 i) j
      · exact tendsto_pi_nhds.1 (tendsto_pi_nhds.1 hc i) j
    unfold distS
    exact hF.mul (h4.sub ((h5.div_const 3).smul h2))
  · obtain ⟨G, hG, h⟩ := (Distortional.grad_iff _ _ (hd t ht)).1 (hP t ht)
    rw [h, hγ.unique _ _ (posDef_unimodular (hd t ht)) hG]

section
variable (lapack : Eigh) (hl : EighValid lapack)
include hl

/-- Every symmetric stretch-based material which returns the derivatives of an energy: along every
motion of invertible deformation gradients with continuous velocity, through distinct or repeated
stretches, the work integral exists and is the change of the energy, on the deformation space ... -/
theorem C51_stretches_deformation (mat : StrMat Z μ) (z : Z) (hs : StrMat.Symmetric mat) (ht : StrMat.Total mat z)
    (hz : StrMat.KeepsState mat z) (ψ : (Fin 3 → ℝ) → ℝ) (Ψ : Ten2 ℝ → ℝ) (hψ : EnergyOfStretches ψ Ψ)
    (hg : IsGradient3 Positive ψ (StrMat.Grad mat z)) (hh : IsHessian3 Positive (StrMat.Grad mat z) (StrMat.Hess mat z))
    (hH : ∀ C, PosDef C → ∃ H, Material.Hess (Stretches.material lapack mat) z C H) (F F' P : ℝ → Ten2 ℝ) (a b : ℝ)
    (hd : ∀ t ∈ Set.uIcc a b, (F t).det ≠ 0) (hm : MotionOn F F' a b)
    (hF' : ∀ i j, ContinuousOn (fun t => F' t i j) (Set.uIcc a b))
    (hP : ∀ t ∈ Set.uIcc a b, SpaceObj.Grad (Deformation.obj {} (Stretches.material lapack mat)) z (F t) (P t)) :
    WorkExists P F' a b ∧ work P F' a b = Ψ (cauchyGreen (F b)) - Ψ (cauchyGreen (F a)) := by
  obtain ⟨γ, hγ⟩ := stretches_smooth lapack hl mat z hs ht hz hh hH
  have hI := hγ.deformation hd hm hF' hP
  exact ⟨hI, C51_deformation _ z PosDef Ψ (C19_gradient lapack hl mat z ψ Ψ hψ hg) F F' P a b
    (fun t ht => (motionOn_det_ne hm hd t ht).mono fun s hs => posDef_cauchyGreen hs) hm hP hI⟩

/-- ... and on the distortional space. -/
theorem C51_stretches_distortional (mat : StrMat Z μ) (z : Z) (hs : StrMat.Symmetric mat) (ht : StrMat.Total mat z)
    (hz : StrMat.KeepsState mat z) (ψ : (Fin 3 → ℝ) → ℝ) (Ψ : Ten2 ℝ → ℝ) (hψ : EnergyOfStretches ψ Ψ)
    (hg : IsGradient3 Positive ψ (StrMat.Grad mat z)) (hh : IsHessian3 Positive (StrMat.Grad mat z) (StrMat.Hess mat z))
    (hH : ∀ C, PosDef C → ∃ H, Material.Hess (Stretches.material lapack mat) z C H) (F F' P : ℝ → Ten2 ℝ) (a b : ℝ)
    (hd : ∀ t ∈ Set.uIcc a b, (F t).det ≠ 0) (hm : MotionOn F F' a b)
    (hF' : ∀ i j, ContinuousOn (fun t => F' t i j) (Set.uIcc a b))
    (hP : ∀ t ∈ Set.uIcc a b, SpaceObj.Grad (Distortional.obj {} (Stretches.material lapack mat)) z (F t) (P t)) :
    WorkExists P F' a b ∧
      work P F' a b = Ψ (unimodular (cauchyGreen (F b))) - Ψ (unimodular (cauchyGreen (F a))) := by
  obtain ⟨γ, hγ⟩ := stretches_smooth lapack hl mat z hs ht hz hh hH
  have hI := hγ.distortional hd hm hF' hP
  exact ⟨hI, C51_distortional _ z PosDef Ψ (C19_gradient lapack hl mat z ψ Ψ hψ hg) F F' P a b
    (fun t ht => (motionOn_det_ne hm hd t ht).mono fun s hs => ⟨hs, posDef_unimodular hs⟩) hm hP hI⟩

/-- End to end for Ogden materials on both spaces: along every motion of invertible deformation
gradients with continuous velocity the work integral exists and is the change of the documented
energy. -/
theorem C51_ogden_exists (mu alpha : List ℝ) (hα : ∀ p ∈ mu.zip alpha, p.2 ≠ 0) (z : Z) (Ψ : Ten2 ℝ → ℝ)
    (hΨ : EnergyOfStretches (ogdenEnergy mu alpha) Ψ) (F F' P : ℝ → Ten2 ℝ) (a b : ℝ)
    (hd : ∀ t ∈ Set.uIcc a b, (F t).det ≠ 0) (hm : MotionOn F F' a b)
    (hF' : ∀ i j, ContinuousOn (fun t => F' t i j) (Set.uIcc a b)) :
    ((∀ t ∈ Set.uIcc a b, SpaceObj.Grad (Deformation.obj {} (Stretches.material lapack (Ogden.mat ⟨mu, alpha⟩))) z
        (F t) (P t)) →
      WorkExists P F' a b ∧ work P F' a b = Ψ (cauchyGreen (F b)) - Ψ (cauchyGreen (F a))) ∧
    ((∀ t ∈ Set.uIcc a b, SpaceObj.Grad (Distortional.obj {} (Stretches.material lapack (Ogden.mat ⟨mu, alpha⟩))) z
        (F t) (P t)) →
      WorkExists P F' a b ∧ work P F' a b = Ψ (unimodular (cauchyGreen (F b))) - Ψ (unimodular (cauchyGreen (F a)))) :=
  ⟨C51_stretches_deformation lapack hl _ z (Ogden.symmetric _) (fun x _ => (C11_returns mu alpha z x).1.2 hα)
      (C11_statevars mu alpha z) _ Ψ hΨ (C11_gradient mu alpha z) (C11_hessian mu alpha z)
      (fun _ hC => (C20_ogden_returns lapack mu alpha z hα hC).2) F F' P a b hd hm hF',
   C51_stretches_distortional lapack hl _ z (Ogden.symmetric _) (fun x _ => (C11_returns mu alpha z x).1.2 hα)
      (C11_statevars mu alpha z) _ Ψ hΨ (C11_gradient mu alpha z) (C11_hessian mu alpha z)
      (fun _ hC => (C20_ogden_returns lapack mu alpha z hα hC).2) F F' P a b hd hm hF'⟩

/-- The hypotheses are met: a simple shear with the two-term Ogden model, passing through the
undeformed state with its threefold stretch. -/
example (z : Z) : (∃ lapack, EighValid lapack) ∧ (∃ Ψ, EnergyOfStretches (ogdenEnergy [1, 2] [3, -2]) Ψ) ∧
    (∀ p ∈ [(1 : ℝ), 2].zip [(3 : ℝ), -2], p.2 ≠ 0) ∧ (∀ t ∈ Set.uIcc (-1 : ℝ) 1, (!![1, t, 0; 0, 1, 0; 0, 0, 1] : Ten2 ℝ).det ≠ 0) ∧
    MotionOn (fun t => !![1, t, 0; 0, 1, 0; 0, 0, 1]) (fun _ => !![0, 1, 0; 0, 0, 0; 0, 0, 0]) (-1) 1 ∧
    ∃ P : ℝ → Ten2 ℝ, ∀ t ∈ Set.uIcc (-1 : ℝ) 1, SpaceObj.Grad (Deformation.obj {} (Stretches.material lapack
      (Ogden.mat ⟨[1, 2], [3, -2]⟩))) z !![1, t, 0; 0, 1, 0; 0, 0, 1] (P t) := by
  have hdet : ∀ t : ℝ, (!![1, t, 0; 0, 1, 0; 0, 0, 1] : Ten2 ℝ).det ≠ 0 := fun t => by simp [Matrix.det_fin_three]
  refine ⟨⟨lapack, hl⟩, ogden_energy _ _, by simp, fun t _ => hdet t, fun t _ i j => ?_, ?_⟩
  · fin_cases i <;> fin_cases j <;> simp [hasDerivAt_const, hasDerivAt_id']
  · choose G hG using fun t => (C20_ogden_returns lapack [1, 2] [3, -2] z (by simp) (posDef_cauchyGreen (hdet t))).1
    exact ⟨_, fun t _ => (Deformation.grad_iff _ _ _ _).2 ⟨G t, hG t, rfl⟩⟩

end

end Props
