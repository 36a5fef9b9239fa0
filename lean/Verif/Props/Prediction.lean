import Verif.Props.WorkStretches
import Verif.Props.Superposition
import Verif.Proofs.Frechet
import Verif.Props.RoundingSpace

/-! # Property C74: prediction of nearby energies and stresses, continuity of the stress -/

namespace Props
open Spec Hel Matrix Filter Topology

variable {Z μ : Type}

/-- Deformation gradients close to an invertible one are invertible. -/
theorem inside_det {F : Ten2 ℝ} (hF : F.det ≠ 0) : Inside (fun F => F.det ≠ 0) F := by
  have h1 : ContinuousAt (fun G : Ten2 ℝ => G.det) F := (Continuous.matrix_det continuous_id).continuousAt
  have h2 : ∀ᶠ G : Ten2 ℝ in 𝓝 F, G.det ≠ 0 := h1.eventually_ne hF
  by_contra hcon
  simp only [Inside] at hcon
  push Not at hcon
  choose Y hN hY using fun n : ℕ => hcon (1 / ((n : ℝ) + 1)) (by positivity)
  have h3 : Tendsto Y atTop (𝓝 F) := by
    refine tendsto_pi_nhds.2 fun i => tendsto_pi_nhds.2 fun j => ?_
    rw [tendsto_iff_dist_tendsto_zero]
    refine squeeze_zero (fun n => dist_nonneg) (fun n => ?_) tendsto_one_div_add_atTop_nhds_zero_nat
    rw [Real.dist_eq]
    exact hN n i j
  obtain ⟨n, hn⟩ := (h3.eventually h2).exists
  exact hn (hY n)

/-- Everything that is a gradient along motions predicts the energy: for every space, framework and
model whose stress is the derivative of an energy (C25, C27). -/
theorem C74_energy {dom : Ten2 ℝ → Prop} {ψ : Ten2 ℝ → ℝ} {ret : Ten2 ℝ → Ten2 ℝ → Prop} (h : IsGradient dom ψ ret)
    {F P : Ten2 ℝ} (hd : Inside dom F) (hP : ret F P) : PredictsEnergy ψ F P := IsGradient.predicts h hd hP

/-- Everything that is a hessian along motions predicts the stress: for every space, framework and
model whose elasticity tensor is the derivative of the stress (C26, C28). -/
theorem C74_stress {dom : Ten2 ℝ → Prop} {ret : Ten2 ℝ → Ten2 ℝ → Prop} {retH : Ten2 ℝ → Ten4 ℝ → Prop}
    (h : IsHessian dom ret retH) {F P : Ten2 ℝ} {A : Ten4 ℝ} (hd : Inside dom F) (htot : ∀ Y, dom Y → ∃ P, ret Y P)
    (hP : ret F P) (hA : retH F A) : PredictsStress ret F P A := IsHessian.predicts h hd htot hP hA

/-- Third-order-deformation materials on the deformation space: at every invertible deformation
gradient the calls return, the stress predicts the documented energy and the elasticity tensor the
stress of all nearby deformation gradients. -/
theorem C74_third_order (C10 C01 C11 C20 C30 : ℝ) (strain : Bool) (z : Z) {F : Ten2 ℝ} (hF : F.det ≠ 0) :
    ∃ P A, SpaceObj.Grad (Deformation.obj {} (Invariants.material (TOD.init C10 C01 C11 C20 C30 strain).mat)) z F P ∧
      SpaceObj.Hess (Deformation.obj {} (Invariants.material (TOD.init C10 C01 C11 C20 C30 strain).mat)) z F A ∧
      PredictsEnergy (fun F => todEnergy C10 C01 C11 C20 C30 (if strain then 0 else 3) (invariants (cauchyGreen F))) F P ∧
      PredictsStress
        (SpaceObj.Grad (Deformation.obj {} (Invariants.material (TOD.init C10 C01 C11 C20 C30 strain).mat)) z) F P A := by
  obtain ⟨P, hP⟩ := tod_space_total .deformation (TOD.init C10 C01 C11 C20 C30 strain) F z { material := { material := () } }
  obtain ⟨A, hA⟩ := tod_def_hess_total (TOD.init C10 C01 C11 C20 C30 strain) F z { material := { material := () } }
  refine ⟨P, A, ⟨_, _, hP⟩, ⟨_, hA⟩, C74_energy (C25_third_order C10 C01 C11 C20 C30 strain z) (inside_det hF) ⟨_, _, hP⟩,
    C74_stress (C26_third_order C10 C01 C11 C20 C30 strain z) (inside_det hF) (fun Y _ => ?_) ⟨_, _, hP⟩ ⟨_, hA⟩⟩
  obtain ⟨P', hP'⟩ := tod_space_total .deformation (TOD.init C10 C01 C11 C20 C30 strain) Y z { material := { material := () } }
  exact ⟨P', _, _, hP'⟩

/-- The energy of the distortional part, predicted by the stress of the distortional space. -/
theorem C74_third_order_distortional (C10 C01 C11 C20 C30 : ℝ) (strain : Bool) (z : Z) {F : Ten2 ℝ} (hF : F.det ≠ 0) :
    ∃ P, SpaceObj.Grad (Distortional.obj {} (Invariants.material (TOD.init C10 C01 C11 C20 C30 strain).mat)) z F P ∧
      PredictsEnergy (fun F => todEnergy C10 C01 C11 C20 C30 (if strain then 0 else 3)
        (invariants (unimodular (cauchyGreen F)))) F P := by
  obtain ⟨P, hP⟩ := tod_space_total .distortional (TOD.init C10 C01 C11 C20 C30 strain) F z { material := { material := () } }
  exact ⟨P, ⟨_, _, hP⟩, C74_energy (C27_third_order C10 C01 C11 C20 C30 strain z) (inside_det hF) ⟨_, _, hP⟩⟩

section
variable (lapack : Eigh) (hl : EighValid lapack) (mu alpha : List ℝ) (z : Z)
include hl

theorem ogden_def_total (hα : ∀ p ∈ mu.zip alpha, p.2 ≠ 0) (Y : Ten2 ℝ) (hY : Y.det ≠ 0) :
    ∃ P, SpaceObj.Grad (Deformation.obj {} (Stretches.material lapack (Ogden.mat ⟨mu, alpha⟩))) z Y P := by
  obtain ⟨⟨G, hG⟩, -⟩ := C20_ogden_returns lapack mu alpha z hα (posDef_cauchyGreen hY)
  exact ⟨_, (Deformation.grad_iff _ _ _ _).2 ⟨G, hG, rfl⟩⟩

/-- Ogden materials on the deformation space: the stress predicts the documented energy, and the
elasticity tensor the stress wherever equal eigenvalues of `C` are the only ones which numpy's
tolerance takes for equal. -/
theorem C74_ogden (hα : ∀ p ∈ mu.zip alpha, p.2 ≠ 0) (Ψ : Ten2 ℝ → ℝ)
    (hΨ : EnergyOfStretches (ogdenEnergy mu alpha) Ψ) {F P : Ten2 ℝ} {A : Ten4 ℝ} (hF : F.det ≠ 0)
    (hP : SpaceObj.Grad (Deformation.obj {} (Stretches.material lapack (Ogden.mat ⟨mu, alpha⟩))) z F P)
    (hA : SpaceObj.Hess (Deformation.obj {} (Stretches.material lapack (Ogden.mat ⟨mu, alpha⟩))) z F A) :
    PredictsEnergy (fun F => Ψ (cauchyGreen F)) F P ∧ (Separated (cauchyGreen F) → PredictsStress
      (SpaceObj.Grad (Deformation.obj {} (Stretches.material lapack (Ogden.mat ⟨mu, alpha⟩))) z) F P A) :=
  ⟨C74_energy (C25_ogden lapack hl mu alpha z Ψ hΨ) (inside_det hF) hP, fun hs =>
    C74_stress (C26_ogden lapack hl mu alpha z hα) (inside_det hF) (ogden_def_total lapack hl mu alpha z hα) hP ⟨hs, hA⟩⟩

end

/-! ### Continuity -/

/-- a moving argument of the material -/
theorem moves_argOf (w : Space) {F : ℝ → Ten2 ℝ} {F' : Ten2 ℝ} {t₀ : ℝ} (hF : (F t₀).det ≠ 0) (hm : Moves F F' t₀) :
    ∃ X', Moves (fun t => argOf w (F t)) X' t₀ := by
  have hC := moves_cauchyGreen hm
  cases w
  · exact ⟨_, hC⟩
  · exact ⟨_, moves_unimodular (symInv_cauchyGreen hF) (det_cauchyGreen_pos hF) hC⟩
  · exact ⟨_, Moves.smul (moves_det_rpow (symInv_cauchyGreen hF) (det_cauchyGreen_pos hF) hC (1 / 3)) hC⟩

theorem posDef_argOf (w : Space) {F : Ten2 ℝ} (hF : F.det ≠ 0) : PosDef (argOf w F) := by
  cases w
  · exact posDef_cauchyGreen hF
  · exact posDef_unimodular hF
  · exact (posDef_cauchyGreen hF).smul (Real.rpow_pos_of_pos (det_cauchyGreen_pos hF) _)

theorem continuousAt_piolaOf (w : Space) {F G : ℝ → Ten2 ℝ} {t : ℝ} (hd : (F t).det ≠ 0) (hF : ContinuousAt F t)
    (hG : ContinuousAt G t) : ContinuousAt (fun t => piolaOf w (F t) (G t)) t := by
  have hdt := (det_cauchyGreen_pos hd).ne'
  have hc : ContinuousAt (fun t => cauchyGreen (F t)) t := continuous_cauchyGreen.continuousAt.comp hF
  have h1 : ∀ p : ℝ, ContinuousAt (fun t => (cauchyGreen (F t)).det ^ p) t := fun p =>
    ContinuousAt.comp (f := fun t => cauchyGreen (F t)) (continuousAt_unimodular hdt p) hc
  have h2 : ContinuousAt (fun t => (cauchyGreen (F t))⁻¹) t :=
    ContinuousAt.comp (f := fun t => cauchyGreen (F t)) (continuousAt_inv hdt) hc
  cases w
  · exact hF.mul (hG.const_smul (2 : ℝ))
  · have h4 : ContinuousAt (fun t => (2 * (cauchyGreen (F t)).det ^ (-1 / 3 : ℝ)) • G t) t :=
      (continuousAt_const.mul (h1 _)).smul hG
    have h5 : ContinuousAt (fun t => contract22 ((2 * (cauchyGreen (F t)).det ^ (-1 / 3 : ℝ)) • G t) (cauchyGreen (F t))) t := by
      unfold contract22
      refine tendsto_finset_sum _ fun i _ => tendsto_finset_sum _ fun j _ => Tendsto.mul ?_ ?_
      · exact tendsto_pi_nhds.1 (tendsto_pi_nhds.1 h4 i) j
      · exact tendsto_pi_nhds.1 (tendsto_pi_nhds.1 hc i) j
    simp only [piolaOf, distS]
    exact hF.mul (h4.sub ((h5.div_const 3).smul h2))
  · have h4 : ContinuousAt (fun t => (2 * (cauchyGreen (F t)).det ^ (1 / 3 : ℝ)) • G t) t :=
      (continuousAt_const.mul (h1 _)).smul hG
    have h5 : ContinuousAt (fun t => ((2 * (cauchyGreen (F t)).det ^ (1 / 3 : ℝ)) • G t).trace) t := by
      simp only [Matrix.trace]
      exact tendsto_finset_sum _ fun i _ => tendsto_pi_nhds.1 (tendsto_pi_nhds.1 h4 i) i
    simp only [piolaOf, dilS]
    exact hF.mul ((h5.div_const 3).smul h2)

theorem Smooth.space (w : Space) {mat : Material ℝ Z μ} {z : Z} {γ : Ten2 ℝ → Ten2 ℝ} (hγ : Smooth mat z γ) {F : Ten2 ℝ}
    (hF : F.det ≠ 0) : ContinuousResult (SpaceObj.Grad (w.obj {} mat) z) F := by
  refine continuous_of_motions (dom := fun F => F.det ≠ 0) (γ := fun F => piolaOf w F (γ (argOf w F))) (inside_det hF) ?_ ?_
  · intro Y P hY hP
    obtain ⟨G, hG, rfl⟩ := (space_grad_iff w mat z hY).1 hP
    rw [hγ.unique _ _ (posDef_argOf w hY) hG]
  · intro X X' hX hm
    have hd : (X 0).det ≠ 0 := by rw [hX]; exact hF
    obtain ⟨Y', hY⟩ := moves_argOf w hd hm
    refine continuousAt_piolaOf w hd (moves_continuousAt hm) (hγ.cont _ _ 0 ?_ hY)
    exact (inside_eventually (inside_det hF) hX hm).mono fun t ht => posDef_argOf w ht

/-- The stress of every symmetric stretch-based model with second derivatives is continuous in every
space, at distinct and at repeated principal stretches: the eigen-solver's choice of order and
eigenvectors, which jumps there, does not show. -/
theorem C74_stretches (lapack : Eigh) (hl : EighValid lapack) (w : Space) (mat : StrMat Z μ) (z : Z)
    (hs : StrMat.Symmetric mat) (ht : StrMat.Total mat z) (hz : StrMat.KeepsState mat z)
    (hh : IsHessian3 Positive (StrMat.Grad mat z) (StrMat.Hess mat z))
    (hH : ∀ C, PosDef C → ∃ H, Material.Hess (Stretches.material lapack mat) z C H) {F : Ten2 ℝ} (hF : F.det ≠ 0) :
    ContinuousResult (SpaceObj.Grad (w.obj {} (Stretches.material lapack mat)) z) F := by
  obtain ⟨γ, hγ⟩ := stretches_smooth lapack hl mat z hs ht hz hh hH
  exact hγ.space w hF

/-- Ogden materials, end to end. -/
theorem C74_ogden_continuous (lapack : Eigh) (hl : EighValid lapack) (w : Space) (mu alpha : List ℝ)
    (hα : ∀ p ∈ mu.zip alpha, p.2 ≠ 0) (z : Z) {F : Ten2 ℝ} (hF : F.det ≠ 0) :
    ContinuousResult (SpaceObj.Grad (w.obj {} (Stretches.material lapack (Ogden.mat ⟨mu, alpha⟩))) z) F :=
  C74_stretches lapack hl w _ z (Ogden.symmetric _) (fun x _ => (C11_returns mu alpha z x).1.2 hα)
    (C11_statevars mu alpha z) (C11_hessian mu alpha z) (fun _ hC => (C20_ogden_returns lapack mu alpha z hα hC).2) hF

/-- Third-order-deformation materials, end to end, in every space. -/
theorem C74_third_order_continuous (w : Space) (m : TOD ℝ) (z : Z) {F : Ten2 ℝ} (hF : F.det ≠ 0) :
    ContinuousResult (SpaceObj.Grad (w.obj {} (Invariants.material m.mat)) z) F := by
  refine Smooth.space w (γ := todGradT m) ⟨fun C hC => ?_, fun C G hC hG => ?_, fun X X' t₀ _ hm => ?_⟩ hF
  · exact (tod_grad m z ⟨hC.1, hC.det_ne_zero⟩).2 rfl
  · exact (tod_grad m z ⟨hC.1, hC.det_ne_zero⟩).1 hG
  · exact (continuous_todGradT m).continuousAt.comp (moves_continuousAt hm)

/-- The hypotheses of the theorems on Ogden materials can be met at the undeformed state, with its
threefold stretch. -/
example (z : Z) : ∃ lapack, EighValid lapack ∧ ∃ P, SpaceObj.Grad (Space.deformation.obj {} (Stretches.material lapack
    (Ogden.mat ⟨[1, 2], [3, -2]⟩))) z (1 : Ten2 ℝ) P ∧
    ContinuousResult (SpaceObj.Grad (Space.deformation.obj {} (Stretches.material lapack (Ogden.mat ⟨[1, 2], [3, -2]⟩))) z) 1 := by
  obtain ⟨lapack, hl⟩ := exists_eigh
  obtain ⟨P, hP⟩ := ogden_def_total lapack hl [1, 2] [3, -2] z (by simp) 1 (by simp)
  exact ⟨lapack, hl, P, hP, C74_ogden_continuous lapack hl .deformation [1, 2] [3, -2] (by simp) z (by simp)⟩

end Props
