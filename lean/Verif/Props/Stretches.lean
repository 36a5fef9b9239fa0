import Verif.Proofs.StretchesModels
import Verif.Proofs.StretchesCalc
import Verif.Props.Models

/-! # Properties C19-C21: the `Stretches` framework -/

namespace Props
open Spec Hel Matrix Filter Topology

variable {Z μ : Type}

/-- A valid eigen-solver exists. -/
theorem eigh_exists : ∃ lapack, EighValid lapack := exists_eigh

/-- An energy of the stretches defines an energy of `C` exactly if it is symmetric in its three
arguments. -/
theorem energy_exists (ψ : (Fin 3 → ℝ) → ℝ) : (∃ Ψ, EnergyOfStretches ψ Ψ) ↔
    ∀ x, Positive x → ∀ p : Equiv.Perm (Fin 3), ψ (x ∘ p) = ψ x := by
  classical
  constructor
  · rintro ⟨Ψ, h⟩ x hx p
    exact h.symm hx p
  · intro h
    obtain ⟨lapack, hl⟩ := exists_eigh
    refine ⟨fun C => ψ (Stretches.roots (Stretches.vals lapack C)), fun C w v hC hS => ?_⟩
    obtain ⟨p, rfl⟩ := (hl C hC.1).perm hS
    exact (h _ (Stretches.roots_pos (fun a => (hl C hC.1).pos hC a)) p).symm

/-! ## C19 -/

/-- The gradient of the framework is the derivative of the energy with respect to `C`: for every
differentiable symmetric energy, every valid eigen-solver, and every motion of positive definite
tensors, through distinct or repeated stretches. -/
theorem C19_gradient (lapack : Eigh) (hl : EighValid lapack) (mat : StrMat Z μ) (z : Z)
    (ψ : (Fin 3 → ℝ) → ℝ) (Ψ : Ten2 ℝ → ℝ) (hψ : EnergyOfStretches ψ Ψ)
    (h : IsGradient3 Positive ψ (StrMat.Grad mat z)) :
    IsGradient PosDef Ψ (Material.Grad (Stretches.material lapack mat) z) := by
  intro X X' t₀ G hX hm hG
  have hX0 := hX.self_of_nhds
  obtain ⟨-, g, hg, rfl⟩ := (Stretches.grad_iff ..).1 hG
  have hS0 : Spectral (X t₀) (Stretches.vals lapack (X t₀)) (Stretches.vecs lapack (X t₀)) := hl _ hX0.1
  have hw0 : ∀ a, 0 < Stretches.vals lapack (X t₀) a := fun a => hS0.pos hX0 a
  have hst := fun p hp => h.stabilizer (fun x hx p => hψ.symm hx p) (Stretches.roots_pos hw0) hg p hp
  have hblock : ∀ a b, Stretches.vals lapack (X t₀) a = Stretches.vals lapack (X t₀) b →
      Stretches.dlC (Stretches.roots (Stretches.vals lapack (X t₀))) g a =
        Stretches.dlC (Stretches.roots (Stretches.vals lapack (X t₀))) g b := fun a b hab =>
    Stretches.dlC_block (fun p hp => hst p (by rw [← Stretches.roots_comp, hp])) hab
  rw [hasDerivAt_iff_tendsto_slope, tendsto_iff_ultrafilter]
  intro U hU
  have hev : ∀ᶠ t in (U : Filter ℝ), PosDef (X t) := hU (nhdsWithin_le_nhds hX)
  have hS : ∀ᶠ t in (U : Filter ℝ), Spectral (X t) (Stretches.vals lapack (X t)) (Stretches.vecs lapack (X t)) :=
    hev.mono fun t ht => hl _ ht.1
  obtain ⟨p, V, hV, hw, -, -, hs, -⟩ := spectral_limit_at hm U hU hS hS0
  have hwp : ∀ᶠ t in (U : Filter ℝ), ∀ a, 0 < (Stretches.vals lapack (X t) ∘ p) a := by
    filter_upwards [hev, hS] with t ht hSt a using hSt.pos ht (p a)
  have hr := Stretches.roots_slope hw0 hwp hw hs
  have h1 := h.along (Stretches.roots_pos hw0) hg hU hr
  rw [hV.fn_unique hS0 hblock |>.symm, ← Stretches.sum_base]
  have e : contract22 (∑ a, Stretches.dlC (Stretches.roots (Stretches.vals lapack (X t₀))) g a • Stretches.base V a) X' =
      ∑ a, g a * ((Vᵀ * X' * V) a a / (2 * Stretches.roots (Stretches.vals lapack (X t₀)) a)) := by
    simp only [Fin.sum_univ_three, contract22_add_left, contract22_smul_left, Stretches.contract_base, Stretches.dlC]
    ring
  rw [e]
  refine h1.congr' ?_
  filter_upwards [hev, hS] with t ht hSt
  rw [slope_def_module, smul_eq_mul]
  have e1 : Ψ (X t) = ψ (Stretches.roots (Stretches.vals lapack (X t) ∘ p)) := hψ _ _ _ ht (hSt.permute p)
  have e2 : Ψ (X t₀) = ψ (Stretches.roots (Stretches.vals lapack (X t₀))) := hψ _ _ _ hX0 hS0
  rw [e1, e2]

/-- `gradient` returns whenever the model returns at the stretches. -/
theorem C19_returns (lapack : Eigh) (mat : StrMat Z μ) (z : Z) {c : Vec6 ℝ} {C : Ten2 ℝ} (hc : Stores c C)
    (s : StrSt μ) (g : Fin 3 → ℝ) (z' : Z)
    (hr : Returns (mat.gradient (fun a => Real.sqrt ((lapack C).1 a)) z) s.material (g, z')) :
    ∃ G, Returns ((Stretches.material lapack mat).gradient c z) s (G, z') :=
  ⟨_, (Stretches.returns_gradient ..).2 ⟨g, by rw [Stretches.eighSqrt_eq lapack hc]; exact hr, rfl⟩⟩

/-! ## C20 -/

/-- The model's gradients at permuted stretches. -/
theorem symmetric_grad {mat : StrMat Z μ} (hs : StrMat.Symmetric mat) (z : Z) (p : Equiv.Perm (Fin 3)) (x g : Fin 3 → ℝ)
    (h : StrMat.Grad mat z x g) : StrMat.Grad mat z (x ∘ p) (g ∘ p) := by
  obtain ⟨s, z', hr⟩ := h
  exact ⟨s, z', hs p x z s g z' hr⟩

/-- The derivative of the gradient of the framework along a motion, for unequal eigenvalues at any
distance: the divided differences of the principal stress coefficients. -/
theorem moves_exact (lapack : Eigh) (hl : EighValid lapack) (mat : StrMat Z μ) (z : Z) (hs : StrMat.Symmetric mat)
    (ht : StrMat.Total mat z) (hz : StrMat.KeepsState mat z)
    (h : IsHessian3 Positive (StrMat.Grad mat z) (StrMat.Hess mat z)) {X : ℝ → Ten2 ℝ} {X' : Ten2 ℝ} {t₀ : ℝ}
    {G : ℝ → Ten2 ℝ} {H : Ten4 ℝ} (hX : ∀ᶠ t in 𝓝 t₀, PosDef (X t)) (hm : Moves X X' t₀)
    (hG : ∀ᶠ t in 𝓝 t₀, Material.Grad (Stretches.material lapack mat) z (X t) (G t))
    (hH : Material.Hess (Stretches.material lapack mat) z (X t₀) H) :
    let w := Stretches.vals lapack (X t₀)
    let v := Stretches.vecs lapack (X t₀)
    ∃ g k, Spectral (X t₀) w v ∧ StrMat.Grad mat z (Stretches.roots w) g ∧
      StrMat.Hess mat z (Stretches.roots w) (StrHess.mat k) ∧ Stretches.Fixed w g (StrHess.mat k) ∧
      contract42 H X' = v * kmap (Stretches.Dmat (Stretches.roots w) g (StrHess.mat k))
        (Stretches.cross' (Stretches.roots w) (Stretches.dlC (Stretches.roots w) g)
          (Stretches.Dmat (Stretches.roots w) g (StrHess.mat k))) (vᵀ * X' * v) * vᵀ ∧
      Moves G (v * kmap (Stretches.Dmat (Stretches.roots w) g (StrHess.mat k))
        (Stretches.exact w (Stretches.dlC (Stretches.roots w) g) (Stretches.Dmat (Stretches.roots w) g (StrHess.mat k)))
        (vᵀ * X' * v) * vᵀ) t₀ := by
  obtain ⟨s, c, M, hc, hM, hr⟩ := hH
  have hX0 := hX.self_of_nhds
  have hX' : X'.IsSymm := hm.symm (hX.mono fun t ht => ht.1)
  -- at the point of evaluation
  let w0 := Stretches.vals lapack (X t₀)
  have hS0 : Spectral (X t₀) w0 (Stretches.vecs lapack (X t₀)) := hl _ hX0.1
  have hw0 : ∀ a, 0 < w0 a := fun a => hS0.pos hX0 a
  have hl0 : Positive (Stretches.roots w0) := Stretches.roots_pos hw0
  obtain ⟨g0, z', m, k, hg0, hk, rfl⟩ := (Stretches.returns_hessian ..).1 hr
  rw [Stretches.eighSqrt_eq lapack hc] at hg0 hk hM
  obtain rfl : z' = z := hz _ _ _ _ (by rw [Returns, hg0])
  have hg : StrMat.Grad mat z' (Stretches.roots w0) g0 := ⟨s.material, z', by rw [Returns]; exact congrArg Prod.fst hg0⟩
  have hh : StrMat.Hess mat z' (Stretches.roots w0) (StrHess.mat k) := ⟨m, k, hk, rfl⟩
  have heq := symmetric_grad hs z'
  have hfix : Stretches.Fixed w0 g0 (StrHess.mat k) :=
    { pos := hw0
      symm := Stretches.hmat_symm k
      grad := fun p hp => (h.stabilizer ht heq hl0 hg hh p (by rw [← Stretches.roots_comp, hp])).1
      hess := fun p hp => (h.stabilizer ht heq hl0 hg hh p (by rw [← Stretches.roots_comp, hp])).2 }
  have hcomp := hfix.exact_compatible
  have hGt : ∀ᶠ t in 𝓝 t₀, ∃ g, StrMat.Grad mat z' (Stretches.roots (Stretches.vals lapack (X t))) g ∧
      G t = Stretches.vecs lapack (X t) * diagonal (Stretches.dlC (Stretches.roots (Stretches.vals lapack (X t))) g) *
        (Stretches.vecs lapack (X t))ᵀ := hG.mono fun t ht => ((Stretches.grad_iff ..).1 ht).2
  have hG0 : G t₀ = Stretches.vecs lapack (X t₀) * diagonal (Stretches.dlC (Stretches.roots w0) g0) *
      (Stretches.vecs lapack (X t₀))ᵀ := by
    obtain ⟨g, h1, h2⟩ := hGt.self_of_nhds
    rw [h2, h.unique hl0 h1 hg hh]
  obtain ⟨g, hgt⟩ := hGt.choice
  -- the derivative
  refine ⟨g0, k, hS0, hg, hh, hfix, ?_, ?_⟩
  · have h1 := Stretches.contract_hessPure (Stretches.vecs lapack (X t₀)) (Stretches.roots w0) g0 k hX'
    rw [T4_eq hM] at h1
    exact h1
  rw [moves_quot, tendsto_iff_ultrafilter]
  intro U hU
  have hev : ∀ᶠ t in (U : Filter ℝ), PosDef (X t) := hU (nhdsWithin_le_nhds hX)
  have hgU := hU (nhdsWithin_le_nhds hgt)
  have hS : ∀ᶠ t in (U : Filter ℝ), Spectral (X t) (Stretches.vals lapack (X t)) (Stretches.vecs lapack (X t)) :=
    hev.mono fun t ht => hl _ ht.1
  obtain ⟨p, V, hV, hw, hv, hmix, hslope, hzero⟩ := spectral_limit_at hm U hU hS hS0
  let v1 : ℝ → Ten2 ℝ := fun t i a => Stretches.vecs lapack (X t) i (p a)
  let x1 : ℝ → Fin 3 → ℝ := fun t => Stretches.roots (Stretches.vals lapack (X t) ∘ p)
  let q : ℝ → Fin 3 → ℝ := fun t => Stretches.dlC (x1 t) (g t ∘ p)
  let q0 := Stretches.dlC (Stretches.roots w0) g0
  let D := Stretches.Dmat (Stretches.roots w0) g0 (StrHess.mat k)
  let f := Stretches.exact w0 q0 D
  let Y := Vᵀ * X' * V
  have hwp : ∀ᶠ t in (U : Filter ℝ), ∀ a, 0 < (Stretches.vals lapack (X t) ∘ p) a := by
    filter_upwards [hev, hS] with t ht hSt a using hSt.pos ht (p a)
  have hxp : ∀ᶠ t in (U : Filter ℝ), Positive (x1 t) := hwp.mono fun t ht => Stretches.roots_pos ht
  have hxs := Stretches.roots_slope hw0 hwp hw hslope
  have hx1 : Tendsto x1 U (𝓝 (Stretches.roots w0)) := tendsto_pi_nhds.2 fun a =>
    (Real.continuous_sqrt.tendsto (w0 a)).comp (tendsto_pi_nhds.1 hw a)
  have hgp : ∀ᶠ t in (U : Filter ℝ), StrMat.Grad mat z' (x1 t) (g t ∘ p) := by
    filter_upwards [hgU] with t ht
    exact heq p _ _ ht.1
  have hgs := fun a => h.along ht hl0 hg hh hU hxs hgp a
  -- slopes of the principal stress coefficients
  have hq : ∀ a, Tendsto (fun t => (t - t₀)⁻¹ * (q t a - q0 a)) U (𝓝 (∑ b, D a b * Y b b)) := fun a => by
    have h1 := Stretches.dlC_slope hl0 hxp hx1 hxs (hgs a)
    have e : (∑ b, StrHess.mat k a b * (Y b b / (2 * Stretches.roots w0 b))) / (2 * Stretches.roots w0 a) -
        g0 a * (Y a a / (2 * Stretches.roots w0 a)) / (2 * Stretches.roots w0 a ^ 2) = ∑ b, D a b * Y b b :=
      Stretches.Dmat_sum _ g0 (fun b => Y b b) _ hl0 a
    rw [← e]
    exact h1
  have hqlim : ∀ a, Tendsto (fun t => q t a) U (𝓝 (q0 a)) := fun a => by
    have htt : Tendsto (fun t => t - t₀) U (𝓝 0) := by
      have : Tendsto (fun t : ℝ => t - t₀) (𝓝 t₀) (𝓝 (t₀ - t₀)) := (continuous_id.sub continuous_const).tendsto t₀
      rw [sub_self] at this
      exact this.mono_left (hU.trans nhdsWithin_le_nhds)
    have h1 := (htt.mul (hq a)).add (tendsto_const_nhds (x := q0 a))
    rw [zero_mul, zero_add] at h1
    refine h1.congr' ?_
    have : ∀ᶠ t in (U : Filter ℝ), t ≠ t₀ := hU self_mem_nhdsWithin
    filter_upwards [this] with t htn
    have := sub_ne_zero.2 htn
    field_simp
    ring
  -- spectral decompositions of the gradients
  have hGs : ∀ᶠ t in (U : Filter ℝ), Spectral (G t) (q t) (v1 t) := by
    filter_upwards [hgU, hS] with t ht hSt
    have : Spectral (G t) (Stretches.dlC (Stretches.roots (Stretches.vals lapack (X t))) (g t))
      (Stretches.vecs lapack (X t)) := Spectral.of_eq hSt.orthogonal ht.2
    exact this.permute p
  have hG0s : Spectral (G t₀) q0 V := by
    refine Spectral.of_eq hV.orthogonal ?_
    rw [hG0]
    exact hS0.fn_unique hV fun a b hab => Stretches.dlC_block hfix.grad hab
  have hid : ∀ a b, ∀ᶠ t in (U : Filter ℝ), ((v1 t)ᵀ * quot G t₀ t * V) a b =
      (t - t₀)⁻¹ * (q t a - q0 b) * ((v1 t)ᵀ * V) a b := fun a b => by
    filter_upwards [hGs] with t ht
    rw [show (t - t₀)⁻¹ * (q t a - q0 b) * ((v1 t)ᵀ * V) a b = (t - t₀)⁻¹ * ((q t a - q0 b) * ((v1 t)ᵀ * V) a b) by ring,
      ← ht.mixed hG0s, quot, Matrix.mul_smul, Matrix.smul_mul, Matrix.smul_apply, smul_eq_mul]
  have hidX : ∀ a b, ∀ᶠ t in (U : Filter ℝ), ((v1 t)ᵀ * quot X t₀ t * V) a b =
      (t - t₀)⁻¹ * ((Stretches.vals lapack (X t) ∘ p) a - w0 b) * ((v1 t)ᵀ * V) a b := fun a b => by
    filter_upwards [hS] with t ht
    rw [show (t - t₀)⁻¹ * ((Stretches.vals lapack (X t) ∘ p) a - w0 b) * ((v1 t)ᵀ * V) a b =
      (t - t₀)⁻¹ * (((Stretches.vals lapack (X t) ∘ p) a - w0 b) * ((v1 t)ᵀ * V) a b) by ring,
      ← (ht.permute p).mixed hV, quot, Matrix.mul_smul, Matrix.smul_mul, Matrix.smul_apply, smul_eq_mul]
  have hR : Tendsto (fun t => (v1 t)ᵀ * V) U (𝓝 1) := by
    have := ((continuous_id.matrix_transpose.tendsto V).comp hv).mul (tendsto_const_nhds (x := V))
    have e : (id V)ᵀ * V = 1 := hV.orthogonal
    rw [e] at this
    exact this
  have hRe : ∀ a b, Tendsto (fun t => ((v1 t)ᵀ * V) a b) U (𝓝 ((1 : Ten2 ℝ) a b)) := fun a b =>
    tendsto_pi_nhds.1 (tendsto_pi_nhds.1 hR a) b
  have hK : Tendsto (fun t => (v1 t)ᵀ * quot G t₀ t * V) U (𝓝 (kmap D f Y)) := by
    refine tendsto_pi_nhds.2 fun a => tendsto_pi_nhds.2 fun b => ?_
    by_cases hab : a = b
    · subst hab
      have hr := hRe a a
      rw [Matrix.one_apply_eq] at hr
      have h1 := (hq a).mul hr
      rw [mul_one] at h1
      simp only [kmap, if_true]
      exact h1.congr' ((hid a a).mono fun t ht => ht.symm)
    · simp only [kmap, if_neg hab]
      have hr := hRe a b
      rw [Matrix.one_apply_ne hab] at hr
      by_cases hwab : w0 a = w0 b
      · have e0 : Y a b = 0 := hzero a b hab hwab
        rw [e0, mul_zero]
        have h1 := (hq a).mul hr
        rw [mul_zero] at h1
        refine h1.congr' ((hid a b).mono fun t ht => ?_)
        have e1 : q0 a = q0 b := Stretches.dlC_block hfix.grad hwab
        refine Eq.trans ?_ ht.symm
        rw [e1]
      · have hf : f a b = (q0 a - q0 b) / (w0 a - w0 b) :=
          if_neg hwab
        have hden : Tendsto (fun t => (Stretches.vals lapack (X t) ∘ p) a - w0 b) U (𝓝 (w0 a - w0 b)) :=
          (tendsto_pi_nhds.1 hw a).sub tendsto_const_nhds
        have hne : w0 a - w0 b ≠ 0 := sub_ne_zero.2 hwab
        have hmx : Tendsto (fun t => ((v1 t)ᵀ * quot X t₀ t * V) a b) U (𝓝 (Y a b)) :=
          tendsto_pi_nhds.1 (tendsto_pi_nhds.1 hmix a) b
        have h1 := (((hqlim a).sub (tendsto_const_nhds (x := q0 b))).div hden hne).mul hmx
        rw [← hf] at h1
        refine h1.congr' ?_
        filter_upwards [hid a b, hidX a b, hden.eventually (isOpen_ne.mem_nhds hne)] with t h2 h3 h4
        rw [h2, h3, Pi.div_apply]
        have h5 : (Stretches.vals lapack (X t) ∘ p) a - w0 b ≠ 0 := h4
        field_simp
  have hv' : Tendsto v1 U (𝓝 V) := hv
  have hfin : Tendsto (fun t => v1 t * ((v1 t)ᵀ * quot G t₀ t * V) * Vᵀ) U (𝓝 (V * kmap D f Y * Vᵀ)) :=
    (hv'.mul hK).mul tendsto_const_nhds
  rw [hcomp.kmap_unique hS0 hV X']
  refine hfin.congr' ?_
  filter_upwards [hS] with t ht
  have ho := (ht.permute p).orthogonal
  calc v1 t * ((v1 t)ᵀ * quot G t₀ t * V) * Vᵀ = (v1 t * (v1 t)ᵀ) * quot G t₀ t * (V * Vᵀ) := by
        simp only [Matrix.mul_assoc]
    _ = quot G t₀ t := by
      rw [show v1 t * (v1 t)ᵀ = 1 from ho.mul_transpose, hV.orthogonal.mul_transpose, Matrix.one_mul, Matrix.mul_one]

/-- The hessian of the framework is the derivative of its gradient: for every symmetric model
whose hessian is the derivative of its gradient, every valid eigen-solver, and every motion of
positive definite tensors.  At the point of evaluation the stretches may be repeated; unequal
eigenvalues of `C` have to differ by more than numpy's tolerance. -/
theorem C20_hessian (lapack : Eigh) (hl : EighValid lapack) (mat : StrMat Z μ) (z : Z) (hs : StrMat.Symmetric mat)
    (ht : StrMat.Total mat z) (hz : StrMat.KeepsState mat z)
    (h : IsHessian3 Positive (StrMat.Grad mat z) (StrMat.Hess mat z)) :
    IsHessian PosDef (Material.Grad (Stretches.material lapack mat) z)
      (fun C H => Separated C ∧ Material.Hess (Stretches.material lapack mat) z C H) := by
  intro X X' t₀ G H hX hm hG hH
  obtain ⟨hsep, hH⟩ := hH
  obtain ⟨g, k, hS, -, -, hf, e, hmov⟩ := moves_exact lapack hl mat z hs ht hz h hX hm hG hH
  rw [e, show Stretches.cross' _ (Stretches.dlC _ g) _ = _ from
    funext fun a => funext fun b => hf.exact_eq (hsep _ _ hS a b)]
  exact fun i j => hmov i j

/-- An Ogden material with two terms meets the hypotheses of C19 and C20, for a solver that exists. -/
example : ∃ lapack : Eigh, EighValid lapack ∧
    (∃ Ψ, EnergyOfStretches (ogdenEnergy [2, 1] [2, -3]) Ψ) ∧
    IsGradient3 Positive (ogdenEnergy [2, 1] [2, -3]) (StrMat.Grad (Ogden.mat ⟨[2, 1], [2, -3]⟩) ()) ∧
    StrMat.Symmetric (Ogden.mat ⟨[2, 1], [2, -3]⟩ : StrMat Unit Unit) ∧
    StrMat.Total (Ogden.mat ⟨[2, 1], [2, -3]⟩) () ∧ StrMat.KeepsState (Ogden.mat ⟨[2, 1], [2, -3]⟩) () ∧
    IsHessian3 Positive (StrMat.Grad (Ogden.mat ⟨[2, 1], [2, -3]⟩) ()) (StrMat.Hess (Ogden.mat ⟨[2, 1], [2, -3]⟩) ()) := by
  obtain ⟨lapack, hl⟩ := exists_eigh
  refine ⟨lapack, hl, (energy_exists _).2 fun x _ p => ?_, C11_gradient _ _ _, Ogden.symmetric _,
    fun x _ => (C11_returns _ _ _ x).1.2 ?_, C11_statevars _ _ _, C11_hessian _ _ _⟩
  · unfold ogdenEnergy
    congr 2
    funext q
    congr 1
    exact Equiv.sum_comp p fun a => x a ^ q.2 - 1
  · simp

end Props
