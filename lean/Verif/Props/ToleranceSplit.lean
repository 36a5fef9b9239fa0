import Verif.Props.Tolerance
import Verif.Props.DistortionalBound
import Verif.Props.Dilatational
import Verif.Props.Polyconvex
import Verif.Props.RoundingTangentSplit

/-! # Property C95: the tangents of the distortional and dilatational spaces at nearly equal principal stretches -/

namespace Props
open Spec Hel Matrix Filter Topology

variable {Z μ : Type}

theorem ApproxHessian.unique {dom ret retH e} (hH : ApproxHessian dom ret retH e) {X G₁ G₂ H} (hX : dom X)
    (h₁ : ret X G₁) (h₂ : ret X G₂) (hh : retH X H) : G₁ = G₂ := by
  obtain ⟨D, hD, -⟩ := hH (fun _ => X) 0 0 (fun t => if t = 0 then G₁ else G₂) H (.of_forall fun _ => hX)
    (Moves.const X) (.of_forall fun t => by split_ifs <;> assumption) hh
  ext i j
  refine eq_of_hasDerivAt_ite (t₀ := 0) (c := D i j) ?_
  refine (hD i j).congr_of_eventuallyEq (.of_forall fun t => ?_)
  dsimp only
  split_ifs <;> rfl

theorem abs_velocity {F F' : Ten2 ℝ} {f v : ℝ} (f0 : 0 ≤ f) (hf : ∀ k l, |F k l| ≤ f) (hv : ∀ k l, |F' k l| ≤ v) (k l : Fin 3) :
    |(F'ᵀ * F + Fᵀ * F') k l| ≤ 6 * (f * v) := by
  simp only [Matrix.add_apply, Matrix.mul_apply, Matrix.transpose_apply]
  have h5 : ∀ r, |F' r k * F r l| ≤ f * v := fun r => by
    rw [abs_mul, mul_comm]; exact mul_le_mul (hf ..) (hv ..) (abs_nonneg _) f0
  have h6 : ∀ r, |F r k * F' r l| ≤ f * v := fun r => by
    rw [abs_mul]; exact mul_le_mul (hf ..) (hv ..) (abs_nonneg _) f0
  refine (abs_add_le _ _).trans ((add_le_add (abs_sum3 h5) (abs_sum3 h6)).trans (le_of_eq (by ring)))

theorem abs_contract22 {A B : Ten2 ℝ} {a b : ℝ} (hA : ∀ i j, |A i j| ≤ a) (hB : ∀ i j, |B i j| ≤ b) : |contract22 A B| ≤ 9 * (a * b) := by
  refine abs_sum33 fun i j => ?_
  rw [abs_mul]
  exact mul_le_mul (hA ..) (hB ..) (abs_nonneg _) ((abs_nonneg _).trans (hA i j))

theorem abs_mul3 {A B : Ten2 ℝ} {a b : ℝ} (hA : ∀ i j, |A i j| ≤ a) (hB : ∀ i j, |B i j| ≤ b) (i j : Fin 3) : |(A * B) i j| ≤ 3 * (a * b) := by
  rw [Matrix.mul_apply]
  refine abs_sum3 fun k => ?_
  rw [abs_mul]
  exact mul_le_mul (hA ..) (hB ..) (abs_nonneg _) ((abs_nonneg _).trans (hA i k))

open Classical in
/-- **C95.**  The elasticity tensor of the distortional space differs from the derivative of its stress by at most an explicit
constant, which depends on the deformation gradient only, times the error `e` of the hessian of the material and the absolute
tolerance `1e-8`: for every material, every motion and every returned elasticity; `f` and `n` are bounds of the entries of the
deformation gradient and of the inverse of the right Cauchy-Green tensor. -/
theorem C95_distortional_bound {Z μ : Type} (mat : Material ℝ Z μ) (z : Z)
    (dom Q : Ten2 ℝ → Prop) (e : ℝ) (h : ApproxHessian dom (Material.Grad mat z) (fun C H => Q C ∧ Material.Hess mat z C H) e) (e0 : 0 ≤ e)
    (F P : ℝ → Ten2 ℝ) (F' : Ten2 ℝ) (t₀ : ℝ) (A : Ten4 ℝ)
    (hF : ∀ᶠ t in 𝓝 t₀, (F t).det ≠ 0 ∧ dom (unimodular (cauchyGreen (F t)))) (hQ : Q (unimodular (cauchyGreen (F t₀)))) (hm : Moves F F' t₀)
    (hP : ∀ᶠ t in 𝓝 t₀, SpaceObj.Grad (Distortional.obj {} mat) z (F t) (P t))
    (hA : SpaceObj.Hess (Distortional.obj {} mat) z (F t₀) A)
    {f n : ℝ} (hf : ∀ i j, |F t₀ i j| ≤ f) (hn : ∀ i j, |(cauchyGreen (F t₀))⁻¹ i j| ≤ n) :
    ∃ P', Moves P P' t₀ ∧ ∀ v, (∀ k l, |F' k l| ≤ v) → ∀ i j, |P' i j - contract42 A F' i j| ≤
      f ^ 2 * (1 + 9 * n * f ^ 2) ^ 2 * (36 * (cauchyGreen (F t₀)).det ^ (-2 / 3 : ℝ) * e + 6561 * (1 / 10 ^ 8)) * v := by
  have f0 : 0 ≤ f := (abs_nonneg _).trans (hf 0 0)
  have n0 : 0 ≤ n := (abs_nonneg _).trans (hn 0 0)
  have hF₀ : (F t₀).det ≠ 0 := hF.self_of_nhds.1
  obtain ⟨c, hcd⟩ : ∃ c, c = 3 * f ^ 2 := ⟨_, rfl⟩
  have c0 : 0 ≤ c := by rw [hcd]; positivity
  have hc : ∀ i j, |cauchyGreen (F t₀) i j| ≤ c := hcd ▸ abs_cauchyGreen hf
  obtain ⟨p, hpd⟩ : ∃ p, p = 1 + n * c / 3 := ⟨_, rfl⟩
  have p0 : 0 ≤ p := by rw [hpd]; positivity
  have hp : ∀ i j k l, |Distortional.projT (cauchyGreen (F t₀)) i j k l| ≤ p := fun i j k l => hpd ▸ abs_proj hn hc i j k l
  have hq : ∀ i j k l, |Distortional.projTt (cauchyGreen (F t₀)) i j k l| ≤ p := fun i j k l =>
    (abs_proj hc hn i j k l).trans (le_of_eq (by rw [hpd]; ring))
  obtain ⟨d, hd⟩ : ∃ d, d = (cauchyGreen (F t₀)).det ^ (-1 / 3 : ℝ) := ⟨_, rfl⟩
  have d0 : 0 < d := by rw [hd]; exact Real.rpow_pos_of_pos (det_cauchyGreen_pos hF₀) _
  have hdd : (cauchyGreen (F t₀)).det ^ (-2 / 3 : ℝ) = d ^ 2 := by
    rw [hd, pow_two, ← Real.rpow_add (det_cauchyGreen_pos hF₀)]; norm_num
  rw [hdd]
  let x := d * (6 * f + 1 / 3 * (9 * (n * (6 * f))) * c)
  have x0 : 0 ≤ x := by positivity
  have h0 := hF.self_of_nhds
  obtain ⟨G₀, H, hG₀, hH, rfl⟩ := Distortional.hess_elim h0.1 hA
  obtain ⟨G, hG⟩ := (hF.and hP |>.mono fun t ht => (Distortional.grad_iff _ _ ht.1.1).1 ht.2).choice
  have hu : G t₀ = G₀ := ApproxHessian.unique h h0.2 hG.self_of_nhds.1 hG₀ ⟨hQ, hH⟩
  have hC := moves_cauchyGreen hm
  obtain ⟨Y, h1, hb⟩ := h _ _ t₀ G H (hF.mono fun t ht => ht.2)
    (moves_unimodular (symInv_cauchyGreen h0.1) (det_cauchyGreen_pos h0.1) hC) (hG.mono fun t ht => ht.1) ⟨hQ, hH⟩
  have h2 := moves_distS (symInv_cauchyGreen h0.1) (det_cauchyGreen_pos h0.1) hC h1
  have h3 := (moves_piola hm h2).congr (hG.mono fun t ht => ht.2)
  rw [hu] at h3
  refine ⟨_, h3, fun v hv i j => ?_⟩
  have v0 : 0 ≤ v := (abs_nonneg _).trans (hv 0 0)
  have hmin := Material.hess_minor hH
  have hsym := Material.grad_symm hG₀
  have hCs := cauchyGreen_symm (F t₀)
  have e' : contract42 (piolaT (F t₀) (distS (cauchyGreen (F t₀)) G₀) fun i j k l =>
      Distortional.geoT (cauchyGreen (F t₀)) G₀ i j k l +
          contract44 (contract44 (Distortional.projT (cauchyGreen (F t₀)))
            (Distortional.c4bT (cauchyGreen (F t₀)) H))
            (Distortional.projTt (cauchyGreen (F t₀))) i j k l) F' = _ :=
    contract42_piola (F t₀) F' _ (distS_symm hCs hsym) (add_minor (geoT_minor hCs hsym)
      (contract44_minor (contract44_minor (projT_minor hCs) (smul_minor _ hmin)) (projTt_minor hCs)))
  rw [Distortional.contract42_exact (symInv_cauchyGreen h0.1) (det_cauchyGreen_pos h0.1)
    (velocity_symm _ _) H hmin] at e'
  -- the error of the material
  have hvel := abs_velocity f0 hf hv
  generalize hV : F'ᵀ * F t₀ + (F t₀)ᵀ * F' = V at *
  have hX : ∀ i j, |((cauchyGreen (F t₀)).det ^ (-1 / 3 : ℝ) • (V - (1 / 3 * contract22 (cauchyGreen (F t₀))⁻¹ V) • cauchyGreen (F t₀))) i j| ≤ x * v := by
    intro i j
    rw [Matrix.smul_apply, Matrix.sub_apply, Matrix.smul_apply, smul_eq_mul, smul_eq_mul, ← hd, abs_mul, abs_of_pos d0]
    have h4 : |1 / 3 * contract22 (cauchyGreen (F t₀))⁻¹ V * cauchyGreen (F t₀) i j| ≤ 1 / 3 * (9 * (n * (6 * (f * v)))) * c := by
      rw [abs_mul, abs_mul, abs_of_pos (by norm_num : (0 : ℝ) < 1 / 3)]
      exact mul_le_mul (mul_le_mul_of_nonneg_left (abs_contract22 hn hvel) (by norm_num)) (hc ..) (abs_nonneg _) (by positivity)
    calc d * |V i j - 1 / 3 * contract22 (cauchyGreen (F t₀))⁻¹ V * cauchyGreen (F t₀) i j|
        ≤ d * (6 * (f * v) + 1 / 3 * (9 * (n * (6 * (f * v)))) * c) :=
          mul_le_mul_of_nonneg_left ((abs_sub _ _).trans (add_le_add (hvel i j) h4)) d0.le
      _ = x * v := by simp only [x]; ring
  have hD := hb (x * v) hX
  generalize hXe : (cauchyGreen (F t₀)).det ^ (-1 / 3 : ℝ) • (V - (1 / 3 * contract22 (cauchyGreen (F t₀))⁻¹ V) • cauchyGreen (F t₀)) = X' at *
  obtain ⟨D, hDe⟩ : ∃ D : Ten2 ℝ, D = Y - contract42 H X' := ⟨_, rfl⟩
  have hYe : Y = contract42 H X' + D := by rw [hDe]; abel
  have hD' : ∀ i j, |D i j| ≤ e * (x * v) := fun i j => by rw [hDe, Matrix.sub_apply]; exact hD i j
  have hlin : F' * distS (cauchyGreen (F t₀)) G₀ + F t₀ * distS' (cauchyGreen (F t₀)) V G₀ Y =
      (F' * distS (cauchyGreen (F t₀)) G₀ + F t₀ * distS' (cauchyGreen (F t₀)) V G₀ (contract42 H X')) +
      F t₀ * ((2 * d) • (D - (contract22 (cauchyGreen (F t₀)) D / 3) • (cauchyGreen (F t₀))⁻¹)) := by
    rw [add_assoc, ← Matrix.mul_add, hYe]
    congr 2
    unfold distS'
    rw [← hd, contract22_add_right]
    ext i j
    simp only [Matrix.add_apply, Matrix.sub_apply, Matrix.smul_apply, smul_eq_mul]
    ring
  have herr : ∀ i j, |(F t₀ * ((2 * d) • (D - (contract22 (cauchyGreen (F t₀)) D / 3) • (cauchyGreen (F t₀))⁻¹))) i j| ≤
      3 * (f * (2 * d * (x + 9 * (c * x) / 3 * n))) * v * e := by
    intro i j
    have h5 : ∀ i j, |((2 * d) • (D - (contract22 (cauchyGreen (F t₀)) D / 3) • (cauchyGreen (F t₀))⁻¹)) i j| ≤
        2 * d * (e * (x * v) + 9 * (c * (e * (x * v))) / 3 * n) := fun i j => by
      rw [Matrix.smul_apply, Matrix.sub_apply, Matrix.smul_apply, smul_eq_mul, smul_eq_mul, abs_mul, abs_of_pos (by positivity : 0 < 2 * d)]
      refine mul_le_mul_of_nonneg_left ((abs_sub _ _).trans (add_le_add (hD' i j) ?_)) (by positivity)
      rw [abs_mul, abs_div, abs_of_pos (by norm_num : (0 : ℝ) < 3)]
      exact mul_le_mul (div_le_div_of_nonneg_right (abs_contract22 hc hD') (by norm_num)) (hn ..) (abs_nonneg _) (by positivity)
    exact (abs_mul3 hf h5 i j).trans (le_of_eq (by ring))
  rw [hlin, ← e', Matrix.add_apply]
  have hfin : ∀ a b : ℝ, |a| ≤ 9 * (9 * (f * f * (9 * (9 * (p * p))))) * v * (1 / 10 ^ 8) →
      |b| ≤ 3 * (f * (2 * d * (x + 9 * (c * x) / 3 * n))) * v * e → |a + b| ≤
      f ^ 2 * (1 + 9 * n * f ^ 2) ^ 2 * (36 * d ^ 2 * e + 6561 * (1 / 10 ^ 8)) * v := by
    intro a b ha hb
    have e1 : 9 * (9 * (f * f * (9 * (9 * (p * p))))) * v * (1 / 10 ^ 8) = 6561 * f ^ 2 * (1 + n * f ^ 2) ^ 2 * v * (1 / 10 ^ 8) := by
      rw [hpd, hcd]; ring
    have e2 : 3 * (f * (2 * d * (x + 9 * (c * x) / 3 * n))) * v * e = f ^ 2 * (1 + 9 * n * f ^ 2) ^ 2 * (36 * d ^ 2 * e) * v := by
      simp only [x]; rw [hcd]; ring
    rw [e1] at ha
    rw [e2] at hb
    have t1 : (1 + n * f ^ 2) ^ 2 ≤ (1 + 9 * n * f ^ 2) ^ 2 := by
      have : 0 ≤ n * f ^ 2 := by positivity
      exact pow_le_pow_left₀ (by positivity) (by linarith) 2
    have t2 : 6561 * f ^ 2 * (1 + n * f ^ 2) ^ 2 * v * (1 / 10 ^ 8) ≤ 6561 * f ^ 2 * (1 + 9 * n * f ^ 2) ^ 2 * v * (1 / 10 ^ 8) := by gcongr
    refine (abs_add_le _ _).trans ((add_le_add (ha.trans t2) hb).trans (le_of_eq (by ring)))
  rw [add_sub_right_comm]
  refine hfin _ _ ?_ (herr i j)
  by_cases hd : Distortional.Dropped (F t₀) H
  · rw [if_neg (not_not.2 hd), contract42_piolaT_add]
    have hc : ∀ i j k l, |Distortional.c4bT (cauchyGreen (F t₀)) H i j k l| ≤ 1 / 10 ^ 8 := fun i j k l => hd i j k l
    have h2 := abs_contract44 (abs_contract44 hp hc) hq
    have h3 : ∀ k l, |∑ I, ∑ K, F t₀ i I * F t₀ k K * contract44 (contract44 (Distortional.projT (cauchyGreen (F t₀)))
        (Distortional.c4bT (cauchyGreen (F t₀)) H)) (Distortional.projTt (cauchyGreen (F t₀))) I j K l| ≤
        9 * (f * f * (9 * (9 * (p * (1 / 10 ^ 8)) * p))) := fun k l => abs_sum33 fun I K => by
      rw [abs_mul, abs_mul]
      exact mul_le_mul (mul_le_mul (hf ..) (hf ..) (abs_nonneg _) f0) (h2 ..) (abs_nonneg _) (mul_nonneg f0 f0)
    refine (abs_sum33 (b := 9 * (f * f * (9 * (9 * (p * (1 / 10 ^ 8)) * p))) * v) fun k l => ?_).trans (le_of_eq (by ring))
    rw [abs_mul]
    exact mul_le_mul (h3 k l) (hv k l) (abs_nonneg _) ((abs_nonneg _).trans (h3 k l))
  · rw [if_pos hd, sub_self, abs_zero]
    positivity

/-- The dilatational space: the error is the one of C29, which is due to the tensor at which the material is evaluated, up to an
explicit constant, which depends on the deformation gradient only, times the error of the hessian of the material. -/
theorem C95_dilatational_bound {Z μ : Type} (mat : Material ℝ Z μ) (z : Z)
    (dom Q : Ten2 ℝ → Prop) (e : ℝ) (h : ApproxHessian dom (Material.Grad mat z) (fun C H => Q C ∧ Material.Hess mat z C H) e) (e0 : 0 ≤ e)
    (F P : ℝ → Ten2 ℝ) (F' : Ten2 ℝ) (t₀ : ℝ) (A : Ten4 ℝ) (C C' : Ten2 ℝ)
    (hCF : C = cauchyGreen (F t₀)) (hC' : C' = F'ᵀ * F t₀ + (F t₀)ᵀ * F')
    (hF : ∀ᶠ t in 𝓝 t₀, (F t).det ≠ 0 ∧ dom ((cauchyGreen (F t)).det ^ (1 / 3 : ℝ) • cauchyGreen (F t)))
    (hQ : Q (C.det ^ (1 / 3 : ℝ) • C)) (hm : Moves F F' t₀)
    (hP : ∀ᶠ t in 𝓝 t₀, SpaceObj.Grad (Dilatational.obj {} mat) z (F t) (P t))
    (hA : SpaceObj.Hess (Dilatational.obj {} mat) z (F t₀) A)
    {f n : ℝ} (hf : ∀ i j, |F t₀ i j| ≤ f) (hn : ∀ i j, |(cauchyGreen (F t₀))⁻¹ i j| ≤ n) :
    ∃ H P', Material.Hess mat z (C.det ^ (1 / 3 : ℝ) • C) H ∧ Moves P P' t₀ ∧ ∀ v, (∀ k l, |F' k l| ≤ v) → ∀ i j,
      |P' i j - (contract42 A F' + (2 / 3 * C.det ^ (2 / 3 : ℝ) *
        contract22 1 (contract42 H (C' + (1 / 3 * contract22 C⁻¹ C') • (C - 1)))) • (F t₀ * C⁻¹)) i j| ≤
          36 * C.det ^ (2 / 3 : ℝ) * f ^ 2 * n * (1 + 9 * n * f ^ 2) * e * v := by
  subst hCF hC'
  have f0 : 0 ≤ f := (abs_nonneg _).trans (hf 0 0)
  have n0 : 0 ≤ n := (abs_nonneg _).trans (hn 0 0)
  have hF₀ : (F t₀).det ≠ 0 := hF.self_of_nhds.1
  obtain ⟨c, hcd⟩ : ∃ c, c = 3 * f ^ 2 := ⟨_, rfl⟩
  have c0 : 0 ≤ c := by rw [hcd]; positivity
  have hc : ∀ i j, |cauchyGreen (F t₀) i j| ≤ c := hcd ▸ abs_cauchyGreen hf
  obtain ⟨d, hd⟩ : ∃ d, d = (cauchyGreen (F t₀)).det ^ (1 / 3 : ℝ) := ⟨_, rfl⟩
  have d0 : 0 < d := by rw [hd]; exact Real.rpow_pos_of_pos (det_cauchyGreen_pos hF₀) _
  let x := d * (6 * f + 1 / 3 * (9 * (n * (6 * f))) * c)
  have x0 : 0 ≤ x := by positivity
  have h0 := hF.self_of_nhds
  obtain ⟨G₀, H, hG₀, hH, rfl⟩ := Dilatational.hess_elim h0.1 hA
  have hC := moves_cauchyGreen hm
  have hC0 := symInv_cauchyGreen h0.1
  have hd0 := det_cauchyGreen_pos h0.1
  obtain ⟨G, hG⟩ := ((hF.and hP).mono fun t ht => (Dilatational.grad_iff _ _ ht.1.1).1 ht.2).choice
  have hu : G t₀ = G₀ := ApproxHessian.unique h h0.2 hG.self_of_nhds.1 hG₀ ⟨hQ, hH⟩
  have hCo := Moves.smul (moves_det_rpow hC0 hd0 hC (1 / 3)) hC
  obtain ⟨Y, h1, hb⟩ := h _ _ t₀ G H (hF.mono fun t ht => ht.2) hCo (hG.mono fun t ht => ht.1) ⟨hQ, hH⟩
  have h2 := moves_dilS hC0 hd0 hC h1
  have h3 := (moves_piola hm h2).congr (hG.mono fun t ht => ht.2)
  refine ⟨H, _, hH, h3, fun v hv i j => ?_⟩
  have v0 : 0 ≤ v := (abs_nonneg _).trans (hv 0 0)
  have hi : ((cauchyGreen (F t₀))⁻¹).IsSymm := by
    rw [Matrix.IsSymm, Matrix.transpose_nonsing_inv, hC0.1.eq]
  have e : contract42 (piolaT (F t₀) (dilS (cauchyGreen (F t₀)) G₀)
      (Dilatational.c4T (cauchyGreen (F t₀)) G₀ H)) F' = _ :=
    contract42_piola (F t₀) F' _ (dilS_symm hC0.1 G₀) (c4T_minor hC0.1 G₀ H)
  rw [e, hu]
  have hvel := abs_velocity f0 hf hv
  have hms : ∀ (c : ℝ) (A B : Ten2 ℝ), c • (A * B) = A * (c • B) := fun c A B => (Matrix.mul_smul A c B).symm
  unfold Dilatational.c4T
  rw [contract42_sub, contract42_smul, contract42_smul, contract42_dyad,
    contract42_dyadSym_self hi (velocity_symm _ _)]
  clear e h3 h2 h1
  generalize hV : F'ᵀ * F t₀ + (F t₀)ᵀ * F' = V at *
  have hX : ∀ i j, |((1 / 3 * ((cauchyGreen (F t₀)).det ^ (1 / 3 : ℝ) * contract22 (cauchyGreen (F t₀))⁻¹ V)) • cauchyGreen (F t₀) +
      (cauchyGreen (F t₀)).det ^ (1 / 3 : ℝ) • V) i j| ≤ x * v := by
    intro i j
    rw [Matrix.add_apply, Matrix.smul_apply, Matrix.smul_apply, smul_eq_mul, smul_eq_mul, ← hd]
    have h4 : |1 / 3 * (d * contract22 (cauchyGreen (F t₀))⁻¹ V) * cauchyGreen (F t₀) i j| ≤ 1 / 3 * (d * (9 * (n * (6 * (f * v))))) * c := by
      rw [abs_mul, abs_mul, abs_mul, abs_of_pos d0, abs_of_pos (by norm_num : (0 : ℝ) < 1 / 3)]
      exact mul_le_mul (mul_le_mul_of_nonneg_left (mul_le_mul_of_nonneg_left (abs_contract22 hn hvel) d0.le) (by norm_num)) (hc ..)
        (abs_nonneg _) (by positivity)
    have h5 : |d * V i j| ≤ d * (6 * (f * v)) := by
      rw [abs_mul, abs_of_pos d0]; exact mul_le_mul_of_nonneg_left (hvel i j) d0.le
    exact (abs_add_le _ _).trans ((add_le_add h4 h5).trans (le_of_eq (by simp only [x]; ring)))
  have hD := hb (x * v) hX
  generalize hXe : (1 / 3 * ((cauchyGreen (F t₀)).det ^ (1 / 3 : ℝ) * contract22 (cauchyGreen (F t₀))⁻¹ V)) • cauchyGreen (F t₀) +
      (cauchyGreen (F t₀)).det ^ (1 / 3 : ℝ) • V = X' at *
  obtain ⟨D, hDe⟩ : ∃ D : Ten2 ℝ, D = Y - contract42 H X' := ⟨_, rfl⟩
  have hYe : Y = contract42 H X' + D := by rw [hDe]; abel
  have hD' : ∀ i, |D i i| ≤ e * (x * v) := fun i => by rw [hDe, Matrix.sub_apply]; exact hD i i
  have hsub : ∀ A B : Ten2 ℝ, contract42 H (A - B) = contract42 H A - contract42 H B := by
    intro A B
    rw [sub_eq_add_neg, ← neg_one_smul ℝ B, contract42_add_right, contract42_smul_right]
    simp [sub_eq_add_neg]
  have hp : (cauchyGreen (F t₀)).det ^ (2 / 3 : ℝ) = d * d := by
    rw [hd, ← Real.rpow_add hd0]; norm_num
  have herr : |(F t₀ * ((2 * d * D.trace / 3) • (cauchyGreen (F t₀))⁻¹)) i j| ≤ 3 * (f * (2 * d * (3 * x) / 3 * n)) * v * e := by
    have h5 : |D.trace| ≤ 3 * (e * (x * v)) := abs_sum3 hD'
    have h6 : ∀ i j, |((2 * d * D.trace / 3) • (cauchyGreen (F t₀))⁻¹) i j| ≤ 2 * d * (3 * (e * (x * v))) / 3 * n := fun i j => by
      rw [Matrix.smul_apply, smul_eq_mul, abs_mul, abs_div, abs_mul, abs_of_pos (by norm_num : (0 : ℝ) < 3), abs_of_pos (by positivity : 0 < 2 * d)]
      exact mul_le_mul (div_le_div_of_nonneg_right (mul_le_mul_of_nonneg_left h5 (by positivity)) (by norm_num)) (hn ..) (abs_nonneg _)
        (by positivity)
    exact (abs_mul3 hf h6 i j).trans (le_of_eq (by ring))
  have hfin : 3 * (f * (2 * d * (3 * x) / 3 * n)) * v * e = 36 * (cauchyGreen (F t₀)).det ^ (2 / 3 : ℝ) * f ^ 2 * n * (1 + 9 * n * f ^ 2) * e * v := by
    rw [hp]; simp only [x]; rw [hcd]; ring
  rw [hfin] at herr
  refine le_of_eq_of_le (congrArg abs ?_) herr
  rw [sub_eq_iff_eq_add, ← Matrix.add_apply]
  refine congrFun (congrFun ?_ i) j
  rw [hms _ (F t₀) (cauchyGreen (F t₀))⁻¹, add_assoc, ← Matrix.mul_add, add_left_comm, ← Matrix.mul_add]
  congr 2
  rw [hYe, ← hXe, ← hd, hp]
  simp only [contract42_add_right, contract42_smul_right, hsub, Matrix.trace_smul, smul_eq_mul, Matrix.trace_add,
    contract22_add_right, contract22_smul_right, contract22_sub_right, contract22_one_left]
  ext i j
  simp only [Matrix.add_apply, Matrix.sub_apply, Matrix.smul_apply, smul_eq_mul]
  ring

section
variable (lapack : Eigh) (hl : EighValid lapack) (mu alpha : List ℝ) (z : Z)
include hl

/-- The hessian of an Ogden material, inside and outside of the tolerance. -/
theorem C95_ogden_material (hα : ∀ p ∈ mu.zip alpha, p.2 ≠ 0) {m M : ℝ} (hm0 : 0 < m) :
    ApproxHessian PosDef (Material.Grad (Stretches.material lapack (Ogden.mat ⟨mu, alpha⟩)) z)
      (fun C H => EigenvaluesIn m M C ∧ Material.Hess (Stretches.material lapack (Ogden.mat ⟨mu, alpha⟩)) z C H)
      (18 * ogdenLipschitz mu alpha m M * (1 / 10 ^ 8)) := by
  intro X X' t₀ G H hX hm hG hH
  obtain ⟨G', h1, h2⟩ := C69_ogden lapack hl mu alpha z hα hm0 hX hm hH.1 hG hH.2
  exact ⟨G', h1, fun v hv i j => (h2 v hv i j).trans (le_of_eq (by ring))⟩

/-- Ogden materials on the distortional space: whatever the stretches and the size of the moduli, the error of the returned
elasticity is at most an explicit constant of the deformation gradient times the tolerance of numpy and a sum of the Lipschitz
constant of the second derivatives of the energy and a number. -/
theorem C95_ogden_distortional (hα : ∀ p ∈ mu.zip alpha, p.2 ≠ 0) {m M : ℝ} (hm0 : 0 < m)
    {F P : ℝ → Ten2 ℝ} {F' : Ten2 ℝ} {t₀ : ℝ} {A : Ten4 ℝ} (hE : EigenvaluesIn m M (unimodular (cauchyGreen (F t₀))))
    (hF : ∀ᶠ t in 𝓝 t₀, (F t).det ≠ 0) (hm : Moves F F' t₀)
    (hP : ∀ᶠ t in 𝓝 t₀, SpaceObj.Grad (Distortional.obj {} (Stretches.material lapack (Ogden.mat ⟨mu, alpha⟩))) z (F t) (P t))
    (hA : SpaceObj.Hess (Distortional.obj {} (Stretches.material lapack (Ogden.mat ⟨mu, alpha⟩))) z (F t₀) A)
    {f n : ℝ} (hf : ∀ i j, |F t₀ i j| ≤ f) (hn : ∀ i j, |(cauchyGreen (F t₀))⁻¹ i j| ≤ n) :
    ∃ P', Moves P P' t₀ ∧ ∀ v, (∀ k l, |F' k l| ≤ v) → ∀ i j, |P' i j - contract42 A F' i j| ≤
      f ^ 2 * (1 + 9 * n * f ^ 2) ^ 2 * (648 * (cauchyGreen (F t₀)).det ^ (-2 / 3 : ℝ) * ogdenLipschitz mu alpha m M + 6561) * v * (1 / 10 ^ 8) := by
  have hF₀ := hF.self_of_nhds
  have hC := det_cauchyGreen_pos hF₀
  have hpd : PosDef (unimodular (cauchyGreen (F t₀))) := (posDef_cauchyGreen hF₀).smul (Real.rpow_pos_of_pos hC _)
  have h0 := hE _ _ (hl _ hpd.1) 0
  have hL := ogdenLipschitz_nonneg mu alpha hm0 (hm0.trans_le (h0.1.trans h0.2))
  have he : 0 ≤ 18 * ogdenLipschitz mu alpha m M * (1 / 10 ^ 8) := mul_nonneg (mul_nonneg (by norm_num) hL) (by norm_num)
  obtain ⟨P', h1, h2⟩ := C95_distortional_bound (Stretches.material lapack (Ogden.mat ⟨mu, alpha⟩)) z PosDef _ _
    (C95_ogden_material lapack hl mu alpha z hα hm0 (M := M)) he F P F' t₀ A
    (hF.mono fun t ht => ⟨ht, (posDef_cauchyGreen ht).smul (Real.rpow_pos_of_pos (det_cauchyGreen_pos ht) _)⟩) hE hm hP hA hf hn
  exact ⟨P', h1, fun v hv i j => (h2 v hv i j).trans (le_of_eq (by ring))⟩

/-- Ogden materials on the dilatational space: the error beyond that of C29. -/
theorem C95_ogden_dilatational (hα : ∀ p ∈ mu.zip alpha, p.2 ≠ 0) {m M : ℝ} (hm0 : 0 < m)
    {F P : ℝ → Ten2 ℝ} {F' : Ten2 ℝ} {t₀ : ℝ} {A : Ten4 ℝ} {C C' : Ten2 ℝ} (hC1 : C = cauchyGreen (F t₀))
    (hC2 : C' = F'ᵀ * F t₀ + (F t₀)ᵀ * F') (hE : EigenvaluesIn m M (C.det ^ (1 / 3 : ℝ) • C))
    (hF : ∀ᶠ t in 𝓝 t₀, (F t).det ≠ 0) (hm : Moves F F' t₀)
    (hP : ∀ᶠ t in 𝓝 t₀, SpaceObj.Grad (Dilatational.obj {} (Stretches.material lapack (Ogden.mat ⟨mu, alpha⟩))) z (F t) (P t))
    (hA : SpaceObj.Hess (Dilatational.obj {} (Stretches.material lapack (Ogden.mat ⟨mu, alpha⟩))) z (F t₀) A)
    {f n : ℝ} (hf : ∀ i j, |F t₀ i j| ≤ f) (hn : ∀ i j, |(cauchyGreen (F t₀))⁻¹ i j| ≤ n) :
    ∃ H P', Material.Hess (Stretches.material lapack (Ogden.mat ⟨mu, alpha⟩)) z (C.det ^ (1 / 3 : ℝ) • C) H ∧ Moves P P' t₀ ∧
      ∀ v, (∀ k l, |F' k l| ≤ v) → ∀ i j,
        |P' i j - (contract42 A F' + (2 / 3 * C.det ^ (2 / 3 : ℝ) *
          contract22 1 (contract42 H (C' + (1 / 3 * contract22 C⁻¹ C') • (C - 1)))) • (F t₀ * C⁻¹)) i j| ≤
          648 * C.det ^ (2 / 3 : ℝ) * f ^ 2 * n * (1 + 9 * n * f ^ 2) * ogdenLipschitz mu alpha m M * v * (1 / 10 ^ 8) := by
  have hF₀ := hF.self_of_nhds
  have hC := det_cauchyGreen_pos hF₀
  have hpd : PosDef ((cauchyGreen (F t₀)).det ^ (1 / 3 : ℝ) • cauchyGreen (F t₀)) := (posDef_cauchyGreen hF₀).smul (Real.rpow_pos_of_pos hC _)
  have h0 := hE _ _ (hC1 ▸ hl _ hpd.1) 0
  have hL := ogdenLipschitz_nonneg mu alpha hm0 (hm0.trans_le (h0.1.trans h0.2))
  have he : 0 ≤ 18 * ogdenLipschitz mu alpha m M * (1 / 10 ^ 8) := mul_nonneg (mul_nonneg (by norm_num) hL) (by norm_num)
  obtain ⟨H, P', h3, h1, h2⟩ := C95_dilatational_bound (Stretches.material lapack (Ogden.mat ⟨mu, alpha⟩)) z PosDef _ _
    (C95_ogden_material lapack hl mu alpha z hα hm0 (M := M)) he F P F' t₀ A C C' hC1 hC2
    (hF.mono fun t ht => ⟨ht, (posDef_cauchyGreen ht).smul (Real.rpow_pos_of_pos (det_cauchyGreen_pos ht) _)⟩) hE hm hP hA hf hn
  exact ⟨H, P', h3, h1, fun v hv i j => (h2 v hv i j).trans (le_of_eq (by ring))⟩

end

theorem ogden_dil_returns (lapack : Eigh) {mu alpha : List ℝ} (hα : ∀ p ∈ mu.zip alpha, p.2 ≠ 0) (z : Z) (F : Ten2 ℝ) :
    ∃ P, SpaceObj.Grad (Dilatational.obj {} (Stretches.material lapack (Ogden.mat ⟨mu, alpha⟩))) z F P := by
  obtain ⟨g, s, z', hg⟩ := (C11_returns mu alpha z (eighSqrt lapack (Dilatational.co F)).1).1.2 hα
  obtain rfl := C11_statevars mu alpha z _ _ _ _ hg
  exact ⟨_, { material := { material := () } }, z', (Dilatational.returns_gradient ..).2
    ⟨_, (Stretches.returns_gradient ..).2 ⟨g, hg, rfl⟩, (piolaStress_default ..).symm⟩⟩

/-- Ogden's model with two terms at stretches `1`, `1 + 10⁻⁹` and `1`: within the tolerance of numpy, but not equal. -/
example : ∃ (lapack : Eigh) (F F' : Ten2 ℝ) (P Q : ℝ → Ten2 ℝ) (A B : Ten4 ℝ), EighValid lapack ∧
    (∀ p ∈ [(1 : ℝ), 2].zip [(3 : ℝ), -2], p.2 ≠ 0) ∧ F.det ≠ 0 ∧ ¬ Separated (unimodular (cauchyGreen F)) ∧
    EigenvaluesIn (1 / 4) 8 (unimodular (cauchyGreen F)) ∧ EigenvaluesIn (1 / 4) 8 ((cauchyGreen F).det ^ (1 / 3 : ℝ) • cauchyGreen F) ∧
    F' ≠ 0 ∧ (∀ᶠ t : ℝ in 𝓝 0, (F + t • F').det ≠ 0) ∧ Moves (fun t => F + t • F') F' 0 ∧
    (∀ᶠ t : ℝ in 𝓝 0, SpaceObj.Grad (Distortional.obj {} (Stretches.material lapack (Ogden.mat ⟨[1, 2], [3, -2]⟩))) () (F + t • F') (P t)) ∧
    (∀ᶠ t : ℝ in 𝓝 0, SpaceObj.Grad (Dilatational.obj {} (Stretches.material lapack (Ogden.mat ⟨[1, 2], [3, -2]⟩))) () (F + t • F') (Q t)) ∧
    SpaceObj.Hess (Distortional.obj {} (Stretches.material lapack (Ogden.mat ⟨[1, 2], [3, -2]⟩))) () F A ∧
    SpaceObj.Hess (Dilatational.obj {} (Stretches.material lapack (Ogden.mat ⟨[1, 2], [3, -2]⟩))) () F B := by
  obtain ⟨lapack, hl⟩ := exists_eigh
  have hα : ∀ a ∈ [(3 : ℝ), -2], a ≠ 0 := by simp
  obtain ⟨F, hF⟩ : ∃ F, F = diagonal ![1, 1 + 1 / 10 ^ 9, (1 : ℝ)] := ⟨_, rfl⟩
  have hd : F.det ≠ 0 := by
    rw [hF, Matrix.det_diagonal, Fin.prod_univ_three]; norm_num [Matrix.cons_val_two]
  have hC : cauchyGreen F = diagonal ![1, (1 + 1 / 10 ^ 9) ^ 2, (1 : ℝ)] := by
    rw [hF, cauchyGreen, Matrix.diagonal_transpose, Matrix.diagonal_mul_diagonal]
    congr 1
    funext i
    fin_cases i <;> simp [pow_two]
  have hdet : (cauchyGreen F).det = (1 + 1 / 10 ^ 9) ^ 2 := by
    rw [hC, Matrix.det_diagonal, Fin.prod_univ_three]; simp
  have hsm : ∀ s : ℝ, s • cauchyGreen F = diagonal ![s, s * (1 + 1 / 10 ^ 9) ^ 2, s] := fun s => by
    rw [hC, ← Matrix.diagonal_smul]
    congr 1
    funext i
    fin_cases i <;> simp
  have hin : ∀ s : ℝ, 1 / 4 ≤ s → s ≤ 2 → EigenvaluesIn (1 / 4) 8 (s • cauchyGreen F) := by
    intro s h1 h2 w v hS a
    rw [hsm] at hS
    obtain ⟨p, rfl⟩ := (spectral_diagonal _).perm hS
    have : ∀ c : Fin 3, 1 / 4 ≤ ![s, s * (1 + 1 / 10 ^ 9) ^ 2, s] c ∧ ![s, s * (1 + 1 / 10 ^ 9) ^ 2, s] c ≤ 8 := by
      intro c
      fin_cases c
      · exact ⟨h1, by simp; linarith⟩
      · constructor
        · change _ ≤ s * (1 + 1 / 10 ^ 9) ^ 2
          linarith [mul_le_mul_of_nonneg_left (show (1 : ℝ) ≤ (1 + 1 / 10 ^ 9) ^ 2 by norm_num) (show 0 ≤ s by linarith)]
        · change s * (1 + 1 / 10 ^ 9) ^ 2 ≤ _
          linarith [mul_le_mul_of_nonneg_left (show (1 + 1 / 10 ^ 9) ^ 2 ≤ (2 : ℝ) by norm_num) (show 0 ≤ s by linarith)]
      · exact ⟨h1, by simp; linarith⟩
    exact this _
  have hs1 : ((1 + 1 / 10 ^ 9 : ℝ) ^ 2) ^ (1 / 3 : ℝ) ≤ 2 := by
    refine (Real.rpow_le_rpow_of_exponent_le (by norm_num) (by norm_num : (1 / 3 : ℝ) ≤ 1)).trans ?_
    rw [Real.rpow_one]; norm_num
  have hs2 : 1 ≤ ((1 + 1 / 10 ^ 9 : ℝ) ^ 2) ^ (1 / 3 : ℝ) := Real.one_le_rpow (by norm_num) (by norm_num)
  have hs3 : ((1 + 1 / 10 ^ 9 : ℝ) ^ 2) ^ (-1 / 3 : ℝ) = (((1 + 1 / 10 ^ 9 : ℝ) ^ 2) ^ (1 / 3 : ℝ))⁻¹ := by
    rw [← Real.rpow_neg (by norm_num)]; norm_num
  have hs4 : ((1 + 1 / 10 ^ 9 : ℝ) ^ 2) ^ (-1 / 3 : ℝ) ≤ 1 := by rw [hs3]; exact inv_le_one_of_one_le₀ hs2
  have hs5 : 1 / 4 ≤ ((1 + 1 / 10 ^ 9 : ℝ) ^ 2) ^ (-1 / 3 : ℝ) := by
    rw [hs3]
    refine le_trans (by norm_num) (inv_anti₀ (by linarith) hs1)
  have hev : ∀ᶠ t : ℝ in 𝓝 0, (F + t • (1 : Ten2 ℝ)).det ≠ 0 := by
    have : Continuous fun t : ℝ => (F + t • (1 : Ten2 ℝ)).det := by fun_prop
    exact this.continuousAt.eventually_ne (by simpa using hd)
  have hm : Moves (fun t : ℝ => F + t • (1 : Ten2 ℝ)) 1 0 := by
    intro i j
    simp only [Matrix.add_apply, Matrix.smul_apply, smul_eq_mul]
    simpa using ((hasDerivAt_id (0 : ℝ)).mul_const ((1 : Ten2 ℝ) i j)).const_add (F i j)
  have hP : ∀ t : ℝ, ∃ P, (F + t • (1 : Ten2 ℝ)).det ≠ 0 →
      SpaceObj.Grad (Distortional.obj {} (Stretches.material lapack (Ogden.mat ⟨[1, 2], [3, -2]⟩))) () (F + t • 1) P := fun t => by
    by_cases h : (F + t • (1 : Ten2 ℝ)).det = 0
    · exact ⟨0, fun h' => absurd h h'⟩
    · obtain ⟨P, hP⟩ := ogden_dist_returns lapack hl [1, 2] [3, -2] hα () _ h
      exact ⟨P, fun _ => hP⟩
  have hQ : ∀ t : ℝ, ∃ P, (F + t • (1 : Ten2 ℝ)).det ≠ 0 →
      SpaceObj.Grad (Dilatational.obj {} (Stretches.material lapack (Ogden.mat ⟨[1, 2], [3, -2]⟩))) () (F + t • 1) P := fun t => by
    by_cases h : (F + t • (1 : Ten2 ℝ)).det = 0
    · exact ⟨0, fun h' => absurd h h'⟩
    · obtain ⟨P, hP⟩ := ogden_dil_returns lapack (mu := [1, 2]) (alpha := [3, -2]) (by simp) () (F + t • 1)
      exact ⟨P, fun _ => hP⟩
  choose P hP using hP
  choose Q hQ using hQ
  obtain ⟨⟨A, hA⟩, B, hB⟩ := ogden_split_elasticity_total lapack (mu := [1, 2]) (alpha := [3, -2]) (by simp) F
  refine ⟨lapack, F, 1, P, Q, A, B, hl, by simp, hd, fun hs => ?_, ?_, ?_, one_ne_zero, hev, hm, hev.mono fun t h => hP t h,
    hev.mono fun t h => hQ t h, hA, hB⟩
  · have hS := spectral_diagonal ![(cauchyGreen F).det ^ (-1 / 3 : ℝ), (cauchyGreen F).det ^ (-1 / 3 : ℝ) * (1 + 1 / 10 ^ 9) ^ 2,
      (cauchyGreen F).det ^ (-1 / 3 : ℝ)]
    rw [← hsm, ← unimodular] at hS
    rw [hdet] at hS
    obtain ⟨s, e⟩ : ∃ s, s = ((1 + 1 / 10 ^ 9 : ℝ) ^ 2) ^ (-1 / 3 : ℝ) := ⟨_, rfl⟩
    rw [← e] at hS hs4 hs5
    rcases hs _ _ hS 1 0 with h | h
    · simp only [Matrix.cons_val_one, Matrix.cons_val_zero] at h
      nlinarith
    · simp only [Matrix.cons_val_one, Matrix.cons_val_zero] at h
      have h0 : 0 ≤ s * (1 + 1 / 10 ^ 9) ^ 2 - s := by nlinarith
      rw [abs_of_nonneg h0] at h
      nlinarith [abs_nonneg s]
  · rw [unimodular, hdet]; exact hin _ hs5 (by linarith)
  · rw [hdet]; exact hin _ (by linarith) hs1

end Props
