import Verif.Props.Superposition
import Verif.Props.EndToEnd

/-! # Property C54: the initial shear modulus -/

namespace Props
open Spec Hel Matrix Filter Topology

variable {Z μ : Type}

/-- The deviator of the linear strain `(U + Uᵀ)/2` of a displacement gradient `U`. -/
noncomputable def linearShear (U : Ten2 ℝ) : Ten2 ℝ :=
  (1 / 2 : ℝ) • (U + Uᵀ) - (((1 / 2 : ℝ) • (U + Uᵀ)).trace / 3) • 1

theorem cauchyGreen_one : cauchyGreen (1 : Ten2 ℝ) = 1 := by simp [cauchyGreen]

theorem unimodular_one : unimodular (1 : Ten2 ℝ) = 1 := by simp [unimodular]

theorem contract22_one_right (X : Ten2 ℝ) : contract22 X 1 = X.trace := by
  simp [contract22, Matrix.trace, Fin.sum_univ_three, Matrix.one_apply]

open Classical in
/-- The distortional space at the undeformed state, for a material which is isotropic there. -/
theorem initial_distortional (mat : Material ℝ Z μ) (z : Z) (g b : ℝ)
    (hG : ∀ G, Material.Grad mat z 1 G → G = g • 1)
    (hH : ∀ H, Material.Hess mat z 1 H → ∃ a : ℝ, ∀ X : Ten2 ℝ, X.IsSymm →
      contract42 H X = (a * X.trace) • 1 + b • X)
    (htol : ∀ H, Material.Hess mat z 1 H → H = 0 ∨ ∃ i j k l, 1 / 10 ^ 8 < |4 * H i j k l|) {A : Ten4 ℝ}
    (hA : SpaceObj.Hess (Distortional.obj {} mat) z 1 A) (U : Ten2 ℝ) :
    contract42 A U = (4 * (g + b)) • linearShear U := by
  have h1 : (1 : Ten2 ℝ).det ≠ 0 := by simp
  have hd : (cauchyGreen (1 : Ten2 ℝ)).det = 1 := by simp [cauchyGreen_one]
  obtain ⟨G, H, hg, hh, rfl⟩ := Distortional.hess_elim h1 hA
  rw [cauchyGreen_one, unimodular_one] at hg hh
  have hmin := Material.hess_minor hh
  have hsym := Material.grad_symm hg
  have hCs := cauchyGreen_symm (1 : Ten2 ℝ)
  have hex : (if ¬ Distortional.Dropped (1 : Ten2 ℝ) H then
        fun i j k l => Distortional.geoT (cauchyGreen (1 : Ten2 ℝ)) G i j k l +
          contract44 (contract44 (Distortional.projT (cauchyGreen (1 : Ten2 ℝ)))
            (Distortional.c4bT (cauchyGreen (1 : Ten2 ℝ)) H))
            (Distortional.projTt (cauchyGreen (1 : Ten2 ℝ))) i j k l
        else Distortional.geoT (cauchyGreen (1 : Ten2 ℝ)) G) = fun i j k l =>
        Distortional.geoT (cauchyGreen (1 : Ten2 ℝ)) G i j k l +
          contract44 (contract44 (Distortional.projT (cauchyGreen (1 : Ten2 ℝ)))
            (Distortional.c4bT (cauchyGreen (1 : Ten2 ℝ)) H))
            (Distortional.projTt (cauchyGreen (1 : Ten2 ℝ))) i j k l := by
    funext i j k l
    split_ifs with hdr
    · rcases htol H hh with rfl | ⟨i', j', k', l', hlt⟩
      · simp [contract44, Distortional.c4bT]
      · have := hdr i' j' k' l'
        rw [hd, Real.one_rpow, mul_one] at this
        exact absurd this (not_le.2 hlt)
    · rfl
  have e : contract42 (piolaT (1 : Ten2 ℝ) (distS (cauchyGreen (1 : Ten2 ℝ)) G) fun i j k l =>
      Distortional.geoT (cauchyGreen (1 : Ten2 ℝ)) G i j k l +
          contract44 (contract44 (Distortional.projT (cauchyGreen (1 : Ten2 ℝ)))
            (Distortional.c4bT (cauchyGreen (1 : Ten2 ℝ)) H))
            (Distortional.projTt (cauchyGreen (1 : Ten2 ℝ))) i j k l) U = _ :=
    contract42_piola (1 : Ten2 ℝ) U _ (distS_symm hCs hsym) (add_minor (geoT_minor hCs hsym)
      (contract44_minor (contract44_minor (projT_minor hCs) (smul_minor _ hmin)) (projTt_minor hCs)))
  rw [Distortional.contract42_exact (symInv_cauchyGreen h1) (det_cauchyGreen_pos h1)
    (velocity_symm _ _) H hmin] at e
  have hX : (Uᵀ * 1 + (1 : Ten2 ℝ)ᵀ * U).IsSymm := velocity_symm _ _
  rw [hex, e]
  obtain rfl := hG G hg
  have hsimp : Uᵀ * 1 + (1 : Ten2 ℝ)ᵀ * U = Uᵀ + U := by simp
  rw [hsimp] at hX ⊢
  obtain ⟨a, ha⟩ := hH H hh
  have hY := ha ((1 : ℝ) • ((Uᵀ + U) - (1 / 3 * contract22 (1 : Ten2 ℝ) (Uᵀ + U)) • (1 : Ten2 ℝ))) (by
    refine IsSymm.smul (IsSymm.sub hX (IsSymm.smul ?_ _)) _
    exact transpose_one)
  simp only [cauchyGreen_one, inv_one, det_one, Real.one_rpow]
  rw [hY]
  simp only [distS', distS, inv_one, det_one, Real.one_rpow, Matrix.one_mul, Matrix.mul_one,
    contract22_one_left, contract22_one_right, linearShear, trace_add, trace_sub, trace_smul, trace_transpose, trace_one,
    Fintype.card_fin, smul_eq_mul, Matrix.mul_smul, contract22_smul_left]
  ext i j
  simp only [Matrix.add_apply, Matrix.sub_apply, Matrix.smul_apply, Matrix.transpose_apply, smul_eq_mul]
  push_cast
  simp only [Matrix.mul_apply, Matrix.sub_apply, Matrix.smul_apply, smul_eq_mul]
  ring_nf
  simp

theorem invariants_one : invariants (1 : Ten2 ℝ) = ![3, 3, 1] := by
  rw [invariants, inv2]
  simp
  norm_num

/-- `Invariants` at the undeformed state. -/
theorem invariants_hess_one (mat : InvMat ℝ Z μ) (z : Z) (W : Fin 3 → ℝ) (hW : ∀ g, InvMat.Grad mat z ![3, 3, 1] g → g = W)
    {H : Ten4 ℝ} (hH : Material.Hess (Invariants.material mat) z 1 H) :
    ∃ a : ℝ, H = fun i j k l => a * dyad (1 : Ten2 ℝ) 1 i j k l - (W 1 + W 2) * dyadSym (1 : Ten2 ℝ) 1 i j k l := by
  obtain ⟨s, c, M, hc, hM, hr⟩ := hH
  obtain ⟨r, h, m, h1, h2, h3⟩ := (Invariants.returns_hessian ..).1 hr
  have hT := T2_eq hc
  have hv : InvGrad.vec r = W := hW _ ⟨s.material, r, by
    rw [hT, invariants_one] at h1
    exact congrArg Prod.fst h1, rfl⟩
  have w1 : r.d2.getD 0 = W 1 := congrFun hv 1
  have w2 : r.d3.getD 0 = W 2 := congrFun hv 2
  have e := Invariants.hessRes_ok h3
  have e4 : H = astensor4 M := (T4_eq hM).symm
  have t2 : T2 (fun a => trace c * eye a - c a) = (2 : ℝ) • (1 : Ten2 ℝ) := by
    rw [T2_sub, T2_smul, T2_eye, T2_trace, hT]
    ext i j
    simp
    ring
  have hadd : ∀ A B : Mat6 ℝ, astensor4 (fun a b => A a b + B a b) = fun i j k l => astensor4 A i j k l + astensor4 B i j k l :=
    fun A B => rfl
  have hel : ∃ q : ℝ, astensor4 (fun a b => h.h33.elim 0 fun _ => h.h22.getD 0 *
      dya (fun a => trace c * eye a - c a) (fun a => trace c * eye a - c a) a b) = fun i j k l => q * dyad (1 : Ten2 ℝ) 1 i j k l := by
    rcases h.h33 with _ | w
    · exact ⟨0, by funext i j k l; simp [astensor4]⟩
    · refine ⟨h.h22.getD 0 * 4, ?_⟩
      have := T4_dya (fun a => trace c * eye a - c a) (fun a => trace c * eye a - c a)
      funext i j k l
      have := congrFun (congrFun (congrFun (congrFun this i) j) k) l
      rw [t2] at this
      simp only [astensor4, dyad, Matrix.smul_apply, smul_eq_mul] at this ⊢
      simp only [Option.elim, this]
      ring
  obtain ⟨q, hq⟩ := hel
  rw [e4, e, hadd, hq, Invariants.T4_hessPure c (by rw [hT]; simp), hT, w1, w2]
  refine ⟨W 1 + W 2 + h.h11.getD 0 + 4 * h.h22.getD 0 + 4 * h.h12.getD 0 + 4 * h.h23.getD 0 + 2 * h.h13.getD 0 + q, ?_⟩
  have e3 : (1 : Ten2 ℝ).trace • (1 : Ten2 ℝ) - 1 = (2 : ℝ) • (1 : Ten2 ℝ) := by ext i j; simp; ring
  rw [e3]
  funext i j k l
  simp only [dyad, dyadSym, det_one, inv_one, Matrix.smul_apply, smul_eq_mul]
  ring

theorem contract42_iso (a b : ℝ) {X : Ten2 ℝ} (hX : X.IsSymm) :
    contract42 (fun i j k l => a * dyad (1 : Ten2 ℝ) 1 i j k l + b * dyadSym (1 : Ten2 ℝ) 1 i j k l) X =
      (a * X.trace) • 1 + b • X := by
  have hs : ∀ i j, X i j = X j i := fun i j => (hX.apply i j).symm
  ext i j
  simp only [contract42, dyad, dyadSym, Fin.sum_univ_three, Matrix.trace, Matrix.diag_apply, Matrix.add_apply,
    Matrix.smul_apply, smul_eq_mul]
  have h01 := hs 1 0
  have h02 := hs 2 0
  have h12 := hs 2 1
  fin_cases i <;> fin_cases j <;> simp [Matrix.one_apply, h01, h02, h12] <;> ring

/-- `Invariants` on the distortional space: the elasticity tensor at the undeformed state is that of an
isotropic incompressible solid with the shear modulus `2 (∂ψ/∂I1 + ∂ψ/∂I2)`, for every model (whatever
its derivative with respect to the third invariant and its second derivatives are). -/
theorem C54_invariants (mat : InvMat ℝ Z μ) (z : Z) (W : Fin 3 → ℝ) (hW : ∀ g, InvMat.Grad mat z ![3, 3, 1] g → g = W)
    (htol : ∀ H, Material.Hess (Invariants.material mat) z 1 H → H = 0 ∨ ∃ i j k l, 1 / 10 ^ 8 < |4 * H i j k l|)
    {A : Ten4 ℝ} (hA : SpaceObj.Hess (Distortional.obj {} (Invariants.material mat)) z 1 A) (U : Ten2 ℝ) :
    contract42 A U = (2 * (2 * (W 0 + W 1))) • linearShear U := by
  have h1 : SymInv (1 : Ten2 ℝ) := ⟨transpose_one, by simp⟩
  rw [initial_distortional (Invariants.material mat) z (W 0 + 2 * W 1 + W 2) (-(W 1 + W 2)) ?_ ?_ htol hA U]
  · congr 1; ring
  · intro G hG
    obtain ⟨g, hg, rfl⟩ := (Invariants.grad_iff _ _ h1).1 hG
    rw [invariants_one] at hg
    rw [hW g hg]
    ext i j
    simp [invGradT]
    ring
  · intro H hH
    obtain ⟨a, rfl⟩ := invariants_hess_one mat z W hW hH
    refine ⟨a, fun X hX => ?_⟩
    rw [← contract42_iso a _ hX]
    congr 1
    funext i j k l
    ring

theorem tod_dist_hess_total (m : TOD ℝ) (F : Ten2 ℝ) (z : Z) (s : DistSt (InvSt ℝ Unit)) :
    ∃ X, Returns ((Distortional.obj {} (Invariants.material (Z := Z) m.mat)).hessian F z) s (.full X) := by
  obtain ⟨g, z', m', hg⟩ : ∃ g z' m', (Invariants.material (Z := Z) m.mat).gradient
      (Distortional.cu F) z s.material = (.ok (g, z'), m') := by
    change ∃ g z' m', Invariants.gradient _ _ _ _ = (.ok (g, z'), m')
    rw [Invariants.gradient_run]
    simp only [TOD.mat, PyM.lift_run, TOD.gradient_eq]
    exact ⟨_, _, _, rfl⟩
  obtain ⟨h, hh⟩ := tod_hess_total m (Distortional.cu F) z m'
  exact ⟨_, (Distortional.returns_hessian ..).2 ⟨g, z', m', h, hg, hh, (piolaElasticity_default ..).symm⟩⟩

theorem todHessT_one (c : Fin 5 → ℝ) : todHessT (todOf c false) 1 = fun i j k l =>
    (c 1 + 2 * c 3 + 4 * c 2) * dyad (1 : Ten2 ℝ) 1 i j k l - c 1 * dyadSym (1 : Ten2 ℝ) 1 i j k l := by
  funext i j k l
  have e3 : (1 : Ten2 ℝ).trace • (1 : Ten2 ℝ) - 1 = (2 : ℝ) • (1 : Ten2 ℝ) := by ext i j; simp; ring
  have hu : (todOf c false).undeformed = 3 := rfl
  have hi : invariants (1 : Ten2 ℝ) 0 = 3 := by rw [invariants_one]; rfl
  have d1 : dyad (1 : Ten2 ℝ) ((2 : ℝ) • (1 : Ten2 ℝ)) i j k l = 2 * dyad (1 : Ten2 ℝ) 1 i j k l := by
    simp only [dyad, Matrix.smul_apply, smul_eq_mul]; ring
  have d2 : dyad ((2 : ℝ) • (1 : Ten2 ℝ)) (1 : Ten2 ℝ) i j k l = 2 * dyad (1 : Ten2 ℝ) 1 i j k l := by
    simp only [dyad, Matrix.smul_apply, smul_eq_mul]; ring
  rw [todHessT, e3, d1, d2, hu, hi]
  change (c 1 + c 2 * (3 - 3)) * _ + (c 3 * 2 + c 4 * 6 * (3 - 3)) * _ + c 2 * _ = _
  ring

/-- The initial shear modulus of the third-order-deformation model is `2 (C10 + C01)`.  (The hypothesis
excludes second derivatives which are not zero but all below the tolerance `1e-8`.) -/
theorem C54_third_order (c : Fin 5 → ℝ) (z : Z) (s : DistSt (InvSt ℝ Unit))
    (hc : c 1 = 0 ∧ c 2 = 0 ∧ c 3 = 0 ∨ 1 / 10 ^ 8 < 2 * |c 1| ∨ 1 / 10 ^ 8 < |8 * c 3 + 16 * c 2|) :
    ∃ A, Returns ((Distortional.obj {} (Invariants.material (todOf c false).mat)).hessian (1 : Ten2 ℝ) z) s (.full A) ∧
      ∀ U, contract42 A U = (2 * (2 * (c 0 + c 1))) • linearShear U := by
  obtain ⟨A, hA⟩ := tod_dist_hess_total (todOf c false) (1 : Ten2 ℝ) z s
  refine ⟨A, hA, fun U => ?_⟩
  have h1 : SymInv (1 : Ten2 ℝ) := ⟨transpose_one, by simp⟩
  have hW : ∀ g, InvMat.Grad ((todOf c false).mat (Z := Z)) z ![3, 3, 1] g → g = ![c 0, c 1, 0] := by
    intro g hg
    rw [(TOD.grad_iff ..).1 hg]
    funext i
    fin_cases i <;> simp [todOf, TOD.init]
  have key := fun ht => C54_invariants (todOf c false).mat z ![c 0, c 1, 0] hW ht ⟨s, hA⟩ U
  simp only [cons_val_zero, cons_val_one] at key
  refine key ?_
  intro H hH
  rw [tod_hess _ _ h1, todHessT_one] at hH
  subst hH
  rcases hc with ⟨h1, h2, h3⟩ | h | h
  · left
    funext i j k l
    rw [h1, h2, h3]
    change (_ : ℝ) = 0
    ring
  · right
    refine ⟨0, 1, 0, 1, ?_⟩
    have e : |4 * ((c 1 + 2 * c 3 + 4 * c 2) * dyad (1 : Ten2 ℝ) 1 0 1 0 1 - c 1 * dyadSym (1 : Ten2 ℝ) 1 0 1 0 1)| = 2 * |c 1| := by
      have e1 : dyad (1 : Ten2 ℝ) 1 0 1 0 1 = 0 := by simp [dyad]
      have e2 : dyadSym (1 : Ten2 ℝ) 1 0 1 0 1 = 1 / 2 := by simp [dyadSym]; norm_num
      rw [e1, e2, ← abs_two, ← abs_mul, ← abs_neg]
      congr 1; rw [abs_two]; ring
    rw [e]; exact h
  · right
    refine ⟨0, 0, 0, 0, ?_⟩
    have e : |4 * ((c 1 + 2 * c 3 + 4 * c 2) * dyad (1 : Ten2 ℝ) 1 0 0 0 0 - c 1 * dyadSym (1 : Ten2 ℝ) 1 0 0 0 0)| = |8 * c 3 + 16 * c 2| := by
      have e1 : dyad (1 : Ten2 ℝ) 1 0 0 0 0 = 1 := by simp [dyad]
      have e2 : dyadSym (1 : Ten2 ℝ) 1 0 0 0 0 = 1 := by simp [dyadSym]; norm_num
      rw [e1, e2]
      congr 1; ring
    rw [e]; exact h

/-- The hypotheses are met by a Mooney-Rivlin and by a Neo-Hookean material. -/
example : 1 / 10 ^ 8 < 2 * |(![1 / 2, 1 / 5, 0, 0, 0] : Fin 5 → ℝ) 1| ∧ (![1 / 2, 0, 0, 0, 0] : Fin 5 → ℝ) 1 = 0 := by
  norm_num

/-! ### Materials in terms of stretches -/

theorem separated_one : Separated (1 : Ten2 ℝ) := by
  intro w v h a b
  left
  have h1 : Spectral (1 : Ten2 ℝ) (fun _ => 1) v := Spectral.of_eq h.orthogonal (by
    rw [show (diagonal fun _ : Fin 3 => (1 : ℝ)) = 1 from diagonal_one, Matrix.mul_one, h.orthogonal.mul_transpose])
  have e : ∀ a, w a = 1 := fun a => h.eq_of_ne (a := a) (b := a) h1 (by
    have := h.orthogonal
    rw [Orthogonal] at this
    rw [this]; simp)
  rw [e, e]

theorem posDef_spectral {Q : Ten2 ℝ} (hQ : Orthogonal Q) {l : Fin 3 → ℝ} (hl : Positive l) :
    PosDef (Q * diagonal (fun a => l a ^ 2) * Qᵀ) := by
  rw [← cauchyGreen_svd orthogonal_one Q l]
  refine posDef_cauchyGreen ?_
  rw [Matrix.one_mul, det_mul, det_diagonal, det_transpose]
  refine mul_ne_zero (Finset.prod_ne_zero_iff.2 fun a _ => (hl a).ne') ?_
  intro h
  have := congrArg Matrix.det (show Qᵀ * Q = 1 from hQ)
  rw [det_mul, h, mul_zero, det_one] at this
  exact zero_ne_one this

theorem moves_spectral (Q : Ten2 ℝ) {x : ℝ → Fin 3 → ℝ} {x' : Fin 3 → ℝ} {t₀ : ℝ}
    (h : ∀ a, HasDerivAt (fun t => x t a) (x' a) t₀) :
    Moves (fun t => Q * diagonal (x t) * Qᵀ) (Q * diagonal x' * Qᵀ) t₀ := by
  intro i j
  have e : ∀ y : Fin 3 → ℝ, (Q * diagonal y * Qᵀ) i j = Q i 0 * y 0 * Q j 0 + Q i 1 * y 1 * Q j 1 + Q i 2 * y 2 * Q j 2 := by
    intro y
    rw [Matrix.mul_apply, Fin.sum_univ_three]
    simp only [mul_diagonal, transpose_apply]
  simp only [e]
  exact ((((h 0).const_mul _).mul_const _).add (((h 1).const_mul _).mul_const _)).add (((h 2).const_mul _).mul_const _)

/-- `Stretches` at the undeformed state. -/
theorem stretches_one (lapack : Eigh) (hl : EighValid lapack) (mat : StrMat Z μ) (z : Z) (hs : StrMat.Symmetric mat)
    (ht : StrMat.Total mat z) (hz : StrMat.KeepsState mat z)
    (h : IsHessian3 Positive (StrMat.Grad mat z) (StrMat.Hess mat z)) (d p q : ℝ)
    (hd : StrMat.Grad mat z (fun _ => 1) fun _ => d)
    (hk : StrMat.Hess mat z (fun _ => 1) fun a b => if a = b then p else q) :
    Material.Grad (Stretches.material lapack mat) z 1 ((d / 2) • 1) ∧
    ∀ H, Material.Hess (Stretches.material lapack mat) z 1 H → ∀ X : Ten2 ℝ, X.IsSymm →
      contract42 H X = (q / 4 * X.trace) • 1 + ((p - q - d) / 4) • X := by
  have hp1 : Positive (fun _ : Fin 3 => (1 : ℝ)) := fun _ => one_pos
  have grad : ∀ {l g : Fin 3 → ℝ} {Q : Ten2 ℝ}, Positive l → Orthogonal Q → StrMat.Grad mat z l g →
      Material.Grad (Stretches.material lapack mat) z (Q * diagonal (fun a => l a ^ 2) * Qᵀ)
        (Q * diagonal (fun a => g a / (2 * l a)) * Qᵀ) := by
    rintro l g Q hpos hQ ⟨s, z', hr⟩
    have hc : Stores (asvoigt (Q * diagonal (fun a => l a ^ 2) * Qᵀ)) (Q * diagonal (fun a => l a ^ 2) * Qᵀ) :=
      stores_asvoigt (posDef_spectral hQ hpos).1
    obtain ⟨G, h1, h2⟩ := stretches_returns lapack hl mat hs (s := { material := s }) hpos hQ hc hr
    exact ⟨_, _, G, z', hc, h2 ▸ T2_stores G, h1⟩
  constructor
  · have := grad hp1 orthogonal_one hd
    simpa [← smul_one_eq_diagonal, diagonal_one] using this
  intro H hH X hX
  obtain ⟨w, Q, hS⟩ : ∃ w v, Spectral X w v := ⟨_, _, hl X hX⟩
  have hQ := hS.orthogonal
  let l : ℝ → Fin 3 → ℝ := fun t a => √(1 + t * w a)
  have l0 : l 0 = fun _ => 1 := by funext a; simp [l]
  have hpos : ∀ᶠ t in 𝓝 (0 : ℝ), ∀ a, 0 < 1 + t * w a := by
    rw [eventually_all]
    intro a
    have : Continuous fun t : ℝ => 1 + t * w a := by fun_prop
    exact this.continuousAt.eventually (lt_mem_nhds (by simp))
  have hlp : ∀ᶠ t in 𝓝 (0 : ℝ), Positive (l t) := hpos.mono fun t ht a => Real.sqrt_pos.2 (ht a)
  have hlm : ∀ a, HasDerivAt (fun t => l t a) (w a / 2) 0 := by
    intro a
    have h1 : HasDerivAt (fun t : ℝ => 1 + t * w a) (w a) 0 := by
      simpa using ((hasDerivAt_id (0 : ℝ)).mul_const (w a)).const_add 1
    refine (h1.sqrt (by simp)).congr_deriv ?_
    simp
  obtain ⟨g, hg⟩ := (hlp.mono fun t ht' => ht (l t) ht').choice
  have hg0 : g 0 = fun _ => d := by
    have := hg.self_of_nhds
    rw [l0] at this
    exact h.unique hp1 this hd hk
  have hgm := h l _ 0 g _ hlp hlm hg (by rw [l0]; exact hk)
  have hC := moves_spectral Q (x := fun t a => l t a ^ 2) (x' := w) (t₀ := 0) fun a => by
    refine ((hlm a).pow 2).congr_deriv ?_
    rw [l0]; simp; ring
  have hG := moves_spectral Q (x := fun t a => g t a / (2 * l t a))
      (x' := fun a => ((p - q - d) / 4) * w a + q / 4 * (w 0 + w 1 + w 2)) (t₀ := 0) fun a => by
    refine ((hgm a).div ((hlm a).const_mul 2) (by rw [l0]; simp)).congr_deriv ?_
    rw [l0, hg0]
    simp only [Fin.sum_univ_three]
    fin_cases a <;> simp <;> ring
  have key := C20_hessian lapack hl mat z hs ht hz h _ _ 0 (fun t => Q * diagonal (fun a => g t a / (2 * l t a)) * Qᵀ) H
    (hlp.mono fun t ht => posDef_spectral hQ ht) hC (by
      filter_upwards [hlp, hg] with t h1 h2
      exact grad h1 hQ h2) (by
      have e1 : Q * diagonal (fun a => l 0 a ^ 2) * Qᵀ = 1 := by
        rw [l0]
        simp only [one_pow]
        rw [show (diagonal fun _ : Fin 3 => (1 : ℝ)) = 1 from diagonal_one, Matrix.mul_one, hQ.mul_transpose]
      simp only [e1]
      exact ⟨separated_one, hH⟩)
  have hX' : Q * diagonal w * Qᵀ = X := hS.eq.symm
  rw [hX'] at key
  have htr : X.trace = w 0 + w 1 + w 2 := by
    rw [← hX', trace_mul_comm, ← Matrix.mul_assoc, show Qᵀ * Q = 1 from hQ, Matrix.one_mul, trace_diagonal,
      Fin.sum_univ_three]
  have hr : Q * diagonal (fun a => ((p - q - d) / 4) * w a + q / 4 * (w 0 + w 1 + w 2)) * Qᵀ =
      (q / 4 * X.trace) • 1 + ((p - q - d) / 4) • X := by
    have e : (diagonal fun a => ((p - q - d) / 4) * w a + q / 4 * (w 0 + w 1 + w 2) : Ten2 ℝ) =
        (q / 4 * X.trace) • 1 + ((p - q - d) / 4) • diagonal w := by
      ext i j
      rcases eq_or_ne i j with rfl | hij
      · simp [htr]; ring
      · simp [hij]
    rw [e, Matrix.mul_add, Matrix.add_mul, Matrix.mul_smul, Matrix.mul_smul, Matrix.smul_mul, Matrix.smul_mul, Matrix.mul_one,
      hQ.mul_transpose, hX']
  rw [← hr]
  ext i j
  exact (key i j).unique (hG i j)

/-- A minor-symmetric fourth-order tensor is known from its products with symmetric tensors. -/
theorem minor_ext {H K : Ten4 ℝ} (hH : MinorSymm H) (hK : MinorSymm K)
    (h : ∀ X : Ten2 ℝ, X.IsSymm → contract42 H X = contract42 K X) : H = K := by
  funext i j k l
  have e : ∀ T : Ten4 ℝ, MinorSymm T → contract42 T (Matrix.single k l 1 + Matrix.single l k 1) i j = 2 * T i j k l := by
    intro T hT
    rw [contract42_add_right]
    have : ∀ a b, contract42 T (Matrix.single a b 1) i j = T i j a b := by
      intro a b
      simp [contract42, Matrix.single_apply, Finset.sum_ite_eq, ite_and]
    rw [Matrix.add_apply, this, this, ← hT.2 i j k l]; ring
  have h1 := congrFun (congrFun (h (Matrix.single k l 1 + Matrix.single l k 1) (by
    rw [IsSymm, transpose_add, transpose_single, transpose_single, add_comm])) i) j
  rw [e _ hH, e _ hK] at h1
  linarith

/-- the hessian of `Stretches` at the undeformed state -/
theorem stretches_hess_one (lapack : Eigh) (hl : EighValid lapack) (mat : StrMat Z μ) (z : Z) (hs : StrMat.Symmetric mat)
    (ht : StrMat.Total mat z) (hz : StrMat.KeepsState mat z)
    (h : IsHessian3 Positive (StrMat.Grad mat z) (StrMat.Hess mat z)) (d p q : ℝ)
    (hd : StrMat.Grad mat z (fun _ => 1) fun _ => d)
    (hk : StrMat.Hess mat z (fun _ => 1) fun a b => if a = b then p else q) (H : Ten4 ℝ)
    (hH : Material.Hess (Stretches.material lapack mat) z 1 H) : H = fun i j k l =>
      q / 4 * dyad (1 : Ten2 ℝ) 1 i j k l + (p - q - d) / 4 * dyadSym (1 : Ten2 ℝ) 1 i j k l := by
  have h1 : (1 : Ten2 ℝ).IsSymm := transpose_one
  exact minor_ext (Material.hess_minor hH) (add_minor (smul_minor _ (dyad_minor h1 h1)) (smul_minor _ (dyadSym_minor h1 h1)))
    fun X hX => by rw [(stretches_one lapack hl mat z hs ht hz h d p q hd hk).2 H hH X hX, contract42_iso _ _ hX]

/-- the tolerance in terms of the derivatives of the model -/
theorem stretches_tol (d p q : ℝ) (htol : q = 0 ∧ p = d ∨ 1 / 10 ^ 8 < |(p - q - d) / 2| ∨ 1 / 10 ^ 8 < |q|) {H : Ten4 ℝ}
    (hH : H = fun i j k l => q / 4 * dyad (1 : Ten2 ℝ) 1 i j k l + (p - q - d) / 4 * dyadSym (1 : Ten2 ℝ) 1 i j k l) :
    H = 0 ∨ ∃ i j k l, 1 / 10 ^ 8 < |4 * H i j k l| := by
  subst hH
  rcases htol with ⟨h1, h2⟩ | h | h
  · left
    funext i j k l
    rw [h1, h2]
    change (_ : ℝ) = 0
    ring
  · right
    refine ⟨0, 1, 0, 1, ?_⟩
    have e1 : dyad (1 : Ten2 ℝ) 1 0 1 0 1 = 0 := by simp [dyad]
    have e2 : dyadSym (1 : Ten2 ℝ) 1 0 1 0 1 = 1 / 2 := by simp [dyadSym]; norm_num
    simp only [e1, e2]
    rw [show 4 * (q / 4 * 0 + (p - q - d) / 4 * (1 / 2)) = (p - q - d) / 2 by ring]
    exact h
  · right
    refine ⟨0, 0, 1, 1, ?_⟩
    have e1 : dyad (1 : Ten2 ℝ) 1 0 0 1 1 = 1 := by simp [dyad]
    have e2 : dyadSym (1 : Ten2 ℝ) 1 0 0 1 1 = 0 := by simp [dyadSym]
    simp only [e1, e2]
    rw [show 4 * (q / 4 * 1 + (p - q - d) / 4 * 0) = q by ring]
    exact h

/-- `Stretches` on the distortional space: for every symmetric model the elasticity tensor at the undeformed
state is that of an isotropic incompressible solid with the shear modulus `(ψ,11 - ψ,12 + ψ,1)/2`. -/
theorem C54_stretches (lapack : Eigh) (hl : EighValid lapack) (mat : StrMat Z μ) (z : Z) (hs : StrMat.Symmetric mat)
    (ht : StrMat.Total mat z) (hz : StrMat.KeepsState mat z)
    (h : IsHessian3 Positive (StrMat.Grad mat z) (StrMat.Hess mat z)) (d p q : ℝ)
    (hd : StrMat.Grad mat z (fun _ => 1) fun _ => d)
    (hk : StrMat.Hess mat z (fun _ => 1) fun a b => if a = b then p else q)
    (htol : ∀ H, Material.Hess (Stretches.material lapack mat) z 1 H → H = 0 ∨ ∃ i j k l, 1 / 10 ^ 8 < |4 * H i j k l|)
    {A : Ten4 ℝ} (hA : SpaceObj.Hess (Distortional.obj {} (Stretches.material lapack mat)) z 1 A) (U : Ten2 ℝ) :
    contract42 A U = (2 * ((p - q + d) / 2)) • linearShear U := by
  obtain ⟨h1, h2⟩ := stretches_one lapack hl mat z hs ht hz h d p q hd hk
  rw [initial_distortional (Stretches.material lapack mat) z (d / 2) ((p - q - d) / 4) ?_ ?_ htol hA U]
  · congr 1; ring
  · intro G hG
    obtain ⟨-, H, -, hH, -⟩ := Distortional.hess_elim (by simp) hA
    rw [cauchyGreen_one, unimodular_one] at hH
    exact (C20_hessian lapack hl mat z hs ht hz h).unique posDef_one hG h1 ⟨separated_one, hH⟩
  · exact fun H hH => ⟨q / 4, h2 H hH⟩

theorem sum_map_eq {L : List (ℝ × ℝ)} {f g : ℝ × ℝ → ℝ} (h : ∀ p ∈ L, f p = g p) : (L.map f).sum = (L.map g).sum := by
  rw [List.map_congr_left h]

/-- The derivatives of Ogden's model at the undeformed state. -/
theorem ogden_initial (mu alpha : List ℝ) (ha : ∀ a ∈ alpha, a ≠ 0) (hn : mu.length = alpha.length) (z : Z) :
    ∃ d p : ℝ, StrMat.Grad (Ogden.mat ⟨mu, alpha⟩) z (fun _ => 1) (fun _ => d) ∧
      StrMat.Hess (Ogden.mat ⟨mu, alpha⟩) z (fun _ => 1) (fun a b => if a = b then p else 0) ∧
      p - 0 + d = 2 * mu.sum ∧ (p - 0 - d) / 2 = ((mu.zip alpha).map fun p => p.1 * (1 - 2 / p.2)).sum := by
  have hz : ∀ p ∈ mu.zip alpha, p.2 ≠ 0 := fun p hp => ha _ (List.of_mem_zip hp).2
  let d : ℝ := ((mu.zip alpha).map fun p => 2 * p.1 / p.2).sum
  let p : ℝ := ((mu.zip alpha).map fun p => 2 * p.1 / p.2 * (p.2 - 1)).sum
  have hd : StrMat.Grad (Ogden.mat ⟨mu, alpha⟩) z (fun _ => 1) fun _ => d := by
    refine ⟨(), z, ?_⟩
    have := ogden_returns mu alpha ha (fun _ => 1) z
    simpa [ogdenSlope] using this
  have hk : StrMat.Hess (Ogden.mat ⟨mu, alpha⟩) z (fun _ => 1) fun a b => if a = b then p else 0 := by
    refine ⟨(), _, by simp only [Returns, Ogden.mat, PyM.lift_run, Ogden.hessian_eq]; rw [if_pos hz], ?_⟩
    simp only [sumOver, Real.one_rpow, mul_one]
    funext a b
    fin_cases a <;> fin_cases b <;> simp [StrHess.mat, StrHess.vec, p]
  have e1 : p - 0 + d = 2 * mu.sum := by
    have : ∀ (m a : List ℝ), (∀ x ∈ m.zip a, x.2 ≠ 0) → m.length = a.length →
        ((m.zip a).map fun p => 2 * p.1 / p.2 * (p.2 - 1)).sum - 0 + ((m.zip a).map fun p => 2 * p.1 / p.2).sum = 2 * m.sum := by
      intro m
      induction m with
      | nil => simp
      | cons x m ih =>
        rintro (_ | ⟨y, a⟩) h1 h2
        · simp at h2
        · have h3 := ih a (fun x hx => h1 x (by simp [hx])) (by simpa using h2)
          have h4 : y ≠ 0 := h1 (x, y) (by simp)
          simp only [List.zip_cons_cons, List.map_cons, List.sum_cons]
          rw [mul_add, ← h3]
          field_simp
          ring
    exact this mu alpha hz hn
  have e2 : (p - 0 - d) / 2 = ((mu.zip alpha).map fun p => p.1 * (1 - 2 / p.2)).sum := by
    have : ∀ L : List (ℝ × ℝ), (∀ x ∈ L, x.2 ≠ 0) → ((L.map fun p => 2 * p.1 / p.2 * (p.2 - 1)).sum - 0 -
        (L.map fun p => 2 * p.1 / p.2).sum) / 2 = (L.map fun p => p.1 * (1 - 2 / p.2)).sum := by
      intro L
      induction L with
      | nil => simp
      | cons x L ih =>
        intro h1
        have h3 := ih fun x hx => h1 x (by simp [hx])
        have h4 : x.2 ≠ 0 := h1 x (by simp)
        simp only [List.map_cons, List.sum_cons]
        rw [← h3]
        field_simp
        ring
    exact this _ hz
  exact ⟨d, p, hd, hk, e1, e2⟩

/-- The initial shear modulus of Ogden's model is the sum of the moduli `mu`. -/
theorem C54_ogden (lapack : Eigh) (hl : EighValid lapack) (mu alpha : List ℝ) (ha : ∀ a ∈ alpha, a ≠ 0)
    (hn : mu.length = alpha.length) (z : Z)
    (htol : ((mu.zip alpha).map fun p => p.1 * (1 - 2 / p.2)).sum = 0 ∨
      1 / 10 ^ 8 < |((mu.zip alpha).map fun p => p.1 * (1 - 2 / p.2)).sum|)
    {A : Ten4 ℝ} (hA : SpaceObj.Hess (Distortional.obj {} (Stretches.material lapack (Ogden.mat ⟨mu, alpha⟩))) z 1 A)
    (U : Ten2 ℝ) : contract42 A U = (2 * mu.sum) • linearShear U := by
  have hz : ∀ p ∈ mu.zip alpha, p.2 ≠ 0 := fun p hp => ha _ (List.of_mem_zip hp).2
  have hT : StrMat.Total (Ogden.mat ⟨mu, alpha⟩) z := fun x _ => (C11_returns mu alpha z x).1.2 hz
  obtain ⟨d, p, hd, hk, e1, e2⟩ := ogden_initial mu alpha ha hn z
  have hH := C11_hessian (Z := Z) mu alpha z
  have hs := Ogden.symmetric (Z := Z) ⟨mu, alpha⟩
  rw [C54_stretches lapack hl _ z hs hT (C11_statevars mu alpha z) hH d p 0 hd hk ?_ hA U, e1]
  · congr 1; ring
  · intro H h
    refine stretches_tol d p 0 ?_ (stretches_hess_one lapack hl _ z hs hT (C11_statevars mu alpha z) hH d p 0 hd hk H h)
    rw [e2]
    rcases htol with h | h
    · left
      refine ⟨rfl, ?_⟩
      rw [← e2] at h
      linarith
    · exact .inr (.inl h)

/-- The hypotheses are met by a two-term model, whose hessian is returned. -/
example : ∃ lapack, EighValid lapack ∧ (∃ A, SpaceObj.Hess (Distortional.obj {} (Stretches.material lapack
    (Ogden.mat ⟨[1, 2], [4, -2]⟩))) () 1 A) ∧ 1 / 10 ^ 8 < |(([1, 2].zip [4, (-2 : ℝ)]).map fun p : ℝ × ℝ => p.1 * (1 - 2 / p.2)).sum| := by
  obtain ⟨lapack, hl⟩ := exists_eigh
  refine ⟨lapack, hl, ?_, by norm_num⟩
  have hz : ∀ p ∈ [(1 : ℝ), 2].zip [4, (-2 : ℝ)], p.2 ≠ 0 := by simp
  obtain ⟨h, hh⟩ : ∃ h, (Ogden.mat ⟨[1, 2], [4, -2]⟩ : StrMat Unit Unit).hessian
      (eighSqrt lapack (Distortional.cu (1 : Ten2 ℝ))).1 () () = (.ok h, ()) := by
    simp only [Ogden.mat, PyM.lift_run, Ogden.hessian_eq]
    rw [if_pos hz]
    exact ⟨_, rfl⟩
  have hg := ogden_returns [1, 2] [4, (-2 : ℝ)] (by simp) (eighSqrt lapack (Distortional.cu (1 : Ten2 ℝ))).1 ()
  have h1 := (Stretches.returns_gradient lapack (Ogden.mat ⟨[1, 2], [4, (-2 : ℝ)]⟩) (Distortional.cu (1 : Ten2 ℝ)) ()
    { material := () } _ ()).2 ⟨_, hg, rfl⟩
  have h2 := fun m => (Stretches.returns_hessian lapack (Ogden.mat ⟨[1, 2], [4, (-2 : ℝ)]⟩) (Distortional.cu (1 : Ten2 ℝ)) () m _).2
    ⟨_, (), (), h, Prod.ext hg rfl, by rw [Returns]; exact congrArg Prod.fst hh, rfl⟩
  exact ⟨_, { material := { material := () } }, (Distortional.returns_hessian ..).2 ⟨_, _, _, _, Prod.ext h1 rfl, h2 _,
    (piolaElasticity_default ..).symm⟩⟩

/-! ### Generalized invariants -/

/-- The derivatives of the generalized-invariants model at the undeformed state. -/
theorem generalized_initial {k : ℝ} (hk : k ≠ 0) (c : Fin 5 → ℝ) (z : Z) {g : GenInv} (hg : GenInv.init (deformationFun k) = .ok g) :
    ∃ d p o : ℝ, StrMat.Grad (g.mat (todOf c false).mat) z (fun _ => 1) (fun _ => d) ∧
      StrMat.Hess (g.mat (todOf c false).mat) z (fun _ => 1) (fun a b => if a = b then p else o) ∧
      IsHessian3 Positive (StrMat.Grad (g.mat (todOf c false).mat) z) (StrMat.Hess (g.mat (todOf c false).mat) z) ∧
      StrMat.Symmetric (g.mat (todOf c false).mat (Z := Z)) ∧ StrMat.Total (g.mat (todOf c false).mat) z ∧
      StrMat.KeepsState (g.mat (todOf c false).mat) z ∧ o = 4 * c 1 + (32 * c 3 + 64 * c 2) / k ^ 2 ∧
      (p - o - d) / 2 = 2 * (c 0 + 2 * c 1) * (k - 2) / k - 2 * c 1 ∧ (p - o + d) / 2 = 2 * (c 0 + c 1) := by
  obtain ⟨-, hc1', hc2'⟩ := C13_init_deformation hk
  have hS := measures_deformation k
  obtain ⟨hgs, hg1, hg2, hI1, hI2, -, -⟩ := GenInv.init_ok hg hS
  have hc1 := hc1'
  have hc2 := hc2'
  rw [← hg1] at hc1
  rw [← hg2] at hc2
  have hev : ∀ a, g.ev (fun _ => 1) a = 1 := fun a => by
    simp [GenInv.ev, hgs, deformationFun, deformationEval]
  have hdev : ∀ a, g.dev (fun _ => 1) a = k := fun a => by
    simp [GenInv.dev, hgs, deformationFun, deformationEval]
  have hd2ev : ∀ a, g.d2ev (fun _ => 1) a = k * (k - 1) := fun a => by
    simp [GenInv.d2ev, hgs, deformationFun, deformationEval]
  have hJ : g.J (fun _ => 1) = ![3, 3, 1] := by
    rw [GenInv.J_doc hg hS fun _ => one_pos]
    simp [genInvariants]
    norm_num
  have hd2 : ∀ a, g.dJ2 (g.ev fun _ => 1) a = 2 * g.c2 := fun a => by
    simp only [GenInv.dJ2, take, hev]; ring
  have hW : InvMat.Grad ((todOf c false).mat (Z := Z)) z ![3, 3, 1] ![c 0, c 1, 0] := by
    refine (TOD.grad_iff ..).2 ?_
    funext i
    fin_cases i <;> simp [todOf, TOD.init]
  have hdJ : ∀ j a, g.dJ (fun _ => 1) j a = (![g.c1, 2 * g.c2, 1] : Fin 3 → ℝ) j * k := by
    intro j a
    rw [GenInv.dJ, hdev, hd2]
    have : GenInv.dJ3 (g.ev fun _ => 1) a = 1 := by simp only [GenInv.dJ3, take, hev]; ring
    rw [this]
  let d : ℝ := c 0 * (g.c1 * k) + c 1 * (2 * g.c2 * k)
  have hd : StrMat.Grad (g.mat (todOf c false).mat) z (fun _ => 1) fun _ => d := by
    refine (GenInv.grad_iff ..).2 ⟨_, by rw [hJ]; exact hW, ?_⟩
    funext a
    simp only [hdJ, Fin.sum_univ_three]
    simp [d]
  have hA' : ∃ h, StrMat.Hess (g.mat (todOf c false).mat) z (fun _ => 1) h := by
    have h1 := congrArg (fun r => (PyM.lift r () : _ × Unit).1)
      (TOD.gradient_eq (todOf c false) (g.J (fun _ => 1) 0) (g.J (fun _ => 1) 1) (g.J (fun _ => 1) 2) z)
    have h2 := congrArg (fun r => (PyM.lift r () : _ × Unit).1)
      (TOD.hessian_eq (todOf c false) (g.J (fun _ => 1) 0) (g.J (fun _ => 1) 1) (g.J (fun _ => 1) 2) z)
    exact ⟨_, { material := () }, _, (GenInv.returns_hessian g (todOf c false).mat (fun _ => 1) z _ _).2
      ⟨(todOf c false).gradVal (g.J (fun _ => 1) 0) (g.J (fun _ => 1) 1) z, (),
        (todOf c false).hessVal (g.J (fun _ => 1) 0), Prod.ext h1 rfl, h2, rfl⟩, rfl⟩
  obtain ⟨h, hh⟩ := hA'
  obtain ⟨r, q, s1, s2, h1, h2, h3⟩ := GenInv.hess_elim hh
  have hr : InvGrad.vec r = ![c 0, c 1, 0] := by
    have h1' : InvMat.Grad ((todOf c false).mat (Z := Z)) z (g.J fun _ => 1) (InvGrad.vec r) := ⟨s1, r, h1, rfl⟩
    rw [hJ, TOD.grad_iff] at h1'
    rw [h1', ← (TOD.grad_iff ..).1 hW]
  have hq : InvHess.mat q = ![![c 3 * 2, c 2, 0], ![c 2, 0, 0], ![0, 0, 0]] := by
    have h2' : InvMat.Hess ((todOf c false).mat (Z := Z)) z (g.J fun _ => 1) (InvHess.mat q) := ⟨s2, q, h2, rfl⟩
    rw [hJ, TOD.hess_iff] at h2'
    rw [h2']
    simp [todOf, TOD.init]
  have hr3 : r.d3.getD 0 = 0 := congrFun hr 2
  let b : ℝ := c 3 * 2 * (g.c1 * k) ^ 2 + 2 * c 2 * (g.c1 * k) * (2 * g.c2 * k)
  let p : ℝ := b + c 0 * (g.c1 * (k * (k - 1))) + c 1 * (2 * g.c2 * (k * (k - 1)))
  let o : ℝ := b + c 1 * (g.c2 * k ^ 2)
  have hform : h = fun a b => if a = b then p else o := by
    rw [h3]
    funext i j
    rw [GenInv.hessPure_eq, hq, hr, hr3]
    have e0 : ∀ i j, g.d2J (fun _ => 1) 0 i j = if i = j then g.c1 * (k * (k - 1)) else 0 := by
      intro i j; simp [GenInv.d2J, hd2ev]
    have e1 : ∀ i j, g.d2J (fun _ => 1) 1 i j = if i = j then 2 * g.c2 * (k * (k - 1)) else g.c2 * k ^ 2 := by
      intro i j; simp [GenInv.d2J, hd2ev, hd2, hdev]; ring_nf
    simp only [Fin.sum_univ_three, hdJ, e0, e1]
    simp only [cons_val_zero, cons_val_one, cons_val]
    split_ifs <;> simp only [p, o, b] <;> ring
  rw [hform] at hh
  have h20 : IsHessian3 Positive (StrMat.Grad (g.mat (todOf c false).mat) z) (StrMat.Hess (g.mat (todOf c false).mat) z) := by
    have h1 := C14_hessian_partial _ _ hS g hg _ z _ (C10_hessian (c 0) (c 1) (c 2) (c 3) (c 4) false z)
      fun I1 I2 I3 => (tod_third (c 0) (c 1) (c 2) (c 3) (c 4) false I1 I2 I3 z).1
    intro x x' t₀ d H hx hm hd hH
    exact h1 x x' t₀ d H (hx.mono fun t ht => ⟨ht, trivial⟩) hm hd hH
  have hsym := GenInv.symmetric g (todOf c false).mat (Z := Z)
  have htot : StrMat.Total (g.mat (todOf c false).mat) z :=
    fun x _ => ⟨_, (GenInv.grad_iff ..).2 ⟨_, (TOD.grad_iff ..).2 rfl, rfl⟩⟩
  have hkeep : StrMat.KeepsState (g.mat (todOf c false).mat) z := fun x s d z' h => by
    obtain ⟨r, h1, -, rfl⟩ := (GenInv.returns_gradient ..).1 h
    exact C10_statevars (c 0) (c 1) (c 2) (c 3) (c 4) false z _ _ _ _ _ h1
  have eo : o = 4 * c 1 + (32 * c 3 + 64 * c 2) / k ^ 2 := by
    simp only [o, b, hc1, hc2]; field_simp; ring
  have ep : (p - o - d) / 2 = 2 * (c 0 + 2 * c 1) * (k - 2) / k - 2 * c 1 := by
    simp only [p, o, d, hc1, hc2]; field_simp; ring
  refine ⟨d, p, o, hd, hh, h20, hsym, htot, hkeep, eo, ep, ?_⟩
  simp only [p, o, d, hc1, hc2]
  field_simp
  ring

/-- The generalized-invariants framework on the distortional space: the initial shear modulus is `2 (C10 + C01)` for every
exponent of the deformation measure.  `htol`: the second derivatives at the undeformed state are either zero or above the
absolute tolerance of `1e-8` below which the code takes a hessian for zero. -/
theorem C54_generalized (lapack : Eigh) (hl : EighValid lapack) {k : ℝ} (hk : k ≠ 0) (c : Fin 5 → ℝ) (z : Z)
    (htol : 2 * (c 0 + 2 * c 1) * (k - 2) / k - 2 * c 1 = 0 ∧ 4 * c 1 + (32 * c 3 + 64 * c 2) / k ^ 2 = 0 ∨
      1 / 10 ^ 8 < |2 * (c 0 + 2 * c 1) * (k - 2) / k - 2 * c 1| ∨
      1 / 10 ^ 8 < |4 * c 1 + (32 * c 3 + 64 * c 2) / k ^ 2|) :
    ∃ g, GenInv.init (deformationFun k) = .ok g ∧
      ∀ A, SpaceObj.Hess (Distortional.obj {} (generalizedFramework lapack g (todOf c false).mat)) z 1 A →
      ∀ U, contract42 A U = (2 * (2 * (c 0 + c 1))) • linearShear U := by
  obtain ⟨⟨g, hg⟩, -, -⟩ := C13_init_deformation hk
  refine ⟨g, hg, fun A hA U => ?_⟩
  obtain ⟨d, p, o, hd, hh, h20, hsym, htot, hkeep, eo, ep, em⟩ := generalized_initial hk c z hg
  rw [C54_stretches lapack hl _ z hsym htot hkeep h20 d p o hd hh (fun H hH => stretches_tol d p o (by
    rw [ep, eo]
    rcases htol with ⟨h1, h2⟩ | h
    · left
      rw [← ep, eo] at h1
      exact ⟨h2, by linarith⟩
    · exact .inr h) (stretches_hess_one lapack hl _ z hsym htot hkeep h20 d p o hd hh H hH)) hA U]
  rw [em]

/-- The elasticity tensor of `C54_generalized` is returned, so the statement is not vacuous. -/
theorem C54_generalized_returns (lapack : Eigh) (g : GenInv) (c : Fin 5 → ℝ) (z : Z) :
    ∃ A, SpaceObj.Hess (Distortional.obj {} (generalizedFramework lapack g (todOf c false).mat)) z 1 A := by
  obtain ⟨x, hx⟩ : ∃ x, x = (eighSqrt lapack (Distortional.cu (1 : Ten2 ℝ))).1 := ⟨_, rfl⟩
  have h1 : ∀ s, (todOf c false).mat.gradient (g.J x 0) (g.J x 1) (g.J x 2) z s =
      (.ok ((todOf c false).gradVal (g.J x 0) (g.J x 1) z), s) := fun s => by
    simp only [TOD.mat, PyM.lift_run, TOD.gradient_eq]
  have h2 : ∀ s, Returns ((todOf c false).mat.hessian (g.J x 0) (g.J x 1) (g.J x 2) z) s
      ((todOf c false).hessVal (g.J x 0)) := fun s => by
    simp only [Returns, TOD.mat, PyM.lift_run, TOD.hessian_eq]
  have h3 := (GenInv.returns_gradient g (todOf c false).mat x z { material := () } _ _).2
    ⟨_, congrArg Prod.fst (h1 ()), rfl, rfl⟩
  have h4 : ∀ s, Returns ((g.mat (todOf c false).mat).hessian x z) s _ := fun s =>
    (GenInv.returns_hessian g (todOf c false).mat x z s _).2 ⟨_, s.material, _, h1 _, h2 _, rfl⟩
  subst hx
  have h5 := (Stretches.returns_gradient lapack (g.mat (todOf c false).mat) (Distortional.cu (1 : Ten2 ℝ)) z
    { material := { material := () } } _ _).2 ⟨_, h3, rfl⟩
  have h6 := fun m => (Stretches.returns_hessian lapack (g.mat (todOf c false).mat) (Distortional.cu (1 : Ten2 ℝ)) z m _).2
    ⟨_, _, _, _, Prod.ext ((GenInv.returns_gradient g (todOf c false).mat _ z m.material _ _).2
      ⟨_, congrArg Prod.fst (h1 _), rfl, rfl⟩) rfl, h4 _, rfl⟩
  exact ⟨_, { material := { material := { material := () } } }, (Distortional.returns_hessian ..).2
    ⟨_, _, _, _, Prod.ext h5 rfl, h6 _, (piolaElasticity_default ..).symm⟩⟩

/-- The hypothesis is met by a Mooney-Rivlin solid with the default exponent and by a Neo-Hookean solid with another one. -/
example : 1 / 10 ^ 8 < |2 * ((![1 / 2, 1 / 5, 0, 0, 0] : Fin 5 → ℝ) 0 + 2 * (![1 / 2, 1 / 5, 0, 0, 0] : Fin 5 → ℝ) 1) * ((2 : ℝ) - 2) / 2 -
      2 * (![1 / 2, 1 / 5, 0, 0, 0] : Fin 5 → ℝ) 1| ∧
    1 / 10 ^ 8 < |2 * ((![1, 0, 0, 0, 0] : Fin 5 → ℝ) 0 + 2 * (![1, 0, 0, 0, 0] : Fin 5 → ℝ) 1) * ((1 : ℝ) - 2) / 1 -
      2 * (![1, 0, 0, 0, 0] : Fin 5 → ℝ) 1| := by
  norm_num [abs_of_neg, abs_of_pos]

end Props
