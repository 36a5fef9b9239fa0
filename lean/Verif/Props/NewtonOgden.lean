import Verif.Props.Newton
import Verif.Props.RoundingTangent
import Verif.Proofs.NewtonOgdenRegular

/-! # Property C94: Newton's method with the returned tangent of Ogden materials -/

namespace Props
open Spec Hel Matrix Filter Topology

variable {Z : Type}

/-- An Ogden material on the deformation space returns an elasticity tensor. -/
theorem ogden_hess_total (lapack : Eigh) {mu alpha : List ℝ} {z : Z} (hα : ∀ p ∈ mu.zip alpha, p.2 ≠ 0) (F : Ten2 ℝ) :
    ∃ A, SpaceObj.Hess (Deformation.obj {} (Stretches.material lapack (Ogden.mat ⟨mu, alpha⟩))) z F A := by
  set c : Vec6 ℝ := rightCauchyGreen F with hc
  obtain ⟨g, s, z', hg⟩ := (C11_returns mu alpha z (eighSqrt lapack c).1).1.2 hα
  obtain rfl := C11_statevars mu alpha z _ _ _ _ hg
  obtain ⟨-, s', k, hk, -⟩ := (C11_returns mu alpha z' (eighSqrt lapack c).1).2.2 hα
  have hr : (Ogden.mat ⟨mu, alpha⟩).gradient (eighSqrt lapack c).1 z' () = (.ok (g, z'), ()) := Prod.ext hg rfl
  have h1 : Stretches.gradient lapack (Ogden.mat ⟨mu, alpha⟩) c z' { material := () } =
      (.ok (Stretches.gradPure (eighSqrt lapack c).1 (eighSqrt lapack c).2 g, z'), Stretches.post (eighSqrt lapack c) g ()) := by
    rw [Stretches.gradient_run, hr]
  exact ⟨_, { material := { material := () } }, (Deformation.returns_hessian ..).2 ⟨_, z', _, _, h1,
    (Stretches.returns_hessian ..).2 ⟨g, z', (), k, hr, hk, rfl⟩, (piolaElasticity_default ..).symm⟩⟩

/-- a bound for the tangent, in terms of the norm -/
theorem boundedBelow_norm {A : Ten4 ℝ} {K : ℝ} : BoundedBelow K A ↔ ∀ U : Ten2 ℝ, ‖entries U‖ ≤ K * ‖tangentMap A (entries U)‖ := by
  constructor
  · intro h U
    have h1 := h U ‖tangentMap A (entries U)‖ fun i j => by
      have : ‖tangentMap A (entries U)‖ = ‖entries (contract42 A U)‖ := rfl
      rw [this]
      exact (norm_entries_le (norm_nonneg _)).1 le_rfl i j
    exact (norm_entries_le ((abs_nonneg _).trans (h1 0 0))).2 h1
  · intro h U c hc
    by_cases hK : 0 ≤ K
    · have c0 : 0 ≤ c := (abs_nonneg _).trans (hc 0 0)
      have h1 : ‖tangentMap A (entries U)‖ ≤ c := (norm_entries_le (U := contract42 A U) c0).2 hc
      exact (norm_entries_le (by positivity)).1 ((h U).trans (mul_le_mul_of_nonneg_left h1 hK))
    · have h1 := h (1 : Ten2 ℝ)
      have h2 : 0 < ‖entries (1 : Ten2 ℝ)‖ := by
        refine norm_pos_iff.2 fun h0 => ?_
        have := congrFun (congrFun h0 0) 0
        exact one_ne_zero this
      exact absurd (h1.trans (mul_nonpos_of_nonpos_of_nonneg (not_le.1 hK).le (norm_nonneg _))) (not_le.2 h2)

/-- a regular tangent is bounded below, and conversely -/
theorem regular_iff {A : Ten4 ℝ} : Regular A ↔ ∃ K > 0, BoundedBelow K A := by
  constructor
  · intro h
    obtain ⟨K, hK, h1⟩ := regular_bound h
    exact ⟨K, hK, boundedBelow_norm.2 h1⟩
  · rintro ⟨K, -, h⟩ U hU
    have := h U 0 fun i j => by rw [hU, abs_zero]
    ext i j
    have := this i j
    rw [mul_zero] at this
    exact abs_nonpos_iff.1 this

section
variable (lapack : Eigh) (hl : EighValid lapack) (mu alpha : List ℝ) (z : Z)
include hl

/-- **C94.**  Ogden materials on the deformation space, with any eigenvalues of `C`: those which numpy's tolerance takes for
equal differ by at most `τ` (`τ = 1e-8` is always possible, `τ = 0` if only equal ones are taken for equal).  If the tangent at
`F` is bounded below and the tolerance small compared to it, then from every deformation gradient close to `F` the Newton
step towards the stress of `F` exists, is the only one, and the distance to `F` is multiplied by a factor that is at most
proportional to the distance, up to a multiple of `τ`. -/
theorem C94_tolerance (hα : ∀ p ∈ mu.zip alpha, p.2 ≠ 0) {F P : Ten2 ℝ} {A : Ten4 ℝ} {K f m M τ : ℝ} (hF : F.det ≠ 0)
    (hP : SpaceObj.Grad (Deformation.obj {} (Stretches.material lapack (Ogden.mat ⟨mu, alpha⟩))) z F P)
    (hA : SpaceObj.Hess (Deformation.obj {} (Stretches.material lapack (Ogden.mat ⟨mu, alpha⟩))) z F A)
    (hK : 0 < K) (hKA : BoundedBelow K A) (hf : ∀ i j, |F i j| ≤ f) (hm : 0 < m)
    (hE : ∀ w v, Spectral (cauchyGreen F) w v → ∀ a, m < w a ∧ w a < M) (hτ0 : 0 ≤ τ)
    (hτ : ∀ w v, Spectral (cauchyGreen F) w v → ∀ a b, |w a - w b| ≤ 1 / 10 ^ 8 → |w a - w b| ≤ τ)
    (hsmall : 4104 * K * f ^ 2 * ogdenLipschitz mu alpha m M * τ ≤ 1 / 4) :
    ∃ δ > 0, ∃ c > 0, c * δ ≤ 1 / 4 ∧ ∀ X d, d ≤ δ → Near F X d →
      (∃! Y, NewtonStep (SpaceObj.Grad (Deformation.obj {} (Stretches.material lapack (Ogden.mat ⟨mu, alpha⟩))) z)
        (SpaceObj.Hess (Deformation.obj {} (Stretches.material lapack (Ogden.mat ⟨mu, alpha⟩))) z) P X Y) ∧
      ∀ Y, NewtonStep (SpaceObj.Grad (Deformation.obj {} (Stretches.material lapack (Ogden.mat ⟨mu, alpha⟩))) z)
        (SpaceObj.Hess (Deformation.obj {} (Stretches.material lapack (Ogden.mat ⟨mu, alpha⟩))) z) P X Y →
        Near F Y ((c * d + 4104 * K * f ^ 2 * ogdenLipschitz mu alpha m M * τ) * d) := by
  obtain ⟨δ₀, hδ₀, L, hL, hN⟩ := ogden_nearly lapack hl hα hF hf hm hE hτ0 hτ hA
  have e : 38 * K * (108 * f ^ 2 * ogdenLipschitz mu alpha m M * τ) = 4104 * K * f ^ 2 * ogdenLipschitz mu alpha m M * τ := by ring
  have hu : ∀ X P P' : Ten2 ℝ, X.det ≠ 0 → SpaceObj.Grad (Deformation.obj {} (Stretches.material lapack (Ogden.mat ⟨mu, alpha⟩))) z X P →
      SpaceObj.Grad (Deformation.obj {} (Stretches.material lapack (Ogden.mat ⟨mu, alpha⟩))) z X P' → P = P' := by
    intro X P P' hX hP hP'
    obtain ⟨G, hG, rfl⟩ := (Deformation.grad_iff _ _ _ _).1 hP
    obtain ⟨G', hG', rfl⟩ := (Deformation.grad_iff _ _ _ _).1 hP'
    rw [ogden_grad_form lapack hl (posDef_cauchyGreen hX) hG, ogden_grad_form lapack hl (posDef_cauchyGreen hX) hG']
  obtain ⟨δ, hδ, c, hc, hcδ, h⟩ := newton_approx hu (fun Y hY => ogden_def_total lapack hl mu alpha z hα Y hY)
    (fun Y _ => ogden_hess_total lapack hα Y) (inside_det hF) hP hK (boundedBelow_norm.1 hKA) hδ₀ hL hN (by rw [e]; exact hsmall)
  rw [e] at h
  refine ⟨δ, hδ, c, hc, hcδ, fun X d hd hX => ?_⟩
  obtain ⟨⟨Y, hY⟩, hr, hdet, hN⟩ := h X d hd hX
  refine ⟨⟨Y, hY, fun Y' hY' => newtonStep_unique (fun P P' => hu X P P' hdet) ?_ hr hY' hY⟩, hN⟩
  intro A A' hA hA'
  obtain ⟨G, H, hG, hH, rfl⟩ := Deformation.hess_elim hA
  obtain ⟨G', H', hG', hH', rfl⟩ := Deformation.hess_elim hA'
  rw [ogden_grad_form lapack hl (posDef_cauchyGreen hdet) hG, ogden_grad_form lapack hl (posDef_cauchyGreen hdet) hG',
    ogden_hess_unique lapack hl (posDef_cauchyGreen hdet) hH hH']

/-- Newton's iteration in spite of the tolerance: it converges to the deformation gradient with the stress sought for, at
least halving the error in every step. -/
theorem C94_tolerance_iteration (hα : ∀ p ∈ mu.zip alpha, p.2 ≠ 0) {F P : Ten2 ℝ} {A : Ten4 ℝ} {K f m M τ : ℝ} (hF : F.det ≠ 0)
    (hP : SpaceObj.Grad (Deformation.obj {} (Stretches.material lapack (Ogden.mat ⟨mu, alpha⟩))) z F P)
    (hA : SpaceObj.Hess (Deformation.obj {} (Stretches.material lapack (Ogden.mat ⟨mu, alpha⟩))) z F A)
    (hK : 0 < K) (hKA : BoundedBelow K A) (hf : ∀ i j, |F i j| ≤ f) (hm : 0 < m)
    (hE : ∀ w v, Spectral (cauchyGreen F) w v → ∀ a, m < w a ∧ w a < M) (hτ0 : 0 ≤ τ)
    (hτ : ∀ w v, Spectral (cauchyGreen F) w v → ∀ a b, |w a - w b| ≤ 1 / 10 ^ 8 → |w a - w b| ≤ τ)
    (hsmall : 4104 * K * f ^ 2 * ogdenLipschitz mu alpha m M * τ ≤ 1 / 4) :
    ∃ δ > 0,
      (∀ X₀, Near F X₀ δ → ∃ X : ℕ → Ten2 ℝ, X 0 = X₀ ∧
        ∀ n, NewtonStep (SpaceObj.Grad (Deformation.obj {} (Stretches.material lapack (Ogden.mat ⟨mu, alpha⟩))) z)
        (SpaceObj.Hess (Deformation.obj {} (Stretches.material lapack (Ogden.mat ⟨mu, alpha⟩))) z) P (X n) (X (n + 1))) ∧
      ∀ X : ℕ → Ten2 ℝ, Near F (X 0) δ →
        (∀ n, NewtonStep (SpaceObj.Grad (Deformation.obj {} (Stretches.material lapack (Ogden.mat ⟨mu, alpha⟩))) z)
        (SpaceObj.Hess (Deformation.obj {} (Stretches.material lapack (Ogden.mat ⟨mu, alpha⟩))) z) P (X n) (X (n + 1))) →
        (∀ n, Near F (X n) (δ * (1 / 2) ^ n)) ∧ ∀ i j, Tendsto (fun n => X n i j) atTop (𝓝 (F i j)) := by
  obtain ⟨δ, hδ, c, hc, hcδ, h⟩ := C94_tolerance lapack hl mu alpha z hα hF hP hA hK hKA hf hm hE hτ0 hτ hsmall
  generalize 4104 * K * f ^ 2 * ogdenLipschitz mu alpha m M * τ = ρ at *
  have half : ∀ X d, d ≤ δ → Near F X d → ∀ Y, NewtonStep (SpaceObj.Grad (Deformation.obj {} (Stretches.material lapack (Ogden.mat ⟨mu, alpha⟩))) z)
        (SpaceObj.Hess (Deformation.obj {} (Stretches.material lapack (Ogden.mat ⟨mu, alpha⟩))) z) P X Y → Near F Y (d * (1 / 2)) := by
    intro X d hd hX Y hY i j
    have d0 : 0 ≤ d := (abs_nonneg _).trans (hX 0 0)
    refine ((h X d hd hX).2 Y hY i j).trans ?_
    have h1 : c * d ≤ c * δ := mul_le_mul_of_nonneg_left hd hc.le
    have h2 : (c * d + ρ) * d ≤ 1 / 2 * d := mul_le_mul_of_nonneg_right (by linarith) d0
    linarith
  refine ⟨δ, hδ, fun X₀ h0 => ?_, fun X h0 hs => ?_⟩
  · have hex : ∀ X : {X // Near F X δ}, ∃ Y : {X // Near F X δ}, NewtonStep (SpaceObj.Grad (Deformation.obj {} (Stretches.material lapack (Ogden.mat ⟨mu, alpha⟩))) z)
        (SpaceObj.Hess (Deformation.obj {} (Stretches.material lapack (Ogden.mat ⟨mu, alpha⟩))) z) P X.1 Y.1 := by
      rintro ⟨X, hX⟩
      obtain ⟨⟨Y, hY, -⟩, -⟩ := h X δ le_rfl hX
      exact ⟨⟨Y, fun i j => (half X δ le_rfl hX Y hY i j).trans (by linarith)⟩, hY⟩
    choose g hg using hex
    refine ⟨fun n => (g^[n] ⟨X₀, h0⟩).1, rfl, fun n => ?_⟩
    simp only [Function.iterate_succ_apply']
    exact hg _
  · have hN : ∀ n, Near F (X n) (δ * (1 / 2) ^ n) := by
      intro n
      induction n with
      | zero => simpa using h0
      | succ n ih =>
        rw [pow_succ, ← mul_assoc]
        exact half _ _ (mul_le_of_le_one_right hδ.le (pow_le_one₀ (by norm_num) (by norm_num))) ih _ (hs n)
    refine ⟨hN, fun i j => ?_⟩
    rw [tendsto_iff_dist_tendsto_zero]
    refine squeeze_zero (fun n => dist_nonneg) (fun n => hN n i j) ?_
    simpa using (tendsto_pow_atTop_nhds_zero_of_lt_one (r := (1 / 2 : ℝ)) (by norm_num) (by norm_num)).const_mul δ

/-- eigenvalues of an invertible deformation gradient lie strictly between two positive numbers -/
theorem eigenvalues_between {F : Ten2 ℝ} (hF : F.det ≠ 0) :
    ∃ m > 0, ∃ M, ∀ w v, Spectral (cauchyGreen F) w v → ∀ a, m < w a ∧ w a < M := by
  have hpd := posDef_cauchyGreen hF
  have hS0 : Spectral (cauchyGreen F) (lapack (cauchyGreen F)).1 (lapack (cauchyGreen F)).2 := hl _ hpd.1
  have hp : ∀ a, 0 < (lapack (cauchyGreen F)).1 a := fun a => hS0.pos hpd a
  let w := (lapack (cauchyGreen F)).1
  have h0 : 0 < w 0 := hp 0
  have h1 : 0 < w 1 := hp 1
  have h2 : 0 < w 2 := hp 2
  have hm : 0 < min (w 0) (min (w 1) (w 2)) := lt_min h0 (lt_min h1 h2)
  refine ⟨min (w 0) (min (w 1) (w 2)) / 2, by positivity, w 0 + w 1 + w 2 + 1, ?_⟩
  intro w' v' hS'
  obtain ⟨p, rfl⟩ := hS0.perm hS'
  intro a
  have : ∀ c, min (w 0) (min (w 1) (w 2)) / 2 < w c ∧ w c < w 0 + w 1 + w 2 + 1 := by
    intro c
    have hc : min (w 0) (min (w 1) (w 2)) ≤ w c := by
      fin_cases c
      · exact min_le_left _ _
      · exact (min_le_right _ _).trans (min_le_left _ _)
      · exact (min_le_right _ _).trans (min_le_right _ _)
    refine ⟨by linarith, ?_⟩
    fin_cases c <;> simp <;> linarith
  exact this _

/-- The eigenvalues of `C` are equal or differ by more than the tolerance, and the tangent at `F` is regular: from every
deformation gradient close to `F` the Newton step towards the stress of `F` exists, is the only one, and its distance to `F`
is at most proportional to the square of the distance before.  The steps start at deformation gradients whose eigenvalues may be
unequal within the tolerance. -/
theorem C94_ogden (hα : ∀ p ∈ mu.zip alpha, p.2 ≠ 0) {F P : Ten2 ℝ} {A : Ten4 ℝ} (hF : F.det ≠ 0) (hs : Separated (cauchyGreen F))
    (hP : SpaceObj.Grad (Deformation.obj {} (Stretches.material lapack (Ogden.mat ⟨mu, alpha⟩))) z F P)
    (hA : SpaceObj.Hess (Deformation.obj {} (Stretches.material lapack (Ogden.mat ⟨mu, alpha⟩))) z F A) (hreg : Regular A) :
    ∃ δ > 0, ∃ c > 0, c * δ ≤ 1 / 2 ∧ ∀ X d, d ≤ δ → Near F X d →
      (∃! Y, NewtonStep (SpaceObj.Grad (Deformation.obj {} (Stretches.material lapack (Ogden.mat ⟨mu, alpha⟩))) z)
        (SpaceObj.Hess (Deformation.obj {} (Stretches.material lapack (Ogden.mat ⟨mu, alpha⟩))) z) P X Y) ∧
      ∀ Y, NewtonStep (SpaceObj.Grad (Deformation.obj {} (Stretches.material lapack (Ogden.mat ⟨mu, alpha⟩))) z)
        (SpaceObj.Hess (Deformation.obj {} (Stretches.material lapack (Ogden.mat ⟨mu, alpha⟩))) z) P X Y → Near F Y (c * d ^ 2) := by
  obtain ⟨K, hK, hKA⟩ := regular_iff.1 hreg
  obtain ⟨m, hm, M, hE⟩ := eigenvalues_between lapack hl hF
  obtain ⟨f, -, hf⟩ := exists_bound2 F
  obtain ⟨δ, hδ, c, hc, hcδ, h⟩ := C94_tolerance lapack hl mu alpha z hα hF hP hA hK hKA hf hm hE le_rfl (fun w v hS a b hab => by
    rcases hs w v hS a b with h | h
    · rw [h, sub_self, abs_zero]
    · linarith) (by rw [mul_zero]; norm_num)
  refine ⟨δ, hδ, c, hc, by linarith, fun X d hd hX => ⟨(h X d hd hX).1, fun Y hY => ?_⟩⟩
  have := (h X d hd hX).2 Y hY
  rwa [mul_zero, add_zero, mul_assoc, ← pow_two] at this

/-- Newton's iteration: every sequence of Newton steps which starts close enough to such a deformation gradient converges to
it, and the number of correct digits doubles in every step. -/
theorem C94_iteration (hα : ∀ p ∈ mu.zip alpha, p.2 ≠ 0) {F P : Ten2 ℝ} {A : Ten4 ℝ} (hF : F.det ≠ 0) (hs : Separated (cauchyGreen F))
    (hP : SpaceObj.Grad (Deformation.obj {} (Stretches.material lapack (Ogden.mat ⟨mu, alpha⟩))) z F P)
    (hA : SpaceObj.Hess (Deformation.obj {} (Stretches.material lapack (Ogden.mat ⟨mu, alpha⟩))) z F A) (hreg : Regular A) :
    ∃ δ > 0,
      (∀ X₀, Near F X₀ δ → ∃ X : ℕ → Ten2 ℝ, X 0 = X₀ ∧
        ∀ n, NewtonStep (SpaceObj.Grad (Deformation.obj {} (Stretches.material lapack (Ogden.mat ⟨mu, alpha⟩))) z)
        (SpaceObj.Hess (Deformation.obj {} (Stretches.material lapack (Ogden.mat ⟨mu, alpha⟩))) z) P (X n) (X (n + 1))) ∧
      ∀ X : ℕ → Ten2 ℝ, Near F (X 0) δ →
        (∀ n, NewtonStep (SpaceObj.Grad (Deformation.obj {} (Stretches.material lapack (Ogden.mat ⟨mu, alpha⟩))) z)
        (SpaceObj.Hess (Deformation.obj {} (Stretches.material lapack (Ogden.mat ⟨mu, alpha⟩))) z) P (X n) (X (n + 1))) →
        (∀ n, Near F (X n) (δ * (1 / 2) ^ (2 ^ n - 1))) ∧ ∀ i j, Tendsto (fun n => X n i j) atTop (𝓝 (F i j)) := by
  obtain ⟨δ, hδ, c, hc, hcδ, h⟩ := C94_ogden lapack hl mu alpha z hα hF hs hP hA hreg
  refine ⟨δ, hδ, fun X₀ h0 => ?_, fun X h0 hs => ?_⟩
  · have hex : ∀ X : {X // Near F X δ}, ∃ Y : {X // Near F X δ}, NewtonStep (SpaceObj.Grad (Deformation.obj {} (Stretches.material lapack (Ogden.mat ⟨mu, alpha⟩))) z)
        (SpaceObj.Hess (Deformation.obj {} (Stretches.material lapack (Ogden.mat ⟨mu, alpha⟩))) z) P X.1 Y.1 := by
      rintro ⟨X, hX⟩
      obtain ⟨⟨Y, hY, -⟩, hN⟩ := h X δ le_rfl hX
      refine ⟨⟨Y, fun i j => (hN Y hY i j).trans ?_⟩, hY⟩
      calc c * δ ^ 2 = c * δ * δ := by ring
        _ ≤ 1 / 2 * δ := mul_le_mul_of_nonneg_right hcδ hδ.le
        _ ≤ δ := by linarith
    choose g hg using hex
    refine ⟨fun n => (g^[n] ⟨X₀, h0⟩).1, rfl, fun n => ?_⟩
    simp only [Function.iterate_succ_apply']
    exact hg _
  · have hN := newton_sequence hδ hcδ (fun X d hd hX => (h X d hd hX).2) h0 hs
    refine ⟨hN, fun i j => ?_⟩
    rw [tendsto_iff_dist_tendsto_zero]
    refine squeeze_zero (fun n => dist_nonneg) (fun n => hN n i j) ?_
    have h1 : Tendsto (fun n : ℕ => 2 ^ n - 1) atTop atTop :=
      tendsto_atTop_mono (fun n => by have := Nat.lt_two_pow_self (n := n); simp only [id_eq]; omega) tendsto_id
    have h2 := (tendsto_pow_atTop_nhds_zero_of_lt_one (r := (1 / 2 : ℝ)) (by norm_num) (by norm_num)).comp h1
    simpa using h2.const_mul δ

/-- Nonnegative moduli and exponents not below two: the tangent is bounded below by the smallest slope of the energy, with respect
to the squared stretches. -/
theorem C94_bounded_below (h : ∀ p ∈ mu.zip alpha, 0 ≤ p.1 ∧ 2 ≤ p.2) {F : Ten2 ℝ} {A : Ten4 ℝ} {r : ℝ} (hF : F.det ≠ 0) (hr0 : 0 < r)
    (hr : ∀ w v, Spectral (cauchyGreen F) w v → ∀ a, r ≤ ogdenRate mu alpha (w a))
    (hA : SpaceObj.Hess (Deformation.obj {} (Stretches.material lapack (Ogden.mat ⟨mu, alpha⟩))) z F A) :
    BoundedBelow (3 / (2 * r)) A :=
  ogden_bounded_below lapack hl h hF hr0 hr hA

/-- ... and regular, if one of the moduli is positive, at every invertible deformation gradient. -/
theorem C94_regular (h : ∀ p ∈ mu.zip alpha, 0 ≤ p.1 ∧ 2 ≤ p.2) (h0 : ∃ p ∈ mu.zip alpha, 0 < p.1) {F : Ten2 ℝ} {A : Ten4 ℝ}
    (hF : F.det ≠ 0) (hA : SpaceObj.Hess (Deformation.obj {} (Stretches.material lapack (Ogden.mat ⟨mu, alpha⟩))) z F A) : Regular A := by
  obtain ⟨m, hm, M, hE⟩ := eigenvalues_between lapack hl hF
  obtain ⟨p, hp, hp0⟩ := h0
  have hr : 0 < ogdenRate mu alpha m := by
    have h1 : p.1 / p.2 * m ^ ((p.2 - 2) / 2) ≤ ogdenRate mu alpha m :=
      List.single_le_sum (fun r hr => by
        obtain ⟨q, hq, rfl⟩ := List.mem_map.1 hr
        obtain ⟨h1, h2⟩ := h q hq
        have : 0 ≤ q.1 / q.2 := div_nonneg h1 (by linarith)
        positivity) _ (List.mem_map.2 ⟨p, hp, rfl⟩)
    have h2 : 0 < p.1 / p.2 := div_pos hp0 (by linarith [(h p hp).2])
    exact lt_of_lt_of_le (by positivity) h1
  exact regular_iff.2 ⟨_, by positivity, C94_bounded_below lapack hl mu alpha z h hF hr
    (fun w v hS a => ogdenRate_mono h hm (hE w v hS a).1.le) hA⟩

end

/-- The hypotheses are met: one term with the exponent three, and a deformation gradient whose stretches differ by `1e-9`, which
numpy's tolerance takes for equal stretches. -/
example : ∃ (lapack : Eigh) (F P : Ten2 ℝ) (A : Ten4 ℝ), EighValid lapack ∧ (∀ p ∈ [(1 : ℝ)].zip [(3 : ℝ)], p.2 ≠ 0) ∧ F.det ≠ 0 ∧
    ¬ Separated (cauchyGreen F) ∧
    SpaceObj.Grad (Deformation.obj {} (Stretches.material lapack (Ogden.mat ⟨[1], [3]⟩))) () F P ∧
    SpaceObj.Hess (Deformation.obj {} (Stretches.material lapack (Ogden.mat ⟨[1], [3]⟩))) () F A ∧
    BoundedBelow 6 A ∧ Regular A ∧ (∀ i j, |F i j| ≤ 2) ∧
    (∀ w v, Spectral (cauchyGreen F) w v → ∀ a, 1 / 4 < w a ∧ w a < 4) ∧
    (∀ w v, Spectral (cauchyGreen F) w v → ∀ a b, |w a - w b| ≤ 1 / 10 ^ 8 → |w a - w b| ≤ 1 / 10 ^ 8) ∧
    4104 * 6 * 2 ^ 2 * ogdenLipschitz [1] [3] (1 / 4) 4 * (1 / 10 ^ 8) ≤ 1 / 4 := by
  obtain ⟨lapack, hl⟩ := exists_eigh
  have hd : (diagonal ![1, 1 + 1 / 10 ^ 9, (1 : ℝ)]).det ≠ 0 := by
    rw [Matrix.det_diagonal, Fin.prod_univ_three]; norm_num [Matrix.cons_val_two]
  have hC : cauchyGreen (diagonal ![1, 1 + 1 / 10 ^ 9, (1 : ℝ)]) = diagonal ![1, (1 + 1 / 10 ^ 9) ^ 2, (1 : ℝ)] := by
    rw [cauchyGreen, Matrix.diagonal_transpose, Matrix.diagonal_mul_diagonal]
    congr 1
    funext i
    fin_cases i <;> simp [pow_two]
  have hw : ∀ w v, Spectral (cauchyGreen (diagonal ![1, 1 + 1 / 10 ^ 9, (1 : ℝ)])) w v → ∀ a, 1 ≤ w a ∧ w a < 4 := by
    intro w v hS a
    rw [hC] at hS
    obtain ⟨p, rfl⟩ := (spectral_diagonal _).perm hS
    have : ∀ c : Fin 3, 1 ≤ ![1, (1 + 1 / 10 ^ 9) ^ 2, (1 : ℝ)] c ∧ ![1, (1 + 1 / 10 ^ 9) ^ 2, (1 : ℝ)] c < 4 := by
      intro c
      fin_cases c <;> norm_num
    exact this _
  have hα : ∀ p ∈ [(1 : ℝ)].zip [(3 : ℝ)], p.2 ≠ 0 := by simp
  have h2 : ∀ p ∈ [(1 : ℝ)].zip [(3 : ℝ)], 0 ≤ p.1 ∧ 2 ≤ p.2 := by simp; try norm_num
  obtain ⟨P, hP⟩ := ogden_def_total lapack hl [1] [3] () hα _ hd
  obtain ⟨A, hA⟩ := ogden_hess_total lapack (z := ()) hα (diagonal ![1, 1 + 1 / 10 ^ 9, (1 : ℝ)])
  have hB : BoundedBelow 6 A := by
    have := C94_bounded_below lapack hl [1] [3] () h2 (r := 1 / 4) hd (by norm_num) (fun w v hS a => by
      have h1 := (hw w v hS a).1
      have h3 : (1 : ℝ) ≤ w a ^ ((1 : ℝ) / 2) := Real.one_le_rpow h1 (by norm_num)
      have e : ogdenRate [1] [3] (w a) = 1 / 3 * w a ^ ((1 : ℝ) / 2) := by
        simp [ogdenRate]; norm_num
      rw [e]
      linarith) hA
    norm_num at this ⊢
    exact this
  refine ⟨lapack, _, P, A, hl, hα, hd, fun hs => ?_, hP, hA, hB, regular_iff.2 ⟨6, by norm_num, hB⟩, fun i j => ?_,
    fun w v hS a => ⟨by linarith [(hw w v hS a).1], (hw w v hS a).2⟩, fun _ _ _ _ _ h => h, ?_⟩
  · have hS : Spectral (cauchyGreen (diagonal ![1, 1 + 1 / 10 ^ 9, (1 : ℝ)])) ![1, (1 + 1 / 10 ^ 9) ^ 2, (1 : ℝ)] 1 := by
      rw [hC]; exact spectral_diagonal _
    rcases hs _ _ hS 1 0 with h | h
    · norm_num at h
    · simp at h
      rw [lt_abs] at h
      norm_num at h
  · rw [Matrix.diagonal_apply]
    split_ifs
    · fin_cases i <;> norm_num [abs_le]
    · norm_num
  · have e1 : ((1 : ℝ) / 4) ^ ((3 : ℝ) / 2 - 3) = 8 := by
      rw [show ((1 : ℝ) / 4) = (2 : ℝ) ^ (-2 : ℝ) by rw [Real.rpow_neg (by norm_num)]; norm_num, ← Real.rpow_mul (by norm_num)]
      norm_num
    have e2 : (4 : ℝ) ^ ((3 : ℝ) / 2 - 3) = 1 / 8 := by
      rw [show (4 : ℝ) = (2 : ℝ) ^ (2 : ℝ) by norm_num, ← Real.rpow_mul (by norm_num)]
      norm_num
      try rw [show (-3 : ℝ) = -(3 : ℝ) by norm_num, Real.rpow_neg (by norm_num)]
      try norm_num
    simp only [ogdenLipschitz, List.zip_cons_cons, List.zip_nil_left, List.map_cons, List.map_nil, List.sum_cons, List.sum_nil, e1, e2]
    norm_num [abs_le]

end Props
