import Verif.Props.Work
import Verif.Props.Principal

/-! # Property C53: superposition of material parameters -/

namespace Props
open Spec Hel Matrix

variable {Z μ : Type}

/-- `ThirdOrderDeformation` with the parameters `c = (C10, C01, C11, C20, C30)`. -/
noncomputable abbrev todOf (c : Fin 5 → ℝ) (strain : Bool) : TOD ℝ := TOD.init (c 0) (c 1) (c 2) (c 3) (c 4) strain

/-- what `Invariants(ThirdOrderDeformation)` returns as hessian -/
noncomputable def todHessT (m : TOD ℝ) (C : Ten2 ℝ) : Ten4 ℝ := fun i j k l =>
  (m.C01 + m.C11 * (invariants C 0 - m.undeformed)) *
    (dyad (1 : Ten2 ℝ) 1 i j k l - dyadSym (1 : Ten2 ℝ) 1 i j k l) +
  (m.C20 * 2 + m.C30 * 6 * (invariants C 0 - m.undeformed)) * dyad (1 : Ten2 ℝ) 1 i j k l +
  m.C11 * (dyad (1 : Ten2 ℝ) (C.trace • (1 : Ten2 ℝ) - C) i j k l +
    dyad (C.trace • (1 : Ten2 ℝ) - C) (1 : Ten2 ℝ) i j k l)

theorem tod_hess_total (m : TOD ℝ) (c : Vec6 ℝ) (z : Z) (s : InvSt ℝ Unit) :
    ∃ M, Returns ((Invariants.material (Z := Z) m.mat).hessian c z) s M := by
  change ∃ M, (Invariants.hessian m.mat c z s).1 = .ok M
  rw [Invariants.hessian_run]
  simp only [TOD.mat, PyM.lift_run, TOD.gradient_eq, TOD.hessian_eq]
  unfold Invariants.hessRes TOD.gradVal TOD.hessVal
  by_cases h1 : m.C10 = 0 <;> by_cases h2 : m.C01 = 0 <;> by_cases h3 : m.C11 = 0 <;>
    by_cases h4 : m.C20 = 0 <;> by_cases h5 : m.C30 = 0 <;>
    simp [h1, h2, h3, h4, h5, Invariants.addTermRes, Invariants.loc, bind, Except.bind]

theorem tod_hess (m : TOD ℝ) (z : Z) {C : Ten2 ℝ} {H : Ten4 ℝ} (hC : SymInv C) :
    Material.Hess (Invariants.material m.mat) z C H ↔ H = todHessT m C := by
  have key : ∀ s c M, Stores c C → Returns ((Invariants.material (Z := Z) m.mat).hessian c z) s M →
      astensor4 M = todHessT m C := by
    intro s c M hc h
    obtain ⟨r, h', m', h1, h2, h3⟩ := (Invariants.returns_hessian ..).1 h
    have hT := T2_eq hc
    simp only [TOD.mat, PyM.lift_run, TOD.gradient_eq, Prod.mk.injEq, Except.ok.injEq] at h1
    simp only [Returns, TOD.mat, PyM.lift_run, TOD.hessian_eq, Except.ok.injEq] at h2
    obtain ⟨rfl, -⟩ := h1
    subst h2
    have e := Invariants.hessRes_ok h3
    have e33 : ∀ x, (m.hessVal x).h33 = none := fun _ => rfl
    simp only [e33, Option.elim, add_zero] at e
    have hM : M = Invariants.hessPure c _ _ := e
    rw [hM, Invariants.T4_hessPure c (by rw [hT]; exact hC.2), hT]
    have hv := TOD.vec_gradVal m (invariants C 0) (invariants C 1) z
    have e2 : (m.gradVal (invariants C 0) (invariants C 1) z).d2.getD 0 = _ := congrFun hv 1
    have hh := TOD.mat_hessVal m (invariants C 0)
    have e11 : (m.hessVal (invariants C 0)).h11.getD 0 = _ := congrFun (congrFun hh 0) 0
    have e12 : (m.hessVal (invariants C 0)).h12.getD 0 = _ := congrFun (congrFun hh 0) 1
    funext i j k l
    rw [e2, e11, e12]
    simp only [TOD.gradVal, TOD.hessVal, Option.getD_none, todHessT, cons_val_zero, cons_val_one]
    ring
  constructor
  · rintro ⟨s, c, h, h1, h2, h3⟩
    rw [← T4_eq h2, key s c h h1 h3]
  · rintro rfl
    obtain ⟨M, hM⟩ := tod_hess_total m (asvoigt C) z { material := () }
    refine ⟨_, _, M, stores_asvoigt hC.1, ?_, hM⟩
    rw [← key _ _ M (stores_asvoigt hC.1) hM]
    exact stores4_astensor4 M

theorem todGradT_linear (a b : ℝ) (c d : Fin 5 → ℝ) (strain : Bool) (C : Ten2 ℝ) :
    todGradT (todOf (a • c + b • d) strain) C = a • todGradT (todOf c strain) C + b • todGradT (todOf d strain) C := by
  ext i j
  simp only [todGradT, todOf, TOD.init, Pi.add_apply, Pi.smul_apply, smul_eq_mul, Matrix.add_apply, Matrix.smul_apply]
  ring

theorem todHessT_linear (a b : ℝ) (c d : Fin 5 → ℝ) (strain : Bool) (C : Ten2 ℝ) :
    todHessT (todOf (a • c + b • d) strain) C = a • todHessT (todOf c strain) C + b • todHessT (todOf d strain) C := by
  funext i j k l
  simp only [todHessT, todOf, TOD.init, Pi.add_apply, Pi.smul_apply, smul_eq_mul]
  ring

theorem tod_space_total (w : Space) (m : TOD ℝ) (F : Ten2 ℝ) (z : Z) (s : w.St (InvSt ℝ Unit)) :
    ∃ P, Returns ((w.obj {} (Invariants.material m.mat)).gradient F z) s (.full P, z) := by
  have h1 : Returns ((Invariants.material (Z := Z) m.mat).gradient (arg w F) z) (w.inner s) _ :=
    (Invariants.returns_gradient ..).2 ⟨_, congrArg (fun r => (PyM.lift r () : _ × Unit).1)
      (TOD.gradient_eq _ _ _ _ z), rfl, rfl⟩
  exact ⟨_, (Space.returns_gradient w ..).2 ⟨_, h1, (piolaStress_default ..).symm⟩⟩

/-- the stress as a function of the gradient of the material -/
noncomputable def piolaOf (w : Space) (F G : Ten2 ℝ) : Ten2 ℝ :=
  match w with
  | .deformation => F * ((2 : ℝ) • G)
  | .distortional => F * distS (cauchyGreen F) G
  | .dilatational => F * dilS (cauchyGreen F) G

/-- the argument of the material -/
noncomputable def argOf (w : Space) (F : Ten2 ℝ) : Ten2 ℝ :=
  match w with
  | .deformation => cauchyGreen F
  | .distortional => unimodular (cauchyGreen F)
  | .dilatational => (cauchyGreen F).det ^ (1 / 3 : ℝ) • cauchyGreen F

theorem space_grad_iff (w : Space) (mat : Material ℝ Z μ) (z : Z) {F P : Ten2 ℝ} (hF : F.det ≠ 0) :
    SpaceObj.Grad (w.obj {} mat) z F P ↔ ∃ G, Material.Grad mat z (argOf w F) G ∧ P = piolaOf w F G := by
  cases w
  · exact Deformation.grad_iff ..
  · exact Distortional.grad_iff _ _ hF
  · exact Dilatational.grad_iff _ _ hF

theorem symInv_argOf (w : Space) {F : Ten2 ℝ} (hF : F.det ≠ 0) : SymInv (argOf w F) := by
  have := det_cauchyGreen_pos hF
  cases w
  · exact symInv_cauchyGreen hF
  · exact symInv_unimodular hF
  · exact ⟨(cauchyGreen_symm _).smul _, by rw [argOf, Matrix.det_smul]; positivity⟩

theorem piolaOf_linear (w : Space) (F G H : Ten2 ℝ) (a b : ℝ) :
    piolaOf w F (a • G + b • H) = a • piolaOf w F G + b • piolaOf w F H := by
  have hadd : ∀ A B C : Ten2 ℝ, contract22 (A + B) C = contract22 A C + contract22 B C := by
    intro A B C
    simp only [contract22, Matrix.add_apply, add_mul, Finset.sum_add_distrib]
  have hs : ∀ (k : ℝ) (A C : Ten2 ℝ), contract22 (k • A) C = k * contract22 A C := fun k A C => contract22_smul_left ..
  have h1 : ∀ k : ℝ, k • (a • G + b • H) = a • (k • G) + b • (k • H) := by intro k; module
  cases w
  · simp only [piolaOf]
    simp only [h1, Matrix.mul_add, Matrix.mul_smul]
  · simp only [piolaOf, distS]
    simp only [← Matrix.mul_smul, ← Matrix.mul_add]
    congr 1
    simp only [hs, hadd]
    module
  · simp only [piolaOf, dilS]
    simp only [← Matrix.mul_smul, ← Matrix.mul_add]
    congr 1
    simp only [Matrix.trace_add, Matrix.trace_smul, smul_eq_mul]
    module

/-- The stress of `ThirdOrderDeformation` is linear in its parameters, in every space, although the
implementation branches on which parameters are zero. -/
theorem C53_third_order (w : Space) (a b : ℝ) (c d : Fin 5 → ℝ) (strain : Bool) (z : Z) {F P Q : Ten2 ℝ}
    (hF : F.det ≠ 0) (s : w.St (InvSt ℝ Unit))
    (hP : Returns ((w.obj {} (Invariants.material (todOf c strain).mat)).gradient F z) s (.full P, z))
    (hQ : Returns ((w.obj {} (Invariants.material (todOf d strain).mat)).gradient F z) s (.full Q, z)) :
    Returns ((w.obj {} (Invariants.material (todOf (a • c + b • d) strain).mat)).gradient F z) s
      (.full (a • P + b • Q), z) := by
  obtain ⟨X, hX⟩ := tod_space_total w (todOf (a • c + b • d) strain) F z s
  have hC := symInv_argOf w hF
  obtain ⟨G1, h1, rfl⟩ := (space_grad_iff w _ z hF).1 ⟨_, _, hP⟩
  obtain ⟨G2, h2, rfl⟩ := (space_grad_iff w _ z hF).1 ⟨_, _, hQ⟩
  obtain ⟨G3, h3, rfl⟩ := (space_grad_iff w _ z hF).1 ⟨_, _, hX⟩
  rw [tod_grad _ _ hC] at h1 h2 h3
  rw [h3, todGradT_linear, ← h1, ← h2, piolaOf_linear] at hX
  exact hX

/-- So is the elasticity tensor in the deformation space. -/
theorem C53_third_order_hessian (a b : ℝ) (c d : Fin 5 → ℝ) (strain : Bool) (z : Z) {F : Ten2 ℝ} {A B : Ten4 ℝ}
    (hF : F.det ≠ 0) (s : DefSt (InvSt ℝ Unit))
    (hA : Returns ((Deformation.obj {} (Invariants.material (todOf c strain).mat)).hessian F z) s (.full A))
    (hB : Returns ((Deformation.obj {} (Invariants.material (todOf d strain).mat)).hessian F z) s (.full B)) :
    Returns ((Deformation.obj {} (Invariants.material (todOf (a • c + b • d) strain).mat)).hessian F z) s
      (.full (a • A + b • B)) := by
  have ht : ∃ X, Returns ((Deformation.obj {} (Invariants.material (Z := Z) (todOf (a • c + b • d) strain).mat)).hessian F z) s
      (.full X) := by
    obtain ⟨g, z', m, hg⟩ : ∃ g z' m, (Invariants.material (Z := Z) (todOf (a • c + b • d) strain).mat).gradient
        (rightCauchyGreen F) z s.material = (.ok (g, z'), m) := by
      change ∃ g z' m, Invariants.gradient _ _ _ _ = (.ok (g, z'), m)
      rw [Invariants.gradient_run]
      simp only [TOD.mat, PyM.lift_run, TOD.gradient_eq]
      exact ⟨_, _, _, rfl⟩
    obtain ⟨h, hh⟩ := tod_hess_total (todOf (a • c + b • d) strain) (rightCauchyGreen F) z m
    exact ⟨_, (Deformation.returns_hessian ..).2 ⟨g, z', m, h, hg, hh, (piolaElasticity_default ..).symm⟩⟩
  obtain ⟨X, hX⟩ := ht
  have hC := symInv_cauchyGreen hF
  obtain ⟨G1, H1, g1, h1, rfl⟩ := Deformation.hess_elim ⟨_, hA⟩
  obtain ⟨G2, H2, g2, h2, rfl⟩ := Deformation.hess_elim ⟨_, hB⟩
  obtain ⟨G3, H3, g3, h3, rfl⟩ := Deformation.hess_elim ⟨_, hX⟩
  rw [tod_grad _ _ hC] at g1 g2 g3
  rw [tod_hess _ _ hC] at h1 h2 h3
  rw [todGradT_linear, ← g1, ← g2] at g3
  rw [todHessT_linear, ← h1, ← h2] at h3
  have e : piolaT F ((2 : ℝ) • G3) (fun i j k l => 4 * H3 i j k l) =
      a • piolaT F ((2 : ℝ) • G1) (fun i j k l => 4 * H1 i j k l) +
      b • piolaT F ((2 : ℝ) • G2) (fun i j k l => 4 * H2 i j k l) := by
    rw [g3, h3]
    funext i J k L
    simp only [piolaT, dyadIK, Pi.add_apply, Pi.smul_apply, smul_eq_mul, Matrix.smul_apply, Matrix.add_apply, mul_add,
      Finset.sum_add_distrib, Finset.mul_sum]
    have e1 : ∀ (t : ℝ) (H : Ten4 ℝ), (∑ I, ∑ K, F i I * F k K * (4 * (t * H I J K L))) =
        ∑ I, ∑ K, t * (F i I * F k K * (4 * H I J K L)) := fun t H =>
      Finset.sum_congr rfl fun I _ => Finset.sum_congr rfl fun K _ => by ring
    rw [e1, e1]
    ring
  rw [e] at hX
  exact hX

/-! ### Ogden -/

theorem stressOf_piolaOf (w : Space) {F : Ten2 ℝ} (hF : F.det ≠ 0) (g : Vec6 ℝ) :
    F * T2 (stressOf w F g) = piolaOf w F (T2 g) := by
  cases w
  · exact congrArg (F * ·) (T2_smul 2 g)
  · exact congrArg (F * ·) (Distortional.T2_st hF g)
  · exact congrArg (F * ·) (Dilatational.T2_st hF g)

/-- Lists of terms superpose: the gradients of the parts add up. -/
theorem C53_ogden (w : Space) (mu mu' alpha alpha' : List ℝ) (hn : mu.length = alpha.length)
    (lapack : Eigh) (z z' : Z) {F P Q : Ten2 ℝ} (hF : F.det ≠ 0) (s : w.St (StrSt Unit))
    (hP : Returns ((w.obj {} (Stretches.material lapack (Ogden.mat ⟨mu, alpha⟩))).gradient F z) s (.full P, z'))
    (hQ : Returns ((w.obj {} (Stretches.material lapack (Ogden.mat ⟨mu', alpha'⟩))).gradient F z) s (.full Q, z')) :
    Returns ((w.obj {} (Stretches.material lapack (Ogden.mat ⟨mu ++ mu', alpha ++ alpha'⟩))).gradient F z) s
      (.full (P + Q), z') := by
  obtain ⟨g, h1, h2⟩ := (Space.returns_gradient ..).1 hP
  obtain ⟨k, h3, h4⟩ := (Space.returns_gradient ..).1 hQ
  rw [piolaStress_default, stressOf_piolaOf w hF] at h2 h4
  obtain ⟨d, h5, h6⟩ := (Stretches.returns_gradient ..).1 h1
  obtain ⟨e, h7, h8⟩ := (Stretches.returns_gradient ..).1 h3
  simp only [Returns, Ogden.mat, PyM.lift_run, Ogden.gradient_eq] at h5 h7
  split_ifs at h5 with hz
  split_ifs at h7 with hz'
  cases h5
  simp only [Except.ok.injEq, Prod.mk.injEq, and_true] at h7
  subst h7
  have hzip : (mu ++ mu').zip (alpha ++ alpha') = mu.zip alpha ++ mu'.zip alpha' := List.zip_append hn
  have hall : ∀ p ∈ (mu ++ mu').zip (alpha ++ alpha'), p.2 ≠ 0 := by
    rw [hzip]
    intro p hp
    rcases List.mem_append.1 hp with h | h
    · exact hz p h
    · exact hz' p h
  set l := (eighSqrt lapack (arg w F)).1 with hl
  set M := (eighSqrt lapack (arg w F)).2 with hM
  refine (Space.returns_gradient ..).2 ⟨_, (Stretches.returns_gradient ..).2 ⟨fun a => sumOver (mu.zip alpha ++ mu'.zip alpha')
    (fun p x => 2 * p.1 / p.2 * x ^ (p.2 - 1)) (l a), ?_, rfl⟩, ?_⟩
  · simp only [Returns, Ogden.mat, PyM.lift_run, Ogden.gradient_eq]
    rw [if_pos hall, hzip]
  · rw [piolaStress_default, stressOf_piolaOf w hF, Stress.full.inj h2, Stress.full.inj h4]
    congr 1
    have hlin := piolaOf_linear w F (T2 g) (T2 k) 1 1
    simp only [one_smul] at hlin
    rw [← hlin]
    congr 1
    have hsum : ∀ x y : Fin 3 → ℝ, T2 (Stretches.gradPure l M x) + T2 (Stretches.gradPure l M y) =
        T2 (Stretches.gradPure l M fun a => x a + y a) := by
      intro x y
      rw [← T2_add]
      congr 1
      funext i
      simp only [Stretches.gradPure, Stretches.dlC, ← Finset.sum_add_distrib]
      exact Finset.sum_congr rfl fun a _ => by ring
    rw [h6, h8, hsum]
    simp only [sumOver, List.map_append, List.sum_append]
    rfl

/-- The order of the terms does not matter, for the stress and for the elasticity tensor, and for any
eigen-solver. -/
theorem C53_ogden_order (w : Space) (cfg : SpaceCfg) (mu mu' alpha alpha' : List ℝ)
    (hp : (mu.zip alpha).Perm (mu'.zip alpha')) (lapack : Eigh) (z : Z) (F : Ten2 ℝ) :
    (w.obj cfg (Stretches.material lapack (Ogden.mat ⟨mu, alpha⟩))).gradient F z =
      (w.obj cfg (Stretches.material lapack (Ogden.mat ⟨mu', alpha'⟩))).gradient F z ∧
    (w.obj cfg (Stretches.material lapack (Ogden.mat ⟨mu, alpha⟩))).hessian F z =
      (w.obj cfg (Stretches.material lapack (Ogden.mat ⟨mu', alpha'⟩))).hessian F z := by
  have e : ∀ f x, sumOver (mu.zip alpha) f x = sumOver (mu'.zip alpha') f x := fun f x => (hp.map _).sum_eq
  have hz : (∀ p ∈ mu.zip alpha, p.2 ≠ 0) ↔ ∀ p ∈ mu'.zip alpha', p.2 ≠ 0 :=
    forall_congr' fun p => by rw [hp.mem_iff]
  have hm : (Ogden.mat ⟨mu, alpha⟩ : StrMat Z Unit) = Ogden.mat ⟨mu', alpha'⟩ := by
    unfold Ogden.mat
    congr 1
    · funext l z
      rw [Ogden.gradient_eq, Ogden.gradient_eq]
      simp only [e, hz]
    · funext l z
      rw [Ogden.hessian_eq, Ogden.hessian_eq]
      simp only [e, hz]
  rw [hm]
  exact ⟨rfl, rfl⟩

/-- The hypotheses are met: Neo-Hooke plus a Mooney-Rivlin term, at a simple shear. -/
example (w : Space) (s : w.St (InvSt ℝ Unit)) : ∃ P Q : Ten2 ℝ, (!![1, 2, 0; 0, 1, 0; 0, 0, (1 : ℝ)]).det ≠ 0 ∧
    Returns ((w.obj {} (Invariants.material (todOf ![1, 0, 0, 0, 0] false).mat)).gradient !![1, 2, 0; 0, 1, 0; 0, 0, 1] ()) s
      (.full P, ()) ∧
    Returns ((w.obj {} (Invariants.material (todOf ![0, 1, 0, 0, 0] false).mat)).gradient !![1, 2, 0; 0, 1, 0; 0, 0, 1] ()) s
      (.full Q, ()) := by
  obtain ⟨P, hP⟩ := tod_space_total w (todOf ![1, 0, 0, 0, 0] false) !![1, 2, 0; 0, 1, 0; 0, 0, 1] () s
  obtain ⟨Q, hQ⟩ := tod_space_total w (todOf ![0, 1, 0, 0, 0] false) !![1, 2, 0; 0, 1, 0; 0, 0, 1] () s
  exact ⟨P, Q, by simp [Matrix.det_fin_three], hP, hQ⟩

example : ([1, 2].zip [3, (4 : ℝ)]).Perm ([2, 1].zip [4, (3 : ℝ)]) := List.Perm.swap ..

end Props
