import Verif.Spec.SymmetryHess
import Verif.Props.StretchesChoice
import Verif.Props.History
import Verif.Proofs.StretchesModels

/-! # Property C84: material symmetry of the elasticity -/

namespace Props
open Spec Hel Matrix

variable {Z μ : Type}

/-- The hessian of the `Invariants` framework rotates with its argument, with every model. -/
theorem C84_invariants (mat : InvMat ℝ Z μ) (z : Z) : Material.IsotropicHess (Invariants.material mat) z := by
  intro Q C H c c' h m hQ hC hc hc' hh hr
  exact C18_hessian mat z hQ hC.det_ne_zero hc hc' m m rfl hh hr

theorem contract42_rotate4 (Q : Ten2 ℝ) (H : Ten4 ℝ) (X : Ten2 ℝ) :
    contract42 (rotate4 Q H) X = rotate Q (contract42 H (rotate Qᵀ X)) := by
  ext i j
  simp only [contract42, rotate4, rotate_apply, Matrix.transpose_apply, Fin.sum_univ_three]
  ring

theorem rotate_rotate_transpose {Q : Ten2 ℝ} (hQ : Orthogonal Q) (X : Ten2 ℝ) : rotate Qᵀ (rotate Q X) = X := by
  have h : Qᵀ * Q = 1 := hQ
  simp only [rotate, Matrix.transpose_transpose]
  calc Qᵀ * (Q * X * Qᵀ) * Q = (Qᵀ * Q) * X * (Qᵀ * Q) := by simp only [Matrix.mul_assoc]
    _ = X := by rw [h, Matrix.one_mul, Matrix.mul_one]

/-- the storage of a rotated tensor -/
theorem stores4_rotate4 (Q : Ten2 ℝ) (h : Mat6 ℝ) : ∃ k, Stores4 k (rotate4 Q (astensor4 h)) := by
  refine ⟨fun a b => rotate4 Q (astensor4 h) (pos a).1 (pos a).2 (pos b).1 (pos b).2, ⟨?_, ?_⟩, fun _ _ => rfl⟩
  · have hm := (stores4_astensor4 h).minor.1
    intro i j k l
    simp only [rotate4, Fin.sum_univ_three]
    simp only [hm 1 0, hm 2 0, hm 2 1]
    ring
  · have hm := (stores4_astensor4 h).minor.2
    intro i j k l
    simp only [rotate4, Fin.sum_univ_three]
    simp only [hm _ _ 1 0, hm _ _ 2 0, hm _ _ 2 1]
    ring

theorem posDef_rotate {Q C : Ten2 ℝ} (hQ : Orthogonal Q) (hC : PosDef C) : PosDef (rotate Q C) := by
  refine ⟨rotate_symm hC.1, fun v hv => ?_⟩
  have h : v ⬝ᵥ (rotate Q C *ᵥ v) = (Qᵀ *ᵥ v) ⬝ᵥ (C *ᵥ (Qᵀ *ᵥ v)) := by
    rw [rotate, Matrix.mul_assoc, ← Matrix.mulVec_mulVec, ← Matrix.mulVec_mulVec, Matrix.dotProduct_mulVec, Matrix.mulVec_transpose]
  rw [h]
  refine hC.2 _ fun h0 => hv ?_
  have : Q *ᵥ (Qᵀ *ᵥ v) = v := by rw [Matrix.mulVec_mulVec, hQ.mul_transpose, Matrix.one_mulVec]
  rw [← this, h0, Matrix.mulVec_zero]

/-- The hessian of the `Stretches` framework rotates with its argument, with every symmetric model
and every eigen-solver which returns the eigenvalues in ascending order. -/
theorem C84_stretches (lapack : Eigh) (hl : EighValid lapack) (ha : EighAscending lapack) (mat : StrMat Z μ)
    (hs : StrMat.Symmetric mat) (hs2 : StrMat.SymmetricHess mat) (z : Z) :
    Material.IsotropicHess (Stretches.material lapack mat) z := by
  intro Q C H c c' h m hQ hC hc hc' hh hr
  obtain ⟨g, z', m', k, hg, hk, rfl⟩ := (Stretches.returns_hessian ..).1 hr
  rw [Stretches.eighSqrt_eq lapack hc] at hg hk hh
  have mono : ∀ C : Ten2 ℝ, C.IsSymm → Monotone (Stretches.vals lapack C) := by
    intro C hC
    have h1 : Stretches.vals lapack C 0 ≤ Stretches.vals lapack C 1 := (ha C hC).1
    have h2 : Stretches.vals lapack C 1 ≤ Stretches.vals lapack C 2 := (ha C hC).2
    intro a b hab
    fin_cases a <;> fin_cases b <;> simp at hab ⊢ <;> linarith
  have hS : Spectral C (Stretches.vals lapack C) (Stretches.vecs lapack C) := hl C hc.symm
  have hS' : Spectral (rotate Q C) (Stretches.vals lapack (rotate Q C)) (Stretches.vecs lapack (rotate Q C)) :=
    hl _ hc'.symm
  have hC' : PosDef (rotate Q C) := posDef_rotate hQ hC
  obtain ⟨h1, h2⟩ := Stretches.hess_unique_ascending hs hs2 hC' (mono C hc.symm) (mono _ hc'.symm)
    (spectral_rotate hQ hS) hS' hg hk
  refine ⟨_, ?_, (Stretches.returns_hessian ..).2 ⟨g, z', m', k, ?_, ?_, rfl⟩⟩
  · rw [Stretches.eighSqrt_eq lapack hc']
    obtain ⟨n, hn⟩ := stores4_rotate4 Q (Stretches.hessPure (Stretches.roots (Stretches.vals lapack C)) (Stretches.bases (Stretches.vecs lapack C)) g k)
    rw [← T4_eq hh]
    change Stores4 (Stretches.hessPure (Stretches.roots (Stretches.vals lapack (rotate Q C)))
      (Stretches.bases (Stretches.vecs lapack (rotate Q C))) g k) _
    rw [← h2]
    have : n = Stretches.hessPure (Stretches.roots (Stretches.vals lapack C)) (Stretches.bases (Q * Stretches.vecs lapack C)) g k := by
      refine astensor4_ext fun X hX => ?_
      rw [T4_eq hn, contract42_rotate4, Stretches.contract_hessPure _ _ _ _ hX,
        Stretches.contract_hessPure _ _ _ _ (rotate_symm hX)]
      simp only [rotate, Matrix.transpose_mul, Matrix.transpose_transpose, Matrix.mul_assoc]
    rw [← this]
    exact hn
  · rw [Stretches.eighSqrt_eq lapack hc']
    change mat.gradient (Stretches.roots (Stretches.vals lapack (rotate Q C))) z m.material = _
    rw [h1]; exact hg
  · rw [Stretches.eighSqrt_eq lapack hc']
    change Returns (mat.hessian (Stretches.roots (Stretches.vals lapack (rotate Q C))) z') m' k
    rw [h1]; exact hk

theorem ten4_ext {A B : Ten4 ℝ} (h : ∀ X : Ten2 ℝ, contract42 A X = contract42 B X) : A = B := by
  ext i j k l
  have := congrFun (congrFun (h (Matrix.single k l 1)) i) j
  simpa [contract42, Matrix.single_apply, ite_and, Finset.sum_ite_eq] using this

theorem contract42_44 (A B : Ten4 ℝ) (X : Ten2 ℝ) : contract42 (contract44 A B) X = contract42 A (contract42 B X) := by
  ext i j
  simp only [contract42, contract44, Fin.sum_univ_three]
  ring

theorem rotate4_contract44 {Q : Ten2 ℝ} (hQ : Orthogonal Q) (A B : Ten4 ℝ) :
    rotate4 Q (contract44 A B) = contract44 (rotate4 Q A) (rotate4 Q B) := by
  refine ten4_ext fun X => ?_
  rw [contract42_rotate4, contract42_44, contract42_44, contract42_rotate4, contract42_rotate4, rotate_rotate_transpose hQ]

theorem rotate4_zero (Q : Ten2 ℝ) : rotate4 Q 0 = 0 := by
  ext i j k l
  simp [rotate4]

theorem piolaT_turn {Q : Ten2 ℝ} (hQ : Orthogonal Q) (F S : Ten2 ℝ) (C4 : Ten4 ℝ) :
    piolaT (F * Q) (rotate Qᵀ S) (rotate4 Qᵀ C4) = turnMaterial Q (piolaT F S C4) := by
  have h1 : ∀ i a, ∑ I, (F * Q) i I * Q a I = F i a := by
    intro i a
    have : F * Q * Qᵀ = F := by rw [Matrix.mul_assoc, hQ.mul_transpose, Matrix.mul_one]
    calc ∑ I, (F * Q) i I * Q a I = (F * Q * Qᵀ) i a := by rw [Matrix.mul_apply]; rfl
      _ = F i a := by rw [this]
  generalize F * Q = G at h1 ⊢
  ext i J k L
  have h2 : ∑ I, ∑ K, G i I * G k K * rotate4 Qᵀ C4 I J K L =
      ∑ M, ∑ N, (∑ I, ∑ K, (∑ n, G i n * Q I n) * (∑ n, G k n * Q K n) * C4 I M K N) * Q M J * Q N L := by
    simp only [rotate4, Matrix.transpose_apply, Fin.sum_univ_three]
    ring
  simp only [h1] at h2
  simp only [piolaT, turnMaterial]
  rw [h2]
  simp only [dyadIK, rotate_apply, Matrix.transpose_apply, add_mul, Finset.sum_add_distrib, Finset.mul_sum]
  congr 1
  simp only [Fin.sum_univ_three]
  ring

theorem dyadSym_one_rotate {Q : Ten2 ℝ} (hQ : Orthogonal Q) : rotate4 Q (dyadSym (1 : Ten2 ℝ) 1) = dyadSym (1 : Ten2 ℝ) 1 := by
  rw [rotate4_dyadSym, rotate_one hQ]

theorem geoT_rotate {Q C : Ten2 ℝ} (hQ : Orthogonal Q) (hC : C.det ≠ 0) (G : Ten2 ℝ) :
    Distortional.geoT (rotate Q C) (rotate Q G) = rotate4 Q (Distortional.geoT C G) := by
  unfold Distortional.geoT
  simp only [rotate4_smul, rotate4_add, rotate4_sub, rotate4_dyad, rotate4_dyadSym, det_rotate _ hQ, inv_rotate _ hQ hC,
    ← rotate_smul, contract22_rotate hQ]

theorem projT_rotate {Q C : Ten2 ℝ} (hQ : Orthogonal Q) (hC : C.det ≠ 0) :
    Distortional.projT (rotate Q C) = rotate4 Q (Distortional.projT C) := by
  unfold Distortional.projT
  simp only [rotate4_smul, rotate4_sub, rotate4_dyad, rotate4_dyadSym, rotate_one hQ, inv_rotate _ hQ hC]

theorem projTt_rotate {Q C : Ten2 ℝ} (hQ : Orthogonal Q) (hC : C.det ≠ 0) :
    Distortional.projTt (rotate Q C) = rotate4 Q (Distortional.projTt C) := by
  unfold Distortional.projTt
  simp only [rotate4_smul, rotate4_sub, rotate4_dyad, rotate4_dyadSym, rotate_one hQ, inv_rotate _ hQ hC]

theorem c4bT_rotate {Q : Ten2 ℝ} (hQ : Orthogonal Q) (C : Ten2 ℝ) (H : Ten4 ℝ) :
    Distortional.c4bT (rotate Q C) (rotate4 Q H) = rotate4 Q (Distortional.c4bT C H) := by
  unfold Distortional.c4bT
  simp only [rotate4_smul, det_rotate _ hQ]

theorem c4T_rotate {Q C : Ten2 ℝ} (hQ : Orthogonal Q) (hC : C.det ≠ 0) (G : Ten2 ℝ) (H : Ten4 ℝ) :
    Dilatational.c4T (rotate Q C) (rotate Q G) (rotate4 Q H) = rotate4 Q (Dilatational.c4T C G H) := by
  have e : contract22 1 (contract42 (rotate4 Q H) 1) = contract22 1 (contract42 H 1) := by
    conv_lhs => rw [← rotate_one hQ]
    rw [contract42_rotate4, rotate_rotate_transpose hQ, contract22_rotate hQ]
  unfold Dilatational.c4T
  simp only [rotate4_smul, rotate4_sub, rotate4_dyad, rotate4_dyadSym, det_rotate _ hQ, inv_rotate _ hQ hC,
    ← rotate_smul, trace_rotate _ hQ, e]

/-- the elasticity of the distortional space if nothing is dropped -/
theorem distC4_of_above {mat : Material ℝ Z μ} {z : Z} {F : Ten2 ℝ} (hF : F.det ≠ 0) (ha : AboveTolerance mat z F) {m : μ}
    {g : Vec6 ℝ} {h : Mat6 ℝ} (hr : Returns (mat.hessian (arg .distortional F) z) m h) :
    astensor4 (Distortional.c4 F g h) = fun i j k l => Distortional.geoT (cauchyGreen F) (T2 g) i j k l +
      contract44 (contract44 (Distortional.projT (cauchyGreen F)) (Distortional.c4bT (cauchyGreen F) (astensor4 h)))
        (Distortional.projTt (cauchyGreen F)) i j k l := by
  have hH : Material.Hess mat z (unimodular (cauchyGreen F)) (astensor4 h) := by
    rw [← Distortional.T2_cu]; exact Material.hess_T4 _ _ _ _ _ hr
  rw [Distortional.T4_c4 hF]
  split_ifs with hd
  · rw [← Distortional.dropped_iff] at hd
    rcases ha _ hH with h0 | ⟨i, j, k, l, h1⟩
    · ext i j k l
      simp [h0, contract44, Distortional.c4bT]
    · exact absurd (hd i j k l) (not_le.2 h1)
  · rfl

theorem elastOf_rotate (w : Space) {mat : Material ℝ Z μ} {z : Z} {F Q : Ten2 ℝ} (hF : F.det ≠ 0) (hQ : Orthogonal Q)
    (hd : w = .distortional → AboveTolerance mat z F ∧ AboveTolerance mat z (F * Q)) {g g' : Vec6 ℝ} {h h' : Mat6 ℝ} {m m' : μ}
    (hr : Returns (mat.hessian (arg w F) z) m h) (hr' : Returns (mat.hessian (arg w (F * Q)) z) m' h')
    (hg : T2 g' = rotate Qᵀ (T2 g)) (hh : astensor4 h' = rotate4 Qᵀ (astensor4 h)) :
    astensor4 (elastOf w (F * Q) g' h') = rotate4 Qᵀ (astensor4 (elastOf w F g h)) := by
  have hq := hQ.transpose
  have hFQ := det_mul_orthogonal hF hQ
  have hdc := (det_cauchyGreen_pos hF).ne'
  rcases w
  · change (fun i j k l => 4 * astensor4 h' i j k l) = rotate4 Qᵀ (fun i j k l => 4 * astensor4 h i j k l)
    rw [hh, rotate4_smul]
  · obtain ⟨h1, h2⟩ := hd rfl
    change astensor4 (Distortional.c4 (F * Q) g' h') = rotate4 Qᵀ (astensor4 (Distortional.c4 F g h))
    rw [distC4_of_above hF h1 hr, distC4_of_above hFQ h2 hr', rotate4_add, cauchyGreen_mul, hg, hh, geoT_rotate hq hdc,
      projT_rotate hq hdc, projTt_rotate hq hdc, c4bT_rotate hq, ← rotate4_contract44 hq, ← rotate4_contract44 hq]
  · change astensor4 (Dilatational.c4 (F * Q) g' h') = rotate4 Qᵀ (astensor4 (Dilatational.c4 F g h))
    rw [Dilatational.T4_c4 hF, Dilatational.T4_c4 hFQ, cauchyGreen_mul, hg, hh, c4T_rotate hq hdc]

/-- `A_iJkL(FQ) = A_iMkN(F) Q_MJ Q_NL` for an isotropic material, in every space, for every `F` and
orthogonal `Q`; in the distortional space as long as the tolerance in the code does not drop a
nonzero hessian of the material. -/
theorem C84_hessian_partial (w : Space) (mat : Material ℝ Z μ) (z : Z) (s : w.St μ) (hi : Material.Isotropic mat z)
    (hi2 : Material.IsotropicHess mat z) (hf : Material.HistoryFree mat) {F Q : Ten2 ℝ} {A : Ten4 ℝ} (hF : F.det ≠ 0)
    (hQ : Orthogonal Q) (hd : w = .distortional → AboveTolerance mat z F ∧ AboveTolerance mat z (F * Q))
    (h : Returns ((w.obj {} mat).hessian F z) s (.full A)) :
    Returns ((w.obj {} mat).hessian (F * Q) z) s (.full (turnMaterial Q A)) := by
  obtain ⟨g, z', m, k, h1, h2, h3⟩ := (Space.returns_hessian ..).1 h
  rw [piolaElasticity_force] at h3
  obtain rfl := Elasticity.full.inj h3
  have e := arg_rotate w (F := F) hQ
  have hc' : Stores (arg w (F * Q)) (rotate Qᵀ (T2 (arg w F))) := by rw [← e]; exact T2_stores _
  obtain ⟨g', hg', hr⟩ := hi Qᵀ _ _ _ _ _ z' _ hQ.transpose (posDef_arg w hF) (T2_stores (arg w F)) hc' (T2_stores g)
    (congrArg Prod.fst h1)
  obtain ⟨k', hk', hr2⟩ := hi2 Qᵀ _ _ _ _ _ m hQ.transpose (posDef_arg w hF) (T2_stores (arg w F)) hc' (stores4_astensor4 k) h2
  have hr3 : Returns (mat.hessian (arg w (F * Q)) z) (mat.gradient (arg w (F * Q)) z (w.inner s)).2 k' := by
    rw [Returns, (hf _ _ _ m).2]; exact hr2
  refine (Space.returns_hessian ..).2 ⟨g', z', _, k', Prod.ext hr rfl, hr3, ?_⟩
  rw [piolaElasticity_force, stressOf_rotate w hF hQ (T2_eq hg'), elastOf_rotate w hF hQ hd h2 hr3 (T2_eq hg') (T4_eq hk'),
    piolaT_turn hQ]

end Props

namespace Props
open Spec Hel Matrix

variable {Z μ : Type}

/-- a soft material with the energy `ε (I1 - 3) (I2 - 3)` -/
noncomputable def softTod (ε : ℝ) : TOD ℝ := ⟨0, 0, ε, 0, 0, 3⟩

theorem softTod_hess (ε : ℝ) (hε : ε ≠ 0) (z : Z) (c : Vec6 ℝ) (s : InvSt ℝ Unit) :
    ∃ g k m, (Invariants.material (softTod ε).mat).gradient c z s = (.ok (g, z), m) ∧
      (∀ m, Returns ((Invariants.material (softTod ε).mat).hessian c z) m k) ∧
      ((T2 c).det ≠ 0 → astensor4 k = fun i j l n => ε * ((invariants (T2 c) 0 - 3) *
          (dyad (1 : Ten2 ℝ) 1 i j l n - dyadSym (1 : Ten2 ℝ) 1 i j l n) +
        (dyad (1 : Ten2 ℝ) ((T2 c).trace • (1 : Ten2 ℝ) - T2 c) i j l n +
          dyad ((T2 c).trace • (1 : Ten2 ℝ) - T2 c) (1 : Ten2 ℝ) i j l n))) := by
  have hg : ∀ (m : Unit), (softTod ε).mat.gradient (invariants (T2 c) 0) (invariants (T2 c) 1) (invariants (T2 c) 2) z m =
    (.ok ⟨some (ε * (invariants (T2 c) 1 - 3)), some (ε * (invariants (T2 c) 0 - 3)), none, z⟩, m) := by
    intro m
    simp [TOD.mat, TOD.gradient, softTod, hε, PyM.lift, bind, Except.bind, addTo]
  have hh : ∀ (m : Unit), Returns ((softTod ε).mat.hessian (invariants (T2 c) 0) (invariants (T2 c) 1) (invariants (T2 c) 2) z) m
      ⟨none, none, none, some ε, none, none⟩ := by
    intro m
    simp [TOD.mat, TOD.hessian, softTod, hε, PyM.lift, Returns]
  set r : InvGrad ℝ Z := ⟨some (ε * (invariants (T2 c) 1 - 3)), some (ε * (invariants (T2 c) 0 - 3)), none, z⟩ with hr
  set q : InvHess ℝ := ⟨none, none, none, some ε, none, none⟩ with hq
  obtain ⟨k, hk⟩ := (Invariants.hessRes_returns c r q).2 (by simp [Invariants.okPattern, hr, hq])
  have h1 := (Invariants.returns_gradient (softTod ε).mat c z s _ z).2 ⟨r, congrArg Prod.fst (hg _), rfl, rfl⟩
  refine ⟨_, k, _, Prod.ext h1 rfl, fun m => (Invariants.returns_hessian ..).2 ⟨r, q, m.material, hg _, hh _, hk⟩, fun hd => ?_⟩
  rw [Invariants.hessRes_ok hk]
  have e : (fun a b => Invariants.hessPure c r q a b + (q.h33.elim 0 fun _ => q.h22.getD 0 *
      dya (fun a => trace c * eye a - c a) (fun a => trace c * eye a - c a) a b)) = Invariants.hessPure c r q := by
    funext a b
    simp [hq]
  rw [e, Invariants.T4_hessPure c hd]
  ext i j l n
  simp only [hr, hq, Option.getD_some, Option.getD_none]
  ring

theorem turn_turn {Q : Ten2 ℝ} (hQ : Orthogonal Q) (A : Ten4 ℝ) : turnMaterial Qᵀ (turnMaterial Q A) = A := by
  have h : ∀ M J, ∑ I, Q M I * Q J I = if M = J then 1 else 0 := by
    intro M J
    have := congrFun (congrFun hQ.mul_transpose M) J
    rw [Matrix.mul_apply, Matrix.one_apply] at this
    exact this
  ext i J k L
  have e : turnMaterial Qᵀ (turnMaterial Q A) i J k L =
      ∑ M, ∑ N, A i M k N * (∑ I, Q M I * Q J I) * (∑ I, Q N I * Q L I) := by
    simp only [turnMaterial, Matrix.transpose_apply, Fin.sum_univ_three]
    ring
  rw [e]
  simp [h]

/-- the stretches 4, 1/2, 1/2 -/
noncomputable def softF : Ten2 ℝ := diagonal ![4, 1 / 2, 1 / 2]

/-- the rotation by the angle with the tangent 4/3 -/
noncomputable def softQ : Ten2 ℝ := !![3 / 5, -4 / 5, 0; 4 / 5, 3 / 5, 0; 0, 0, 1]

theorem softQ_orthogonal : Orthogonal softQ := by
  rw [Orthogonal, softQ]
  ext i j
  fin_cases i <;> fin_cases j <;> simp [Matrix.mul_apply, Fin.sum_univ_three, Matrix.one_apply] <;> norm_num

theorem softF_det : softF.det = 1 := by
  simp [softF, Matrix.det_diagonal, Fin.prod_univ_three]
  norm_num

theorem soft_cg : cauchyGreen softF = diagonal ![16, 1 / 4, 1 / 4] := by
  rw [cauchyGreen, softF, Matrix.diagonal_transpose, Matrix.diagonal_mul_diagonal]
  congr 1
  funext i
  fin_cases i <;> norm_num

theorem soft_cgQ : cauchyGreen (softF * softQ) = !![148 / 25, -189 / 25, 0; -189 / 25, 1033 / 100, 0; 0, 0, 1 / 4] := by
  rw [cauchyGreen_mul, soft_cg]
  ext i j
  fin_cases i <;> fin_cases j <;>
    simp [rotate, softQ, Matrix.mul_apply, Fin.sum_univ_three, Matrix.diagonal_apply, Matrix.transpose_apply] <;> norm_num

theorem soft_arg {F : Ten2 ℝ} (h : (cauchyGreen F).det = 1) : T2 (arg .distortional F) = cauchyGreen F := by
  change T2 (Distortional.cu F) = _
  rw [Distortional.T2_cu, unimodular, h, Real.one_rpow, one_smul]

/-- The full statement fails in the distortional space: the comparison of all components with the
tolerance depends on the axes.  The elasticity of a soft third-order-deformation material loses a
part when the specimen is turned. -/
theorem C84_distortional_false (z : Z) (s : DistSt (InvSt ℝ Unit)) : ∃ ε > 0, ∃ (F Q : Ten2 ℝ) (A A' : Ten4 ℝ), F.det = 1 ∧ Orthogonal Q ∧
    Returns ((Space.distortional.obj {} (Invariants.material (TOD.mat (TOD.init 0 0 ε 0 0 false)))).hessian F z) s (.full A) ∧
    Returns ((Space.distortional.obj {} (Invariants.material (TOD.mat (TOD.init 0 0 ε 0 0 false)))).hessian (F * Q) z) s (.full A') ∧
    A' ≠ turnMaterial Q A := by
  set ε : ℝ := 1 / (170 * 10 ^ 8) with hε
  have hε0 : ε ≠ 0 := by rw [hε]; norm_num
  have hF : softF.det ≠ 0 := by rw [softF_det]; norm_num
  have hQ := softQ_orthogonal
  have hFQ := det_mul_orthogonal hF hQ
  have hd : (cauchyGreen softF).det = 1 := by
    rw [cauchyGreen, Matrix.det_mul, Matrix.det_transpose, softF_det, one_mul]
  have hdQ : (cauchyGreen (softF * softQ)).det = 1 := by rw [cauchyGreen_mul, det_rotate _ hQ.transpose, hd]
  have ea := soft_arg hd
  have eaQ := soft_arg hdQ
  obtain ⟨g, k, m, h1, h2, h3⟩ := softTod_hess ε hε0 z (arg .distortional softF) s.material
  obtain ⟨g', k', m', h1', h2', h3'⟩ := softTod_hess ε hε0 z (arg .distortional (softF * softQ)) s.material
  have h3 := h3 (by rw [ea, hd]; norm_num)
  have h3' := h3' (by rw [eaQ, hdQ]; norm_num)
  -- the gradient turns
  have hg' : T2 g' = rotate softQᵀ (T2 g) := by
    obtain ⟨g₁, hg₁, hr⟩ := C36_invariants (softTod ε).mat z softQᵀ _ _ _ (arg .distortional (softF * softQ)) _ z _ hQ.transpose
      (posDef_arg .distortional hF) (T2_stores (arg .distortional softF))
      (by rw [← arg_rotate .distortional hQ]; exact T2_stores _) (T2_stores g) (congrArg Prod.fst h1)
    have : g' = g₁ := (Prod.mk.inj (Except.ok.inj ((congrArg Prod.fst h1').symm.trans hr))).1
    rw [this, T2_eq hg₁]
  refine ⟨ε, by rw [hε]; norm_num, softF, softQ, _, _, softF_det, hQ,
    (Space.returns_hessian ..).2 ⟨g, z, m, k, h1, h2 m, (piolaElasticity_force ..).symm⟩,
    (Space.returns_hessian ..).2 ⟨g', z, m', k', h1', h2' m', (piolaElasticity_force ..).symm⟩, ?_⟩
  have c1 : astensor4 (elastOf .distortional softF g k) = fun i j l n => Distortional.geoT (cauchyGreen softF) (T2 g) i j l n +
      contract44 (contract44 (Distortional.projT (cauchyGreen softF)) (Distortional.c4bT (cauchyGreen softF) (astensor4 k)))
        (Distortional.projTt (cauchyGreen softF)) i j l n := by
    change astensor4 (Distortional.c4 softF g k) = _
    rw [Distortional.T4_c4 hF, if_pos]
    rw [← Distortional.dropped_iff]
    intro h
    have := h 1 1 2 2
    rw [h3, ea, hd, Real.one_rpow, soft_cg] at this
    simp [invariants, dyad, dyadSym, Matrix.trace, Fin.sum_univ_three, Matrix.one_apply, Matrix.diagonal_apply] at this
    norm_num [hε, abs_of_pos] at this
  have c2 : astensor4 (elastOf .distortional (softF * softQ) g' k') =
      rotate4 softQᵀ (Distortional.geoT (cauchyGreen softF) (T2 g)) := by
    change astensor4 (Distortional.c4 (softF * softQ) g' k') = _
    rw [Distortional.T4_c4 hFQ, if_neg, hg', cauchyGreen_mul, geoT_rotate hQ.transpose (by rw [hd]; norm_num)]
    rw [← Distortional.dropped_iff, not_not]
    intro i j l n
    rw [h3', eaQ, hdQ, Real.one_rpow, soft_cgQ]
    fin_cases i <;> fin_cases j <;> fin_cases l <;> fin_cases n <;>
      simp [invariants, dyad, dyadSym, Matrix.trace, Fin.sum_univ_three, Matrix.one_apply, abs_mul] <;>
      norm_num [hε, abs_of_pos]
  intro h
  rw [c1, c2, stressOf_rotate .distortional hF hQ hg', piolaT_turn hQ] at h
  have h := congrArg (turnMaterial softQᵀ) h
  rw [turn_turn hQ, turn_turn hQ] at h
  have h := congrFun (congrFun (congrFun (congrFun h 0) 1) 0) 1
  have hi : (cauchyGreen softF)⁻¹ 0 1 = 0 := by
    have : (cauchyGreen softF)⁻¹ = diagonal ![1 / 16, 4, 4] := by
      refine Matrix.inv_eq_right_inv ?_
      rw [soft_cg, Matrix.diagonal_mul_diagonal, ← Matrix.diagonal_one]
      congr 1
      funext a
      fin_cases a <;> norm_num
    rw [this]
    rfl
  have p1 : ∀ a b, Distortional.projT (cauchyGreen softF) 0 1 a b = dyadSym (1 : Ten2 ℝ) 1 0 1 a b := by
    intro a b
    simp only [Distortional.projT, dyad, hi, zero_mul, mul_zero, sub_zero]
  have p2 : ∀ a b, Distortional.projTt (cauchyGreen softF) a b 0 1 = dyadSym (1 : Ten2 ℝ) 1 a b 0 1 := by
    intro a b
    simp only [Distortional.projTt, dyad, hi, mul_zero, sub_zero]
  have p3 : contract44 (contract44 (Distortional.projT (cauchyGreen softF)) (Distortional.c4bT (cauchyGreen softF) (astensor4 k)))
        (Distortional.projTt (cauchyGreen softF)) 0 1 0 1 = 4 * astensor4 k 0 1 0 1 := by
    have hm := (stores4_astensor4 k).minor
    simp only [contract44, p1, p2, Distortional.c4bT, hd, Real.one_rpow, Fin.sum_univ_three, dyadSym, Matrix.one_apply]
    simp only [Fin.isValue, Fin.reduceEq, ite_true, ite_false]
    simp only [hm.1 1 0, hm.2 _ _ 1 0]
    ring
  have p4 : astensor4 k 0 1 0 1 = -27 / 4 * ε := by
    rw [h3, ea, soft_cg]
    simp [invariants, dyad, dyadSym, Matrix.trace, Fin.sum_univ_three, Matrix.one_apply, Matrix.diagonal_apply]
    ring
  simp only [piolaT, add_left_inj] at h
  have e : ∀ f : Fin 3 → Fin 3 → ℝ, ∑ I, ∑ K, softF 0 I * softF 0 K * f I K = 16 * f 0 0 := by
    intro f
    simp [softF, Fin.sum_univ_three, Matrix.diagonal_apply]
    norm_num
  rw [e fun I K => Distortional.geoT (cauchyGreen softF) (T2 g) I 1 K 1,
    e fun I K => Distortional.geoT (cauchyGreen softF) (T2 g) I 1 K 1 + contract44 (contract44 (Distortional.projT (cauchyGreen softF))
      (Distortional.c4bT (cauchyGreen softF) (astensor4 k))) (Distortional.projTt (cauchyGreen softF)) I 1 K 1, p3, p4] at h
  apply hε0
  linarith

/-- Third-order-deformation materials on the deformation or the dilatational space. -/
theorem C84_third_order (w : Space) (hw : w ≠ .distortional) (m : TOD ℝ) (z : Z) (s : w.St (InvSt ℝ Unit)) {F Q : Ten2 ℝ} {A : Ten4 ℝ}
    (hF : F.det ≠ 0) (hQ : Orthogonal Q) (h : Returns ((w.obj {} (Invariants.material m.mat)).hessian F z) s (.full A)) :
    Returns ((w.obj {} (Invariants.material m.mat)).hessian (F * Q) z) s (.full (turnMaterial Q A)) :=
  C84_hessian_partial w _ z s (C36_invariants _ z) (C84_invariants _ z) (C35_invariants_free _ (C35_third_order m)) hF hQ
    (fun h => absurd h hw) h

/-- Ogden materials on the deformation or the dilatational space. -/
theorem C84_ogden (lapack : Eigh) (hl : EighValid lapack) (ha : EighAscending lapack) (w : Space) (hw : w ≠ .distortional)
    (m : Ogden) (z : Z) (s : w.St (StrSt Unit)) {F Q : Ten2 ℝ} {A : Ten4 ℝ}
    (hF : F.det ≠ 0) (hQ : Orthogonal Q) (h : Returns ((w.obj {} (Stretches.material lapack m.mat)).hessian F z) s (.full A)) :
    Returns ((w.obj {} (Stretches.material lapack m.mat)).hessian (F * Q) z) s (.full (turnMaterial Q A)) :=
  C84_hessian_partial w _ z s (C36_stretches lapack hl _ (Ogden.symmetric m) z)
    (C84_stretches lapack hl ha _ (Ogden.symmetric m) (Ogden.symmetricHess m) z) (C35_stretches_free lapack _ (C35_ogden m)) hF hQ
    (fun h => absurd h hw) h

/-- Neo-Hookean and not too soft Mooney-Rivlin materials are above the tolerance. -/
theorem mooney_above (C10 C01 : ℝ) (strain : Bool) (z : Z) {F : Ten2 ℝ} (hF : F.det ≠ 0)
    (h : C01 = 0 ∨ 1 / 10 ^ 8 < |4 * (cauchyGreen F).det ^ (-2 / 3 : ℝ) * C01|) :
    AboveTolerance (Invariants.material (TOD.init C10 C01 0 0 0 strain).mat) z F := by
  rintro H ⟨s, c, k, hc, hk, hr⟩
  have hd : (T2 c).det ≠ 0 := by
    rw [T2_eq hc]
    exact ((posDef_cauchyGreen hF).smul (Real.rpow_pos_of_pos (det_cauchyGreen_pos hF) _)).det_ne_zero
  obtain ⟨r, q, m, h1, h2, h3⟩ := (Invariants.returns_hessian ..).1 hr
  have hq : q = ⟨none, none, none, none, none, none⟩ := by
    simp [TOD.mat, TOD.hessian, TOD.init, PyM.lift, Returns] at h2
    exact h2.symm
  have hr2 : r.d2.getD 0 = C01 ∧ r.d3.getD 0 = 0 := by
    have h1 := congrArg Prod.fst h1
    simp only [TOD.mat, PyM.lift_run, TOD.gradient_eq, Except.ok.injEq] at h1
    rw [← h1]
    by_cases h0 : C01 = 0 <;> simp [TOD.init, TOD.gradVal, h0]
  have e : H = fun i j l n => C01 * (dyad (1 : Ten2 ℝ) 1 i j l n - dyadSym (1 : Ten2 ℝ) 1 i j l n) := by
    rw [← T4_eq hk, Invariants.hessRes_ok h3]
    have e : (fun a b => Invariants.hessPure c r q a b + (q.h33.elim 0 fun _ => q.h22.getD 0 *
        dya (fun a => trace c * eye a - c a) (fun a => trace c * eye a - c a) a b)) = Invariants.hessPure c r q := by
      funext a b
      simp [hq]
    rw [e, Invariants.T4_hessPure c hd]
    ext i j l n
    simp only [hq, Option.getD_none, hr2.1, hr2.2]
    ring
  rcases h with h0 | h0
  · left
    rw [e, h0]
    ext i j l n
    simp
  · right
    refine ⟨0, 0, 1, 1, ?_⟩
    rw [e]
    simpa [dyad, dyadSym, Matrix.one_apply] using h0

/-- Mooney-Rivlin materials on all three spaces, if `C01` is zero or large enough to pass the
tolerance of the distortional space at `F`. -/
theorem C84_mooney_rivlin (w : Space) (C10 C01 : ℝ) (strain : Bool) (z : Z) (s : w.St (InvSt ℝ Unit)) {F Q : Ten2 ℝ} {A : Ten4 ℝ}
    (hF : F.det ≠ 0) (hQ : Orthogonal Q) (h01 : C01 = 0 ∨ 1 / 10 ^ 8 < |4 * (cauchyGreen F).det ^ (-2 / 3 : ℝ) * C01|)
    (h : Returns ((w.obj {} (Invariants.material (TOD.init C10 C01 0 0 0 strain).mat)).hessian F z) s (.full A)) :
    Returns ((w.obj {} (Invariants.material (TOD.init C10 C01 0 0 0 strain).mat)).hessian (F * Q) z) s
      (.full (turnMaterial Q A)) :=
  C84_hessian_partial w _ z s (C36_invariants _ z) (C84_invariants _ z) (C35_invariants_free _ (C35_third_order _)) hF hQ
    (fun _ => ⟨mooney_above C10 C01 strain z hF h01, mooney_above C10 C01 strain z (det_mul_orthogonal hF hQ)
      (by rwa [cauchyGreen_mul, det_rotate _ hQ.transpose])⟩) h

/-- The hypotheses are met by a Mooney-Rivlin material at an isochoric deformation, and the call
returns. -/
example (w : Space) (z : Z) : ∃ (F Q : Ten2 ℝ) (A : Ten4 ℝ), F.det = 1 ∧ Orthogonal Q ∧ Q ≠ 1 ∧
    Returns ((w.obj {} (Invariants.material (TOD.init 1 2 0 0 0 false).mat)).hessian F z)
      (w.fresh { material := () }) (.full A) ∧
    Returns ((w.obj {} (Invariants.material (TOD.init 1 2 0 0 0 false).mat)).hessian (F * Q) z)
      (w.fresh { material := () }) (.full (turnMaterial Q A)) := by
  have hh : ∀ z' m, Returns ((TOD.init 1 2 0 0 0 false).mat.hessian (invariants (T2 (arg w softF)) 0) (invariants (T2 (arg w softF)) 1)
      (invariants (T2 (arg w softF)) 2) (z' : Z)) m ⟨none, none, none, none, none, none⟩ := by
    intro z' m
    simp [TOD.mat, TOD.hessian, TOD.init, PyM.lift, Returns]
  set r := (TOD.init (1 : ℝ) 2 0 0 0 false).gradVal (invariants (T2 (arg w softF)) 0) (invariants (T2 (arg w softF)) 1) z with hr
  have hg : ∀ m, (TOD.init 1 2 0 0 0 false).mat.gradient (invariants (T2 (arg w softF)) 0) (invariants (T2 (arg w softF)) 1)
      (invariants (T2 (arg w softF)) 2) z m = (.ok r, m) := by
    intro m
    simp only [TOD.mat, PyM.lift_run, TOD.gradient_eq, hr]
  obtain ⟨k, hk⟩ := (Invariants.hessRes_returns (arg w softF) r ⟨none, none, none, none, none, none⟩).2 (by simp [Invariants.okPattern])
  have h1 : Returns ((w.obj {} (Invariants.material (TOD.init 1 2 0 0 0 false).mat)).hessian softF z)
      (w.fresh { material := () }) (.full _) :=
    (Space.returns_hessian ..).2 ⟨_, _, _, k, Prod.ext ((Invariants.returns_gradient ..).2 ⟨r, congrArg Prod.fst (hg _), rfl, rfl⟩) rfl,
      (Invariants.returns_hessian ..).2 ⟨r, _, _, hg _, hh _ _, hk⟩, (piolaElasticity_force ..).symm⟩
  have hd : (cauchyGreen softF).det = 1 := by
    rw [cauchyGreen, Matrix.det_mul, Matrix.det_transpose, softF_det, one_mul]
  refine ⟨softF, softQ, _, softF_det, softQ_orthogonal, ?_, h1, C84_mooney_rivlin w 1 2 false z _ (by rw [softF_det]; norm_num)
    softQ_orthogonal (Or.inr (by rw [hd, Real.one_rpow]; norm_num)) h1⟩
  intro h
  have := congrFun (congrFun h 0) 0
  norm_num [softQ] at this

end Props
