import Verif.Proofs.SpaceCalc

/-! What the spaces may return, in terms of what the material may return. -/

namespace Hel
open Spec Matrix

variable {Z μ : Type}

theorem Material.grad_T2 (mat : Material ℝ Z μ) (z : Z) (s : μ) (c g : Vec6 ℝ) (z' : Z)
    (h : Returns (mat.gradient c z) s (g, z')) : Material.Grad mat z (T2 c) (T2 g) :=
  ⟨s, c, g, z', T2_stores c, T2_stores g, h⟩

theorem Material.grad_elim {mat : Material ℝ Z μ} {z : Z} {C G : Ten2 ℝ} {c : Vec6 ℝ} (hc : T2 c = C)
    (h : Material.Grad mat z C G) : ∃ s g z', Returns (mat.gradient c z) s (g, z') ∧ T2 g = G := by
  obtain ⟨s, c', g, z', h1, h2, h3⟩ := h
  obtain rfl : c' = c := T2_injective (by rw [T2_eq h1, hc])
  exact ⟨s, g, z', h3, T2_eq h2⟩

theorem Material.hess_elim {mat : Material ℝ Z μ} {z : Z} {C : Ten2 ℝ} {H : Ten4 ℝ} {c : Vec6 ℝ}
    (hc : T2 c = C) (h : Material.Hess mat z C H) :
    ∃ s h, Returns (mat.hessian c z) s h ∧ astensor4 h = H := by
  obtain ⟨s, c', h, h1, h2, h3⟩ := h
  obtain rfl : c' = c := T2_injective (by rw [T2_eq h1, hc])
  exact ⟨s, h, h3, T4_eq h2⟩

theorem Material.hess_T4 (mat : Material ℝ Z μ) (z : Z) (s : μ) (c : Vec6 ℝ) (h : Mat6 ℝ)
    (hr : Returns (mat.hessian c z) s h) : Material.Hess mat z (T2 c) (astensor4 h) :=
  ⟨s, c, h, T2_stores c, stores4_astensor4 h, hr⟩

theorem Material.grad_symm {mat : Material ℝ Z μ} {z : Z} {C G : Ten2 ℝ} (h : Material.Grad mat z C G) :
    G.IsSymm := by
  obtain ⟨s, c, g, z', h1, h2, h3⟩ := h
  exact h2.symm

theorem Material.hess_minor {mat : Material ℝ Z μ} {z : Z} {C : Ten2 ℝ} {H : Ten4 ℝ}
    (h : Material.Hess mat z C H) : MinorSymm H := by
  obtain ⟨s, c, g, h1, h2, h3⟩ := h
  exact h2.minor

/-- the first Piola-Kirchhoff elasticity -/
noncomputable def piolaT (F S : Ten2 ℝ) (C4 : Ten4 ℝ) : Ten4 ℝ := fun i J k L =>
  (∑ I, ∑ K, F i I * F k K * C4 I J K L) + dyadIK (1 : Ten2 ℝ) S i J k L

namespace Deformation

theorem grad_iff (mat : Material ℝ Z μ) (z : Z) (F P : Ten2 ℝ) :
    SpaceObj.Grad (obj {} mat) z F P ↔
      ∃ G, Material.Grad mat z (cauchyGreen F) G ∧ P = F * ((2 : ℝ) • G) := by
  constructor
  · rintro ⟨s, z', h⟩
    obtain ⟨g, h1, h2⟩ := (returns_gradient _ _ _ _ _ _ _).1 h
    rw [piolaStress_default, T2_smul] at h2
    refine ⟨T2 g, ?_, Stress.full.inj h2⟩
    rw [← T2_rcg]
    exact Material.grad_T2 _ _ _ _ _ _ h1
  · rintro ⟨G, hG, rfl⟩
    obtain ⟨s, g, z', h1, rfl⟩ := Material.grad_elim (T2_rcg F) hG
    refine ⟨{ material := s }, z', (returns_gradient _ _ _ _ _ _ _).2 ⟨g, h1, ?_⟩⟩
    rw [piolaStress_default, T2_smul]

theorem hess_elim {mat : Material ℝ Z μ} {z : Z} {F : Ten2 ℝ} {A : Ten4 ℝ}
    (h : SpaceObj.Hess (obj {} mat) z F A) :
    ∃ G H, Material.Grad mat z (cauchyGreen F) G ∧ Material.Hess mat z (cauchyGreen F) H ∧
      A = piolaT F ((2 : ℝ) • G) (fun i j k l => 4 * H i j k l) := by
  obtain ⟨s, h⟩ := h
  obtain ⟨g, z', m, h, h1, h2, h3⟩ := (returns_hessian _ _ _ _ _ _).1 h
  rw [piolaElasticity_default, T2_smul] at h3
  refine ⟨T2 g, astensor4 h, ?_, ?_, ?_⟩
  · rw [← T2_rcg]; exact Material.grad_T2 _ _ s.material _ _ z' (by rw [Returns, h1])
  · rw [← T2_rcg]; exact Material.hess_T4 _ _ _ _ _ h2
  · exact Elasticity.full.inj h3

end Deformation

namespace Distortional

theorem grad_iff (mat : Material ℝ Z μ) (z : Z) {F P : Ten2 ℝ} (hF : F.det ≠ 0) :
    SpaceObj.Grad (obj {} mat) z F P ↔
      ∃ G, Material.Grad mat z (unimodular (cauchyGreen F)) G ∧ P = F * distS (cauchyGreen F) G := by
  constructor
  · rintro ⟨s, z', h⟩
    obtain ⟨g, h1, h2⟩ := (returns_gradient _ _ _ _ _ _ _).1 h
    rw [piolaStress_default, T2_st hF] at h2
    refine ⟨T2 g, ?_, Stress.full.inj h2⟩
    rw [← T2_cu]
    exact Material.grad_T2 _ _ _ _ _ _ h1
  · rintro ⟨G, hG, rfl⟩
    obtain ⟨s, g, z', h1, rfl⟩ := Material.grad_elim (T2_cu F) hG
    refine ⟨{ material := s }, z', (returns_gradient _ _ _ _ _ _ _).2 ⟨g, h1, ?_⟩⟩
    rw [piolaStress_default, T2_st hF]

/-- `np.allclose(4 * I3 ** (-2/3) * d2WdCdC, 0)` -/
def Dropped (F : Ten2 ℝ) (H : Ten4 ℝ) : Prop :=
  ∀ i j k l, |4 * (cauchyGreen F).det ^ (-2 / 3 : ℝ) * H i j k l| ≤ 1 / 10 ^ 8

theorem dropped_iff (F : Ten2 ℝ) (h : Mat6 ℝ) : Dropped F (astensor4 h) ↔
    allclose0 (fun a b => 4 * (cauchyGreen F).det ^ (-2 / 3 : ℝ) * h a b) := by
  constructor
  · intro hd a b
    have := hd (pos a).1 (pos a).2 (pos b).1 (pos b).2
    rwa [← (stores4_astensor4 h).entry a b] at this
  · intro hd i j k l
    exact hd (tab i j) (tab k l)

open Classical in
theorem hess_elim {mat : Material ℝ Z μ} {z : Z} {F : Ten2 ℝ} {A : Ten4 ℝ} (hF : F.det ≠ 0)
    (h : SpaceObj.Hess (obj {} mat) z F A) :
    ∃ G H, Material.Grad mat z (unimodular (cauchyGreen F)) G ∧
      Material.Hess mat z (unimodular (cauchyGreen F)) H ∧
      A = piolaT F (distS (cauchyGreen F) G) (if ¬ Dropped F H then
        fun i j k l => geoT (cauchyGreen F) G i j k l +
          contract44 (contract44 (projT (cauchyGreen F)) (c4bT (cauchyGreen F) H))
            (projTt (cauchyGreen F)) i j k l
        else geoT (cauchyGreen F) G) := by
  obtain ⟨s, h⟩ := h
  obtain ⟨g, z', m, h, h1, h2, h3⟩ := (returns_hessian _ _ _ _ _ _).1 h
  rw [piolaElasticity_default, T2_st hF, T4_c4 hF, ← dropped_iff] at h3
  refine ⟨T2 g, astensor4 h, ?_, ?_, ?_⟩
  · rw [← T2_cu]; exact Material.grad_T2 _ _ s.material _ _ z' (by rw [Returns, h1])
  · rw [← T2_cu]; exact Material.hess_T4 _ _ _ _ _ h2
  · exact Elasticity.full.inj h3

end Distortional

namespace Dilatational

theorem grad_iff (mat : Material ℝ Z μ) (z : Z) {F P : Ten2 ℝ} (hF : F.det ≠ 0) :
    SpaceObj.Grad (obj {} mat) z F P ↔
      ∃ G, Material.Grad mat z ((cauchyGreen F).det ^ (1 / 3 : ℝ) • cauchyGreen F) G ∧
        P = F * dilS (cauchyGreen F) G := by
  constructor
  · rintro ⟨s, z', h⟩
    obtain ⟨g, h1, h2⟩ := (returns_gradient _ _ _ _ _ _ _).1 h
    rw [piolaStress_default, T2_st hF] at h2
    refine ⟨T2 g, ?_, Stress.full.inj h2⟩
    rw [← T2_co]
    exact Material.grad_T2 _ _ _ _ _ _ h1
  · rintro ⟨G, hG, rfl⟩
    obtain ⟨s, g, z', h1, rfl⟩ := Material.grad_elim (T2_co F) hG
    refine ⟨{ material := s }, z', (returns_gradient _ _ _ _ _ _ _).2 ⟨g, h1, ?_⟩⟩
    rw [piolaStress_default, T2_st hF]

theorem hess_elim {mat : Material ℝ Z μ} {z : Z} {F : Ten2 ℝ} {A : Ten4 ℝ} (hF : F.det ≠ 0)
    (h : SpaceObj.Hess (obj {} mat) z F A) :
    ∃ G H, Material.Grad mat z ((cauchyGreen F).det ^ (1 / 3 : ℝ) • cauchyGreen F) G ∧
      Material.Hess mat z ((cauchyGreen F).det ^ (1 / 3 : ℝ) • cauchyGreen F) H ∧
      A = piolaT F (dilS (cauchyGreen F) G) (c4T (cauchyGreen F) G H) := by
  obtain ⟨s, h⟩ := h
  obtain ⟨g, z', m, h, h1, h2, h3⟩ := (returns_hessian _ _ _ _ _ _).1 h
  rw [piolaElasticity_default, T2_st hF, T4_c4 hF] at h3
  refine ⟨T2 g, astensor4 h, ?_, ?_, ?_⟩
  · rw [← T2_co]; exact Material.grad_T2 _ _ s.material _ _ z' (by rw [Returns, h1])
  · rw [← T2_co]; exact Material.hess_T4 _ _ _ _ _ h2
  · exact Elasticity.full.inj h3

end Dilatational

/-! ### symmetry of the stresses -/

theorem distS_symm {C G : Ten2 ℝ} (hC : C.IsSymm) (hG : G.IsSymm) : (distS C G).IsSymm := by
  have hi : (C⁻¹).IsSymm := by rw [Matrix.IsSymm, Matrix.transpose_nonsing_inv, hC.eq]
  exact (hG.smul _).sub (hi.smul _)

theorem dilS_symm {C : Ten2 ℝ} (hC : C.IsSymm) (G : Ten2 ℝ) : (dilS C G).IsSymm := by
  have hi : (C⁻¹).IsSymm := by rw [Matrix.IsSymm, Matrix.transpose_nonsing_inv, hC.eq]
  exact hi.smul _

theorem dyad_minor {A B : Ten2 ℝ} (hA : A.IsSymm) (hB : B.IsSymm) : MinorSymm (dyad A B) := by
  constructor
  · intro i j k l; simp only [dyad]; rw [hA.apply j i]
  · intro i j k l; simp only [dyad]; rw [hB.apply l k]

theorem geoT_minor {C G : Ten2 ℝ} (hC : C.IsSymm) (hG : G.IsSymm) : MinorSymm (Distortional.geoT C G) := by
  have hi : (C⁻¹).IsSymm := by rw [Matrix.IsSymm, Matrix.transpose_nonsing_inv, hC.eq]
  have h1 := dyadSym_minor hi hi
  have hG' : ((2 * C.det ^ (-1 / 3 : ℝ)) • G).IsSymm := hG.smul _
  have h2 := dyad_minor hG' hi
  have h3 := dyad_minor hi hG'
  have h4 := dyad_minor hi hi
  constructor
  · intro i j k l
    simp only [Distortional.geoT]
    rw [h1.1 i j, h2.1 i j, h3.1 i j, h4.1 i j]
  · intro i j k l
    simp only [Distortional.geoT]
    rw [h1.2 i j k l, h2.2 i j k l, h3.2 i j k l, h4.2 i j k l]

theorem projT_minor {C : Ten2 ℝ} (hC : C.IsSymm) : MinorSymm (Distortional.projT C) := by
  have hi : (C⁻¹).IsSymm := by rw [Matrix.IsSymm, Matrix.transpose_nonsing_inv, hC.eq]
  have h1 := dyadSym_minor (Matrix.isSymm_one (n := Fin 3) (α := ℝ)) (Matrix.isSymm_one (n := Fin 3) (α := ℝ))
  have h2 := dyad_minor hi hC
  constructor
  · intro i j k l
    simp only [Distortional.projT]
    rw [h1.1 i j, h2.1 i j]
  · intro i j k l
    simp only [Distortional.projT]
    rw [h1.2 i j k l, h2.2 i j k l]

theorem projTt_minor {C : Ten2 ℝ} (hC : C.IsSymm) : MinorSymm (Distortional.projTt C) := by
  have hi : (C⁻¹).IsSymm := by rw [Matrix.IsSymm, Matrix.transpose_nonsing_inv, hC.eq]
  have h1 := dyadSym_minor (Matrix.isSymm_one (n := Fin 3) (α := ℝ)) (Matrix.isSymm_one (n := Fin 3) (α := ℝ))
  have h2 := dyad_minor hC hi
  constructor
  · intro i j k l
    simp only [Distortional.projTt]
    rw [h1.1 i j, h2.1 i j]
  · intro i j k l
    simp only [Distortional.projTt]
    rw [h1.2 i j k l, h2.2 i j k l]

theorem contract44_minor {A B : Ten4 ℝ} (hA : MinorSymm A) (hB : MinorSymm B) :
    MinorSymm (contract44 A B) := by
  constructor
  · intro i j k l
    simp only [contract44]
    exact Finset.sum_congr rfl fun m _ => Finset.sum_congr rfl fun n _ => by rw [hA.1 i j]
  · intro i j k l
    simp only [contract44]
    exact Finset.sum_congr rfl fun m _ => Finset.sum_congr rfl fun n _ => by rw [hB.2 m n k l]

theorem smul_minor {A : Ten4 ℝ} (c : ℝ) (hA : MinorSymm A) : MinorSymm fun i j k l => c * A i j k l :=
  ⟨fun i j k l => by dsimp only; rw [hA.1 i j], fun i j k l => by dsimp only; rw [hA.2 i j k l]⟩

theorem add_minor {A B : Ten4 ℝ} (hA : MinorSymm A) (hB : MinorSymm B) :
    MinorSymm fun i j k l => A i j k l + B i j k l :=
  ⟨fun i j k l => by dsimp only; rw [hA.1 i j, hB.1 i j],
    fun i j k l => by dsimp only; rw [hA.2 i j k l, hB.2 i j k l]⟩

theorem c4T_minor {C : Ten2 ℝ} (hC : C.IsSymm) (G : Ten2 ℝ) (H : Ten4 ℝ) :
    MinorSymm (Dilatational.c4T C G H) := by
  have hi : (C⁻¹).IsSymm := by rw [Matrix.IsSymm, Matrix.transpose_nonsing_inv, hC.eq]
  have h1 := dyadSym_minor hi hi
  have h2 := dyad_minor hi hi
  constructor
  · intro i j k l
    simp only [Dilatational.c4T]
    rw [h1.1 i j, h2.1 i j]
  · intro i j k l
    simp only [Dilatational.c4T]
    rw [h1.2 i j k l, h2.2 i j k l]

/-- rate of the first Piola-Kirchhoff stress -/
theorem moves_piola {F : ℝ → Ten2 ℝ} {F' : Ten2 ℝ} {t₀ : ℝ} {S : ℝ → Ten2 ℝ} {S' : Ten2 ℝ}
    (hF : Moves F F' t₀) (hS : Moves S S' t₀) :
    Moves (fun t => F t * S t) (F' * S t₀ + F t₀ * S') t₀ := hF.mul hS

end Hel
