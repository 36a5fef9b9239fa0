import Verif.Proofs.Stretches
import Verif.Proofs.SpaceUniform

/-! Major symmetry of the elasticity tensors. -/

namespace Hel
open Spec

variable {Z μ : Type}

/-- symmetry of the reduced storage -/
def Symm6 (M : Mat6 ℝ) : Prop := ∀ a b, M a b = M b a

theorem major_iff (M : Mat6 ℝ) : MajorSymm (astensor4 M) ↔ Symm6 M := by
  constructor
  · intro h a b
    have := h (pos a).1 (pos a).2 (pos b).1 (pos b).2
    rwa [← (stores4_astensor4 M).entry, ← (stores4_astensor4 M).entry] at this
  · intro h i j k l
    exact h _ _

theorem dya_symm (x : Vec6 ℝ) : Symm6 (dya x x) := fun a b => by simp only [dya]; ring

theorem dyadSym_major {A B : Ten2 ℝ} (hA : A.IsSymm) (hB : B.IsSymm) : MajorSymm (dyadSym A B) := by
  intro i j k l
  simp only [dyadSym]
  rw [hA.apply i k, hA.apply j l, hB.apply i k, hB.apply j l]
  ring

theorem cdyaSelf_symm (x : Vec6 ℝ) : Symm6 (cdyaSelf x) := by
  rw [← major_iff, T4_cdyaSelf]; exact dyadSym_major (T2_symm _) (T2_symm _)

theorem cdya_symm (x y : Vec6 ℝ) : Symm6 (cdya x y) := by
  rw [← major_iff, T4_cdya]; exact dyadSym_major (T2_symm _) (T2_symm _)

theorem congruence_symm (P : Mat6 ℝ) {H : Mat6 ℝ} (hH : Symm6 H) :
    Symm6 (ddot44 (ddot44 P H) (transpose P)) := by
  rw [← major_iff, T4_ddot44, T4_ddot44, T4_transpose]
  intro i j k l
  simp only [contract44, Finset.sum_mul]
  have e : ∀ (f : Fin 3 → Fin 3 → Fin 3 → Fin 3 → ℝ), ∑ a, ∑ b, ∑ c, ∑ d, f a b c d = ∑ c, ∑ d, ∑ a, ∑ b, f a b c d := by
    intro f
    simp only [Fin.sum_univ_three]; ring
  rw [e]
  refine Finset.sum_congr rfl fun c _ => Finset.sum_congr rfl fun d _ => Finset.sum_congr rfl fun a _ =>
    Finset.sum_congr rfl fun b _ => ?_
  rw [(major_iff H).2 hH c d a b]
  ring

theorem elastOf_symm (w : Space) (F : Full2 ℝ) (g : Vec6 ℝ) {h : Mat6 ℝ} (hh : Symm6 h) :
    Symm6 (elastOf w F g h) := by
  intro a b
  rcases w
  · simp only [elastOf]; rw [hh]
  · simp only [elastOf, Distortional.c4]
    have h1 := dya_symm (Distortional.ic F) a b
    have h2 := cdyaSelf_symm (Distortional.ic F) a b
    have h3 : Symm6 fun a b => 4 * det (rightCauchyGreen F) ^ (-2 / 3 : ℝ) * h a b := fun a b => by
      show _ * h a b = _ * h b a
      rw [hh]
    split_ifs
    · beta_reduce
      rw [h1, h2]
      simp only [transpose]
      ring
    · beta_reduce
      rw [h1, h2, congruence_symm _ h3 a b]
      simp only [transpose]
      ring
  · simp only [elastOf, Dilatational.c4]
    rw [dya_symm, cdyaSelf_symm]

theorem dyadIK_major {A B : Ten2 ℝ} (hA : A.IsSymm) (hB : B.IsSymm) : MajorSymm (dyadIK A B) := by
  intro i j k l
  simp only [dyadIK]
  rw [hA.apply i k, hB.apply j l]

theorem pushArea_major (F : Full2 ℝ) (d : ℝ) {A : Ten4 ℝ} (hA : MajorSymm A) :
    MajorSymm fun i j k l => (∑ J, ∑ L, F j J * F l L * A i J k L) / d := by
  intro i j k l
  show _ / _ = _ / _
  rw [Finset.sum_comm]
  congr 1
  refine Finset.sum_congr rfl fun L _ => Finset.sum_congr rfl fun J _ => ?_
  rw [hA i J k L]; ring

theorem pushForce_major (F : Full2 ℝ) {A : Ten4 ℝ} (hA : MajorSymm A) :
    MajorSymm fun i J k L => ∑ I, ∑ K, F i I * F k K * A I J K L := by
  intro i j k l
  show ∑ I, _ = ∑ I, _
  rw [Finset.sum_comm]
  refine Finset.sum_congr rfl fun L _ => Finset.sum_congr rfl fun J _ => ?_
  rw [hA J j L l]; ring

theorem add_major {A B : Ten4 ℝ} (hA : MajorSymm A) (hB : MajorSymm B) :
    MajorSymm fun i j k l => A i j k l + B i j k l := by
  intro i j k l
  show _ + _ = _ + _
  rw [hA, hB]

theorem cdya_ik_major (A S : Vec6 ℝ) : MajorSymm (cdya_ik A S) := by
  rw [cdya_ik_T2]; exact dyadIK_major (T2_symm _) (T2_symm _)

theorem piolaElasticity_major (cfg : SpaceCfg) (F : Full2 ℝ) (S : Vec6 ℝ) (d : Option ℝ) {C4 : Mat6 ℝ}
    (invC : Option (Vec6 ℝ)) (h : Symm6 C4) :
    (∀ T, piolaElasticity cfg F S d C4 invC = .full T → MajorSymm T) ∧
    (∀ M, piolaElasticity cfg F S d C4 invC = .voigt M → Symm6 M) := by
  have h4 := (major_iff C4).2 h
  have e1 : MajorSymm fun i J k L => (∑ I, ∑ K, F i I * F k K * astensor4 C4 I J K L) + cdya_ik eye S i J k L :=
    add_major (pushForce_major F h4) (cdya_ik_major _ _)
  have e2 : ∀ v, MajorSymm fun i J k L => astensor4 C4 i J k L + cdya_ik v S i J k L := fun v =>
    add_major h4 (cdya_ik_major _ _)
  rcases cfg with ⟨fin, force, area⟩
  unfold piolaElasticity
  rcases fin with _ | _
  · simp only [Bool.false_eq_true, if_false]
    refine ⟨?_, ?_⟩
    · intro T hT; cases hT
    · intro M hM; cases hM; exact h
  · simp only [if_true]
    refine ⟨?_, ?_⟩
    · intro T hT
      rcases force with _ | f <;> rcases area with _ | a
      · cases hT; exact pushArea_major F _ e1
      · cases hT; exact e1
      · rcases invC with _ | v
        · cases hT; exact pushArea_major F _ (e2 _)
        · cases hT; exact pushArea_major F _ (e2 _)
      · rcases invC with _ | v
        · cases hT; exact e2 _
        · cases hT; exact e2 _
    · intro M hM
      rcases force with _ | f <;> rcases area with _ | a
      · cases hM
      · cases hM
      · rcases invC with _ | v <;> cases hM
      · rcases invC with _ | v <;> cases hM

theorem Stretches.term_symm (l dWdlC : Vec3 ℝ) (M : Fin 3 → Vec6 ℝ) (d2 : Vec6 ℝ) (m : Fin 6) :
    Symm6 (term l dWdlC M d2 m) := by
  intro a b
  unfold term
  by_cases hab : GenInv.ib m ≠ GenInv.ia m
  · simp only [if_pos hab]
    rw [cdya_symm (M (GenInv.ia m)) (M (GenInv.ib m)) a b]
    simp only [transpose]
    ring
  · simp only [if_neg hab]
    rw [not_not.1 hab, dya_symm]

theorem Stretches.hessPure_symm (l : Vec3 ℝ) (M : Fin 3 → Vec6 ℝ) (g : Vec3 ℝ) (h : StrHess) :
    Symm6 (hessPure l M g h) := fun a b =>
  Finset.sum_congr rfl fun m _ => term_symm ..

namespace Invariants

theorem addTermRes_symm {acc M : Mat6 ℝ} {c d : Option ℝ} {x y : Option (Vec6 ℝ)}
    {T : Vec6 ℝ → Vec6 ℝ → Mat6 ℝ} (hacc : Symm6 acc) (hT : ∀ u v, x = some u → y = some v → Symm6 (T u v))
    (h : addTermRes acc c d x y T = .ok M) : Symm6 M := by
  rcases c with _ | c <;> rcases x with _ | x <;> rcases y with _ | y <;> rcases d with _ | d <;>
    simp [addTermRes] at h <;> subst h
  all_goals first
    | exact hacc
    | intro a b
      beta_reduce
      rw [hacc a b, hT x y rfl rfl a b]

theorem dyaSum_symm (x y : Vec6 ℝ) : Symm6 (dyaSum x y) := fun a b => by simp only [dyaSum, dya]; ring

theorem hessRes_symm {C : Vec6 ℝ} {r : InvGrad ℝ Z} {h : InvHess ℝ} {M : Mat6 ℝ}
    (hM : hessRes C r h = .ok M) : Symm6 M := by
  have same : ∀ (x : Option (Vec6 ℝ)) u v, x = some u → x = some v → Symm6 (dya u v) := by
    intro x u v h1 h2
    obtain rfl := Option.some.inj (h1.symm.trans h2)
    exact dya_symm u
  unfold hessRes at hM
  simp only [bind, Except.bind] at hM
  split at hM
  · cases hM
  rename_i a1 e1
  have s1 := addTermRes_symm (by
    intro a b
    beta_reduce
    rw [dya_symm eye a b, cdyaSelf_symm eye a b, dya_symm (inv C _) a b, cdyaSelf_symm (inv C _) a b]) (same _) e1
  split at hM
  · cases hM
  rename_i a2 e2
  have s2 := addTermRes_symm s1 (same _) e2
  split at hM
  · cases hM
  rename_i a3 e3
  have s3 := addTermRes_symm s2 (same _) e3
  split at hM
  · cases hM
  rename_i a4 e4
  have s4 := addTermRes_symm s3 (fun u v _ _ => dyaSum_symm u v) e4
  split at hM
  · cases hM
  rename_i a5 e5
  have s5 := addTermRes_symm s4 (fun u v _ _ => dyaSum_symm u v) e5
  exact addTermRes_symm s5 (fun u v _ _ => dyaSum_symm u v) hM

end Invariants

end Hel
