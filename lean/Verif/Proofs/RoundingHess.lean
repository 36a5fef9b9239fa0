import Verif.Proofs.RoundingPow

/-! Rounded hessians of the distortional and the dilatational space. -/

namespace Hel.Rnd
open Spec

/-! ### homomorphisms -/

namespace IsHom

variable {K L : Type} [Arith K] [Arith L] {f : K → L} (hf : IsHom f)

include hf

theorem splitC4b (t s : K) (p : TOD ℝ) (C : Vec6 K) (a b : Fin 6) :
    f (Rnd.splitC4b t s p C a b) = Rnd.splitC4b (f t) (f s) p (fun a => f (C a)) a b := by
  simp only [Rnd.splitC4b, hf.mul, hf.lit, hf.invHess]

theorem distP4 {d : K → K} {d' : L → L} (hd : ∀ x, f (d x) = d' (f x)) (C : Vec6 K) (a b : Fin 6) :
    f (Rnd.distP4 d C a b) = Rnd.distP4 d' (fun a => f (C a)) a b := by
  simp only [Rnd.distP4, hf.sub, hf.cdyaSelf, hf.eye, hf.divNat, hf.dya, hf.inv hd]

theorem distGeo {d : K → K} {d' : L → L} (hd : ∀ x, f (d x) = d' (f x)) (t : K) (p : TOD ℝ) (C : Vec6 K) (a b : Fin 6) :
    f (Rnd.distGeo t d p C a b) = Rnd.distGeo (f t) d' p (fun a => f (C a)) a b := by
  simp only [Rnd.distGeo, hf.sub, hf.add, hf.mul, hf.lit, hf.cdyaSelf, hf.divNat, hf.dya, hf.inv hd, hf.ddot, hf.invGrad]

theorem distMat {d : K → K} {d' : L → L} (hd : ∀ x, f (d x) = d' (f x)) (t s : K) (p : TOD ℝ) (C : Vec6 K) (a b : Fin 6) :
    f (Rnd.distMat t s d p C a b) = Rnd.distMat (f t) (f s) d' p (fun a => f (C a)) a b := by
  simp only [Rnd.distMat, hf.ddot44, hf.distP4 hd, hf.splitC4b]

theorem distC4 {d : K → K} {d' : L → L} (hd : ∀ x, f (d x) = d' (f x)) (c : Prop) [Decidable c] (t s : K) (p : TOD ℝ)
    (C : Vec6 K) (a b : Fin 6) :
    f (Rnd.distC4 c t s d p C a b) = Rnd.distC4 c (f t) (f s) d' p (fun a => f (C a)) a b := by
  unfold Rnd.distC4
  split_ifs <;> simp only [hf.add, hf.distGeo hd, hf.distMat hd]

theorem dilC4 {d : K → K} {d' : L → L} (hd : ∀ x, f (d x) = d' (f x)) (t s : K) (p : TOD ℝ) (C : Vec6 K) (a b : Fin 6) :
    f (Rnd.dilC4 t s d p C a b) = Rnd.dilC4 (f t) (f s) d' p (fun a => f (C a)) a b := by
  simp only [Rnd.dilC4, hf.sub, hf.add, hf.mul, hf.lit, hf.cdyaSelf, hf.divNat, hf.dya, hf.inv hd, hf.ddot, hf.invGrad,
    hf.ddot24, hf.eye, hf.splitC4b, hf.trace]

end IsHom

/-! ### powers with the exponents `±2/3` -/

theorem powQ_pos {u e d : ℝ} (hu : 0 ≤ u) (he0 : 0 ≤ e) (he : e < 1) : 1 ≤ powQ u e d := by
  refine le_trans ?_ (le_powQ hu he0 he)
  rw [le_div_iff₀] <;> linarith

/-- The power of a number, which is known up to a relative error `e`, to a rounded exponent. -/
theorem pow_accuracy2 (R : Rounding) {d d' e y y' : ℝ} (hd : 0 < d) (hd' : |d' - d| ≤ e * d) (he0 : 0 ≤ e) (he : e < 1)
    (hy : |y| = 2 / 3) (hy' : |y' - y| ≤ R.u * |y|) :
    |R.pow d' y' - d ^ y| ≤ (powQ R.u e d ^ 2 - 1) * |d ^ y| := by
  have hu := R.u_nonneg
  obtain ⟨h1, h2⟩ := abs_le.1 hd'
  have hpos : 0 < d' := by nlinarith
  have hlog : |Real.log d' - Real.log d| ≤ -Real.log (1 - e) := by
    rw [← Real.log_div hpos.ne' hd.ne', abs_le, neg_neg]
    constructor
    · refine Real.log_le_log (by linarith) ?_
      rw [le_div_iff₀ hd]; linarith
    · rw [← Real.log_inv]
      refine Real.log_le_log (by positivity) ?_
      rw [div_le_iff₀ hd]
      have : d' ≤ (1 + e) * d := by linarith
      refine this.trans ?_
      gcongr
      rw [← one_div, le_div_iff₀ (by linarith)]
      nlinarith
  have hL : 0 ≤ -Real.log (1 - e) := (abs_nonneg _).trans hlog
  have hy1 : |y'| ≤ 1 + R.u := by
    have := abs_sub_abs_le_abs_sub y' y
    rw [hy] at this hy'
    linarith
  have hM : |Real.log d' * y' - Real.log d * y| ≤ 2 * ((1 + R.u) * -Real.log (1 - e) + R.u / 3 * |Real.log d|) := by
    rw [show Real.log d' * y' - Real.log d * y = y' * (Real.log d' - Real.log d) + (y' - y) * Real.log d by ring]
    refine (abs_add_le _ _).trans ?_
    rw [abs_mul, abs_mul]
    have h3 : |y' - y| ≤ 2 * (R.u / 3) := by rw [hy] at hy'; linarith
    have h4 : |y'| * |Real.log d' - Real.log d| ≤ (1 + R.u) * -Real.log (1 - e) := by gcongr
    have h5 : |y' - y| * |Real.log d| ≤ 2 * (R.u / 3) * |Real.log d| := by gcongr
    have h6 : 0 ≤ (1 + R.u) * -Real.log (1 - e) := by positivity
    linarith
  have hp := R.pow_error d' y' hpos
  rw [Real.rpow_def_of_pos hpos] at hp
  have hδ : 0 ≤ (1 + R.u) ^ 2 - 1 := sub_nonneg.2 (one_le_pow₀ (by linarith))
  have := exp_close hδ hM hp
  rw [← Real.rpow_def_of_pos hd] at this
  rw [abs_of_pos (Real.rpow_pos_of_pos hd y)]
  refine this.trans ?_
  have hp := (Real.rpow_pos_of_pos hd y).le
  gcongr
  rw [powQ_eq he, mul_pow, ← Real.exp_nat_mul]
  push_cast
  gcongr
  nlinarith

/-- A number which is known with the relative accuracy `q² - 1`. -/
def Cert.rel2 {T : Ctx} (t t' : ℝ) (h : |t' - t| ≤ (T.q ^ 2 - 1) * |t|) : Cert T where
  fl := t'
  ex := t
  m := |t|
  a := 2
  b := 0
  maj := le_rfl
  err := by simpa [Ctx.E] using h

/-! ### exact values -/

theorem T4_add (A B : Mat6 ℝ) (i j k l : Fin 3) :
    astensor4 (fun a b => A a b + B a b) i j k l = astensor4 A i j k l + astensor4 B i j k l := rfl

theorem splitC4b_exact (p : TOD ℝ) (C : Vec6 ℝ) (t s : ℝ) (i j k l : Fin 3) :
    astensor4 (Rnd.splitC4b t s p C) i j k l = 4 * s * Props.todHessT p (t • T2 C) i j k l := by
  rw [← T2_smul, ← invHess_exact]
  rfl

theorem distP4_exact (C : Vec6 ℝ) {d : ℝ} (hd : d = (T2 C).det) (h : d ≠ 0) :
    astensor4 (Rnd.distP4 (fun x => x / d) C) = Distortional.projT (T2 C) := by
  unfold Distortional.projT
  rw [← T2_inv_exact hd h, ← T2_eye, ← T4_cdyaSelf, ← cdyaSelf_exact]
  ext i j k l
  rw [← T4_dya]
  change _ - _ / ((3 : ℕ+) : ℝ) = _ - 1 / 3 * _
  rw [div_eq_mul_inv, mul_comm]
  norm_num
  rfl

theorem distP4t_exact (C : Vec6 ℝ) {d : ℝ} (hd : d = (T2 C).det) (h : d ≠ 0) :
    astensor4 (fun a b => Rnd.distP4 (fun x => x / d) C b a) = Distortional.projTt (T2 C) := by
  have : astensor4 (fun a b => Rnd.distP4 (fun x => x / d) C b a) =
      fun i j k l => astensor4 (Rnd.distP4 (fun x => x / d) C) k l i j := rfl
  rw [this, distP4_exact C hd h]
  ext i j k l
  simp only [Distortional.projT, Distortional.projTt, dyadSym, dyad]
  have : ∀ i j : Fin 3, (1 : Ten2 ℝ) i j = (1 : Ten2 ℝ) j i := fun i j => by
    simp [Matrix.one_apply, eq_comm]
  rw [this k i, this l j, this k j, this i l]
  ring

theorem distMat_exact (p : TOD ℝ) (C : Vec6 ℝ) {d t s : ℝ} (hd : d = (T2 C).det) (h : d ≠ 0)
    (hs : s = (T2 C).det ^ (-2 / 3 : ℝ)) :
    astensor4 (Rnd.distMat t s (fun x => x / d) p C) =
      contract44 (contract44 (Distortional.projT (T2 C)) (Distortional.c4bT (T2 C) (Props.todHessT p (t • T2 C))))
        (Distortional.projTt (T2 C)) := by
  have h4 : astensor4 (Rnd.splitC4b t s p C) = Distortional.c4bT (T2 C) (Props.todHessT p (t • T2 C)) := by
    funext i j k l
    rw [splitC4b_exact, hs]
    rfl
  unfold Rnd.distMat
  rw [ddot44_exact, ddot44_exact, T4_ddot44, T4_ddot44, distP4_exact C hd h, distP4t_exact C hd h, h4]

theorem distGeo_exact (p : TOD ℝ) (C : Vec6 ℝ) {d t : ℝ} (hd : d = (T2 C).det) (h : d ≠ 0)
    (ht : t = (T2 C).det ^ (-1 / 3 : ℝ)) :
    astensor4 (Rnd.distGeo t (fun x => x / d) p C) =
      Distortional.geoT (T2 C) (Props.todGradT p (unimodular (T2 C))) := by
  have hS : T2 (fun a => (2 * t) * invGrad p (fun a => t * C a) a) =
      (2 * (T2 C).det ^ (-1 / 3 : ℝ)) • Props.todGradT p (unimodular (T2 C)) := by
    rw [T2_smul, invGrad_exact, T2_smul, ht]; rfl
  unfold Distortional.geoT
  rw [← T2_inv_exact hd h, ← hS, ← T4_cdyaSelf, ← T2_ddot, ← ddot_exact, ← cdyaSelf_exact]
  ext i j k l
  rw [← T4_dya, ← T4_dya, ← T4_dya]
  have h3 : ((3 : ℕ+) : ℝ) = 3 := by norm_num
  have e : astensor4 (Hel.dya (inv (fun x => x / d) C) fun a => (2 * t) * invGrad p (fun a => t * C a) a) i j k l =
      astensor4 (fun a b => Hel.dya (fun a => (2 * t) * invGrad p (fun a => t * C a) a) (inv (fun x => x / d) C) b a)
        i j k l := by
    simp only [astensor4, Hel.dya]; ring
  rw [e, ← h3]
  rfl

theorem dilC4_exact (p : TOD ℝ) (C : Vec6 ℝ) {d t s : ℝ} (hd : d = (T2 C).det) (h : d ≠ 0)
    (ht : t = (T2 C).det ^ (1 / 3 : ℝ)) (hs : s = (T2 C).det ^ (2 / 3 : ℝ)) :
    astensor4 (Rnd.dilC4 t s (fun x => x / d) p C) =
      Dilatational.c4T (T2 C) (Props.todGradT p ((T2 C).det ^ (1 / 3 : ℝ) • T2 C))
        (Props.todHessT p ((T2 C).det ^ (1 / 3 : ℝ) • T2 C)) := by
  have hS : T2 (fun a => (2 * t) * invGrad p (fun a => t * C a) a) =
      (2 * (T2 C).det ^ (1 / 3 : ℝ)) • Props.todGradT p ((T2 C).det ^ (1 / 3 : ℝ) • T2 C) := by
    rw [T2_smul, invGrad_exact, T2_smul, ht]
  have e1 : ddot (ddot24 eye (Rnd.splitC4b t s p C)) eye =
      4 * (T2 C).det ^ (2 / 3 : ℝ) * contract22 1 (contract42 (Props.todHessT p ((T2 C).det ^ (1 / 3 : ℝ) • T2 C)) 1) := by
    rw [ddot_exact, ddot24_exact, eye_exact, T2_ddot, T2_eye, T2_eq (Props.C05_ddot24 (T2_stores Hel.eye) (stores4_astensor4 _)), T2_eye]
    simp only [contract22, contract24, contract42, splitC4b_exact, ht, hs, Fin.sum_univ_three, Matrix.one_apply]
    simp
    ring
  unfold Dilatational.c4T
  rw [← e1, ← hS, ← T2_trace, ← trace_exact, ← T2_inv_exact hd h, ← T4_cdyaSelf, ← T4_dya, ← cdyaSelf_exact]
  ext i j k l
  have h3 : ((3 : ℕ+) : ℝ) = 3 := by norm_num
  have h9 : ((9 : ℕ+) : ℝ) = 9 := by norm_num
  have : ∀ x y w : ℝ, x * y / 9 - w = x / 9 * y - w := fun x y w => by ring
  rw [← this, ← h3, ← h9]
  rfl

/-! ### majorants -/

namespace Maj

theorem T2_val_inv (d : ℝ) (C : Vec6 Maj) :
    T2 (val6 (inv (fun x => ⟨x.val / d⟩) C)) = (1 / d) • cofP (T2 (val6 C)) := by
  ext i j
  have := val_inv d C i j
  rw [Matrix.smul_apply, smul_eq_mul, one_div, mul_comm, ← div_eq_mul_inv, ← this]
  rfl

theorem T2_val_Sb (p : TOD ℝ) (C : Vec6 Maj) (t : Maj) :
    T2 (val6 fun a => (lit 2 : Maj) * t * invGrad p (fun a => t * C a) a) =
      (2 * t.val) • (par p).gradP (t.val • T2 (val6 C)) := by
  have e : (val6 fun a => (lit 2 : Maj) * t * invGrad p (fun a => t * C a) a) =
      fun a => (2 * t.val) * val6 (invGrad p fun a => t * C a) a := by
    funext a; simp [val6]
  rw [e, T2_smul, val_invGrad]
  congr 2

theorem val_splitC4b (p : TOD ℝ) (C : Vec6 Maj) (t s : Maj) (i j k l : Fin 3) :
    astensor4 (val66 (Rnd.splitC4b t s p C)) i j k l = 4 * s.val * (par p).hessP (t.val • T2 (val6 C)) i j k l := by
  have e : t.val • T2 (val6 C) = T2 (val6 fun a => t * C a) := by
    rw [← T2_smul]; rfl
  rw [e, ← val_invHess]
  simp [astensor4, val66, Rnd.splitC4b]

theorem val_distP4 (C : Vec6 Maj) (d : ℝ) (i j k l : Fin 3) :
    astensor4 (val66 (Rnd.distP4 (fun x => ⟨x.val / d⟩) C)) i j k l =
      dyadSym (1 : Ten2 ℝ) 1 i j k l + 1 / 3 * dyad ((1 / d) • cofP (T2 (val6 C))) (T2 (val6 C)) i j k l := by
  rw [← T2_val_inv, ← T4_dya, ← T2_eye, ← T4_cdyaSelf]
  have he : val6 eye = Hel.eye := funext val_eye
  simp only [astensor4, val66, Rnd.distP4, val_sub, val_cdyaSelf, val_divNat, val_dya, he]
  norm_num
  ring

theorem val_distP4t (C : Vec6 Maj) (d : ℝ) (i j k l : Fin 3) :
    astensor4 (val66 fun a b => Rnd.distP4 (fun x => ⟨x.val / d⟩) C b a) i j k l =
      dyadSym (1 : Ten2 ℝ) 1 i j k l + 1 / 3 * dyad (T2 (val6 C)) ((1 / d) • cofP (T2 (val6 C))) i j k l := by
  have := val_distP4 C d k l i j
  refine Eq.trans (b := astensor4 (val66 (Rnd.distP4 (fun x => ⟨x.val / d⟩) C)) k l i j) rfl (this.trans ?_)
  simp only [dyadSym, dyad]
  have : ∀ i j : Fin 3, (1 : Ten2 ℝ) i j = (1 : Ten2 ℝ) j i := fun i j => by
    simp [Matrix.one_apply, eq_comm]
  rw [this k i, this l j, this k j, this i l]
  ring

theorem val66_ddot44 (A B : Mat6 Maj) : val66 (ddot44 A B) = Hel.ddot44 (val66 A) (val66 B) := by
  funext i j; exact val_ddot44 A B i j

theorem val_distMat (p : TOD ℝ) (C : Vec6 Maj) (t s : Maj) (d : ℝ) :
    astensor4 (val66 (Rnd.distMat t s (fun x => ⟨x.val / d⟩) p C)) =
      contract44 (contract44 (fun i j k l => dyadSym (1 : Ten2 ℝ) 1 i j k l +
          1 / 3 * dyad ((1 / d) • cofP (T2 (val6 C))) (T2 (val6 C)) i j k l)
        fun i j k l => 4 * s.val * (par p).hessP (t.val • T2 (val6 C)) i j k l)
        fun i j k l => dyadSym (1 : Ten2 ℝ) 1 i j k l + 1 / 3 * dyad (T2 (val6 C)) ((1 / d) • cofP (T2 (val6 C))) i j k l := by
  unfold Rnd.distMat
  rw [val66_ddot44, val66_ddot44, T4_ddot44, T4_ddot44]
  congr 1
  · congr 1
    · funext i j k l; exact val_distP4 C d i j k l
    · funext i j k l; exact val_splitC4b p C t s i j k l
  · funext i j k l; exact val_distP4t C d i j k l

theorem val_distGeo (p : TOD ℝ) (C : Vec6 Maj) (t : Maj) (d : ℝ) (i j k l : Fin 3) :
    astensor4 (val66 (Rnd.distGeo t (fun x => ⟨x.val / d⟩) p C)) i j k l =
      let S := (2 * t.val) • (par p).gradP (t.val • T2 (val6 C))
      let I := (1 / d) • cofP (T2 (val6 C))
      2 / 3 * (contract22 S (T2 (val6 C)) * dyadSym I I i j k l + dyad S I i j k l + dyad I S i j k l +
        contract22 S (T2 (val6 C)) / 3 * dyad I I i j k l) := by
  dsimp only
  rw [← T2_val_inv, ← T2_val_Sb, ← T2_ddot, ← T4_dya, ← T4_dya, ← T4_dya, ← T4_cdyaSelf, ← val_ddot]
  simp only [astensor4, val66, Rnd.distGeo, val_sub, val_add, val_mul, val_cdyaSelf, val_divNat, val_dya, val_lit]
  have h2 : |(2 : ℝ)| = 2 := abs_two
  have h3 : ((3 : ℕ+) : ℝ) = 3 := by norm_num
  rw [h2, h3]
  have e : Hel.dya (val6 (inv (fun x => ⟨x.val / d⟩) C)) (val6 fun a => (lit 2 : Maj) * t * invGrad p (fun a => t * C a) a)
      (tab i j) (tab k l) =
      Hel.dya (val6 fun a => (lit 2 : Maj) * t * invGrad p (fun a => t * C a) a) (val6 (inv (fun x => ⟨x.val / d⟩) C))
      (tab k l) (tab i j) := by simp only [Hel.dya]; ring
  rw [e]

theorem val_dilC4 (p : TOD ℝ) (C : Vec6 Maj) (t s : Maj) (d : ℝ) (i j k l : Fin 3) :
    astensor4 (val66 (Rnd.dilC4 t s (fun x => ⟨x.val / d⟩) p C)) i j k l =
      let S := (2 * t.val) • (par p).gradP (t.val • T2 (val6 C))
      let I := (1 / d) • cofP (T2 (val6 C))
      (2 * S.trace + contract22 1 (contract42 (fun i j k l => 4 * s.val * (par p).hessP (t.val • T2 (val6 C)) i j k l) 1)) / 9 *
        dyad I I i j k l + 2 / 3 * S.trace * dyadSym I I i j k l := by
  dsimp only
  have he : val6 eye = Hel.eye := funext val_eye
  have e1 : (ddot (ddot24 eye (Rnd.splitC4b t s p C)) eye).val =
      contract22 1 (contract42 (fun i j k l => 4 * s.val * (par p).hessP (t.val • T2 (val6 C)) i j k l) 1) := by
    have e2 : val6 (ddot24 eye (Rnd.splitC4b t s p C)) = Hel.ddot24 Hel.eye (val66 (Rnd.splitC4b t s p C)) := by
      funext i; rw [← he]; exact val_ddot24 _ _ i
    rw [val_ddot, e2, he, T2_ddot, T2_eye, T2_eq (Props.C05_ddot24 (T2_stores Hel.eye) (stores4_astensor4 _)), T2_eye]
    simp only [contract22, contract24, contract42, val_splitC4b, Fin.sum_univ_three, Matrix.one_apply]
    simp
    ring
  rw [← e1, ← T2_val_inv, ← T2_val_Sb, ← T2_trace, ← T4_dya, ← T4_cdyaSelf, ← val_trace]
  simp only [astensor4, val66, Rnd.dilC4, val_sub, val_add, val_mul, val_cdyaSelf, val_divNat, val_dya, val_lit]
  have h2 : |(2 : ℝ)| = 2 := abs_two
  have h3 : ((3 : ℕ+) : ℝ) = 3 := by norm_num
  have h9 : ((9 : ℕ+) : ℝ) = 9 := by norm_num
  rw [h2, h3, h9]
  ring

theorem val_piolaElasticity (F : Ten2 ℝ) (S : Vec6 Maj) (C4 : Mat6 Maj) (i J k L : Fin 3) :
    (Rnd.piolaElasticity (fun i j => (lit (F i j) : Maj)) S C4 i J k L).val =
      pushP F (astensor4 (val66 C4)) i J k L + dyadIK (1 : Ten2 ℝ) (T2 (val6 S)) i J k L := by
  have he : val6 eye = Hel.eye := funext val_eye
  have h : ∀ S : Vec6 ℝ, Hel.cdya_ik Hel.eye S i J k L = dyadIK (1 : Ten2 ℝ) (T2 S) i J k L := by
    intro S
    rw [← T2_eye]; rfl
  simp only [Rnd.piolaElasticity, val_add, val_sum33, val_cdya_ik, he, h, List.map_cons,
    List.map_nil, List.prod_cons, List.prod_nil, val_lit, mul_one, pushP, ← mul_assoc]
  rfl

end Maj

/-! ### numbers of roundings -/

namespace Cnt

theorem le_ddot44 {A B : Mat6 Cnt} {a b a' b' : ℕ} (h : ∀ i j, Le (A i j) a b) (h' : ∀ i j, Le (B i j) a' b') (i j : Fin 6) :
    Le (ddot44 A B i j) (a + a') (b + b' + 9) := by
  refine le_sum6 (p := 3) (fun k => ?_) fun k => le_rfl
  obtain ⟨h1, h2⟩ := h i k
  obtain ⟨h3, h4⟩ := h' k j
  obtain ⟨h5, h6⟩ := le_weights k
  exact ⟨by change (A i k).a + ((B k j).a + ((weights k : Cnt).a + 0)) ≤ _; omega,
    by change (A i k).b + ((B k j).b + ((weights k : Cnt).b + 0)) ≤ _; omega⟩

theorem le_ddot24 {A : Vec6 Cnt} {B : Mat6 Cnt} {a b a' b' : ℕ} (h : ∀ i, Le (A i) a b) (h' : ∀ i j, Le (B i j) a' b')
    (j : Fin 6) : Le (ddot24 A B j) (a + a') (b + b' + 9) := by
  refine le_sum6 (p := 3) (fun k => ?_) fun k => le_rfl
  obtain ⟨h1, h2⟩ := h k
  obtain ⟨h3, h4⟩ := h' k j
  obtain ⟨h5, h6⟩ := le_weights k
  exact ⟨by change (A k).a + ((B k j).a + ((weights k : Cnt).a + 0)) ≤ _; omega,
    by change (A k).b + ((B k j).b + ((weights k : Cnt).b + 0)) ≤ _; omega⟩

theorem le_cdyaSelf {A : Vec6 Cnt} {a b : ℕ} (h : ∀ i, Le (A i) a b) (i j : Fin 6) :
    Le (cdyaSelf A i j) (2 * a) (2 * b + 3) := by
  unfold cdyaSelf cdyaSelfEntry
  dsimp only
  generalize tab _ _ = x
  generalize tab _ _ = y
  generalize tab _ _ = z
  generalize tab _ _ = w
  have h1 := h x; have h2 := h y; have h3 := h z; have h4 := h w
  simp only [Le, a_divNat, b_divNat, a_add, b_add, a_mul, b_mul] at h1 h2 h3 h4 ⊢
  omega

theorem le_splitC4b (p : TOD ℝ) {C : Vec6 Cnt} {b : ℕ} (h : ∀ i, Le (C i) 0 b) (i j : Fin 6) :
    Le (Rnd.splitC4b ⟨1, 0⟩ ⟨2, 0⟩ p C i j) 3 (b + 18) := by
  have h1 : ∀ i, Le ((⟨1, 0⟩ : Cnt) * C i) 1 (b + 1) := fun i => by
    have := h i
    simp only [Le] at this ⊢
    simp only [a_mul, b_mul]
    omega
  have h2 := le_invHess p h1 i j
  simp only [Le, Rnd.splitC4b, a_mul, b_mul, a_lit, b_lit] at h2 ⊢
  omega

theorem le_distP4 {C : Vec6 Cnt} {b : ℕ} (h : ∀ i, Le (C i) 0 b) (i j : Fin 6) :
    Le (Rnd.distP4 divQ C i j) 1 (3 * b + 6) := by
  have h1 := le_cdyaSelf le_eye i j
  have h2 := le_dya (le_inv h) h i j
  simp only [Le, Rnd.distP4, a_sub, b_sub, a_divNat, b_divNat] at h1 h2 ⊢
  omega

theorem le_distMat (p : TOD ℝ) {C : Vec6 Cnt} {b : ℕ} (h : ∀ i, Le (C i) 0 b) (i j : Fin 6) :
    Le (Rnd.distMat ⟨1, 0⟩ ⟨2, 0⟩ divQ p C i j) 5 (7 * b + 48) :=
  (le_ddot44 (le_ddot44 (le_distP4 h) (le_splitC4b p h)) (fun i j => le_distP4 h j i) i j).mono (by omega) (by omega)

theorem le_distGeo (p : TOD ℝ) {C : Vec6 Cnt} {b : ℕ} (h : ∀ i, Le (C i) 0 b) (i j : Fin 6) :
    Le (Rnd.distGeo ⟨1, 0⟩ divQ p C i j) 5 (7 * b + 48) := by
  have h1 := le_ddot (le_Sb p h) h
  have h2 := le_cdyaSelf (le_inv h) i j
  have h3 := le_dya (le_Sb p h) (le_inv h) i j
  have h4 := le_dya (le_Sb p h) (le_inv h) j i
  have h5 := le_dya (le_inv h) (le_inv h) i j
  simp only [Le, Rnd.distGeo, a_sub, b_sub, a_add, b_add, a_mul, b_mul, a_divNat, b_divNat, a_lit, b_lit] at h1 h2 h3 h4 h5 ⊢
  omega

theorem le_distC4 (c : Prop) [Decidable c] (p : TOD ℝ) {C : Vec6 Cnt} {b : ℕ} (h : ∀ i, Le (C i) 0 b) (i j : Fin 6) :
    Le (Rnd.distC4 c ⟨1, 0⟩ ⟨2, 0⟩ divQ p C i j) 5 (7 * b + 49) := by
  have h1 := le_distGeo p h i j
  have h2 := le_distMat p h i j
  unfold Rnd.distC4
  split_ifs
  · simp only [Le, a_add, b_add] at h1 h2 ⊢; omega
  · exact h1.mono (by omega) (by omega)

theorem le_dilC4 (p : TOD ℝ) {C : Vec6 Cnt} {b : ℕ} (hb : 5 ≤ b) (h : ∀ i, Le (C i) 0 b) (i j : Fin 6) :
    Le (Rnd.dilC4 ⟨1, 0⟩ ⟨2, 0⟩ divQ p C i j) 5 (6 * b + 42) := by
  have h1 := le_trace (le_Sb p h)
  have h2 := le_cdyaSelf (le_inv h) i j
  have h3 := le_ddot (le_ddot24 le_eye (le_splitC4b p h)) le_eye
  have h5 := le_dya (le_inv h) (le_inv h) i j
  simp only [Le, Rnd.dilC4, a_sub, b_sub, a_add, b_add, a_mul, b_mul, a_divNat, b_divNat, a_lit, b_lit] at h1 h2 h3 h5 ⊢
  omega

end Cnt

end Hel.Rnd
