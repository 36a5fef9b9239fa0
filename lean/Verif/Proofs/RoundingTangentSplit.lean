import Verif.Model.RoundingTangentSplit
import Verif.Spec.RoundingTangentSplit
import Verif.Proofs.RoundingOgdenSplit
import Verif.Proofs.RoundingTangentHess
import Verif.Props.RoundingHess

/-! Rounded tangents of given derivatives of the energy on the distortional and on the dilatational space. -/

namespace Hel.Rnd
open Spec Matrix

namespace IsHom

variable {K L : Type} [Arith K] [Arith L] {f : K → L} (hf : IsHom f)

include hf

theorem splitC4bOf (s : K) (H : Mat6 K) (a b : Fin 6) :
    f (Rnd.splitC4bOf s H a b) = Rnd.splitC4bOf (f s) (fun a b => f (H a b)) a b := by
  simp only [Rnd.splitC4bOf, hf.mul, hf.lit]

theorem distGeoOf {d : K → K} {d' : L → L} (hd : ∀ x, f (d x) = d' (f x)) (t : K) (X C : Vec6 K) (a b : Fin 6) :
    f (Rnd.distGeoOf t d X C a b) = Rnd.distGeoOf (f t) d' (fun a => f (X a)) (fun a => f (C a)) a b := by
  simp only [Rnd.distGeoOf, hf.sub, hf.add, hf.mul, hf.lit, hf.cdyaSelf, hf.divNat, hf.dya, hf.inv hd, hf.ddot]

theorem distMatOf {d : K → K} {d' : L → L} (hd : ∀ x, f (d x) = d' (f x)) (s : K) (H : Mat6 K) (C : Vec6 K) (a b : Fin 6) :
    f (Rnd.distMatOf s d H C a b) = Rnd.distMatOf (f s) d' (fun a b => f (H a b)) (fun a => f (C a)) a b := by
  simp only [Rnd.distMatOf, hf.ddot44, hf.distP4 hd, hf.splitC4bOf]

theorem distC4Of {d : K → K} {d' : L → L} (hd : ∀ x, f (d x) = d' (f x)) (c : Prop) [Decidable c] (t s : K) (X : Vec6 K)
    (H : Mat6 K) (C : Vec6 K) (a b : Fin 6) :
    f (Rnd.distC4Of c t s d X H C a b) =
      Rnd.distC4Of c (f t) (f s) d' (fun a => f (X a)) (fun a b => f (H a b)) (fun a => f (C a)) a b := by
  unfold Rnd.distC4Of
  split_ifs <;> simp only [hf.add, hf.distGeoOf hd, hf.distMatOf hd]

theorem dilC4Of {d : K → K} {d' : L → L} (hd : ∀ x, f (d x) = d' (f x)) (t s : K) (X : Vec6 K) (H : Mat6 K) (C : Vec6 K)
    (a b : Fin 6) : f (Rnd.dilC4Of t s d X H C a b) =
      Rnd.dilC4Of (f t) (f s) d' (fun a => f (X a)) (fun a b => f (H a b)) (fun a => f (C a)) a b := by
  simp only [Rnd.dilC4Of, hf.sub, hf.add, hf.mul, hf.lit, hf.cdyaSelf, hf.divNat, hf.dya, hf.inv hd, hf.ddot,
    hf.ddot24, hf.eye, hf.splitC4bOf, hf.trace]

end IsHom

/-! ### exact values -/

theorem splitC4bOf_exact (H : Mat6 ℝ) (s : ℝ) : astensor4 (Rnd.splitC4bOf s H) = fun i j k l => 4 * s * astensor4 H i j k l := rfl

theorem distMatOf_exact (H : Mat6 ℝ) (C : Vec6 ℝ) {d s : ℝ} (hd : d = (T2 C).det) (h : d ≠ 0)
    (hs : s = (T2 C).det ^ (-2 / 3 : ℝ)) :
    astensor4 (Rnd.distMatOf s (fun x => x / d) H C) =
      contract44 (contract44 (Distortional.projT (T2 C)) (Distortional.c4bT (T2 C) (astensor4 H)))
        (Distortional.projTt (T2 C)) := by
  have h4 : astensor4 (Rnd.splitC4bOf s H) = Distortional.c4bT (T2 C) (astensor4 H) := by
    rw [splitC4bOf_exact, hs]
    rfl
  unfold Rnd.distMatOf
  rw [ddot44_exact, ddot44_exact, T4_ddot44, T4_ddot44, distP4_exact C hd h, distP4t_exact C hd h, h4]

theorem distGeoOf_exact (X C : Vec6 ℝ) {d t : ℝ} (hd : d = (T2 C).det) (h : d ≠ 0)
    (ht : t = (T2 C).det ^ (-1 / 3 : ℝ)) :
    astensor4 (Rnd.distGeoOf t (fun x => x / d) X C) = Distortional.geoT (T2 C) (T2 X) := by
  have hS : T2 (fun a => (2 * t) * X a) = (2 * (T2 C).det ^ (-1 / 3 : ℝ)) • T2 X := by rw [T2_smul, ht]
  unfold Distortional.geoT
  rw [← T2_inv_exact hd h, ← hS, ← T4_cdyaSelf, ← T2_ddot, ← ddot_exact, ← cdyaSelf_exact]
  ext i j k l
  rw [← T4_dya, ← T4_dya, ← T4_dya]
  have h3 : ((3 : ℕ+) : ℝ) = 3 := by norm_num
  have e : astensor4 (Hel.dya (inv (fun x => x / d) C) fun a => (2 * t) * X a) i j k l =
      astensor4 (fun a b => Hel.dya (fun a => (2 * t) * X a) (inv (fun x => x / d) C) b a) i j k l := by
    simp only [astensor4, Hel.dya]; ring
  rw [e, ← h3]
  rfl

theorem dilC4Of_exact (X : Vec6 ℝ) (H : Mat6 ℝ) (C : Vec6 ℝ) {d t s : ℝ} (hd : d = (T2 C).det) (h : d ≠ 0)
    (ht : t = (T2 C).det ^ (1 / 3 : ℝ)) (hs : s = (T2 C).det ^ (2 / 3 : ℝ)) :
    astensor4 (Rnd.dilC4Of t s (fun x => x / d) X H C) = Dilatational.c4T (T2 C) (T2 X) (astensor4 H) := by
  have hS : T2 (fun a => (2 * t) * X a) = (2 * (T2 C).det ^ (1 / 3 : ℝ)) • T2 X := by rw [T2_smul, ht]
  have e1 : ddot (ddot24 eye (Rnd.splitC4bOf s H)) eye =
      4 * (T2 C).det ^ (2 / 3 : ℝ) * contract22 1 (contract42 (astensor4 H) 1) := by
    rw [ddot_exact, ddot24_exact, eye_exact, T2_ddot, T2_eye, T2_eq (Props.C05_ddot24 (T2_stores Hel.eye) (stores4_astensor4 _)), T2_eye]
    simp only [contract22, contract24, contract42, splitC4bOf_exact, hs, Fin.sum_univ_three, Matrix.one_apply]
    simp
    ring
  unfold Dilatational.c4T
  rw [← e1, ← hS, ← T2_trace, ← trace_exact, ← T2_inv_exact hd h, ← T4_cdyaSelf, ← T4_dya, ← cdyaSelf_exact]
  ext i j k l
  have h3 : ((3 : ℕ+) : ℝ) = 3 := by norm_num
  have h9 : ((9 : ℕ+) : ℝ) = 9 := by norm_num
  have : ∀ x y w : ℝ, x * y / 9 - w = x / 9 * y - w := fun x y w => by ring
  rw [← this, ← h3, ← h9]
  rfl

/-! ### majorants -/

namespace Maj

theorem val_splitC4bOf (s : Maj) (H : Mat6 Maj) :
    astensor4 (val66 (Rnd.splitC4bOf s H)) = fun i j k l => 4 * s.val * astensor4 (val66 H) i j k l := by
  funext i j k l
  simp [astensor4, val66, Rnd.splitC4bOf]

theorem val_distMatOf (H : Mat6 Maj) (C : Vec6 Maj) (s : Maj) (d : ℝ) :
    astensor4 (val66 (Rnd.distMatOf s (fun x => ⟨x.val / d⟩) H C)) =
      contract44 (contract44 (fun i j k l => dyadSym (1 : Ten2 ℝ) 1 i j k l +
          1 / 3 * dyad ((1 / d) • cofP (T2 (val6 C))) (T2 (val6 C)) i j k l)
        fun i j k l => 4 * s.val * astensor4 (val66 H) i j k l)
        fun i j k l => dyadSym (1 : Ten2 ℝ) 1 i j k l + 1 / 3 * dyad (T2 (val6 C)) ((1 / d) • cofP (T2 (val6 C))) i j k l := by
  unfold Rnd.distMatOf
  rw [val66_ddot44, val66_ddot44, T4_ddot44, T4_ddot44]
  congr 1
  · congr 1
    · funext i j k l; exact val_distP4 C d i j k l
    · exact val_splitC4bOf s H
  · funext i j k l; exact val_distP4t C d i j k l

theorem val_distGeoOf (X C : Vec6 Maj) (t : Maj) (d : ℝ) (i j k l : Fin 3) :
    astensor4 (val66 (Rnd.distGeoOf t (fun x => ⟨x.val / d⟩) X C)) i j k l =
      let S := (2 * t.val) • T2 (val6 X)
      let I := (1 / d) • cofP (T2 (val6 C))
      2 / 3 * (contract22 S (T2 (val6 C)) * dyadSym I I i j k l + dyad S I i j k l + dyad I S i j k l +
        contract22 S (T2 (val6 C)) / 3 * dyad I I i j k l) := by
  dsimp only
  rw [← T2_val_inv, ← val_Sb, ← T2_ddot, ← T4_dya, ← T4_dya, ← T4_dya, ← T4_cdyaSelf, ← val_ddot]
  simp only [astensor4, val66, Rnd.distGeoOf, val_sub, val_add, val_mul, val_cdyaSelf, val_divNat, val_dya, val_lit]
  have h2 : |(2 : ℝ)| = 2 := abs_two
  have h3 : ((3 : ℕ+) : ℝ) = 3 := by norm_num
  rw [h2, h3]
  have e : Hel.dya (val6 (inv (fun x => ⟨x.val / d⟩) C)) (val6 fun a => (lit 2 : Maj) * t * X a)
      (tab i j) (tab k l) =
      Hel.dya (val6 fun a => (lit 2 : Maj) * t * X a) (val6 (inv (fun x => ⟨x.val / d⟩) C))
      (tab k l) (tab i j) := by simp only [Hel.dya]; ring
  rw [e]

theorem val_dilC4Of (X : Vec6 Maj) (H : Mat6 Maj) (C : Vec6 Maj) (t s : Maj) (d : ℝ) (i j k l : Fin 3) :
    astensor4 (val66 (Rnd.dilC4Of t s (fun x => ⟨x.val / d⟩) X H C)) i j k l =
      let S := (2 * t.val) • T2 (val6 X)
      let I := (1 / d) • cofP (T2 (val6 C))
      (2 * S.trace + contract22 1 (contract42 (fun i j k l => 4 * s.val * astensor4 (val66 H) i j k l) 1)) / 9 *
        dyad I I i j k l + 2 / 3 * S.trace * dyadSym I I i j k l := by
  dsimp only
  have he : val6 eye = Hel.eye := funext val_eye
  have e1 : (ddot (ddot24 eye (Rnd.splitC4bOf s H)) eye).val =
      contract22 1 (contract42 (fun i j k l => 4 * s.val * astensor4 (val66 H) i j k l) 1) := by
    have e2 : val6 (ddot24 eye (Rnd.splitC4bOf s H)) = Hel.ddot24 Hel.eye (val66 (Rnd.splitC4bOf s H)) := by
      funext i; rw [← he]; exact val_ddot24 _ _ i
    rw [val_ddot, e2, he, T2_ddot, T2_eye, T2_eq (Props.C05_ddot24 (T2_stores Hel.eye) (stores4_astensor4 _)), T2_eye]
    simp only [contract22, contract24, contract42, val_splitC4bOf, Fin.sum_univ_three, Matrix.one_apply]
    simp
    ring
  rw [← e1, ← T2_val_inv, ← val_Sb, ← T2_trace, ← T4_dya, ← T4_cdyaSelf, ← val_trace]
  simp only [astensor4, val66, Rnd.dilC4Of, val_sub, val_add, val_mul, val_cdyaSelf, val_divNat, val_dya, val_lit]
  have h2 : |(2 : ℝ)| = 2 := abs_two
  have h3 : ((3 : ℕ+) : ℝ) = 3 := by norm_num
  have h9 : ((9 : ℕ+) : ℝ) = 9 := by norm_num
  rw [h2, h3, h9]
  ring

end Maj

/-! ### numbers of roundings -/

namespace Cnt

theorem le_splitC4bOf {H : Mat6 Cnt} (hH : ∀ i j, Le (H i j) 0 0) (i j : Fin 6) :
    Le (Rnd.splitC4bOf ⟨2, 0⟩ H i j) 2 2 := by
  have h2 := hH i j
  simp only [Le, Rnd.splitC4bOf, a_mul, b_mul, a_lit, b_lit] at h2 ⊢
  omega

theorem le_Sb_lit {X : Vec6 Cnt} (hX : ∀ i, Le (X i) 0 0) (i : Fin 6) : Le ((lit 2 : Cnt) * ⟨1, 0⟩ * X i) 1 2 := by
  have := hX i
  simp only [Le, a_mul, b_mul, a_lit, b_lit] at this ⊢
  omega

theorem le_distMatOf {H : Mat6 Cnt} {C : Vec6 Cnt} {b : ℕ} (hH : ∀ i j, Le (H i j) 0 0) (h : ∀ i, Le (C i) 0 b) (i j : Fin 6) :
    Le (Rnd.distMatOf ⟨2, 0⟩ divQ H C i j) 4 (6 * b + 32) :=
  (le_ddot44 (le_ddot44 (le_distP4 h) (le_splitC4bOf hH)) (fun i j => le_distP4 h j i) i j).mono (by omega) (by omega)

theorem le_distGeoOf {X C : Vec6 Cnt} {b : ℕ} (hX : ∀ i, Le (X i) 0 0) (h : ∀ i, Le (C i) 0 b) (i j : Fin 6) :
    Le (Rnd.distGeoOf ⟨1, 0⟩ divQ X C i j) 4 (6 * b + 32) := by
  have h1 := le_ddot (le_Sb_lit hX) h
  have h2 := le_cdyaSelf (le_inv h) i j
  have h3 := le_dya (le_Sb_lit hX) (le_inv h) i j
  have h4 := le_dya (le_Sb_lit hX) (le_inv h) j i
  have h5 := le_dya (le_inv h) (le_inv h) i j
  simp only [Le, Rnd.distGeoOf, a_sub, b_sub, a_add, b_add, a_mul, b_mul, a_divNat, b_divNat, a_lit, b_lit] at h1 h2 h3 h4 h5 ⊢
  omega

theorem le_distC4Of (c : Prop) [Decidable c] {X C : Vec6 Cnt} {H : Mat6 Cnt} {b : ℕ} (hX : ∀ i, Le (X i) 0 0)
    (hH : ∀ i j, Le (H i j) 0 0) (h : ∀ i, Le (C i) 0 b) (i j : Fin 6) :
    Le (Rnd.distC4Of c ⟨1, 0⟩ ⟨2, 0⟩ divQ X H C i j) 4 (6 * b + 33) := by
  have h1 := le_distGeoOf hX h i j
  have h2 := le_distMatOf hH h i j
  unfold Rnd.distC4Of
  split_ifs
  · simp only [Le, a_add, b_add] at h1 h2 ⊢; omega
  · exact h1.mono (by omega) (by omega)

theorem le_dilC4Of {X C : Vec6 Cnt} {H : Mat6 Cnt} {b : ℕ} (hX : ∀ i, Le (X i) 0 0)
    (hH : ∀ i j, Le (H i j) 0 0) (h : ∀ i, Le (C i) 0 b) (i j : Fin 6) :
    Le (Rnd.dilC4Of ⟨1, 0⟩ ⟨2, 0⟩ divQ X H C i j) 4 (4 * b + 36) := by
  have h1 := le_trace (le_Sb_lit hX)
  have h2 := le_cdyaSelf (le_inv h) i j
  have h3 := le_ddot (le_ddot24 le_eye (le_splitC4bOf hH)) le_eye
  have h5 := le_dya (le_inv h) (le_inv h) i j
  simp only [Le, Rnd.dilC4Of, a_sub, b_sub, a_add, b_add, a_mul, b_mul, a_divNat, b_divNat, a_lit, b_lit] at h1 h2 h3 h5 ⊢
  omega

end Cnt

end Hel.Rnd
