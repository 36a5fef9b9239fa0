import Verif.Spec.RoundingTangent
import Verif.Model.RoundingTangent
import Verif.Proofs.RoundingTangent
import Verif.Proofs.RoundingHess
import Verif.Props.Tolerance

/-! The sum over the eigenbases in the tangents of stretch-based materials, with rounding. -/

namespace Hel.Rnd
open Spec Matrix

section
variable {K : Type} [Arith K]

/-- The terms of the loop. -/
theorem stretchesHess_eq (d2 f : Vec6 K) (v : Full2 K) (i j : Fin 6) :
    stretchesHess d2 f v i j =
      (((lit 0 + d2 0 * dya (eigenbases v 0) (eigenbases v 0) i j + d2 1 * dya (eigenbases v 1) (eigenbases v 1) i j +
        d2 2 * dya (eigenbases v 2) (eigenbases v 2) i j +
        d2 3 * dya (eigenbases v 0) (eigenbases v 1) i j +
          (d2 3 * dya (eigenbases v 0) (eigenbases v 1) j i + f 3 * lit 2 * cdya (eigenbases v 0) (eigenbases v 1) i j)) +
        d2 4 * dya (eigenbases v 1) (eigenbases v 2) i j +
          (d2 4 * dya (eigenbases v 1) (eigenbases v 2) j i + f 4 * lit 2 * cdya (eigenbases v 1) (eigenbases v 2) i j)) +
        d2 5 * dya (eigenbases v 0) (eigenbases v 2) i j +
          (d2 5 * dya (eigenbases v 0) (eigenbases v 2) j i + f 5 * lit 2 * cdya (eigenbases v 0) (eigenbases v 2) i j)) := by
  rfl

end

theorem IsHom.stretchesHess {K L : Type} [Arith K] [Arith L] {f : K → L} (hf : IsHom f) (d2 g : Vec6 K) (v : Full2 K) (i j : Fin 6) :
    f (Rnd.stretchesHess d2 g v i j) = Rnd.stretchesHess (fun a => f (d2 a)) (fun a => f (g a)) (fun i j => f (v i j)) i j := by
  have e : ∀ a, (fun i => f (Rnd.eigenbases v a i)) = Rnd.eigenbases (fun i j => f (v i j)) a := fun a => by
    funext i; exact hf.eigenbases v a i
  simp only [stretchesHess_eq, hf.add, hf.mul, hf.lit, hf.dya, hf.cdya, e]

theorem le_eigenbases {v : Full2 Cnt} (hv : ∀ i j, Cnt.Le (v i j) 1 0) (a : Fin 3) (i : Fin 6) : Cnt.Le (eigenbases v a i) 2 3 := by
  have h1 := hv (![0, 1, 2, 1, 2, 2] i) a
  have h2 := hv (![0, 1, 2, 0, 1, 0] i) a
  have e : eigenbases v a i = (einsum [[v (![0, 1, 2, 1, 2, 2] i) a, v (![0, 1, 2, 0, 1, 0] i) a]] : Cnt) := by
    fin_cases i <;> rfl
  rw [e]
  generalize v (![0, 1, 2, 1, 2, 2] i) a = x at *
  generalize v (![0, 1, 2, 0, 1, 0] i) a = y at *
  obtain ⟨h3, h4⟩ := h1
  obtain ⟨h5, h6⟩ := h2
  constructor
  · change max (x.a + (y.a + 0)) 0 ≤ 2; omega
  · change max (x.b + (y.b + 0)) 0 + (1 + 2) ≤ 3; omega

theorem le_cdya {A B : Vec6 Cnt} {a b : ℕ} (hA : ∀ i, Cnt.Le (A i) a b) (hB : ∀ i, Cnt.Le (B i) a b) (i j : Fin 6) :
    Cnt.Le (cdya A B i j) (2 * a) (2 * b + 4) := by
  unfold cdya cdyaEntry
  dsimp only
  generalize tab _ _ = x
  generalize tab _ _ = y
  generalize tab _ _ = z
  generalize tab _ _ = w
  have h1 := hA x; have h2 := hA y; have h3 := hA z; have h4 := hA w
  have h5 := hB x; have h6 := hB y; have h7 := hB z; have h8 := hB w
  simp only [Cnt.Le, Cnt.a_divNat, Cnt.b_divNat, Cnt.a_add, Cnt.b_add, Cnt.a_mul, Cnt.b_mul] at h1 h2 h3 h4 h5 h6 h7 h8 ⊢
  omega

theorem le_add' {x y : Cnt} {a a' b b' c : ℕ} (hx : Cnt.Le x a b) (hy : Cnt.Le y a' b') (ha : a ≤ a') (h : max b b' + 1 ≤ c) :
    Cnt.Le (x + y) a' c := by
  simp only [Cnt.Le, Cnt.a_add, Cnt.b_add] at *
  omega

theorem le_stretchesHess {d2 f : Vec6 Cnt} {v : Full2 Cnt} (hd : ∀ i, Cnt.Le (d2 i) 0 0) (hf : ∀ i, Cnt.Le (f i) 0 0)
    (hv : ∀ i j, Cnt.Le (v i j) 1 0) (i j : Fin 6) : Cnt.Le (stretchesHess d2 f v i j) 4 18 := by
  have hM := le_eigenbases hv
  have hD : ∀ a b i j, Cnt.Le (dya (eigenbases v a) (eigenbases v b) i j) 4 7 := fun a b i j => by
    have h1 := hM a i; have h2 := hM b j
    simp only [Cnt.Le, dya, Cnt.a_mul, Cnt.b_mul] at h1 h2 ⊢
    omega
  have hX : ∀ k a b i j, Cnt.Le (d2 k * dya (eigenbases v a) (eigenbases v b) i j) 4 8 := fun k a b i j => by
    have h1 := hd k; have h2 := hD a b i j
    simp only [Cnt.Le, Cnt.a_mul, Cnt.b_mul] at h1 h2 ⊢
    omega
  have hY : ∀ k a b i j, Cnt.Le (f k * lit 2 * cdya (eigenbases v a) (eigenbases v b) i j) 4 12 := fun k a b i j => by
    have h1 := hf k; have h2 := le_cdya (hM a) (hM b) i j
    simp only [Cnt.Le, Cnt.a_mul, Cnt.b_mul, Cnt.a_lit, Cnt.b_lit] at h1 h2 ⊢
    omega
  rw [stretchesHess_eq]
  have a0 := le_add' (c := 9) (⟨le_rfl, le_rfl⟩ : Cnt.Le (lit 0) 0 0) (hX 0 0 0 i j) (by omega) (by omega)
  have a1 := le_add' (c := 10) a0 (hX 1 1 1 i j) (by omega) (by omega)
  have a2 := le_add' (c := 11) a1 (hX 2 2 2 i j) (by omega) (by omega)
  have t3 := le_add' (c := 13) (hX 3 0 1 j i) (hY 3 0 1 i j) (by omega) (by omega)
  have t4 := le_add' (c := 13) (hX 4 1 2 j i) (hY 4 1 2 i j) (by omega) (by omega)
  have t5 := le_add' (c := 13) (hX 5 0 2 j i) (hY 5 0 2 i j) (by omega) (by omega)
  have a3 := le_add' (c := 14) (le_add' (c := 12) a2 (hX 3 0 1 i j) (by omega) (by omega)) t3 (by omega) (by omega)
  have a4 := le_add' (c := 16) (le_add' (c := 15) a3 (hX 4 1 2 i j) (by omega) (by omega)) t4 (by omega) (by omega)
  exact le_add' (c := 18) (le_add' (c := 17) a4 (hX 5 0 2 i j) (by omega) (by omega)) t5 (by omega) (by omega)

theorem stretchesHess_maj (d2 f : Vec6 Maj) (i j : Fin 6) :
    (stretchesHess d2 f (fun _ _ => ⟨1⟩) i j).val = (d2 0).val + (d2 1).val + (d2 2).val +
      2 * ((d2 3).val + (d2 4).val + (d2 5).val) + 2 * ((f 3).val + (f 4).val + (f 5).val) := by
  have e : ∀ a, eigenbases (fun _ _ => (⟨1⟩ : Maj)) a = fun _ => (⟨1⟩ : Maj) := fun a => by
    funext i
    fin_cases i <;> simp [eigenbases, asvoigt, einsum]
  rw [stretchesHess_eq]
  simp only [e, Maj.val_add, Maj.val_mul, Maj.val_lit, dya, cdya, cdyaEntry, Maj.val_divNat]
  norm_num
  ring

theorem eigenbases_exact (v : Ten2 ℝ) (a : Fin 3) : eigenbases v a = Stretches.bases v a := by
  funext i
  fin_cases i <;> simp [eigenbases, Stretches.bases, asvoigt, einsum]

/-- The computed sum, against the exact sum with the same coefficients. -/
theorem rounded_stretchesHess (T : Ctx) (d2 f : Vec6 ℝ) {V v : Ten2 ℝ} (hV : Orthogonal V) (hv : ∀ i a, |v i a - V i a| ≤ T.q - 1)
    (i j : Fin 6) :
    |(stretchesHess (T.R.arr6 d2) (T.R.arr6 f) (T.R.arr33 v) i j).val - stretchesHess d2 f V i j| ≤
      (T.E 4 18 - 1) * (|d2 0| + |d2 1| + |d2 2| + 2 * (|d2 3| + |d2 4| + |d2 5|) + 2 * (|f 3| + |f 4| + |f 5|)) := by
  let x : Cert T := stretchesHess (fun k => Cert.ofReal (d2 k)) (fun k => Cert.ofReal (f k)) (vecData T hV hv) i j
  have hfl : x.fl = (stretchesHess (T.R.arr6 d2) (T.R.arr6 f) (T.R.arr33 v) i j).val :=
    congrArg Fl.val (Cert.hom_fl.stretchesHess (fun k => Cert.ofReal (T := T) (d2 k)) (fun k => Cert.ofReal (f k)) (vecData T hV hv) i j)
  have hex : x.ex = stretchesHess d2 f V i j := Cert.hom_ex.stretchesHess (fun k => Cert.ofReal (T := T) (d2 k)) (fun k => Cert.ofReal (f k)) (vecData T hV hv) i j
  have hm : x.m = |d2 0| + |d2 1| + |d2 2| + 2 * (|d2 3| + |d2 4| + |d2 5|) + 2 * (|f 3| + |f 4| + |f 5|) :=
    (congrArg Maj.val (Cert.hom_m.stretchesHess (fun k => Cert.ofReal (T := T) (d2 k)) (fun k => Cert.ofReal (f k)) (vecData T hV hv) i j)).trans (stretchesHess_maj _ _ i j)
  have hcnt : Cnt.Le x.cnt 4 18 := by
    rw [show x.cnt = _ from Cert.hom_cnt.stretchesHess (fun k => Cert.ofReal (T := T) (d2 k)) (fun k => Cert.ofReal (f k)) (vecData T hV hv) i j]
    exact le_stretchesHess (fun _ => ⟨le_rfl, le_rfl⟩) (fun _ => ⟨le_rfl, le_rfl⟩) (fun _ _ => ⟨le_rfl, le_rfl⟩) i j
  have h := x.err_mono hcnt.1 hcnt.2
  rwa [hfl, hex, hm] at h

end Hel.Rnd
