import Verif.Proofs.RoundingMaj
import Verif.Proofs.Binary64

/-!
# Floating-point rounding: the tensor algebra (C64) and the deformation space (C65)

`R` ranges over all floating-point arithmetics in the sense of the standard model, with every order
of the sums of `np.einsum` and `np.sum`.  `Within u n y x m` says `|y - x| ≤ ((1 + u) ^ n - 1) m`.
-/

namespace Props
open Spec Hel Rnd

/-- no second factor -/
abbrev ctx (R : Rounding) : Ctx := ⟨R, 1, le_rfl⟩

theorem within_of {R : Rounding} (x : Cert (ctx R)) {N : ℕ} {y : Fl R} {e : ℝ} {m : Maj} {c : Cnt} (hy : x.flc = y)
    (he : x.ex = e) (hm : x.mc = m) (hc : x.cnt = c) (hN : c.b ≤ N) : Within R.u N y.val e m.val := by
  subst hy he hm hc
  have := x.err_mono le_rfl hN
  simpa [Within, Ctx.E, ctx, Cert.flc, Cert.mc] using this

theorem maj_of {R : Rounding} (x : Cert (ctx R)) {e : ℝ} {m : Maj} (he : x.ex = e) (hm : x.mc = m) : |e| ≤ m.val := by
  subst he hm
  exact x.maj

/-- the absolute values of stored data -/
theorem val6_lit {A : Vec6 ℝ} {T : Ten2 ℝ} (hA : Stores A T) : T2 (Maj.val6 fun a => lit (A a)) = abs2 T := by
  rw [← T2_eq hA]; rfl

theorem stores_abs {A : Vec6 ℝ} {T : Ten2 ℝ} (hA : Stores A T) : Stores (Maj.val6 fun a => lit (A a)) (abs2 T) := by
  rw [← val6_lit hA]; exact T2_stores _

theorem stores4_abs {A : Mat6 ℝ} {T : Ten4 ℝ} (hA : Stores4 A T) :
    Stores4 (Maj.val66 fun a b => lit (A a b)) (abs4 T) := by
  rw [← T4_eq hA]; exact stores4_astensor4 _

/-- an entry of the full storage -/
theorem at4 {M : Mat6 ℝ} {T : Ten4 ℝ} (h : Stores4 M T) (i j k l : Fin 3) : M (tab i j) (tab k l) = T i j k l :=
  congrFun (congrFun (congrFun (congrFun (T4_eq h) i) j) k) l

/-- an entry of the full storage -/
theorem at2 {M : Vec6 ℝ} {T : Ten2 ℝ} (h : Stores M T) (i j : Fin 3) : M (tab i j) = T i j :=
  congrFun (congrFun (T2_eq h) i) j

theorem cdya_stores {A B : Vec6 ℝ} {T U : Ten2 ℝ} (hA : Stores A T) (hB : Stores B U) :
    Stores4 (Hel.cdya A B) (dyadSym T U) := C07_cdya false none (by simp) hA hB

theorem cdyaSelf_stores {A : Vec6 ℝ} {T : Ten2 ℝ} (hA : Stores A T) : Stores4 (Hel.cdyaSelf A) (dyadSym T T) :=
  C07_cdya true none (fun _ => rfl) hA hA

/-! ### C64: the functions of `hyperelastic.math` -/

/-- The computed trace. -/
theorem C64_trace (R : Rounding) {A : Vec6 ℝ} {T : Ten2 ℝ} (hA : Stores A T) :
    Within R.u 4 (R.trace A) T.trace (abs2 T).trace := by
  have h : Within R.u 4 (R.trace A) (Rnd.trace A) (Rnd.trace (K := Maj) fun a => lit (A a)).val :=
    within_of _ (Cert.hom_fl.trace fun a => lit (A a)) (Cert.hom_ex.trace _)
    (Cert.hom_m.trace _) (Cert.hom_cnt.trace _) (Nat.le_of_ble_eq_true rfl)
  rw [Maj.val_trace, trace_exact, T2_trace, T2_trace, val6_lit hA, T2_eq hA] at h
  exact h

/-- The computed determinant. -/
theorem C64_det (R : Rounding) {A : Vec6 ℝ} {T : Ten2 ℝ} (hA : Stores A T) :
    Within R.u 7 (R.det A) T.det (detP (abs2 T)) := by
  have h : Within R.u 7 (R.det A) (Rnd.det A) (Rnd.det (K := Maj) fun a => lit (A a)).val :=
    within_of _ (Cert.hom_fl.det fun a => lit (A a)) (Cert.hom_ex.det _) (Cert.hom_m.det _) (Cert.hom_cnt.det _)
      (Nat.le_of_ble_eq_true rfl)
  rwa [Maj.val_det, det_exact, T2_det, val6_lit hA, T2_eq hA] at h

/-- The computed dot product. -/
theorem C64_dot (R : Rounding) {A B : Vec6 ℝ} {T U : Ten2 ℝ} (hA : Stores A T) (hB : Stores B U) (i j : Fin 3) :
    Within R.u 3 (R.dot A B i j) ((T * U) i j) ((abs2 T * abs2 U) i j) := by
  have h : Within R.u 3 (R.dot A B i j) (Rnd.dot A B i j)
      (Rnd.dot (K := Maj) (fun a => lit (A a)) (fun a => lit (B a)) i j).val :=
    within_of _ (Cert.hom_fl.dot (fun a => lit (A a)) (fun a => lit (B a)) i j) (Cert.hom_ex.dot ..) (Cert.hom_m.dot ..)
      (Cert.hom_cnt.dot ..) (by fin_cases i <;> fin_cases j <;> exact Nat.le_of_ble_eq_true rfl)
  rw [Maj.val_dot, dot_exact, val6_lit hA, val6_lit hB] at h
  rw [← C05_dot hA hB]
  exact h

/-- The computed double-dot products. -/
theorem C64_ddot (R : Rounding) {A B : Vec6 ℝ} {T U : Ten2 ℝ} (hA : Stores A T) (hB : Stores B U) :
    Within R.u 9 (R.ddot A B) (contract22 T U) (contract22 (abs2 T) (abs2 U)) := by
  have h : Within R.u 9 (R.ddot A B) (Rnd.ddot A B)
      (Rnd.ddot (K := Maj) (fun a => lit (A a)) (fun a => lit (B a))).val :=
    within_of _ (Cert.hom_fl.ddot (fun a => lit (A a)) (fun a => lit (B a))) (Cert.hom_ex.ddot ..) (Cert.hom_m.ddot ..)
      (Cert.hom_cnt.ddot ..) (Nat.le_of_ble_eq_true rfl)
  rwa [Maj.val_ddot, ddot_exact, T2_ddot, T2_ddot, val6_lit hA, val6_lit hB, T2_eq hA, T2_eq hB] at h

/-- The computed double-dot product of fourth-order tensors. -/
theorem C64_ddot44 (R : Rounding) {A B : Mat6 ℝ} {T U : Ten4 ℝ} (hA : Stores4 A T) (hB : Stores4 B U) (i j k l : Fin 3) :
    Within R.u 9 (astensor4 (R.ddot44 A B) i j k l) (contract44 T U i j k l) (contract44 (abs4 T) (abs4 U) i j k l) := by
  have h : Within R.u 9 (R.ddot44 A B (tab i j) (tab k l)) (Rnd.ddot44 A B (tab i j) (tab k l))
      (Rnd.ddot44 (K := Maj) (fun a b => lit (A a b)) (fun a b => lit (B a b)) (tab i j) (tab k l)).val :=
    within_of _ (Cert.hom_fl.ddot44 (fun a b => lit (A a b)) (fun a b => lit (B a b)) (tab i j) (tab k l)) (Cert.hom_ex.ddot44 ..)
      (Cert.hom_m.ddot44 ..) (Cert.hom_cnt.ddot44 ..) (Nat.le_of_ble_eq_true rfl)
  rw [Maj.val_ddot44, ddot44_exact, at4 (C05_ddot44 hA hB), at4 (C05_ddot44 (stores4_abs hA) (stores4_abs hB))] at h
  exact h

/-- The computed dyadic product. -/
theorem C64_dya (R : Rounding) {A B : Vec6 ℝ} {T U : Ten2 ℝ} (hA : Stores A T) (hB : Stores B U) (i j k l : Fin 3) :
    Within R.u 1 (astensor4 (R.dya A B) i j k l) (dyad T U i j k l) (dyad (abs2 T) (abs2 U) i j k l) := by
  have h : Within R.u 1 (R.dya A B (tab i j) (tab k l)) (Rnd.dya A B (tab i j) (tab k l))
      (Rnd.dya (K := Maj) (fun a => lit (A a)) (fun a => lit (B a)) (tab i j) (tab k l)).val :=
    within_of _ (Cert.hom_fl.dya (fun a => lit (A a)) (fun a => lit (B a)) (tab i j) (tab k l)) (Cert.hom_ex.dya ..)
      (Cert.hom_m.dya ..) (Cert.hom_cnt.dya ..) (Nat.le_of_ble_eq_true rfl)
  rw [Maj.val_dya, dya_exact, at4 (C06_dya hA hB), at4 (C06_dya (stores_abs hA) (stores_abs hB))] at h
  exact h

/-- The computed crossed dyadic product of two arrays. -/
theorem C64_cdya (R : Rounding) {A B : Vec6 ℝ} {T U : Ten2 ℝ} (hA : Stores A T) (hB : Stores B U) (i j k l : Fin 3) :
    Within R.u 4 (astensor4 (R.cdya A B) i j k l) (dyadSym T U i j k l) (dyadSym (abs2 T) (abs2 U) i j k l) := by
  have h : Within R.u 4 (R.cdya A B (tab i j) (tab k l)) (Rnd.cdya A B (tab i j) (tab k l))
      (Rnd.cdya (K := Maj) (fun a => lit (A a)) (fun a => lit (B a)) (tab i j) (tab k l)).val :=
    within_of _ (Cert.hom_fl.cdya (fun a => lit (A a)) (fun a => lit (B a)) (tab i j) (tab k l)) (Cert.hom_ex.cdya ..)
      (Cert.hom_m.cdya ..) (Cert.hom_cnt.cdya ..) (Nat.le_of_ble_eq_true rfl)
  rw [Maj.val_cdya, cdya_exact, at4 (cdya_stores hA hB), at4 (cdya_stores (stores_abs hA) (stores_abs hB))] at h
  exact h

/-- The computed crossed dyadic product of an array with itself. -/
theorem C64_cdya_self (R : Rounding) {A : Vec6 ℝ} {T : Ten2 ℝ} (hA : Stores A T) (i j k l : Fin 3) :
    Within R.u 3 (astensor4 (R.cdyaSelf A) i j k l) (dyadSym T T i j k l) (dyadSym (abs2 T) (abs2 T) i j k l) := by
  have h : Within R.u 3 (R.cdyaSelf A (tab i j) (tab k l)) (Rnd.cdyaSelf A (tab i j) (tab k l))
      (Rnd.cdyaSelf (K := Maj) (fun a => lit (A a)) (tab i j) (tab k l)).val :=
    within_of _ (Cert.hom_fl.cdyaSelf (fun a => lit (A a)) (tab i j) (tab k l)) (Cert.hom_ex.cdyaSelf ..)
      (Cert.hom_m.cdyaSelf ..) (Cert.hom_cnt.cdyaSelf ..) (Nat.le_of_ble_eq_true rfl)
  rw [Maj.val_cdyaSelf, cdyaSelf_exact, at4 (cdyaSelf_stores hA), at4 (cdyaSelf_stores (stores_abs hA))] at h
  exact h

/-- The computed double-dot product with a second-order tensor on the right. -/
theorem C64_ddot42 (R : Rounding) {A : Mat6 ℝ} {B : Vec6 ℝ} {T : Ten4 ℝ} {U : Ten2 ℝ} (hA : Stores4 A T) (hB : Stores B U) (i j : Fin 3) :
    Within R.u 9 (astensor (R.ddot42 A B) i j) (contract42 T U i j) (contract42 (abs4 T) (abs2 U) i j) := by
  have h : Within R.u 9 (R.ddot42 A B (tab i j)) (Rnd.ddot42 A B (tab i j)) (Rnd.ddot42 (K := Maj) (fun a b => lit (A a b)) (fun a => lit (B a)) (tab i j)).val :=
    within_of _ (Cert.hom_fl.ddot42 (fun a b => lit (A a b)) (fun a => lit (B a)) (tab i j)) (Cert.hom_ex.ddot42 ..) (Cert.hom_m.ddot42 ..)
      (Cert.hom_cnt.ddot42 ..) (Nat.le_of_ble_eq_true rfl)
  rw [Maj.val_ddot42, ddot42_exact, at2 (C05_ddot42 hA hB), at2 (C05_ddot42 (stores4_abs hA) (stores_abs hB))] at h
  exact h

/-- The computed double-dot product with a second-order tensor on the left. -/
theorem C64_ddot24 (R : Rounding) {A : Vec6 ℝ} {B : Mat6 ℝ} {T : Ten2 ℝ} {U : Ten4 ℝ} (hA : Stores A T) (hB : Stores4 B U) (i j : Fin 3) :
    Within R.u 9 (astensor (R.ddot24 A B) i j) (contract24 T U i j) (contract24 (abs2 T) (abs4 U) i j) := by
  have h : Within R.u 9 (R.ddot24 A B (tab i j)) (Rnd.ddot24 A B (tab i j)) (Rnd.ddot24 (K := Maj) (fun a => lit (A a)) (fun a b => lit (B a b)) (tab i j)).val :=
    within_of _ (Cert.hom_fl.ddot24 (fun a => lit (A a)) (fun a b => lit (B a b)) (tab i j)) (Cert.hom_ex.ddot24 ..) (Cert.hom_m.ddot24 ..)
      (Cert.hom_cnt.ddot24 ..) (Nat.le_of_ble_eq_true rfl)
  rw [Maj.val_ddot24, ddot24_exact, at2 (C05_ddot24 hA hB), at2 (C05_ddot24 (stores_abs hA) (stores4_abs hB))] at h
  exact h

/-- The computed deviator. -/
theorem C64_dev (R : Rounding) {A : Vec6 ℝ} {T : Ten2 ℝ} (hA : Stores A T) (i j : Fin 3) :
    Within R.u 7 (astensor (R.dev A) i j) ((T - (T.trace / 3) • (1 : Ten2 ℝ)) i j)
      ((abs2 T + ((abs2 T).trace / 3) • (1 : Ten2 ℝ)) i j) := by
  have h : Within R.u 7 (R.dev A (tab i j)) (Rnd.dev A (tab i j))
      (Rnd.dev (K := Maj) (fun a => lit (A a)) (tab i j)).val :=
    within_of _ (Cert.hom_fl.dev (fun a => lit (A a)) (tab i j)) (Cert.hom_ex.dev ..) (Cert.hom_m.dev ..)
      (Cert.hom_cnt.dev ..) (by fin_cases i <;> fin_cases j <;> exact Nat.le_of_ble_eq_true rfl)
  rw [Maj.val_dev, dev_exact, at2 (C03_dev hA)] at h
  have e := congrFun (congrFun (T2_add (Maj.val6 fun a => lit (A a))
    fun a => Hel.trace (Maj.val6 fun a => lit (A a)) / 3 * Hel.eye a) i) j
  rw [T2_smul, T2_eye, val6_lit hA] at e
  have e' : Hel.trace (Maj.val6 fun a => lit (A a)) = (abs2 T).trace := by rw [T2_trace, val6_lit hA]
  rw [e'] at e h
  rw [← e]
  exact h

/-- The computed overlined and underlined dyadic products. -/
theorem C64_cdya_ik_il (R : Rounding) {A B : Vec6 ℝ} {T U : Ten2 ℝ} (hA : Stores A T) (hB : Stores B U)
    (i j k l : Fin 3) :
    Within R.u 1 (R.cdya_ik A B i j k l) (dyadIK T U i j k l) (dyadIK (abs2 T) (abs2 U) i j k l) ∧
    Within R.u 1 (R.cdya_il A B i j k l) (dyadIL T U i j k l) (dyadIL (abs2 T) (abs2 U) i j k l) :=
  ⟨C64_dya R hA hB i k j l, C64_dya R hA hB i l k j⟩

/-- The computed inverse with a given determinant. -/
theorem C64_inv_determinant (R : Rounding) {A : Vec6 ℝ} {T : Ten2 ℝ} (hA : Stores A T) {d : ℝ} (hd : d ≠ 0)
    (i j : Fin 3) :
    Within R.u 3 (astensor (R.inv A (some d)) i j) (T.adjugate i j / d) (cofP (abs2 T) i j / |d|) := by
  have h : Within R.u 3 (R.inv A (some d) (tab i j)) (Rnd.inv (fun x => x / d) A (tab i j))
      (Rnd.inv (K := Maj) (fun x => ⟨x.val / |d|⟩) (fun a => lit (A a)) (tab i j)).val :=
    within_of _ (Cert.hom_fl.inv (d := Cert.divBy d d hd (by simp)) (fun x => rfl) (fun a => lit (A a)) (tab i j))
      (Cert.hom_ex.inv (fun x => rfl) ..) (Cert.hom_m.inv (fun x => rfl) ..)
      (Cert.hom_cnt.inv (d' := fun x => ⟨x.a + 1, x.b + 1⟩) (fun x => rfl) ..) (Nat.le_of_ble_eq_true rfl)
  rw [Maj.val_inv, val6_lit hA, inv_exact] at h
  have e : Hel.inv A (some d) (tab i j) = T.adjugate i j / d := by
    rw [inv_entry, ← T2_eq hA, Matrix.adjugate_fin_three]
    fin_cases i <;> fin_cases j <;> simp [tab, T2, astensor] <;> ring
  rw [e] at h
  exact h

/-- The computed inverse, if the determinant is computed, too: the error is governed by the condition
number of the determinant. -/
theorem C64_inv (R : Rounding) {A : Vec6 ℝ} {T : Ten2 ℝ} (hA : Stores A T) (hd : T.det ≠ 0) {e : ℝ}
    (he : e = ((1 + R.u) ^ 7 - 1) * condDet T) (he1 : e < 1) (i j : Fin 3) :
    |astensor (R.inv A) i j - T⁻¹ i j| ≤ ((1 + R.u) ^ 3 / (1 - e) - 1) * (cofP (abs2 T) i j / |T.det|) := by
  have hpos : 0 < |T.det| := abs_pos.2 hd
  have h0 : 0 ≤ e := by
    rw [he]
    have := abs_nonneg (R.det A - T.det)
    have h7 := (C64_det R hA)
    unfold Within at h7
    rw [condDet, ← mul_div_assoc]
    exact div_nonneg (this.trans h7) hpos.le
  have h1 : 0 < 1 - e := by linarith
  let X : Ctx := ⟨R, 1 / (1 - e), by rw [le_div_iff₀ h1]; linarith⟩
  have hdet : |R.det A - T.det| ≤ (1 - 1 / X.q) * |T.det| := by
    have h7 := (C64_det R hA)
    unfold Within at h7
    have : (1 - 1 / X.q) * |T.det| = ((1 + R.u) ^ 7 - 1) * detP (abs2 T) := by
      simp only [X, one_div_one_div, sub_sub_cancel, he, condDet]
      field_simp
    rw [this]
    exact h7
  let x : Cert X := Rnd.inv (Cert.divBy T.det (R.det A) hd hdet) (fun a => lit (A a)) (tab i j)
  have hfl : x.fl = R.inv A none (tab i j) :=
    congrArg Fl.val (Cert.hom_fl.inv (d := Cert.divBy T.det (R.det A) hd hdet) (d' := R.divBy ⟨R.det A⟩)
      (fun x => rfl) (fun a => lit (A a)) (tab i j))
  have hex : x.ex = T⁻¹ i j := by
    have := Cert.hom_ex.inv (d := Cert.divBy T.det (R.det A) hd hdet) (d' := fun x => x / T.det)
      (fun x => rfl) (fun a => lit (A a)) (tab i j)
    refine this.trans ?_
    change Rnd.inv (fun x => x / T.det) A (tab i j) = _
    rw [inv_exact, C04_inv_determinant hA, at2 (C04_inv hA hd)]
  have hm : x.m = cofP (abs2 T) i j / |T.det| := by
    have := congrArg Maj.val (Cert.hom_m.inv (d := Cert.divBy T.det (R.det A) hd hdet)
      (d' := fun x => ⟨x.val / |T.det|⟩) (fun x => rfl) (fun a => lit (A a)) (tab i j))
    refine this.trans ?_
    exact (Maj.val_inv ..).trans (by rw [← val6_lit hA]; rfl)
  have hc : x.cnt = ⟨1, 3⟩ := by
    have := Cert.hom_cnt.inv (d := Cert.divBy T.det (R.det A) hd hdet)
      (d' := fun x => ⟨x.a + 1, x.b + 1⟩) (fun x => rfl) (fun a => lit (A a)) (tab i j)
    exact this.trans rfl
  have := x.err
  rw [hfl, hex, hm, show x.a = 1 from congrArg Cnt.a hc, show x.b = 3 from congrArg Cnt.b hc] at this
  refine this.trans (le_of_eq ?_)
  simp only [Ctx.E, X]
  ring

/-- The assumption on `einsum` holds for every order of the operations: for sums of `n` products of at
most `p` factors, computed with additions, multiplications and fused multiply-adds with relative errors of
at most `u`, in any order, with any brackets and with zero-padding. -/
theorem C64_any_order (O : Operations) {ts : List (List ℝ)} {x : ℝ} (h : SumOf O.add O.mul O.fma ts x) {p : ℕ}
    (hp : ∀ t ∈ ts, t.length ≤ p) :
    Within O.u (ts.length + p) x (ts.map List.prod).sum (ts.map fun t => |t.prod|).sum :=
  h.within hp

/-- The other assumptions hold for double precision with round to nearest, ties to even: the result of
every operation is the exact result, rounded to one of the nearest machine numbers, and its relative error
is at most `2⁻⁵³`. -/
theorem C64_double (x y : ℝ) (hx : Binary64.IsNum x) (hy : Binary64.IsNum y) :
    Binary64.rounding.u = 2 ^ (-53 : ℤ) ∧
    Binary64.rounding.add x y = Binary64.rn (x + y) ∧ Binary64.rounding.sub x y = Binary64.rn (x - y) ∧
    Binary64.rounding.mul x y = Binary64.rn (x * y) ∧ Binary64.rounding.div x y = Binary64.rn (x / y) ∧
    ∀ w, Binary64.IsNum (Binary64.rn w) ∧ ∀ v, Binary64.IsNum v → |Binary64.rn w - w| ≤ |v - w| :=
  ⟨rfl, Binary64.add_num hx hy, rfl, rfl, rfl, fun w => ⟨Binary64.num_rn w, fun _ hv => Binary64.rn_nearest w hv⟩⟩

/-- The major symmetry of the computed crossed dyadic product is exact. -/
theorem C64_cdya_symm (R : Rounding) (A B : Vec6 ℝ) (i j : Fin 6) :
    R.cdya A B i j = R.cdya A B j i ∧ R.cdyaSelf A i j = R.cdyaSelf A j i := by
  simp only [Rounding.cdya, Rounding.cdyaSelf, Rnd.cdya, Rnd.cdyaSelf, min_comm i j, max_comm i j, and_self]

/-- The computed crossed dyadic product does not depend on the order of its arguments if the addition is
commutative. -/
theorem C64_cdya_comm (R : Rounding) (hR : ∀ x y, R.add x y = R.add y x) (A B : Vec6 ℝ) : R.cdya A B = R.cdya B A := by
  funext i j
  simp only [Rounding.cdya, Rnd.cdya, Rnd.cdyaEntry]
  refine congrArg (fun x : Fl R => (divNat x 4).val) ?_
  exact congrArg Fl.mk (hR _ _)

/-- The hypotheses are met: machine numbers of double precision, and a symmetric tensor with a moderate
condition number of its determinant. -/
example : Binary64.IsNum 0.5 ∧ Binary64.IsNum 3 ∧ (∀ x y, Binary64.rounding.add x y = Binary64.rounding.add y x) := by
  refine ⟨⟨1, -1, by norm_num, by norm_num⟩, ⟨3, 0, by norm_num, by norm_num⟩, fun x y => ?_⟩
  change Binary64.add x y = Binary64.add y x
  unfold Binary64.add
  split <;> split <;> simp_all [add_comm]

example : Stores ![2, 3, 4, 1, 0, (0 : ℝ)] !![2, 1, 0; 1, 3, 0; 0, 0, 4] ∧
    (!![2, 1, 0; 1, 3, 0; 0, 0, 4] : Ten2 ℝ).det ≠ 0 ∧
    ((1 + Binary64.rounding.u) ^ 7 - 1) * condDet !![2, 1, 0; 1, 3, 0; 0, 0, 4] < 1 := by
  have hd : (!![2, 1, 0; 1, 3, 0; 0, 0, 4] : Ten2 ℝ).det = 20 := by
    rw [Matrix.det_fin_three]; simp; norm_num
  have hp : detP (abs2 !![2, 1, 0; 1, 3, 0; 0, 0, 4]) = 28 := by
    simp [detP, abs2]; norm_num
  refine ⟨?_, by rw [hd]; norm_num, ?_⟩
  · exact (stores_iff _ _).2 (by ext i j; fin_cases i <;> fin_cases j <;> rfl)
  · rw [condDet, hd, hp, Binary64.rounding_u]
    norm_num

end Props
