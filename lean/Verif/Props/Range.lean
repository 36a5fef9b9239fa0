import Verif.Props.RoundingSpace
import Verif.Proofs.RangeSize
import Verif.Proofs.Binary64Range

/-!
# Floating-point results with overflow and underflow (C87)

The first Piola-Kirchhoff stress and the elasticity tensor of third-order-deformation materials in the deformation
space, as computed by a machine with a largest finite number and with underflow.
-/

namespace Props
open Spec Hel Rnd

variable {Z : Type}

/-- What a certificate says about the computed number. -/
theorem range_of {T : Lim} (c : RCert T) {b e d : ℕ} (hb : c.b ≤ b) (hs : Size.Le c.sz e d)
    (h : 2 * ((1 + T.K.u) ^ b * (2 ^ e * T.M ^ d)) ≤ T.K.Ω) :
    ∃ v, c.fl = some v ∧ |v - c.ex| ≤ ((1 + T.K.u) ^ b - 1) * c.m + T.K.η * ((1 + T.K.u) ^ b * (2 ^ e * T.M ^ d)) := by
  obtain ⟨he, hd⟩ := hs
  obtain ⟨v, hv, hn⟩ := c.near (RCert.fits (b' := b) (e' := e) (d' := d) h hb he hd)
  exact ⟨v, hv, (hn.mono (T.E_mono hb) (T.B_mono he hd)).err⟩

section
variable (K : Machine) {M : ℝ} (hM : 1 ≤ M) {p : TOD ℝ} (hp : Size.Small M p) (z : Z) {F : Ten2 ℝ} (hF : F.det ≠ 0)
  (hFM : ∀ i j, |F i j| ≤ M)

/-- The deformation gradient as given data. -/
noncomputable def dataF (T : Lim) (hFM : ∀ i j, |F i j| ≤ T.M) : Full2 (RCert T) := fun i j =>
  RCert.data (F i j) 0 1 (by simpa [Lim.B] using hFM i j)

include hM hp hF hFM

/-- The computed stress for the stored parameters. -/
theorem range_stress {P : Ten2 ℝ} (hP : SpaceObj.Grad (Deformation.obj {} (Invariants.material p.mat)) z F P)
    (hΩ : 2 * ((1 + K.u) ^ 36 * (2 ^ 107 * M ^ 6)) ≤ K.Ω) (i J : Fin 3) :
    ∃ v, K.deformationGradient p F i J = some v ∧
      |v - P i J| ≤ ((1 + K.u) ^ 36 - 1) * (Maj.par p).stressP F i J + K.η * ((1 + K.u) ^ 36 * (2 ^ 107 * M ^ 6)) := by
  obtain ⟨G, hG, rfl⟩ := (Deformation.grad_iff ..).1 hP
  rw [(tod_grad p z (symInv_cauchyGreen hF)).1 hG]
  let T : Lim := ⟨K, M, hM⟩
  set D : Full2 (RCert T) := dataF T hFM with hD
  have h := range_of (defGradient p D i J) (b := 36)
    (by
      have := (Cnt.le_defGradient p (F := fun i j => RCert.cnt (D i j)) (fun _ _ => ⟨le_rfl, le_rfl⟩) i J).2
      rw [← RCert.hom_cnt.defGradient] at this
      exact this)
    (by
      have := Size.le_defGradient hp (F := fun i j => RCert.sz (D i j)) (fun _ _ => ⟨le_rfl, le_rfl⟩) i J
      rw [← RCert.hom_sz.defGradient] at this
      exact this) hΩ
  have e1 : (defGradient p D i J).fl = K.deformationGradient p F i J :=
    congrArg Flo.val (RCert.hom_fl.defGradient p D i J)
  have e2 : (defGradient p D i J).ex = defGradient p F i J := RCert.hom_ex.defGradient p D i J
  have e3 : (defGradient p D i J).m = (Maj.par p).stressP F i J := by
    rw [← Maj.val_defGradient]
    exact congrArg Maj.val (RCert.hom_m.defGradient p D i J)
  rw [e1, e2, e3, defGradient_exact] at h
  exact h

/-- The computed elasticity tensor for the stored parameters. -/
theorem range_elasticity {A : Ten4 ℝ} (hA : SpaceObj.Hess (Deformation.obj {} (Invariants.material p.mat)) z F A)
    (hΩ : 2 * ((1 + K.u) ^ 34 * (2 ^ 100 * M ^ 5)) ≤ K.Ω) (i J k L : Fin 3) :
    ∃ v, K.deformationHessian p F i J k L = some v ∧
      |v - A i J k L| ≤ ((1 + K.u) ^ 34 - 1) * (Maj.par p).elasticityP F i J k L +
        K.η * ((1 + K.u) ^ 34 * (2 ^ 100 * M ^ 5)) := by
  obtain ⟨G, H, hG, hH, rfl⟩ := Deformation.hess_elim hA
  rw [(tod_grad p z (symInv_cauchyGreen hF)).1 hG, (tod_hess p z (symInv_cauchyGreen hF)).1 hH]
  let T : Lim := ⟨K, M, hM⟩
  set D : Full2 (RCert T) := dataF T hFM with hD
  have h := range_of (defHessian p D i J k L) (b := 34)
    (by
      have := (Cnt.le_defHessian p (F := fun i j => RCert.cnt (D i j)) (fun _ _ => ⟨le_rfl, le_rfl⟩) i J k L).2
      rw [← RCert.hom_cnt.defHessian] at this
      exact this)
    (by
      have := Size.le_defHessian hp (F := fun i j => RCert.sz (D i j)) (fun _ _ => ⟨le_rfl, le_rfl⟩) i J k L
      rw [← RCert.hom_sz.defHessian] at this
      exact this) hΩ
  have e1 : (defHessian p D i J k L).fl = K.deformationHessian p F i J k L :=
    congrArg Flo.val (RCert.hom_fl.defHessian p D i J k L)
  have e2 : (defHessian p D i J k L).ex = defHessian p F i J k L := RCert.hom_ex.defHessian p D i J k L
  have e3 : (defHessian p D i J k L).m = (Maj.par p).elasticityP F i J k L := by
    rw [← Maj.val_defHessian]
    exact congrArg Maj.val (RCert.hom_m.defHessian p D i J k L)
  rw [e1, e2, e3, defHessian_exact] at h
  exact h

end

/-- The stored parameters are those given. -/
theorem small_init {M C10 C01 C11 C20 C30 : ℝ} (h : ∀ c ∈ [C10, C01, C11, C20, C30], |c| ≤ M) (strain : Bool) :
    Size.Small M (TOD.init C10 C01 C11 C20 C30 strain) := by
  simp only [List.forall_mem_cons, List.not_mem_nil, false_imp_iff, implies_true, and_true] at h
  refine ⟨h.1, h.2.1, h.2.2.1, h.2.2.2.1, h.2.2.2.2, ?_⟩
  change |undeformed strain| ≤ 16
  cases strain <;> simp [undeformed] <;> norm_num

/-! ### C87 -/

/-- The stress does not overflow if the entries of the deformation gradient and the parameters are bounded by `M` and
`2¹⁰⁸ M⁶` does not exceed the range; its error is that of C65 and at most `2¹⁰⁷ M⁶` underflows. -/
theorem C87_stress (K : Machine) {M : ℝ} (hM : 1 ≤ M) (C10 C01 C11 C20 C30 : ℝ) (strain : Bool) (z : Z) {F P : Ten2 ℝ}
    (hC : ∀ c ∈ [C10, C01, C11, C20, C30], |c| ≤ M) (hF : F.det ≠ 0) (hFM : ∀ i j, |F i j| ≤ M)
    (hP : SpaceObj.Grad (Deformation.obj {} (Invariants.material (TOD.init C10 C01 C11 C20 C30 strain).mat)) z F P)
    (hΩ : 2 * ((1 + K.u) ^ 36 * (2 ^ 107 * M ^ 6)) ≤ K.Ω) (i J : Fin 3) :
    ∃ v, K.deformationGradient (TOD.init C10 C01 C11 C20 C30 strain) F i J = some v ∧
      |v - P i J| ≤ ((1 + K.u) ^ 36 - 1) * TodPar.stressP ⟨C10, C01, C11, C20, C30, undeformed strain⟩ F i J +
        K.η * ((1 + K.u) ^ 36 * (2 ^ 107 * M ^ 6)) :=
  range_stress K hM (small_init hC strain) z hF hFM hP hΩ i J

/-- The elasticity tensor. -/
theorem C87_elasticity (K : Machine) {M : ℝ} (hM : 1 ≤ M) (C10 C01 C11 C20 C30 : ℝ) (strain : Bool) (z : Z) {F : Ten2 ℝ}
    {A : Ten4 ℝ} (hC : ∀ c ∈ [C10, C01, C11, C20, C30], |c| ≤ M) (hF : F.det ≠ 0) (hFM : ∀ i j, |F i j| ≤ M)
    (hA : SpaceObj.Hess (Deformation.obj {} (Invariants.material (TOD.init C10 C01 C11 C20 C30 strain).mat)) z F A)
    (hΩ : 2 * ((1 + K.u) ^ 34 * (2 ^ 100 * M ^ 5)) ≤ K.Ω) (i J k L : Fin 3) :
    ∃ v, K.deformationHessian (TOD.init C10 C01 C11 C20 C30 strain) F i J k L = some v ∧
      |v - A i J k L| ≤ ((1 + K.u) ^ 34 - 1) * TodPar.elasticityP ⟨C10, C01, C11, C20, C30, undeformed strain⟩ F i J k L +
        K.η * ((1 + K.u) ^ 34 * (2 ^ 100 * M ^ 5)) :=
  range_elasticity K hM (small_init hC strain) z hF hFM hA hΩ i J k L

/-- In double precision: data between `-2¹⁵⁰` and `2¹⁵⁰` do not overflow; with data between `-2⁶⁰` and `2⁶⁰` the error
by underflow is below `2⁻⁶⁰⁰`. -/
theorem C87_double (K : Machine) (hu : K.u ≤ 2 ^ (-53 : ℤ)) (hη : K.η ≤ 2 ^ (-1075 : ℤ)) (hK : 2 ^ 1023 ≤ K.Ω)
    (C10 C01 C11 C20 C30 : ℝ) (strain : Bool) (z : Z) {F P : Ten2 ℝ} {A : Ten4 ℝ} (hF : F.det ≠ 0)
    (hP : SpaceObj.Grad (Deformation.obj {} (Invariants.material (TOD.init C10 C01 C11 C20 C30 strain).mat)) z F P)
    (hA : SpaceObj.Hess (Deformation.obj {} (Invariants.material (TOD.init C10 C01 C11 C20 C30 strain).mat)) z F A)
    {k : ℕ} (hk : k ≤ 150) (hC : ∀ c ∈ [C10, C01, C11, C20, C30], |c| ≤ 2 ^ k) (hFM : ∀ i j, |F i j| ≤ 2 ^ k) :
    (∀ i J, ∃ v, K.deformationGradient (TOD.init C10 C01 C11 C20 C30 strain) F i J = some v ∧
      |v - P i J| ≤ 37 * 2 ^ (-53 : ℤ) * TodPar.stressP ⟨C10, C01, C11, C20, C30, undeformed strain⟩ F i J +
        2 ^ (6 * k - 967 : ℤ)) ∧
    (∀ i J k' L, ∃ v, K.deformationHessian (TOD.init C10 C01 C11 C20 C30 strain) F i J k' L = some v ∧
      |v - A i J k' L| ≤ 35 * 2 ^ (-53 : ℤ) * TodPar.elasticityP ⟨C10, C01, C11, C20, C30, undeformed strain⟩ F i J k' L +
        2 ^ (5 * k - 974 : ℤ)) := by
  have hu0 := K.u_nonneg
  have hη0 := K.η_nonneg
  have h36 : (1 + K.u) ^ 36 ≤ 1 + 37 * 2 ^ (-53 : ℤ) := by
    have : (1 + K.u) ^ 36 ≤ (1 + (2 : ℝ) ^ (-53 : ℤ)) ^ 36 := by gcongr
    exact this.trans (by norm_num)
  have h34 : (1 + K.u) ^ 34 ≤ 1 + 35 * 2 ^ (-53 : ℤ) := by
    have : (1 + K.u) ^ 34 ≤ (1 + (2 : ℝ) ^ (-53 : ℤ)) ^ 34 := by gcongr
    exact this.trans (by norm_num)
  have h36' : (1 + K.u) ^ 36 ≤ 2 := h36.trans (by norm_num)
  have h34' : (1 + K.u) ^ 34 ≤ 2 := h34.trans (by norm_num)
  have hM : (1 : ℝ) ≤ 2 ^ k := one_le_pow₀ (by norm_num)
  have r36 : 2 * ((1 + K.u) ^ 36 * (2 ^ 107 * (2 ^ k) ^ 6)) ≤ K.Ω := by
    refine le_trans ?_ hK
    calc 2 * ((1 + K.u) ^ 36 * (2 ^ 107 * (2 ^ k) ^ 6)) ≤ 2 * (2 * (2 ^ 107 * (2 ^ k) ^ 6)) := by gcongr
      _ = 2 ^ (109 + k * 6) := by rw [pow_add, pow_mul]; norm_num; ring
      _ ≤ 2 ^ 1023 := pow_le_pow_right₀ (by norm_num) (by omega)
  have r34 : 2 * ((1 + K.u) ^ 34 * (2 ^ 100 * (2 ^ k) ^ 5)) ≤ K.Ω := by
    refine le_trans ?_ hK
    calc 2 * ((1 + K.u) ^ 34 * (2 ^ 100 * (2 ^ k) ^ 5)) ≤ 2 * (2 * (2 ^ 100 * (2 ^ k) ^ 5)) := by gcongr
      _ = 2 ^ (102 + k * 5) := by rw [pow_add, pow_mul]; norm_num; ring
      _ ≤ 2 ^ 1023 := pow_le_pow_right₀ (by norm_num) (by omega)
  have n36 : K.η * ((1 + K.u) ^ 36 * (2 ^ 107 * (2 ^ k) ^ 6)) ≤ 2 ^ (6 * k - 967 : ℤ) := by
    calc _ ≤ (2 : ℝ) ^ (-1075 : ℤ) * (2 * (2 ^ 107 * (2 ^ k) ^ 6)) := by gcongr
      _ = (2 : ℝ) ^ (-1075 : ℤ) * 2 ^ ((108 + k * 6 : ℕ) : ℤ) := by
        rw [zpow_natCast, pow_add, pow_mul]; congr 1; norm_num; ring
      _ = _ := by
        rw [← zpow_add₀ (by norm_num)]
        congr 1
        push_cast
        ring
  have n34 : K.η * ((1 + K.u) ^ 34 * (2 ^ 100 * (2 ^ k) ^ 5)) ≤ 2 ^ (5 * k - 974 : ℤ) := by
    calc _ ≤ (2 : ℝ) ^ (-1075 : ℤ) * (2 * (2 ^ 100 * (2 ^ k) ^ 5)) := by gcongr
      _ = (2 : ℝ) ^ (-1075 : ℤ) * 2 ^ ((101 + k * 5 : ℕ) : ℤ) := by
        rw [zpow_natCast, pow_add, pow_mul]; congr 1; norm_num; ring
      _ = _ := by
        rw [← zpow_add₀ (by norm_num)]
        congr 1
        push_cast
        ring
  refine ⟨fun i J => ?_, fun i J k' L => ?_⟩
  · obtain ⟨v, hv, h⟩ := C87_stress K hM C10 C01 C11 C20 C30 strain z hC hF hFM hP r36 i J
    refine ⟨v, hv, h.trans (add_le_add ?_ n36)⟩
    have := stressP_nonneg Binary64.rounding (TOD.init C10 C01 C11 C20 C30 strain) F i J
    exact mul_le_mul_of_nonneg_right (by linarith) this
  · obtain ⟨v, hv, h⟩ := C87_elasticity K hM C10 C01 C11 C20 C30 strain z hC hF hFM hA r34 i J k' L
    refine ⟨v, hv, h.trans (add_le_add ?_ n34)⟩
    have := elasticityP_nonneg Binary64.rounding (TOD.init C10 C01 C11 C20 C30 strain) F i J k' L
    exact mul_le_mul_of_nonneg_right (by linarith) this

/-- The assumption on sums of products: with the operations of a machine and any order of evaluation, a sum of products
is finite and accurate. -/
theorem C87_any_order (O : RangeOps) {ts : List (List ℝ)} {x : Option ℝ} (h : SumIn O.add O.mul O.fma ts x) {p : ℕ} {G : ℝ}
    (hp : ∀ t ∈ ts, t.length ≤ p) (hG : 2 ^ ts.length * 4 ^ p * (ts.map fun t => (t.map fun x => max 1 |x|).prod).sum ≤ G)
    (hΩ : 2 * ((1 + O.u) ^ (ts.length + p) * G) ≤ O.Ω) :
    ∃ v, x = some v ∧ |v - (ts.map List.prod).sum| ≤
      ((1 + O.u) ^ (ts.length + p) - 1) * (ts.map fun t => |t.prod|).sum + O.η * ((1 + O.u) ^ (ts.length + p) * G) :=
  h.near hp hG hΩ

/-! ### outside of the range -/

section
open Binary64

@[simp] theorem flo_add (K : Machine) (x y : Flo K) : (x + y).val = both K.add x.val y.val := rfl
@[simp] theorem flo_sub (K : Machine) (x y : Flo K) : (x - y).val = both K.sub x.val y.val := rfl
@[simp] theorem flo_mul (K : Machine) (x y : Flo K) : (x * y).val = both K.mul x.val y.val := rfl
@[simp] theorem flo_lit (K : Machine) (x : ℝ) : (lit x : Flo K).val = some x := rfl
theorem flo_einsum (K : Machine) (ts : List (List (Flo K))) :
    (einsum ts).val = (allFinite (ts.map fun t => allFinite (t.map Flo.val))).bind K.einsum := rfl

@[simp] theorem both_none (f : ℝ → ℝ → Option ℝ) (x : Option ℝ) : both f none x = none := rfl
@[simp] theorem both_none' (f : ℝ → ℝ → Option ℝ) (x : Option ℝ) : both f x none = none := by cases x <;> rfl
@[simp] theorem both_some (f : ℝ → ℝ → Option ℝ) (x y : ℝ) : both f (some x) (some y) = f x y := rfl

/-- The computed stress of a Mooney-Rivlin material. -/
theorem mooney_computed (K : Machine) {c : ℝ} (hc : c ≠ 0) (F : Full2 ℝ) (i J : Fin 3) :
    defGradient (TOD.init 0 c 0 0 0 false) (K.arr33 F) i J = piolaStress (K.arr33 F) (fun a =>
      lit 2 * (lit 0 + (lit 0 + lit c) * dI2dC (Rnd.cauchyGreen (K.arr33 F)) a)) i J := by
  have : defS (TOD.init 0 c 0 0 0 false) (K.arr33 F) = fun a =>
      lit 2 * (lit 0 + (lit 0 + lit c) * dI2dC (Rnd.cauchyGreen (K.arr33 F)) a) := by
    funext a
    simp [defS, invGrad, todD1, todD2, TOD.init, addTerm, addIf, hc]
  rw [defGradient, this]

/-- The exact stress of a Mooney-Rivlin material. -/
theorem mooney_exact (c : ℝ) (z : Z) {F P : Ten2 ℝ} (hF : F.det ≠ 0)
    (hP : SpaceObj.Grad (Deformation.obj {} (Invariants.material (TOD.init 0 c 0 0 0 false).mat)) z F P) :
    P = (2 * c) • (F * ((Spec.cauchyGreen F).trace • (1 : Ten2 ℝ) - Spec.cauchyGreen F)) := by
  obtain ⟨G, hG, rfl⟩ := (Deformation.grad_iff ..).1 hP
  rw [(tod_grad _ z (symInv_cauchyGreen hF)).1 hG]
  simp [todGradT, TOD.init, smul_smul]

/-- The exact stress of a Mooney-Rivlin material at a dilatation. -/
theorem mooney_dilatation (c s : ℝ) (hs : s ≠ 0) (z : Z) {P : Ten2 ℝ}
    (hP : SpaceObj.Grad (Deformation.obj {} (Invariants.material (TOD.init 0 c 0 0 0 false).mat)) z (s • (1 : Ten2 ℝ)) P) :
    P = (4 * c * s ^ 3) • (1 : Ten2 ℝ) := by
  rw [mooney_exact c z (by simp [hs]) hP]
  ext i j
  fin_cases i <;> fin_cases j <;> simp [Spec.cauchyGreen, Matrix.trace, Fin.sum_univ_three] <;> ring

@[simp] theorem zero_addR (x : Option ℝ) : both addR (some 0) x = x := by
  cases x with
  | none => rfl
  | some v => exact rangeOps.zero_add v

@[simp] theorem addR_zero (x : Option ℝ) : both addR x (some 0) = x := by
  cases x with
  | none => rfl
  | some v => exact rangeOps.add_zero v

@[simp] theorem addR_zero_left (x : ℝ) : addR 0 x = some x := rangeOps.zero_add x

theorem machine_einsum (ts : List (List ℝ)) : machine.einsum ts = sumFrom addR (fun x y => rd (x * y)) ts := rfl
theorem machine_add : machine.add = addR := rfl
theorem machine_sub (x y : ℝ) : machine.sub x y = rd (x - y) := rfl
theorem machine_mul (x y : ℝ) : machine.mul x y = rd (x * y) := rfl

/-- The computed right Cauchy-Green tensor of a dilatation. -/
theorem green_dilatation (s : ℝ) (a : Fin 6) :
    (Rnd.cauchyGreen (machine.arr33 (s • (1 : Ten2 ℝ))) a).val = if a = 0 ∨ a = 1 ∨ a = 2 then rd (s * s) else some 0 := by
  fin_cases a <;> simp [Rnd.cauchyGreen, asvoigt, sum3, flo_einsum, Machine.arr33, allFinite, machine_einsum, sumFrom, productFrom,
    rd_zero]

/-- An overflow in a factor. -/
theorem piola_none (K : Machine) (F : Full2 ℝ) {S : Vec6 (Flo K)} (hS : ∀ a, (S a).val = none) (i J : Fin 3) :
    (Rnd.piolaStress (K.arr33 F) S i J).val = none := by
  simp [Rnd.piolaStress, sum3, flo_einsum, Machine.arr33, allFinite, astensor, hS]

/-- Spurious overflow: the exact stress is `2⁸⁰²`, but the squares of the stretches exceed the range. -/
theorem C87_overflow (z : Z) {P : Ten2 ℝ}
    (hP : SpaceObj.Grad (Deformation.obj {} (Invariants.material (TOD.init 0 (2 ^ (-1000 : ℤ)) 0 0 0 false).mat)) z
      (((2 : ℝ) ^ 600) • (1 : Ten2 ℝ)) P) :
    P = ((2 : ℝ) ^ 802) • (1 : Ten2 ℝ) ∧ ∀ i J, machine.deformationGradient (TOD.init 0 (2 ^ (-1000 : ℤ)) 0 0 0 false)
      (((2 : ℝ) ^ 600) • (1 : Ten2 ℝ)) i J = none := by
  refine ⟨?_, fun i J => ?_⟩
  · rw [mooney_dilatation _ _ (by positivity) z hP]
    congr 1
    rw [← pow_mul, ← zpow_natCast, ← zpow_natCast, show (4 : ℝ) = 2 ^ (2 : ℤ) by norm_num, ← zpow_add₀ (by norm_num),
      ← zpow_add₀ (by norm_num)]
    norm_num
  · have hh : rd ((2 : ℝ) ^ 600 * 2 ^ 600) = none := rd_huge (by
      rw [← pow_add, abs_of_pos (by positivity)]
      exact pow_le_pow_right₀ (by norm_num) (by norm_num))
    refine (congrArg Flo.val (mooney_computed machine (by positivity) _ i J)).trans ?_
    refine piola_none _ _ (fun a => ?_) i J
    have ht : (Rnd.trace (Rnd.cauchyGreen (machine.arr33 (((2 : ℝ) ^ 600) • (1 : Ten2 ℝ))))).val = none := by
      simp only [Rnd.trace, flo_einsum, List.map_cons, List.map_nil, green_dilatation, hh]
      simp [allFinite]
    simp [dI2dC, ht]

/-- The squares of the stretches are rounded to zero. -/
theorem mooney_lost {c s : ℝ} (hc : c ≠ 0) (hh : rd (s * s) = some 0) (i J : Fin 3) :
    machine.deformationGradient (TOD.init 0 c 0 0 0 false) (s • (1 : Ten2 ℝ)) i J = some 0 := by
  refine (congrArg Flo.val (mooney_computed machine hc _ i J)).trans ?_
  have hC : ∀ a, (Rnd.cauchyGreen (machine.arr33 (s • (1 : Ten2 ℝ))) a).val = some 0 := by
    intro a
    rw [green_dilatation, hh, ite_self]
  have ht : (Rnd.trace (Rnd.cauchyGreen (machine.arr33 (s • (1 : Ten2 ℝ))))).val = some 0 := by
    simp only [Rnd.trace, flo_einsum, List.map_cons, List.map_nil, hC]
    simp [allFinite, machine_einsum, sumFrom, productFrom]
  have hd : ∀ a, (dI2dC (Rnd.cauchyGreen (machine.arr33 (s • (1 : Ten2 ℝ)))) a).val = some 0 := by
    intro a
    have : ∃ x : ℝ, (Rnd.eye a : Flo machine).val = some x := by fin_cases a <;> exact ⟨_, rfl⟩
    obtain ⟨x, hx⟩ := this
    simp [dI2dC, ht, hC, hx, machine_mul, machine_sub, rd_zero]
  simp [Rnd.piolaStress, sum3, flo_einsum, Machine.arr33, allFinite, astensor, hd, machine_einsum, machine_add, machine_mul, sumFrom,
    productFrom, rd_zero]

/-- Spurious underflow: the exact stress is `2⁻⁸⁹⁸`, but the squares of the stretches are rounded to zero. -/
theorem C87_underflow (z : Z) {P : Ten2 ℝ}
    (hP : SpaceObj.Grad (Deformation.obj {} (Invariants.material (TOD.init 0 (2 ^ 900) 0 0 0 false).mat)) z
      (((2 : ℝ) ^ (-600 : ℤ)) • (1 : Ten2 ℝ)) P) :
    P = ((2 : ℝ) ^ (-898 : ℤ)) • (1 : Ten2 ℝ) ∧ ∀ i J, machine.deformationGradient (TOD.init 0 (2 ^ 900) 0 0 0 false)
      (((2 : ℝ) ^ (-600 : ℤ)) • (1 : Ten2 ℝ)) i J = some 0 := by
  refine ⟨?_, fun i J => ?_⟩
  · rw [mooney_dilatation _ _ (by positivity) z hP]
    congr 1
    rw [← zpow_natCast, ← zpow_natCast, ← zpow_mul, show (4 : ℝ) = 2 ^ (2 : ℤ) by norm_num, ← zpow_add₀ (by norm_num),
      ← zpow_add₀ (by norm_num)]
    norm_num
  · have hh : rd ((2 : ℝ) ^ (-600 : ℤ) * 2 ^ (-600 : ℤ)) = some 0 := rd_tiny (by
      rw [← zpow_add₀ (by norm_num), abs_of_pos (by positivity)]
      exact zpow_lt_zpow_right₀ (by norm_num) (by norm_num))
    exact mooney_lost (by positivity) hh i J

end

/-- The hypotheses of `C87_double` are met by the machine of `Proofs/Binary64Range` and a third-order material, at a
simple shear. -/
example : ∃ (P : Ten2 ℝ) (A : Ten4 ℝ), Binary64.machine.u ≤ 2 ^ (-53 : ℤ) ∧ Binary64.machine.η ≤ 2 ^ (-1075 : ℤ) ∧
    2 ^ 1023 ≤ Binary64.machine.Ω ∧ (!![1, 2, 0; 0, 1, 0; 0, 0, (1 : ℝ)]).det ≠ 0 ∧
    SpaceObj.Grad (Deformation.obj {} (Invariants.material (TOD.init 1 2 3 4 5 false).mat)) () !![1, 2, 0; 0, 1, 0; 0, 0, 1] P ∧
    SpaceObj.Hess (Deformation.obj {} (Invariants.material (TOD.init 1 2 3 4 5 false).mat)) () !![1, 2, 0; 0, 1, 0; 0, 0, 1] A ∧
    (∀ c ∈ [(1 : ℝ), 2, 3, 4, 5], |c| ≤ 2 ^ 3) ∧ ∀ i j, |(!![1, 2, 0; 0, 1, 0; 0, 0, 1] : Ten2 ℝ) i j| ≤ 2 ^ 3 := by
  obtain ⟨P, hP⟩ := tod_space_total .deformation (TOD.init 1 2 3 4 5 false) !![1, 2, 0; 0, 1, 0; 0, 0, 1] ()
    ({ material := { material := () } } : DefSt (InvSt ℝ Unit))
  obtain ⟨A, hA⟩ := tod_def_hess_total (TOD.init 1 2 3 4 5 false) !![1, 2, 0; 0, 1, 0; 0, 0, 1] ()
    { material := { material := () } }
  refine ⟨P, A, le_rfl, le_rfl, Binary64.le_big, by simp [Matrix.det_fin_three], ⟨_, _, hP⟩, ⟨_, hA⟩, ?_, ?_⟩
  · simp only [List.forall_mem_cons, List.not_mem_nil, false_imp_iff, implies_true, and_true]
    norm_num
  · intro i j
    fin_cases i <;> fin_cases j <;> simp <;> norm_num

/-- Stresses are returned for the data of `C87_overflow` and `C87_underflow`. -/
example (c : ℝ) (F : Ten2 ℝ) : ∃ P, SpaceObj.Grad (Deformation.obj {} (Invariants.material (TOD.init 0 c 0 0 0 false).mat)) () F P := by
  obtain ⟨P, hP⟩ := tod_space_total .deformation (TOD.init 0 c 0 0 0 false) F ()
    ({ material := { material := () } } : DefSt (InvSt ℝ Unit))
  exact ⟨P, _, _, hP⟩

end Props
