import Verif.Model.RoundingLab
import Verif.Model.Space

/-!
# Model of the spaces and the load cases with `inf` and `nan`

The numbers are those of IEEE 754: finite numbers, `inf`, `-inf` and `nan`.  Every operation on finite numbers is followed by an
arbitrary rounding, which may overflow and underflow.  No accuracy is assumed.  The programs of the spaces are transcribed for
an arbitrary material (a function of the array passed to it), at one point of the trailing axes, with all configurations.
-/

namespace Hel.Rnd

/-- The other operations which the spaces and the load cases perform on floats.  `powThird n x` is `x ** (n / 3)`. -/
class FloatOps (K : Type) extends Arith K where
  div : K → K → K
  sqrt : K → K
  powThird : ℤ → K → K

export FloatOps (div sqrt powThird)

/-- A number of IEEE 754.  The sign of zero is not modelled. -/
inductive Num where
  | fin (x : ℝ)
  | inf
  | ninf
  | nan

namespace Num

/-- neither infinite nor `nan` -/
def IsFinite : Num → Prop
  | fin _ => True
  | _ => False

/-- `-x` -/
def neg : Num → Num
  | fin x => fin (-x)
  | inf => ninf
  | ninf => inf
  | nan => nan

/-- `x + y` of a number system with the rounding `rnd` of finite numbers -/
def add (rnd : ℝ → Num) : Num → Num → Num
  | nan, _ => nan
  | _, nan => nan
  | inf, ninf => nan
  | ninf, inf => nan
  | inf, _ => inf
  | _, inf => inf
  | ninf, _ => ninf
  | _, ninf => ninf
  | fin x, fin y => rnd (x + y)

/-- An infinite number with the sign of `x`, and `nan` for zero. -/
noncomputable def infTimes (x : ℝ) : Num := if x = 0 then nan else if 0 < x then inf else ninf

/-- `x * y` -/
noncomputable def mul (rnd : ℝ → Num) : Num → Num → Num
  | nan, _ => nan
  | _, nan => nan
  | inf, inf => inf
  | ninf, ninf => inf
  | inf, ninf => ninf
  | ninf, inf => ninf
  | inf, fin y => infTimes y
  | fin x, inf => infTimes x
  | ninf, fin y => (infTimes y).neg
  | fin x, ninf => (infTimes x).neg
  | fin x, fin y => rnd (x * y)

/-- `x / y`; the sign of `x / 0` is that of `x`, as if the zero was positive. -/
noncomputable def div (rnd : ℝ → Num) : Num → Num → Num
  | nan, _ => nan
  | _, nan => nan
  | fin _, inf => fin 0
  | fin _, ninf => fin 0
  | inf, fin y => if y < 0 then ninf else inf
  | ninf, fin y => if y < 0 then inf else ninf
  | inf, _ => nan
  | ninf, _ => nan
  | fin x, fin y => if y = 0 then infTimes x else rnd (x / y)

/-- `np.sqrt(x)` -/
noncomputable def sqrt (rnd : ℝ → Num) : Num → Num
  | nan => nan
  | inf => inf
  | ninf => nan
  | fin x => if x < 0 then nan else if x = 0 then fin 0 else rnd (Real.sqrt x)

end Num

/-- A floating-point format with its library functions.  The rounding is arbitrary.  `einsum` sums the products in some order,
so that `inf` and `nan` in one of the factors (also next to a factor zero) make the sum `inf` or `nan`.  `powThird` is
the function `pow` of the C library with one of the exponents `n / 3`, `n = -2, -1, 1, 2` (no integers; Annex F of the C standard). -/
structure Format where
  round : ℝ → Num
  einsum : List (List Num) → Num
  powThird : ℤ → Num → Num
  einsum_nonfinite : ∀ ts, ∀ t ∈ ts, ∀ x ∈ t, ¬ x.IsFinite → ¬ (einsum ts).IsFinite
  powThird_nan : ∀ n, n ∈ ({-2, -1, 1, 2} : Set ℤ) → powThird n .nan = .nan
  powThird_neg : ∀ n, n ∈ ({-2, -1, 1, 2} : Set ℤ) → ∀ x : ℝ, x < 0 → powThird n (.fin x) = .nan
  powThird_zero_neg : ∀ n, n ∈ ({-2, -1} : Set ℤ) → powThird n (.fin 0) = .inf
  powThird_zero_pos : ∀ n, n ∈ ({1, 2} : Set ℤ) → powThird n (.fin 0) = .fin 0
  powThird_inf_neg : ∀ n, n ∈ ({-2, -1} : Set ℤ) → powThird n .inf = .fin 0 ∧ powThird n .ninf = .fin 0
  powThird_inf_pos : ∀ n, n ∈ ({1, 2} : Set ℤ) → powThird n .inf = .inf ∧ powThird n .ninf = .inf

/-- The numbers of a format. -/
structure Flt (f : Format) where
  num : Num

/-- The arithmetic of a format; `x ** 2` is `x * x` (`inf` for infinite numbers). -/
noncomputable instance (f : Format) : FloatOps (Flt f) where
  add x y := ⟨Num.add f.round x.num y.num⟩
  sub x y := ⟨Num.add f.round x.num y.num.neg⟩
  mul x y := ⟨Num.mul f.round x.num y.num⟩
  lit x := ⟨.fin x⟩
  sq x := ⟨Num.mul f.round x.num x.num⟩
  divNat x n := ⟨Num.div f.round x.num (.fin (n : ℕ))⟩
  einsum ts := ⟨f.einsum (ts.map fun t => t.map Flt.num)⟩
  div x y := ⟨Num.div f.round x.num y.num⟩
  sqrt x := ⟨Num.sqrt f.round x.num⟩
  powThird n x := ⟨f.powThird n x.num⟩

variable {K : Type} [FloatOps K]

/-- A stress result: Voigt storage if `finalize=False`, a full tensor otherwise. -/
inductive FStress (K : Type) where
  | voigt (s : Vec6 K)
  | full (p : Full2 K)

/-- An elasticity result. -/
inductive FElasticity (K : Type) where
  | voigt (c : Mat6 K)
  | full (a : Full4 K)

/-- `Space.piola(F, S, detF)` with `C4=None`; `_space.py` lines 52-81. -/
def spaceStress (cfg : SpaceCfg) (F : Full2 K) (S : Vec6 K) (detF : Option K) : FStress K :=
  if cfg.finalize then
    let stress : Full2 K := astensor S
    let stress : Full2 K := match cfg.force with
      | none => fun i J => sum3 fun I => [F i I, stress I J]
      | some _ => stress
    match cfg.area with
    | none =>
      let detF := match detF with
        | none => sqrt (det (cauchyGreen F))
        | some d => d
      .full fun i j => div (sum3 fun J => [F j J, stress i J]) detF
    | some _ => .full stress
  else .voigt S

/-- `Space.piola(F, S, detF, C4, invC)`; `_space.py` lines 83-139. -/
def spaceElasticity (cfg : SpaceCfg) (F : Full2 K) (S : Vec6 K) (detF : Option K) (C4 : Mat6 K)
    (invC : Option (Vec6 K)) : FElasticity K :=
  if cfg.finalize then
    let elasticity : Full4 K := astensor4 C4
    let (elasticity, I3) : Full4 K × Option K := match cfg.force with
      | none =>
        let e : Full4 K := fun i J k L => sum33 fun I K => [F i I, F k K, elasticity I J K L]
        (fun i J k L => e i J k L + cdya_ik eye S i J k L, none)
      | some _ =>
        match invC with
        | none =>
          let C := cauchyGreen F
          let I3 := det C
          (fun i J k L => elasticity i J k L + cdya_ik (inv (fun x => div x I3) C) S i J k L, some I3)
        | some invC => (fun i J k L => elasticity i J k L + cdya_ik invC S i J k L, none)
    match cfg.area with
    | none =>
      let detF := match detF with
        | none => match I3 with
          | none => sqrt (det (cauchyGreen F))
          | some I3 => sqrt I3
        | some d => d
      .full fun i j k l => div (sum33 fun J L => [F j J, F l L, elasticity i J k L]) detF
    | some _ => .full elasticity
  else .voigt C4

/-- A material, as called by a space: `gradient` and `hessian` return arrays. -/
structure FMaterial (K : Type) where
  gradient : Vec6 K → Vec6 K
  hessian : Vec6 K → Mat6 K

variable (cfg : SpaceCfg) (mat : FMaterial K) (F : Full2 K)

namespace DeformationF

/-- `S`; `_deformation.py` lines 75-78. -/
def S : Vec6 K := fun a => lit 2 * mat.gradient (cauchyGreen F) a

/-- `Deformation.gradient`; `_deformation.py` lines 69-80. -/
def gradient : FStress K := spaceStress cfg F (S mat F) none

/-- `Deformation.hessian`; `_deformation.py` lines 82-91. -/
def hessian : FElasticity K :=
  spaceElasticity cfg F (S mat F) none (fun a b => lit 4 * mat.hessian (cauchyGreen F) a b) none

end DeformationF

namespace DistortionalF

/-- `I3`; `_distortional.py` lines 160-161. -/
def I3 : K := det (cauchyGreen F)

/-- `Cu`; line 162. -/
def Cu : Vec6 K := fun a => powThird (-1) (I3 F) * cauchyGreen F a

/-- `Sb`; line 165. -/
def Sb : Vec6 K := fun a => lit 2 * powThird (-1) (I3 F) * mat.gradient (Cu F) a

/-- `SbC`; line 166. -/
def SbC : K := ddot (Sb mat F) (cauchyGreen F)

/-- `invC`; line 167. -/
def invC : Vec6 K := inv (fun x => div x (I3 F)) (cauchyGreen F)

/-- `S`; line 169. -/
def S : Vec6 K := fun a => Sb mat F a - divNat (SbC mat F) 3 * invC F a

/-- `Distortional.gradient`; lines 154-171. -/
def gradient : FStress K := spaceStress cfg F (S mat F) (some (sqrt (I3 F)))

/-- `C4b`; lines 182-183. -/
def C4b : Mat6 K := fun a b => lit 4 * powThird (-2) (I3 F) * mat.hessian (Cu F) a b

/-- `P4`; line 185. -/
def P4 : Mat6 K := fun a b => cdyaSelf eye a b - divNat (dya (invC F) (cauchyGreen F) a b) 3

/-- `C4` before the condition; lines 186-192. -/
def geo : Mat6 K := fun a b =>
  divNat (lit 2) 3 * (SbC mat F * cdyaSelf (invC F) a b - dya (Sb mat F) (invC F) a b - dya (Sb mat F) (invC F) b a +
    divNat (SbC mat F) 3 * dya (invC F) (invC F) a b)

/-- `C4`; lines 186-195.  `keep` is the result of `not np.allclose(C4b, 0)`. -/
def C4 (keep : Mat6 K → Bool) : Mat6 K := fun a b =>
  if keep (C4b mat F) then
    geo mat F a b + ddot44 (ddot44 (P4 F) (C4b mat F)) (fun c d => P4 F d c) a b
  else geo mat F a b

/-- `Distortional.hessian`; lines 173-197. -/
def hessian (keep : Mat6 K → Bool) : FElasticity K :=
  spaceElasticity cfg F (S mat F) (some (sqrt (I3 F))) (C4 mat F keep) (some (invC F))

end DistortionalF

namespace DilatationalF

/-- `I3`; `_dilatational.py` lines 20-21. -/
def I3 : K := det (cauchyGreen F)

/-- `Co`; line 22. -/
def Co : Vec6 K := fun a => powThird 1 (I3 F) * cauchyGreen F a

/-- `Sb`; line 25. -/
def Sb : Vec6 K := fun a => lit 2 * powThird 1 (I3 F) * mat.gradient (Co F) a

/-- `tr_Sb`; line 26. -/
def trSb : K := trace (Sb mat F)

/-- `invC`; line 27. -/
def invC : Vec6 K := inv (fun x => div x (I3 F)) (cauchyGreen F)

/-- `S`; line 29. -/
def S : Vec6 K := fun a => divNat (trSb mat F) 3 * invC F a

/-- `Dilatational.gradient`; lines 17-30. -/
def gradient : FStress K := spaceStress cfg F (S mat F) (some (sqrt (I3 F)))

/-- `C4b`; lines 37-38. -/
def C4b : Mat6 K := fun a b => lit 4 * powThird 2 (I3 F) * mat.hessian (Co F) a b

/-- `C4`; lines 40-46. -/
def C4 : Mat6 K := fun a b =>
  divNat ((lit 2 * trSb mat F + ddot (ddot24 eye (C4b mat F)) eye) * dya (invC F) (invC F) a b) 9 -
    divNat (lit 2) 3 * trSb mat F * cdyaSelf (invC F) a b

/-- `Dilatational.hessian`; lines 32-48. -/
def hessian : FElasticity K :=
  spaceElasticity cfg F (S mat F) (some (sqrt (I3 F))) (C4 mat F) (some (invC F))

end DilatationalF

/-! ### `lab/_load_case.py` -/

/-- `Uniaxial.defgrad`; lines 85-92. -/
def uniaxialF (stretch : K) : Full2 K :=
  let x := stretch
  let y := div (lit 1) (sqrt stretch)
  let z := lit 0
  ![![x, z, z], ![z, y, z], ![z, z, y]]

/-- `Biaxial.defgrad`; lines 110-117. -/
def biaxialF (stretch : K) : Full2 K :=
  let x := stretch
  let y := div (lit 1) (sq stretch)
  let z := lit 0
  ![![x, z, z], ![z, x, z], ![z, z, y]]

/-- `Planar.defgrad`; lines 135-143. -/
def planarF (stretch : K) : Full2 K :=
  let x := stretch
  let y := div (lit 1) stretch
  let o := lit 1
  let z := lit 0
  ![![x, z, z], ![z, o, z], ![z, z, y]]

/-- `IncompressibleHomogeneousStretch.stress(F, P)`; line 67. -/
def labStress (F P : Full2 K) : K := loadStress (fun x => div x (F 0 0)) F P

/-- One value of `Experiment.stretch = 1 + displacement / length`; `lab/_experiment.py` line 71. -/
def experimentStretchF (displacement length : K) : K := lit 1 + div displacement length

/-- One value of `Experiment.stress() = force / area`; `lab/_experiment.py` lines 73-76. -/
def experimentStressF (force area : K) : K := div force area

end Hel.Rnd
