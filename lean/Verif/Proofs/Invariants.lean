import Verif.Proofs.PyM
import Verif.Proofs.Voigt
import Verif.Spec.Api

/-! What the methods of `Invariants` do, as equations. -/

namespace Hel
namespace Invariants
open PyM

variable {K Z μ : Type} [CommRing K] [Div K]

/-- value of `gradient` -/
def gradPure (C : Vec6 K) (r : InvGrad K Z) : Vec6 K := fun a =>
  r.d1.getD 0 * eye a + r.d2.getD 0 * (trace C * eye a - C a) +
    r.d3.getD 0 * (det C * inv C (some (det C)) a)

/-- state after the first lines of `gradient` -/
def pre (C : Vec6 K) (s : InvSt K μ) (m : μ) : InvSt K μ :=
  { s with I := some eye, I1 := some (trace C), I2 := some ((trace C ^ 2 - ddot C C) / 2),
           I3 := some (det C), material := m }

/-- state after a successful `gradient` -/
def post (C : Vec6 K) (r : InvGrad K Z) (s : InvSt K μ) (m : μ) : InvSt K μ :=
  { pre C s m with
    dWdI1 := some r.d1, dWdI2 := some r.d2, dWdI3 := some r.d3
    dI1dC := r.d1.elim s.dI1dC fun _ => some eye
    dI2dC := r.d2.elim s.dI2dC fun _ => some fun a => trace C * eye a - C a
    invC := r.d3.elim s.invC fun _ => some (inv C (some (det C)))
    dI3dC := r.d3.elim s.dI3dC fun _ => some fun a => det C * inv C (some (det C)) a }

theorem gradient_run (mat : InvMat K Z μ) (C : Vec6 K) (z : Z) (s : InvSt K μ) :
    gradient mat C z s =
      match mat.gradient (trace C) ((trace C ^ 2 - ddot C C) / 2) (det C) z s.material with
      | (.ok r, m) => (.ok (gradPure C r, r.sv), post C r s m)
      | (.error e, m) => (.error e, pre C s m) := by
  unfold gradient callMat
  simp only [bind_run, assign_run, attr_run, sub_run]
  rcases mat.gradient (trace C) ((trace C ^ 2 - ddot C C) / 2) (det C) z s.material with ⟨r, m⟩
  cases r with
  | error e => simp [pre]
  | ok r =>
    obtain ⟨d1, d2, d3, sv⟩ := r
    cases d1 <;> cases d2 <;> cases d3 <;> simp [pre, post, attr_run] <;>
      (funext a; simp [gradPure])

/-- `addTerm` without a state -/
def addTermRes (acc : Mat6 K) (cond coef : Option K) (x y : Option (Vec6 K))
    (T : Vec6 K → Vec6 K → Mat6 K) : Res (Mat6 K) :=
  match cond, x, y, coef with
  | none, _, _, _ => .ok acc
  | some _, none, _, _ => .error .unboundLocal
  | some _, some _, none, _ => .error .unboundLocal
  | some _, some _, some _, none => .error .typeError
  | some _, some x, some y, some d => .ok fun a b => acc a b + d * T x y a b

theorem addTerm_run {σ : Type} (acc : Mat6 K) (cond coef : Option K) (x y : Option (Vec6 K))
    (T : Vec6 K → Vec6 K → Mat6 K) (s : σ) :
    addTerm acc cond coef x y T s = (addTermRes acc cond coef x y T, s) := by
  cases cond <;> cases x <;> cases y <;> cases coef <;> simp [addTerm, addTermRes]

/-- the locals `dI1dC`, `dI2dC`, `dI3dC` of `hessian` -/
def loc (d : Option K) (v : Vec6 K) : Option (Vec6 K) := d.map fun _ => v

/-- value of `hessian` for given results of the model -/
def hessRes (C : Vec6 K) (r : InvGrad K Z) (h : InvHess K) : Res (Mat6 K) := do
  let I : Vec6 K := eye
  let invC := inv C (some (det C))
  let x1 := loc r.d1 I
  let x2 := loc r.d2 fun a => trace C * eye a - C a
  let x3 := loc r.d3 fun a => det C * invC a
  let acc : Mat6 K := fun a b => r.d2.getD 0 * (dya I I a b - cdyaSelf I a b) +
    r.d3.getD 0 * (det C * (dya invC invC a b - cdyaSelf invC a b))
  let acc ← addTermRes acc h.h11 h.h11 x1 x1 dya
  let acc ← addTermRes acc h.h22 h.h22 x2 x2 dya
  let acc ← addTermRes acc h.h33 h.h22 x2 x2 dya
  let acc ← addTermRes acc h.h12 h.h12 x1 x2 dyaSum
  let acc ← addTermRes acc h.h23 h.h23 x2 x3 dyaSum
  addTermRes acc h.h13 h.h13 x1 x3 dyaSum

theorem hessian_run (mat : InvMat K Z μ) (C : Vec6 K) (z : Z) (s : InvSt K μ) :
    hessian mat C z s =
      match mat.gradient (trace C) ((trace C ^ 2 - ddot C C) / 2) (det C) z s.material with
      | (.error e, m) => (.error e, pre C s m)
      | (.ok r, m) =>
        match mat.hessian (trace C) ((trace C ^ 2 - ddot C C) / 2) (det C) r.sv m with
        | (.error e, m) => (.error e, post C r s m)
        | (.ok h, m) => (hessRes C r h, post C r s m) := by
  unfold hessian callMat
  simp only [bind_run, gradient_run]
  rcases mat.gradient (trace C) ((trace C ^ 2 - ddot C C) / 2) (det C) z s.material with ⟨r, m⟩
  cases r with
  | error e => simp
  | ok r =>
    have e1 : (post C r s m).I1 = some (trace C) := rfl
    have e2 : (post C r s m).I2 = some ((trace C ^ 2 - ddot C C) / 2) := rfl
    have e3 : (post C r s m).I3 = some (det C) := rfl
    simp only [attr_run, e1, e2, e3, sub_run]
    have e4 : (post C r s m).material = m := rfl
    rw [e4]
    rcases mat.hessian (trace C) ((trace C ^ 2 - ddot C C) / 2) (det C) r.sv m with ⟨h, m'⟩
    have e5 : ({ post C r s m with material := m' } : InvSt K μ) = post C r s m' := rfl
    cases h with
    | error e => rfl
    | ok h =>
      obtain ⟨d1, d2, d3, sv⟩ := r
      have key : ∀ (acc : Mat6 K) (x1 x2 x3 : Option (Vec6 K)) (s : InvSt K μ),
          (do
            let acc ← addTerm acc h.h11 h.h11 x1 x1 dya
            let acc ← addTerm acc h.h22 h.h22 x2 x2 dya
            let acc ← addTerm acc h.h33 h.h22 x2 x2 dya
            let acc ← addTerm acc h.h12 h.h12 x1 x2 dyaSum
            let acc ← addTerm acc h.h23 h.h23 x2 x3 dyaSum
            let acc ← addTerm acc h.h13 h.h13 x1 x3 dyaSum
            pure acc : PyM (InvSt K μ) (Mat6 K)) s = ((do
            let acc ← addTermRes acc h.h11 h.h11 x1 x1 dya
            let acc ← addTermRes acc h.h22 h.h22 x2 x2 dya
            let acc ← addTermRes acc h.h33 h.h22 x2 x2 dya
            let acc ← addTermRes acc h.h12 h.h12 x1 x2 dyaSum
            let acc ← addTermRes acc h.h23 h.h23 x2 x3 dyaSum
            addTermRes acc h.h13 h.h13 x1 x3 dyaSum : Res (Mat6 K)), s) := by
        intro acc x1 x2 x3 s
        simp only [bind_run, addTerm_run]
        cases addTermRes acc h.h11 h.h11 x1 x1 dya with
        | error e => rfl
        | ok acc =>
        simp only [Except.bind, bind]
        cases addTermRes acc h.h22 h.h22 x2 x2 dya with
        | error e => rfl
        | ok acc =>
        simp only
        cases addTermRes acc h.h33 h.h22 x2 x2 dya with
        | error e => rfl
        | ok acc =>
        simp only
        cases addTermRes acc h.h12 h.h12 x1 x2 dyaSum with
        | error e => rfl
        | ok acc =>
        simp only
        cases addTermRes acc h.h23 h.h23 x2 x3 dyaSum with
        | error e => rfl
        | ok acc =>
        cases addTermRes acc h.h13 h.h13 x1 x3 dyaSum <;> rfl
      cases d1 <;> cases d2 <;> cases d3 <;>
        simp [post, pre, attr_run, hessRes, loc] 
      all_goals exact key _ _ _ _ _

end Invariants
end Hel
