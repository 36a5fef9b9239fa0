import Verif.Props.Initial
import Verif.Props.StretchesChoice
import Verif.Props.History
import Verif.Props.Memory
import Verif.Model.Init

/-! # Property C73: the initial variables and the argument lists -/

namespace Props
open Spec Hel Matrix

variable {μ : Type}

/-- A space takes the first and the last of the initial variables of its material, whatever lies
between them; only an empty list is refused, when the space is constructed. -/
theorem C73_construct (matX : List Arg) :
    (spaceX matX = .error .indexError ↔ matX = []) ∧
    (∀ a, spaceX [a] = .ok [a, a]) ∧
    ∀ a mid z, spaceX (a :: (mid ++ [z])) = .ok [a, z] := by
  refine ⟨⟨fun h => ?_, by rintro rfl; rfl⟩, fun a => rfl, fun a mid z => ?_⟩
  · cases matX with
    | nil => rfl
    | cons a l => cases h
  · change (Except.ok [a, (a :: (mid ++ [z])).getLast _] : Res (List Arg)) = _
    rw [List.getLast_cons (by simp), List.getLast_append_singleton]

theorem firstLast_append (a z : Arg) (mid : List Arg) : firstLast (a :: (mid ++ [z])) = .ok (a, z) := by
  change (Except.ok (a, (a :: (mid ++ [z])).getLast _) : Res (Arg × Arg)) = _
  rw [List.getLast_cons (by simp), List.getLast_append_singleton]

/-- The methods of a space use the first entry of the list as deformation gradient and the last
one as state variables: entries between them have no influence, in every state of the object. -/
theorem C73_entries (w : Space) (cfg : SpaceCfg) (mat : Material ℝ Arg μ) (F : Ten2 ℝ) (mid : List Arg) (z : Arg)
    (s : w.St μ) :
    (w.obj cfg mat).gradientL (.tensor F :: (mid ++ [z])) s = (w.obj cfg mat).gradient F z s ∧
    (w.obj cfg mat).hessianL (.tensor F :: (mid ++ [z])) s = (w.obj cfg mat).hessian F z s := by
  simp only [SpaceObj.gradientL, SpaceObj.hessianL, withList, firstLast_append, and_self]

/-- A list with the deformation gradient only hands it to the material as state variables. -/
theorem C73_single (w : Space) (cfg : SpaceCfg) (mat : Material ℝ Arg μ) (F : Ten2 ℝ) (s : w.St μ) :
    (w.obj cfg mat).gradientL [.tensor F] s = (w.obj cfg mat).gradient F (.tensor F) s ∧
    (w.obj cfg mat).hessianL [.tensor F] s = (w.obj cfg mat).hessian F (.tensor F) s := ⟨rfl, rfl⟩

/-- An empty list raises an `IndexError`, a first entry without two axes a `ValueError`; the object
keeps its attributes in both cases. -/
theorem C73_refused (w : Space) (cfg : SpaceCfg) (mat : Material ℝ Arg μ) (s : w.St μ) :
    (w.obj cfg mat).gradientL [] s = (.error .indexError, s) ∧
    (w.obj cfg mat).hessianL [] s = (.error .indexError, s) ∧
    ∀ n v rest, (w.obj cfg mat).gradientL (.vector n v :: rest) s = (.error .valueError, s) ∧
      (w.obj cfg mat).hessianL (.vector n v :: rest) s = (.error .valueError, s) :=
  ⟨rfl, rfl, fun _ _ _ => ⟨rfl, rfl⟩⟩

/-- A space on top of a framework constructed with `nstatevars = n` has the initial variables
"identity" and "`n` zeros", and calling it with its own initial variables evaluates it there. -/
theorem C73_initial (w : Space) (cfg : SpaceCfg) (mat : Material ℝ Arg μ) (n : ℕ) :
    ∃ x, spaceX (frameworkX n) = .ok x ∧ ∀ s,
      (w.obj cfg mat).gradientL x s = (w.obj cfg mat).gradient (1 : Ten2 ℝ) (.vector n fun _ => 0) s ∧
      (w.obj cfg mat).hessianL x s = (w.obj cfg mat).hessian (1 : Ten2 ℝ) (.vector n fun _ => 0) s := by
  have e : (fun i j : Fin 3 => if i = j then (1 : ℝ) else 0) = (1 : Ten2 ℝ) := by
    funext i j; rw [Matrix.one_apply]
  have e' : frameworkX n = [.tensor (1 : Ten2 ℝ), .vector n fun _ => 0] := by rw [← e]; rfl
  rw [e']
  exact ⟨_, rfl, fun s => ⟨rfl, rfl⟩⟩

/-- With every isotropic framework the stress at the initial variables is hydrostatic. -/
theorem C73_hydrostatic (w : Space) (mat : Material ℝ Arg μ) (n : ℕ)
    (hi : Material.Isotropic mat (.vector n fun _ => 0)) {x : List Arg} (hx : spaceX (frameworkX n) = .ok x)
    {s : w.St μ} {P : Ten2 ℝ} {z' : Arg} (h : Returns ((w.obj {} mat).gradientL x) s (.full P, z')) :
    ∃ p : ℝ, P = p • (1 : Ten2 ℝ) := by
  obtain ⟨x', hx', h0⟩ := C73_initial w {} mat n
  cases hx.symm.trans hx'
  rw [Returns, (h0 s).1] at h
  refine isotropic_tensor fun Q hQ => ?_
  have h1 := C36_gradient w mat _ z' s hi (F := (1 : Ten2 ℝ)) (by simp) hQ h
  have h2 := C32_gradient w mat _ z' s hQ h
  rw [Matrix.one_mul] at h1
  rw [Matrix.mul_one] at h2
  have e : P * Q = Q * P := by
    exact Stress.full.inj (Prod.mk.inj (Except.ok.inj (h1.symm.trans h2))).1
  rw [rotate, ← e, Matrix.mul_assoc, hQ.mul_transpose, Matrix.mul_one]

/-- In the distortional space it vanishes. -/
theorem C73_distortional (mat : Material ℝ Arg μ) (n : ℕ) (hi : Material.Isotropic mat (.vector n fun _ => 0))
    {x : List Arg} (hx : spaceX (frameworkX n) = .ok x) {s : Space.distortional.St μ} {P : Ten2 ℝ} {z' : Arg}
    (h : Returns ((Space.distortional.obj {} mat).gradientL x) s (.full P, z')) : P = 0 := by
  obtain ⟨x', hx', h0⟩ := C73_initial .distortional {} mat n
  cases hx.symm.trans hx'
  rw [Returns, (h0 s).1] at h
  refine C37_gradient mat _ z' s hi (Q := 1) (a := 1) orthogonal_one one_ne_zero ?_
  rw [one_smul]
  exact h

/-- End to end, third-order-deformation materials in the distortional space: after every sequence
of earlier calls `space.gradient(space.x)` returns the zero stress and the initial state
variables, and `space.hessian(space.x)` the linear-elastic tangent with the shear modulus
`2 (C10 + C01)`. -/
theorem C73_third_order (c : Fin 5 → ℝ) (n : ℕ)
    (hc : c 1 = 0 ∧ c 2 = 0 ∧ c 3 = 0 ∨ 1 / 10 ^ 8 < 2 * |c 1| ∨ 1 / 10 ^ 8 < |8 * c 3 + 16 * c 2|) :
    ∃ x, spaceX (frameworkX n) = .ok x ∧ ∀ s,
      Returns ((Space.distortional.obj {} (Invariants.material (todOf c false).mat)).gradientL x) s
        (.full (0 : Ten2 ℝ), .vector n fun _ => 0) ∧
      ∃ A, Returns ((Space.distortional.obj {} (Invariants.material (todOf c false).mat)).hessianL x) s (.full A) ∧
        ∀ U, contract42 A U = (2 * (2 * (c 0 + c 1))) • linearShear U := by
  obtain ⟨x, hx, h0⟩ := C73_initial .distortional {} (Invariants.material (todOf c false).mat) n
  refine ⟨x, hx, fun s => ⟨?_, ?_⟩⟩
  · obtain ⟨P, hP⟩ := tod_space_total .distortional (todOf c false) (1 : Ten2 ℝ) (Arg.vector n fun _ => 0) s
    have h1 : Returns ((Space.distortional.obj {} (Invariants.material (todOf c false).mat)).gradientL x) s
        (.full P, .vector n fun _ => 0) := by rw [Returns, (h0 s).1]; exact hP
    have e := C73_distortional _ n (C36_invariants _ _) hx h1
    rw [e] at h1
    exact h1
  · obtain ⟨A, hA, hU⟩ := C54_third_order c (Arg.vector n fun _ => 0) s hc
    exact ⟨A, by rw [Returns, (h0 s).2]; exact hA, hU⟩

/-- End to end, Ogden's model: zero stress and, as soon as the tangent is not lost in the tolerance
of the distortional space, the shear modulus `Σ μ`. -/
theorem C73_ogden (lapack : Eigh) (hl : EighValid lapack) (mu alpha : List ℝ) (ha : ∀ a ∈ alpha, a ≠ 0)
    (hn : mu.length = alpha.length) (n : ℕ)
    (htol : ((mu.zip alpha).map fun p => p.1 * (1 - 2 / p.2)).sum = 0 ∨
      1 / 10 ^ 8 < |((mu.zip alpha).map fun p => p.1 * (1 - 2 / p.2)).sum|) :
    ∃ x, spaceX (frameworkX n) = .ok x ∧ ∀ s,
      Returns ((Space.distortional.obj {} (Stretches.material lapack (Ogden.mat ⟨mu, alpha⟩))).gradientL x) s
        (.full (0 : Ten2 ℝ), .vector n fun _ => 0) ∧
      ∀ A, Returns ((Space.distortional.obj {} (Stretches.material lapack (Ogden.mat ⟨mu, alpha⟩))).hessianL x) s (.full A) →
        ∀ U, contract42 A U = (2 * mu.sum) • linearShear U := by
  obtain ⟨x, hx, h0⟩ := C73_initial .distortional {} (Stretches.material lapack (Ogden.mat ⟨mu, alpha⟩)) n
  refine ⟨x, hx, fun s => ⟨?_, fun A hA => ?_⟩⟩
  · obtain ⟨P, hP⟩ := ogden_space_total .distortional lapack mu alpha ha (1 : Ten2 ℝ) (Arg.vector n fun _ => 0) s
    have h1 : Returns ((Space.distortional.obj {} (Stretches.material lapack (Ogden.mat ⟨mu, alpha⟩))).gradientL x) s
        (.full P, .vector n fun _ => 0) := by rw [Returns, (h0 s).1]; exact hP
    have e := C73_distortional _ n (C36_stretches lapack hl _ (Ogden.symmetric ⟨mu, alpha⟩) _) hx h1
    rw [e] at h1
    exact h1
  · rw [Returns, (h0 s).2] at hA
    exact C54_ogden lapack hl mu alpha ha hn _ htol ⟨s, hA⟩

/-- The models of the package ignore the state variables: the stress from the list `[F]` is the
stress from `[F, …, statevars]`, with every deformation gradient and whatever the other entries. -/
theorem C73_stateless (w : Space) (m : TOD ℝ) (F : Ten2 ℝ) (mid : List Arg) (z : Arg)
    (s : w.St (InvSt ℝ Unit)) :
    ∃ P : Ten2 ℝ, Returns ((w.obj {} (Invariants.material m.mat)).gradientL [.tensor F]) s (.full P, .tensor F) ∧
      Returns ((w.obj {} (Invariants.material m.mat)).gradientL (.tensor F :: (mid ++ [z]))) s (.full P, z) := by
  have h1 : ∀ z : Arg, Returns ((Invariants.material (Z := Arg) m.mat).gradient (arg w F) z) (w.inner s) _ := fun z =>
    (Invariants.returns_gradient ..).2 ⟨_, congrArg (fun r => (PyM.lift r () : _ × Unit).1)
      (TOD.gradient_eq _ _ _ _ z), rfl, rfl⟩
  have h2 : ∀ z : Arg, Returns ((w.obj {} (Invariants.material m.mat)).gradient F z) s _ := fun z =>
    (Space.returns_gradient w ..).2 ⟨_, h1 z, (piolaStress_default ..).symm⟩
  refine ⟨_, h2 _, ?_⟩
  rw [Returns, (C73_entries w {} _ F mid z s).1]
  exact h2 z

/-- The hypotheses can be met: a Mooney-Rivlin material with two state variables. -/
example : ∃ x, spaceX (frameworkX 2) = .ok x ∧ ∀ s,
    Returns ((Space.distortional.obj {} (Invariants.material (todOf ![1, 1 / 2, 0, 0, 0] false).mat)).gradientL x) s
      (.full (0 : Ten2 ℝ), .vector 2 fun _ => 0) := by
  obtain ⟨x, hx, h⟩ := C73_third_order ![1, 1 / 2, 0, 0, 0] 2 (Or.inr (Or.inl (by norm_num)))
  exact ⟨x, hx, fun s => (h s).1⟩

end Props
