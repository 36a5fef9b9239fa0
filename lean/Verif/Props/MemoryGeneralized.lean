import Verif.Proofs.MemoryGeneralized
import Verif.Props.Memory
import Verif.Props.BatchGeneralized
import Verif.Props.Generalized

/-!
# C61 for `GeneralizedInvariantsModel`

The generalized-invariants model on arrays in memory, for every strain function and every invariant-based
model, and end to end with `ThirdOrderDeformation` and the strain functions of the library.
-/

namespace Props
open Spec Hel Hel.Memory

noncomputable section

variable {T κ Z Zv σ τ μ ν : Type} [Encodable T] [Encodable κ] {n : ℕ}

/-- The strain functions of the library, on arrays, change no array. -/
theorem C61_strain (f : StrainFun) : (Strain.ofFun f : Strain T).Implements f := strain_ofFun f

/-- `GeneralizedInvariantsModel`, which adds to arrays and to parts of arrays in place and keeps the arrays returned by
the strain function as attributes: it changes no existing array (also if it raises), and computes what it computes on
values; for every strain function and every model with this property.  `h3`: the model returns no Python number as its
third derivative (a float times the list of line 322 is a `TypeError`; on values numbers and arrays are not told
apart). -/
theorem C61_generalized (g : GenInv) (S : Strain (κ × Fin n)) (hS : S.Implements g.strain) (sv : SV Z Zv)
    (M : Memory.InvMat (κ × Fin n) Z μ) (mat : Hel.InvMat (Arr (κ × Fin n)) Zv ν) (hM : M.Implements sv mat)
    (h3 : M.ThirdArray) : (Memory.GenInv.mat g S M).Implements sv (Batch.GenInv.mat g mat) :=
  Memory.GenInv.mat_implements g hS hM h3

theorem bind_ok {σ α β : Type} {p : PyM σ α} {f : α → PyM σ β} {s : σ} {r : β} (h : ((p >>= f) s).1 = .ok r) :
    ∃ a s', (f a s').1 = .ok r := by
  rw [PyM.bind_run] at h
  rcases hp : p s with ⟨e | a, s'⟩ <;> rw [hp] at h
  · cases h
  · exact ⟨a, s', h⟩

/-- `ThirdOrderDeformation` does not depend on the third invariant. -/
theorem todMat_third (m : TOD ℝ) : (todMat m : Memory.InvMat T Z Unit).ThirdArray := by
  intro m₀ s A B C z r x h
  change (todGradient m A B C z (m₀, s)).1 = _ at h
  unfold todGradient at h
  obtain ⟨_, _, h⟩ := bind_ok h
  obtain ⟨_, _, h⟩ := bind_ok h
  obtain ⟨_, _, h⟩ := bind_ok h
  obtain ⟨_, _, h⟩ := bind_ok h
  obtain ⟨_, _, h⟩ := bind_ok h
  obtain ⟨_, _, h⟩ := bind_ok h
  cases h
  exact nofun

theorem gen_space_total (w : Space) (lapack : Eigh) (g : GenInv) (C10 C01 C11 C20 C30 : ℝ) (b : Bool) (F : Ten2 ℝ) (z : Z)
    (s : w.St (StrSt (GenSt Unit))) :
    ∃ P, Returns ((w.obj {} (Stretches.material lapack (g.mat (TOD.init C10 C01 C11 C20 C30 b).mat))).gradient F z) s
      (.full P, z) := by
  have h1 : Returns ((Stretches.material lapack (g.mat (TOD.init C10 C01 C11 C20 C30 b).mat)).gradient (arg w F) z)
      (w.inner s) _ :=
    (Stretches.returns_gradient ..).2 ⟨_, (GenInv.returns_gradient ..).2 ⟨_, (TOD.gradient_eq (I3 := GenInv.J3 (g.ev (eighSqrt lapack (arg w F)).1)) ..), rfl, rfl⟩, rfl⟩
  exact ⟨_, (Space.returns_gradient w ..).2 ⟨_, h1, (piolaStress_default ..).symm⟩⟩

/-- End to end: the stress of the generalized-invariants model with `ThirdOrderDeformation` and a strain function of the
library on the three spaces, as `C61_third_order_stress`. -/
theorem C61_generalized_stress [Nonempty κ] [NeZero n] (lapack : Eigh) (g : GenInv) (C10 C01 C11 C20 C30 : ℝ) (strain : Bool)
    (bc bc4 : Bool) (sv : SV Z Z) (m : Mem) (F : Nd (Full2 (Arr (κ × Fin n)))) (f : Full2 (Arr (κ × Fin n))) (z zv : Z)
    (hF : Holds m F f) (hz : sv.Is m z zv)
    (s₁ : Memory.DefSt (κ × Fin n) (Memory.StrSt (κ × Fin n) (Memory.GenSt (κ × Fin n) Unit)))
    (s₂ : Memory.DistSt (κ × Fin n) (Memory.StrSt (κ × Fin n) (Memory.GenSt (κ × Fin n) Unit)))
    (s₃ : Memory.DilSt (κ × Fin n) (Memory.StrSt (κ × Fin n) (Memory.GenSt (κ × Fin n) Unit))) :
    let M : Memory.Mat (κ × Fin n) Z _ := Memory.Stretches.material lapack (Memory.GenInv.mat g (Strain.ofFun g.strain)
      (todMat (TOD.init C10 C01 C11 C20 C30 strain)))
    let N : Material ℝ Z (StrSt (GenSt Unit)) :=
      Stretches.material lapack (g.mat (TOD.init C10 C01 C11 C20 C30 strain).mat)
    (∃ P p z', ((Memory.Deformation.obj {} bc bc4 M).gradient F z (m, s₁)).1 = .ok (.full P, z') ∧
      Ext m ((Memory.Deformation.obj {} bc bc4 M).gradient F z (m, s₁)).2.1 ∧ m.next ≤ P.loc ∧
      Holds ((Memory.Deformation.obj {} bc bc4 M).gradient F z (m, s₁)).2.1 P p ∧
      ∀ i, SpaceObj.Grad (Deformation.obj {} N) zv (pt2 i f) (pt2 i p)) ∧
    (∃ P p z', ((Memory.Distortional.obj {} bc bc4 M).gradient F z (m, s₂)).1 = .ok (.full P, z') ∧
      Ext m ((Memory.Distortional.obj {} bc bc4 M).gradient F z (m, s₂)).2.1 ∧ m.next ≤ P.loc ∧
      Holds ((Memory.Distortional.obj {} bc bc4 M).gradient F z (m, s₂)).2.1 P p ∧
      ∀ i, SpaceObj.Grad (Distortional.obj {} N) zv (pt2 i f) (pt2 i p)) ∧
    (∃ P p z', ((Memory.Dilatational.obj {} bc bc4 M).gradient F z (m, s₃)).1 = .ok (.full P, z') ∧
      Ext m ((Memory.Dilatational.obj {} bc bc4 M).gradient F z (m, s₃)).2.1 ∧ m.next ≤ P.loc ∧
      Holds ((Memory.Dilatational.obj {} bc bc4 M).gradient F z (m, s₃)).2.1 P p ∧
      ∀ i, SpaceObj.Grad (Dilatational.obj {} N) zv (pt2 i f) (pt2 i p)) := by
  classical
  intro M N
  have hM := C61_stretches lapack sv _ _ (C61_generalized g _ (C61_strain (T := κ × Fin n) g.strain) sv _ _
    (C61_third_order (T := κ × Fin n) C10 C01 C11 C20 C30 strain sv) (todMat_third _))
  have hN := fun i : κ × Fin n => C39_stretches lapack i (id : Z → Z) _ _
    (C39_generalized_tod g C10 C01 C11 C20 C30 strain i id)
  obtain ⟨i₀⟩ := (inferInstance : Nonempty (κ × Fin n))
  refine ⟨?_, ?_, ?_⟩
  · exact implements_grad (C61_deformation {} bc bc4 sv _ _ hM) (fun i => C39_deformation_gradient {} i id _ _ (hN i))
      { material := { material := { material := () } } } m s₁ F f z zv hF hz i₀
      fun G => ⟨{ material := { material := { material := () } } }, gen_space_total .deformation lapack g _ _ _ _ _ _ G zv
        { material := { material := { material := () } } }⟩
  · exact implements_grad (C61_distortional {} bc bc4 sv _ _ hM) (fun i => C39_distortional_gradient {} i id _ _ (hN i))
      { material := { material := { material := () } } } m s₂ F f z zv hF hz i₀
      fun G => ⟨{ material := { material := { material := () } } }, gen_space_total .distortional lapack g _ _ _ _ _ _ G zv
        { material := { material := { material := () } } }⟩
  · exact implements_grad (C61_dilatational {} bc bc4 sv _ _ hM) (fun i => C39_dilatational_gradient {} i id _ _ (hN i))
      { material := { material := { material := () } } } m s₃ F f z zv hF hz i₀
      fun G => ⟨{ material := { material := { material := () } } }, gen_space_total .dilatational lapack g _ _ _ _ _ _ G zv
        { material := { material := { material := () } } }⟩

/-- Two points of simple shear, the strain function `(λ² - 1) / 2`: the user overwrites the
returned stress, and evaluates again with the same array. -/
example (lapack : Eigh) (s s' : Memory.DefSt (Unit × Fin 2) (Memory.StrSt (Unit × Fin 2) (Memory.GenSt (Unit × Fin 2) Unit))) :
    ∃ g, GenInv.init (strainFun 2) = .ok g ∧ ∃ (m : Mem) (F : Nd (Full2 (Arr (Unit × Fin 2)))) (P Q : Nd (Full2 (Arr (Unit × Fin 2)))) (p : _) (m' : Mem),
      let X := Memory.Deformation.obj (Z := Unit) {} false false (Memory.Stretches.material lapack
        (Memory.GenInv.mat g (Strain.ofFun g.strain) (todMat (TOD.init 1 2 0 0 0 true))))
      (X.gradient F () (m, s)).1 = .ok (.full P, ()) ∧ Holds (X.gradient F () (m, s)).2.1 P p ∧
      m' = (put P (fun _ _ _ => 0) (X.gradient F () (m, s)).2.1).2 ∧
      (X.gradient F () (m', s')).1 = .ok (.full Q, ()) ∧ Holds (X.gradient F () (m', s')).2.1 Q p := by
  classical
  obtain ⟨⟨g, hg⟩, -, -⟩ := C13_init_strain (k := 2) two_ne_zero
  refine ⟨g, hg, ?_⟩
  let f : Full2 (Arr (Unit × Fin 2)) := fun i j p => (!![1, (p.2.val + 1 : ℝ), 0; 0, 1, 0; 0, 0, 1] i j)
  let m : Mem := (new f ⟨0, fun _ _ => 0⟩).2
  let F := (new f ⟨0, fun _ _ => 0⟩).1
  have hF : Holds m F f := holds_new _ _
  have hI := C61_deformation {} false false (SV.pure Unit) _ _ (C61_stretches lapack (SV.pure Unit) _ _
    (C61_generalized g _ (C61_strain (T := Unit × Fin 2) g.strain) (SV.pure Unit) _ _
    (C61_third_order (T := Unit × Fin 2) 1 2 0 0 0 true (SV.pure Unit)) (todMat_third _)))
  obtain ⟨P, p, z', h1, h2, h3, h4, -⟩ := (C61_generalized_stress lapack g 1 2 0 0 0 true false false (SV.pure Unit) m F f () () hF
    rfl s { material := { material := { material := () } } } { material := { material := { material := () } } }).1
  have hlF : F.loc ≠ P.loc := by have := hF.loc; omega
  obtain ⟨v, R', z₂, k1, k2, k3, -⟩ := C61_repeat (SV.pure Unit) _ _ hI
    { material := { material := { material := () } } } {P.loc} m _ s s' F f () z' ()
    (.full P) hF rfl h1 (.other .refl (put P (fun _ _ _ => 0) _).2 s' le_rfl fun l hl hw => by
      funext k
      exact dif_neg fun h => hw h.1) hlF rfl
  rcases v with v | v
  · exact k1.elim
  rcases R' with R' | R'
  · exact k3.elim
  have hv : p = v := h4.read.symm.trans k1.read
  subst hv
  exact ⟨m, F, P, R', p, _, h1, h4, rfl, k2, k3⟩

end

end Props
