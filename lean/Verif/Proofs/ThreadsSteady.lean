import Verif.Proofs.ThreadsShared

/-!
Helper lemmas: the methods are safe if all threads evaluate the same deformation.
-/

namespace Hel

variable {σ τ α β : Type} {Z μ : Type}

/-- one more fact: the attribute `f` has the value `a` -/
def Facts.know {G : Set (σ → σ)} (P : Facts G) (f : σ → Option β) (a : β)
    (h : ∀ u ∈ G, ∀ s, f (u s) = f s ∨ f (u s) = some a) : Facts G where
  holds s := P.holds s ∧ f s = some a
  stable u hu s hs := ⟨P.stable u hu s hs.1, by rcases h u hu s with h | h <;> rw [h]; exact hs.2⟩

/-- an assignment of an attribute after which its value is known -/
theorem Prog.safe_set {G : Set (σ → σ)} {u : σ → σ} (hu : u ∈ G) {P : Facts G} {Q : Res Unit → Facts G → Prop}
    (f : σ → Option β) (a : β) (hk : ∀ u ∈ G, ∀ s, f (u s) = f s ∨ f (u s) = some a) (hf : ∀ s, f (u s) = some a)
    (h : Q (.ok ()) (P.know f a hk)) : Prog.Safe G (Prog.assign u) P Q :=
  Prog.safe_assign (P' := P.know f a hk) hu (fun s hs => ⟨P.stable u hu s hs, hf s⟩) h

/-- The methods of a material return the same results whatever threads do which evaluate the same tensor. -/
def MatProg.Steady (M : MatProg Z μ) (c : Vec6 ℝ) (z : Z) : Prop :=
  ∃ (H : Set (μ → μ)) (rg : Res (Vec6 ℝ × Z)) (rh : Res (Mat6 ℝ)), id ∈ H ∧
    (M.gradient c z).Safe H (.top H) (fun r _ => r = rg) ∧ (M.hessian c z).Safe H (.top H) fun r _ => r = rh

/-- The same for a model in terms of invariants. -/
def Threads.InvProg.Steady (M : Threads.InvProg Z μ) (x1 x2 x3 : ℝ) (z : Z) : Prop :=
  ∃ (H : Set (μ → μ)) (rg : Res (InvGrad ℝ Z)) (rh : Z → Res (InvHess ℝ)), id ∈ H ∧
    (M.gradient x1 x2 x3 z).Safe H (.top H) (fun r _ => r = rg) ∧
      ∀ z', (M.hessian x1 x2 x3 z').Safe H (.top H) fun r _ => r = rh z'

/-- The same for a model in terms of stretches. -/
def Threads.StrProg.Steady (M : Threads.StrProg Z μ) (l : Vec3 ℝ) (z : Z) : Prop :=
  ∃ (H : Set (μ → μ)) (rg : Res (Vec3 ℝ × Z)) (rh : Z → Res StrHess), id ∈ H ∧
    (M.gradient l z).Safe H (.top H) (fun r _ => r = rg) ∧
      ∀ g z', rg = .ok (g, z') → (M.hessian l z').Safe H (.top H) fun r _ => r = rh z'

namespace Threads
open Prog

/-! ### Deformation -/

section deformation

variable (cfg : SpaceCfg) (M : MatProg Z μ) (F : Full2 ℝ) (z : Z) (g : Vec6 ℝ) (H : Set (μ → μ))

/-- updates of the attributes of a `Deformation` object which evaluates `F` -/
def defUpd : Set (DefSt μ → DefSt μ) := { u |
  (∀ s, (u s).C = s.C ∨ (u s).C = some (rightCauchyGreen F)) ∧
  (∀ s, (u s).S = s.S ∨ (u s).S = some fun a => 2 * g a) ∧
  ∃ v ∈ H, ∀ s, (u s).material = v s.material }

variable {cfg M F z g H}

theorem safe_defGradient (hid : id ∈ H) {r : Res (Vec6 ℝ × Z)}
    (hr : (M.gradient (rightCauchyGreen F) z).Safe H (.top H) fun r' _ => r' = r)
    (hg : ∀ g' z', r = .ok (g', z') → g' = g) (P : Facts (defUpd F g H)) (Q : Res (Stress × Z) → Facts (defUpd F g H) → Prop)
    (hok : ∀ z' (P' : Facts (defUpd F g H)), r = .ok (g, z') →
      (∀ s, P'.holds s → s.C = some (rightCauchyGreen F) ∧ s.S = some fun a => 2 * g a) →
      Q (.ok (piolaStress cfg F (fun a => 2 * g a) none, z')) P')
    (herr : ∀ e P', r = .error e → Q (.error e) P') :
    (defGradient cfg M F z).Safe (defUpd F g H) P Q := by
  have hid' : id ∈ defUpd F g H := ⟨fun _ => .inl rfl, fun _ => .inl rfl, id, hid, fun _ => rfl⟩
  unfold defGradient
  have h1 : (fun s : DefSt μ => { s with C := some (rightCauchyGreen F) }) ∈ defUpd F g H :=
    ⟨fun _ => .inr rfl, fun _ => .inl rfl, id, hid, fun _ => rfl⟩
  have h2 : (fun s : DefSt μ => { s with S := some fun a => 2 * g a }) ∈ defUpd F g H :=
    ⟨fun _ => .inl rfl, fun _ => .inr rfl, id, hid, fun _ => rfl⟩
  refine safe_bind (safe_set h1 (·.C) (rightCauchyGreen F) (fun u hu s => hu.1 s) (fun _ => rfl) ?_)
  refine safe_bind (safe_attr hid' (fun s hs => hs.2) ?_)
  refine safe_bind (safe_sub (H := H) (r := r) (fun u hu => show _ ∈ defUpd F g H from ⟨fun _ => .inl rfl, fun _ => .inl rfl, u, hu, fun _ => rfl⟩)
    (fun u hu => hu.2.2) (fun _ _ => rfl) (.top H) hr (fun _ _ => trivial) ?_)
  rcases r with e | ⟨g', z'⟩
  · exact herr e _ rfl
  · obtain rfl := hg g' z' rfl
    refine safe_bind (safe_set h2 (·.S) (fun a => 2 * g' a) (fun u hu s => hu.2.1 s) (fun _ => rfl) ?_)
    refine safe_bind (safe_attr hid' (fun s hs => hs.2) ?_)
    exact safe_pure (hok z' _ rfl fun s hs => ⟨hs.1.2, hs.2⟩)

/-- the outcomes of the methods of a `Deformation` object which evaluates `F` -/
theorem steady_deformation (cfg : SpaceCfg) (M : MatProg Z μ) (F : Full2 ℝ) (z : Z) (hM : M.Steady (rightCauchyGreen F) z) :
    ∃ (G : Set (DefSt μ → DefSt μ)) (rg : Res (Stress × Z)) (rh : Res Elasticity),
      (defGradient cfg M F z).Safe G (.top G) (fun r _ => r = rg) ∧ (defHessian cfg M F z).Safe G (.top G) fun r _ => r = rh := by
  obtain ⟨H, rg, rh, hid, h1, h2⟩ := hM
  rcases rg with e | ⟨g, z'⟩
  · refine ⟨defUpd F (fun _ => 0) H, .error e, .error e, ?_, ?_⟩
    · exact safe_defGradient hid h1 (by simp) _ _ (by simp) fun e' _ h => by simpa using h.symm
    · exact safe_bind (safe_defGradient hid h1 (by simp) _ _ (by simp) fun e' _ h => by simpa using h.symm)
  · have hid' : id ∈ defUpd F g H := ⟨fun _ => .inl rfl, fun _ => .inl rfl, id, hid, fun _ => rfl⟩
    refine ⟨defUpd F g H, .ok (piolaStress cfg F (fun a => 2 * g a) none, z'),
      rh.map fun h => piolaElasticity cfg F (fun a => 2 * g a) none (fun a b => 4 * h a b) none, ?_, ?_⟩
    · refine safe_defGradient hid h1 (by rintro _ _ ⟨⟩; rfl) _ _ ?_ (by simp)
      rintro _ _ ⟨⟩ -
      rfl
    · refine safe_bind (safe_defGradient hid h1 (by rintro _ _ ⟨⟩; rfl) _ _ ?_ (by simp))
      rintro _ P ⟨⟩ hP
      refine safe_bind (safe_attr hid' (fun s hs => (hP s hs).1) ?_)
      refine safe_bind (safe_sub (H := H) (r := rh) (fun u hu => show _ ∈ defUpd F g H from ⟨fun _ => .inl rfl, fun _ => .inl rfl, u, hu, fun _ => rfl⟩)
        (fun u hu => hu.2.2) (fun _ _ => rfl) (.top H) h2 (fun _ _ => trivial) ?_)
      rcases rh with e | h
      · rfl
      · exact safe_bind (safe_attr hid' (fun s hs => (hP s hs).2) (safe_pure rfl))

end deformation

/-! ### Distortional -/

section distortional

variable (F : Full2 ℝ) (g : Vec6 ℝ) (H : Set (μ → μ))

/-- updates of the attributes of a `Distortional` object which evaluates `F` -/
def distUpd : Set (DistSt μ → DistSt μ) := { u |
  (∀ s, (u s).C = s.C ∨ (u s).C = (Distortional.post F g s.material).C) ∧
  (∀ s, (u s).I3 = s.I3 ∨ (u s).I3 = (Distortional.post F g s.material).I3) ∧
  (∀ s, (u s).Cu = s.Cu ∨ (u s).Cu = (Distortional.post F g s.material).Cu) ∧
  (∀ s, (u s).Sb = s.Sb ∨ (u s).Sb = (Distortional.post F g s.material).Sb) ∧
  (∀ s, (u s).SbC = s.SbC ∨ (u s).SbC = (Distortional.post F g s.material).SbC) ∧
  (∀ s, (u s).invC = s.invC ∨ (u s).invC = (Distortional.post F g s.material).invC) ∧
  (∀ s, (u s).S = s.S ∨ (u s).S = (Distortional.post F g s.material).S) ∧
  ∃ v ∈ H, ∀ s, (u s).material = v s.material }

variable {F g H}

theorem distUpd_id (hid : id ∈ H) : id ∈ distUpd F g H :=
  ⟨fun _ => .inl rfl, fun _ => .inl rfl, fun _ => .inl rfl, fun _ => .inl rfl, fun _ => .inl rfl, fun _ => .inl rfl, fun _ => .inl rfl, id, hid, fun _ => rfl⟩

theorem distUpd_sub {v : μ → μ} (hv : v ∈ H) : (fun s : DistSt μ => { s with material := v s.material }) ∈ distUpd F g H :=
  ⟨fun _ => .inl rfl, fun _ => .inl rfl, fun _ => .inl rfl, fun _ => .inl rfl, fun _ => .inl rfl, fun _ => .inl rfl, fun _ => .inl rfl, v, hv, fun _ => rfl⟩

theorem safe_distGradient {cfg : SpaceCfg} {M : MatProg Z μ} {z : Z} (hid : id ∈ H) {r : Res (Vec6 ℝ × Z)}
    (hr : (M.gradient (Distortional.cu F) z).Safe H (.top H) fun r' _ => r' = r)
    (hg : ∀ g' z', r = .ok (g', z') → g' = g) (P : Facts (distUpd F g H)) (Q : Res (Stress × Z) → Facts (distUpd F g H) → Prop)
    (hok : ∀ z' (P' : Facts (distUpd F g H)), r = .ok (g, z') →
      (∀ s, P'.holds s → s = Distortional.post F g s.material) →
      Q (.ok (piolaStress cfg F (Distortional.st F g) (some (Real.sqrt (det (rightCauchyGreen F)))), z')) P')
    (herr : ∀ e P', r = .error e → Q (.error e) P') :
    (distGradient cfg M F z).Safe (distUpd F g H) P Q := by
  have hid' := distUpd_id (F := F) (g := g) hid
  have h0 : (fun s : DistSt μ => { s with C := (Distortional.post F g s.material).C }) ∈ distUpd F g H :=
    ⟨fun _ => .inr rfl, fun _ => .inl rfl, fun _ => .inl rfl, fun _ => .inl rfl, fun _ => .inl rfl, fun _ => .inl rfl, fun _ => .inl rfl, id, hid, fun _ => rfl⟩
  have h1 : (fun s : DistSt μ => { s with I3 := (Distortional.post F g s.material).I3 }) ∈ distUpd F g H :=
    ⟨fun _ => .inl rfl, fun _ => .inr rfl, fun _ => .inl rfl, fun _ => .inl rfl, fun _ => .inl rfl, fun _ => .inl rfl, fun _ => .inl rfl, id, hid, fun _ => rfl⟩
  have h2 : (fun s : DistSt μ => { s with Cu := (Distortional.post F g s.material).Cu }) ∈ distUpd F g H :=
    ⟨fun _ => .inl rfl, fun _ => .inl rfl, fun _ => .inr rfl, fun _ => .inl rfl, fun _ => .inl rfl, fun _ => .inl rfl, fun _ => .inl rfl, id, hid, fun _ => rfl⟩
  have h3 : (fun s : DistSt μ => { s with Sb := (Distortional.post F g s.material).Sb }) ∈ distUpd F g H :=
    ⟨fun _ => .inl rfl, fun _ => .inl rfl, fun _ => .inl rfl, fun _ => .inr rfl, fun _ => .inl rfl, fun _ => .inl rfl, fun _ => .inl rfl, id, hid, fun _ => rfl⟩
  have h4 : (fun s : DistSt μ => { s with SbC := (Distortional.post F g s.material).SbC }) ∈ distUpd F g H :=
    ⟨fun _ => .inl rfl, fun _ => .inl rfl, fun _ => .inl rfl, fun _ => .inl rfl, fun _ => .inr rfl, fun _ => .inl rfl, fun _ => .inl rfl, id, hid, fun _ => rfl⟩
  have h5 : (fun s : DistSt μ => { s with invC := (Distortional.post F g s.material).invC }) ∈ distUpd F g H :=
    ⟨fun _ => .inl rfl, fun _ => .inl rfl, fun _ => .inl rfl, fun _ => .inl rfl, fun _ => .inl rfl, fun _ => .inr rfl, fun _ => .inl rfl, id, hid, fun _ => rfl⟩
  have h6 : (fun s : DistSt μ => { s with S := (Distortional.post F g s.material).S }) ∈ distUpd F g H :=
    ⟨fun _ => .inl rfl, fun _ => .inl rfl, fun _ => .inl rfl, fun _ => .inl rfl, fun _ => .inl rfl, fun _ => .inl rfl, fun _ => .inr rfl, id, hid, fun _ => rfl⟩
  unfold distGradient
  refine safe_bind (safe_set h0 (·.C) _ (fun u hu s => hu.1 s) (fun _ => rfl) ?_)
  refine safe_bind (safe_set h1 (·.I3) _ (fun u hu s => hu.2.1 s) (fun _ => rfl) ?_)
  refine safe_bind (safe_set h2 (·.Cu) _ (fun u hu s => hu.2.2.1 s) (fun _ => rfl) ?_)
  refine safe_bind (safe_attr hid' (fun s hs => hs.2) ?_)
  refine safe_bind (safe_sub (H := H) (r := r) (fun u hu => distUpd_sub hu)
    (fun u hu => hu.2.2.2.2.2.2.2) (fun _ _ => rfl) (.top H) hr (fun _ _ => trivial) ?_)
  rcases r with e | ⟨g', z'⟩
  · exact herr e _ rfl
  · obtain rfl := hg g' z' rfl
    refine safe_bind (safe_set h3 (·.Sb) _ (fun u hu s => hu.2.2.2.1 s) (fun _ => rfl) ?_)
    refine safe_bind (safe_set h4 (·.SbC) _ (fun u hu s => hu.2.2.2.2.1 s) (fun _ => rfl) ?_)
    refine safe_bind (safe_set h5 (·.invC) _ (fun u hu s => hu.2.2.2.2.2.1 s) (fun _ => rfl) ?_)
    refine safe_bind (safe_set h6 (·.S) _ (fun u hu s => hu.2.2.2.2.2.2.1 s) (fun _ => rfl) ?_)
    refine safe_bind (safe_attr hid' (fun s hs => hs.2) ?_)
    refine safe_bind (safe_attr hid' (fun s hs => hs.1.1.1.1.1.2) ?_)
    refine safe_pure (hok z' _ rfl fun s hs => ?_)
    obtain ⟨⟨⟨⟨⟨⟨⟨-, h0⟩, h1⟩, h2⟩, h3⟩, h4⟩, h5⟩, h6⟩ := hs
    obtain ⟨_, _, _, _, _, _, _, m⟩ := s
    simp only at h0 h1 h2 h3 h4 h5 h6
    subst h0 h1 h2 h3 h4 h5 h6
    rfl

/-- the outcomes of the methods of a `Distortional` object which evaluates `F` -/
theorem steady_distortional (cfg : SpaceCfg) (M : MatProg Z μ) (F : Full2 ℝ) (z : Z) (hM : M.Steady (Distortional.cu F) z) :
    ∃ (G : Set (DistSt μ → DistSt μ)) (rg : Res (Stress × Z)) (rh : Res Elasticity),
      (distGradient cfg M F z).Safe G (.top G) (fun r _ => r = rg) ∧ (distHessian cfg M F z).Safe G (.top G) fun r _ => r = rh := by
  obtain ⟨H, rg, rh, hid, h1, h2⟩ := hM
  rcases rg with e | ⟨g, z'⟩
  · refine ⟨distUpd F (fun _ => 0) H, .error e, .error e, ?_, ?_⟩
    · exact safe_distGradient hid h1 (by simp) _ _ (by simp) fun e' _ h => by simpa using h.symm
    · exact safe_bind (safe_distGradient hid h1 (by simp) _ _ (by simp) fun e' _ h => by simpa using h.symm)
  · have hid' := distUpd_id (F := F) (g := g) hid
    refine ⟨distUpd F g H, .ok (piolaStress cfg F (Distortional.st F g) (some (Real.sqrt (det (rightCauchyGreen F)))), z'),
      rh.map fun h => piolaElasticity cfg F (Distortional.st F g) (some (Real.sqrt (det (rightCauchyGreen F))))
        (Distortional.c4 F g h) (some (Distortional.ic F)), ?_, ?_⟩
    · refine safe_distGradient hid h1 (by rintro _ _ ⟨⟩; rfl) _ _ ?_ (by simp)
      rintro _ _ ⟨⟩ -
      rfl
    · unfold distHessian
      refine safe_bind (safe_distGradient hid h1 (by rintro _ _ ⟨⟩; rfl) _ _ ?_ (by simp))
      rintro _ P ⟨⟩ hP
      refine safe_bind (safe_attr hid' (fun s hs => by rw [hP s hs]; rfl) ?_)
      refine safe_bind (safe_attr hid' (fun s hs => by rw [hP s hs]; rfl) ?_)
      refine safe_bind (safe_sub (H := H) (r := rh) (fun u hu => distUpd_sub hu)
        (fun u hu => hu.2.2.2.2.2.2.2) (fun _ _ => rfl) (.top H) h2 (fun _ _ => trivial) ?_)
      rcases rh with e | h
      · rfl
      · refine safe_bind (safe_attr hid' (fun s hs => by rw [hP s hs]; rfl) ?_)
        refine safe_bind (safe_attr hid' (fun s hs => by rw [hP s hs]; rfl) ?_)
        refine safe_bind (safe_attr hid' (fun s hs => by rw [hP s hs]; rfl) ?_)
        refine safe_bind (safe_attr hid' (fun s hs => by rw [hP s hs]; rfl) ?_)
        refine safe_bind (safe_attr hid' (fun s hs => by rw [hP s hs]; rfl) ?_)
        refine safe_bind (safe_attr hid' (fun s hs => by rw [hP s hs]; rfl) ?_)
        refine safe_bind (safe_attr hid' (fun s hs => by rw [hP s hs]; rfl) ?_)
        refine safe_bind (safe_attr hid' (fun s hs => by rw [hP s hs]; rfl) ?_)
        refine safe_bind (safe_attr hid' (fun s hs => by rw [hP s hs]; rfl) ?_)
        refine safe_bind (safe_attr hid' (fun s hs => by rw [hP s hs]; rfl) ?_)
        refine safe_bind (safe_attr hid' (fun s hs => by rw [hP s hs]; rfl) ?_)
        refine safe_bind (safe_attr hid' (fun s hs => by rw [hP s hs]; rfl) ?_)
        refine safe_bind (safe_attr hid' (fun s hs => by rw [hP s hs]; rfl) ?_)
        refine safe_bind (safe_attr hid' (fun s hs => by rw [hP s hs]; rfl) ?_)
        refine safe_pure ?_
        simp only [← Props.C07_cdya_self]
        rfl

end distortional

/-! ### Dilatational -/

section dilatational

variable (F : Full2 ℝ) (g : Vec6 ℝ) (H : Set (μ → μ))

/-- updates of the attributes of a `Dilatational` object which evaluates `F` -/
def dilUpd : Set (DilSt μ → DilSt μ) := { u |
  (∀ s, (u s).C = s.C ∨ (u s).C = (Dilatational.post F g s.material).C) ∧
  (∀ s, (u s).I3 = s.I3 ∨ (u s).I3 = (Dilatational.post F g s.material).I3) ∧
  (∀ s, (u s).Co = s.Co ∨ (u s).Co = (Dilatational.post F g s.material).Co) ∧
  (∀ s, (u s).Sb = s.Sb ∨ (u s).Sb = (Dilatational.post F g s.material).Sb) ∧
  (∀ s, (u s).tr_Sb = s.tr_Sb ∨ (u s).tr_Sb = (Dilatational.post F g s.material).tr_Sb) ∧
  (∀ s, (u s).invC = s.invC ∨ (u s).invC = (Dilatational.post F g s.material).invC) ∧
  (∀ s, (u s).S = s.S ∨ (u s).S = (Dilatational.post F g s.material).S) ∧
  ∃ v ∈ H, ∀ s, (u s).material = v s.material }

variable {F g H}

theorem dilUpd_id (hid : id ∈ H) : id ∈ dilUpd F g H :=
  ⟨fun _ => .inl rfl, fun _ => .inl rfl, fun _ => .inl rfl, fun _ => .inl rfl, fun _ => .inl rfl, fun _ => .inl rfl, fun _ => .inl rfl, id, hid, fun _ => rfl⟩

theorem dilUpd_sub {v : μ → μ} (hv : v ∈ H) : (fun s : DilSt μ => { s with material := v s.material }) ∈ dilUpd F g H :=
  ⟨fun _ => .inl rfl, fun _ => .inl rfl, fun _ => .inl rfl, fun _ => .inl rfl, fun _ => .inl rfl, fun _ => .inl rfl, fun _ => .inl rfl, v, hv, fun _ => rfl⟩

theorem safe_dilGradient {cfg : SpaceCfg} {M : MatProg Z μ} {z : Z} (hid : id ∈ H) {r : Res (Vec6 ℝ × Z)}
    (hr : (M.gradient (Dilatational.co F) z).Safe H (.top H) fun r' _ => r' = r)
    (hg : ∀ g' z', r = .ok (g', z') → g' = g) (P : Facts (dilUpd F g H)) (Q : Res (Stress × Z) → Facts (dilUpd F g H) → Prop)
    (hok : ∀ z' (P' : Facts (dilUpd F g H)), r = .ok (g, z') →
      (∀ s, P'.holds s → s = Dilatational.post F g s.material) →
      Q (.ok (piolaStress cfg F (Dilatational.st F g) (some (Real.sqrt (det (rightCauchyGreen F)))), z')) P')
    (herr : ∀ e P', r = .error e → Q (.error e) P') :
    (dilGradient cfg M F z).Safe (dilUpd F g H) P Q := by
  have hid' := dilUpd_id (F := F) (g := g) hid
  have h0 : (fun s : DilSt μ => { s with C := (Dilatational.post F g s.material).C }) ∈ dilUpd F g H :=
    ⟨fun _ => .inr rfl, fun _ => .inl rfl, fun _ => .inl rfl, fun _ => .inl rfl, fun _ => .inl rfl, fun _ => .inl rfl, fun _ => .inl rfl, id, hid, fun _ => rfl⟩
  have h1 : (fun s : DilSt μ => { s with I3 := (Dilatational.post F g s.material).I3 }) ∈ dilUpd F g H :=
    ⟨fun _ => .inl rfl, fun _ => .inr rfl, fun _ => .inl rfl, fun _ => .inl rfl, fun _ => .inl rfl, fun _ => .inl rfl, fun _ => .inl rfl, id, hid, fun _ => rfl⟩
  have h2 : (fun s : DilSt μ => { s with Co := (Dilatational.post F g s.material).Co }) ∈ dilUpd F g H :=
    ⟨fun _ => .inl rfl, fun _ => .inl rfl, fun _ => .inr rfl, fun _ => .inl rfl, fun _ => .inl rfl, fun _ => .inl rfl, fun _ => .inl rfl, id, hid, fun _ => rfl⟩
  have h3 : (fun s : DilSt μ => { s with Sb := (Dilatational.post F g s.material).Sb }) ∈ dilUpd F g H :=
    ⟨fun _ => .inl rfl, fun _ => .inl rfl, fun _ => .inl rfl, fun _ => .inr rfl, fun _ => .inl rfl, fun _ => .inl rfl, fun _ => .inl rfl, id, hid, fun _ => rfl⟩
  have h4 : (fun s : DilSt μ => { s with tr_Sb := (Dilatational.post F g s.material).tr_Sb }) ∈ dilUpd F g H :=
    ⟨fun _ => .inl rfl, fun _ => .inl rfl, fun _ => .inl rfl, fun _ => .inl rfl, fun _ => .inr rfl, fun _ => .inl rfl, fun _ => .inl rfl, id, hid, fun _ => rfl⟩
  have h5 : (fun s : DilSt μ => { s with invC := (Dilatational.post F g s.material).invC }) ∈ dilUpd F g H :=
    ⟨fun _ => .inl rfl, fun _ => .inl rfl, fun _ => .inl rfl, fun _ => .inl rfl, fun _ => .inl rfl, fun _ => .inr rfl, fun _ => .inl rfl, id, hid, fun _ => rfl⟩
  have h6 : (fun s : DilSt μ => { s with S := (Dilatational.post F g s.material).S }) ∈ dilUpd F g H :=
    ⟨fun _ => .inl rfl, fun _ => .inl rfl, fun _ => .inl rfl, fun _ => .inl rfl, fun _ => .inl rfl, fun _ => .inl rfl, fun _ => .inr rfl, id, hid, fun _ => rfl⟩
  unfold dilGradient
  refine safe_bind (safe_set h0 (·.C) _ (fun u hu s => hu.1 s) (fun _ => rfl) ?_)
  refine safe_bind (safe_attr hid' (fun s hs => hs.2) ?_)
  refine safe_bind (safe_set h1 (·.I3) _ (fun u hu s => hu.2.1 s) (fun _ => rfl) ?_)
  refine safe_bind (safe_attr hid' (fun s hs => hs.2) ?_)
  refine safe_bind (safe_attr hid' (fun s hs => hs.1.2) ?_)
  refine safe_bind (safe_set h2 (·.Co) _ (fun u hu s => hu.2.2.1 s) (fun _ => rfl) ?_)
  refine safe_bind (safe_attr hid' (fun s hs => hs.2) ?_)
  refine safe_bind (safe_sub (H := H) (r := r) (fun u hu => dilUpd_sub hu)
    (fun u hu => hu.2.2.2.2.2.2.2) (fun _ _ => rfl) (.top H) hr (fun _ _ => trivial) ?_)
  rcases r with e | ⟨g', z'⟩
  · exact herr e _ rfl
  · obtain rfl := hg g' z' rfl
    refine safe_bind (safe_attr hid' (fun s hs => hs.1.2) ?_)
    refine safe_bind (safe_set h3 (·.Sb) _ (fun u hu s => hu.2.2.2.1 s) (fun _ => rfl) ?_)
    refine safe_bind (safe_attr hid' (fun s hs => hs.2) ?_)
    refine safe_bind (safe_set h4 (·.tr_Sb) _ (fun u hu s => hu.2.2.2.2.1 s) (fun _ => rfl) ?_)
    refine safe_bind (safe_attr hid' (fun s hs => hs.1.1.1.1.2) ?_)
    refine safe_bind (safe_attr hid' (fun s hs => hs.1.1.1.2) ?_)
    refine safe_bind (safe_set h5 (·.invC) _ (fun u hu s => hu.2.2.2.2.2.1 s) (fun _ => rfl) ?_)
    refine safe_bind (safe_attr hid' (fun s hs => hs.1.2) ?_)
    refine safe_bind (safe_attr hid' (fun s hs => hs.2) ?_)
    refine safe_bind (safe_set h6 (·.S) _ (fun u hu s => hu.2.2.2.2.2.2.1 s) (fun _ => rfl) ?_)
    refine safe_bind (safe_attr hid' (fun s hs => hs.2) ?_)
    refine safe_bind (safe_attr hid' (fun s hs => hs.1.1.1.1.1.2) ?_)
    refine safe_pure (hok z' _ rfl fun s hs => ?_)
    obtain ⟨⟨⟨⟨⟨⟨⟨-, h0⟩, h1⟩, h2⟩, h3⟩, h4⟩, h5⟩, h6⟩ := hs
    obtain ⟨_, _, _, _, _, _, _, m⟩ := s
    simp only at h0 h1 h2 h3 h4 h5 h6
    subst h0 h1 h2 h3 h4 h5 h6
    rfl

/-- the outcomes of the methods of a `Dilatational` object which evaluates `F` -/
theorem steady_dilatational (cfg : SpaceCfg) (M : MatProg Z μ) (F : Full2 ℝ) (z : Z) (hM : M.Steady (Dilatational.co F) z) :
    ∃ (G : Set (DilSt μ → DilSt μ)) (rg : Res (Stress × Z)) (rh : Res Elasticity),
      (dilGradient cfg M F z).Safe G (.top G) (fun r _ => r = rg) ∧ (dilHessian cfg M F z).Safe G (.top G) fun r _ => r = rh := by
  obtain ⟨H, rg, rh, hid, h1, h2⟩ := hM
  rcases rg with e | ⟨g, z'⟩
  · refine ⟨dilUpd F (fun _ => 0) H, .error e, .error e, ?_, ?_⟩
    · exact safe_dilGradient hid h1 (by simp) _ _ (by simp) fun e' _ h => by simpa using h.symm
    · exact safe_bind (safe_dilGradient hid h1 (by simp) _ _ (by simp) fun e' _ h => by simpa using h.symm)
  · have hid' := dilUpd_id (F := F) (g := g) hid
    refine ⟨dilUpd F g H, .ok (piolaStress cfg F (Dilatational.st F g) (some (Real.sqrt (det (rightCauchyGreen F)))), z'),
      rh.map fun h => piolaElasticity cfg F (Dilatational.st F g) (some (Real.sqrt (det (rightCauchyGreen F))))
        (Dilatational.c4 F g h) (some (Dilatational.ic F)), ?_, ?_⟩
    · refine safe_dilGradient hid h1 (by rintro _ _ ⟨⟩; rfl) _ _ ?_ (by simp)
      rintro _ _ ⟨⟩ -
      rfl
    · unfold dilHessian
      refine safe_bind (safe_dilGradient hid h1 (by rintro _ _ ⟨⟩; rfl) _ _ ?_ (by simp))
      rintro _ P ⟨⟩ hP
      refine safe_bind (safe_attr hid' (fun s hs => by rw [hP s hs]; rfl) ?_)
      refine safe_bind (safe_sub (H := H) (r := rh) (fun u hu => dilUpd_sub hu)
        (fun u hu => hu.2.2.2.2.2.2.2) (fun _ _ => rfl) (.top H) h2 (fun _ _ => trivial) ?_)
      rcases rh with e | h
      · rfl
      · refine safe_bind (safe_attr hid' (fun s hs => by rw [hP s hs]; rfl) ?_)
        refine safe_bind (safe_attr hid' (fun s hs => by rw [hP s hs]; rfl) ?_)
        refine safe_bind (safe_attr hid' (fun s hs => by rw [hP s hs]; rfl) ?_)
        refine safe_bind (safe_attr hid' (fun s hs => by rw [hP s hs]; rfl) ?_)
        refine safe_bind (safe_attr hid' (fun s hs => by rw [hP s hs]; rfl) ?_)
        refine safe_bind (safe_attr hid' (fun s hs => by rw [hP s hs]; rfl) ?_)
        refine safe_bind (safe_attr hid' (fun s hs => by rw [hP s hs]; rfl) ?_)
        refine safe_bind (safe_attr hid' (fun s hs => by rw [hP s hs]; rfl) ?_)
        refine safe_bind (safe_attr hid' (fun s hs => by rw [hP s hs]; rfl) ?_)
        refine safe_bind (safe_attr hid' (fun s hs => by rw [hP s hs]; rfl) ?_)
        refine safe_bind (safe_attr hid' (fun s hs => by rw [hP s hs]; rfl) ?_)
        refine safe_pure ?_
        simp only [← Props.C07_cdya_self]
        rfl

end dilatational

/-! ### The framework of invariant-based models -/

section invariants

variable (C : Vec6 ℝ) (r : InvGrad ℝ Z) (H : Set (μ → μ))

/-- the attributes of an `Invariants` object which evaluates `C` -/
noncomputable def invTarget : InvSt ℝ Unit where
  I := some eye
  I1 := some (trace C)
  I2 := some ((trace C ^ 2 - ddot C C) / 2)
  I3 := some (det C)
  dWdI1 := some r.d1
  dWdI2 := some r.d2
  dWdI3 := some r.d3
  dI1dC := some eye
  dI2dC := some fun a => trace C * (eye : Vec6 ℝ) a - C a
  invC := some (inv C (some (det C)))
  dI3dC := some fun a => det C * inv C (some (det C)) a
  material := ()

/-- updates of the attributes of an `Invariants` object which evaluates `C` -/
def invUpd : Set (InvSt ℝ μ → InvSt ℝ μ) := { u |
  (∀ s, (u s).I = s.I ∨ (u s).I = (invTarget C r).I) ∧
  (∀ s, (u s).I1 = s.I1 ∨ (u s).I1 = (invTarget C r).I1) ∧
  (∀ s, (u s).I2 = s.I2 ∨ (u s).I2 = (invTarget C r).I2) ∧
  (∀ s, (u s).I3 = s.I3 ∨ (u s).I3 = (invTarget C r).I3) ∧
  (∀ s, (u s).dWdI1 = s.dWdI1 ∨ (u s).dWdI1 = (invTarget C r).dWdI1) ∧
  (∀ s, (u s).dWdI2 = s.dWdI2 ∨ (u s).dWdI2 = (invTarget C r).dWdI2) ∧
  (∀ s, (u s).dWdI3 = s.dWdI3 ∨ (u s).dWdI3 = (invTarget C r).dWdI3) ∧
  (∀ s, (u s).dI1dC = s.dI1dC ∨ (u s).dI1dC = (invTarget C r).dI1dC) ∧
  (∀ s, (u s).dI2dC = s.dI2dC ∨ (u s).dI2dC = (invTarget C r).dI2dC) ∧
  (∀ s, (u s).invC = s.invC ∨ (u s).invC = (invTarget C r).invC) ∧
  (∀ s, (u s).dI3dC = s.dI3dC ∨ (u s).dI3dC = (invTarget C r).dI3dC) ∧
  ∃ v ∈ H, ∀ s, (u s).material = v s.material }

variable {C r H}

theorem invUpd_id (hid : id ∈ H) : id ∈ invUpd C r H :=
  ⟨fun _ => .inl rfl, fun _ => .inl rfl, fun _ => .inl rfl, fun _ => .inl rfl, fun _ => .inl rfl, fun _ => .inl rfl, fun _ => .inl rfl, fun _ => .inl rfl, fun _ => .inl rfl, fun _ => .inl rfl, fun _ => .inl rfl, id, hid, fun _ => rfl⟩

theorem invUpd_sub {v : μ → μ} (hv : v ∈ H) : (fun s : InvSt ℝ μ => { s with material := v s.material }) ∈ invUpd C r H :=
  ⟨fun _ => .inl rfl, fun _ => .inl rfl, fun _ => .inl rfl, fun _ => .inl rfl, fun _ => .inl rfl, fun _ => .inl rfl, fun _ => .inl rfl, fun _ => .inl rfl, fun _ => .inl rfl, fun _ => .inl rfl, fun _ => .inl rfl, v, hv, fun _ => rfl⟩

theorem invUpd_I (hid : id ∈ H) : (fun s : InvSt ℝ μ => { s with I := (invTarget C r).I }) ∈ invUpd C r H :=
  ⟨fun _ => .inr rfl, fun _ => .inl rfl, fun _ => .inl rfl, fun _ => .inl rfl, fun _ => .inl rfl, fun _ => .inl rfl, fun _ => .inl rfl, fun _ => .inl rfl, fun _ => .inl rfl, fun _ => .inl rfl, fun _ => .inl rfl, id, hid, fun _ => rfl⟩

theorem invUpd_I1 (hid : id ∈ H) : (fun s : InvSt ℝ μ => { s with I1 := (invTarget C r).I1 }) ∈ invUpd C r H :=
  ⟨fun _ => .inl rfl, fun _ => .inr rfl, fun _ => .inl rfl, fun _ => .inl rfl, fun _ => .inl rfl, fun _ => .inl rfl, fun _ => .inl rfl, fun _ => .inl rfl, fun _ => .inl rfl, fun _ => .inl rfl, fun _ => .inl rfl, id, hid, fun _ => rfl⟩

theorem invUpd_I2 (hid : id ∈ H) : (fun s : InvSt ℝ μ => { s with I2 := (invTarget C r).I2 }) ∈ invUpd C r H :=
  ⟨fun _ => .inl rfl, fun _ => .inl rfl, fun _ => .inr rfl, fun _ => .inl rfl, fun _ => .inl rfl, fun _ => .inl rfl, fun _ => .inl rfl, fun _ => .inl rfl, fun _ => .inl rfl, fun _ => .inl rfl, fun _ => .inl rfl, id, hid, fun _ => rfl⟩

theorem invUpd_I3 (hid : id ∈ H) : (fun s : InvSt ℝ μ => { s with I3 := (invTarget C r).I3 }) ∈ invUpd C r H :=
  ⟨fun _ => .inl rfl, fun _ => .inl rfl, fun _ => .inl rfl, fun _ => .inr rfl, fun _ => .inl rfl, fun _ => .inl rfl, fun _ => .inl rfl, fun _ => .inl rfl, fun _ => .inl rfl, fun _ => .inl rfl, fun _ => .inl rfl, id, hid, fun _ => rfl⟩

theorem invUpd_dWdI1 (hid : id ∈ H) : (fun s : InvSt ℝ μ => { s with dWdI1 := (invTarget C r).dWdI1 }) ∈ invUpd C r H :=
  ⟨fun _ => .inl rfl, fun _ => .inl rfl, fun _ => .inl rfl, fun _ => .inl rfl, fun _ => .inr rfl, fun _ => .inl rfl, fun _ => .inl rfl, fun _ => .inl rfl, fun _ => .inl rfl, fun _ => .inl rfl, fun _ => .inl rfl, id, hid, fun _ => rfl⟩

theorem invUpd_dWdI2 (hid : id ∈ H) : (fun s : InvSt ℝ μ => { s with dWdI2 := (invTarget C r).dWdI2 }) ∈ invUpd C r H :=
  ⟨fun _ => .inl rfl, fun _ => .inl rfl, fun _ => .inl rfl, fun _ => .inl rfl, fun _ => .inl rfl, fun _ => .inr rfl, fun _ => .inl rfl, fun _ => .inl rfl, fun _ => .inl rfl, fun _ => .inl rfl, fun _ => .inl rfl, id, hid, fun _ => rfl⟩

theorem invUpd_dWdI3 (hid : id ∈ H) : (fun s : InvSt ℝ μ => { s with dWdI3 := (invTarget C r).dWdI3 }) ∈ invUpd C r H :=
  ⟨fun _ => .inl rfl, fun _ => .inl rfl, fun _ => .inl rfl, fun _ => .inl rfl, fun _ => .inl rfl, fun _ => .inl rfl, fun _ => .inr rfl, fun _ => .inl rfl, fun _ => .inl rfl, fun _ => .inl rfl, fun _ => .inl rfl, id, hid, fun _ => rfl⟩

theorem invUpd_dI1dC (hid : id ∈ H) : (fun s : InvSt ℝ μ => { s with dI1dC := (invTarget C r).dI1dC }) ∈ invUpd C r H :=
  ⟨fun _ => .inl rfl, fun _ => .inl rfl, fun _ => .inl rfl, fun _ => .inl rfl, fun _ => .inl rfl, fun _ => .inl rfl, fun _ => .inl rfl, fun _ => .inr rfl, fun _ => .inl rfl, fun _ => .inl rfl, fun _ => .inl rfl, id, hid, fun _ => rfl⟩

theorem invUpd_dI2dC (hid : id ∈ H) : (fun s : InvSt ℝ μ => { s with dI2dC := (invTarget C r).dI2dC }) ∈ invUpd C r H :=
  ⟨fun _ => .inl rfl, fun _ => .inl rfl, fun _ => .inl rfl, fun _ => .inl rfl, fun _ => .inl rfl, fun _ => .inl rfl, fun _ => .inl rfl, fun _ => .inl rfl, fun _ => .inr rfl, fun _ => .inl rfl, fun _ => .inl rfl, id, hid, fun _ => rfl⟩

theorem invUpd_invC (hid : id ∈ H) : (fun s : InvSt ℝ μ => { s with invC := (invTarget C r).invC }) ∈ invUpd C r H :=
  ⟨fun _ => .inl rfl, fun _ => .inl rfl, fun _ => .inl rfl, fun _ => .inl rfl, fun _ => .inl rfl, fun _ => .inl rfl, fun _ => .inl rfl, fun _ => .inl rfl, fun _ => .inl rfl, fun _ => .inr rfl, fun _ => .inl rfl, id, hid, fun _ => rfl⟩

theorem invUpd_dI3dC (hid : id ∈ H) : (fun s : InvSt ℝ μ => { s with dI3dC := (invTarget C r).dI3dC }) ∈ invUpd C r H :=
  ⟨fun _ => .inl rfl, fun _ => .inl rfl, fun _ => .inl rfl, fun _ => .inl rfl, fun _ => .inl rfl, fun _ => .inl rfl, fun _ => .inl rfl, fun _ => .inl rfl, fun _ => .inl rfl, fun _ => .inl rfl, fun _ => .inr rfl, id, hid, fun _ => rfl⟩

theorem safe_number {G : Set (σ → σ)} {a : α} {P : Facts G} {Q : Res α → Facts G → Prop} (h : Q (.ok a) P) :
    Safe G (number (some a)) P Q := safe_done h

theorem safe_invGrad1 (hid : id ∈ H) (g : Vec6 ℝ) {P : Facts (invUpd C r H)}
    {Q : Res (Vec6 ℝ) → Facts (invUpd C r H) → Prop} (hP : ∀ s, P.holds s → s.dWdI1 = some r.d1)
    (h : ∀ P' : Facts (invUpd C r H), (∀ s, P'.holds s → P.holds s ∧ (r.d1 ≠ none → s.dI1dC = some eye)) →
      Q (.ok (match r.d1 with | some w => fun a => g a + w * (eye : Vec6 ℝ) a | none => g)) P') :
    (invGrad1 eye g).Safe (invUpd C r H) P Q := by
  refine safe_andThen (safe_attr (invUpd_id hid) hP ?_)
  rcases hd : r.d1 with _ | w
  · rw [hd] at h
    exact safe_pure (h P fun s hs => ⟨hs, fun h => absurd rfl h⟩)
  · rw [hd] at h hP
    refine safe_bind (safe_set (invUpd_dI1dC hid) (·.dI1dC) _ (fun u hu s => hu.2.2.2.2.2.2.2.1 s) (fun _ => rfl) ?_)
    refine safe_bind (safe_attr (invUpd_id hid) (fun s hs => hP s hs.1) ?_)
    refine safe_bind (safe_number ?_)
    refine safe_bind (safe_attr (invUpd_id hid) (fun s hs => hs.2) ?_)
    exact safe_pure (h _ fun s hs => ⟨hs.1, fun _ => hs.2⟩)

theorem safe_invGrad2 (hid : id ∈ H) (g : Vec6 ℝ) {P : Facts (invUpd C r H)}
    {Q : Res (Vec6 ℝ) → Facts (invUpd C r H) → Prop} (hP : ∀ s, P.holds s → s.dWdI2 = some r.d2)
    (h : ∀ P' : Facts (invUpd C r H), (∀ s, P'.holds s → P.holds s ∧ (r.d2 ≠ none → s.dI2dC = (invTarget C r).dI2dC)) →
      Q (.ok (match r.d2 with | some w => fun a => g a + w * (trace C * (eye : Vec6 ℝ) a - C a) | none => g)) P') :
    (invGrad2 eye C (trace C) g).Safe (invUpd C r H) P Q := by
  refine safe_andThen (safe_attr (invUpd_id hid) hP ?_)
  rcases hd : r.d2 with _ | w
  · rw [hd] at h
    exact safe_pure (h P fun s hs => ⟨hs, fun h => absurd rfl h⟩)
  · rw [hd] at h hP
    refine safe_bind (safe_set (invUpd_dI2dC hid) (·.dI2dC) _ (fun u hu s => hu.2.2.2.2.2.2.2.2.1 s) (fun _ => rfl) ?_)
    refine safe_bind (safe_attr (invUpd_id hid) (fun s hs => hP s hs.1) ?_)
    refine safe_bind (safe_number ?_)
    refine safe_bind (safe_attr (invUpd_id hid) (fun s hs => hs.2) ?_)
    exact safe_pure (h _ fun s hs => ⟨hs.1, fun _ => hs.2⟩)

theorem safe_invGrad3 (hid : id ∈ H) (g : Vec6 ℝ) {P : Facts (invUpd C r H)}
    {Q : Res (Vec6 ℝ) → Facts (invUpd C r H) → Prop} (hP : ∀ s, P.holds s → s.dWdI3 = some r.d3 ∧ s.I3 = some (det C))
    (h : ∀ P' : Facts (invUpd C r H), (∀ s, P'.holds s → P.holds s ∧ (r.d3 ≠ none → s.invC = (invTarget C r).invC ∧
        s.dI3dC = (invTarget C r).dI3dC)) →
      Q (.ok (match r.d3 with | some w => fun a => g a + w * (det C * inv C (some (det C)) a) | none => g)) P') :
    (invGrad3 C (det C) g).Safe (invUpd C r H) P Q := by
  refine safe_andThen (safe_attr (invUpd_id hid) (fun s hs => (hP s hs).1) ?_)
  rcases hd : r.d3 with _ | w
  · rw [hd] at h
    exact safe_pure (h P fun s hs => ⟨hs, fun h => absurd rfl h⟩)
  · rw [hd] at h hP
    refine safe_bind (safe_attr (invUpd_id hid) (fun s hs => (hP s hs).2) ?_)
    refine safe_bind (safe_set (invUpd_invC hid) (·.invC) _ (fun u hu s => hu.2.2.2.2.2.2.2.2.2.1 s) (fun _ => rfl) ?_)
    refine safe_bind (safe_set (invUpd_dI3dC hid) (·.dI3dC) _ (fun u hu s => hu.2.2.2.2.2.2.2.2.2.2.1 s) (fun _ => rfl) ?_)
    refine safe_bind (safe_attr (invUpd_id hid) (fun s hs => (hP s hs.1.1).1) ?_)
    refine safe_bind (safe_number ?_)
    refine safe_bind (safe_attr (invUpd_id hid) (fun s hs => hs.2) ?_)
    exact safe_pure (h _ fun s hs => ⟨hs.1.1, fun _ => ⟨hs.1.2, hs.2⟩⟩)

/-- what an `Invariants` object knows after `gradient` -/
def InvKnown (C : Vec6 ℝ) (r : InvGrad ℝ Z) (s : InvSt ℝ μ) : Prop :=
  s.I = some eye ∧ s.I1 = some (trace C) ∧ s.I2 = some ((trace C ^ 2 - ddot C C) / 2) ∧ s.I3 = some (det C) ∧
  s.dWdI1 = some r.d1 ∧ s.dWdI2 = some r.d2 ∧ s.dWdI3 = some r.d3 ∧ (r.d1 ≠ none → s.dI1dC = some eye) ∧
  (r.d2 ≠ none → s.dI2dC = (invTarget C r).dI2dC) ∧
  (r.d3 ≠ none → s.invC = (invTarget C r).invC ∧ s.dI3dC = (invTarget C r).dI3dC)

/-- the gradient -/
noncomputable def invValue (C : Vec6 ℝ) (r : InvGrad ℝ Z) : Vec6 ℝ :=
  let g : Vec6 ℝ := fun _ => 0
  let g := match r.d1 with | some w => fun a => g a + w * (eye : Vec6 ℝ) a | none => g
  let g := match r.d2 with | some w => fun a => g a + w * (trace C * (eye : Vec6 ℝ) a - C a) | none => g
  match r.d3 with | some w => fun a => g a + w * (det C * inv C (some (det C)) a) | none => g

theorem safe_invGradient {M : InvProg Z μ} {z : Z} (hid : id ∈ H) {rg : Res (InvGrad ℝ Z)}
    (hr : (M.gradient (trace C) ((trace C ^ 2 - ddot C C) / 2) (det C) z).Safe H (.top H) fun r' _ => r' = rg)
    (hg : ∀ r', rg = .ok r' → r' = r) (P : Facts (invUpd C r H)) (Q : Res (Vec6 ℝ × Z) → Facts (invUpd C r H) → Prop)
    (hok : ∀ P' : Facts (invUpd C r H), rg = .ok r → (∀ s, P'.holds s → InvKnown C r s) → Q (.ok (invValue C r, r.sv)) P')
    (herr : ∀ e P', rg = .error e → Q (.error e) P') :
    (invGradient M C z).Safe (invUpd C r H) P Q := by
  have hid' := invUpd_id (C := C) (r := r) hid
  unfold invGradient
  refine safe_bind (safe_set (invUpd_I hid) (·.I) _ (fun u hu s => hu.1 s) (fun _ => rfl) ?_)
  refine safe_bind (safe_set (invUpd_I1 hid) (·.I1) _ (fun u hu s => hu.2.1 s) (fun _ => rfl) ?_)
  refine safe_bind (safe_set (invUpd_I2 hid) (·.I2) _ (fun u hu s => hu.2.2.1 s) (fun _ => rfl) ?_)
  refine safe_bind (safe_set (invUpd_I3 hid) (·.I3) _ (fun u hu s => hu.2.2.2.1 s) (fun _ => rfl) ?_)
  refine safe_bind (safe_attr hid' (fun s hs => hs.1.1.2) ?_)
  refine safe_bind (safe_attr hid' (fun s hs => hs.1.2) ?_)
  refine safe_bind (safe_attr hid' (fun s hs => hs.2) ?_)
  refine safe_bind (safe_sub (H := H) (r := rg) (fun u hu => invUpd_sub hu)
    (fun u hu => hu.2.2.2.2.2.2.2.2.2.2.2) (fun _ _ => rfl) (.top H) hr (fun _ _ => trivial) ?_)
  rcases rg with e | r'
  · exact herr e _ rfl
  · obtain rfl := hg r' rfl
    refine safe_bind (safe_set (invUpd_dWdI1 hid) (·.dWdI1) _ (fun u hu s => hu.2.2.2.2.1 s) (fun _ => rfl) ?_)
    refine safe_bind (safe_set (invUpd_dWdI2 hid) (·.dWdI2) _ (fun u hu s => hu.2.2.2.2.2.1 s) (fun _ => rfl) ?_)
    refine safe_bind (safe_set (invUpd_dWdI3 hid) (·.dWdI3) _ (fun u hu s => hu.2.2.2.2.2.2.1 s) (fun _ => rfl) ?_)
    refine safe_bind (safe_invGrad1 hid _ (fun s hs => hs.1.1.2) fun P₁ h1 => ?_)
    refine safe_bind (safe_invGrad2 hid _ (fun s hs => (h1 s hs).1.1.2) fun P₂ h2 => ?_)
    refine safe_bind (safe_invGrad3 hid _ (fun s hs => ⟨(h1 s (h2 s hs).1).1.2, (h1 s (h2 s hs).1).1.1.1.1.2⟩)
      fun P₃ h3 => ?_)
    refine safe_pure (hok P₃ rfl fun s hs => ?_)
    have k2 := h2 s (h3 s hs).1
    have k1 := h1 s k2.1
    exact ⟨k1.1.1.1.1.1.1.1.2, k1.1.1.1.1.1.1.2, k1.1.1.1.1.1.2, k1.1.1.1.1.2, k1.1.1.1.2, k1.1.1.2, k1.1.2, k1.2, k2.2, (h3 s hs).2⟩

theorem safe_pure_run {G : Set (σ → σ)} {p : Prog σ α} {P : Facts G} {Q : Res α → Facts G → Prop} {ra : Res α}
    (hp : p = .done ra) (h : Q ra P) : p.Safe G P Q := by
  subst hp
  exact safe_done h

theorem addTerm_done {σ : Type} (acc : Mat6 ℝ) (cond coef : Option ℝ) (x y : Option (Vec6 ℝ))
    (T : Vec6 ℝ → Vec6 ℝ → Mat6 ℝ) : ∃ ra, (addTerm acc cond coef x y T : Prog σ _) = .done ra := by
  rcases cond with _ | c <;> rcases x with _ | x <;> rcases y with _ | y <;> rcases coef with _ | d <;> exact ⟨_, rfl⟩

theorem andThen_done {p : Prog σ α} {f : α → Prog σ β} (hp : ∃ ra, p = .done ra) (hf : ∀ a, ∃ rb, f a = .done rb) :
    ∃ rb, (p >>= f) = .done rb := by
  obtain ⟨ra, rfl⟩ := hp
  rcases ra with e | a
  · exact ⟨_, rfl⟩
  · exact hf a

theorem safe_invHess1 (hid : id ∈ H) {P : Facts (invUpd C r H)} (hP : ∀ s, P.holds s → InvKnown C r s)
    {Q : Res (Option (Vec6 ℝ)) → Facts (invUpd C r H) → Prop} (h : Q (.ok (r.d1.map fun _ => eye)) P) :
    invHess1.Safe (invUpd C r H) P Q := by
  refine safe_andThen (safe_attr (invUpd_id hid) (fun s hs => (hP s hs).2.2.2.2.1) ?_)
  rcases hd : r.d1 with _ | w
  · rw [hd] at h
    exact safe_pure h
  · rw [hd] at h
    exact safe_bind (safe_attr (invUpd_id hid) (fun s hs => (hP s hs).2.2.2.2.2.2.2.1 (by rw [hd]; simp)) (safe_pure h))

theorem safe_invHess2 (hid : id ∈ H) {P : Facts (invUpd C r H)} (hP : ∀ s, P.holds s → InvKnown C r s) (I : Vec6 ℝ) (acc : Mat6 ℝ)
    {Q : Res (Option (Vec6 ℝ) × Mat6 ℝ) → Facts (invUpd C r H) → Prop} (h : Q (.ok (match r.d2 with
      | some w => (some fun a => trace C * (eye : Vec6 ℝ) a - C a, fun a b => acc a b + w * (dya I I a b - cdyaSelf I a b))
      | none => (none, acc))) P) :
    (invHess2 I acc).Safe (invUpd C r H) P Q := by
  refine safe_andThen (safe_attr (invUpd_id hid) (fun s hs => (hP s hs).2.2.2.2.2.1) ?_)
  rcases hd : r.d2 with _ | w
  · rw [hd] at h
    exact safe_pure h
  · rw [hd] at h
    refine safe_bind (safe_attr (invUpd_id hid) (fun s hs => (hP s hs).2.2.2.2.2.2.2.2.1 (by rw [hd]; simp)) ?_)
    refine safe_bind (safe_attr (invUpd_id hid) (fun s hs => (hP s hs).2.2.2.2.2.1.trans (by rw [hd])) ?_)
    exact safe_bind (safe_number (safe_pure h))

theorem safe_invHess3 (hid : id ∈ H) {P : Facts (invUpd C r H)} (hP : ∀ s, P.holds s → InvKnown C r s) (acc : Mat6 ℝ)
    {Q : Res (Option (Vec6 ℝ) × Mat6 ℝ) → Facts (invUpd C r H) → Prop} (h : Q (.ok (match r.d3 with
      | some w => (some fun a => det C * inv C (some (det C)) a, fun a b => acc a b + w * (det C *
        (dya (inv C (some (det C))) (inv C (some (det C))) a b - cdyaSelf (inv C (some (det C))) a b)))
      | none => (none, acc))) P) :
    (invHess3 acc).Safe (invUpd C r H) P Q := by
  refine safe_andThen (safe_attr (invUpd_id hid) (fun s hs => (hP s hs).2.2.2.2.2.2.1) ?_)
  rcases hd : r.d3 with _ | w
  · rw [hd] at h
    exact safe_pure h
  · rw [hd] at h
    refine safe_bind (safe_attr (invUpd_id hid) (fun s hs => ((hP s hs).2.2.2.2.2.2.2.2.2 (by rw [hd]; simp)).2) ?_)
    refine safe_bind (safe_attr (invUpd_id hid) (fun s hs => ((hP s hs).2.2.2.2.2.2.2.2.2 (by rw [hd]; simp)).1) ?_)
    refine safe_bind (safe_attr (invUpd_id hid) (fun s hs => (hP s hs).2.2.2.1) ?_)
    refine safe_bind (safe_attr (invUpd_id hid) (fun s hs => (hP s hs).2.2.2.2.2.2.1.trans (by rw [hd])) ?_)
    exact safe_bind (safe_number (safe_pure h))

/-- the outcomes of the methods of an `Invariants` object which evaluates `C` -/
theorem steady_invariants (M : InvProg Z μ) (C : Vec6 ℝ) (z : Z)
    (hM : M.Steady (trace C) ((trace C ^ 2 - ddot C C) / 2) (det C) z) : (invariants M).Steady C z := by
  obtain ⟨H, rg, rh, hid, h1, h2⟩ := hM
  rcases rg with e | r
  · refine ⟨invUpd C (⟨none, none, none, z⟩ : InvGrad ℝ Z) H, .error e, .error e, invUpd_id hid, ?_, ?_⟩
    · exact safe_invGradient hid h1 (by simp) _ _ (by simp) fun e' _ h => by simpa using h.symm
    · exact safe_bind (safe_invGradient hid h1 (by simp) _ _ (by simp) fun e' _ h => by simpa using h.symm)
  · have hid' := invUpd_id (C := C) (r := r) hid
    suffices h : ∃ rr, (invHessian M C z).Safe (invUpd C r H) (.top _) fun r _ => r = rr by
      obtain ⟨rr, hrr⟩ := h
      refine ⟨invUpd C r H, .ok (invValue C r, r.sv), rr, invUpd_id hid, ?_, hrr⟩
      exact safe_invGradient hid h1 (by rintro _ ⟨⟩; rfl) _ _ (fun _ _ _ => rfl) (by simp)
    rcases hh : rh r.sv with e | h
    · refine ⟨.error e, ?_⟩
      unfold invHessian
      refine safe_bind (safe_invGradient hid h1 (by rintro _ ⟨⟩; rfl) _ _ (fun P _ hP => ?_) (by simp))
      refine safe_bind (safe_attr hid' (fun s hs => (hP s hs).2.1) ?_)
      refine safe_bind (safe_attr hid' (fun s hs => (hP s hs).2.2.1) ?_)
      refine safe_bind (safe_attr hid' (fun s hs => (hP s hs).2.2.2.1) ?_)
      refine safe_bind (safe_sub (H := H) (r := rh r.sv) (fun u hu => invUpd_sub hu)
        (fun u hu => hu.2.2.2.2.2.2.2.2.2.2.2) (fun _ _ => rfl) (.top H) (h2 r.sv) (fun _ _ => trivial) ?_)
      rw [hh]
    · -- the rest of the method, with the values of the attributes
      have rest : ∃ rr, ∀ P : Facts (invUpd C r H), (∀ s, P.holds s → InvKnown C r s) →
          (do
            let I ← attr (·.I)
            let dI1dC ← invHess1
            let (dI2dC, d2WdCdC) ← invHess2 I fun _ _ => 0
            let (dI3dC, d2WdCdC) ← invHess3 d2WdCdC
            let d2WdCdC ← addTerm d2WdCdC h.h11 h.h11 dI1dC dI1dC dya
            let d2WdCdC ← addTerm d2WdCdC h.h22 h.h22 dI2dC dI2dC dya
            let d2WdCdC ← addTerm d2WdCdC h.h33 h.h22 dI2dC dI2dC dya
            let d2WdCdC ← addTerm d2WdCdC h.h12 h.h12 dI1dC dI2dC Invariants.dyaSum
            let d2WdCdC ← addTerm d2WdCdC h.h23 h.h23 dI2dC dI3dC Invariants.dyaSum
            addTerm d2WdCdC h.h13 h.h13 dI1dC dI3dC Invariants.dyaSum : Prog (InvSt ℝ μ) (Mat6 ℝ)).Safe
              (invUpd C r H) P fun r _ => r = rr := by
        have tail : ∀ (dI1dC dI2dC dI3dC : Option (Vec6 ℝ)) (acc : Mat6 ℝ), ∃ ra, (do
            let d2WdCdC ← addTerm acc h.h11 h.h11 dI1dC dI1dC dya
            let d2WdCdC ← addTerm d2WdCdC h.h22 h.h22 dI2dC dI2dC dya
            let d2WdCdC ← addTerm d2WdCdC h.h33 h.h22 dI2dC dI2dC dya
            let d2WdCdC ← addTerm d2WdCdC h.h12 h.h12 dI1dC dI2dC Invariants.dyaSum
            let d2WdCdC ← addTerm d2WdCdC h.h23 h.h23 dI2dC dI3dC Invariants.dyaSum
            addTerm d2WdCdC h.h13 h.h13 dI1dC dI3dC Invariants.dyaSum : Prog (InvSt ℝ μ) (Mat6 ℝ)) = .done ra :=
          fun _ _ _ _ => andThen_done (addTerm_done ..) fun _ => andThen_done (addTerm_done ..) fun _ =>
            andThen_done (addTerm_done ..) fun _ => andThen_done (addTerm_done ..) fun _ =>
            andThen_done (addTerm_done ..) fun _ => addTerm_done ..
        choose ra hra using tail
        let m2 : Option (Vec6 ℝ) × Mat6 ℝ := match r.d2 with
          | some w => (some fun a => trace C * (eye : Vec6 ℝ) a - C a,
              fun a b => 0 + w * (dya eye eye a b - cdyaSelf eye a b))
          | none => (none, fun _ _ => 0)
        let m3 : Option (Vec6 ℝ) × Mat6 ℝ := match r.d3 with
          | some w => (some fun a => det C * inv C (some (det C)) a, fun a b => m2.2 a b + w * (det C *
            (dya (inv C (some (det C))) (inv C (some (det C))) a b - cdyaSelf (inv C (some (det C))) a b)))
          | none => (none, m2.2)
        refine ⟨ra (r.d1.map fun _ => eye) m2.1 m3.1 m3.2, fun P hP => ?_⟩
        refine safe_bind (safe_attr hid' (fun s hs => (hP s hs).1) ?_)
        refine safe_bind (safe_invHess1 hid hP ?_)
        refine safe_bind (safe_invHess2 hid hP _ _ ?_)
        refine safe_bind (safe_invHess3 hid hP _ ?_)
        exact safe_pure_run (hra _ _ _ _) rfl
      obtain ⟨rr, hrr⟩ := rest
      refine ⟨rr, ?_⟩
      unfold invHessian
      refine safe_bind (safe_invGradient hid h1 (by rintro _ ⟨⟩; rfl) _ _ (fun P _ hP => ?_) (by simp))
      refine safe_bind (safe_attr hid' (fun s hs => (hP s hs).2.1) ?_)
      refine safe_bind (safe_attr hid' (fun s hs => (hP s hs).2.2.1) ?_)
      refine safe_bind (safe_attr hid' (fun s hs => (hP s hs).2.2.2.1) ?_)
      refine safe_bind (safe_sub (H := H) (r := rh r.sv) (fun u hu => invUpd_sub hu)
        (fun u hu => hu.2.2.2.2.2.2.2.2.2.2.2) (fun _ _ => rfl) (.top H) (h2 r.sv) (fun _ _ => trivial) ?_)
      rw [hh]
      exact hrr P hP

end invariants

/-! ### The framework of stretch-based models -/

section stretches

variable (lapack : Eigh) (C : Vec6 ℝ) (g : Vec3 ℝ) (H : Set (μ → μ))

/-- the attributes of a `Stretches` object which evaluates `C` -/
noncomputable def strTarget : StrSt Unit where
  l := some (eighSqrt lapack C).1
  M := some (eighSqrt lapack C).2
  dWdl := some g
  dWdlC := some fun a => g a / (2 * (eighSqrt lapack C).1 a)
  material := ()

/-- updates of the attributes of a `Stretches` object which evaluates `C` -/
def strUpd : Set (StrSt μ → StrSt μ) := { u |
  (∀ s, (u s).l = s.l ∨ (u s).l = (strTarget lapack C g).l) ∧
  (∀ s, (u s).M = s.M ∨ (u s).M = (strTarget lapack C g).M) ∧
  (∀ s, (u s).dWdl = s.dWdl ∨ (u s).dWdl = (strTarget lapack C g).dWdl) ∧
  (∀ s, (u s).dWdlC = s.dWdlC ∨ (u s).dWdlC = (strTarget lapack C g).dWdlC) ∧
  ∃ v ∈ H, ∀ s, (u s).material = v s.material }

variable {lapack C g H}

theorem strUpd_id (hid : id ∈ H) : id ∈ strUpd lapack C g H :=
  ⟨fun _ => .inl rfl, fun _ => .inl rfl, fun _ => .inl rfl, fun _ => .inl rfl, id, hid, fun _ => rfl⟩

theorem strUpd_sub {v : μ → μ} (hv : v ∈ H) : (fun s : StrSt μ => { s with material := v s.material }) ∈ strUpd lapack C g H :=
  ⟨fun _ => .inl rfl, fun _ => .inl rfl, fun _ => .inl rfl, fun _ => .inl rfl, v, hv, fun _ => rfl⟩

theorem strUpd_l (hid : id ∈ H) : (fun s : StrSt μ => { s with l := (strTarget lapack C g).l }) ∈ strUpd lapack C g H :=
  ⟨fun _ => .inr rfl, fun _ => .inl rfl, fun _ => .inl rfl, fun _ => .inl rfl, id, hid, fun _ => rfl⟩

theorem strUpd_M (hid : id ∈ H) : (fun s : StrSt μ => { s with M := (strTarget lapack C g).M }) ∈ strUpd lapack C g H :=
  ⟨fun _ => .inl rfl, fun _ => .inr rfl, fun _ => .inl rfl, fun _ => .inl rfl, id, hid, fun _ => rfl⟩

theorem strUpd_dWdl (hid : id ∈ H) : (fun s : StrSt μ => { s with dWdl := (strTarget lapack C g).dWdl }) ∈ strUpd lapack C g H :=
  ⟨fun _ => .inl rfl, fun _ => .inl rfl, fun _ => .inr rfl, fun _ => .inl rfl, id, hid, fun _ => rfl⟩

theorem strUpd_dWdlC (hid : id ∈ H) : (fun s : StrSt μ => { s with dWdlC := (strTarget lapack C g).dWdlC }) ∈ strUpd lapack C g H :=
  ⟨fun _ => .inl rfl, fun _ => .inl rfl, fun _ => .inl rfl, fun _ => .inr rfl, id, hid, fun _ => rfl⟩

/-- what a `Stretches` object knows after `gradient` -/
def StrKnown (lapack : Eigh) (C : Vec6 ℝ) (g : Vec3 ℝ) (s : StrSt μ) : Prop :=
  s.l = some (eighSqrt lapack C).1 ∧ s.M = some (eighSqrt lapack C).2 ∧
    s.dWdlC = some fun a => g a / (2 * (eighSqrt lapack C).1 a)

theorem safe_strGradient {M : StrProg Z μ} {z : Z} (hid : id ∈ H) {rg : Res (Vec3 ℝ × Z)}
    (hr : (M.gradient (eighSqrt lapack C).1 z).Safe H (.top H) fun r' _ => r' = rg)
    (hg : ∀ g' z', rg = .ok (g', z') → g' = g) (P : Facts (strUpd lapack C g H)) (Q : Res (Vec6 ℝ × Z) → Facts (strUpd lapack C g H) → Prop)
    (hok : ∀ z' (P' : Facts (strUpd lapack C g H)), rg = .ok (g, z') → (∀ s, P'.holds s → StrKnown lapack C g s) →
      Q (.ok (fun i => ∑ a, g a / (2 * (eighSqrt lapack C).1 a) * (eighSqrt lapack C).2 a i, z')) P')
    (herr : ∀ e P', rg = .error e → Q (.error e) P') :
    (strGradient lapack M C z).Safe (strUpd lapack C g H) P Q := by
  have hid' := strUpd_id (lapack := lapack) (C := C) (g := g) hid
  unfold strGradient
  refine safe_bind (safe_set (strUpd_l hid) (·.l) _ (fun u hu s => hu.1 s) (fun _ => rfl) ?_)
  refine safe_bind (safe_set (strUpd_M hid) (·.M) _ (fun u hu s => hu.2.1 s) (fun _ => rfl) ?_)
  refine safe_bind (safe_attr hid' (fun s hs => hs.1.2) ?_)
  refine safe_bind (safe_sub (H := H) (r := rg) (fun u hu => strUpd_sub hu)
    (fun u hu => hu.2.2.2.2) (fun _ _ => rfl) (.top H) hr (fun _ _ => trivial) ?_)
  rcases rg with e | ⟨g', z'⟩
  · exact herr e _ rfl
  · obtain rfl := hg g' z' rfl
    refine safe_bind (safe_set (strUpd_dWdl hid) (·.dWdl) _ (fun u hu s => hu.2.2.1 s) (fun _ => rfl) ?_)
    refine safe_bind (safe_attr hid' (fun s hs => hs.2) ?_)
    refine safe_bind (safe_set (strUpd_dWdl hid) (·.dWdl) _ (fun u hu s => hu.2.2.1 s) (fun _ => rfl) ?_)
    refine safe_bind (safe_attr hid' (fun s hs => hs.2) ?_)
    refine safe_bind (safe_attr hid' (fun s hs => hs.1.1.1.2) ?_)
    refine safe_bind (safe_set (strUpd_dWdlC hid) (·.dWdlC) _ (fun u hu s => hu.2.2.2.1 s) (fun _ => rfl) ?_)
    refine safe_bind (safe_attr hid' (fun s hs => hs.2) ?_)
    refine safe_bind (safe_attr hid' (fun s hs => hs.1.1.1.2) ?_)
    exact safe_pure (hok z' _ rfl fun s hs => ⟨hs.1.1.1.1.2, hs.1.1.1.2, hs.2⟩)

/-- the hessian -/
noncomputable def hessOf (lapack : Eigh) (C : Vec6 ℝ) (g : Vec3 ℝ) (h : StrHess) : Mat6 ℝ :=
  let l := (eighSqrt lapack C).1
  let dWdlC : Vec3 ℝ := fun a => g a / (2 * l a)
  let d2Wdldl : Vec6 ℝ := match h with
    | .array x => x
    | .list x => fun m => (x m).getD 0
  let d2 : Vec6 ℝ := fun m => d2Wdldl m / (4 * l (GenInv.ia m) * l (GenInv.ib m))
  let d2 : Vec6 ℝ := ![d2 0 - dWdlC 0 / (2 * l 0 ^ 2), d2 1 - dWdlC 1 / (2 * l 1 ^ 2),
    d2 2 - dWdlC 2 / (2 * l 2 ^ 2), d2 3, d2 4, d2 5]
  (List.finRange 6).foldl (fun acc m => fun i j => acc i j + Stretches.term l dWdlC (eighSqrt lapack C).2 d2 m i j) fun _ _ => 0

/-- the outcomes of the methods of a `Stretches` object which evaluates `C` -/
theorem steady_stretches (lapack : Eigh) (M : StrProg Z μ) (C : Vec6 ℝ) (z : Z)
    (hM : M.Steady (eighSqrt lapack C).1 z) : (stretches lapack M).Steady C z := by
  obtain ⟨H, rg, rh, hid, h1, h2⟩ := hM
  rcases rg with e | ⟨g, z'⟩
  · refine ⟨strUpd lapack C (fun _ => 0) H, .error e, .error e, strUpd_id hid, ?_, ?_⟩
    · exact safe_strGradient hid h1 (by simp) _ _ (by simp) fun e' _ h => by simpa using h.symm
    · exact safe_bind (safe_strGradient hid h1 (by simp) _ _ (by simp) fun e' _ h => by simpa using h.symm)
  · have hid' := strUpd_id (lapack := lapack) (C := C) (g := g) hid
    suffices h : ∃ rr, (strHessian lapack M C z).Safe (strUpd lapack C g H) (.top _) fun r _ => r = rr by
      obtain ⟨rr, hrr⟩ := h
      refine ⟨strUpd lapack C g H, .ok (fun i => ∑ a, g a / (2 * (eighSqrt lapack C).1 a) * (eighSqrt lapack C).2 a i, z'), rr,
        strUpd_id hid, ?_, hrr⟩
      exact safe_strGradient hid h1 (by rintro _ _ ⟨⟩; rfl) _ _ (fun _ _ h _ => by rw [Except.ok.injEq, Prod.mk.injEq] at h; rw [← h.2]) (by simp)
    rcases hh : rh z' with e | h
    · refine ⟨.error e, ?_⟩
      unfold strHessian
      refine safe_bind (safe_strGradient hid h1 (by rintro _ _ ⟨⟩; rfl) _ _ ?_ (by simp))
      rintro _ P ⟨⟩ hP
      refine safe_bind (safe_attr hid' (fun s hs => (hP s hs).1) ?_)
      refine safe_bind (safe_sub (H := H) (r := rh z') (fun u hu => strUpd_sub hu)
        (fun u hu => hu.2.2.2.2) (fun _ _ => rfl) (.top H) (h2 g z' rfl) (fun _ _ => trivial) ?_)
      rw [hh]
    · suffices h : ∃ v, (strHessian lapack M C z).Safe (strUpd lapack C g H) (.top _) fun r _ => r = .ok v from
        ⟨_, h.choose_spec⟩
      refine ⟨hessOf lapack C g h, ?_⟩
      unfold strHessian
      refine safe_bind (safe_strGradient hid h1 (by rintro _ _ ⟨⟩; rfl) _ _ ?_ (by simp))
      rintro _ P ⟨⟩ hP
      refine safe_bind (safe_attr hid' (fun s hs => (hP s hs).1) ?_)
      refine safe_bind (safe_sub (H := H) (r := rh z') (fun u hu => strUpd_sub hu)
        (fun u hu => hu.2.2.2.2) (fun _ _ => rfl) (.top H) (h2 g z' rfl) (fun _ _ => trivial) ?_)
      rw [hh]
      refine safe_bind (safe_attr hid' (fun s hs => (hP s hs).1) ?_)
      refine safe_bind (safe_attr hid' (fun s hs => (hP s hs).2.1) ?_)
      refine safe_bind (safe_attr hid' (fun s hs => (hP s hs).2.2) ?_)
      exact safe_pure rfl

end stretches

/-! ### The model in terms of generalized invariants -/

section generalized

variable (g : GenInv) (l : Vec3 ℝ) (r : InvGrad ℝ Z) (H : Set (μ → μ))

/-- the principal strains -/
noncomputable def genE : Vec3 ℝ := fun a => (g.strain.eval (l a)).E

/-- the first invariant -/
noncomputable def genI1 : ℝ := g.c1 * (genE g l 0 + genE g l 1 + genE g l 2) - g.I10 * (g.c1 - 1)

/-- the second invariant -/
noncomputable def genI2 : ℝ :=
  g.c2 * (genE g l 0 * genE g l 1 + genE g l 1 * genE g l 2 + genE g l 2 * genE g l 0) - g.I20 * (g.c2 - 1)

/-- the third invariant -/
noncomputable def genI3 : ℝ := genE g l 0 * genE g l 1 * genE g l 2

/-- the attributes of a `GeneralizedInvariantsModel` which evaluates the stretches `l` -/
noncomputable def genTarget : GenSt Unit where
  E := some (genE g l)
  dE := some fun a => (g.strain.eval (l a)).dE
  d2E := some fun a => (g.strain.eval (l a)).d2E
  I1 := some (genI1 g l)
  I2 := some (genI2 g l)
  I3 := some (genI3 g l)
  dWdI1 := some r.d1
  dWdI2 := some r.d2
  dWdI3 := some r.d3
  dI1dE := some fun _ => g.c1 * 1
  dI2dE := some fun a => g.c2 * (take (genE g l) ![1, 0, 0] a + take (genE g l) ![2, 2, 1] a)
  dI3dE := some fun a => take (genE g l) ![1, 0, 0] a * take (genE g l) ![2, 2, 1] a
  material := ()

/-- updates of the attributes of a `GeneralizedInvariantsModel` which evaluates `l` -/
def genUpd : Set (GenSt μ → GenSt μ) := { u |
  (∀ s, (u s).E = s.E ∨ (u s).E = (genTarget g l r).E) ∧
  (∀ s, (u s).dE = s.dE ∨ (u s).dE = (genTarget g l r).dE) ∧
  (∀ s, (u s).d2E = s.d2E ∨ (u s).d2E = (genTarget g l r).d2E) ∧
  (∀ s, (u s).I1 = s.I1 ∨ (u s).I1 = (genTarget g l r).I1) ∧
  (∀ s, (u s).I2 = s.I2 ∨ (u s).I2 = (genTarget g l r).I2) ∧
  (∀ s, (u s).I3 = s.I3 ∨ (u s).I3 = (genTarget g l r).I3) ∧
  (∀ s, (u s).dWdI1 = s.dWdI1 ∨ (u s).dWdI1 = (genTarget g l r).dWdI1) ∧
  (∀ s, (u s).dWdI2 = s.dWdI2 ∨ (u s).dWdI2 = (genTarget g l r).dWdI2) ∧
  (∀ s, (u s).dWdI3 = s.dWdI3 ∨ (u s).dWdI3 = (genTarget g l r).dWdI3) ∧
  (∀ s, (u s).dI1dE = s.dI1dE ∨ (u s).dI1dE = (genTarget g l r).dI1dE) ∧
  (∀ s, (u s).dI2dE = s.dI2dE ∨ (u s).dI2dE = (genTarget g l r).dI2dE) ∧
  (∀ s, (u s).dI3dE = s.dI3dE ∨ (u s).dI3dE = (genTarget g l r).dI3dE) ∧
  ∃ v ∈ H, ∀ s, (u s).material = v s.material }

variable {g l r H}

theorem genUpd_id (hid : id ∈ H) : id ∈ genUpd g l r H :=
  ⟨fun _ => .inl rfl, fun _ => .inl rfl, fun _ => .inl rfl, fun _ => .inl rfl, fun _ => .inl rfl, fun _ => .inl rfl, fun _ => .inl rfl, fun _ => .inl rfl, fun _ => .inl rfl, fun _ => .inl rfl, fun _ => .inl rfl, fun _ => .inl rfl, id, hid, fun _ => rfl⟩

theorem genUpd_sub {v : μ → μ} (hv : v ∈ H) : (fun s : GenSt μ => { s with material := v s.material }) ∈ genUpd g l r H :=
  ⟨fun _ => .inl rfl, fun _ => .inl rfl, fun _ => .inl rfl, fun _ => .inl rfl, fun _ => .inl rfl, fun _ => .inl rfl, fun _ => .inl rfl, fun _ => .inl rfl, fun _ => .inl rfl, fun _ => .inl rfl, fun _ => .inl rfl, fun _ => .inl rfl, v, hv, fun _ => rfl⟩

theorem genUpd_E (hid : id ∈ H) : (fun s : GenSt μ => { s with E := (genTarget g l r).E }) ∈ genUpd g l r H :=
  ⟨fun _ => .inr rfl, fun _ => .inl rfl, fun _ => .inl rfl, fun _ => .inl rfl, fun _ => .inl rfl, fun _ => .inl rfl, fun _ => .inl rfl, fun _ => .inl rfl, fun _ => .inl rfl, fun _ => .inl rfl, fun _ => .inl rfl, fun _ => .inl rfl, id, hid, fun _ => rfl⟩

theorem genUpd_dE (hid : id ∈ H) : (fun s : GenSt μ => { s with dE := (genTarget g l r).dE }) ∈ genUpd g l r H :=
  ⟨fun _ => .inl rfl, fun _ => .inr rfl, fun _ => .inl rfl, fun _ => .inl rfl, fun _ => .inl rfl, fun _ => .inl rfl, fun _ => .inl rfl, fun _ => .inl rfl, fun _ => .inl rfl, fun _ => .inl rfl, fun _ => .inl rfl, fun _ => .inl rfl, id, hid, fun _ => rfl⟩

theorem genUpd_d2E (hid : id ∈ H) : (fun s : GenSt μ => { s with d2E := (genTarget g l r).d2E }) ∈ genUpd g l r H :=
  ⟨fun _ => .inl rfl, fun _ => .inl rfl, fun _ => .inr rfl, fun _ => .inl rfl, fun _ => .inl rfl, fun _ => .inl rfl, fun _ => .inl rfl, fun _ => .inl rfl, fun _ => .inl rfl, fun _ => .inl rfl, fun _ => .inl rfl, fun _ => .inl rfl, id, hid, fun _ => rfl⟩

theorem genUpd_I1 (hid : id ∈ H) : (fun s : GenSt μ => { s with I1 := (genTarget g l r).I1 }) ∈ genUpd g l r H :=
  ⟨fun _ => .inl rfl, fun _ => .inl rfl, fun _ => .inl rfl, fun _ => .inr rfl, fun _ => .inl rfl, fun _ => .inl rfl, fun _ => .inl rfl, fun _ => .inl rfl, fun _ => .inl rfl, fun _ => .inl rfl, fun _ => .inl rfl, fun _ => .inl rfl, id, hid, fun _ => rfl⟩

theorem genUpd_I2 (hid : id ∈ H) : (fun s : GenSt μ => { s with I2 := (genTarget g l r).I2 }) ∈ genUpd g l r H :=
  ⟨fun _ => .inl rfl, fun _ => .inl rfl, fun _ => .inl rfl, fun _ => .inl rfl, fun _ => .inr rfl, fun _ => .inl rfl, fun _ => .inl rfl, fun _ => .inl rfl, fun _ => .inl rfl, fun _ => .inl rfl, fun _ => .inl rfl, fun _ => .inl rfl, id, hid, fun _ => rfl⟩

theorem genUpd_I3 (hid : id ∈ H) : (fun s : GenSt μ => { s with I3 := (genTarget g l r).I3 }) ∈ genUpd g l r H :=
  ⟨fun _ => .inl rfl, fun _ => .inl rfl, fun _ => .inl rfl, fun _ => .inl rfl, fun _ => .inl rfl, fun _ => .inr rfl, fun _ => .inl rfl, fun _ => .inl rfl, fun _ => .inl rfl, fun _ => .inl rfl, fun _ => .inl rfl, fun _ => .inl rfl, id, hid, fun _ => rfl⟩

theorem genUpd_dWdI1 (hid : id ∈ H) : (fun s : GenSt μ => { s with dWdI1 := (genTarget g l r).dWdI1 }) ∈ genUpd g l r H :=
  ⟨fun _ => .inl rfl, fun _ => .inl rfl, fun _ => .inl rfl, fun _ => .inl rfl, fun _ => .inl rfl, fun _ => .inl rfl, fun _ => .inr rfl, fun _ => .inl rfl, fun _ => .inl rfl, fun _ => .inl rfl, fun _ => .inl rfl, fun _ => .inl rfl, id, hid, fun _ => rfl⟩

theorem genUpd_dWdI2 (hid : id ∈ H) : (fun s : GenSt μ => { s with dWdI2 := (genTarget g l r).dWdI2 }) ∈ genUpd g l r H :=
  ⟨fun _ => .inl rfl, fun _ => .inl rfl, fun _ => .inl rfl, fun _ => .inl rfl, fun _ => .inl rfl, fun _ => .inl rfl, fun _ => .inl rfl, fun _ => .inr rfl, fun _ => .inl rfl, fun _ => .inl rfl, fun _ => .inl rfl, fun _ => .inl rfl, id, hid, fun _ => rfl⟩

theorem genUpd_dWdI3 (hid : id ∈ H) : (fun s : GenSt μ => { s with dWdI3 := (genTarget g l r).dWdI3 }) ∈ genUpd g l r H :=
  ⟨fun _ => .inl rfl, fun _ => .inl rfl, fun _ => .inl rfl, fun _ => .inl rfl, fun _ => .inl rfl, fun _ => .inl rfl, fun _ => .inl rfl, fun _ => .inl rfl, fun _ => .inr rfl, fun _ => .inl rfl, fun _ => .inl rfl, fun _ => .inl rfl, id, hid, fun _ => rfl⟩

theorem genUpd_dI1dE (hid : id ∈ H) : (fun s : GenSt μ => { s with dI1dE := (genTarget g l r).dI1dE }) ∈ genUpd g l r H :=
  ⟨fun _ => .inl rfl, fun _ => .inl rfl, fun _ => .inl rfl, fun _ => .inl rfl, fun _ => .inl rfl, fun _ => .inl rfl, fun _ => .inl rfl, fun _ => .inl rfl, fun _ => .inl rfl, fun _ => .inr rfl, fun _ => .inl rfl, fun _ => .inl rfl, id, hid, fun _ => rfl⟩

theorem genUpd_dI2dE (hid : id ∈ H) : (fun s : GenSt μ => { s with dI2dE := (genTarget g l r).dI2dE }) ∈ genUpd g l r H :=
  ⟨fun _ => .inl rfl, fun _ => .inl rfl, fun _ => .inl rfl, fun _ => .inl rfl, fun _ => .inl rfl, fun _ => .inl rfl, fun _ => .inl rfl, fun _ => .inl rfl, fun _ => .inl rfl, fun _ => .inl rfl, fun _ => .inr rfl, fun _ => .inl rfl, id, hid, fun _ => rfl⟩

theorem genUpd_dI3dE (hid : id ∈ H) : (fun s : GenSt μ => { s with dI3dE := (genTarget g l r).dI3dE }) ∈ genUpd g l r H :=
  ⟨fun _ => .inl rfl, fun _ => .inl rfl, fun _ => .inl rfl, fun _ => .inl rfl, fun _ => .inl rfl, fun _ => .inl rfl, fun _ => .inl rfl, fun _ => .inl rfl, fun _ => .inl rfl, fun _ => .inl rfl, fun _ => .inl rfl, fun _ => .inr rfl, id, hid, fun _ => rfl⟩

/-- what a `GeneralizedInvariantsModel` knows after `gradient` -/
def GenKnown (g : GenInv) (l : Vec3 ℝ) (r : InvGrad ℝ Z) (s : GenSt μ) : Prop :=
  s.E = (genTarget g l r).E ∧ s.dE = (genTarget g l r).dE ∧ s.d2E = (genTarget g l r).d2E ∧ s.I1 = (genTarget g l r).I1 ∧ s.I2 = (genTarget g l r).I2 ∧ s.I3 = (genTarget g l r).I3 ∧ s.dWdI1 = (genTarget g l r).dWdI1 ∧ s.dWdI2 = (genTarget g l r).dWdI2 ∧ s.dWdI3 = (genTarget g l r).dWdI3 ∧ s.dI1dE = (genTarget g l r).dI1dE ∧ s.dI2dE = (genTarget g l r).dI2dE ∧ s.dI3dE = (genTarget g l r).dI3dE

/-- one term of the gradient -/
def genTerm (w : Option ℝ) (d dE acc : Vec3 ℝ) : Vec3 ℝ := match w with
  | some w => fun a => acc a + w * d a * dE a
  | none => acc

/-- one term of the second derivatives -/
def tailTerm (w : Option ℝ) (y : Vec3 ℝ) (x : Vec6 ℝ) : Vec6 ℝ := match w with
  | some w => GenInv.addTail x fun a => w * y a
  | none => x

/-- one term of the second derivatives -/
def headTerm (w : Option ℝ) (d e : Vec3 ℝ) (x : Vec6 ℝ) : Vec6 ℝ := match w with
  | some w => GenInv.addHead x fun a => w * d a * e a
  | none => x

theorem safe_genAdd {G : Set (GenSt μ → GenSt μ)} (hid : id ∈ G) {w : GenSt μ → Option (Option ℝ)}
    {f : GenSt μ → Option (Vec3 ℝ)} {w' : Option ℝ} {d dE acc : Vec3 ℝ} {P : Facts G}
    {Q : Res (Vec3 ℝ) → Facts G → Prop} (hw : ∀ s, P.holds s → w s = some w') (hf : ∀ s, P.holds s → f s = some d)
    (hE : ∀ s, P.holds s → s.dE = some dE) (h : Q (.ok (genTerm w' d dE acc)) P) : (genAdd w f acc).Safe G P Q := by
  refine safe_andThen (safe_attr hid hw ?_)
  rcases w' with _ | w'
  · exact safe_pure h
  · refine safe_bind (safe_attr hid hw (safe_bind (safe_number ?_)))
    exact safe_bind (safe_attr hid hf (safe_bind (safe_attr hid hE (safe_pure h))))

theorem safe_genTail {G : Set (GenSt μ → GenSt μ)} (hid : id ∈ G) {w : GenSt μ → Option (Option ℝ)}
    {w' : Option ℝ} {y : Vec3 ℝ} {x : Vec6 ℝ} {P : Facts G}
    {Q : Res (Vec6 ℝ) → Facts G → Prop} (hw : ∀ s, P.holds s → w s = some w')
    (h : Q (.ok (tailTerm w' y x)) P) : (genTail w y x).Safe G P Q := by
  refine safe_andThen (safe_attr hid hw ?_)
  rcases w' with _ | w'
  · exact safe_pure h
  · exact safe_bind (safe_attr hid hw (safe_bind (safe_number (safe_pure h))))

theorem safe_genHead {G : Set (GenSt μ → GenSt μ)} (hid : id ∈ G) {w : GenSt μ → Option (Option ℝ)}
    {w' : Option ℝ} {d e : Vec3 ℝ} {x : Vec6 ℝ} {P : Facts G}
    {Q : Res (Vec6 ℝ) → Facts G → Prop} (hw : ∀ s, P.holds s → w s = some w')
    (h : Q (.ok (headTerm w' d e x)) P) :
    (genHead w d e x).Safe G P Q := by
  refine safe_andThen (safe_attr hid hw ?_)
  rcases w' with _ | w'
  · exact safe_pure h
  · exact safe_bind (safe_attr hid hw (safe_bind (safe_number (safe_pure h))))

/-- the gradient -/
noncomputable def genValue (g : GenInv) (l : Vec3 ℝ) (r : InvGrad ℝ Z) : Vec3 ℝ :=
  let dE : Vec3 ℝ := fun a => (g.strain.eval (l a)).dE
  genTerm r.d3 (fun a => take (genE g l) ![1, 0, 0] a * take (genE g l) ![2, 2, 1] a) dE
    (genTerm r.d2 (fun a => g.c2 * (take (genE g l) ![1, 0, 0] a + take (genE g l) ![2, 2, 1] a)) dE
      (genTerm r.d1 (fun _ => g.c1 * 1) dE fun _ => 0))

theorem safe_genGradient {M : InvProg Z μ} {z : Z} (hid : id ∈ H) {rg : Res (InvGrad ℝ Z)}
    (hr : (M.gradient (genI1 g l) (genI2 g l) (genI3 g l) z).Safe H (.top H) fun r' _ => r' = rg)
    (hg : ∀ r', rg = .ok r' → r' = r) (P : Facts (genUpd g l r H)) (Q : Res (Vec3 ℝ × Z) → Facts (genUpd g l r H) → Prop)
    (hok : ∀ P' : Facts (genUpd g l r H), rg = .ok r → (∀ s, P'.holds s → GenKnown g l r s) → Q (.ok (genValue g l r, r.sv)) P')
    (herr : ∀ e P', rg = .error e → Q (.error e) P') :
    (genGradient g M l z).Safe (genUpd g l r H) P Q := by
  have hid' := genUpd_id (g := g) (l := l) (r := r) hid
  unfold genGradient
  refine safe_bind (safe_set (genUpd_E hid) (·.E) _ (fun u hu s => hu.1 s) (fun _ => rfl) ?_)
  refine safe_bind (safe_set (genUpd_dE hid) (·.dE) _ (fun u hu s => hu.2.1 s) (fun _ => rfl) ?_)
  refine safe_bind (safe_set (genUpd_d2E hid) (·.d2E) _ (fun u hu s => hu.2.2.1 s) (fun _ => rfl) ?_)
  refine safe_bind (safe_attr hid' (fun s hs => hs.1.1.2) ?_)
  refine safe_bind (safe_set (genUpd_I1 hid) (·.I1) _ (fun u hu s => hu.2.2.2.1 s) (fun _ => rfl) ?_)
  refine safe_bind (safe_set (genUpd_I2 hid) (·.I2) _ (fun u hu s => hu.2.2.2.2.1 s) (fun _ => rfl) ?_)
  refine safe_bind (safe_set (genUpd_I3 hid) (·.I3) _ (fun u hu s => hu.2.2.2.2.2.1 s) (fun _ => rfl) ?_)
  refine safe_bind (safe_attr hid' (fun s hs => hs.1.1.2) ?_)
  refine safe_bind (safe_attr hid' (fun s hs => hs.1.2) ?_)
  refine safe_bind (safe_attr hid' (fun s hs => hs.2) ?_)
  refine safe_bind (safe_sub (H := H) (r := rg) (fun u hu => genUpd_sub hu)
    (fun u hu => hu.2.2.2.2.2.2.2.2.2.2.2.2) (fun _ _ => rfl) (.top H) hr (fun _ _ => trivial) ?_)
  rcases rg with e | r'
  · exact herr e _ rfl
  · obtain rfl := hg r' rfl
    refine safe_bind (safe_set (genUpd_dWdI1 hid) (·.dWdI1) _ (fun u hu s => hu.2.2.2.2.2.2.1 s) (fun _ => rfl) ?_)
    refine safe_bind (safe_set (genUpd_dWdI2 hid) (·.dWdI2) _ (fun u hu s => hu.2.2.2.2.2.2.2.1 s) (fun _ => rfl) ?_)
    refine safe_bind (safe_set (genUpd_dWdI3 hid) (·.dWdI3) _ (fun u hu s => hu.2.2.2.2.2.2.2.2.1 s) (fun _ => rfl) ?_)
    refine safe_bind (safe_set (genUpd_dI1dE hid) (·.dI1dE) _ (fun u hu s => hu.2.2.2.2.2.2.2.2.2.1 s) (fun _ => rfl) ?_)
    refine safe_bind (safe_set (genUpd_dI2dE hid) (·.dI2dE) _ (fun u hu s => hu.2.2.2.2.2.2.2.2.2.2.1 s) (fun _ => rfl) ?_)
    refine safe_bind (safe_set (genUpd_dI3dE hid) (·.dI3dE) _ (fun u hu s => hu.2.2.2.2.2.2.2.2.2.2.2.1 s) (fun _ => rfl) ?_)
    refine safe_bind (safe_genAdd hid' (fun s hs => hs.1.1.1.1.1.2) (fun s hs => hs.1.1.2) (fun s hs => hs.1.1.1.1.1.1.1.1.1.1.2) ?_)
    refine safe_bind (safe_genAdd hid' (fun s hs => hs.1.1.1.1.2) (fun s hs => hs.1.2) (fun s hs => hs.1.1.1.1.1.1.1.1.1.1.2) ?_)
    refine safe_bind (safe_genAdd hid' (fun s hs => hs.1.1.1.2) (fun s hs => hs.2) (fun s hs => hs.1.1.1.1.1.1.1.1.1.1.2) ?_)
    exact safe_pure (hok _ rfl fun s hs => ⟨hs.1.1.1.1.1.1.1.1.1.1.1.2, hs.1.1.1.1.1.1.1.1.1.1.2, hs.1.1.1.1.1.1.1.1.1.2, hs.1.1.1.1.1.1.1.1.2, hs.1.1.1.1.1.1.1.2, hs.1.1.1.1.1.1.2, hs.1.1.1.1.1.2, hs.1.1.1.1.2, hs.1.1.1.2, hs.1.1.2, hs.1.2, hs.2⟩)

/-- the second derivatives -/
noncomputable def genHess (g : GenInv) (l : Vec3 ℝ) (r : InvGrad ℝ Z) (h : InvHess ℝ) : Vec6 ℝ :=
  let dI1dE : Vec3 ℝ := fun _ => g.c1 * 1
  let dI2dE : Vec3 ℝ := fun a => g.c2 * (take (genE g l) ![1, 0, 0] a + take (genE g l) ![2, 2, 1] a)
  let dI3dE : Vec3 ℝ := fun a => take (genE g l) ![1, 0, 0] a * take (genE g l) ![2, 2, 1] a
  let dE : Vec3 ℝ := fun a => (g.strain.eval (l a)).dE
  let d2E : Vec3 ℝ := fun a => (g.strain.eval (l a)).d2E
  let d2W : Vec6 ℝ := fun _ => 0
  let d2W := GenInv.addVec d2W h.h11 fun m => dI1dE (GenInv.ia m) * dI1dE (GenInv.ib m)
  let d2W := GenInv.addVec d2W h.h22 fun m => dI2dE (GenInv.ia m) * dI2dE (GenInv.ib m)
  let d2W := GenInv.addVec d2W h.h33 fun m => dI3dE (GenInv.ia m) * dI3dE (GenInv.ib m)
  let d2W := GenInv.addVec d2W h.h12 fun m =>
    dI1dE (GenInv.ia m) * dI2dE (GenInv.ib m) + dI2dE (GenInv.ia m) * dI1dE (GenInv.ib m)
  let d2W := GenInv.addVec d2W h.h23 fun m =>
    dI2dE (GenInv.ia m) * dI3dE (GenInv.ib m) + dI3dE (GenInv.ia m) * dI2dE (GenInv.ib m)
  let d2W := GenInv.addVec d2W h.h13 fun m =>
    dI1dE (GenInv.ia m) * dI3dE (GenInv.ib m) + dI3dE (GenInv.ia m) * dI1dE (GenInv.ib m)
  let d2W := tailTerm r.d3 ![2, 0, 1] (tailTerm r.d2 (fun _ => g.c2) d2W)
  let d2W : Vec6 ℝ := fun m => d2W m * (dE (GenInv.ia m) * dE (GenInv.ib m))
  headTerm r.d3 dI3dE d2E (headTerm r.d2 dI2dE d2E (headTerm r.d1 dI1dE d2E d2W))

/-- the outcomes of the methods of a `GeneralizedInvariantsModel` which evaluates `l` -/
theorem steady_generalized [Nonempty μ] (g : GenInv) (M : InvProg Z μ) (l : Vec3 ℝ) (z : Z)
    (hM : M.Steady (genI1 g l) (genI2 g l) (genI3 g l) z)
    (hz : ∀ r s, Returns (M.mat.gradient (genI1 g l) (genI2 g l) (genI3 g l) z) s r → r.sv = z) : (genModel g M).Steady l z := by
  obtain ⟨H, rg, rh, hid, h1, h2⟩ := hM
  have hrun : ∀ s, ((M.gradient (genI1 g l) (genI2 g l) (genI3 g l) z).run s).1 = rg := fun s => (h1.run trivial).choose_spec
  rcases rg with e | r
  · refine ⟨genUpd g l (⟨none, none, none, z⟩ : InvGrad ℝ Z) H, .error e, fun _ => .error e, genUpd_id hid, ?_, by simp⟩
    exact safe_genGradient hid h1 (by simp) _ _ (by simp) fun e' _ h => by simpa using h.symm
  · have hid' := genUpd_id (g := g) (l := l) (r := r) hid
    have main : ∃ rr, (genHessian g M l z).Safe (genUpd g l r H) (.top _) fun r _ => r = rr := by
      refine ⟨(rh z).map fun h => .array (genHess g l r h), ?_⟩
      unfold genHessian
      refine safe_bind (safe_genGradient hid h1 (by rintro _ ⟨⟩; rfl) _ _ (fun P _ hP => ?_) (by simp))
      refine safe_bind (safe_attr hid' (fun s hs => (hP s hs).2.2.2.1) ?_)
      refine safe_bind (safe_attr hid' (fun s hs => (hP s hs).2.2.2.2.1) ?_)
      refine safe_bind (safe_attr hid' (fun s hs => (hP s hs).2.2.2.2.2.1) ?_)
      refine safe_bind (safe_sub (H := H) (r := rh z) (fun u hu => genUpd_sub hu)
        (fun u hu => hu.2.2.2.2.2.2.2.2.2.2.2.2) (fun _ _ => rfl) (.top H) (h2 z) (fun _ _ => trivial) ?_)
      rcases rh z with e | h
      · rfl
      · refine safe_bind (safe_attr hid' (fun s hs => (hP s hs).2.2.2.2.2.2.2.2.2.1) ?_)
        refine safe_bind (safe_attr hid' (fun s hs => (hP s hs).2.2.2.2.2.2.2.2.2.2.1) ?_)
        refine safe_bind (safe_attr hid' (fun s hs => (hP s hs).2.2.2.2.2.2.2.2.2.2.2) ?_)
        refine safe_bind (safe_attr hid' (fun s hs => (hP s hs).2.1) ?_)
        refine safe_bind (safe_attr hid' (fun s hs => (hP s hs).2.2.1) ?_)
        refine safe_bind (safe_genTail hid' (fun s hs => (hP s hs).2.2.2.2.2.2.2.1) ?_)
        refine safe_bind (safe_genTail hid' (fun s hs => (hP s hs).2.2.2.2.2.2.2.2.1) ?_)
        refine safe_bind (safe_genHead hid' (fun s hs => (hP s hs).2.2.2.2.2.2.1) ?_)
        refine safe_bind (safe_genHead hid' (fun s hs => (hP s hs).2.2.2.2.2.2.2.1) ?_)
        refine safe_bind (safe_genHead hid' (fun s hs => (hP s hs).2.2.2.2.2.2.2.2.1) ?_)
        exact safe_pure rfl
    obtain ⟨rr, hrr⟩ := main
    refine ⟨genUpd g l r H, .ok (genValue g l r, r.sv), fun _ => rr, genUpd_id hid, ?_, ?_⟩
    · exact safe_genGradient hid h1 (by rintro _ ⟨⟩; rfl) _ _ (fun _ _ _ => rfl) (by simp)
    · rintro _ z' ⟨⟩
      rw [show r.sv = z from hz r (Classical.arbitrary μ) (hrun _)]
      exact hrr

end generalized

/-! ### Models which assign no attributes -/

theorem steady_tod (m : TOD ℝ) (x1 x2 x3 : ℝ) (z : Z) : (todProg m).Steady x1 x2 x3 z :=
  ⟨Set.univ, _, _, trivial, safe_done rfl, fun _ => safe_done rfl⟩

theorem steady_ogden (o : Ogden) (l : Vec3 ℝ) (z : Z) : (ogdenProg o).Steady l z :=
  ⟨Set.univ, _, _, trivial, safe_done rfl, fun _ _ _ => safe_done rfl⟩

end Threads
end Hel
