import Verif.Proofs.MemoryInvariants

/-! The models on the memory. -/

namespace Hel.Memory

noncomputable section

variable {T : Type} [Encodable T] {m b : Mem} {σ μ ν Z Zv τ τ' : Type}

/-- A local value: a number, or an array of its own (created after `b`). -/
def Owned (b m : Mem) (x : Option (Num T)) (v : Option (Arr T)) : Prop :=
  Num.Is m x v ∧ ∀ A, x = some (.arr A) → b.next ≤ A.loc ∧ A.Inj

/-- Two local values do not share an array. -/
def Apart (x z : Option (Num T)) : Prop := ∀ A B, x = some (.arr A) → z = some (.arr B) → A.loc ≠ B.loc

theorem Owned.loc {x : Option (Num T)} {v : Option (Arr T)} (h : Owned b m x v) {A : Nd (Arr T)} (hx : x = some (.arr A)) :
    A.loc < m.next := by
  subst hx
  rcases v with _ | v
  · exact h.1.elim
  · exact h.1.loc

theorem Owned.ext {m' : Mem} {x : Option (Num T)} {v : Option (Arr T)} (h : Owned b m x v) (e : Ext m m') :
    Owned b m' x v := ⟨h.1.ext e, h.2⟩

theorem Num.Is.wrote {m' : Mem} {A : Nd (Arr T)} {x : Option (Num T)} {v : Option (Arr T)} (h : Num.Is m x v)
    (w : Wrote A m m') (hne : ∀ B, x = some (.arr B) → B.loc ≠ A.loc) : Num.Is m' x v := by
  rcases x with _ | x | B <;> rcases v with _ | v <;> try exact h
  exact w.holds h (hne B rfl)

/-- `if c: x += y`, with another local value `z`. -/
theorem addIf_spec {s : σ} (c : Prop) [Decidable c] {x z : Option (Num T)} {v u : Option (Arr T)} {p : MemM (Num T)}
    {w : Arr T} (eb : Ext b m) (hx : Owned b m x v) (hz : Owned b m z u) (hxz : Apart x z)
    (hp : wp p m fun y m' => Ext m m' ∧ Num.Is m' (some y) (some w) ∧ ∀ B, y = .arr B → m.next ≤ B.loc) :
    wpP (addIf c x p) m s fun r m' _ => Ext b m' ∧ Owned b m' z u ∧
      Agree (fun r v => Owned b m' r v ∧ Apart r z) r (if c then addTo v w else .ok v) := by
  unfold addIf
  by_cases hc : c
  swap
  · rw [if_neg hc, if_neg hc]
    exact wpP_pure ⟨eb, hz, hx, hxz⟩
  rw [if_pos hc, if_pos hc]
  refine wpP_mem_bind (wp_mono hp ?_)
  rintro y m1 ⟨e1, hy, ly⟩
  have hzl : ∀ B, z = some (.arr B) → B.loc < m.next := fun B => hz.loc
  have hxl : ∀ B, x = some (.arr B) → B.loc < m.next := fun B => hx.loc
  replace hx := hx.ext e1
  replace hz := hz.ext e1
  have eb1 := eb.trans e1
  have hn := eb.next
  have hn1 := e1.next
  rcases x with _ | a | A
  · rcases v with _ | v
    · exact ⟨eb1, hz, rfl⟩
    · exact hx.1.elim
  · rcases v with _ | v
    · exact hx.1.elim
    obtain rfl : v = Arr.const a := hx.1
    rcases y with y | B
    · obtain rfl : w = Arr.const y := hy
      refine ⟨eb1, hz, ⟨rfl, fun A hA => by simp at hA⟩, fun A B hA => by simp at hA⟩
    · refine wpP_mem (wp_rd_bind hy ((makes_new _ _).bind fun R m2 e2 l2 i2 h2 => ?_))
      refine ⟨eb1.trans e2, hz.ext e2, ⟨h2, ?_⟩, ?_⟩
      · intro A hA
        cases hA
        exact ⟨by omega, i2⟩
      · intro A B hA hB
        cases hA
        have := hzl B hB
        omega
  · rcases v with _ | v
    · exact hx.1.elim
    have hA : Holds m1 A v := hx.1
    obtain ⟨lA, iA⟩ := hx.2 A rfl
    have hA' := hxl A rfl
    refine wpP_mem (wp_rd_bind hA (wp_bind (wp_rdNum hy (wp_put_bind hA.loc iA fun m2 w2 h2 => ?_))))
    have hz2 : Owned b m2 z u := ⟨hz.1.wrote w2 fun B hB => (hxz A B rfl hB).symm, hz.2⟩
    exact ⟨w2.ext eb1 lA, hz2, ⟨h2, fun B hB => by cases hB; exact ⟨lA, iA⟩⟩, fun X B hX hB => by cases hX; exact hxz A B rfl hB⟩

theorem power_spec (M : TOD ℝ) (k : ℝ) {I : Nd (Arr T)} {i : Arr T} (n : ℕ) (hI : Holds m I i) :
    wp (power M k I n) m fun y m' => Ext m m' ∧
      Num.Is m' (some y) (some (Arr.const k * (i - Arr.const M.undeformed) ^ n)) ∧ ∀ B, y = .arr B → m.next ≤ B.loc := by
  refine wp_rd_bind hI ((makes_new _ _).bind fun Y m1 e1 l1 i1 h1 => ?_)
  exact wp_pure ⟨e1, h1, fun B hB => by cases hB; exact l1⟩

theorem num_spec (k : ℝ) : wp (pure (Num.num k) : MemM (Num T)) m fun y m' => Ext m m' ∧
    Num.Is m' (some y) (some (Arr.const k)) ∧ ∀ B, y = .arr B → m.next ≤ B.loc :=
  wp_pure ⟨Ext.refl m, rfl, fun B hB => by cases hB⟩

theorem Apart.symm {x z : Option (Num T)} (h : Apart x z) : Apart z x := fun A B hA hB => (h B A hB hA).symm

/-- One step of `gradient` in front of the others. -/
theorem addIf_bind {s : σ} (c : Prop) [Decidable c] {x z : Option (Num T)} {v u : Option (Arr T)} {p : MemM (Num T)}
    {w : Arr T} {f : Option (Num T) → PyM (Mem × σ) τ} {g : Option (Arr T) → Res τ'} {R : Mem → τ → τ' → Prop}
    (eb : Ext b m) (hx : Owned b m x v) (hz : Owned b m z u) (hxz : Apart x z)
    (hp : wp p m fun y m' => Ext m m' ∧ Num.Is m' (some y) (some w) ∧ ∀ B, y = .arr B → m.next ≤ B.loc)
    (hf : ∀ x' v' m' s', Ext b m' → Owned b m' x' v' → Owned b m' z u → Apart x' z →
      wpP (f x') m' s' fun r m'' _ => Ext b m'' ∧ Agree (R m'') r (g v')) :
    wpP (addIf c x p >>= f) m s fun r m'' _ => Ext b m'' ∧ Agree (R m'') r ((if c then addTo v w else .ok v) >>= g) := by
  refine wpP_bind (wpP_mono (addIf_spec c eb hx hz hxz hp) ?_)
  rintro r m' s' ⟨e, hz', h⟩
  generalize (if c then addTo v w else .ok v) = q at h ⊢
  rcases q with err | v'
  · rw [h.error]
    exact ⟨e, rfl⟩
  · obtain ⟨x', rfl, h1, h2⟩ := h.ok
    exact hf x' v' m' s' e h1 hz' h2

/-- `if c: x += y` on values -/
def addRes (c : Prop) [Decidable c] (v : Option (Arr T)) (w : Arr T) : Res (Option (Arr T)) :=
  if c then addTo v w else .ok v

theorem tod_gradient_eq [Nonempty T] [DecidableEq (Arr T)] (C10 C01 C11 C20 C30 : ℝ) (strain : Bool) (a b : Arr T)
    (c : Arr T) (zv : Zv) :
    (TOD.init (Arr.const C10) (Arr.const C01) (Arr.const C11) (Arr.const C20) (Arr.const C30 : Arr T) strain).gradient a b c zv =
      (addRes (C10 ≠ 0) (if C10 ≠ 0 ∨ C11 ≠ 0 ∨ C20 ≠ 0 ∨ C30 ≠ 0 then some 0 else none) (Arr.const C10) >>= fun x =>
      addRes (C01 ≠ 0) (if C01 ≠ 0 ∨ C11 ≠ 0 then some 0 else none) (Arr.const C01) >>= fun y =>
      addRes (C11 ≠ 0) x (Arr.const C11 * (b - Arr.const (if strain then 0 else 3))) >>= fun x =>
      addRes (C11 ≠ 0) y (Arr.const C11 * (a - Arr.const (if strain then 0 else 3))) >>= fun y =>
      addRes (C20 ≠ 0) x (Arr.const (C20 * 2) * (a - Arr.const (if strain then 0 else 3))) >>= fun x =>
      addRes (C30 ≠ 0) x (Arr.const (C30 * 3) * (a - Arr.const (if strain then 0 else 3)) ^ 2) >>= fun x =>
      .ok { d1 := x, d2 := y, d3 := none, sv := zv }) := by
  obtain ⟨i⟩ := ‹Nonempty T›
  have hc : ∀ c : ℝ, (Arr.const c : Arr T) = 0 ↔ c = 0 := fun c =>
    ⟨fun h => congrFun h i, fun h => by rw [h]; rfl⟩
  have hu : (if strain = true then 0 else 3 : Arr T) = Arr.const (if strain = true then 0 else 3) := by
    cases strain <;> rfl
  simp only [TOD.gradient, TOD.init, ne_eq, hc, hu, addRes]
  by_cases h1 : C10 = 0 <;> by_cases h2 : C01 = 0 <;> by_cases h3 : C11 = 0 <;> by_cases h4 : C20 = 0 <;>
    by_cases h5 : C30 = 0 <;> simp only [h1, h2, h3, h4, h5, not_true_eq_false, not_false_eq_true,
        or_true, true_or, or_false, false_or, if_true, if_false] <;> rfl

theorem tod_implements [Nonempty T] [DecidableEq (Arr T)] (C10 C01 C11 C20 C30 : ℝ) (strain : Bool) (sv : SV Z Zv) :
    (todMat (TOD.init C10 C01 C11 C20 C30 strain) : InvMat T Z Unit).Implements sv
      (TOD.init (Arr.const C10) (Arr.const C01) (Arr.const C11) (Arr.const C20) (Arr.const C30 : Arr T) strain).mat where
  gradient m s t A B C a b' c z zv hA hB hC hz := by
    obtain ⟨i⟩ := ‹Nonempty T›
    have hc : ∀ c : ℝ, (Arr.const c : Arr T) = 0 ↔ c = 0 := fun c =>
      ⟨fun h => congrFun h i, fun h => by rw [h]; rfl⟩
    have hu : (if strain = true then 0 else 3 : Arr T) = Arr.const (if strain = true then 0 else 3) := by
      cases strain <;> rfl
    refine (show wpP (todGradient (TOD.init C10 C01 C11 C20 C30 strain) A B C z) m s fun r m' _ => Ext m m' ∧
      Agree (fun r v => Num.Is m' r.d1 v.d1 ∧ Num.Is m' r.d2 v.d2 ∧ Num.Is m' r.d3 v.d3 ∧ sv.Is m' r.sv v.sv) r
        ((TOD.init (Arr.const C10) (Arr.const C01) (Arr.const C11) (Arr.const C20) (Arr.const C30 : Arr T)
          strain).mat.gradient a b' c zv t).1 from ?_)
    show wpP _ _ _ fun r m' _ => Ext m m' ∧ Agree _ r ((TOD.init (Arr.const C10) (Arr.const C01) (Arr.const C11)
      (Arr.const C20) (Arr.const C30 : Arr T) strain).gradient a b' c zv)
    rw [tod_gradient_eq]
    unfold todGradient TOD.init
    have key : ∀ (c : Prop) [Decidable c], Owned m m (if c then some (Num.num 0) else none : Option (Num T))
        (if c then some 0 else none) := by
      intro c _
      by_cases h : c
      · rw [if_pos h, if_pos h]
        exact ⟨rfl, fun A hA => by cases hA⟩
      · rw [if_neg h, if_neg h]
        exact ⟨trivial, fun A hA => by cases hA⟩
    have apart : ∀ (c d : Prop) [Decidable c] [Decidable d], Apart (if c then some (Num.num 0) else none : Option (Num T))
        (if d then some (Num.num 0) else none) := by
      intro c d _ _ A B hA
      split_ifs at hA <;> cases hA
    have e0 := Ext.refl m
    refine addIf_bind (C10 ≠ 0) e0 (key (C10 ≠ 0 ∨ C11 ≠ 0 ∨ C20 ≠ 0 ∨ C30 ≠ 0)) (key (C01 ≠ 0 ∨ C11 ≠ 0))
      (apart _ _) (num_spec _) fun x v m1 s1 e1 hx hz1 ha => ?_
    refine addIf_bind _ e1 hz1 hx ha.symm (num_spec _) fun y w m2 s2 e2 hy hx ha => ?_
    refine addIf_bind _ e2 hx hy ha.symm (w := _) ?_ fun x v m3 s3 e3 hx hy ha => ?_
    · have := power_spec (TOD.init C10 C01 C11 C20 C30 strain) C11 1 (hB.ext e2)
      rw [pow_one] at this
      exact this
    refine addIf_bind _ e3 hy hx ha.symm (w := _) ?_ fun y w m4 s4 e4 hy hx ha => ?_
    · have := power_spec (TOD.init C10 C01 C11 C20 C30 strain) C11 1 (hA.ext e3)
      rw [pow_one] at this
      exact this
    refine addIf_bind _ e4 hx hy ha.symm (w := _) ?_ fun x v m5 s5 e5 hx hy ha => ?_
    · have := power_spec (TOD.init C10 C01 C11 C20 C30 strain) (C20 * 2) 1 (hA.ext e4)
      rw [pow_one] at this
      exact this
    refine addIf_bind _ e5 hx hy ha (w := _) ?_ fun x v m6 s6 e6 hx hy ha => ?_
    · exact power_spec (TOD.init C10 C01 C11 C20 C30 strain) (C30 * 3) 2 (hA.ext e5)
    exact wpP_pure ⟨e6, hx.1, hy.1, trivial, sv.ext e6 hz⟩
  hessian m s t A B C a b' c z zv hA hB hC hz := by
    obtain ⟨i⟩ := ‹Nonempty T›
    have hc : ∀ c : ℝ, (Arr.const c : Arr T) = 0 ↔ c = 0 := fun c =>
      ⟨fun h => congrFun h i, fun h => by rw [h]; rfl⟩
    have hu : (if strain = true then 0 else 3 : Arr T) = Arr.const (if strain = true then 0 else 3) := by
      cases strain <;> rfl
    refine (show wpP (todHessian (TOD.init C10 C01 C11 C20 C30 strain) A B C z) m s fun r m' _ => Ext m m' ∧
      Agree (fun r v => Num.Is m' r.h11 v.h11 ∧ Num.Is m' r.h22 v.h22 ∧ Num.Is m' r.h33 v.h33 ∧ Num.Is m' r.h12 v.h12 ∧
          Num.Is m' r.h23 v.h23 ∧ Num.Is m' r.h13 v.h13) r
        ((TOD.init (Arr.const C10) (Arr.const C01) (Arr.const C11) (Arr.const C20) (Arr.const C30 : Arr T)
          strain).mat.hessian a b' c zv t).1 from ?_)
    simp only [TOD.mat, PyM.lift_run, TOD.hessian, TOD.init, ne_eq, hc, hu]
    unfold todHessian
    have h12 : ∀ m', Num.Is m' (if ¬ C11 = 0 then some (Num.num C11) else none : Option (Num T))
        (if ¬ C11 = 0 then some (Arr.const C11) else none) := by
      intro m'
      by_cases h : C11 = 0
      · rw [if_neg (by simpa using h), if_neg (by simpa using h)]; trivial
      · rw [if_pos h, if_pos h]; rfl
    by_cases h : ¬ C20 = 0 ∨ ¬ C30 = 0
    · rw [if_pos h]
      refine wpP_mem_bind ?_
      have h' : C20 ≠ 0 ∨ C30 ≠ 0 := h
      simp only [if_pos h']
      refine wp_rd_bind hA ((makes_new _ _).bind fun Y m1 e1 l1 i1 h1 => wp_pure (wpP_pure ⟨e1, ?_, trivial, trivial, h12 _, trivial, trivial⟩))
      exact h1
    · rw [if_neg h]
      refine wpP_mem_bind ?_
      have h' : ¬ (C20 ≠ 0 ∨ C30 ≠ 0) := h
      simp only [if_neg h']
      exact wp_pure (wpP_pure ⟨Ext.refl m, trivial, trivial, trivial, h12 _, trivial, trivial⟩)

end

end Hel.Memory
