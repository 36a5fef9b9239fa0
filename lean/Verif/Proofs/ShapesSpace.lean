import Verif.Proofs.ShapesCode

/-! Shapes in the Piola transformation and the three spaces. -/

namespace Hel.Sh

variable {t u v : Shape}

theorem allclose_total (k : Shape) (hk : 2 ≤ k.length) (hl : u.length = t.length) :
    ∃ b, allcloseShapes (k ++ t) (k ++ u) = .ok b := by
  obtain ⟨a, b, k, rfl⟩ : ∃ a b k', k = a :: b :: k' := by
    match k, hk with
    | a :: b :: k, _ => exact ⟨a, b, k, rfl⟩
  simp only [allcloseShapes, List.cons_append]
  rw [if_pos (by simp [hl])]
  exact ⟨_, rfl⟩

theorem sub_forall (h : Sub t u) : List.Forall₂ (fun a b => a = b ∨ a = 1) u t := by
  obtain ⟨h, hl⟩ := h
  rw [fits_spec] at h
  obtain ⟨pre, w, rfl, hf⟩ := h
  have : pre = [] := by
    have := hf.length_eq
    simp at hl
    apply List.eq_nil_of_length_eq_zero
    omega
  subst this
  simpa using hf

theorem allclose_true (k : Shape) (hk : 2 ≤ k.length) (h : Sub t u)
    (hb : allcloseShapes (k ++ t) (k ++ u) = .ok true) : t = u := by
  obtain ⟨a, b, k, rfl⟩ : ∃ a b k', k = a :: b :: k' := by
    match k, hk with
    | a :: b :: k, _ => exact ⟨a, b, k, rfl⟩
  have hf := sub_forall h
  simp only [allcloseShapes, List.cons_append] at hb
  rw [if_pos (by simp [h.2])] at hb
  have hb' : (((a :: b :: (k ++ t)).zip (a :: b :: (k ++ u))).all fun p =>
      decide (|(p.1 : ℤ) - p.2| * 10 ^ 8 ≤ 1 + 1000 * p.2)) = true := by simpa using hb
  simp only [List.zip_cons_cons, List.all_cons, Bool.and_eq_true] at hb'
  have h3 := hb'.2.2
  rw [List.zip_append (by simp), List.all_append, Bool.and_eq_true] at h3
  have h4 := h3.2
  clear hb hb' h3 h
  induction hf with
  | nil => rfl
  | @cons x y u t hxy hf ih =>
    simp only [List.zip_cons_cons, List.all_cons, Bool.and_eq_true, decide_eq_true_eq] at h4
    rw [ih h4.2]
    rcases hxy with rfl | rfl
    · rfl
    · have := h4.1
      congr 1
      have h5 : |(y : ℤ) - 1| * 10 ^ 8 ≤ 1001 := by simpa using this
      have h6 : |(y : ℤ) - 1| < 1 := by
        by_contra hc
        push Not at hc
        nlinarith
      have := Int.abs_lt_one_iff.1 h6
      omega

theorem widen_ok (k : Shape) (hk : 2 ≤ k.length) (h : Sub t u) : widen (k ++ t) (k ++ u) = .ok (k ++ t) := by
  obtain ⟨b, hb⟩ := allclose_total (t := t) (u := u) k hk h.2
  unfold widen
  rw [hb, ok_bind]
  split_ifs with hc
  · subst hc
    rw [allclose_true k hk h hb]
  · exact broadcastTo_ok (fits_lead (fits_self _) h.1 h.2)

theorem detFOf_ok {d : Option Shape} (hd : ∀ x, d = some x → x = t) :
    detFOf (3 :: 3 :: t) d = .ok t := by
  unfold detFOf
  cases d with
  | some x => rw [hd x rfl]
  | none => simp only [rcg_ok, ok_bind]; rfl

theorem invCOf_ok {i : Option Shape} (hi : ∀ x, i = some x → x = 6 :: t) :
    invCOf (3 :: 3 :: t) i = .ok (6 :: t) := by
  unfold invCOf
  cases i with
  | some x => rw [hi x rfl]
  | none =>
    simp only [rcg_ok, ok_bind]
    rw [show det (6 :: t) = .ok t from rfl, ok_bind, inv_ok]

theorem forceStress_ok (hu : Sub t u) :
    forceStress (3 :: 3 :: t) (3 :: 3 :: u) = .ok (3 :: 3 :: t) := by
  have e1 : bcast (3 :: 3 :: t) (3 :: 3 :: u) = .ok (3 :: 3 :: t) :=
    fits_right (fits_lead (l := [3, 3]) (k := [3, 3]) (fits_self _) hu.1 hu.2)
  have e2 : widen (3 :: 3 :: t) (3 :: 3 :: u) = .ok (3 :: 3 :: t) := widen_ok [3, 3] (by simp) hu
  unfold forceStress
  rw [e1, ok_bind, e2, ok_bind]
  refine einsum_buf (r := [3, 3] ++ t) (einsum_ok ?_ ?_ ?_) rfl (fits_self _)
  · simp [check_ok]
  · rfl
  · exact foldl2 t t (bcast_self t)

theorem areaStress_ok {d : Option Shape} (hd : ∀ x, d = some x → x = t) :
    areaStress (3 :: 3 :: t) (3 :: 3 :: t) d = .ok (3 :: 3 :: t) := by
  unfold areaStress
  rw [detFOf_ok hd, ok_bind]
  rw [einsum_buf (b := 3 :: 3 :: t) (r := [3, 3] ++ t) (einsum_ok ?_ ?_ ?_) rfl (fits_self _), ok_bind]
  · exact fits_right (fits_short [3, 3] (fits_self t))
  · simp [check_ok]
  · rfl
  · exact foldl2 t t (bcast_self t)

/-- `F @ stress` with the stress broadcast before. -/
theorem piolaStress_force (cfg : SpaceCfg) (hfin : cfg.finalize = true) (hforce : cfg.force = none)
    (hu : Sub t u) {d : Option Shape} (hd : ∀ x, d = some x → x = t) :
    piolaStress cfg (3 :: 3 :: t) (6 :: u) d = .ok (3 :: 3 :: t) := by
  unfold piolaStress
  rw [if_pos hfin, astensor_ok, ok_bind, hforce]
  simp only [Option.isNone_none, if_true]
  rw [forceStress_ok hu, ok_bind]
  split_ifs
  · exact areaStress_ok hd
  · rfl

/-- With a full stress every configuration succeeds. -/
theorem piolaStress_full (cfg : SpaceCfg) (hfin : cfg.finalize = true)
    {d : Option Shape} (hd : ∀ x, d = some x → x = t) :
    piolaStress cfg (3 :: 3 :: t) (6 :: t) d = .ok (3 :: 3 :: t) := by
  unfold piolaStress
  rw [if_pos hfin, astensor_ok, ok_bind]
  have : (if cfg.force.isNone = true then forceStress (3 :: 3 :: t) (3 :: 3 :: t)
      else .ok (3 :: 3 :: t)) = .ok (3 :: 3 :: t) := by
    split_ifs
    · exact forceStress_ok (Sub.refl t)
    · rfl
  rw [this, ok_bind]
  split_ifs
  · exact areaStress_ok hd
  · rfl

theorem areaElasticity_ok {d : Option Shape} (hd : ∀ x, d = some x → x = t) :
    areaElasticity (3 :: 3 :: t) (3 :: 3 :: 3 :: 3 :: t) d = .ok (3 :: 3 :: 3 :: 3 :: t) := by
  unfold areaElasticity
  rw [detFOf_ok hd, ok_bind]
  rw [einsum_buf (b := 3 :: 3 :: 3 :: 3 :: t) (r := [3, 3, 3, 3] ++ t) (einsum_ok ?_ ?_ ?_) rfl (fits_self _), ok_bind]
  · exact fits_right (fits_short [3, 3, 3, 3] (fits_self t))
  · simp [check_ok]
  · rfl
  · exact foldl3 t t t (bcast_self t) (bcast_self t)

theorem forceElasticity_ok (hu : Sub t u) (hv : Sub t v) (hu0 : u.prod ≠ 0) :
    forceElasticity (3 :: 3 :: t) (6 :: u) (3 :: 3 :: 3 :: 3 :: v) = .ok (3 :: 3 :: 3 :: 3 :: t) := by
  have f4 : Fits (3 :: 3 :: 3 :: 3 :: v) (3 :: 3 :: 3 :: 3 :: t) :=
    fits_lead (l := [3, 3, 3, 3]) (k := [3, 3, 3, 3]) (fits_self _) hv.1 hv.2
  have e2 : widen (3 :: 3 :: 3 :: 3 :: t) (3 :: 3 :: 3 :: 3 :: v) = .ok (3 :: 3 :: 3 :: 3 :: t) :=
    widen_ok [3, 3, 3, 3] (by simp) hv
  have e4 : cdya_ik (eye (6 :: u)) (6 :: u) = .ok (3 :: 3 :: 3 :: 3 :: u) :=
    cdya_ik_ok (by simp) hu0 (by simp) (fits_ones u)
  unfold forceElasticity
  rw [fits_right f4, ok_bind, e2, ok_bind]
  rw [einsum_buf (b := 3 :: 3 :: 3 :: 3 :: t) (r := [3, 3, 3, 3] ++ t) (einsum_ok ?_ ?_ ?_) rfl (fits_self _), ok_bind, e4,
    ok_bind,
    inplace_ok (a := 3 :: 3 :: 3 :: 3 :: t) (b := 3 :: 3 :: 3 :: 3 :: u) (fits_lead (l := [3, 3, 3, 3]) (k := [3, 3, 3, 3]) (fits_self _) hu.1 hu.2)]
  · simp [check_ok]
  · rfl
  · exact foldl3 t t t (bcast_self t) (bcast_self t)

/-- Forces in the deformed configuration. -/
theorem piolaElasticity_force (cfg : SpaceCfg) (hfin : cfg.finalize = true)
    (hforce : cfg.force = none) (hu : Sub t u) (hv : Sub t v) (hu0 : u.prod ≠ 0)
    {d i : Option Shape} (hd : ∀ x, d = some x → x = t) :
    piolaElasticity cfg (3 :: 3 :: t) (6 :: u) d (6 :: 6 :: v) i = .ok (3 :: 3 :: 3 :: 3 :: t) := by
  unfold piolaElasticity
  rw [if_pos hfin, astensor4_ok, ok_bind, hforce]
  simp only [Option.isNone_none, if_true]
  rw [forceElasticity_ok hu hv hu0, ok_bind]
  split_ifs
  · exact areaElasticity_ok hd
  · rfl

/-- A full elasticity tensor: every configuration succeeds. -/
theorem piolaElasticity_full (cfg : SpaceCfg) (hfin : cfg.finalize = true)
    (hu : Sub t u) (ht : t.prod ≠ 0)
    {d i : Option Shape} (hd : ∀ x, d = some x → x = t) (hi : ∀ x, i = some x → x = 6 :: t) :
    piolaElasticity cfg (3 :: 3 :: t) (6 :: u) d (6 :: 6 :: t) i = .ok (3 :: 3 :: 3 :: 3 :: t) := by
  have hu0 := prod_ne_zero_of_sub hu ht
  have e : (if cfg.force.isNone = true then
        forceElasticity (3 :: 3 :: t) (6 :: u) (3 :: 3 :: 3 :: 3 :: t)
      else referenceElasticity (3 :: 3 :: t) (6 :: u) (3 :: 3 :: 3 :: 3 :: t) i) =
      .ok (3 :: 3 :: 3 :: 3 :: t) := by
    split_ifs
    · exact forceElasticity_ok hu (Sub.refl t) hu0
    · unfold referenceElasticity
      rw [invCOf_ok hi, ok_bind, cdya_ik_ok ht hu0 hu.2.symm (fits_right hu.1), ok_bind,
        inplace_ok (fits_self _)]
  unfold piolaElasticity
  rw [if_pos hfin, astensor4_ok, ok_bind, e, ok_bind]
  split_ifs
  · exact areaElasticity_ok hd
  · rfl

/-! ### Spaces -/

/-- What a space needs from its material at trailing axes `t`: the results have as many
trailing axes, each full or of length one. -/
structure MatOk (t : Shape) (mat : Mat) (u v : Shape) : Prop where
  gradient : mat.gradient (6 :: t) = .ok (6 :: u)
  hessian : mat.hessian (6 :: t) = .ok (6 :: 6 :: v)
  subG : Sub t u
  subH : Sub t v

theorem def_gradientS {mat : Mat} {cfg : SpaceCfg} (hg : mat.gradient (6 :: t) = .ok (6 :: u))
    {P : Shape} (hp : piolaStress cfg (3 :: 3 :: t) (6 :: u) none = .ok P) :
    Deformation.gradientS cfg mat (3 :: 3 :: t) = .ok (P, 6 :: u) := by
  unfold Deformation.gradientS
  rw [rcg_ok, ok_bind, hg, ok_bind, bcast_nil, ok_bind, hp, ok_bind]

theorem def_gradientS_error {mat : Mat} {cfg : SpaceCfg} {e : PyErr}
    (hg : mat.gradient (6 :: t) = .ok (6 :: u))
    (hp : piolaStress cfg (3 :: 3 :: t) (6 :: u) none = .error e) :
    Deformation.gradientS cfg mat (3 :: 3 :: t) = .error e := by
  unfold Deformation.gradientS
  rw [rcg_ok, ok_bind, hg, ok_bind, bcast_nil, ok_bind, hp, error_bind]

theorem def_hessian_eq {mat : Mat} {cfg : SpaceCfg} (hg : mat.gradient (6 :: t) = .ok (6 :: u))
    (hh : mat.hessian (6 :: t) = .ok (6 :: 6 :: v))
    {P : Shape} (hp : piolaStress cfg (3 :: 3 :: t) (6 :: u) none = .ok P) :
    Deformation.hessian cfg mat (3 :: 3 :: t) =
      piolaElasticity cfg (3 :: 3 :: t) (6 :: u) none (6 :: 6 :: v) none := by
  unfold Deformation.hessian
  rw [def_gradientS hg hp, ok_bind, rcg_ok, ok_bind, hh, ok_bind, bcast_nil, ok_bind]

theorem dist_run {mat : Mat} {cfg : SpaceCfg} (hfin : cfg.finalize = true)
    (hg : mat.gradient (6 :: t) = .ok (6 :: u)) (hu : Sub t u) :
    Distortional.run cfg mat (3 :: 3 :: t) =
      .ok ⟨6 :: t, t, 6 :: t, 6 :: t, t, 6 :: t, 6 :: t, 3 :: 3 :: t⟩ := by
  have e1 : bcast t (6 :: t) = .ok (6 :: t) := fits_short [6] (fits_self t)
  have e2 : bcast t (6 :: u) = .ok (6 :: t) :=
    bcast_lead [6] (by rw [hu.2]) (fits_right hu.1)
  unfold Distortional.run
  rw [rcg_ok, ok_bind, show det (6 :: t) = .ok t from rfl, ok_bind, e1, ok_bind, hg, ok_bind, e2,
    ok_bind, ddot_ok (fits_self t), ok_bind, inv_ok, ok_bind, e1, ok_bind, bcast_self, ok_bind,
    piolaStress_full cfg hfin (by rintro x ⟨⟩; rfl), ok_bind]

theorem dist_hessian {mat : Mat} {cfg : SpaceCfg} (hfin : cfg.finalize = true)
    (h : MatOk t mat u v) (ht : t.prod ≠ 0) (small : Bool) :
    Distortional.hessian cfg mat small (3 :: 3 :: t) = .ok (3 :: 3 :: 3 :: 3 :: t) := by
  have e1 : bcast t (6 :: 6 :: t) = .ok (6 :: 6 :: t) := fits_short [6, 6] (fits_self t)
  have e2 : bcast t (6 :: 6 :: v) = .ok (6 :: 6 :: t) :=
    bcast_lead [6, 6] (by rw [h.subH.2]) (fits_right h.subH.1)
  have e3 : dya (6 :: t) (6 :: t) = .ok (6 :: 6 :: t) := dya_ok ht ht rfl (bcast_self t)
  have e4 : cdya (6 :: t) (6 :: t) = .ok (6 :: 6 :: t) := cdya_ok rfl (bcast_self t)
  have e5 : cdya (eye (6 :: t)) (eye (6 :: t)) = .ok (6 :: 6 :: t.map fun _ => 1) :=
    cdya_ok rfl (bcast_self _)
  have e6 : bcast (6 :: 6 :: t.map fun _ => 1) (6 :: 6 :: t) = .ok (6 :: 6 :: t) :=
    fits_lead (l := [6, 6]) (k := [6, 6]) (fits_self _) (fits_ones t) (by simp)
  have e7 : Distortional.addProjected small (6 :: 6 :: t) (6 :: 6 :: t) (6 :: 6 :: t) =
      .ok (6 :: 6 :: t) := by
    unfold Distortional.addProjected
    split_ifs
    · rfl
    · rw [ddot44_ok (bcast_self t), ok_bind, transpose_ok, ok_bind, ddot44_ok (bcast_self t),
        ok_bind, inplace_ok (fits_self _)]
  unfold Distortional.hessian
  simp only [dist_run hfin h.gradient h.subG, ok_bind, h.hessian, e1, e2, e3, e4, e5, e6,
    transpose_ok, bcast_self, e7]
  exact piolaElasticity_full cfg hfin (Sub.refl t) ht (by rintro x ⟨⟩; rfl) (by rintro x ⟨⟩; rfl)

theorem dil_run {mat : Mat} {cfg : SpaceCfg} (hfin : cfg.finalize = true)
    (hg : mat.gradient (6 :: t) = .ok (6 :: u)) (hu : Sub t u) :
    Dilatational.run cfg mat (3 :: 3 :: t) =
      .ok ⟨6 :: t, t, 6 :: t, t, 6 :: t, 6 :: t, 3 :: 3 :: t⟩ := by
  have e1 : bcast t (6 :: t) = .ok (6 :: t) := fits_short [6] (fits_self t)
  have e2 : bcast t (6 :: u) = .ok (6 :: t) :=
    bcast_lead [6] (by rw [hu.2]) (fits_right hu.1)
  unfold Dilatational.run
  rw [rcg_ok, ok_bind, show det (6 :: t) = .ok t from rfl, ok_bind, e1, ok_bind, hg, ok_bind, e2,
    ok_bind, show trace (6 :: t) = .ok t from rfl, ok_bind, inv_ok, ok_bind, e1, ok_bind,
    piolaStress_full cfg hfin (by rintro x ⟨⟩; rfl), ok_bind]

theorem dil_hessian {mat : Mat} {cfg : SpaceCfg} (hfin : cfg.finalize = true)
    (h : MatOk t mat u v) (ht : t.prod ≠ 0) :
    Dilatational.hessian cfg mat (3 :: 3 :: t) = .ok (3 :: 3 :: 3 :: 3 :: t) := by
  have e1 : bcast t (6 :: 6 :: t) = .ok (6 :: 6 :: t) := fits_short [6, 6] (fits_self t)
  have e2 : bcast t (6 :: 6 :: v) = .ok (6 :: 6 :: t) :=
    bcast_lead [6, 6] (by rw [h.subH.2]) (fits_right h.subH.1)
  have e3 : dya (6 :: t) (6 :: t) = .ok (6 :: 6 :: t) := dya_ok ht ht rfl (bcast_self t)
  have e4 : cdya (6 :: t) (6 :: t) = .ok (6 :: 6 :: t) := cdya_ok rfl (bcast_self t)
  have e5 : ddot24 (eye (6 :: t)) (6 :: 6 :: t) = .ok (6 :: t) := ddot24_ok (fits_ones t)
  have e6 : ddot (6 :: t) (eye (6 :: t)) = .ok t := ddot_ok' (fits_right (fits_ones t))
  unfold Dilatational.hessian
  simp only [dil_run hfin h.gradient h.subG, ok_bind, h.hessian, e1, e2, e3, e4, e5, e6, bcast_self]
  exact piolaElasticity_full cfg hfin (Sub.refl t) ht (by rintro x ⟨⟩; rfl) (by rintro x ⟨⟩; rfl)

/-! ### Where the deformation space fails -/

/-- `F @ stress` is not attempted: the trailing axes of a small stress stay small, and the
area transformation cannot be written into it. -/
theorem piolaStress_reference (cfg : SpaceCfg) (hfin : cfg.finalize = true) {f : ℤ}
    (hf : cfg.force = some f) {a : ℤ} (ha : cfg.area = some a) :
    piolaStress cfg (3 :: 3 :: t) (6 :: u) none = .ok (3 :: 3 :: u) := by
  unfold piolaStress
  rw [if_pos hfin, astensor_ok, ok_bind, hf, ha]
  rfl

theorem piolaStress_reference_area (cfg : SpaceCfg) (hfin : cfg.finalize = true) {f : ℤ}
    (hf : cfg.force = some f) (ha : cfg.area = none) (hu : Sub t u) (hne : u ≠ t) :
    piolaStress cfg (3 :: 3 :: t) (6 :: u) none = .error .valueError := by
  unfold piolaStress
  rw [if_pos hfin, astensor_ok, ok_bind, hf, ha]
  simp only [Option.isNone_some, Bool.false_eq_true, if_false, ok_bind, Option.isNone_none, if_true]
  unfold areaStress
  rw [detFOf_ok (by simp), ok_bind]
  rw [einsum_buf_error (b := 3 :: 3 :: u) (r := [3, 3] ++ t) (einsum_ok ?_ ?_ ?_), error_bind]
  · intro h
    have h1 : bcast (3 :: 3 :: t) (3 :: 3 :: u) = .ok (3 :: 3 :: u) := h
    have h2 : bcast (3 :: 3 :: t) (3 :: 3 :: u) = .ok (3 :: 3 :: t) :=
      fits_right (fits_lead (l := [3, 3]) (k := [3, 3]) (fits_self _) hu.1 hu.2)
    rw [h1] at h2
    simp at h2
    exact hne h2
  · simp [check_ok]
  · rfl
  · exact foldl2 t u (fits_right hu.1)

theorem piolaElasticity_reference (cfg : SpaceCfg) (hfin : cfg.finalize = true) {f : ℤ}
    (hf : cfg.force = some f) (hu : Sub t u) (hv : Sub t v) (hne : v ≠ t) :
    piolaElasticity cfg (3 :: 3 :: t) (6 :: u) none (6 :: 6 :: v) none = .error .valueError := by
  unfold piolaElasticity
  rw [if_pos hfin, astensor4_ok, ok_bind, hf]
  simp only [Option.isNone_some, Bool.false_eq_true, if_false]
  unfold referenceElasticity
  rw [invCOf_ok (by simp), ok_bind]
  by_cases ht : t.prod = 0
  · have : cdya_ik (6 :: t) (6 :: u) = .error .valueError := by
      simp [cdya_ik, dya, reshapeDya, ht, bind, Except.bind]
    rw [this, error_bind, error_bind]
  · rw [cdya_ik_ok ht (prod_ne_zero_of_sub hu ht) hu.2.symm (fits_right hu.1), ok_bind,
      inplace_error, error_bind]
    intro h
    have h1 : bcast (3 :: 3 :: 3 :: 3 :: t) (3 :: 3 :: 3 :: 3 :: v) = .ok (3 :: 3 :: 3 :: 3 :: v) := h
    have h2 : bcast (3 :: 3 :: 3 :: 3 :: t) (3 :: 3 :: 3 :: 3 :: v) = .ok (3 :: 3 :: 3 :: 3 :: t) :=
      fits_right (fits_lead (l := [3, 3, 3, 3]) (k := [3, 3, 3, 3]) (fits_self _) hv.1 hv.2)
    rw [h1] at h2
    simp at h2
    exact hne h2

end Hel.Sh
