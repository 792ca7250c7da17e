import Verif.Lemmas.Elastic

/-! # Collisions with the atoms of a gas, averaged over the numbers -/

namespace Minimc

open Classical MeasureTheory Spec Set
open scoped ENNReal

variable {α : Type*} [MeasurableSpace α]

/-! ### Measurability -/

@[fun_prop]
theorem _root_.Measurable.directed {v : α → Point} (hv : Measurable v) :
    Measurable fun z => Spec.directed (v z) := by
  unfold Spec.directed
  exact Measurable.ite (measurableSet_eq_fun (by fun_prop) measurable_const) measurable_const (by fun_prop)

@[fun_prop]
theorem _root_.Measurable.tilted_of {a b d : α → Point} {c u : α → ℝ} (ha : Measurable a)
    (hb : Measurable b) (hd : Measurable d) (hc : Measurable c) (hu : Measurable u) :
    Measurable fun z => Spec.tilted (a z) (b z) (d z) (c z) (u z) := by
  refine measurable_point ?_ ?_ ?_ <;> (unfold Spec.tilted; fun_prop)

@[fun_prop]
theorem _root_.Measurable.cosAngle_of {v w : α → Point} (hv : Measurable v) (hw : Measurable w) :
    Measurable fun z => Spec.cosAngle (v z) (w z) := by
  unfold Spec.cosAngle
  fun_prop

/-- Frames about all directions. -/
structure Frames (a b : Direction → Direction) : Prop where
  first : Measurable a
  second : Measurable b
  frame : ∀ d, UnitVec d → Frame (a d) (b d) d

theorem measurable_departure {a b : Direction → Direction} (h : Frames a b) (A m : ℝ) (d : Direction)
    (speed : ℝ) : Measurable fun q : (ℝ × ℝ) × (ℕ → ℝ) =>
      departure a b A m d speed q.1.1 q.1.2 q.2 := by
  have ha := h.first
  have hb := h.second
  unfold departure
  fun_prop

/-! ### Vectors -/

theorem directed_unit (v : Point) : UnitVec (directed v) := by
  unfold directed
  split_ifs with h
  · unfold UnitVec; norm_num
  · have hp : 0 < normSq v := lt_of_le_of_ne (normSq_nonneg v) (Ne.symm h)
    have hs := Real.sq_sqrt hp.le
    have hs0 := Real.sqrt_pos.2 hp
    unfold UnitVec combine
    simp only [zero_mul, add_zero]
    have : (1 / Real.sqrt (normSq v) * v.x) ^ 2 + (1 / Real.sqrt (normSq v) * v.y) ^ 2 +
        (1 / Real.sqrt (normSq v) * v.z) ^ 2 = normSq v / Real.sqrt (normSq v) ^ 2 := by
      unfold normSq
      field_simp
    rw [this, hs, div_self hp.ne']

theorem normSq_turned {w : Point} (hw : UnitVec w) (t : ℝ) (x : Point) :
    normSq (turned w t x) = normSq x := by
  have h := Real.cos_sq_add_sin_sq t
  unfold UnitVec at hw
  unfold normSq turned cosAngle
  generalize Real.cos t = c at *
  generalize Real.sin t = s at *
  simp only
  linear_combination ((x.x ^ 2 + x.y ^ 2 + x.z ^ 2) * s ^ 2 +
    (w.x * x.x + w.y * x.y + w.z * x.z) ^ 2 * (1 - c) ^ 2) * hw +
    ((x.x ^ 2 + x.y ^ 2 + x.z ^ 2) - (w.x * x.x + w.y * x.y + w.z * x.z) ^ 2) * h

theorem turned_combine (w : Point) (t p q : ℝ) (x y : Point) :
    turned w t (combine p x q y) = combine p (turned w t x) q (turned w t y) := by
  unfold turned combine cosAngle
  ext <;> simp only <;> ring

theorem turned_self {w : Point} (hw : UnitVec w) (t : ℝ) : turned w t w = w := by
  unfold UnitVec at hw
  unfold turned cosAngle
  ext
  · simp only; linear_combination (w.x * (1 - Real.cos t)) * hw
  · simp only; linear_combination (w.y * (1 - Real.cos t)) * hw
  · simp only; linear_combination (w.z * (1 - Real.cos t)) * hw

theorem turned_struck {w : Point} (hw : UnitVec w) (t A : ℝ) (v V n : Point) :
    turned w t (struck A v V n) = struck A (turned w t v) (turned w t V) (turned w t n) := by
  unfold struck
  have e : combine 1 (turned w t v) (-1) (turned w t V) = turned w t (combine 1 v (-1) V) :=
    (turned_combine _ _ _ _ _ _).symm
  rw [e, normSq_turned hw, turned_combine, turned_combine]

theorem turned_directed {w : Point} (hw : UnitVec w) (t : ℝ) {x : Point} (hx : normSq x ≠ 0) :
    directed (turned w t x) = turned w t (directed x) := by
  unfold directed
  rw [normSq_turned hw, if_neg hx, if_neg hx, turned_combine]

theorem turned_first {a b d : Direction} (h : Frame a b d) (t : ℝ) :
    turned d t a = combine (Real.cos t) a (Real.sin t) b := by
  have h1 := h.across
  have h2 := h.hand
  unfold cosAngle at h1
  unfold turned combine cosAngle
  rw [h2]
  ext
  · simp only; linear_combination (d.x * (1 - Real.cos t)) * h1
  · simp only; linear_combination (d.y * (1 - Real.cos t)) * h1
  · simp only; linear_combination (d.z * (1 - Real.cos t)) * h1

theorem turned_second {a b d : Direction} (hd : UnitVec d) (h : Frame a b d) (t : ℝ) :
    turned d t b = combine (Real.cos t) b (-Real.sin t) a := by
  have h1 := h.across
  have h2 := h.hand
  have h3 := h.across'
  unfold cosAngle at h1 h3
  unfold UnitVec at hd
  unfold turned combine cosAngle
  rw [h3]
  rw [h2]
  ext
  · simp only; linear_combination (Real.sin t * d.x) * h1 - (Real.sin t * a.x) * hd
  · simp only; linear_combination (Real.sin t * d.y) * h1 - (Real.sin t * a.y) * hd
  · simp only; linear_combination (Real.sin t * d.z) * h1 - (Real.sin t * a.z) * hd

theorem tilted_eq_combine (a b d : Direction) (c u : ℝ) :
    tilted a b d c u = combine (Real.sqrt (1 - c ^ 2))
      (combine (Real.cos (2 * Real.pi * u)) a (Real.sin (2 * Real.pi * u)) b) c d := by
  unfold tilted combine
  rfl

theorem turned_tilted {a b d : Direction} (hd : UnitVec d) (h : Frame a b d) (c t u : ℝ) :
    turned d (2 * Real.pi * u) (tilted a b d c t) = tilted a b d c (u + t) := by
  rw [tilted_eq_combine, tilted_eq_combine, turned_combine, turned_combine, turned_self hd,
    turned_first h, turned_second hd h, mul_add, Real.cos_add, Real.sin_add]
  unfold combine
  ext <;> simp only <;> ring

theorem normSq_inFrame {a b d : Direction} (hd : UnitVec d) (h : Frame a b d) (x : Point) :
    normSq (inFrame a b d x) = normSq x ∧ cosAngle d (inFrame a b d x) = x.x := by
  have h1 := h.first
  have h2 := h.second
  have h3 := h.across
  have h4 := h.across'
  have h5 := h.apart
  unfold UnitVec at hd h1 h2
  unfold cosAngle at h3 h4 h5
  unfold normSq cosAngle inFrame
  constructor
  · simp only
    linear_combination x.x ^ 2 * hd + x.y ^ 2 * h1 + x.z ^ 2 * h2 + 2 * x.x * x.y * h3 +
      2 * x.x * x.z * h4 + 2 * x.y * x.z * h5
  · simp only
    linear_combination x.x * hd + x.y * h3 + x.z * h4

/-- Every direction is at some angle from the axis and some turn about it. -/
theorem exists_tilted {a b d : Direction} (hd : UnitVec d) (h : Frame a b d) {n : Direction}
    (hn : UnitVec n) : ∃ t, n = tilted a b d (cosAngle d n) t := by
  obtain ⟨t₁, t₂, t₃, e⟩ := inFrame_eq_turned hd h
  have hx := e (turned ⟨1, 0, 0⟩ (-t₁) (turned ⟨0, 0, 1⟩ (-t₂) (turned ⟨1, 0, 0⟩ (-t₃) n)))
  rw [turned_back_x, turned_back_z, turned_back_x] at hx
  generalize turned ⟨1, 0, 0⟩ (-t₁) (turned ⟨0, 0, 1⟩ (-t₂) (turned ⟨1, 0, 0⟩ (-t₃) n)) = x at hx
  obtain ⟨h1, h2⟩ := normSq_inFrame hd h x
  rw [hx] at h1 h2
  rw [normSq_unit hn] at h1
  have hp := Real.pi_pos
  have hnorm : ‖(⟨x.y, x.z⟩ : ℂ)‖ = Real.sqrt (1 - x.x ^ 2) := by
    rw [Complex.norm_def]
    congr 1
    simp only [Complex.normSq_mk]
    unfold normSq at h1
    linarith
  refine ⟨(⟨x.y, x.z⟩ : ℂ).arg / (2 * Real.pi), ?_⟩
  have hc := Complex.norm_mul_cos_arg (⟨x.y, x.z⟩ : ℂ)
  have hs := Complex.norm_mul_sin_arg (⟨x.y, x.z⟩ : ℂ)
  rw [hnorm] at hc hs
  simp only at hc hs
  rw [h2, tilted_eq_combine, mul_div_cancel₀ _ (by positivity)]
  conv_lhs => rw [← hx]
  unfold inFrame combine
  ext
  · simp only; linear_combination -a.x * hc - b.x * hs
  · simp only; linear_combination -a.y * hc - b.y * hs
  · simp only; linear_combination -a.z * hc - b.z * hs

/-- A whole turn may start anywhere. -/
theorem lintegral_turn (g : ℝ → ℝ → ℝ≥0∞) (t : ℝ) :
    ∫⁻ u, g (Real.cos (2 * Real.pi * (u + t))) (Real.sin (2 * Real.pi * (u + t))) ∂uniform =
      ∫⁻ u, g (Real.cos (2 * Real.pi * u)) (Real.sin (2 * Real.pi * u)) ∂uniform := by
  have hp := Real.pi_pos
  have h1 := lintegral_scale (c := 2 * Real.pi) (by positivity) fun φ =>
    g (Real.cos (φ + 2 * Real.pi * t)) (Real.sin (φ + 2 * Real.pi * t))
  have h2 := lintegral_scale (c := 2 * Real.pi) (by positivity) fun φ => g (Real.cos φ) (Real.sin φ)
  simp only [mul_add]
  rw [h1, h2]
  congr 1
  exact lintegral_periodic (h := fun φ => g (Real.cos φ) (Real.sin φ)) (fun φ => by simp) _

/-- What is kept of a velocity: its direction and energy. -/
noncomputable def kept (m : ℝ) (F : Direction × ℝ → ℝ≥0∞) (x : Point) : ℝ≥0∞ :=
  F (directed x, m * normSq x / 2)

theorem measurable_kept (m : ℝ) {F : Direction × ℝ → ℝ≥0∞} (hF : Measurable F) :
    Measurable (kept m F) := by
  unfold kept
  exact hF.comp (by fun_prop)

/-- The final turn of the neutron about its old direction. -/
noncomputable def spun (a b d : Direction) (m : ℝ) (F : Direction × ℝ → ℝ≥0∞) (x : Point) : ℝ≥0∞ :=
  ∫⁻ u, F (tilted a b d (cosAngle d (directed x)) u, m * normSq x / 2) ∂uniform

theorem measurable_spun (a b d : Direction) (m : ℝ) {F : Direction × ℝ → ℝ≥0∞} (hF : Measurable F) :
    Measurable (spun a b d m F) := by
  unfold spun
  exact Measurable.lintegral_prod_right' (f := fun q : Point × ℝ =>
    F (tilted a b d (cosAngle d (directed q.1)) q.2, m * normSq q.1 / 2)) (hF.comp (by fun_prop))

theorem spun_eq {a b d : Direction} (hd : UnitVec d) (h : Frame a b d) (m : ℝ)
    {F : Direction × ℝ → ℝ≥0∞} (h0 : ∀ n n', F (n, 0) = F (n', 0)) (x : Point) :
    spun a b d m F x = ∫⁻ u, kept m F (turned d (2 * Real.pi * u) x) ∂uniform := by
  unfold spun kept
  simp only [normSq_turned hd]
  by_cases hx : normSq x = 0
  · rw [hx]
    refine lintegral_congr fun u => ?_
    rw [mul_zero, zero_div]
    exact h0 _ _
  · simp only [turned_directed hd _ hx]
    obtain ⟨t, ht⟩ := exists_tilted hd h (directed_unit x)
    set c := cosAngle d (directed x)
    rw [ht]
    simp only [turned_tilted hd h]
    exact (lintegral_turn (fun p q => F (combine (Real.sqrt (1 - c ^ 2)) (combine p a q b) c d,
      m * normSq x / 2)) t).symm

/-- The final turn makes no difference, since the atoms are met from all sides. -/
theorem lintegral_spun {a b d : Direction} (hd : UnitVec d) (h : Frame a b d) (A m v : ℝ)
    {F : Direction × ℝ → ℝ≥0∞} (hF : Measurable F) (h0 : ∀ n n', F (n, 0) = F (n', 0))
    {w : ℝ → ℝ → ℝ≥0∞} (hw : Measurable fun q : ℝ × ℝ => w q.1 q.2) :
    ∫⁻ V, w (normSq V) (normSq (combine 1 (combine v d 0 d) (-1) V)) *
        sphereMean (fun n => spun a b d m F (struck A (combine v d 0 d) V n)) ∂spaceVolume =
      ∫⁻ V, w (normSq V) (normSq (combine 1 (combine v d 0 d) (-1) V)) *
        sphereMean (fun n => kept m F (struck A (combine v d 0 d) V n)) ∂spaceVolume := by
  set vd := combine v d 0 d with hvd
  have hk := measurable_kept m hF
  have hvt : ∀ t, turned d t vd = vd := fun t => by rw [hvd, turned_combine, turned_self hd]
  have hsph : ∀ V u, (sphereMean fun n => kept m F (turned d (2 * Real.pi * u) (struck A vd V n))) =
      sphereMean fun n => kept m F (struck A vd (turned d (2 * Real.pi * u) V) n) := by
    intro V u
    rw [← sphereMean_turned hd (2 * Real.pi * u)
      (F := fun n => kept m F (struck A vd (turned d (2 * Real.pi * u) V) n)) (hk.comp (by fun_prop))]
    simp only [turned_struck hd, hvt]
  have hmS : Measurable fun V => sphereMean fun n => kept m F (struck A vd V n) := by
    have e : ∀ V, (sphereMean fun n => kept m F (struck A vd V n)) =
        ∫⁻ n, kept m F (struck A vd V n) ∂sphereLaw := fun V =>
      (lintegral_sphereLaw (hk.comp (by fun_prop))).symm
    simp only [e]
    exact Measurable.lintegral_prod_right' (f := fun q : Point × Point =>
      kept m F (struck A vd q.1 q.2)) (hk.comp (by fun_prop))
  have hmW : Measurable fun V => w (normSq V) (normSq (combine 1 vd (-1) V)) :=
    hw.comp (f := fun V => (normSq V, normSq (combine 1 vd (-1) V))) (by fun_prop)
  have h1 : ∀ V, (sphereMean fun n => spun a b d m F (struck A vd V n)) =
      ∫⁻ u, sphereMean (fun n => kept m F (struck A vd (turned d (2 * Real.pi * u) V) n)) ∂uniform := by
    intro V
    rw [← lintegral_sphereLaw (F := fun n => spun a b d m F (struck A vd V n))
      ((measurable_spun a b d m hF).comp (by fun_prop))]
    simp only [spun_eq hd h m h0]
    rw [lintegral_lintegral_swap]
    · refine lintegral_congr fun u => ?_
      rw [← hsph, lintegral_sphereLaw]
      exact hk.comp ((Measurable.struck A measurable_const measurable_const measurable_id).turned _
        measurable_const)
    · refine Measurable.aemeasurable (hk.comp (Measurable.turned (a := fun q : Direction × ℝ =>
        2 * Real.pi * q.2) (f := fun q : Direction × ℝ => struck A vd V q.1) d (by fun_prop)
        (by fun_prop)))
  simp only [h1]
  have hmT : Measurable fun q : Point × ℝ =>
      sphereMean fun n => kept m F (struck A vd (turned d (2 * Real.pi * q.2) q.1) n) :=
    hmS.comp (Measurable.turned (a := fun q : Point × ℝ => 2 * Real.pi * q.2) (f := Prod.fst) d
      measurable_fst (by fun_prop))
  have h2 : ∀ V, w (normSq V) (normSq (combine 1 vd (-1) V)) *
      ∫⁻ u, sphereMean (fun n => kept m F (struck A vd (turned d (2 * Real.pi * u) V) n)) ∂uniform =
      ∫⁻ u, w (normSq V) (normSq (combine 1 vd (-1) V)) *
        sphereMean (fun n => kept m F (struck A vd (turned d (2 * Real.pi * u) V) n)) ∂uniform := by
    intro V
    exact (lintegral_const_mul _ (hmT.comp (measurable_prodMk_left (x := V)))).symm
  simp only [h2]
  rw [lintegral_lintegral_swap]
  · have h3 : ∀ u : ℝ, ∫⁻ V, w (normSq V) (normSq (combine 1 vd (-1) V)) *
        sphereMean (fun n => kept m F (struck A vd (turned d (2 * Real.pi * u) V) n)) ∂spaceVolume =
        ∫⁻ V, w (normSq V) (normSq (combine 1 vd (-1) V)) *
        sphereMean (fun n => kept m F (struck A vd V n)) ∂spaceVolume := by
      intro u
      rw [← lintegral_turned hd (2 * Real.pi * u) (F := fun V =>
        w (normSq V) (normSq (combine 1 vd (-1) V)) *
        sphereMean (fun n => kept m F (struck A vd V n))) (hmW.mul hmS)]
      refine lintegral_congr fun V => ?_
      rw [normSq_turned hd]
      have e : combine 1 vd (-1) (turned d (2 * Real.pi * u) V) =
          turned d (2 * Real.pi * u) (combine 1 vd (-1) V) := by
        rw [turned_combine, hvt]
      rw [e, normSq_turned hd]
    simp only [h3]
    rw [lintegral_const, measure_univ, mul_one]
  · exact Measurable.aemeasurable ((hmW.comp measurable_fst).mul hmT)

end Minimc
