import Verif.Props.RoundedCylinder

/-!
# Flights almost parallel to the axis of a cylinder, in double precision
-/

namespace Minimc.Props

open Minimc

variable {rnd : ℝ → ℝ}

/-- A power of two is a double. -/
theorem isDouble_half_pow (n : ℕ) : IsDouble (1 / 2 ^ n : ℝ) :=
  ⟨1, -n, by norm_num, by rw [zpow_neg, zpow_natCast]; norm_num⟩

/-- A flight whose direction has one as first component, from inside towards the axis. -/
theorem grazing_unseen (h : Nearest rnd) :
    Rounded.distance rnd (.cylinderX 1) ⟨0, -(1 / 2), 0⟩ ⟨1, 1 / 2 ^ 30, 0⟩ = ⊤ := by
  have z := h.zero
  have o := h.one
  have q : rnd (1 / 4) = 1 / 4 := h.self (by have := isDouble_half_pow 2; norm_num at this ⊢; exact this)
  have a31 : rnd (-(1 / 2 ^ 31)) = -(1 / 2 ^ 31) := h.self (isDouble_half_pow 31).neg
  have a30 : rnd (-(1 / 2 ^ 30)) = -(1 / 2 ^ 30) := h.self (isDouble_half_pow 30).neg
  have a60 : rnd (1 / 2 ^ 60) = 1 / 2 ^ 60 := h.self (isDouble_half_pow 60)
  have b30 : rnd (1 / 2 ^ 30) = 1 / 2 ^ 30 := h.self (isDouble_half_pow 30)
  have b29 : rnd (1 / 2 ^ 29) = 1 / 2 ^ 29 := h.self (isDouble_half_pow 29)
  have c34 : rnd (-(3 / 4)) = -(3 / 4) := h.self ⟨-3, -2, by norm_num, by norm_num⟩
  have c32 : rnd (-(3 / 2)) = -(3 / 2) := h.self ⟨-3, -1, by norm_num, by norm_num⟩
  have r : Real.sqrt (1 / 2 ^ 60) = 1 / 2 ^ 30 := by
    rw [show (1 / 2 ^ 60 : ℝ) = (1 / 2 ^ 30) ^ 2 by norm_num]
    exact Real.sqrt_sq (by norm_num)
  have hm : (-(1 / 2) * -(1 / 2) : ℝ) = 1 / 4 := by norm_num
  have hn : (-(1 / 2) * (1 / 2 ^ 30) : ℝ) = -(1 / 2 ^ 31) := by norm_num
  have hb : (2 * -(1 / 2 ^ 31) : ℝ) = -(1 / 2 ^ 30) := by norm_num
  have hc : (1 / 4 - 1 : ℝ) = -(3 / 4) := by norm_num
  have hsolve : Rounded.distance rnd (.cylinderX 1) ⟨0, -(1 / 2), 0⟩ ⟨1, 1 / 2 ^ 30, 0⟩ =
      Rounded.solveQuadratic rnd 0 (-(1 / 2 ^ 30)) (-(3 / 4)) := by
    simp only [Rounded.distance, Rounded.dot, mul_zero, mul_one, hm, hn, z, zero_add, add_zero, q, o,
      a31, sub_zero, sub_self, hb, a30, hc, c34]
  rw [hsolve]
  have hbb : (-(1 / 2 ^ 30) * -(1 / 2 ^ 30) : ℝ) = 1 / 2 ^ 60 := by norm_num
  have hl : rnd (-(3 / 2) / (1 / 2 ^ 29)) ≤ 0 := h.nonpos (by norm_num)
  have h2c : (2 * -(3 / 4) : ℝ) = -(3 / 2) := by norm_num
  have hs : (- -(1 / 2 ^ 30) + 1 / 2 ^ 30 : ℝ) = 1 / 2 ^ 29 := by norm_num
  have hneg : ¬ (-(1 / 2 ^ 30) > (0 : ℝ)) := by norm_num
  have hpos : ¬ ((1 / 2 ^ 60 : ℝ) ≤ 0) := by norm_num
  simp only [Rounded.solveQuadratic, mul_zero, zero_mul, z, sub_zero, hbb, a60, r, b30, if_neg hneg, if_neg hpos,
    h2c, c32, hs, b29, div_zero]
  rw [if_neg (not_lt.2 hl), if_neg (lt_irrefl _)]

/-- **C115** That a flight from inside a cylinder that leads out of it sees the cylinder is false with
rounding, whatever is done with ties: the vector `⟨2 ^ 30, 1, 0⟩` is normalized to a direction whose first
component is one, the other is not zero, and the cylinder is taken to be infinitely far. -/
theorem C115_violated (h : Nearest rnd) : ∃ (v p : Point) (d : Direction) (R t : ℝ),
    Rounded.normalize rnd v = .ok d ∧ 0 < d.y ∧
    Rounded.contains rnd (.cylinderX R) p = true ∧ Spec.offAxis p < R ^ 2 ∧
    0 < t ∧ R ^ 2 < Spec.offAxis (Spec.along p d t) ∧
    Rounded.distance rnd (.cylinderX R) p d = ⊤ := by
  have z := h.zero
  have o := h.one
  have d30 : IsDouble (2 ^ 30 : ℝ) := ⟨1, 30, by norm_num, by norm_num⟩
  have d60 : IsDouble (2 ^ 60 : ℝ) := ⟨1, 60, by norm_num, by norm_num⟩
  have s60 : rnd (2 ^ 60 + 1) = 2 ^ 60 := by
    have := Rounded.nearest_eq h (x := 2 ^ 60 + 1) (n := 2 ^ 52) (e := 8) (by norm_num) (by norm_num)
      (by norm_num [abs_lt])
    rw [this]
    norm_num
  have root : Real.sqrt (2 ^ 60) = 2 ^ 30 := by
    rw [show (2 : ℝ) ^ 60 = (2 ^ 30) ^ 2 by norm_num]
    exact Real.sqrt_sq (by norm_num)
  refine ⟨⟨2 ^ 30, 1, 0⟩, ⟨0, -(1 / 2), 0⟩, ⟨1, 1 / 2 ^ 30, 0⟩, 1, 2 ^ 31, ?_, by norm_num, ?_, ?_, by norm_num,
    ?_, ?_⟩
  · have hdot : Rounded.dot rnd ⟨2 ^ 30, 1, 0⟩ ⟨2 ^ 30, 1, 0⟩ = 2 ^ 60 := by
      unfold Rounded.dot
      simp only [mul_zero, mul_one, z, o]
      rw [show (2 : ℝ) ^ 30 * 2 ^ 30 = 2 ^ 60 by norm_num, h.self d60, s60, add_zero, h.self d60]
    unfold Rounded.normalize
    rw [hdot, if_neg (by norm_num), root, h.self d30]
    simp only [zero_div, z]
    rw [div_self (by norm_num), o, h.self (isDouble_half_pow 30)]
  · have q : rnd (1 / 4) = 1 / 4 := h.self (by have := isDouble_half_pow 2; norm_num at this ⊢; exact this)
    have hf : rnd (1 / 2) = 1 / 2 := h.self (by have := isDouble_half_pow 1; norm_num at this ⊢; exact this)
    have r : Real.sqrt (1 / 4) = 1 / 2 := by
      rw [show (1 / 4 : ℝ) = (1 / 2) ^ 2 by norm_num]
      exact Real.sqrt_sq (by norm_num)
    have hm : (-(1 / 2) * -(1 / 2) : ℝ) = 1 / 4 := by norm_num
    simp only [Rounded.contains, Rounded.dot, mul_zero, mul_one, hm, z, zero_add, add_zero, q, sub_zero, r, hf, o,
      decide_eq_true_eq]
    norm_num
  · norm_num [Spec.offAxis]
  · norm_num [Spec.offAxis, Spec.along]
  · exact grazing_unseen h

/-- **C115** Such a neutron collides with the material of the cylinder though it is outside of it. -/
theorem C115_flight_violated (h : Nearest rnd) (w : World) {c : Cell} {s : SurfaceObj} {sense : Bool}
    (hs : s.shape = .cylinderX 1) (hc : c.surfaceSenses = [(s, sense)]) {p : Particle} (hcell : p.cell = some c)
    (hpos : p.position = ⟨0, -(1 / 2), 0⟩) (hdir : p.direction = ⟨1, 1 / 2 ^ 30, 0⟩) :
    ∃ q, Rounded.flight rnd w p ((2 ^ 31 : ℝ) : WithTop ℝ) = .ok (true, q) ∧ q.cell = some c ∧
      q.position = ⟨2 ^ 31, 3 / 2, 0⟩ ∧ 1 < Spec.offAxis q.position := by
  have z := h.zero
  have d31 : rnd (2 ^ 31) = 2 ^ 31 := h.self ⟨1, 31, by norm_num, by norm_num⟩
  have d2 : rnd 2 = 2 := h.self (by simpa using IsDouble.nat (m := 2) (by norm_num))
  have d3 : rnd (3 / 2) = 3 / 2 := h.self ⟨3, -1, by norm_num, by norm_num⟩
  have e1 : (1 / 2 ^ 30 * 2 ^ 31 : ℝ) = 2 := by norm_num
  have e2 : (-(1 / 2) + 2 : ℝ) = 3 / 2 := by norm_num
  have hmove : Rounded.add rnd p.position (Rounded.smul rnd p.direction (2 ^ 31)) = ⟨2 ^ 31, 3 / 2, 0⟩ := by
    simp only [hpos, hdir, Rounded.add, Rounded.smul, one_mul, zero_mul, z, zero_add, d31, e1, d2, e2, d3, add_zero]
  have hnear : Rounded.nearestSurface rnd c p.position p.direction = .ok (s, ⊤) := by
    simp only [Rounded.nearestSurface, hc, Rounded.nearestFrom, hs, hpos, hdir, grazing_unseen h]
  have hget : p.getCell = .ok c := by
    simp only [Particle.getCell, hcell]
  refine ⟨{ p with position := ⟨2 ^ 31, 3 / 2, 0⟩ }, ?_, hcell, rfl, by norm_num [Spec.offAxis]⟩
  unfold Rounded.flight
  rw [hget]
  simp only [bind, Except.bind, hnear, WithTop.coe_lt_top, if_true, Rounded.stream, hmove]

/-- **C115** What holds of it: a flight sees the cylinder from inside unless its angle with the axis is less
than `2 ^ -24`. -/
theorem C115_partial (h : Nearest rnd) {p : Point} {d : Direction} {R : ℝ} (hx : IsDouble p.x)
    (hdx : IsDouble d.x) (hd : Spec.NearlyUnit d) (hacross : 32 / 2 ^ 53 < Spec.offAxis d)
    (hin : Spec.offAxis p + 7 * (Spec.offOrigin p + R ^ 2) / 2 ^ 53 < R ^ 2) :
    Rounded.distance rnd (.cylinderX R) p d ≠ ⊤ := by
  have h1 : |d.x| < 1 := by
    rw [← sq_lt_one_iff_abs_lt_one]
    have := (abs_le.1 hd).2
    unfold Spec.offAxis at hacross
    nlinarith
  obtain ⟨t, ht, -⟩ := C112_inside h hx hdx hd h1 hin
  rw [ht]
  exact WithTop.coe_ne_top

/-! ### Instances -/

/-- Instance of `C115_partial`: a direction with an angle of about `1 / 1024` with the axis. -/
example (h : Nearest rnd) :
    Rounded.distance rnd (.cylinderX 1) ⟨3, 1 / 2, 0⟩ ⟨9007194959772671 / 2 ^ 53, 1 / 1024, 0⟩ ≠ ⊤ := by
  have h3 : IsDouble (3 : ℝ) := by simpa using IsDouble.nat (m := 3) (by norm_num)
  refine C115_partial h h3 ⟨9007194959772671, -53, by norm_num, by norm_num⟩ ?_ ?_ ?_
  · norm_num [Spec.NearlyUnit, abs_le]
  · norm_num [Spec.offAxis]
  · norm_num [Spec.offAxis, Spec.offOrigin]

/-- Instance of `C115_flight_violated`: a neutron in a pin. -/
example (h : Nearest rnd) (w : World) (m : Material) : ∃ p q : Particle,
    Rounded.flight rnd w p ((2 ^ 31 : ℝ) : WithTop ℝ) = .ok (true, q) ∧ 1 < Spec.offAxis q.position := by
  obtain ⟨q, h1, -, -, h2⟩ := C115_flight_violated h w (s := ⟨0, "pin", .cylinderX 1⟩)
    (c := ⟨"pin", [(⟨0, "pin", .cylinderX 1⟩, true)], some m, .constant 300⟩)
    (p := { Particle.ofBorn ⟨⟨0, -(1 / 2), 0⟩, ⟨1, 1 / 2 ^ 30, 0⟩, .group 1, .neutron, 1, none⟩ with
      cell := some ⟨"pin", [(⟨0, "pin", .cylinderX 1⟩, true)], some m, .constant 300⟩ })
    rfl rfl rfl rfl rfl
  exact ⟨_, q, h1, h2⟩

/-- Instance of `C112_parallel`. -/
example (h : Nearest rnd) : Rounded.distance rnd (.cylinderX 1) ⟨3, 1 / 2, 0⟩ ⟨-1, 0, 0⟩ = ⊤ :=
  C112_parallel h (by simpa using IsDouble.nat (m := 3) (by norm_num)) (.inr rfl)

end Minimc.Props
