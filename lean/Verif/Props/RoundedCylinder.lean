import Verif.Lemmas.RoundedCylinder
import Verif.Props.RoundedCrossing
import Verif.Props.RoundedDirection
import Verif.Spec.RoundedCylinder

/-!
# Cylinders in double precision

The program subtracts the square of the coordinate along the axis from the square of the distance from the
origin.  Far from the origin digits are lost (`C75_cylinder_violated`); here is how many.
-/

namespace Minimc.Props

open Minimc

variable {rnd : ℝ → ℝ}

theorem offOrigin_eq (p : Point) : Spec.offOrigin p = p.dot p := by
  unfold Spec.offOrigin Point.dot
  ring

/-- **C112** On which side of a cylinder a point is taken to be, up to rounding.  The program compares the
distance from the axis with the square of the radius, see C06. -/
theorem C112_contains (h : Nearest rnd) {p : Point} {R : ℝ} (hx : IsDouble p.x) :
    (Rounded.contains rnd (.cylinderX R) p = true →
      Spec.offAxis p < R ^ 4 + 6 * (Spec.offOrigin p + R ^ 4) / 2 ^ 53) ∧
    (Rounded.contains rnd (.cylinderX R) p = false →
      R ^ 4 - 6 * (Spec.offOrigin p + R ^ 4) / 2 ^ 53 ≤ Spec.offAxis p) := by
  have he := eps_pos
  have hs := eps_le
  have hq := eps_sq
  have hA := Rounded.axis_err h hx
  have h0 := C75_cylinder_root h hx
  rw [offOrigin_eq, show 6 * (p.dot p + R ^ 4) / 2 ^ 53 = 6 * eps * (p.dot p + R ^ 4) by unfold eps; ring]
  change |_ - Spec.offAxis p| ≤ _ at hA
  simp only [Rounded.contains, decide_eq_true_eq, decide_eq_false_iff_not]
  set s := rnd (Rounded.dot rnd p p - rnd (Rounded.dot rnd p ⟨1, 0, 0⟩ * Rounded.dot rnd p ⟨1, 0, 0⟩))
  have N0 := Point.dot_self_nonneg p
  set N := p.dot p
  have R4 : 0 ≤ R ^ 4 := by positivity
  have R2 : 0 ≤ R * R := mul_self_nonneg R
  have e1 := h.err_eps (R * R)
  rw [abs_of_nonneg R2] at e1
  have e2 := h.err_eps (Real.sqrt s)
  have r0 := Real.sqrt_nonneg s
  rw [abs_of_nonneg r0] at e2
  have rs : Real.sqrt s * Real.sqrt s = s := Real.mul_self_sqrt h0
  have eN := mul_nonneg he.le N0
  have eR := mul_nonneg he.le R4
  have eeR := mul_le_mul_of_nonneg_right hq R4
  have es := mul_nonneg he.le h0
  have ees := mul_le_mul_of_nonneg_right hq h0
  set r := Real.sqrt s
  rw [abs_le] at hA e1 e2
  constructor
  · rintro ⟨-, hlt⟩
    have k : r * (1 - eps) < R * R * (1 + eps) := by linarith [e1.2, e2.1]
    have k2 : (r * (1 - eps)) * (r * (1 - eps)) < (R * R * (1 + eps)) * (R * R * (1 + eps)) :=
      mul_self_lt_mul_self (mul_nonneg r0 (by linarith)) k
    have k3 : s * (1 - eps) ^ 2 < R ^ 4 * (1 + eps) ^ 2 := by
      rw [← rs]
      calc r * r * (1 - eps) ^ 2 = (r * (1 - eps)) * (r * (1 - eps)) := by ring
        _ < _ := k2
        _ = _ := by ring
    have k4 : s * (1 - 2 * eps) < R ^ 4 * (1 + 21 / 10 * eps) := by linarith [mul_nonneg (mul_nonneg he.le he.le) h0]
    have k5 : s < R ^ 4 * (1 + 42 / 10 * eps) := by
      by_contra hcon
      push Not at hcon
      have := mul_le_mul_of_nonneg_right hcon (by linarith : 0 ≤ 1 - 2 * eps)
      linarith
    linarith [hA.1]
  · intro hcon
    have hge : rnd (R * R) ≤ rnd r := not_lt.1 fun hlt => hcon ⟨h0, hlt⟩
    have k : R * R * (1 - eps) ≤ r * (1 + eps) := by linarith [e1.1, e2.2]
    have k2 : (R * R * (1 - eps)) * (R * R * (1 - eps)) ≤ (r * (1 + eps)) * (r * (1 + eps)) :=
      mul_self_le_mul_self (mul_nonneg R2 (by linarith)) k
    have k3 : R ^ 4 * (1 - eps) ^ 2 ≤ s * (1 + eps) ^ 2 := by
      rw [← rs]
      calc R ^ 4 * (1 - eps) ^ 2 = (R * R * (1 - eps)) * (R * R * (1 - eps)) := by ring
        _ ≤ _ := k2
        _ = _ := by ring
    have k4 : R ^ 4 * (1 - 2 * eps) ≤ s * (1 + 21 / 10 * eps) := by
      linarith [mul_nonneg (mul_nonneg he.le he.le) R4]
    have k5 : R ^ 4 * (1 - 42 / 10 * eps) ≤ s := by
      by_contra hcon
      push Not at hcon
      have := mul_lt_mul_of_pos_right hcon (by linarith : 0 < 1 + 21 / 10 * eps)
      linarith [mul_nonneg (mul_nonneg he.le he.le) R4]
    linarith [hA.2]

/-- What is known of the equation. -/
theorem cylinder_facts (h : Nearest rnd) {p : Point} {d : Direction} {R : ℝ} (hx : IsDouble p.x)
    (hdx : IsDouble d.x) (hd : Spec.NearlyUnit d) (hacross : |d.x| < 1) :
    ∃ a b c, Rounded.distance rnd (.cylinderX R) p d = Rounded.solveQuadratic rnd a b c ∧
      IsDouble a ∧ 0 < a ∧ IsDouble c ∧ |(d.y ^ 2 + d.z ^ 2) - a| ≤ 35 * eps ∧
      |b - 2 * (p.y * d.y + p.z * d.z)| ≤ 11 * eps * len p ∧
      |c - (p.y ^ 2 + p.z ^ 2 - R ^ 2)| ≤ 7 * eps * (p.dot p + R ^ 2) := by
  have hd' := nearlyUnit_iff.1 hd
  obtain ⟨h1, h2, h3⟩ := Rounded.cylinder_coeffs h (R := R) hx hdx hd'
  refine ⟨_, _, _, rfl, h.isDouble _, Rounded.across_pos h hdx hacross, h.isDouble _, ?_, h2, h3⟩
  have hdd : d.dot d = d.x ^ 2 + (d.y ^ 2 + d.z ^ 2) := by
    unfold Point.dot
    ring
  have he := eps_pos
  rw [abs_le] at h1 hd' ⊢
  constructor <;> linarith [h1.1, h1.2, hd'.1, hd'.2]

theorem across_le {p : Point} {d : Direction} (hd : Spec.NearlyUnit d) :
    |p.y * d.y + p.z * d.z| ≤ 101 / 100 * len p ∧ d.y ^ 2 + d.z ^ 2 ≤ 101 / 100 := by
  have hs := eps_le
  have hd' := nearlyUnit_iff.1 hd
  have D2 : len d ≤ 101 / 100 := by linarith [(abs_le.1 (Rounded.len_near hd')).2, eps_pos]
  constructor
  · have hm := Rounded.abs_dot_le p d
    have := mul_le_mul_of_nonneg_left D2 (len_nonneg p)
    refine (abs_add_le _ _).trans ?_
    linarith [abs_nonneg (p.x * d.x)]
  · have hdd : d.dot d = d.x ^ 2 + (d.y ^ 2 + d.z ^ 2) := by
      unfold Point.dot
      ring
    linarith [(abs_le.1 hd').2, sq_nonneg d.x]

theorem offAxis_along (p : Point) (d : Direction) (t : ℝ) :
    Spec.offAxis (Spec.along p d t) = (p.y + t * d.y) ^ 2 + (p.z + t * d.z) ^ 2 := rfl

theorem offAxis_le (p : Point) : p.y ^ 2 + p.z ^ 2 ≤ p.dot p := by
  unfold Point.dot
  nlinarith [sq_nonneg p.x]

theorem eps_bound (x : ℝ) (k : ℝ) : k * x / 2 ^ 53 = k * eps * x := by
  unfold eps
  ring

/-- **C112** A distance that is found is positive and leads to the cylinder. -/
theorem C112_reached (h : Nearest rnd) {p : Point} {d : Direction} {R t : ℝ} (hx : IsDouble p.x)
    (hdx : IsDouble d.x) (hd : Spec.NearlyUnit d) (hacross : |d.x| < 1)
    (ht : Rounded.distance rnd (.cylinderX R) p d = (t : WithTop ℝ)) :
    0 < t ∧ |Spec.offAxis (Spec.along p d t) - R ^ 2| ≤
      64 * (t ^ 2 + Spec.offOrigin p + R ^ 2) / 2 ^ 53 := by
  obtain ⟨a, b, c, hdist, ha, ha0, hc, hea, hb, hce⟩ := cylinder_facts h (R := R) hx hdx hd hacross
  rw [hdist] at ht
  obtain ⟨h1, T, hT, hres, hn⟩ := Rounded.general_found h ha ha0 hc ht
  obtain ⟨hm, he1⟩ := across_le (p := p) hd
  refine ⟨h1, ?_⟩
  rw [eps_bound, offOrigin_eq, offAxis_along]
  exact Rounded.cylinder_solution rfl rfl rfl (len_sq p).symm (len_nonneg p) hea hb hce (by positivity)
    (offAxis_le p) hm (by positivity) he1 hT hres hn

/-- **C112** From inside, a cylinder is seen, and the way to it stays inside. -/
theorem C112_inside (h : Nearest rnd) {p : Point} {d : Direction} {R : ℝ} (hx : IsDouble p.x)
    (hdx : IsDouble d.x) (hd : Spec.NearlyUnit d) (hacross : |d.x| < 1)
    (hin : Spec.offAxis p + 7 * (Spec.offOrigin p + R ^ 2) / 2 ^ 53 < R ^ 2) :
    ∃ t : ℝ, Rounded.distance rnd (.cylinderX R) p d = (t : WithTop ℝ) ∧
      ∀ s, 0 ≤ s → s ≤ t → Spec.offAxis (Spec.along p d s) ≤
        R ^ 2 + 64 * (t ^ 2 + Spec.offOrigin p + R ^ 2) / 2 ^ 53 := by
  obtain ⟨a, b, c, hdist, ha, ha0, hc, hea, hb, hce⟩ := cylinder_facts h (R := R) hx hdx hd hacross
  rw [eps_bound, offOrigin_eq] at hin
  have hneg : c < 0 := by
    unfold Spec.offAxis at hin
    linarith [(abs_le.1 hce).2]
  obtain ⟨t, T, h1, h2, -⟩ := Rounded.general_inside h (b := b) ha ha0 hc hneg
  refine ⟨t, hdist.trans h1, fun s hs0 hst => ?_⟩
  have hend := (abs_le.1 (C112_reached h hx hdx hd hacross (hdist.trans h1)).2).2
  rw [offAxis_along] at hend ⊢
  set E := 64 * (t ^ 2 + Spec.offOrigin p + R ^ 2) / 2 ^ 53 with hE
  have E0 : 0 ≤ E := by
    have : 0 ≤ Spec.offOrigin p := by rw [offOrigin_eq]; exact Point.dot_self_nonneg p
    positivity
  have hq : p.y ^ 2 + p.z ^ 2 ≤ R ^ 2 := by
    have : 0 ≤ 7 * eps * (p.dot p + R ^ 2) :=
      mul_nonneg (by have := eps_pos; positivity) (add_nonneg (Point.dot_self_nonneg p) (sq_nonneg R))
    unfold Spec.offAxis at hin
    linarith
  have key : t * ((p.y + s * d.y) ^ 2 + (p.z + s * d.z) ^ 2) ≤ t * (R ^ 2 + E) := by
    have id : t * ((p.y + s * d.y) ^ 2 + (p.z + s * d.z) ^ 2) = (t - s) * (p.y ^ 2 + p.z ^ 2) +
        s * ((p.y + t * d.y) ^ 2 + (p.z + t * d.z) ^ 2) - s * (t - s) * t * (d.y ^ 2 + d.z ^ 2) := by ring
    have k1 : (t - s) * (p.y ^ 2 + p.z ^ 2) ≤ (t - s) * (R ^ 2 + E) :=
      mul_le_mul_of_nonneg_left (by linarith) (by linarith)
    have k2 : s * ((p.y + t * d.y) ^ 2 + (p.z + t * d.z) ^ 2) ≤ s * (R ^ 2 + E) :=
      mul_le_mul_of_nonneg_left (by linarith) hs0
    have k3 : 0 ≤ s * (t - s) * t * (d.y ^ 2 + d.z ^ 2) :=
      mul_nonneg (mul_nonneg (mul_nonneg hs0 (by linarith)) h2.le) (by positivity)
    rw [id]
    linarith
  exact le_of_mul_le_mul_left key h2

/-- **C112** From outside, nothing of the cylinder lies before the point that is found. -/
theorem C112_first (h : Nearest rnd) {p : Point} {d : Direction} {R t : ℝ} (hx : IsDouble p.x)
    (hdx : IsDouble d.x) (hd : Spec.NearlyUnit d) (hacross : |d.x| < 1)
    (hout : R ^ 2 + 7 * (Spec.offOrigin p + R ^ 2) / 2 ^ 53 < Spec.offAxis p)
    (ht : Rounded.distance rnd (.cylinderX R) p d = (t : WithTop ℝ)) {s : ℝ} (hs0 : 0 ≤ s) (hst : s ≤ t) :
    R ^ 2 - 64 * (t ^ 2 + Spec.offOrigin p + R ^ 2) / 2 ^ 53 ≤ Spec.offAxis (Spec.along p d s) := by
  have he := eps_pos
  have hsm := eps_le
  obtain ⟨a, b, c, hdist, ha, ha0, hc, hea, hb, hce⟩ := cylinder_facts h (R := R) hx hdx hd hacross
  obtain ⟨hm, he1⟩ := across_le (p := p) hd
  rw [eps_bound, offOrigin_eq] at hout ⊢
  rw [offAxis_along]
  have hpos : 0 < c := by
    unfold Spec.offAxis at hout
    linarith [(abs_le.1 hce).1]
  rw [hdist] at ht
  obtain ⟨h1, T, hT, hres, hn, hslope⟩ := Rounded.general_outside h ha ha0 hc hpos ht
  have N0 := Point.dot_self_nonneg p
  have L0 := len_nonneg p
  have hNL := len_sq p
  have R0 := sq_nonneg R
  have qN := offAxis_le p
  have eN := mul_nonneg he.le N0
  have eR := mul_nonneg he.le R0
  have hss : s ^ 2 ≤ t ^ 2 := by nlinarith
  have es := mul_le_mul_of_nonneg_left hss he.le
  have et := mul_nonneg he.le (sq_nonneg t)
  rcases le_total s T with hsT | hTs
  · have herr' := Rounded.near_err hn.symm h1.le le_rfl
    push_cast at herr'
    have hTt : T ≤ 1001 / 1000 * t := by
      have := mul_le_mul_of_nonneg_right hsm h1.le
      linarith [(abs_le.1 herr').2]
    have hbL : |b| ≤ 21 / 10 * len p := by
      have := mul_le_mul_of_nonneg_right hsm L0
      rw [abs_le] at hb hm ⊢
      constructor <;> linarith [hb.1, hb.2, hm.1, hm.2]
    have k1 : 0 ≤ (T - s) * (32 / 10 * eps * |b| - (2 * a * T + b)) :=
      mul_nonneg (by linarith) (by linarith)
    have k2 : (T - s) * (32 / 10 * eps * |b|) ≤ T * (32 / 10 * eps * (21 / 10 * len p)) :=
      mul_le_mul (by linarith) (mul_le_mul_of_nonneg_left hbL (by positivity)) (by positivity) hT.le
    have k3 : 0 ≤ a * (T - s) ^ 2 := by positivity
    have hcb : c ≤ 101 / 100 * (p.dot p + R ^ 2) := by
      have := mul_le_mul_of_nonneg_right hsm (add_nonneg N0 R0)
      linarith [(abs_le.1 hce).2]
    have k4 := mul_le_mul_of_nonneg_left hcb he.le
    have id : a * s ^ 2 + b * s + c = (a * T ^ 2 + b * T + c) - (T - s) * (2 * a * T + b) + a * (T - s) ^ 2 := by
      ring
    have hLt : 2 * (len p * t) ≤ p.dot p + t ^ 2 := by
      rw [← hNL]
      nlinarith [sq_nonneg (len p - t)]
    have k5 := mul_le_mul_of_nonneg_left hLt he.le
    have k6 : eps * (len p * T) ≤ eps * (1001 / 1000 * (len p * t)) := by
      have := mul_le_mul_of_nonneg_left hTt L0
      exact mul_le_mul_of_nonneg_left (by linarith) he.le
    have hlow : -(10 * (eps * (t ^ 2 + p.dot p + R ^ 2))) ≤ a * s ^ 2 + b * s + c := by
      rw [id]
      linarith [(abs_le.1 hres).1]
    have := Rounded.cylinder_above rfl rfl rfl hNL.symm hea hb hce hs0 hlow
    linarith
  · have hn' : Near 5 T s := by
      constructor
      · exact (mul_le_of_le_one_right hT.le (pow_le_one₀ (by norm_num) (by norm_num))).trans hTs
      · exact (mul_le_mul_of_nonneg_right hst (by positivity)).trans hn.2
    have := (abs_le.1 (Rounded.cylinder_solution rfl rfl rfl hNL.symm L0 hea hb hce (by positivity) qN hm
      (by positivity) he1 hT (by rwa [abs_of_pos hpos]) hn')).1
    linarith

/-- **C112** A cylinder that is not seen is not entered. -/
theorem C112_missed (h : Nearest rnd) {p : Point} {d : Direction} {R : ℝ} (hx : IsDouble p.x)
    (hdx : IsDouble d.x) (hd : Spec.NearlyUnit d) (hacross : |d.x| < 1)
    (ht : Rounded.distance rnd (.cylinderX R) p d = ⊤) {s : ℝ} (hs0 : 0 ≤ s) :
    R ^ 2 - 64 * (s ^ 2 + Spec.offOrigin p + R ^ 2) / 2 ^ 53 ≤ Spec.offAxis (Spec.along p d s) := by
  have he := eps_pos
  have hsm := eps_le
  obtain ⟨a, b, c, hdist, ha, ha0, hc, hea, hb, hce⟩ := cylinder_facts h (R := R) hx hdx hd hacross
  rw [eps_bound, offOrigin_eq, offAxis_along]
  rw [hdist] at ht
  have hlow := Rounded.general_missed h ha ha0 hc ht hs0
  have := Rounded.cylinder_above rfl rfl rfl (len_sq p).symm hea hb hce hs0 hlow
  have N0 := Point.dot_self_nonneg p
  have R0 := sq_nonneg R
  have hcb : |c| ≤ 101 / 100 * (p.dot p + R ^ 2) := by
    have := mul_le_mul_of_nonneg_right hsm (add_nonneg N0 R0)
    have := offAxis_le p
    rw [abs_le] at hce ⊢
    constructor <;> linarith [hce.1, hce.2, sq_nonneg p.y, sq_nonneg p.z]
  have k4 := mul_le_mul_of_nonneg_left hcb he.le
  have eN := mul_nonneg he.le N0
  have eR := mul_nonneg he.le R0
  have es := mul_nonneg he.le (sq_nonneg s)
  linarith

/-! ### Instances -/

theorem across_unit : Spec.NearlyUnit ⟨0, 1, 0⟩ := by norm_num [Spec.NearlyUnit]

/-- **C112** Parallel to the axis no cylinder is seen, from wherever and with whatever rounding. -/
theorem C112_parallel (h : Nearest rnd) {p : Point} {d : Direction} {R : ℝ} (hx : IsDouble p.x)
    (hd : d = ⟨1, 0, 0⟩ ∨ d = ⟨-1, 0, 0⟩) : Rounded.distance rnd (.cylinderX R) p d = ⊤ := by
  have z := h.zero
  have o := h.one
  have m1 : rnd (-1) = -1 := h.self IsDouble.one.neg
  have x1 := h.self hx
  have x2 := h.self hx.neg
  rcases hd with rfl | rfl <;>
    simp [Rounded.distance, Rounded.dot, Rounded.solveQuadratic, z, o, m1, x1, x2]

/-- Instance of `C112_inside` and `C112_reached`: from the axis of a cylinder of radius 1, at right angles. -/
example (h : Nearest rnd) : ∃ t : ℝ, Rounded.distance rnd (.cylinderX 1) ⟨3, 0, 0⟩ ⟨0, 1, 0⟩ = (t : WithTop ℝ) ∧
    |t ^ 2 - 1| ≤ 64 * (t ^ 2 + 9 + 1) / 2 ^ 53 := by
  have h3 : IsDouble (3 : ℝ) := by simpa using IsDouble.nat (m := 3) (by norm_num)
  obtain ⟨t, ht, -⟩ := C112_inside (p := ⟨3, 0, 0⟩) (d := ⟨0, 1, 0⟩) (R := 1) h h3 IsDouble.zero across_unit
    (by norm_num) (by norm_num [Spec.offAxis, Spec.offOrigin])
  refine ⟨t, ht, ?_⟩
  have := (C112_reached h h3 IsDouble.zero across_unit (by norm_num) ht).2
  norm_num [Spec.offAxis, Spec.offOrigin, Spec.along] at this ⊢
  exact this

/-- Instance of `C112_missed` and `C112_first`: a flight towards the cylinder sees it or does not come near. -/
example (h : Nearest rnd) : (∃ t : ℝ, Rounded.distance rnd (.cylinderX 1) ⟨3, -2, 0⟩ ⟨0, 1, 0⟩ = (t : WithTop ℝ) ∧
      ∀ s, 0 ≤ s → s ≤ t → 1 - 64 * (t ^ 2 + 13 + 1) / 2 ^ 53 ≤ (-2 + s) ^ 2) := by
  have h3 : IsDouble (3 : ℝ) := by simpa using IsDouble.nat (m := 3) (by norm_num)
  rcases hd : Rounded.distance rnd (.cylinderX 1) ⟨3, -2, 0⟩ ⟨0, 1, 0⟩ with _ | t
  · exfalso
    have := C112_missed (p := ⟨3, -2, 0⟩) (d := ⟨0, 1, 0⟩) (R := 1) h h3 IsDouble.zero across_unit (by norm_num) hd
      (s := 2) (by norm_num)
    norm_num [Spec.offAxis, Spec.offOrigin, Spec.along] at this
  · refine ⟨t, rfl, fun s hs0 hst => ?_⟩
    have := C112_first (p := ⟨3, -2, 0⟩) (d := ⟨0, 1, 0⟩) (R := 1) h h3 IsDouble.zero across_unit (by norm_num)
      (by norm_num [Spec.offAxis, Spec.offOrigin]) hd hs0 hst
    norm_num [Spec.offAxis, Spec.offOrigin, Spec.along] at this ⊢
    exact this

/-- Instance of `C112_contains`: a point is inside or not. -/
example (h : Nearest rnd) : Rounded.contains rnd (.cylinderX 1) ⟨3, 1 / 2, 0⟩ = true := by
  have h3 : IsDouble (3 : ℝ) := by simpa using IsDouble.nat (m := 3) (by norm_num)
  by_contra hcon
  have := (C112_contains (p := ⟨3, 1 / 2, 0⟩) (R := 1) h h3).2 (by simpa using hcon)
  norm_num [Spec.offAxis, Spec.offOrigin] at this

end Minimc.Props
