import Verif.Model.Point
import Verif.Spec.Geometry

/-! Helper lemmas about points and directions. -/

namespace Minimc

open Spec

namespace Point

@[simp] theorem add_x (a b : Point) : (a + b).x = a.x + b.x := rfl
@[simp] theorem add_y (a b : Point) : (a + b).y = a.y + b.y := rfl
@[simp] theorem add_z (a b : Point) : (a + b).z = a.z + b.z := rfl
@[simp] theorem sub_x (a b : Point) : (a - b).x = a.x - b.x := rfl
@[simp] theorem sub_y (a b : Point) : (a - b).y = a.y - b.y := rfl
@[simp] theorem sub_z (a b : Point) : (a - b).z = a.z - b.z := rfl
@[simp] theorem smul_x (a : Point) (s : ℝ) : (a.smul s).x = a.x * s := rfl
@[simp] theorem smul_y (a : Point) (s : ℝ) : (a.smul s).y = a.y * s := rfl
@[simp] theorem smul_z (a : Point) (s : ℝ) : (a.smul s).z = a.z * s := rfl

theorem dot_eq_cos (a b : Point) : a.dot b = cosAngle a b := rfl

theorem dot_self_nonneg (p : Point) : 0 ≤ p.dot p := by
  unfold dot
  nlinarith [mul_self_nonneg p.x, mul_self_nonneg p.y, mul_self_nonneg p.z]

theorem dot_self_eq_zero_iff (p : Point) : p.dot p = 0 ↔ p = ⟨0, 0, 0⟩ := by
  constructor
  · intro h
    unfold dot at h
    have hx : p.x = 0 := by
      nlinarith [mul_self_nonneg p.x, mul_self_nonneg p.y, mul_self_nonneg p.z]
    have hy : p.y = 0 := by
      nlinarith [mul_self_nonneg p.x, mul_self_nonneg p.y, mul_self_nonneg p.z]
    have hz : p.z = 0 := by
      nlinarith [mul_self_nonneg p.x, mul_self_nonneg p.y, mul_self_nonneg p.z]
    ext <;> assumption
  · rintro rfl
    simp [dot]

theorem unitVec_iff (p : Point) : UnitVec p ↔ p.dot p = 1 := by
  unfold UnitVec dot
  constructor <;> intro h <;> linarith

/-- A vector of unit length is left alone by normalisation. -/
theorem normalize_of_unit {p : Point} (h : UnitVec p) : p.normalize = .ok p := by
  rw [unitVec_iff] at h
  unfold normalize
  rw [if_neg (by rw [h]; exact one_ne_zero), h, Real.sqrt_one]
  unfold sdiv
  simp

theorem normalize_ok {p : Point} (h : p ≠ ⟨0, 0, 0⟩) :
    ∃ d, p.normalize = .ok d ∧ UnitVec d ∧ ∃ k : ℝ, 0 < k ∧ p = d.smul k := by
  have h0 : p.dot p ≠ 0 := fun e => h ((dot_self_eq_zero_iff p).1 e)
  have hpos : 0 < p.dot p := lt_of_le_of_ne (dot_self_nonneg p) (Ne.symm h0)
  have hs : 0 < Real.sqrt (p.dot p) := Real.sqrt_pos.2 hpos
  refine ⟨p.sdiv (Real.sqrt (p.dot p)), ?_, ?_, Real.sqrt (p.dot p), hs, ?_⟩
  · unfold normalize
    rw [if_neg h0]
  · rw [unitVec_iff]
    unfold sdiv
    have hsq : Real.sqrt (p.dot p) * Real.sqrt (p.dot p) = p.dot p := Real.mul_self_sqrt hpos.le
    have : (⟨p.x / Real.sqrt (p.dot p), p.y / Real.sqrt (p.dot p), p.z / Real.sqrt (p.dot p)⟩ : Point).dot
        ⟨p.x / Real.sqrt (p.dot p), p.y / Real.sqrt (p.dot p), p.z / Real.sqrt (p.dot p)⟩
        = (p.dot p) / (Real.sqrt (p.dot p) * Real.sqrt (p.dot p)) := by
      have := hs.ne'
      generalize Real.sqrt (p.dot p) = s at *
      unfold dot
      field_simp
    rw [this, hsq, div_self h0]
  · have := hs.ne'
    unfold sdiv
    ext <;> simp <;> field_simp

end Point

namespace Direction

theorem unitVec_isotropicOf {x phi : ℝ} (h1 : -1 ≤ x) (h2 : x ≤ 1) : UnitVec (isotropicOf x phi) := by
  unfold UnitVec isotropicOf
  have hn : 0 ≤ 1 - x * x := by nlinarith
  have hs := Real.sq_sqrt hn
  have hc := Real.cos_sq_add_sin_sq phi
  simp only
  calc x ^ 2 + (Real.sqrt (1 - x * x) * Real.cos phi) ^ 2 + (Real.sqrt (1 - x * x) * Real.sin phi) ^ 2
      = x ^ 2 + Real.sqrt (1 - x * x) ^ 2 * (Real.cos phi ^ 2 + Real.sin phi ^ 2) := by ring
    _ = 1 := by rw [hs, hc]; ring

/-- The auxiliary axis is never parallel to a unit direction. -/
theorem cross_auxAxis_ne {d : Point} (hd : UnitVec d) : d.cross (auxAxis d) ≠ ⟨0, 0, 0⟩ := by
  unfold UnitVec at hd
  unfold auxAxis onAxisTolerance
  split_ifs with h
  · intro e
    have hy := congrArg Point.y e
    have hz := congrArg Point.z e
    simp only [Point.cross] at hy hz
    have hz0 : d.z = 0 := by linarith
    have hy0 : d.y = 0 := by linarith
    rw [hz0, hy0] at hd
    nlinarith [h.1, h.2]
  · intro e
    have hx := congrArg Point.x e
    have hz := congrArg Point.z e
    simp only [Point.cross] at hx hz
    have hx0 : d.x = 0 := by linarith
    apply h
    rw [hx0]
    norm_num

theorem dot_cross_self (a b : Point) : a.dot (a.cross b) = 0 := by
  unfold Point.dot Point.cross
  ring

/-- Full description of the rotated direction: it is the combination of `d` with an
orthonormal pair `u`, `v` that does not depend on `mu` and `phi`. -/
theorem rotated_ok {d : Point} (hd : UnitVec d) :
    ∃ u v : Point, UnitVec u ∧ UnitVec v ∧ cosAngle d u = 0 ∧ cosAngle d v = 0 ∧ cosAngle u v = 0 ∧
      v = d.cross u ∧
      ∀ mu phi : ℝ, -1 ≤ mu → mu ≤ 1 → rotated d mu phi =
        .ok (u.smul (Real.sqrt (1 - mu * mu) * Real.cos phi)
          + v.smul (Real.sqrt (1 - mu * mu) * Real.sin phi) + d.smul mu) := by
  obtain ⟨u, hu, huu, k, hk, huk⟩ := Point.normalize_ok (cross_auxAxis_ne hd)
  have hdu : cosAngle d u = 0 := by
    have h := dot_cross_self d (auxAxis d)
    rw [huk] at h
    have h2 : d.dot (u.smul k) = k * cosAngle d u := by
      unfold Point.dot cosAngle; simp; ring
    rw [h2] at h
    exact (mul_eq_zero.1 h).resolve_left hk.ne'
  have hvu : UnitVec (d.cross u) := by
    have hd' := hd
    have hu' := huu
    unfold UnitVec at hd' hu' ⊢
    unfold cosAngle at hdu
    simp only [Point.cross]
    calc _ = (d.x ^ 2 + d.y ^ 2 + d.z ^ 2) * (u.x ^ 2 + u.y ^ 2 + u.z ^ 2)
        - (d.x * u.x + d.y * u.y + d.z * u.z) ^ 2 := by ring
      _ = 1 := by rw [hd', hu', hdu]; ring
  have hdv : cosAngle d (d.cross u) = 0 := dot_cross_self d u
  have huv : cosAngle u (d.cross u) = 0 := by
    unfold cosAngle Point.cross; ring
  refine ⟨u, d.cross u, huu, hvu, hdu, hdv, huv, rfl, ?_⟩
  intro mu phi h1 h2
  have hn : 0 ≤ 1 - mu * mu := by nlinarith
  unfold rotated ofPoint
  rw [hu]
  simp only [bind, Except.bind]
  rw [Point.normalize_of_unit hvu]
  simp only
  rw [if_neg (not_lt.2 hn)]
  apply Point.normalize_of_unit
  have hs := Real.sq_sqrt hn
  have hc := Real.cos_sq_add_sin_sq phi
  generalize Real.sqrt (1 - mu * mu) = s at *
  generalize Real.cos phi = c at *
  generalize Real.sin phi = sn at *
  generalize d.cross u = v at *
  unfold UnitVec cosAngle at *
  simp
  calc _ = s ^ 2 * c ^ 2 * (u.x ^ 2 + u.y ^ 2 + u.z ^ 2) + s ^ 2 * sn ^ 2 * (v.x ^ 2 + v.y ^ 2 + v.z ^ 2)
      + mu ^ 2 * (d.x ^ 2 + d.y ^ 2 + d.z ^ 2)
      + 2 * s ^ 2 * c * sn * (u.x * v.x + u.y * v.y + u.z * v.z)
      + 2 * s * c * mu * (d.x * u.x + d.y * u.y + d.z * u.z)
      + 2 * s * sn * mu * (d.x * v.x + d.y * v.y + d.z * v.z) := by ring
    _ = s ^ 2 * (c ^ 2 + sn ^ 2) + mu ^ 2 := by rw [huu, hvu, hd, hdu, hdv, huv]; ring
    _ = 1 := by rw [hs, hc]; ring

end Direction
end Minimc
