import Verif.Lemmas.Point
import Verif.Lemmas.Rng
import Mathlib.Analysis.SpecialFunctions.Complex.Arg
import Mathlib.MeasureTheory.Measure.Lebesgue.Basic

/-!
# C01, C02, C03: directions
-/

namespace Minimc.Props

open Minimc Spec MeasureTheory

/-- **C01** A direction built from non-zero coordinates has unit length and is a
positive multiple of the input. -/
theorem C01_direction_unit (x y z : ℝ) (h : ¬ (x = 0 ∧ y = 0 ∧ z = 0)) :
    ∃ d k, Direction.ofXYZ x y z = .ok d ∧ UnitVec d ∧ 0 < k ∧
      x = k * d.x ∧ y = k * d.y ∧ z = k * d.z := by
  obtain ⟨d, hd, hu, k, hk, e⟩ := Point.normalize_ok (p := ⟨x, y, z⟩) (by
    intro e
    exact h ⟨congrArg Point.x e, congrArg Point.y e, congrArg Point.z e⟩)
  refine ⟨d, k, hd, hu, hk, ?_, ?_, ?_⟩
  · have := congrArg Point.x e; simp at this; linarith
  · have := congrArg Point.y e; simp at this; linarith
  · have := congrArg Point.z e; simp at this; linarith

/-- **C01** The same for a direction built from a point. -/
theorem C01_direction_of_point_unit (p : Point) (h : p ≠ ⟨0, 0, 0⟩) :
    ∃ d k, Direction.ofPoint p = .ok d ∧ UnitVec d ∧ 0 < k ∧
      p.x = k * d.x ∧ p.y = k * d.y ∧ p.z = k * d.z := by
  obtain ⟨d, k, h1, h2⟩ := C01_direction_unit p.x p.y p.z
    (fun e => h (by ext <;> simp [e.1, e.2.1, e.2.2]))
  exact ⟨d, k, h1, h2⟩

/-- **C01** The zero vector is the only input without a direction. -/
theorem C01_direction_nan_iff (p : Point) :
    Direction.ofPoint p = .error .nan ↔ p = ⟨0, 0, 0⟩ := by
  constructor
  · intro h
    by_contra hne
    obtain ⟨d, _, h1, _⟩ := C01_direction_of_point_unit p hne
    rw [h1] at h
    cases h
  · rintro rfl
    simp [Direction.ofPoint, Point.normalize, Point.dot]

example : Direction.ofXYZ 3 0 4 = .ok ⟨3 / 5, 0, 4 / 5⟩ := by
  have h : Real.sqrt (3 * 3 + 0 * 0 + 4 * 4) = 5 := by
    rw [show (3 * 3 + 0 * 0 + 4 * 4 : ℝ) = 5 ^ 2 by norm_num]
    exact Real.sqrt_sq (by norm_num)
  unfold Direction.ofXYZ Point.normalize Point.dot
  simp only
  rw [if_neg (by norm_num), h]
  simp [Point.sdiv]

/-- **C02** A direction drawn from a generator in any state reachable from a seed has
unit length. -/
theorem C02_random_direction_unit (seed n : ℕ) :
    UnitVec (Direction.isotropic (Rng.next^[n] (Rng.ofSeed seed))).1 := by
  have hv := Rng.valid_iterate (Rng.valid_ofSeed seed) n
  have h0 := Rng.canonical_pos hv
  have h1 := Rng.canonical_lt_one hv
  unfold Direction.isotropic Rng.uniformReal
  apply Direction.unitVec_isotropicOf <;> linarith

/-- **C02** The drawn direction is the standard area-preserving parametrisation of the
sphere by two uniform numbers: cosine `2 u₁ - 1` and azimuth `2 π u₂`, where `u₁`, `u₂`
are the next two uniform numbers of the generator. -/
theorem C02_random_direction_formula (g : ℕ) :
    let u₁ := (Rng.canonical g).1
    let u₂ := (Rng.canonical (Rng.next^[2] g)).1
    (Direction.isotropic g).1 =
      ⟨2 * u₁ - 1, Real.sqrt (1 - (2 * u₁ - 1) ^ 2) * Real.cos (2 * Real.pi * u₂),
        Real.sqrt (1 - (2 * u₁ - 1) ^ 2) * Real.sin (2 * Real.pi * u₂)⟩
      ∧ (Direction.isotropic g).2 = Rng.next^[4] g := by
  simp only [Direction.isotropic, Rng.uniformReal, Direction.isotropicOf]
  constructor
  · have e : Rng.next^[2] g = (Rng.canonical g).2 := rfl
    rw [e]
    ext <;> simp <;> ring_nf
  · rfl

/-- **C02** The cosine is uniform on [-1, 1]: it is at most `c` on a set of uniform
numbers of measure `(c + 1) / 2`. -/
theorem C02_cosine_uniform (c phi : ℝ) (h2 : c ≤ 1) :
    volume {u : ℝ | 0 ≤ u ∧ u < 1 ∧ (Direction.isotropicOf (u * (1 - (-1)) + (-1)) phi).x < c}
      = ENNReal.ofReal ((c + 1) / 2) := by
  have : {u : ℝ | 0 ≤ u ∧ u < 1 ∧ (Direction.isotropicOf (u * (1 - (-1)) + (-1)) phi).x < c}
      = Set.Ico 0 ((c + 1) / 2) := by
    ext u
    simp only [Set.mem_ofPred_eq, Set.mem_Ico, Direction.isotropicOf]
    constructor
    · rintro ⟨h0, _, h⟩; exact ⟨h0, by linarith⟩
    · rintro ⟨h0, h⟩; exact ⟨h0, by linarith, by linarith⟩
  rw [this, Real.volume_Ico, sub_zero]

/-- With the default seed the drawn direction is not along an axis. -/
example : (Direction.isotropic (Rng.ofSeed 1)).1.x ≠ 0 ∧
    UnitVec (Direction.isotropic (Rng.ofSeed 1)).1 := by
  refine ⟨?_, C02_random_direction_unit 1 0⟩
  rw [(C02_random_direction_formula (Rng.ofSeed 1)).1]
  have h0 : Rng.ofSeed 1 = 1 := by decide
  have h1 : Rng.next 1 = 48271 := by decide
  have h2 : Rng.next 48271 = 182605794 := by decide
  unfold Rng.canonical Rng.range
  simp only [h0, h1, h2]
  norm_num

/-- **C03** The rotated direction has unit length and makes the requested angle with
the reference direction. -/
theorem C03_rotated_direction (d : Direction) (mu phi : ℝ) (hd : UnitVec d)
    (h1 : -1 ≤ mu) (h2 : mu ≤ 1) :
    ∃ r, Direction.rotated d mu phi = .ok r ∧ UnitVec r ∧ cosAngle d r = mu := by
  obtain ⟨u, v, hu, hv, hdu, hdv, huv, _, h⟩ := Direction.rotated_ok hd
  refine ⟨_, h mu phi h1 h2, ?_, ?_⟩
  · have hn : 0 ≤ 1 - mu * mu := by nlinarith
    have hs := Real.sq_sqrt hn
    have hc := Real.cos_sq_add_sin_sq phi
    generalize Real.sqrt (1 - mu * mu) = s at *
    generalize Real.cos phi = c at *
    generalize Real.sin phi = sn at *
    unfold UnitVec cosAngle at *
    simp
    calc _ = s ^ 2 * c ^ 2 * (u.x ^ 2 + u.y ^ 2 + u.z ^ 2) + s ^ 2 * sn ^ 2 * (v.x ^ 2 + v.y ^ 2 + v.z ^ 2)
        + mu ^ 2 * (d.x ^ 2 + d.y ^ 2 + d.z ^ 2)
        + 2 * s ^ 2 * c * sn * (u.x * v.x + u.y * v.y + u.z * v.z)
        + 2 * s * c * mu * (d.x * u.x + d.y * u.y + d.z * u.z)
        + 2 * s * sn * mu * (d.x * v.x + d.y * v.y + d.z * v.z) := by ring
      _ = s ^ 2 * (c ^ 2 + sn ^ 2) + mu ^ 2 := by rw [hu, hv, hd, hdu, hdv, huv]; ring
      _ = 1 := by rw [hs, hc]; ring
  · generalize Real.sqrt (1 - mu * mu) = s at *
    unfold UnitVec cosAngle at *
    simp
    calc _ = s * Real.cos phi * (d.x * u.x + d.y * u.y + d.z * u.z)
        + s * Real.sin phi * (d.x * v.x + d.y * v.y + d.z * v.z)
        + mu * (d.x ^ 2 + d.y ^ 2 + d.z ^ 2) := by ring
      _ = mu := by rw [hdu, hdv, hd]; ring

/-- **C03** A cosine outside [-1, 1] gives not-a-number, never a wrong direction. -/
theorem C03_rotated_nan (d : Direction) (mu phi : ℝ) (hd : UnitVec d) (h : mu < -1 ∨ 1 < mu) :
    Direction.rotated d mu phi = .error .nan := by
  obtain ⟨u, hu, huu, k, hk, huk⟩ := Point.normalize_ok (Direction.cross_auxAxis_ne hd)
  unfold Direction.rotated Direction.ofPoint
  rw [hu]
  simp only [bind, Except.bind]
  have hn : 1 - mu * mu < 0 := by rcases h with h | h <;> nlinarith
  cases hv : (d.cross u).normalize with
  | ok v => simp only [if_pos hn]
  | error e =>
    unfold Point.normalize at hv
    split_ifs at hv
    cases hv
    rfl

/-- Every pair of numbers on the unit circle is the cosine and sine of an azimuth. -/
theorem exists_azimuth {a b : ℝ} (h : a ^ 2 + b ^ 2 = 1) :
    ∃ phi, 0 ≤ phi ∧ phi < 2 * Real.pi ∧ Real.cos phi = a ∧ Real.sin phi = b := by
  have hn : ‖(⟨a, b⟩ : ℂ)‖ = 1 := by
    rw [Complex.norm_eq_sqrt_sq_add_sq]
    simp [h]
  have hne : (⟨a, b⟩ : ℂ) ≠ 0 := by
    intro e
    rw [e] at hn
    simp at hn
  have hc := Complex.cos_arg hne
  have hs := Complex.sin_arg (⟨a, b⟩ : ℂ)
  rw [hn, div_one] at hc hs
  by_cases hp : 0 ≤ Complex.arg ⟨a, b⟩
  · exact ⟨_, hp, by have := Complex.arg_le_pi ⟨a, b⟩; linarith [Real.pi_pos], hc, hs⟩
  · refine ⟨Complex.arg ⟨a, b⟩ + 2 * Real.pi, ?_, by linarith, ?_, ?_⟩
    · have := Complex.neg_pi_lt_arg ⟨a, b⟩; linarith [Real.pi_pos]
    · rw [Real.cos_add_two_pi]; exact hc
    · rw [Real.sin_add_two_pi]; exact hs

theorem sq_add_sq_zero {a b : ℝ} (h : a ^ 2 + b ^ 2 = 0) : a = 0 ∧ b = 0 := by
  constructor <;> nlinarith [sq_nonneg a, sq_nonneg b]

theorem expand_sq {e u v d : Point} {a b mu : ℝ} (ex : e.x = a * u.x + b * v.x + mu * d.x)
    (ey : e.y = a * u.y + b * v.y + mu * d.y) (ez : e.z = a * u.z + b * v.z + mu * d.z) :
    e.x ^ 2 + e.y ^ 2 + e.z ^ 2 = a * cosAngle u e + b * cosAngle v e + mu * cosAngle d e := by
  calc e.x ^ 2 + e.y ^ 2 + e.z ^ 2 = e.x * e.x + e.y * e.y + e.z * e.z := by ring
    _ = e.x * (a * u.x + b * v.x + mu * d.x) + e.y * (a * u.y + b * v.y + mu * d.y)
        + e.z * (a * u.z + b * v.z + mu * d.z) := by rw [← ex, ← ey, ← ez]
    _ = _ := by unfold cosAngle; ring

/-- **C03** As the azimuth runs over `[0, 2π)` every direction making the requested
angle with the reference is produced. -/
theorem C03_cone_covered (d e : Direction) (hd : UnitVec d) (he : UnitVec e) :
    ∃ phi, 0 ≤ phi ∧ phi < 2 * Real.pi ∧ Direction.rotated d (cosAngle d e) phi = .ok e := by
  obtain ⟨u, v, hu, hv, hdu, hdv, huv, hvdef, h⟩ := Direction.rotated_ok hd
  set mu := cosAngle d e with hmu
  -- expansion of `e` in the orthonormal basis
  set w : Point := ⟨e.x - cosAngle u e * u.x - cosAngle v e * v.x - mu * d.x,
    e.y - cosAngle u e * u.y - cosAngle v e * v.y - mu * d.y,
    e.z - cosAngle u e * u.z - cosAngle v e * v.z - mu * d.z⟩ with hw
  have hwd : cosAngle d w = 0 := by
    have : cosAngle d w = cosAngle d e - cosAngle u e * cosAngle d u - cosAngle v e * cosAngle d v
        - mu * (d.x ^ 2 + d.y ^ 2 + d.z ^ 2) := by simp only [cosAngle, hw]; ring
    rw [this, hdu, hdv, hd, ← hmu]; ring
  have hwu : cosAngle u w = 0 := by
    have : cosAngle u w = cosAngle u e - cosAngle u e * (u.x ^ 2 + u.y ^ 2 + u.z ^ 2)
        - cosAngle v e * cosAngle u v - mu * cosAngle d u := by simp only [cosAngle, hw]; ring
    rw [this, hdu, huv, hu]; ring
  have hwv : cosAngle v w = 0 := by
    have : cosAngle v w = cosAngle v e - cosAngle u e * cosAngle u v
        - cosAngle v e * (v.x ^ 2 + v.y ^ 2 + v.z ^ 2) - mu * cosAngle d v := by
      simp only [cosAngle, hw]; ring
    rw [this, hdv, huv, hv]; ring
  have hw0 : w.x ^ 2 + w.y ^ 2 + w.z ^ 2 = 0 := by
    have hvx : v.x = d.y * u.z - d.z * u.y := by rw [hvdef]; rfl
    have hvy : v.y = d.z * u.x - d.x * u.z := by rw [hvdef]; rfl
    have hvz : v.z = d.x * u.y - d.y * u.x := by rw [hvdef]; rfl
    have h1 : v.y * w.z - v.z * w.y = u.x * cosAngle d w - d.x * cosAngle u w := by
      rw [hvy, hvz]; simp only [cosAngle]; ring
    have h2 : v.z * w.x - v.x * w.z = u.y * cosAngle d w - d.y * cosAngle u w := by
      rw [hvx, hvz]; simp only [cosAngle]; ring
    have h3 : v.x * w.y - v.y * w.x = u.z * cosAngle d w - d.z * cosAngle u w := by
      rw [hvx, hvy]; simp only [cosAngle]; ring
    rw [hwd, hwu] at h1 h2 h3
    unfold UnitVec at hv
    calc w.x ^ 2 + w.y ^ 2 + w.z ^ 2
        = (v.x ^ 2 + v.y ^ 2 + v.z ^ 2) * (w.x ^ 2 + w.y ^ 2 + w.z ^ 2) := by rw [hv]; ring
      _ = (v.y * w.z - v.z * w.y) ^ 2 + (v.z * w.x - v.x * w.z) ^ 2 + (v.x * w.y - v.y * w.x) ^ 2
          + (cosAngle v w) ^ 2 := by simp only [cosAngle]; ring
      _ = 0 := by rw [h1, h2, h3, hwv]; ring
  have wx : w.x = 0 := by nlinarith [sq_nonneg w.x, sq_nonneg w.y, sq_nonneg w.z]
  have wy : w.y = 0 := by nlinarith [sq_nonneg w.x, sq_nonneg w.y, sq_nonneg w.z]
  have wz : w.z = 0 := by nlinarith [sq_nonneg w.x, sq_nonneg w.y, sq_nonneg w.z]
  simp only [hw] at wx wy wz
  set a := cosAngle u e with ha
  set b := cosAngle v e with hb
  have hab : a ^ 2 + b ^ 2 = 1 - mu * mu := by
    have ex : e.x = a * u.x + b * v.x + mu * d.x := by linarith
    have ey : e.y = a * u.y + b * v.y + mu * d.y := by linarith
    have ez : e.z = a * u.z + b * v.z + mu * d.z := by linarith
    have := expand_sq ex ey ez
    unfold UnitVec at he
    rw [he, ← ha, ← hb, ← hmu] at this
    linarith
  have hn : 0 ≤ 1 - mu * mu := by rw [← hab]; positivity
  obtain ⟨h1, h2⟩ := abs_le.1 (abs_le_one_iff_mul_self_le_one.2 (sub_nonneg.1 hn))
  by_cases hz : 1 - mu * mu = 0
  · obtain ⟨ha0, hb0⟩ := sq_add_sq_zero (hab.trans hz)
    refine ⟨0, le_refl _, by linarith [Real.pi_pos], ?_⟩
    rw [h mu 0 h1 h2, hz, Real.sqrt_zero]
    congr 1
    ext <;> simp
    · rw [ha0, hb0] at wx; linarith
    · rw [ha0, hb0] at wy; linarith
    · rw [ha0, hb0] at wz; linarith
  · have hpos : 0 < 1 - mu * mu := lt_of_le_of_ne hn (Ne.symm hz)
    have hs : 0 < Real.sqrt (1 - mu * mu) := Real.sqrt_pos.2 hpos
    have hss := Real.sq_sqrt hn
    obtain ⟨phi, hp0, hp1, hc, hsn⟩ := exists_azimuth
      (a := a / Real.sqrt (1 - mu * mu)) (b := b / Real.sqrt (1 - mu * mu)) (by
        rw [div_pow, div_pow, ← add_div, hab, hss, div_self hz])
    refine ⟨phi, hp0, hp1, ?_⟩
    rw [h mu phi h1 h2, hc, hsn]
    have e1 : Real.sqrt (1 - mu * mu) * (a / Real.sqrt (1 - mu * mu)) = a := mul_div_cancel₀ _ hs.ne'
    have e2 : Real.sqrt (1 - mu * mu) * (b / Real.sqrt (1 - mu * mu)) = b := mul_div_cancel₀ _ hs.ne'
    rw [e1, e2]
    congr 1
    ext <;> simp <;> linarith

/-- Scattering by 60 degrees from a direction close to the x axis (second branch of the
auxiliary axis) and one far from it (first branch). -/
example : (∃ r, Direction.rotated ⟨1, 0, 0⟩ (1 / 2) 1 = .ok r ∧ UnitVec r ∧
      cosAngle ⟨1, 0, 0⟩ r = 1 / 2) ∧
    (∃ r, Direction.rotated ⟨0, 3 / 5, 4 / 5⟩ (1 / 2) 1 = .ok r ∧ UnitVec r ∧
      cosAngle ⟨0, 3 / 5, 4 / 5⟩ r = 1 / 2) :=
  ⟨C03_rotated_direction ⟨1, 0, 0⟩ (1 / 2) 1 (by norm_num [UnitVec]) (by norm_num) (by norm_num),
   C03_rotated_direction ⟨0, 3 / 5, 4 / 5⟩ (1 / 2) 1 (by norm_num [UnitVec]) (by norm_num)
    (by norm_num)⟩

end Minimc.Props
