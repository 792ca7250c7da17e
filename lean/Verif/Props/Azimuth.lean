import Verif.Model.Particle
import Verif.Lemmas.Point
import Verif.Spec.Rotation
import Mathlib.MeasureTheory.Measure.Lebesgue.Basic
import Mathlib.Analysis.SpecialFunctions.Trigonometric.Basic

/-! # C03: the azimuth of scattering -/

namespace Minimc.Props

open Minimc.Spec MeasureTheory

/-- The measure in a period does not depend on where the period starts. -/
theorem volume_period {A : Set ℝ} (hA : ∀ u, u + 1 ∈ A ↔ u ∈ A) {c : ℝ} (h0 : 0 ≤ c) (h1 : c ≤ 1) :
    volume {u | 0 ≤ u ∧ u < 1 ∧ u + c ∈ A} = volume {u | 0 ≤ u ∧ u < 1 ∧ u ∈ A} := by
  have e1 : {u | 0 ≤ u ∧ u < 1 ∧ u + c ∈ A} = (· + c) ⁻¹' (A ∩ Set.Ico c (1 + c)) := by
    ext u
    simp only [Set.mem_ofPred_eq, Set.mem_preimage, Set.mem_inter_iff, Set.mem_Ico]
    constructor
    · rintro ⟨a, b, h⟩; exact ⟨h, by linarith, by linarith⟩
    · rintro ⟨h, a, b⟩; exact ⟨by linarith, by linarith, h⟩
  have e2 : {u | 0 ≤ u ∧ u < 1 ∧ u ∈ A} = A ∩ Set.Ico 0 1 := by
    ext u
    simp only [Set.mem_ofPred_eq, Set.mem_inter_iff, Set.mem_Ico]
    tauto
  have e3 : A ∩ Set.Ico 0 c = (· + 1) ⁻¹' (A ∩ Set.Ico 1 (1 + c)) := by
    ext u
    simp only [Set.mem_preimage, Set.mem_inter_iff, Set.mem_Ico, hA]
    constructor
    · rintro ⟨h, a, b⟩; exact ⟨h, by linarith, by linarith⟩
    · rintro ⟨h, a, b⟩; exact ⟨h, by linarith, by linarith⟩
  have s1 := measure_inter_add_sdiff (μ := volume) (A ∩ Set.Ico c (1 + c)) (measurableSet_Iio (a := (1 : ℝ)))
  have s2 := measure_inter_add_sdiff (μ := volume) (A ∩ Set.Ico 0 1) (measurableSet_Iio (a := c))
  have i1 : A ∩ Set.Ico c (1 + c) ∩ Set.Iio 1 = A ∩ Set.Ico c 1 := by
    ext u
    simp only [Set.mem_inter_iff, Set.mem_Ico, Set.mem_Iio]
    constructor
    · rintro ⟨⟨h, a, b⟩, k⟩; exact ⟨h, a, k⟩
    · rintro ⟨h, a, b⟩; exact ⟨⟨h, a, by linarith⟩, b⟩
  have i2 : (A ∩ Set.Ico c (1 + c)) \ Set.Iio 1 = A ∩ Set.Ico 1 (1 + c) := by
    ext u
    simp only [Set.mem_inter_iff, Set.mem_Ico, Set.mem_Iio, Set.mem_sdiff, not_lt]
    constructor
    · rintro ⟨⟨h, a, b⟩, k⟩; exact ⟨h, k, b⟩
    · rintro ⟨h, a, b⟩; exact ⟨⟨h, by linarith, b⟩, a⟩
  have i3 : A ∩ Set.Ico 0 1 ∩ Set.Iio c = A ∩ Set.Ico 0 c := by
    ext u
    simp only [Set.mem_inter_iff, Set.mem_Ico, Set.mem_Iio]
    constructor
    · rintro ⟨⟨h, a, b⟩, k⟩; exact ⟨h, a, k⟩
    · rintro ⟨h, a, b⟩; exact ⟨⟨h, a, by linarith⟩, b⟩
  have i4 : (A ∩ Set.Ico 0 1) \ Set.Iio c = A ∩ Set.Ico c 1 := by
    ext u
    simp only [Set.mem_inter_iff, Set.mem_Ico, Set.mem_Iio, Set.mem_sdiff, not_lt]
    constructor
    · rintro ⟨⟨h, a, b⟩, k⟩; exact ⟨h, k, b⟩
    · rintro ⟨h, a, b⟩; exact ⟨⟨h, by linarith, b⟩, a⟩
  rw [i1, i2] at s1
  rw [i3, i4] at s2
  rw [e1, e2, measure_preimage_add_right, ← s1, ← s2, e3, measure_preimage_add_right, add_comm]

/-- The measure in a period does not change when the set is moved. -/
theorem volume_period_fract {A : Set ℝ} (hA : ∀ u, u + 1 ∈ A ↔ u ∈ A) (c : ℝ) :
    volume {u | 0 ≤ u ∧ u < 1 ∧ u + c ∈ A} = volume {u | 0 ≤ u ∧ u < 1 ∧ u ∈ A} := by
  rw [← volume_period hA (Int.fract_nonneg c) (Int.fract_lt_one c).le]
  have hn : ∀ (n : ℕ) (u : ℝ), u + n ∈ A ↔ u ∈ A := by
    intro n
    induction n with
    | zero => simp
    | succ n ih => intro u; rw [Nat.cast_succ, ← add_assoc, hA, ih]
  have hz : ∀ (n : ℤ) (u : ℝ), u + n ∈ A ↔ u ∈ A := by
    intro n u
    cases n with
    | ofNat n => simpa using hn n u
    | negSucc n =>
      have := hn (n + 1) (u + ((Int.negSucc n : ℤ) : ℝ))
      rw [← this]
      simp [Int.negSucc_eq, add_assoc]
  congr 1
  ext u
  simp only [Set.mem_ofPred_eq]
  have : u + c = u + Int.fract c + (⌊c⌋ : ℤ) := by rw [add_assoc, Int.fract_add_floor]
  rw [this, hz]

/-- **C03** Scattering by a given cosine turns the direction of a particle to one that is made of the
next uniform number of its generator by a formula that gives, if the number is uniform, directions that
have that cosine and are distributed evenly about the former direction: the distribution stays the same
when they are turned about it. -/
theorem C03_scatter_azimuth {d : Direction} (hd : UnitVec d) {mu : ℝ} (h1 : -1 ≤ mu) (h2 : mu ≤ 1) :
    ∃ a b : Direction,
      (∀ (p : Particle) (e : Energy), p.direction = d → p.scatter mu e =
        .ok { p with direction := tilted a b d mu (Rng.canonical p.rng).1, energy := e,
                     rng := (Rng.canonical p.rng).2 }) ∧
      (∀ u, UnitVec (tilted a b d mu u) ∧ cosAngle d (tilted a b d mu u) = mu) ∧
      ∀ (angle : ℝ) (S : Set Point),
        volume {u | 0 ≤ u ∧ u < 1 ∧ turned d angle (tilted a b d mu u) ∈ S} =
          volume {u | 0 ≤ u ∧ u < 1 ∧ tilted a b d mu u ∈ S} := by
  obtain ⟨a, b, ha, hb, hda, hdb, hab, hbdef, h⟩ := Direction.rotated_ok hd
  set s := Real.sqrt (1 - mu * mu) with hs
  set f : ℝ → Direction := fun u => a.smul (s * Real.cos (2 * Real.pi * u))
          + b.smul (s * Real.sin (2 * Real.pi * u)) + d.smul mu with hf
  have hft : ∀ u, tilted a b d mu u = f u := by
    intro u
    simp only [tilted, hf, hs, sq]
    ext <;> simp only [Point.smul, Point.add_x, Point.add_y, Point.add_z] <;> ring
  have hunit : ∀ u, UnitVec (f u) ∧ cosAngle d (f u) = mu := by
    intro u
    have hs2 : s ^ 2 = 1 - mu * mu := Real.sq_sqrt (by nlinarith)
    have hc := Real.cos_sq_add_sin_sq (2 * Real.pi * u)
    have hfx : (f u) = a.smul (s * Real.cos (2 * Real.pi * u))
          + b.smul (s * Real.sin (2 * Real.pi * u)) + d.smul mu := rfl
    rw [hfx]
    generalize Real.cos (2 * Real.pi * u) = c at *
    generalize Real.sin (2 * Real.pi * u) = n at *
    unfold UnitVec cosAngle at *
    simp only [Point.smul, Point.add_x, Point.add_y, Point.add_z]
    constructor
    · calc _ = s ^ 2 * c ^ 2 * (a.x ^ 2 + a.y ^ 2 + a.z ^ 2) +
            s ^ 2 * n ^ 2 * (b.x ^ 2 + b.y ^ 2 + b.z ^ 2) + mu ^ 2 * (d.x ^ 2 + d.y ^ 2 + d.z ^ 2) +
            2 * s ^ 2 * c * n * (a.x * b.x + a.y * b.y + a.z * b.z) +
            2 * s * c * mu * (d.x * a.x + d.y * a.y + d.z * a.z) +
            2 * s * n * mu * (d.x * b.x + d.y * b.y + d.z * b.z) := by ring
        _ = s ^ 2 * (c ^ 2 + n ^ 2) + mu ^ 2 := by rw [ha, hb, hd, hab, hda, hdb]; ring
        _ = 1 := by rw [hc, hs2]; ring
    · calc _ = s * c * (d.x * a.x + d.y * a.y + d.z * a.z) +
            s * n * (d.x * b.x + d.y * b.y + d.z * b.z) + mu * (d.x ^ 2 + d.y ^ 2 + d.z ^ 2) := by ring
        _ = mu := by rw [hda, hdb, hd]; ring
  refine ⟨a, b, ?_⟩
  simp only [hft]
  refine ⟨?_, hunit, ?_⟩
  · intro p e hp
    unfold Particle.scatter Particle.sample
    simp only [hp, h mu _ h1 h2, bind, Except.bind]
    rfl
  · intro angle S
    have hturn : ∀ u, turned d angle (f u) = f (u + angle / (2 * Real.pi)) := by
      intro u
      have he : 2 * Real.pi * (u + angle / (2 * Real.pi)) = 2 * Real.pi * u + angle := by
        field_simp
      have hdot : cosAngle d (f u) = mu := (hunit u).2
      unfold turned
      rw [hdot]
      simp only [hf, he, Real.cos_add, Real.sin_add]
      generalize Real.cos (2 * Real.pi * u) = c at *
      generalize Real.sin (2 * Real.pi * u) = n at *
      generalize Real.cos angle = C
      generalize Real.sin angle = N
      have bx : b.x = d.y * a.z - d.z * a.y := by rw [hbdef]; rfl
      have bY : b.y = d.z * a.x - d.x * a.z := by rw [hbdef]; rfl
      have bz : b.z = d.x * a.y - d.y * a.x := by rw [hbdef]; rfl
      unfold UnitVec cosAngle at *
      have ax : d.y * b.z - d.z * b.y = - a.x := by
        rw [bY, bz]; linear_combination d.x * hda - a.x * hd
      have ay : d.z * b.x - d.x * b.z = - a.y := by
        rw [bx, bz]; linear_combination d.y * hda - a.y * hd
      have az : d.x * b.y - d.y * b.x = - a.z := by
        rw [bx, bY]; linear_combination d.z * hda - a.z * hd
      ext
      · simp only [Point.smul, Point.add_x, Point.add_y, Point.add_z]
        linear_combination (-(s * c * N)) * bx + s * n * N * ax
      · simp only [Point.smul, Point.add_x, Point.add_y, Point.add_z]
        linear_combination (-(s * c * N)) * bY + s * n * N * ay
      · simp only [Point.smul, Point.add_x, Point.add_y, Point.add_z]
        linear_combination (-(s * c * N)) * bz + s * n * N * az
    have hper : ∀ u, f (u + 1) = f u := by
      intro u
      simp only [hf, mul_add, mul_one, Real.cos_add_two_pi, Real.sin_add_two_pi]
    simp only [hturn]
    exact volume_period_fract (A := {u | f u ∈ S}) (fun u => by simp [hper]) _

/-- A neutron that flies along the first axis is scattered by the cosine one half. -/
example : ∃ a b : Direction,
    (∀ u, UnitVec (tilted a b ⟨1, 0, 0⟩ (1 / 2) u) ∧
      cosAngle ⟨1, 0, 0⟩ (tilted a b ⟨1, 0, 0⟩ (1 / 2) u) = 1 / 2) ∧
    ∀ S : Set Point,
      volume {u | 0 ≤ u ∧ u < 1 ∧
        turned ⟨1, 0, 0⟩ (Real.pi / 2) (tilted a b ⟨1, 0, 0⟩ (1 / 2) u) ∈ S} =
      volume {u | 0 ≤ u ∧ u < 1 ∧ tilted a b ⟨1, 0, 0⟩ (1 / 2) u ∈ S} := by
  obtain ⟨a, b, -, h1, h2⟩ := C03_scatter_azimuth (d := ⟨1, 0, 0⟩) (mu := 1 / 2)
    (by norm_num [UnitVec]) (by norm_num) (by norm_num)
  exact ⟨a, b, h1, fun S => h2 _ S⟩

end Minimc.Props
