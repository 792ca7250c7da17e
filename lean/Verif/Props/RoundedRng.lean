import Verif.Lemmas.RoundedRng
import Mathlib.Analysis.Complex.ExponentialBounds

/-!
# Uniform random numbers in double precision

`std::generate_canonical` adds, multiplies and divides doubles.  For every way of rounding to
nearest, its result is a double strictly between 0 and 1 — by at least `2 ^ -32` on both sides —
and within five units of relative rounding error of the quotient computed without rounding.
-/

namespace Minimc.Props

open Minimc

/-- The result is a double, keeps its distance from 0 and from 1, is close to the exact quotient
and the generator moves as it does without rounding. -/
theorem C72_canonical (rnd : ℝ → ℝ) (h : Nearest rnd) {g : ℕ} (hg : Rng.Valid g) :
    IsDouble (Rounded.canonical rnd g).1 ∧
    1 / 2 ^ 32 < (Rounded.canonical rnd g).1 ∧ (Rounded.canonical rnd g).1 < 1 - 1 / 2 ^ 32 ∧
    |(Rounded.canonical rnd g).1 - (Rng.canonical g).1| ≤ 5 / 2 ^ 53 * (Rng.canonical g).1 ∧
    (Rounded.canonical rnd g).2 = (Rng.canonical g).2 :=
  ⟨(Rounded.canonical_err h hg).2, (Rounded.canonical_mem h hg).1, (Rounded.canonical_mem h hg).2,
    (Rounded.canonical_err h hg).1, rfl⟩

/-- Rounding to nearest with ties to even is one such way, and 1 is a valid state. -/
example : Nearest double ∧ Rng.Valid 1 := ⟨double_nearest, by norm_num, by norm_num⟩

/-- The exact bounds, attained: the smallest and the largest of all uniform numbers. -/
theorem C72_extremes :
    (∀ g, Rng.Valid g → 1899818558 / (2147483646 * 2147483646 : ℝ) ≤ (Rng.canonical g).1 ∧
      (Rng.canonical g).1 ≤ 1 - 1899818559 / (2147483646 * 2147483646 : ℝ)) ∧
    (∃ g, Rng.Valid g ∧ (Rng.canonical g).1 = 1899818558 / (2147483646 * 2147483646 : ℝ)) ∧
    (∃ g, Rng.Valid g ∧ (Rng.canonical g).1 = 1 - 1899818559 / (2147483646 * 2147483646 : ℝ)) := by
  refine ⟨fun g hg => Rng.canonical_bounds hg, ⟨225371434, ⟨by norm_num, by norm_num⟩, ?_⟩,
    ⟨1922112213, ⟨by norm_num, by norm_num⟩, ?_⟩⟩
  · rw [Rng.canonical_eq]
    norm_num [Rng.next, Rng.mult, Rng.modulus]
  · rw [Rng.canonical_eq]
    norm_num [Rng.next, Rng.mult, Rng.modulus]

/-- Flights are never longer than 22 mean free paths, whatever the material: with rate `lam` the
distances are at most `log (2147483646² / 1899818559) / lam`, and that one is sampled. -/
theorem C72_longest_flight {lam : ℝ} (hl : 0 < lam) :
    (∀ g, Rng.Valid g → ∃ d : ℝ, (Rng.exponential lam g).1 = (d : WithTop ℝ) ∧ 0 < d ∧
      lam * d ≤ Real.log (2147483646 ^ 2 / 1899818559) ∧ lam * d < 22) ∧
    (∃ g, Rng.Valid g ∧ (Rng.exponential lam g).1 =
      ((Real.log (2147483646 ^ 2 / 1899818559) / lam : ℝ) : WithTop ℝ)) := by
  have e22 : Real.log (2147483646 ^ 2 / 1899818559) < 22 := by
    rw [Real.log_lt_iff_lt_exp (by norm_num)]
    have h1 : (2.7182818283 : ℝ) ^ 22 < Real.exp 1 ^ 22 :=
      pow_lt_pow_left₀ Real.exp_one_gt_d9 (by norm_num) (by norm_num)
    rw [← Real.exp_nat_mul] at h1
    norm_num at h1 ⊢
    linarith
  have hval (u : ℝ) : -Real.log (1 - u) = Real.log (1 / (1 - u)) := by
    rw [one_div, Real.log_inv]
  constructor
  · intro g hg
    obtain ⟨hlo, hhi⟩ := Rng.canonical_bounds hg
    have h1 : (0 : ℝ) < 1899818559 / (2147483646 * 2147483646) := by norm_num
    have h2 : (0 : ℝ) < 1899818558 / (2147483646 * 2147483646) := by norm_num
    have hle : -Real.log (1 - (Rng.canonical g).1) ≤ Real.log (2147483646 ^ 2 / 1899818559) := by
      rw [hval]
      refine Real.log_le_log (by apply div_pos <;> linarith) ?_
      rw [div_le_iff₀ (by linarith)]
      have : (2147483646 ^ 2 / 1899818559 : ℝ) * (1899818559 / (2147483646 * 2147483646)) = 1 := by
        norm_num
      nlinarith
    refine ⟨-Real.log (1 - (Rng.canonical g).1) / lam, ?_, ?_, ?_, ?_⟩
    · simp [Rng.exponential, Rng.exponentialOf, hl.ne']
    · have := Real.log_neg (x := 1 - (Rng.canonical g).1) (by linarith) (by linarith)
      apply div_pos <;> linarith
    · rwa [mul_div_cancel₀ _ hl.ne']
    · rw [mul_div_cancel₀ _ hl.ne']
      linarith
  · obtain ⟨g, hg, he⟩ := C72_extremes.2.2
    refine ⟨g, hg, ?_⟩
    simp only [Rng.exponential, Rng.exponentialOf, hl.ne', if_false, he]
    rw [hval]
    norm_num

example : (0 : ℝ) < 3 / 2 := by norm_num

/-- Without rounding the computation is the one of the rest of the model. -/
theorem C72_exact {g : ℕ} (hg : Rng.Valid g) : Rounded.canonical id g = Rng.canonical g := by
  have h1 := (Rng.canonical_bounds hg).2
  have h2 := Rng.canonical_eq g
  have h3 : (Rounded.canonical id g).1 = (Rng.canonical g).1 := by
    simp only [Rounded.canonical, id, zero_add, one_mul, mul_one, Rng.range, Nat.cast_ofNat]
    rw [← h2]
    refine if_neg ?_
    have : (0 : ℝ) < 1899818559 / (2147483646 * 2147483646 : ℝ) := by norm_num
    push Not
    linarith
  exact Prod.ext h3 rfl

end Minimc.Props
