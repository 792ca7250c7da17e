import Verif.Lemmas.RoundedDirection
import Verif.Model.RoundedDirection
import Verif.Model.Underflow
import Verif.Props.RoundedDirection
import Verif.Spec.RoundedDirection

/-!
# Directions with small components
-/

namespace Minimc.Props

open Minimc

/-- A number that rounds to an integer. -/
theorem nearestEven_of {y : ℝ} {n : ℤ} (hn : |(n : ℝ) - y| < 1 / 2) : nearestEven y = n := by
  have h3 := nearestEven_le y n
  have h4 : |((nearestEven y - n : ℤ) : ℝ)| < 1 := by
    push_cast
    have h5 := lt_of_le_of_lt h3 hn
    rw [abs_lt] at h5 hn ⊢
    constructor <;> linarith [h5.1, h5.2, hn.1, hn.2]
  have h6 : |nearestEven y - n| < 1 := by exact_mod_cast h4
  have := Int.abs_lt_one_iff.1 h6
  omega

/-- Small numbers are rounded to multiples of the least double. -/
theorem gradual_of {x : ℝ} (n : ℤ) (hx : |x| < (2 : ℝ) ^ (-1022 : ℤ))
    (hn : |(n : ℝ) - x / (2 : ℝ) ^ (-1074 : ℤ)| < 1 / 2) : gradual x = n * (2 : ℝ) ^ (-1074 : ℤ) := by
  unfold gradual
  rw [if_pos hx, nearestEven_of hn]

/-- Zero and numbers that are not small are rounded as without underflow. -/
theorem gradual_eq {x : ℝ} (hx : x = 0 ∨ (2 : ℝ) ^ (-1022 : ℤ) ≤ |x|) : gradual x = double x := by
  rcases hx with rfl | hx
  · rw [double_nearest.zero, gradual_of 0 (by rw [abs_zero]; positivity) (by norm_num)]
    simp
  · unfold gradual
    rw [if_neg (not_lt.2 hx)]

theorem gradual_zero : gradual 0 = 0 := by rw [gradual_eq (.inl rfl), double_nearest.zero]

theorem two_zpow_mul (a b : ℤ) : (2 : ℝ) ^ a * (2 : ℝ) ^ b = (2 : ℝ) ^ (a + b) :=
  (zpow_add₀ two_ne_zero a b).symm

theorem sqrt_two_zpow (a : ℤ) : Real.sqrt ((2 : ℝ) ^ (a + a)) = (2 : ℝ) ^ a := by
  rw [zpow_add₀ two_ne_zero]
  exact Real.sqrt_mul_self (by positivity)

/-- **C116** That every vector other than zero is normalized is false with underflow: the square of
`2 ^ -540` is zero, and the direction is not a number.  Without underflow it would be. -/
theorem C116_violated : ∃ v d : Point, IsDouble v.x ∧ 0 < v.x ∧ v.y = 0 ∧ v.z = 0 ∧
    Rounded.normalize double v = .ok d ∧ Spec.NearlyUnit d ∧ Rounded.normalize gradual v = .error .nan := by
  have h := double_nearest
  have hd (e : ℤ) : IsDouble ((2 : ℝ) ^ e) := ⟨1, e, by norm_num, by simp⟩
  refine ⟨⟨(2 : ℝ) ^ (-540 : ℤ), 0, 0⟩, ⟨1, 0, 0⟩, hd _, by positivity, rfl, rfl, ?_, by norm_num [Spec.NearlyUnit], ?_⟩
  · unfold Rounded.normalize Rounded.dot
    simp only [mul_zero, h.zero, add_zero, two_zpow_mul, h.self (hd _), zero_div]
    rw [if_neg (by positivity), sqrt_two_zpow, h.self (hd _), div_self (by positivity), h.one]
  · unfold Rounded.normalize Rounded.dot
    have : gradual ((2 : ℝ) ^ (-540 + -540 : ℤ)) = 0 := by
      rw [gradual_of 0 ?_ ?_, Int.cast_zero, zero_mul]
      · rw [abs_of_pos (by positivity)]
        exact zpow_lt_zpow_right₀ one_lt_two (by norm_num)
      · rw [div_eq_mul_inv, ← zpow_neg, two_zpow_mul]
        norm_num [abs_lt]
    simp only [mul_zero, gradual_zero, add_zero, two_zpow_mul, this, if_true]

/-- **C116** With underflow the length of a direction can be other than one: here it is `9 / 8`. -/
theorem C116_length_violated : ∃ v d : Point, IsDouble v.x ∧ 0 < v.x ∧ v.y = 0 ∧ v.z = 0 ∧
    Rounded.normalize gradual v = .ok d ∧ d = ⟨9 / 8, 0, 0⟩ ∧ ¬ Spec.NearlyUnit d := by
  have h := double_nearest
  have hp : (0 : ℝ) < (2 : ℝ) ^ (-537 : ℤ) := by positivity
  have hd (e : ℤ) : IsDouble ((2 : ℝ) ^ e) := ⟨1, e, by norm_num, by simp⟩
  have big {x : ℝ} (hx : (2 : ℝ) ^ (-1022 : ℤ) ≤ x) : gradual x = double x :=
    gradual_eq (.inr (hx.trans (le_abs_self _)))
  refine ⟨⟨9 / 8 * (2 : ℝ) ^ (-537 : ℤ), 0, 0⟩, ⟨9 / 8, 0, 0⟩, ⟨9, -540, by norm_num, ?_⟩, by positivity, rfl, rfl, ?_,
    rfl, ?_⟩
  · rw [show (-540 : ℤ) = -3 + -537 by norm_num, ← two_zpow_mul, show (2 : ℝ) ^ (-3 : ℤ) = 1 / 8 by norm_num]
    push_cast
    ring
  · unfold Rounded.normalize Rounded.dot
    have e1 : 9 / 8 * (2 : ℝ) ^ (-537 : ℤ) * (9 / 8 * (2 : ℝ) ^ (-537 : ℤ)) = 81 / 64 * (2 : ℝ) ^ (-1074 : ℤ) := by
      rw [show (-1074 : ℤ) = -537 + -537 by norm_num, ← two_zpow_mul]
      ring
    have q : (0 : ℝ) < (2 : ℝ) ^ (-1074 : ℤ) := by positivity
    have lt : (2 : ℝ) * (2 : ℝ) ^ (-1074 : ℤ) < (2 : ℝ) ^ (-1022 : ℤ) := by
      have : (2 : ℝ) * (2 : ℝ) ^ (-1074 : ℤ) = (2 : ℝ) ^ (-1073 : ℤ) := by
        rw [show (-1073 : ℤ) = 1 + -1074 by norm_num, ← two_zpow_mul, zpow_one]
      rw [this]
      exact zpow_lt_zpow_right₀ one_lt_two (by norm_num)
    have g1 : gradual (81 / 64 * (2 : ℝ) ^ (-1074 : ℤ)) = (2 : ℝ) ^ (-1074 : ℤ) := by
      rw [gradual_of 1, Int.cast_one, one_mul]
      · rw [abs_of_pos (by positivity)]
        linarith
      · rw [mul_div_assoc, div_self q.ne']
        norm_num [abs_lt]
    have g2 : gradual ((2 : ℝ) ^ (-1074 : ℤ)) = (2 : ℝ) ^ (-1074 : ℤ) := by
      rw [gradual_of 1, Int.cast_one, one_mul]
      · rw [abs_of_pos q]
        linarith
      · rw [div_self q.ne']
        norm_num
    have g3 : gradual ((2 : ℝ) ^ (-537 : ℤ)) = (2 : ℝ) ^ (-537 : ℤ) := by
      rw [big (zpow_le_zpow_right₀ one_le_two (by norm_num)), h.self (hd _)]
    have g4 : gradual (9 / 8) = 9 / 8 := by
      rw [big ?_, h.self ⟨9, -3, by norm_num, by norm_num⟩]
      exact (zpow_le_one_of_nonpos₀ one_le_two (by norm_num)).trans (by norm_num)
    simp only [mul_zero, gradual_zero, add_zero, e1, g1, g2, zero_div]
    rw [if_neg q.ne', show (-1074 : ℤ) = -537 + -537 by norm_num, sqrt_two_zpow, g3, mul_div_assoc,
      div_self hp.ne', mul_one, g4]
  · unfold Spec.NearlyUnit
    norm_num [abs_le]

/-- With components that are zero or between `2 ^ -500` and `2 ^ 500` there is no underflow. -/
theorem normalize_gradual {p : Point} (hp : ∀ c ∈ [p.x, p.y, p.z], c = 0 ∨
    ((2 : ℝ) ^ (-500 : ℤ) ≤ |c| ∧ |c| ≤ (2 : ℝ) ^ (500 : ℤ))) :
    Rounded.normalize gradual p = Rounded.normalize double p := by
  have h := double_nearest
  have hd (e : ℤ) : IsDouble ((2 : ℝ) ^ e) := ⟨1, e, by norm_num, by simp⟩
  have up {a b : ℤ} (hab : a ≤ b) : (2 : ℝ) ^ a ≤ (2 : ℝ) ^ b := zpow_le_zpow_right₀ one_le_two hab
  -- numbers that are zero or not small, and at most a power of two
  let G (e : ℤ) (x : ℝ) : Prop := (x = 0 ∨ (2 : ℝ) ^ (-1000 : ℤ) ≤ x) ∧ 0 ≤ x ∧ x ≤ (2 : ℝ) ^ e
  have gEq {e : ℤ} {x : ℝ} (hx : G e x) : gradual x = double x :=
    gradual_eq (hx.1.imp id (fun h1 => (up (by norm_num)).trans (h1.trans (le_abs_self _))))
  have gRnd {e : ℤ} {x : ℝ} (hx : G e x) : G e (double x) := by
    refine ⟨hx.1.imp (fun h0 => by rw [h0, h.zero]) (fun h1 => ?_), h.nonneg hx.2.1, ?_⟩
    · have := h.mono h1
      rwa [h.self (hd _)] at this
    · have := h.mono hx.2.2
      rwa [h.self (hd _)] at this
  have gAdd {e : ℤ} {x y : ℝ} (hx : G e x) (hy : G e y) : G (e + 1) (x + y) := by
    refine ⟨?_, add_nonneg hx.2.1 hy.2.1, ?_⟩
    · rcases hx.1 with h0 | h1
      · rw [h0, zero_add]
        exact hy.1
      · exact .inr (by linarith [hy.2.1])
    · rw [zpow_add₀ two_ne_zero, zpow_one]
      linarith [hx.2.2, hy.2.2]
  have gUp {e : ℤ} {x : ℝ} (hx : G e x) : G (e + 1) x := ⟨hx.1, hx.2.1, hx.2.2.trans (up (by omega))⟩
  have gSq {c : ℝ} (hc : c ∈ [p.x, p.y, p.z]) : G 1000 (c * c) := by
    rcases hp c hc with h0 | ⟨h1, h2⟩
    · rw [h0, mul_zero]
      exact ⟨.inl rfl, le_rfl, by positivity⟩
    · rw [← abs_mul_abs_self]
      refine ⟨.inr ?_, by positivity, ?_⟩
      · rw [show (-1000 : ℤ) = -500 + -500 by norm_num, ← two_zpow_mul]
        exact mul_le_mul h1 h1 (by positivity) (abs_nonneg _)
      · rw [show (1000 : ℤ) = 500 + 500 by norm_num, ← two_zpow_mul]
        exact mul_le_mul h2 h2 (abs_nonneg _) (by positivity)
  have s1 := gSq (c := p.x) (by simp)
  have s2 := gSq (c := p.y) (by simp)
  have s3 := gSq (c := p.z) (by simp)
  have a1 := gAdd (gRnd s1) (gRnd s2)
  have a2 := gAdd (gRnd a1) (gUp (gRnd s3))
  have hdot : Rounded.dot gradual p p = Rounded.dot double p p := by
    unfold Rounded.dot
    rw [gEq s1, gEq s2, gEq s3, gEq a1, gEq a2]
  have hG : G (1000 + 1 + 1) (Rounded.dot double p p) := gRnd a2
  unfold Rounded.normalize
  rw [hdot]
  by_cases h0 : Rounded.dot double p p = 0
  · rw [if_pos h0, if_pos h0]
  · rw [if_neg h0, if_neg h0]
    set D := Rounded.dot double p p
    have hD := hG.1.resolve_left h0
    have r1 : (2 : ℝ) ^ (-500 : ℤ) ≤ Real.sqrt D := by
      rw [← sqrt_two_zpow]
      exact Real.sqrt_le_sqrt hD
    have r2 : Real.sqrt D ≤ (2 : ℝ) ^ (501 : ℤ) := by
      rw [← sqrt_two_zpow]
      exact Real.sqrt_le_sqrt hG.2.2
    have r3 := h.mono r1
    have r4 := h.mono r2
    rw [h.self (hd _)] at r3 r4
    have hroot : gradual (Real.sqrt D) = double (Real.sqrt D) :=
      gradual_eq (.inr ((up (by norm_num)).trans (r1.trans (le_abs_self _))))
    rw [hroot]
    set r := double (Real.sqrt D)
    have rpos : 0 < r := lt_of_lt_of_le (by positivity) r3
    have quot {c : ℝ} (hc : c ∈ [p.x, p.y, p.z]) : gradual (c / r) = double (c / r) := by
      refine gradual_eq ((hp c hc).imp (fun h0 => by rw [h0, zero_div]) (fun hc' => ?_))
      rw [abs_div, abs_of_pos rpos, le_div_iff₀ rpos]
      calc (2 : ℝ) ^ (-1022 : ℤ) * r ≤ (2 : ℝ) ^ (-1022 : ℤ) * (2 : ℝ) ^ (501 : ℤ) :=
            mul_le_mul_of_nonneg_left r4 (by positivity)
        _ = (2 : ℝ) ^ (-521 : ℤ) := by rw [two_zpow_mul]; norm_num
        _ ≤ (2 : ℝ) ^ (-500 : ℤ) := up (by norm_num)
        _ ≤ |c| := hc'.1
    simp only
    rw [quot (c := p.x) (by simp), quot (c := p.y) (by simp), quot (c := p.z) (by simp)]

/-- **C116** What holds of it: a vector other than zero with components that are zero or between `2 ^ -500` and
`2 ^ 500` gives a unit vector, each component of which is accurate to `2 ^ -50`. -/
theorem C116_partial {p : Point} (hne : p ≠ ⟨0, 0, 0⟩) (hp : ∀ c ∈ [p.x, p.y, p.z], c = 0 ∨
    ((2 : ℝ) ^ (-500 : ℤ) ≤ |c| ∧ |c| ≤ (2 : ℝ) ^ (500 : ℤ))) :
    ∃ q, Rounded.normalize gradual p = .ok q ∧ Spec.NearlyUnit q ∧
      |q.x - p.x / Real.sqrt (p.x ^ 2 + p.y ^ 2 + p.z ^ 2)| ≤ 1 / 2 ^ 50 ∧
      |q.y - p.y / Real.sqrt (p.x ^ 2 + p.y ^ 2 + p.z ^ 2)| ≤ 1 / 2 ^ 50 ∧
      |q.z - p.z / Real.sqrt (p.x ^ 2 + p.y ^ 2 + p.z ^ 2)| ≤ 1 / 2 ^ 50 := by
  rw [normalize_gradual hp]
  exact (C88_normalize double double_nearest p).1 hne

/-! ### Instances -/

/-- Instance of `C116_partial`: a vector with a zero component. -/
example : ∃ q, Rounded.normalize gradual ⟨3, 0, -4⟩ = .ok q ∧ |q.x - 3 / 5| ≤ 1 / 2 ^ 50 := by
  have one : (2 : ℝ) ^ (-500 : ℤ) ≤ 1 := zpow_le_one_of_nonpos₀ one_le_two (by norm_num)
  have two : (2 : ℝ) ^ (2 : ℤ) ≤ (2 : ℝ) ^ (500 : ℤ) := zpow_le_zpow_right₀ one_le_two (by norm_num)
  have four : (2 : ℝ) ^ (2 : ℤ) = 4 := by norm_num
  rw [four] at two
  have five : Real.sqrt (3 ^ 2 + 0 ^ 2 + (-4) ^ 2) = 5 := by
    rw [show (3 : ℝ) ^ 2 + 0 ^ 2 + (-4) ^ 2 = 5 ^ 2 by norm_num]
    exact Real.sqrt_sq (by norm_num)
  have hp : ∀ c ∈ [(3 : ℝ), 0, -4], c = 0 ∨ ((2 : ℝ) ^ (-500 : ℤ) ≤ |c| ∧ |c| ≤ (2 : ℝ) ^ (500 : ℤ)) := by
    intro c hc
    simp only [List.mem_cons, List.not_mem_nil, or_false] at hc
    rcases hc with rfl | rfl | rfl
    · exact .inr ⟨one.trans (by norm_num), le_trans (by norm_num) two⟩
    · exact .inl rfl
    · exact .inr ⟨one.trans (by norm_num), le_trans (by norm_num) two⟩
  obtain ⟨q, h1, -, h2, -⟩ := C116_partial (p := ⟨3, 0, -4⟩) (by simp) hp
  rw [five] at h2
  exact ⟨q, h1, h2⟩

end Minimc.Props
