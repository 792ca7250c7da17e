import Verif.Model.Rounded
import Verif.Lemmas.Double
import Verif.Lemmas.Rng

/-! # Lemmas on uniform numbers in double precision -/

namespace Minimc

namespace Rng

theorem canonical_eq (g : ℕ) : (canonical g).1 =
    (((next g : ℝ) - 1) + ((next (next g) : ℝ) - 1) * 2147483646) / (2147483646 * 2147483646) := by
  simp [canonical, range]

/-- The smallest and the largest uniform number. -/
theorem canonical_bounds {g : ℕ} (h : Valid g) :
    1899818558 / (2147483646 * 2147483646 : ℝ) ≤ (canonical g).1 ∧
      (canonical g).1 ≤ 1 - 1899818559 / (2147483646 * 2147483646 : ℝ) := by
  have h1 := valid_next h
  have h2 := valid_next h1
  rw [canonical_eq]
  have a1 : (1 : ℝ) ≤ next g := by exact_mod_cast h1.1
  have a2 : (next g : ℝ) ≤ 2147483646 := by exact_mod_cast h1.2
  constructor
  · rw [div_le_div_iff_of_pos_right (by norm_num)]
    rcases Nat.lt_or_ge 1 (next (next g)) with hg | hg
    · have : (2 : ℝ) ≤ next (next g) := by exact_mod_cast hg
      nlinarith
    · have e2 : next (next g) = 1 := le_antisymm hg h2.1
      have e1 : next g = 1899818559 :=
        next_inj h1 ⟨by norm_num, by norm_num⟩ (by rw [e2]; norm_num [next, mult, modulus])
      rw [e2, e1]; norm_num
  · rw [div_le_iff₀ (by norm_num)]
    rcases Nat.lt_or_ge (next (next g)) 2147483646 with hg | hg
    · have : (next (next g) : ℝ) ≤ 2147483645 := by
        have : next (next g) ≤ 2147483645 := by omega
        exact_mod_cast this
      have h3 : ((next (next g) : ℝ) - 1) * 2147483646 ≤ 2147483644 * 2147483646 := by
        nlinarith
      norm_num
      linarith
    · have e2 : next (next g) = 2147483646 := le_antisymm h2.2 hg
      have e1 : next g = 247665088 :=
        next_inj h1 ⟨by norm_num, by norm_num⟩ (by rw [e2]; norm_num [next, mult, modulus])
      rw [e2, e1]; norm_num

end Rng

namespace Rounded

variable {rnd : ℝ → ℝ}

theorem canonical_snd (g : ℕ) : (canonical rnd g).2 = Rng.next (Rng.next g) := rfl

/-- What the rounded computation gives before the final comparison with 1, and its error. -/
theorem canonical_err (h : Nearest rnd) {g : ℕ} (hg : Rng.Valid g) :
    |(canonical rnd g).1 - (Rng.canonical g).1| ≤ 5 / 2 ^ 53 * (Rng.canonical g).1 ∧
      IsDouble (canonical rnd g).1 := by
  have h1 := Rng.valid_next hg
  have h2 := Rng.valid_next h1
  have he := Rng.canonical_eq g
  obtain ⟨hlo, hhi⟩ := Rng.canonical_bounds hg
  set a : ℝ := (Rng.next g : ℝ) - 1 with ha
  set b : ℝ := (Rng.next (Rng.next g) : ℝ) - 1 with hb
  set e := (Rng.canonical g).1 with hedef
  have a0 : 0 ≤ a := by
    have : (1 : ℝ) ≤ Rng.next g := by exact_mod_cast h1.1
    linarith
  have b0 : 0 ≤ b := by
    have : (1 : ℝ) ≤ Rng.next (Rng.next g) := by exact_mod_cast h2.1
    linarith
  have da : IsDouble a := by
    obtain ⟨k, hk⟩ : ∃ k, Rng.next g = k + 1 := ⟨Rng.next g - 1, by have := h1.1; omega⟩
    have : a = (k : ℝ) := by rw [ha, hk]; push_cast; ring
    rw [this]
    refine IsDouble.nat ?_
    have := h1.2
    omega
  have dR : IsDouble (2147483646 : ℝ) := by
    have := IsDouble.nat (m := 2147483646) (by norm_num)
    simpa using this
  set R : ℝ := 2147483646 with hR
  have s1 : rnd (0 + rnd (a * 1)) = a := by rw [mul_one, zero_add, h.self da, h.self da]
  have t1 : rnd (1 * R) = R := by rw [one_mul, h.self dR]
  set t2 := rnd (R * R) with ht2
  set q := rnd (b * R) with hq
  set s2 := rnd (a + q) with hs2
  set r := rnd (s2 / t2) with hr
  have R0 : (0 : ℝ) < R := by norm_num [hR]
  have q1 := h.le_of_nonneg (x := b * R) (by positivity)
  have q2 := h.ge_of_nonneg (x := b * R) (by positivity)
  have q0 := h.nonneg (x := b * R) (by positivity)
  rw [← hq] at q0 q1 q2
  have s21 := h.le_of_nonneg (x := a + q) (by positivity)
  have s22 := h.ge_of_nonneg (x := a + q) (by positivity)
  have s20 := h.nonneg (x := a + q) (by positivity)
  rw [← hs2] at s20 s21 s22
  have t21 := h.le_of_nonneg (x := R * R) (by positivity)
  have t22 := h.ge_of_nonneg (x := R * R) (by positivity)
  have t20 := h.pos (x := R * R) (by positivity)
  rw [← ht2] at t20 t21 t22
  have r1 := h.le_of_nonneg (x := s2 / t2) (by positivity)
  have r2 := h.ge_of_nonneg (x := s2 / t2) (by positivity)
  rw [← hr] at r1 r2
  have hmul : a + b * R = e * (R * R) := by rw [he]; field_simp
  have e0 : 0 < e := lt_of_lt_of_le (by norm_num) hlo
  have eR : 0 < e * (R * R) := by positivity
  -- the sum
  have su : s2 ≤ e * (R * R) * ((1 + 1 / 2 ^ 53) * (1 + 1 / 2 ^ 53)) := by
    have : a + q ≤ (a + b * R) * (1 + 1 / 2 ^ 53) := by nlinarith
    rw [hmul] at this
    calc s2 ≤ (a + q) * (1 + 1 / 2 ^ 53) := s21
      _ ≤ (e * (R * R) * (1 + 1 / 2 ^ 53)) * (1 + 1 / 2 ^ 53) := by gcongr
      _ = _ := by ring
  have sl : e * (R * R) * ((1 - 1 / 2 ^ 53) * (1 - 1 / 2 ^ 53)) ≤ s2 := by
    have : (a + b * R) * (1 - 1 / 2 ^ 53) ≤ a + q := by nlinarith
    rw [hmul] at this
    have h3 : (0 : ℝ) ≤ 1 - 1 / 2 ^ 53 := by norm_num
    calc _ = (e * (R * R) * (1 - 1 / 2 ^ 53)) * (1 - 1 / 2 ^ 53) := by ring
      _ ≤ (a + q) * (1 - 1 / 2 ^ 53) := by gcongr
      _ ≤ s2 := s22
  -- the quotient
  have du : s2 / t2 ≤ e * (1 + (7 / 2) / 2 ^ 53) := by
    rw [div_le_iff₀ t20]
    calc s2 ≤ e * (R * R) * ((1 + 1 / 2 ^ 53) * (1 + 1 / 2 ^ 53)) := su
      _ ≤ e * (R * R) * ((1 + (7 / 2) / 2 ^ 53) * (1 - 1 / 2 ^ 53)) := by
        gcongr ?_ * ?_
        norm_num
      _ = e * (1 + (7 / 2) / 2 ^ 53) * (R * R * (1 - 1 / 2 ^ 53)) := by ring
      _ ≤ _ := by gcongr
  have dl : e * (1 - (7 / 2) / 2 ^ 53) ≤ s2 / t2 := by
    rw [le_div_iff₀ t20]
    have h3 : (0 : ℝ) ≤ 1 - (7 / 2) / 2 ^ 53 := by norm_num
    calc e * (1 - (7 / 2) / 2 ^ 53) * t2 ≤ e * (1 - (7 / 2) / 2 ^ 53) * (R * R * (1 + 1 / 2 ^ 53)) := by
          gcongr
      _ = e * (R * R) * ((1 - (7 / 2) / 2 ^ 53) * (1 + 1 / 2 ^ 53)) := by ring
      _ ≤ e * (R * R) * ((1 - 1 / 2 ^ 53) * (1 - 1 / 2 ^ 53)) := by
        gcongr ?_ * ?_
        norm_num
      _ ≤ s2 := sl
  have ru : r ≤ e * (1 + 5 / 2 ^ 53) := by
    calc r ≤ s2 / t2 * (1 + 1 / 2 ^ 53) := r1
      _ ≤ e * (1 + (7 / 2) / 2 ^ 53) * (1 + 1 / 2 ^ 53) := by gcongr
      _ = e * ((1 + (7 / 2) / 2 ^ 53) * (1 + 1 / 2 ^ 53)) := by ring
      _ ≤ e * (1 + 5 / 2 ^ 53) := by
        gcongr
        norm_num
  have rl : e * (1 - 5 / 2 ^ 53) ≤ r := by
    have h3 : (0 : ℝ) ≤ 1 - 1 / 2 ^ 53 := by norm_num
    calc e * (1 - 5 / 2 ^ 53) ≤ e * ((1 - (7 / 2) / 2 ^ 53) * (1 - 1 / 2 ^ 53)) := by
          gcongr
          norm_num
      _ = e * (1 - (7 / 2) / 2 ^ 53) * (1 - 1 / 2 ^ 53) := by ring
      _ ≤ s2 / t2 * (1 - 1 / 2 ^ 53) := by gcongr
      _ ≤ r := r2
  have rlt : r < 1 := by
    refine lt_of_le_of_lt ru ?_
    refine lt_of_le_of_lt (mul_le_mul_of_nonneg_right hhi (by norm_num)) ?_
    norm_num [hR]
  have hval : (canonical rnd g).1 = r := by
    have hrange : (Rng.range : ℝ) = R := by norm_num [Rng.range, hR]
    simp only [canonical, hrange, ← ha, ← hb, s1, t1, ← hq, ← hs2, ← ht2, ← hr]
    exact if_neg (by linarith)
  rw [hval]
  refine ⟨?_, h.isDouble _⟩
  rw [abs_le]
  constructor <;> linarith

/-- Uniform numbers keep a distance from 0 and 1 in double precision, too. -/
theorem canonical_mem (h : Nearest rnd) {g : ℕ} (hg : Rng.Valid g) :
    1 / 2 ^ 32 < (canonical rnd g).1 ∧ (canonical rnd g).1 < 1 - 1 / 2 ^ 32 := by
  obtain ⟨h1, _⟩ := canonical_err h hg
  obtain ⟨hlo, hhi⟩ := Rng.canonical_bounds hg
  obtain ⟨h3, h4⟩ := abs_le.1 h1
  constructor
  · have : (1 / 2 ^ 32 : ℝ) < 1899818558 / (2147483646 * 2147483646) * (1 - 5 / 2 ^ 53) := by norm_num
    nlinarith
  · have : (1 - 1899818559 / (2147483646 * 2147483646) : ℝ) * (1 + 5 / 2 ^ 53) < 1 - 1 / 2 ^ 32 := by
      norm_num
    nlinarith

end Rounded
end Minimc
