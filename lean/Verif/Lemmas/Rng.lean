import Verif.Model.Rng
import Mathlib.NumberTheory.LucasPrimality
import Mathlib.Tactic.ReduceModChar
import Mathlib.GroupTheory.OrderOfElement
import Mathlib.FieldTheory.Finite.Basic

/-! Helper lemmas about the generator. -/

namespace Minimc.Rng

theorem lit_ne_one {r : ℕ} (hr : 1 < r) (hr' : r < 2147483647) :
    ((r : ℕ) : ZMod 2147483647) ≠ 1 := by
  intro h1
  have h2 : (r : ZMod 2147483647) = ((1 : ℕ) : ZMod 2147483647) := by simpa using h1
  rw [ZMod.natCast_eq_natCast_iff', Nat.mod_eq_of_lt hr'] at h2
  norm_num at h2
  omega

theorem factor_range : (2147483647 - 1 : ℕ) = 2 * 3 ^ 2 * 7 * 11 * 31 * 151 * 331 := by norm_num

theorem prime_factor_cases {q : ℕ} (hq : q.Prime) (hd : q ∣ 2147483647 - 1) :
    q = 2 ∨ q = 3 ∨ q = 7 ∨ q = 11 ∨ q = 31 ∨ q = 151 ∨ q = 331 := by
  rw [factor_range] at hd
  have p2 : Nat.Prime 2 := by norm_num
  have p3 : Nat.Prime 3 := by norm_num
  have p7 : Nat.Prime 7 := by norm_num
  have p11 : Nat.Prime 11 := by norm_num
  have p31 : Nat.Prime 31 := by norm_num
  have p151 : Nat.Prime 151 := by norm_num
  have p331 : Nat.Prime 331 := by norm_num
  rcases hq.dvd_mul.1 hd with h | h
  · rcases hq.dvd_mul.1 h with h | h
    · rcases hq.dvd_mul.1 h with h | h
      · rcases hq.dvd_mul.1 h with h | h
        · rcases hq.dvd_mul.1 h with h | h
          · rcases hq.dvd_mul.1 h with h | h
            · exact Or.inl ((Nat.prime_dvd_prime_iff_eq hq p2).1 h)
            · have := hq.dvd_of_dvd_pow h
              exact Or.inr (Or.inl ((Nat.prime_dvd_prime_iff_eq hq p3).1 this))
          · have := (Nat.prime_dvd_prime_iff_eq hq p7).1 h; omega
        · have := (Nat.prime_dvd_prime_iff_eq hq p11).1 h; omega
      · have := (Nat.prime_dvd_prime_iff_eq hq p31).1 h; omega
    · have := (Nat.prime_dvd_prime_iff_eq hq p151).1 h; omega
  · have := (Nat.prime_dvd_prime_iff_eq hq p331).1 h; omega

theorem mult_pow_range : (48271 : ZMod 2147483647) ^ (2147483647 - 1) = 1 := by
  norm_num only
  reduce_mod_char

theorem mult_pow_ne_one (q : ℕ) (hq : q.Prime) (hd : q ∣ 2147483647 - 1) :
    (48271 : ZMod 2147483647) ^ ((2147483647 - 1) / q) ≠ 1 := by
  rcases prime_factor_cases hq hd with rfl | rfl | rfl | rfl | rfl | rfl | rfl
  · have h : (48271 : ZMod 2147483647) ^ 1073741823 = ((2147483646 : ℕ) : ZMod 2147483647) := by
      push_cast
      reduce_mod_char
    norm_num only
    rw [h]
    exact lit_ne_one (by norm_num) (by norm_num)
  · have h : (48271 : ZMod 2147483647) ^ 715827882 = ((634005911 : ℕ) : ZMod 2147483647) := by
      push_cast
      reduce_mod_char
    norm_num only
    rw [h]
    exact lit_ne_one (by norm_num) (by norm_num)
  · have h : (48271 : ZMod 2147483647) ^ 306783378 = ((1752599774 : ℕ) : ZMod 2147483647) := by
      push_cast
      reduce_mod_char
    norm_num only
    rw [h]
    exact lit_ne_one (by norm_num) (by norm_num)
  · have h : (48271 : ZMod 2147483647) ^ 195225786 = ((219454379 : ℕ) : ZMod 2147483647) := by
      push_cast
      reduce_mod_char
    norm_num only
    rw [h]
    exact lit_ne_one (by norm_num) (by norm_num)
  · have h : (48271 : ZMod 2147483647) ^ 69273666 = ((64 : ℕ) : ZMod 2147483647) := by
      push_cast
      reduce_mod_char
    norm_num only
    rw [h]
    exact lit_ne_one (by norm_num) (by norm_num)
  · have h : (48271 : ZMod 2147483647) ^ 14221746 = ((556613938 : ℕ) : ZMod 2147483647) := by
      push_cast
      reduce_mod_char
    norm_num only
    rw [h]
    exact lit_ne_one (by norm_num) (by norm_num)
  · have h : (48271 : ZMod 2147483647) ^ 6487866 = ((1627574666 : ℕ) : ZMod 2147483647) := by
      push_cast
      reduce_mod_char
    norm_num only
    rw [h]
    exact lit_ne_one (by norm_num) (by norm_num)

/-- The modulus is prime (Lucas' criterion with the multiplier as primitive root). -/
theorem modulus_prime : Nat.Prime 2147483647 :=
  lucas_primality 2147483647 48271 mult_pow_range mult_pow_ne_one

instance : Fact (Nat.Prime 2147483647) := ⟨modulus_prime⟩

/-- The multiplier has order `2^31 - 2`. -/
theorem orderOf_mult : orderOf (48271 : ZMod 2147483647) = 2147483646 := by
  have := orderOf_eq_of_pow_and_pow_div_prime (x := (48271 : ZMod 2147483647))
    (n := 2147483646) (by norm_num) (by simpa using mult_pow_range)
    (fun p hp hd => mult_pow_ne_one p hp (by simpa using hd))
  exact this

/-- Being a valid state. -/
def Valid (g : ℕ) : Prop := 1 ≤ g ∧ g ≤ 2147483646

theorem valid_ofSeed (s : ℕ) : Valid (ofSeed s) := by
  unfold Valid ofSeed modulus
  split_ifs <;> omega

theorem cast_next (g : ℕ) : ((next g : ℕ) : ZMod 2147483647) = 48271 * (g : ZMod 2147483647) := by
  unfold next mult modulus
  rw [ZMod.natCast_mod]
  push_cast
  rfl

theorem cast_ne_zero {g : ℕ} (h : Valid g) : ((g : ℕ) : ZMod 2147483647) ≠ 0 := by
  intro h0
  rw [ZMod.natCast_eq_zero_iff] at h0
  have := Nat.le_of_dvd (by have := h.1; omega) h0
  have := h.2
  omega

theorem cast_inj {g h : ℕ} (hg : Valid g) (hh : Valid h)
    (e : ((g : ℕ) : ZMod 2147483647) = ((h : ℕ) : ZMod 2147483647)) : g = h := by
  rw [ZMod.natCast_eq_natCast_iff'] at e
  rwa [Nat.mod_eq_of_lt (by have := hg.2; omega), Nat.mod_eq_of_lt (by have := hh.2; omega)] at e

theorem mult_ne_zero : (48271 : ZMod 2147483647) ≠ 0 := by
  have := cast_ne_zero (g := 48271) ⟨by norm_num, by norm_num⟩
  simpa using this

theorem valid_next {g : ℕ} (h : Valid g) : Valid (next g) := by
  have hne : ((next g : ℕ) : ZMod 2147483647) ≠ 0 := by
    rw [cast_next]
    exact mul_ne_zero mult_ne_zero (cast_ne_zero h)
  have hlt : next g < 2147483647 := Nat.mod_lt _ (by norm_num [modulus])
  constructor
  · rcases Nat.eq_zero_or_pos (next g) with h0 | h0
    · exact absurd (by rw [h0]; simp) hne
    · exact h0
  · omega

theorem next_inj {g h : ℕ} (hg : Valid g) (hh : Valid h) (e : next g = next h) : g = h := by
  apply cast_inj hg hh
  have := congrArg (fun n : ℕ => (n : ZMod 2147483647)) e
  simp only [cast_next] at this
  exact mul_left_cancel₀ mult_ne_zero this

theorem valid_iterate {g : ℕ} (h : Valid g) (n : ℕ) : Valid (next^[n] g) := by
  induction n generalizing g with
  | zero => exact h
  | succ n ih => exact ih (valid_next h)

theorem cast_iterate (g : ℕ) (n : ℕ) :
    ((next^[n] g : ℕ) : ZMod 2147483647) = 48271 ^ n * (g : ZMod 2147483647) := by
  induction n generalizing g with
  | zero => simp
  | succ n ih =>
    rw [Function.iterate_succ_apply, ih, cast_next, pow_succ]
    ring

theorem iterate_eq_iff {g : ℕ} (h : Valid g) (n : ℕ) :
    next^[n] g = g ↔ 2147483646 ∣ n := by
  rw [← orderOf_mult, orderOf_dvd_iff_pow_eq_one]
  constructor
  · intro e
    have := congrArg (fun n : ℕ => (n : ZMod 2147483647)) e
    simp only [cast_iterate] at this
    exact mul_right_cancel₀ (cast_ne_zero h) (by simpa using this)
  · intro e
    apply cast_inj (valid_iterate h n) h
    rw [cast_iterate, e, one_mul]

theorem iterate_injOn {g : ℕ} (h : Valid g) {i j : ℕ} (hi : i < 2147483646)
    (hj : j < 2147483646) (e : next^[i] g = next^[j] g) : i = j := by
  wlog hij : i ≤ j generalizing i j
  · exact (this hj hi e.symm (by omega)).symm
  obtain ⟨k, rfl⟩ := Nat.exists_eq_add_of_le hij
  have h2 : next^[k] (next^[i] g) = next^[i] g := by
    rw [← Function.iterate_add_apply, Nat.add_comm]
    exact e.symm
  rw [iterate_eq_iff (valid_iterate h i)] at h2
  have : k = 0 := Nat.eq_zero_of_dvd_of_lt h2 (by omega)
  omega

theorem exists_iterate {g h : ℕ} (hg : Valid g) (hh : Valid h) :
    ∃ n < 2147483646, next^[n] g = h := by
  have hcard : (Finset.Icc 1 2147483646 : Finset ℕ).card = 2147483646 := by simp
  have himg : ((Finset.range 2147483646).image (fun n => next^[n] g)) = Finset.Icc 1 2147483646 := by
    apply Finset.eq_of_subset_of_card_le
    · intro x hx
      rw [Finset.mem_image] at hx
      obtain ⟨n, _, rfl⟩ := hx
      rw [Finset.mem_Icc]
      exact valid_iterate hg n
    · rw [hcard, Finset.card_image_of_injOn, Finset.card_range]
      intro i hi j hj e
      exact iterate_injOn hg (by simpa using hi) (by simpa using hj) e
  have : h ∈ (Finset.range 2147483646).image (fun n => next^[n] g) := by
    rw [himg, Finset.mem_Icc]; exact hh
  rw [Finset.mem_image] at this
  obtain ⟨n, hn, e⟩ := this
  exact ⟨n, by simpa using hn, e⟩

theorem canonical_pos {g : ℕ} (h : Valid g) : 0 < (canonical g).1 := by
  have v1 := valid_next h
  have v2 := valid_next v1
  unfold canonical
  simp only [range]
  have hR : (0:ℝ) < ((2147483646:ℕ):ℝ) * ((2147483646:ℕ):ℝ) := by norm_num
  apply div_pos _ hR
  have a1 : (1:ℝ) ≤ (next g : ℝ) := by exact_mod_cast v1.1
  have a2 : (1:ℝ) ≤ (next (next g) : ℝ) := by exact_mod_cast v2.1
  rcases eq_or_lt_of_le v1.1 with e | e
  · have e2 : next (next g) = 48271 := by rw [← e]; rfl
    rw [e2, ← e]
    norm_num
  · have : (1:ℝ) < (next g : ℝ) := by exact_mod_cast e
    have : 0 ≤ ((next (next g) : ℝ) - 1) * ((2147483646:ℕ):ℝ) :=
      mul_nonneg (by linarith) (by norm_num)
    linarith

theorem canonical_lt_one {g : ℕ} (h : Valid g) : (canonical g).1 < 1 := by
  have v1 := valid_next h
  have v2 := valid_next v1
  unfold canonical
  simp only [range]
  rw [div_lt_one (by norm_num)]
  have a1 : (next g : ℝ) ≤ 2147483646 := by exact_mod_cast v1.2
  have a2 : (next (next g) : ℝ) ≤ 2147483646 := by exact_mod_cast v2.2
  push_cast
  nlinarith

theorem canonical_snd (g : ℕ) : (canonical g).2 = next (next g) := rfl

theorem valid_canonical {g : ℕ} (h : Valid g) : Valid (canonical g).2 :=
  valid_next (valid_next h)

theorem canonical_inj {g h : ℕ} (hg : Valid g) (hh : Valid h)
    (e : (canonical g).1 = (canonical h).1) : g = h := by
  have v1 := valid_next hg
  have v2 := valid_next v1
  have w1 := valid_next hh
  have w2 := valid_next w1
  unfold canonical at e
  simp only [range] at e
  rw [div_left_inj' (by norm_num)] at e
  have e' : ((next g : ℤ) - 1) + ((next (next g) : ℤ) - 1) * 2147483646
      = ((next h : ℤ) - 1) + ((next (next h) : ℤ) - 1) * 2147483646 := by
    have : (((((next g : ℤ) - 1) + ((next (next g) : ℤ) - 1) * 2147483646 : ℤ)) : ℝ)
      = ((((next h : ℤ) - 1) + ((next (next h) : ℤ) - 1) * 2147483646 : ℤ) : ℝ) := by
      push_cast
      push_cast at e
      exact e
    exact_mod_cast this
  unfold Valid at *
  exact next_inj hg hh (by omega)

end Minimc.Rng
