import Verif.Lemmas.Rng
import Mathlib.MeasureTheory.Measure.Lebesgue.Basic

/-!
# C25, C26, C27 (engine part), C28: the random number generator
-/

namespace Minimc.Props

open Minimc MeasureTheory

/-- **C25** The state reached from any seed after any number of draws lies in
`1 .. 2^31 - 2`. -/
theorem C25_state_in_range (seed n : ℕ) :
    1 ≤ Rng.next^[n] (Rng.ofSeed seed) ∧ Rng.next^[n] (Rng.ofSeed seed) ≤ 2 ^ 31 - 2 := by
  have := Rng.valid_iterate (Rng.valid_ofSeed seed) n
  unfold Rng.Valid at this
  omega

/-- **C25** A draw permutes the states `1 .. 2^31 - 2`. -/
theorem C25_draw_bijective : Set.BijOn Rng.next (Set.Icc 1 (2 ^ 31 - 2)) (Set.Icc 1 (2 ^ 31 - 2)) := by
  have hR : (2:ℕ) ^ 31 - 2 = 2147483646 := by norm_num
  rw [hR]
  refine ⟨fun g hg => Rng.valid_next hg, fun g hg h hh e => Rng.next_inj hg hh e, ?_⟩
  intro h hh
  obtain ⟨n, _, hn⟩ := Rng.exists_iterate (Rng.valid_next hh) hh
  refine ⟨Rng.next^[n] h, Rng.valid_iterate hh n, ?_⟩
  rw [← Function.iterate_succ_apply' Rng.next n h]
  exact hn

/-- **C25** Full period: the sequence from any state returns to that state exactly at
the multiples of `2^31 - 2` draws, so it is purely periodic and never sticks. -/
theorem C25_full_period (seed n : ℕ) :
    Rng.next^[n] (Rng.ofSeed seed) = Rng.ofSeed seed ↔ (2 ^ 31 - 2) ∣ n := by
  have hR : (2:ℕ) ^ 31 - 2 = 2147483646 := by norm_num
  rw [hR]
  exact Rng.iterate_eq_iff (Rng.valid_ofSeed seed) n

/-- **C25** Every state is reached from every seed. -/
theorem C25_every_state_reached (seed g : ℕ) (h1 : 1 ≤ g) (h2 : g ≤ 2 ^ 31 - 2) :
    ∃ n < 2 ^ 31 - 2, Rng.next^[n] (Rng.ofSeed seed) = g :=
  Rng.exists_iterate (Rng.valid_ofSeed seed) ⟨h1, by omega⟩

/-- **C25** The drawn number is the multiplicative congruential recurrence that the
C++ standard prescribes for `minstd_rand` ([rand.predef]). -/
theorem C25_recurrence (g : ℕ) : Rng.next g = 48271 * g % (2 ^ 31 - 1) := by
  unfold Rng.next Rng.mult Rng.modulus
  norm_num

/-- Closed form of the state after `n` draws. -/
theorem C25_closed_form (seed n : ℕ) :
    Rng.next^[n] (Rng.ofSeed seed) = 48271 ^ n * Rng.ofSeed seed % (2 ^ 31 - 1) := by
  have hv := Rng.valid_iterate (Rng.valid_ofSeed seed) n
  have h := Rng.cast_iterate (Rng.ofSeed seed) n
  have h' : ((Rng.next^[n] (Rng.ofSeed seed) : ℕ) : ZMod 2147483647)
      = ((48271 ^ n * Rng.ofSeed seed : ℕ) : ZMod 2147483647) := by
    push_cast
    exact h
  rw [ZMod.natCast_eq_natCast_iff'] at h'
  rw [Nat.mod_eq_of_lt (by have := hv.2; omega)] at h'
  norm_num
  exact h'

/-- The check value of the C++ standard ([rand.predef]): the 10000th number drawn from
a default-constructed `minstd_rand` (seed 1) is 399268537. -/
example : Rng.next^[10000] (Rng.ofSeed 1) = 399268537 := by
  have hv := Rng.valid_iterate (Rng.valid_ofSeed 1) 10000
  apply Rng.cast_inj hv ⟨by norm_num, by norm_num⟩
  rw [Rng.cast_iterate]
  have : Rng.ofSeed 1 = 1 := by decide
  rw [this]
  push_cast
  reduce_mod_char

/-- Seeds 0 and 2^31-1 would be stuck at 0; they are replaced by 1. -/
example : Rng.ofSeed 0 = 1 ∧ Rng.ofSeed (2 ^ 31 - 1) = 1 ∧ Rng.ofSeed 12345 = 12345 := by decide

/-- **C26** Every uniform number drawn anywhere in a sequence started from any seed
lies strictly between 0 and 1. -/
theorem C26_uniform_open_interval (seed n : ℕ) :
    0 < (Rng.canonical (Rng.next^[n] (Rng.ofSeed seed))).1 ∧
    (Rng.canonical (Rng.next^[n] (Rng.ofSeed seed))).1 < 1 :=
  ⟨Rng.canonical_pos (Rng.valid_iterate (Rng.valid_ofSeed seed) n),
   Rng.canonical_lt_one (Rng.valid_iterate (Rng.valid_ofSeed seed) n)⟩

/-- **C26** A uniform number on `(a, b)` lies strictly between `a` and `b`. -/
theorem C26_uniformReal_open_interval (a b : ℝ) (hab : a < b) (seed n : ℕ) :
    a < (Rng.uniformReal a b (Rng.next^[n] (Rng.ofSeed seed))).1 ∧
    (Rng.uniformReal a b (Rng.next^[n] (Rng.ofSeed seed))).1 < b := by
  obtain ⟨h0, h1⟩ := C26_uniform_open_interval seed n
  unfold Rng.uniformReal
  constructor <;> nlinarith

/-- **C26** Different states give different uniform numbers (no resolution is lost),
and the generator advances by two draws. -/
theorem C26_uniform_injective (g h : ℕ) (hg : 1 ≤ g ∧ g ≤ 2 ^ 31 - 2)
    (hh : 1 ≤ h ∧ h ≤ 2 ^ 31 - 2) (e : (Rng.canonical g).1 = (Rng.canonical h).1) : g = h :=
  Rng.canonical_inj ⟨hg.1, by omega⟩ ⟨hh.1, by omega⟩ e

theorem C26_uniform_advances (g : ℕ) : (Rng.canonical g).2 = Rng.next^[2] g := rfl

/-- A concrete uniform number: from seed 1 the two draws are 48271 and 182605794. -/
example : (Rng.canonical (Rng.ofSeed 1)).1
    = (48270 + 182605793 * 2147483646) / (2147483646 * 2147483646) := by
  have h0 : Rng.ofSeed 1 = 1 := by decide
  have h1 : Rng.next 1 = 48271 := by decide
  have h2 : Rng.next 48271 = 182605794 := by decide
  unfold Rng.canonical Rng.range
  simp only [h0, h1, h2]
  norm_num

/-- **C27** Histories of a fixed-source run (seeds `seed + i`) start their generators in
different states, provided `seed + batchsize ≤ 2^31 - 1` and the seed is positive. -/
theorem C27_streams_distinct_partial (seed batchsize i j : ℕ) (hseed : 1 ≤ seed)
    (hbound : seed + batchsize ≤ 2 ^ 31 - 1) (hi : i < batchsize) (hj : j < batchsize)
    (hij : i ≠ j) : Rng.ofSeed (seed + i) ≠ Rng.ofSeed (seed + j) := by
  unfold Rng.ofSeed Rng.modulus
  have h1 : (seed + i) % 2147483647 = seed + i := Nat.mod_eq_of_lt (by omega)
  have h2 : (seed + j) % 2147483647 = seed + j := Nat.mod_eq_of_lt (by omega)
  rw [h1, h2, if_neg (by omega), if_neg (by omega)]
  omega

example : Rng.ofSeed (1 + 0) ≠ Rng.ofSeed (1 + 999) :=
  C27_streams_distinct_partial 1 1000 0 999 (by norm_num) (by norm_num) (by norm_num)
    (by norm_num) (by norm_num)

/-- **C27 is violated** for seeds accepted by the input schema: with seed `2^31 - 1` the
first two histories start in the same state. -/
theorem C27_streams_distinct_violated :
    ∃ seed batchsize i j : ℕ, 1 ≤ seed ∧ seed ≤ 2 ^ 31 - 1 ∧ i < batchsize ∧ j < batchsize ∧
      i ≠ j ∧ Rng.ofSeed (seed + i) = Rng.ofSeed (seed + j) :=
  ⟨2 ^ 31 - 1, 2, 0, 1, by decide⟩

/-- **C27** Exactly which seeds collide: those equal modulo `2^31 - 1`, and those that
are 0 and 1 modulo `2^31 - 1`. -/
theorem C27_collision_iff (s t : ℕ) :
    Rng.ofSeed s = Rng.ofSeed t ↔
      s % (2 ^ 31 - 1) = t % (2 ^ 31 - 1) ∨
      (s % (2 ^ 31 - 1) ≤ 1 ∧ t % (2 ^ 31 - 1) ≤ 1) := by
  unfold Rng.ofSeed Rng.modulus
  norm_num
  split_ifs <;> omega

theorem exponentialOf_gt_iff {S t u : ℝ} (hS : 0 < S) (hu : u < 1) :
    ((t : ℝ) : WithTop ℝ) < Rng.exponentialOf S u ↔ 1 - Real.exp (-(S * t)) < u := by
  unfold Rng.exponentialOf
  rw [if_neg hS.ne', WithTop.coe_lt_coe, lt_div_iff₀ hS]
  have h1 : (0:ℝ) < 1 - u := by linarith
  constructor
  · intro h
    have h2 : Real.log (1 - u) < -(S * t) := by linarith
    have := (Real.log_lt_iff_lt_exp h1).1 h2
    linarith
  · intro h
    have := (Real.log_lt_iff_lt_exp h1).2 (show 1 - u < Real.exp (-(S * t)) by linarith)
    linarith

/-- **C28** The sampled flight distance exceeds `t` on a set of uniform numbers of
measure `exp (-S t)`. -/
theorem C28_flight_distribution (S t : ℝ) (hS : 0 < S) (ht : 0 ≤ t) :
    volume {u : ℝ | 0 ≤ u ∧ u < 1 ∧ (t : WithTop ℝ) < Rng.exponentialOf S u}
      = ENNReal.ofReal (Real.exp (-(S * t))) := by
  have he : Real.exp (-(S * t)) ≤ 1 := Real.exp_le_one_iff.2 (by nlinarith)
  have : {u : ℝ | 0 ≤ u ∧ u < 1 ∧ (t : WithTop ℝ) < Rng.exponentialOf S u}
      = Set.Ioo (1 - Real.exp (-(S * t))) 1 := by
    ext u
    simp only [Set.mem_ofPred_eq, Set.mem_Ioo]
    constructor
    · rintro ⟨_, h1, h2⟩
      exact ⟨(exponentialOf_gt_iff hS h1).1 h2, h1⟩
    · rintro ⟨h1, h2⟩
      exact ⟨by linarith, h2, (exponentialOf_gt_iff hS h2).2 h1⟩
  rw [this, Real.volume_Ioo]
  congr 1
  ring

/-- **C28** From every state reachable from a seed, the sampled distance is finite and
positive when the cross section is positive, and infinite when it is zero. -/
theorem C28_flight_positive (S : ℝ) (hS : 0 < S) (seed n : ℕ) :
    ∃ d : ℝ, 0 < d ∧ (Rng.exponential S (Rng.next^[n] (Rng.ofSeed seed))).1 = (d : WithTop ℝ) := by
  obtain ⟨h0, h1⟩ := C26_uniform_open_interval seed n
  refine ⟨-Real.log (1 - (Rng.canonical (Rng.next^[n] (Rng.ofSeed seed))).1) / S, ?_, ?_⟩
  · apply div_pos _ hS
    have := Real.log_neg (x := 1 - (Rng.canonical (Rng.next^[n] (Rng.ofSeed seed))).1)
      (by linarith) (by linarith)
    linarith
  · unfold Rng.exponential Rng.exponentialOf
    rw [if_neg hS.ne']

theorem C28_flight_infinite (g : ℕ) : (Rng.exponential 0 g).1 = ⊤ := by
  simp [Rng.exponential, Rng.exponentialOf]

/-- Half of the flights with unit cross section exceed `log 2`. -/
example : volume {u : ℝ | 0 ≤ u ∧ u < 1 ∧
    ((Real.log 2 : ℝ) : WithTop ℝ) < Rng.exponentialOf 1 u} = ENNReal.ofReal (1 / 2) := by
  rw [C28_flight_distribution 1 (Real.log 2) one_pos (Real.log_nonneg (by norm_num))]
  rw [one_mul, Real.exp_neg, Real.exp_log (by norm_num)]
  norm_num

end Minimc.Props
