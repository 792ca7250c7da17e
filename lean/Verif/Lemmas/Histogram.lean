import Verif.Spec.Histogram
import Mathlib.Tactic.Linarith
import Mathlib.Tactic.FieldSimp
import Mathlib.Tactic.Ring

/-! # Lemmas about piecewise linear distribution functions -/

namespace Minimc

open Spec

/-- The point divides the segment in a ratio `w`. -/
theorem line_ratio {a b : ℝ × ℝ} (h : a.1 < b.1) {F : ℝ} :
    line a b F = a.2 + (F - a.1) / (b.1 - a.1) * (b.2 - a.2) := by
  unfold line
  have : b.1 - a.1 ≠ 0 := by linarith
  field_simp
  ring

theorem line_swap {a b : ℝ × ℝ} (h1 : a.1 < b.1) (h2 : a.2 < b.2) {F x : ℝ} :
    x = line a b F ↔ F = line a.swap b.swap x := by
  have d1 : b.1 - a.1 ≠ 0 := by linarith
  have d2 : b.2 - a.2 ≠ 0 := by linarith
  unfold line
  simp only [Prod.fst_swap, Prod.snd_swap]
  rw [eq_div_iff d1, eq_div_iff d2]
  constructor
  · intro h; linear_combination -h
  · intro h; linear_combination -h

theorem line_lt {a b : ℝ × ℝ} (h1 : a.1 < b.1) (h2 : a.2 < b.2) {F G : ℝ} (h : F < G) :
    line a b F < line a b G := by
  rw [line_ratio h1, line_ratio h1]
  have d1 : 0 < b.1 - a.1 := by linarith
  have : (F - a.1) / (b.1 - a.1) < (G - a.1) / (b.1 - a.1) :=
    (div_lt_div_iff_of_pos_right d1).2 (by linarith)
  have := mul_lt_mul_of_pos_right this (show 0 < b.2 - a.2 by linarith)
  linarith

theorem line_left {a b : ℝ × ℝ} (h : a.1 < b.1) : line a b a.1 = a.2 := by
  rw [line_ratio h]; simp

theorem line_right {a b : ℝ × ℝ} (h : a.1 < b.1) : line a b b.1 = b.2 := by
  rw [line_ratio h, div_self (by linarith)]; ring

theorem knots_le {n : ℕ} {K : ℕ → ℝ × ℝ} (h : Increasing n K) {i j : ℕ} (hij : i ≤ j)
    (hj : j ≤ n + 1) : (K i).1 ≤ (K j).1 ∧ (K i).2 ≤ (K j).2 := by
  induction hij with
  | refl => exact ⟨le_rfl, le_rfl⟩
  | @step m _ ih =>
    have h1 := ih (by omega)
    have h2 := h m (by omega)
    exact ⟨h1.1.trans h2.1.le, h1.2.trans h2.2.le⟩

theorem OnCurve.bounds {n : ℕ} {K : ℕ → ℝ × ℝ} (h : Increasing n K) {k : ℕ} (hk : k ≤ n)
    {F a : ℝ} (h1 : (K k).1 ≤ F) (h2 : F < (K (k + 1)).1)
    (h3 : a = line (K k) (K (k + 1)) F) : (K k).2 ≤ a ∧ a < (K (k + 1)).2 := by
  obtain ⟨i1, i2⟩ := h k hk
  subst h3
  constructor
  · rcases h1.eq_or_lt with h1 | h1
    · rw [← h1, line_left i1]
    · exact ((line_left i1).symm.le).trans (line_lt i1 i2 h1).le
  · exact (line_lt i1 i2 h2).trans_eq (line_right i1)

/-- The curve is strictly increasing. -/
theorem OnCurve.lt {n : ℕ} {K : ℕ → ℝ × ℝ} (h : Increasing n K) {F G a b : ℝ}
    (ha : OnCurve n K F a) (hb : OnCurve n K G b) (hFG : F < G) : a < b := by
  obtain ⟨j, hj, a1, a2, a3⟩ := ha
  obtain ⟨k, hk, b1, b2, b3⟩ := hb
  rcases lt_trichotomy j k with hjk | rfl | hjk
  · have := (knots_le h (show j + 1 ≤ k by omega) (by omega)).2
    have h1 := (OnCurve.bounds h hj a1 a2 a3).2
    have h2 := (OnCurve.bounds h hk b1 b2 b3).1
    linarith
  · rw [a3, b3]
    exact line_lt (h j hj).1 (h j hj).2 hFG
  · have := (knots_le h (show k + 1 ≤ j by omega) (by omega)).1
    linarith

theorem OnCurve.unique {n : ℕ} {K : ℕ → ℝ × ℝ} (h : Increasing n K) {F a b : ℝ}
    (ha : OnCurve n K F a) (hb : OnCurve n K F b) : a = b := by
  obtain ⟨j, hj, a1, a2, a3⟩ := ha
  obtain ⟨k, hk, b1, b2, b3⟩ := hb
  rcases lt_trichotomy j k with hjk | rfl | hjk
  · have := (knots_le h (show j + 1 ≤ k by omega) (by omega)).1
    linarith
  · rw [a3, b3]
  · have := (knots_le h (show k + 1 ≤ j by omega) (by omega)).1
    linarith

theorem OnCurve.lt_iff {n : ℕ} {K : ℕ → ℝ × ℝ} (h : Increasing n K) {F G a b : ℝ}
    (ha : OnCurve n K F a) (hb : OnCurve n K G b) : a < b ↔ F < G := by
  refine ⟨fun hab => ?_, OnCurve.lt h ha hb⟩
  rcases lt_trichotomy F G with h1 | rfl | h1
  · exact h1
  · exact absurd (OnCurve.unique h ha hb) hab.ne
  · exact absurd (OnCurve.lt h hb ha h1) hab.not_gt

/-- The interval holding a number between the first and the last corner. -/
theorem exists_interval {n : ℕ} {g : ℕ → ℝ} {x : ℝ} (h0 : g 0 ≤ x) (h1 : x < g (n + 1)) :
    ∃ k ≤ n, g k ≤ x ∧ x < g (k + 1) := by
  induction n with
  | zero => exact ⟨0, le_rfl, h0, h1⟩
  | succ n ih =>
    rcases lt_or_ge x (g (n + 1)) with h | h
    · obtain ⟨k, hk, h2⟩ := ih h
      exact ⟨k, by omega, h2⟩
    · exact ⟨n + 1, le_rfl, h, h1⟩

theorem OnCurve.exists_value {n : ℕ} {K : ℕ → ℝ × ℝ} {F : ℝ}
    (h0 : (K 0).1 ≤ F) (h1 : F < (K (n + 1)).1) : ∃ a, OnCurve n K F a := by
  obtain ⟨k, hk, h2, h3⟩ := exists_interval (g := fun k => (K k).1) h0 h1
  exact ⟨_, k, hk, h2, h3, rfl⟩

end Minimc
