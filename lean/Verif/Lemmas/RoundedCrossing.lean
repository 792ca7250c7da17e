import Verif.Lemmas.RoundedSelect

/-! # Lemmas on planes in double precision -/

namespace Minimc.Rounded

variable {rnd : ℝ → ℝ}

theorem dot_axis (h : Nearest rnd) {p : Point} (hx : IsDouble p.x) : dot rnd p ⟨1, 0, 0⟩ = p.x := by
  simp only [dot, mul_one, mul_zero, h.zero, add_zero, h.self hx]

theorem neg_near (h : Nearest rnd) {x : ℝ} (hx : x ≤ 0) : Near 1 (-x) (-(rnd x)) := by
  have herr := h.err x
  rw [abs_of_nonpos hx] at herr
  obtain ⟨e1, e2⟩ := abs_le.1 herr
  constructor
  · rw [pow_one]; linarith
  · rw [pow_one]
    have : (0 : ℝ) ≤ 1 - 1 / 2 ^ 53 := by norm_num
    have h5 : (1 + 1 / 2 ^ 53 : ℝ) * (1 - 1 / 2 ^ 53) ≤ 1 := by norm_num
    nlinarith

/-- The distance to a plane: zero or missed exactly when it is without rounding, otherwise within
two roundings. -/
theorem plane_distance (h : Nearest rnd) {c : ℝ} {p : Point} {d : Direction} (hx : IsDouble p.x)
    (hd : IsDouble d.x) :
    (0 < (c - p.x) / d.x ∧ ∃ s : ℝ, distance rnd (.planeX c) p d = (s : WithTop ℝ) ∧ 0 < s ∧
        Near 2 ((c - p.x) / d.x) s) ∨
      ((c - p.x) / d.x ≤ 0 ∧ distance rnd (.planeX c) p d = ⊤) := by
  simp only [distance, dot_axis h hx, dot_axis h hd]
  rcases lt_or_ge 0 ((c - p.x) / d.x) with hpos | hneg
  · left
    have key : Near 2 ((c - p.x) / d.x) (rnd (rnd (c - p.x) / d.x)) := by
      rcases div_pos_iff.1 hpos with ⟨h1, h2⟩ | ⟨h1, h2⟩
      · have h3 := h.near h1.le
        have h4 := h3.pos h1
        exact (h3.div (Near.refl d.x) h1.le h2 h4.le h2).trans (h.near (by positivity))
      · have h3 := neg_near h h1.le
        have h4 : 0 < -(rnd (c - p.x)) := h3.pos (by linarith)
        have h5 := (h3.div (Near.refl (-d.x)) (by linarith) (by linarith) h4.le (by linarith))
        rw [neg_div_neg_eq, neg_div_neg_eq] at h5
        refine h5.trans (h.near ?_)
        rw [← neg_div_neg_eq]
        exact div_nonneg h4.le (by linarith)
    have hp := key.pos hpos
    exact ⟨hpos, _, if_pos hp, hp, key⟩
  · right
    refine ⟨hneg, if_neg ?_⟩
    push Not
    apply h.nonpos
    rcases le_total 0 (c - p.x) with h1 | h1
    · rcases lt_or_ge 0 d.x with h2 | h2
      · have h3 : c - p.x ≤ 0 := by
          by_contra h4
          push Not at h4
          exact absurd (div_pos h4 h2) (not_lt.2 hneg)
        exact div_nonpos_of_nonpos_of_nonneg (h.nonpos h3) h2.le
      · exact div_nonpos_of_nonneg_of_nonpos (h.nonneg h1) h2
    · rcases lt_or_ge d.x 0 with h2 | h2
      · have h3 : 0 ≤ c - p.x := by
          by_contra h4
          push Not at h4
          exact absurd (div_pos_of_neg_of_neg h4 h2) (not_lt.2 hneg)
        exact div_nonpos_of_nonneg_of_nonpos (h.nonneg h3) h2.le
      · exact div_nonpos_of_nonpos_of_nonneg (h.nonpos h1) h2

theorem nudge_eq : nudge = 20 / 2 ^ 53 := by
  rw [nudge, zpow_neg]; norm_num

/-- The computed distance where neither the difference nor the quotient needs rounding. -/
theorem plane_distance_eq (h : Nearest rnd) {c : ℝ} {p : Point} {d : Direction} (hx : IsDouble p.x)
    (hd : IsDouble d.x) (h1 : IsDouble (c - p.x)) (h2 : IsDouble ((c - p.x) / d.x)) :
    distance rnd (.planeX c) p d =
      if (c - p.x) / d.x > 0 then (((c - p.x) / d.x : ℝ) : WithTop ℝ) else ⊤ := by
  simp only [distance, dot_axis h hx, dot_axis h hd, h.self h1, h.self h2]

theorem plane_contains (h : Nearest rnd) {c : ℝ} {p : Point} (hx : IsDouble p.x) :
    contains rnd (.planeX c) p = decide (p.x < c) := by
  simp only [contains, dot_axis h hx]

/-- The nudge disappears in coordinates of at least 64. -/
theorem nudge_lost (h : Nearest rnd) {c : ℕ} (h1 : 64 ≤ c) (h2 : c ≤ 2 ^ 52) :
    rnd ((c : ℝ) + 1 + -(1 + nudge)) = c := by
  have hc : (64 : ℝ) ≤ c := by exact_mod_cast h1
  set y := (c : ℝ) + 1 + -(1 + nudge) with hy
  have hy' : y = c - 20 / 2 ^ 53 := by rw [hy, nudge_eq]; ring
  have hn := h.nearest y c (IsDouble.nat (h2.trans (by norm_num)))
  rw [show (c : ℝ) - y = 20 / 2 ^ 53 by rw [hy']; ring, abs_of_pos (a := (20 / 2 ^ 53 : ℝ)) (by norm_num)]
    at hn
  obtain ⟨h3, h4⟩ := abs_le.1 hn
  have hlow : (2 : ℝ) ^ (5 : ℤ) ≤ |rnd y| := by
    refine le_trans ?_ (le_abs_self _)
    norm_num at h3 hy' ⊢
    linarith
  obtain ⟨n, hn'⟩ := (h.isDouble y).multiple hlow
  have h47 : (2 : ℝ) ^ ((5 : ℤ) - 52) = 1 / 2 ^ 47 := by
    rw [show (5 : ℤ) - 52 = -47 by norm_num, zpow_neg]; norm_num
  rw [h47] at hn'
  have hz : n = c * 140737488355328 := by
    have h5 : (n : ℝ) = rnd y * 140737488355328 := by rw [hn']; ring
    have h6 : (n : ℝ) < c * 140737488355328 + 1 := by
      rw [h5]; norm_num at h4 hy'; linarith
    have h7 : (c : ℝ) * 140737488355328 < n + 1 := by
      rw [h5]; norm_num at h3 hy'; linarith
    have h8 : n < c * 140737488355328 + 1 := by exact_mod_cast h6
    have h9 : (c : ℤ) * 140737488355328 < n + 1 := by exact_mod_cast h7
    omega
  rw [hn', hz]
  push_cast
  ring

theorem isDouble_step : IsDouble (1 + nudge) := by
  refine ⟨2 ^ 52 + 10, -52, by norm_num, ?_⟩
  rw [nudge_eq, zpow_neg]
  norm_num

/-- The movement along x of a particle sent across a plane. -/
theorem step_length (h : Nearest rnd) {s a Δ : ℝ} (ha : 0 < a) (hΔ : 0 < Δ)
    (hs : Near 2 (Δ / a) s) :
    Δ * (1 - 4 / 2 ^ 53) + 20 / 2 ^ 53 * a * (1 - 2 / 2 ^ 53) ≤
      a * rnd (s + nudge) * (1 - 1 / 2 ^ 53) := by
  have hs0 : 0 < s := hs.pos (div_pos hΔ ha)
  have hn0 : 0 < nudge := by rw [nudge_eq]; norm_num
  have h1 := h.ge_of_nonneg (x := s + nudge) (by positivity)
  have h2 : Δ / a * (1 - 1 / 2 ^ 53) ^ 2 ≤ s := hs.1
  have hf2 := Near.fac_ge 2
  have hf4 := Near.fac_ge 4
  have e : (0 : ℝ) ≤ 1 - 1 / 2 ^ 53 := by norm_num
  have h3 : a * ((Δ / a * (1 - 1 / 2 ^ 53) ^ 2 + nudge) * (1 - 1 / 2 ^ 53)) * (1 - 1 / 2 ^ 53) ≤
      a * rnd (s + nudge) * (1 - 1 / 2 ^ 53) := by
    refine mul_le_mul_of_nonneg_right (mul_le_mul_of_nonneg_left (le_trans ?_ h1) ha.le) e
    exact mul_le_mul_of_nonneg_right (by linarith) e
  refine le_trans ?_ h3
  have h4 : a * ((Δ / a * (1 - 1 / 2 ^ 53) ^ 2 + nudge) * (1 - 1 / 2 ^ 53)) * (1 - 1 / 2 ^ 53)
      = Δ * (1 - 1 / 2 ^ 53) ^ 4 + nudge * a * (1 - 1 / 2 ^ 53) ^ 2 := by
    field_simp
  rw [h4, nudge_eq]
  push_cast at hf2 hf4
  exact add_le_add (mul_le_mul_of_nonneg_left hf4 hΔ.le) (mul_le_mul_of_nonneg_left hf2 (by positivity))

end Minimc.Rounded
