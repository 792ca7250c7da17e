import Verif.Lemmas.RoundedSelect
import Verif.Props.Bins

/-!
# Equal bins in double precision

`LinspaceBins` computes `(v - lower) / width + 1` and cuts off the fraction; `LogspaceBins` does the
same with a logarithm.  In double precision a value just below an edge may be counted above it.  What
remains true for every rounding to nearest: indices stay inside the vector of scores, larger values
never get smaller indices, values below the lower edge are told from those above it, and away from
the edges the bin is the right one.
-/

namespace Minimc.Rounded

variable {rnd : ℝ → ℝ}

/-- The number whose fraction is cut off, compared with its exact value. -/
theorem binCoordinate (h : Nearest rnd) {b : ℕ} (hb : 1 ≤ b) {lower upper v : ℝ}
    (h1 : lower ≤ v) (h2 : v < upper) :
    1 ≤ rnd (rnd (rnd (v - lower) / Rounded.binWidth rnd (b + 2) lower upper) + 1) ∧
    Near 5 ((v - lower) * b / (upper - lower) + 1)
      (rnd (rnd (rnd (v - lower) / Rounded.binWidth rnd (b + 2) lower upper) + 1)) := by
  have hD : 0 < upper - lower := by linarith
  have hx : 0 ≤ v - lower := by linarith
  have hb0 : (0 : ℝ) < b := by exact_mod_cast hb
  have hw : Near 2 ((upper - lower) / b) (Rounded.binWidth rnd (b + 2) lower upper) := by
    rw [Rounded.binWidth, show b + 2 - 2 = b by omega]
    have h3 := h.near hD.le
    have h4 : 0 < rnd (upper - lower) := h3.pos hD
    exact (h3.div (Near.refl (b : ℝ)) hD.le hb0 h4.le hb0).trans (h.near (by positivity))
  have hw0 := hw.pos (div_pos hD hb0)
  have hxr := h.near hx
  have hx0 := hxr.nonneg hx
  have hq := (hxr.div hw hx (div_pos hD hb0) hx0 hw0).trans (h.near (div_nonneg hx0 hw0.le))
  have hq0 : 0 ≤ rnd (rnd (v - lower) / Rounded.binWidth rnd (b + 2) lower upper) :=
    h.nonneg (div_nonneg hx0 hw0.le)
  constructor
  · calc (1 : ℝ) = rnd 1 := h.one.symm
      _ ≤ _ := h.mono (by linarith)
  · have h5 := (hq.add ((Near.refl (1 : ℝ)).mono (show 0 ≤ 4 by omega) zero_le_one zero_le_one)).trans
      (h.near (by linarith))
    rwa [div_div_eq_mul_div] at h5

end Minimc.Rounded

namespace Minimc.Props

open Minimc

variable {rnd : ℝ → ℝ}

/-- Indices are inside the vector of scores, and only values below the lower edge get index 0. -/
theorem C74_index_range (h : Nearest rnd) {b : ℕ} (hb : 1 ≤ b) (hb' : b ≤ 2 ^ 50 - 2)
    {lower upper : ℝ} (hlu : lower < upper) (v : ℝ) :
    Rounded.spaceIndex rnd (b + 2) lower upper (Rounded.binWidth rnd (b + 2) lower upper) v < b + 2 ∧
    (Rounded.spaceIndex rnd (b + 2) lower upper (Rounded.binWidth rnd (b + 2) lower upper) v = 0 ↔
      v < lower) := by
  rw [Rounded.spaceIndex]
  split_ifs with h1 h2
  · simp [h1]
  · simp; linarith
  · push Not at h1 h2
    obtain ⟨h3, h4⟩ := Rounded.binCoordinate h hb h1 h2
    set t := rnd (rnd (rnd (v - lower) / Rounded.binWidth rnd (b + 2) lower upper) + 1)
    have hb0 : (0 : ℝ) < b := by exact_mod_cast hb
    have hlt : t < b + 2 := by
      have he : (v - lower) * b / (upper - lower) < b := by
        rw [div_lt_iff₀ (by linarith)]
        nlinarith
      have h5 := h4.2
      have h6 := Near.fac_ge 5
      have h7 : ((b : ℝ) + 2) ≤ 2 ^ 50 := by
        have : b + 2 ≤ 2 ^ 50 := by omega
        exact_mod_cast this
      by_contra hge
      push Not at hge
      have h8 : ((b : ℝ) + 2) * (1 - 1 / 2 ^ 53) ^ 5 ≤ t * (1 - 1 / 2 ^ 53) ^ 5 :=
        mul_le_mul_of_nonneg_right hge (Near.fac_pos 5).le
      have h9 : ((b : ℝ) + 2) * (1 - (5 : ℕ) / 2 ^ 53) ≤ ((b : ℝ) + 2) * (1 - 1 / 2 ^ 53) ^ 5 :=
        mul_le_mul_of_nonneg_left h6 (by positivity)
      norm_num at h9 h7 h8 h5
      linarith
    constructor
    · rw [Nat.floor_lt (by linarith)]
      push_cast
      exact hlt
    · constructor
      · intro h5
        have := Nat.le_floor (n := 1) (a := t) (by simpa using h3)
        omega
      · intro h5; linarith

/-- Larger values never get smaller indices. -/
theorem C74_monotone (h : Nearest rnd) {b : ℕ} (hb : 1 ≤ b) (hb' : b ≤ 2 ^ 50 - 2)
    {lower upper : ℝ} (hlu : lower < upper) {v w : ℝ} (hvw : v ≤ w) :
    Rounded.spaceIndex rnd (b + 2) lower upper (Rounded.binWidth rnd (b + 2) lower upper) v ≤
      Rounded.spaceIndex rnd (b + 2) lower upper (Rounded.binWidth rnd (b + 2) lower upper) w := by
  have hv := (C74_index_range h hb hb' hlu v).1
  have hw0 : 0 ≤ Rounded.binWidth rnd (b + 2) lower upper := by
    rw [Rounded.binWidth]
    exact h.nonneg (div_nonneg (h.nonneg (by linarith)) (by positivity))
  rw [Rounded.spaceIndex] at hv ⊢
  rw [Rounded.spaceIndex]
  split_ifs at hv ⊢ with h1 h2 h3 h4 h5 h6
  · omega
  · omega
  · omega
  · linarith
  · omega
  · linarith
  · linarith
  · omega
  · apply Nat.floor_mono
    apply h.mono
    gcongr
    apply h.mono
    gcongr
    apply h.mono
    linarith

/-- A value between the edges of bin `k` (counted from zero), no closer to them than a tiny
fraction of the width of a bin, gets index `k + 1`. -/
theorem C74_right_bin_partial (h : Nearest rnd) {b : ℕ} (hb' : b ≤ 2 ^ 50 - 2)
    {lower upper : ℝ} (hlu : lower < upper) {k : ℕ} (hk : k < b) {v : ℝ}
    (h1 : lower + (k + 5 * (b + 2) / 2 ^ 53) * ((upper - lower) / b) ≤ v)
    (h2 : v < lower + (k + 1 - 5 * (b + 2) / 2 ^ 53) * ((upper - lower) / b)) :
    Rounded.spaceIndex rnd (b + 2) lower upper (Rounded.binWidth rnd (b + 2) lower upper) v =
      k + 1 := by
  have hb : 1 ≤ b := by omega
  have hb0 : (0 : ℝ) < b := by exact_mod_cast hb
  have hD : 0 < upper - lower := by linarith
  have hkb : (k : ℝ) + 1 ≤ b := by exact_mod_cast hk
  have hw : 0 < (upper - lower) / b := div_pos hD hb0
  have hbw : b * ((upper - lower) / b) = upper - lower := by field_simp
  have hlv : lower ≤ v := by
    refine le_trans ?_ h1
    have : 0 ≤ (k + 5 * (b + 2) / 2 ^ 53) * ((upper - lower) / b) := by positivity
    linarith
  have hvu : v < upper := by
    refine lt_of_lt_of_le h2 ?_
    have h3 : (0 : ℝ) ≤ 5 * (b + 2) / 2 ^ 53 := by positivity
    have : (k + 1 - 5 * (b + 2) / 2 ^ 53) * ((upper - lower) / b) ≤ b * ((upper - lower) / b) := by
      gcongr
      linarith
    linarith
  have hlt := (C74_index_range h hb hb' hlu v).1
  rw [Rounded.spaceIndex, if_neg (by linarith), if_neg (by linarith)] at hlt ⊢
  obtain ⟨h3, h4⟩ := Rounded.binCoordinate h hb hlv hvu
  set t := rnd (rnd (rnd (v - lower) / Rounded.binWidth rnd (b + 2) lower upper) + 1)
  set e := (v - lower) * b / (upper - lower) with he
  have he1 : (k : ℝ) + 5 * (b + 2) / 2 ^ 53 ≤ e := by
    rw [he, le_div_iff₀ hD]
    have : (k + 5 * (b + 2) / 2 ^ 53) * (upper - lower) =
        (k + 5 * (b + 2) / 2 ^ 53) * ((upper - lower) / b) * b := by field_simp
    rw [this]
    gcongr
    linarith
  have he2 : e < k + 1 - 5 * (b + 2) / 2 ^ 53 := by
    rw [he, div_lt_iff₀ hD]
    have : (k + 1 - 5 * (b + 2) / 2 ^ 53) * (upper - lower) =
        (k + 1 - 5 * (b + 2) / 2 ^ 53) * ((upper - lower) / b) * b := by field_simp
    rw [this]
    gcongr
    linarith
  have hf := Near.fac_ge 5
  have ht2 : t < b + 2 := by
    have h5 : t < ⌊t⌋₊ + 1 := Nat.lt_floor_add_one t
    have h6 : ((⌊t⌋₊ : ℕ) : ℝ) + 1 ≤ b + 2 := by exact_mod_cast hlt
    linarith
  have hb2 : (0 : ℝ) < b + 2 := by positivity
  rw [Nat.floor_eq_iff (by linarith)]
  push_cast at hf ⊢
  constructor
  · have h5 : (e + 1) * (1 - 5 / 2 ^ 53) ≤ t :=
      (mul_le_mul_of_nonneg_left hf (by
        have : (0 : ℝ) ≤ 5 * (b + 2) / 2 ^ 53 := by positivity
        linarith [Nat.cast_nonneg (α := ℝ) k])).trans h4.1
    have h6 : (e + 1) * (5 / 2 ^ 53) ≤ (b + 2) * (5 / 2 ^ 53) := by
      apply mul_le_mul_of_nonneg_right _ (by norm_num)
      have : (0 : ℝ) ≤ 5 * (b + 2) / 2 ^ 53 := by positivity
      linarith
    have h7 : (5 : ℝ) * (b + 2) / 2 ^ 53 = (b + 2) * (5 / 2 ^ 53) := by ring
    nlinarith
  · have h5 : t * (1 - 5 / 2 ^ 53) ≤ e + 1 :=
      (mul_le_mul_of_nonneg_left hf (by linarith)).trans h4.2
    have h6 : t * (5 / 2 ^ 53) ≤ (b + 2) * (5 / 2 ^ 53) := by gcongr
    have h7 : (5 : ℝ) * (b + 2) / 2 ^ 53 = (b + 2) * (5 / 2 ^ 53) := by ring
    nlinarith

/-- Instance: a tenth of the way into the second of four bins on [1, 3]. -/
example : (1 : ℝ) + (1 + 5 * (4 + 2) / 2 ^ 53) * ((3 - 1) / 4) ≤ 1.55 ∧
    (1.55 : ℝ) < 1 + (1 + 1 - 5 * (4 + 2) / 2 ^ 53) * ((3 - 1) / 4) := by norm_num

/-- With IEEE rounding the largest double below the upper edge of a single bin on [0, 1] is counted
as overflow. -/
theorem C74_right_bin_violated :
    IsDouble (1 - 1 / 2 ^ 53) ∧ (0 : ℝ) ≤ 1 - 1 / 2 ^ 53 ∧ (1 - 1 / 2 ^ 53 : ℝ) < 1 ∧
    Rounded.spaceIndex double (1 + 2) 0 1 (Rounded.binWidth double (1 + 2) 0 1) (1 - 1 / 2 ^ 53)
      = 2 := by
  have h := double_nearest
  have hd : IsDouble (1 - 1 / 2 ^ 53) := by
    refine ⟨2 ^ 53 - 1, -53, by norm_num, ?_⟩
    push_cast
    rw [zpow_neg]
    norm_num
  refine ⟨hd, by norm_num, by norm_num, ?_⟩
  have hw : Rounded.binWidth double (1 + 2) 0 1 = 1 := by
    rw [Rounded.binWidth]
    norm_num [h.one]
  have h2 : double (1 - 1 / 2 ^ 53 + 1) = 2 := by
    have hlog : lastPlace (1 - 1 / 2 ^ 53 + 1) = -52 := by
      rw [lastPlace, abs_of_nonneg (by norm_num)]
      have : Int.log 2 (1 - 1 / 2 ^ 53 + 1 : ℝ) = 0 := by
        apply le_antisymm
        · have : Int.log 2 (1 - 1 / 2 ^ 53 + 1 : ℝ) < 1 := by
            rw [← Int.lt_zpow_iff_log_lt (by norm_num) (by norm_num)]
            norm_num
          omega
        · rw [← Int.zpow_le_iff_le_log (by norm_num) (by norm_num)]
          norm_num
      rw [this]; norm_num
    rw [double, hlog]
    have hy : (1 - 1 / 2 ^ 53 + 1 : ℝ) / (2 : ℝ) ^ (-52 : ℤ) = 9007199254740991 + 1 / 2 := by
      rw [zpow_neg]
      norm_num
    have hfl : ⌊(9007199254740991 + 1 / 2 : ℝ)⌋ = 9007199254740991 := by
      rw [Int.floor_eq_iff]; norm_num
    rw [hy, nearestEven, hfl]
    norm_num
  rw [hw, Rounded.spaceIndex, if_neg (by norm_num), if_neg (by norm_num), sub_zero, h.self hd,
    div_one, h.self hd, h2]
  norm_num

/-- Without rounding the index is the one of the rest of the model. -/
theorem C74_exact (n : ℕ) (lower upper v : ℝ) :
    Rounded.spaceIndex id n lower upper (Rounded.binWidth id n lower upper) v =
      Bins.spaceIndex n lower upper ((upper - lower) / ((n - 2 : ℕ) : ℝ)) v := rfl

end Minimc.Props
