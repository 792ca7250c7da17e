import Verif.Model.Double

/-! # Lemmas on rounding to doubles -/

namespace Minimc

theorem IsDouble.int {m : ℤ} (h : |m| ≤ 2 ^ 53) : IsDouble (m : ℝ) := by
  rcases lt_or_eq_of_le h with h | h
  · exact ⟨m, 0, h, by simp⟩
  · rcases abs_eq (by norm_num : (0 : ℤ) ≤ 2 ^ 53) |>.1 h with rfl | rfl
    · exact ⟨1, 53, by norm_num, by norm_num [zpow_ofNat]⟩
    · exact ⟨-1, 53, by norm_num, by norm_num [zpow_ofNat]⟩

theorem IsDouble.nat {m : ℕ} (h : m ≤ 2 ^ 53) : IsDouble (m : ℝ) := by
  have := IsDouble.int (m := (m : ℤ)) (by rw [abs_of_nonneg (by positivity)]; exact_mod_cast h)
  simpa using this

theorem IsDouble.zero : IsDouble 0 := ⟨0, 0, by norm_num, by simp⟩

theorem IsDouble.one : IsDouble 1 := ⟨1, 0, by norm_num, by simp⟩

theorem IsDouble.neg {x : ℝ} : IsDouble x → IsDouble (-x) := by
  rintro ⟨m, e, h, rfl⟩
  exact ⟨-m, e, by rwa [abs_neg], by push_cast; ring⟩

theorem IsDouble.scale {x : ℝ} (k : ℤ) : IsDouble x → IsDouble (x * (2 : ℝ) ^ k) := by
  rintro ⟨m, e, h, rfl⟩
  exact ⟨m, e + k, h, by rw [zpow_add₀ (by norm_num)]; ring⟩

theorem IsDouble.intScale {m : ℤ} (h : |m| ≤ 2 ^ 53) (k : ℤ) : IsDouble (m * (2 : ℝ) ^ k) :=
  (IsDouble.int h).scale k

/-- A double of at least `2 ^ k` in size is a multiple of `2 ^ (k - 52)`. -/
theorem IsDouble.multiple {x : ℝ} {k : ℤ} (h : IsDouble x) (hk : (2 : ℝ) ^ k ≤ |x|) :
    ∃ n : ℤ, x = n * (2 : ℝ) ^ (k - 52) := by
  obtain ⟨m, e, hm, rfl⟩ := h
  have h2 : (0 : ℝ) < (2 : ℝ) ^ e := by positivity
  have : (2 : ℝ) ^ k < (2 : ℝ) ^ (53 + e) := by
    rw [abs_mul, abs_of_pos h2] at hk
    have hm' : |(m : ℝ)| < 2 ^ 53 := by exact_mod_cast hm
    calc (2 : ℝ) ^ k ≤ |(m : ℝ)| * 2 ^ e := hk
      _ < 2 ^ 53 * 2 ^ e := by gcongr
      _ = (2 : ℝ) ^ (53 + e) := by rw [zpow_add₀ (by norm_num)]; norm_num [zpow_ofNat]
  have hlt : k < 53 + e := (zpow_lt_zpow_iff_right₀ (by norm_num : (1 : ℝ) < 2)).1 this
  obtain ⟨j, hj⟩ : ∃ j : ℕ, e = k - 52 + j := ⟨(e - (k - 52)).toNat, by omega⟩
  refine ⟨m * 2 ^ j, ?_⟩
  rw [hj, zpow_add₀ (by norm_num)]
  push_cast
  rw [zpow_natCast]
  ring

theorem nearestEven_le (y : ℝ) (n : ℤ) : |(nearestEven y : ℝ) - y| ≤ |n - y| := by
  have h0 := Int.floor_le y
  have h1 := Int.lt_floor_add_one y
  have hn : (n : ℝ) ≤ ⌊y⌋ ∨ (⌊y⌋ : ℝ) + 1 ≤ n := by
    rcases le_or_gt n ⌊y⌋ with h | h
    · left; exact_mod_cast h
    · right; exact_mod_cast h
  unfold nearestEven
  split_ifs with h2 h3 h4 <;> push_cast <;>
  · rcases hn with hn | hn
    · rw [abs_of_nonpos (a := (n : ℝ) - y) (by linarith)]
      rw [abs_le]; constructor <;> linarith
    · rw [abs_of_nonneg (a := (n : ℝ) - y) (by linarith)]
      rw [abs_le]; constructor <;> linarith

theorem lastPlace_le {x : ℝ} (hx : x ≠ 0) : (2 : ℝ) ^ (lastPlace x + 52) ≤ |x| := by
  have := Int.zpow_log_le_self (R := ℝ) (b := 2) (r := |x|) (by norm_num) (abs_pos.2 hx)
  simpa [lastPlace] using this

theorem lt_lastPlace (x : ℝ) : |x| < (2 : ℝ) ^ (lastPlace x + 53) := by
  have := Int.lt_zpow_succ_log_self (R := ℝ) (b := 2) (by norm_num) |x|
  have h2 : lastPlace x + 53 = Int.log 2 |x| + 1 := by unfold lastPlace; ring
  rw [h2]; simpa using this

/-- There is such a rounding: the one of IEEE 754. -/
theorem double_nearest : Nearest double := by
  constructor
  · intro x
    by_cases hx : x = 0
    · subst hx; exact ⟨0, 0, by norm_num, by simp [double, nearestEven]⟩
    · have hp : (0 : ℝ) < (2 : ℝ) ^ lastPlace x := by positivity
      refine IsDouble.intScale ?_ _
      have hlt : |x / (2 : ℝ) ^ lastPlace x| < 2 ^ 53 := by
        rw [abs_div, abs_of_pos hp, div_lt_iff₀ hp]
        have := lt_lastPlace x
        rw [zpow_add₀ (by norm_num)] at this
        have h3 : (2 : ℝ) ^ (53 : ℤ) = 2 ^ 53 := by norm_num [zpow_ofNat]
        rw [h3] at this; linarith
      rw [abs_lt] at hlt
      have ha := nearestEven_le (x / (2 : ℝ) ^ lastPlace x) (2 ^ 53)
      have hb := nearestEven_le (x / (2 : ℝ) ^ lastPlace x) (-2 ^ 53)
      set y := x / (2 : ℝ) ^ lastPlace x
      push_cast at ha hb
      rw [abs_of_pos (a := (9007199254740992 : ℝ) - y) (by linarith)] at ha
      rw [abs_of_neg (a := (-9007199254740992 : ℝ) - y) (by linarith)] at hb
      have h4 := (abs_le.1 ha).2
      have h5 := (abs_le.1 hb).1
      have h6 : ((nearestEven y : ℤ) : ℝ) ≤ ((2 ^ 53 : ℤ) : ℝ) := by push_cast; linarith
      have h7 : (((-2 ^ 53 : ℤ)) : ℝ) ≤ ((nearestEven y : ℤ) : ℝ) := by push_cast; linarith
      rw [abs_le]
      exact ⟨by exact_mod_cast h7, by exact_mod_cast h6⟩
  · intro x z hz
    by_cases hx : x = 0
    · subst hx; simp [double, nearestEven]
    have hp : (0 : ℝ) < (2 : ℝ) ^ lastPlace x := by positivity
    have key : ∀ n : ℤ, |double x - x| ≤ |n * (2 : ℝ) ^ lastPlace x - x| := by
      intro n
      have h := nearestEven_le (x / (2 : ℝ) ^ lastPlace x) n
      have e1 : ∀ t : ℝ, |t * (2 : ℝ) ^ lastPlace x - x|
          = |t - x / (2 : ℝ) ^ lastPlace x| * (2 : ℝ) ^ lastPlace x := by
        intro t
        rw [← abs_of_pos hp, ← abs_mul, abs_of_pos hp]
        congr 1
        field_simp
      rw [double, e1, e1]
      gcongr
    by_cases hb : (2 : ℝ) ^ (lastPlace x + 52) ≤ |z|
    · obtain ⟨n, hn⟩ := hz.multiple hb
      have : lastPlace x + 52 - 52 = lastPlace x := by ring
      rw [this] at hn
      rw [hn]; exact key n
    · push Not at hb
      have hx2 := lastPlace_le hx
      have h52 : (2 : ℝ) ^ (lastPlace x + 52) = 2 ^ 52 * (2 : ℝ) ^ lastPlace x := by
        rw [zpow_add₀ (by norm_num)]
        have : (2 : ℝ) ^ (52 : ℤ) = 2 ^ 52 := by norm_num [zpow_ofNat]
        rw [this]; ring
      rw [h52] at hb hx2
      rcases lt_or_gt_of_ne hx with hneg | hpos
      · refine (key (-2 ^ 52)).trans ?_
        rw [abs_of_neg hneg] at hx2
        have hz' := neg_abs_le z
        push_cast
        rw [abs_of_nonneg (by linarith), abs_of_nonneg (by linarith)]
        linarith
      · refine (key (2 ^ 52)).trans ?_
        rw [abs_of_pos hpos] at hx2
        have hz' := le_abs_self z
        push_cast
        rw [abs_of_nonpos (by linarith), abs_of_nonpos (by linarith)]
        linarith

namespace Nearest

variable {rnd : ℝ → ℝ} (h : Nearest rnd)
include h

theorem self {x : ℝ} (hx : IsDouble x) : rnd x = x := by
  have := h.nearest x x hx
  rw [sub_self, abs_zero] at this
  have := abs_nonpos_iff.1 this
  linarith

theorem mono : Monotone rnd := by
  intro x y hxy
  by_contra hlt
  push Not at hlt
  rcases eq_or_lt_of_le hxy with rfl | hxy
  · exact lt_irrefl _ hlt
  have h1 := h.nearest x (rnd y) (h.isDouble y)
  have h2 := h.nearest y (rnd x) (h.isDouble x)
  rcases abs_cases (rnd x - x) with ⟨a, _⟩ | ⟨a, _⟩ <;>
  rcases abs_cases (rnd y - x) with ⟨b, _⟩ | ⟨b, _⟩ <;>
  rcases abs_cases (rnd y - y) with ⟨c, _⟩ | ⟨c, _⟩ <;>
  rcases abs_cases (rnd x - y) with ⟨d, _⟩ | ⟨d, _⟩ <;>
  linarith

theorem zero : rnd 0 = 0 := h.self IsDouble.zero

theorem one : rnd 1 = 1 := h.self IsDouble.one

theorem nonneg {x : ℝ} (hx : 0 ≤ x) : 0 ≤ rnd x := h.zero ▸ h.mono hx

theorem nonpos {x : ℝ} (hx : x ≤ 0) : rnd x ≤ 0 := h.zero ▸ h.mono hx

/-- The relative error of rounding is at most `2 ^ -53`. -/
theorem err (x : ℝ) : |rnd x - x| ≤ |x| / 2 ^ 53 := by
  by_cases hx : x = 0
  · subst hx; simp [h.zero]
  have hp : (0 : ℝ) < (2 : ℝ) ^ lastPlace x := by positivity
  refine (h.nearest x _ (double_nearest.isDouble x)).trans ?_
  have h1 := nearestEven_le (x / (2 : ℝ) ^ lastPlace x) (round (x / (2 : ℝ) ^ lastPlace x))
  have h2 := abs_sub_round (x / (2 : ℝ) ^ lastPlace x)
  rw [abs_sub_comm] at h2
  have h3 := h1.trans h2
  have e1 : |double x - x|
      = |(nearestEven (x / (2 : ℝ) ^ lastPlace x) : ℝ) - x / (2 : ℝ) ^ lastPlace x|
        * (2 : ℝ) ^ lastPlace x := by
    rw [← abs_of_pos hp, ← abs_mul, abs_of_pos hp]
    congr 1
    unfold double
    field_simp
  have h4 := lastPlace_le hx
  have h52 : (2 : ℝ) ^ (lastPlace x + 52) = 2 ^ 52 * (2 : ℝ) ^ lastPlace x := by
    rw [zpow_add₀ (by norm_num)]
    have : (2 : ℝ) ^ (52 : ℤ) = 2 ^ 52 := by norm_num [zpow_ofNat]
    rw [this]; ring
  rw [h52] at h4
  rw [e1, le_div_iff₀ (by norm_num)]
  nlinarith

theorem le_of_nonneg {x : ℝ} (hx : 0 ≤ x) : rnd x ≤ x * (1 + 1 / 2 ^ 53) := by
  have := (abs_le.1 (h.err x)).2
  rw [abs_of_nonneg hx] at this
  linarith

theorem ge_of_nonneg {x : ℝ} (hx : 0 ≤ x) : x * (1 - 1 / 2 ^ 53) ≤ rnd x := by
  have := (abs_le.1 (h.err x)).1
  rw [abs_of_nonneg hx] at this
  linarith

theorem pos {x : ℝ} (hx : 0 < x) : 0 < rnd x :=
  lt_of_lt_of_le (by have : (0 : ℝ) < 1 - 1 / 2 ^ 53 := by norm_num
                     positivity) (h.ge_of_nonneg hx.le)

end Nearest
end Minimc
