import Verif.Props.RoundedTable

/-!
# Whether tables in double precision keep between their entries
-/

open Classical

namespace Minimc.Props

open Minimc

variable {rnd : ℝ → ℝ}

/-- The exponent of a number between two powers of two. -/
theorem lastPlace_eq {x : ℝ} {e : ℤ} (h1 : (2 : ℝ) ^ (e + 52) ≤ |x|) (h2 : |x| < (2 : ℝ) ^ (e + 53)) :
    lastPlace x = e := by
  have hx : x ≠ 0 := by
    rintro rfl
    rw [abs_zero] at h1
    exact absurd h1 (not_le.2 (by positivity))
  have a1 := (zpow_lt_zpow_iff_right₀ (one_lt_two : (1 : ℝ) < 2)).1 ((lastPlace_le hx).trans_lt h2)
  have a2 := (zpow_lt_zpow_iff_right₀ (one_lt_two : (1 : ℝ) < 2)).1 (h1.trans_lt (lt_lastPlace x))
  omega

/-- Rounding to nearest, away from ties. -/
theorem double_of {x : ℝ} (e n : ℤ) (h1 : (2 : ℝ) ^ (e + 52) ≤ |x|) (h2 : |x| < (2 : ℝ) ^ (e + 53))
    (hn : |(n : ℝ) - x / (2 : ℝ) ^ e| < 1 / 2) : double x = n * (2 : ℝ) ^ e := by
  unfold double
  rw [lastPlace_eq h1 h2]
  have h3 := nearestEven_le (x / (2 : ℝ) ^ e) n
  have : nearestEven (x / (2 : ℝ) ^ e) = n := by
    have h4 : |((nearestEven (x / (2 : ℝ) ^ e) - n : ℤ) : ℝ)| < 1 := by
      push_cast
      have h5 := lt_of_le_of_lt h3 hn
      rw [abs_lt] at h5 hn ⊢
      constructor <;> linarith [h5.1, h5.2, hn.1, hn.2]
    have h6 : |nearestEven (x / (2 : ℝ) ^ e) - n| < 1 := by exact_mod_cast h4
    have := Int.abs_lt_one_iff.1 h6
    omega
  rw [this]

/-- A number half way between two integers is rounded to the even one. -/
theorem nearestEven_tie {n : ℤ} (hn : n % 2 = 0) :
    nearestEven ((n : ℝ) + 1 / 2) = n ∧ nearestEven ((n : ℝ) - 1 / 2) = n := by
  constructor
  · have hf : ⌊(n : ℝ) + 1 / 2⌋ = n := by
      rw [Int.floor_eq_iff]
      constructor <;> linarith
    unfold nearestEven
    rw [hf, if_neg (by linarith), if_neg (by linarith), if_pos hn]
  · have hf : ⌊(n : ℝ) - 1 / 2⌋ = n - 1 := by
      rw [Int.floor_eq_iff]
      push_cast
      constructor <;> linarith
    unfold nearestEven
    rw [hf, if_neg (by push_cast; linarith), if_neg (by push_cast; linarith), if_neg (by omega)]
    ring

/-- **C114** That values between entries that are not negative are not negative is false with rounding: the
last key before the end of a table that ends with zero can give a negative cross section. -/
theorem C114_violated : ∃ m : ContinuousMap, ∃ k v' : ℝ, (∀ e ∈ m, IsDouble e.1 ∧ IsDouble e.2 ∧
    0 < e.1 ∧ 0 ≤ e.2) ∧ m.Pairwise (fun a b => a.1 < b.1) ∧ IsDouble k ∧
    Rounded.tableAt double m k = .ok v' ∧ v' < 0 := by
  have h := double_nearest
  have dh : IsDouble (1 / 2 : ℝ) := ⟨1, -1, by norm_num, by norm_num⟩
  have d7 : IsDouble (7 : ℝ) := by simpa using IsDouble.nat (m := 7) (by norm_num)
  have dhi : IsDouble (6755399441055749 : ℝ) := by simpa using IsDouble.nat (m := 6755399441055749) (by norm_num)
  have dk : IsDouble (6755399441055748 : ℝ) := by simpa using IsDouble.nat (m := 6755399441055748) (by norm_num)
  refine ⟨[(1 / 2, 7), (6755399441055749, 0)], 6755399441055748, -(1 / 2 ^ 50), ?_, by norm_num, dk, ?_, by norm_num⟩
  · intro e he
    simp only [List.mem_cons, List.not_mem_nil, or_false] at he
    rcases he with rfl | rfl
    · exact ⟨dh, d7, by norm_num, by norm_num⟩
    · exact ⟨dhi, IsDouble.zero, by norm_num, le_rfl⟩
  · have r1 : double (0 - 7) = -7 := by
      rw [zero_sub]
      exact h.self d7.neg
    have tie := nearestEven_tie (n := 6755399441055748) (by norm_num)
    have r2 : double (6755399441055749 - 1 / 2) = 6755399441055748 := by
      unfold double
      rw [lastPlace_eq (e := 0) (by norm_num) (by norm_num), zpow_zero, div_one, mul_one]
      rw [show (6755399441055749 : ℝ) - 1 / 2 = ((6755399441055748 : ℤ) : ℝ) + 1 / 2 by norm_num, tie.1]
      norm_num
    have r3 : double (6755399441055748 - 1 / 2) = 6755399441055748 := by
      unfold double
      rw [lastPlace_eq (e := 0) (by norm_num) (by norm_num), zpow_zero, div_one, mul_one]
      rw [show (6755399441055748 : ℝ) - 1 / 2 = ((6755399441055748 : ℤ) : ℝ) - 1 / 2 by norm_num, tie.2]
      norm_num
    have r4 : double (-7 / 6755399441055748) = ((-5254199565265576 : ℤ) : ℝ) * (2 : ℝ) ^ (-102 : ℤ) :=
      double_of (-102) (-5254199565265576) (by norm_num) (by norm_num) (by norm_num [abs_lt])
    have r5 : double (((-5254199565265576 : ℤ) : ℝ) * (2 : ℝ) ^ (-102 : ℤ) * 6755399441055748) =
        ((-7881299347898369 : ℤ) : ℝ) * (2 : ℝ) ^ (-50 : ℤ) :=
      double_of (-50) (-7881299347898369) (by norm_num) (by norm_num) (by norm_num [abs_lt])
    have r6 : double (7 + ((-7881299347898369 : ℤ) : ℝ) * (2 : ℝ) ^ (-50 : ℤ)) = -(1 / 2 ^ 50) := by
      rw [show (7 : ℝ) + ((-7881299347898369 : ℤ) : ℝ) * (2 : ℝ) ^ (-50 : ℤ) = -(1 / 2 ^ 50) by norm_num]
      exact h.self ⟨-1, -50, by norm_num, by norm_num⟩
    have hlo : ((1 : ℝ) / 2 ≤ 6755399441055748) := by norm_num
    have hhi : ¬ ((6755399441055749 : ℝ) ≤ 6755399441055748) := by norm_num
    unfold Rounded.tableAt
    simp only [List.takeWhile, List.dropWhile, hlo, hhi, decide_true, decide_false, List.getLast?_singleton,
      List.head?_cons]
    rw [r1, r2, r3, r4, r5, r6]

/-- **C114** With such a cross section and a number density of one, the distance to the next collision is
negative whatever the uniform number: it is less than that to any surface, and the neutron is moved back.
(The standard demands a positive rate, so that this is undefined; shown is what the formula of libstdc++ gives.) -/
theorem C114_backwards_violated : ∃ m : ContinuousMap, ∃ k v' : ℝ, (∀ e ∈ m, IsDouble e.1 ∧ IsDouble e.2 ∧
    0 < e.1 ∧ 0 ≤ e.2) ∧ m.Pairwise (fun a b => a.1 < b.1) ∧ IsDouble k ∧
    Rounded.tableAt double m k = .ok v' ∧ ∀ g, Rng.Valid g →
      ∃ d : ℝ, (Rounded.exponential double Real.log v' g).1 = (d : WithTop ℝ) ∧ d < 0 := by
  have h := double_nearest
  obtain ⟨m, k, v', h1, h2, h3, h4, h5⟩ := C114_violated
  refine ⟨m, k, v', h1, h2, h3, h4, fun g hg => ?_⟩
  obtain ⟨d, hd, hpos, -⟩ := C113_flight (lam := 1) (logarithm := Real.log) h
    (fun x _ => by rw [sub_self, abs_zero]; positivity) one_pos hg
  unfold Rounded.exponential at hd ⊢
  simp only [one_ne_zero, if_false, div_one, WithTop.coe_inj] at hd
  simp only [h5.ne, if_false]
  refine ⟨_, rfl, h.neg (div_neg_of_pos_of_neg ?_ h5)⟩
  by_contra hle
  have := h.nonpos (not_lt.1 hle)
  linarith

/-- **C114** What holds of it: where entries do not fall with the key, no value is less than the entries
before it, and where they do not rise, none is greater. -/
theorem C114_partial (h : Nearest rnd) {m : ContinuousMap} {k v' : ℝ} (hd : ∀ e ∈ m, IsDouble e.2)
    (hv : Rounded.tableAt rnd m k = .ok v') :
    (m.Pairwise (fun a b => a.1 < b.1 ∧ a.2 ≤ b.2) → ∀ e ∈ m, e.1 ≤ k → e.2 ≤ v') ∧
    (m.Pairwise (fun a b => a.1 < b.1 ∧ b.2 ≤ a.2) → ∀ e ∈ m, e.1 ≤ k → v' ≤ e.2) := by
  have split := List.takeWhile_append_dropWhile (p := fun e : ℝ × ℝ => decide (e.1 ≤ k)) (l := m)
  unfold Rounded.tableAt at hv
  rcases hlo : (m.takeWhile (fun e => decide (e.1 ≤ k))).getLast? with _ | ⟨kLo, vLo⟩ <;>
    rcases hhi : (m.dropWhile (fun e => decide (e.1 ≤ k))).head? with _ | ⟨kHi, vHi⟩ <;>
    rw [hlo, hhi] at hv <;> simp only at hv
  · cases hv
  · -- before the first key
    rw [List.getLast?_eq_none_iff] at hlo
    rw [hlo, List.nil_append] at split
    rw [split] at hhi
    have hkHi : k < kHi := by
      have := List.head?_dropWhile_not (fun e : ℝ × ℝ => decide (e.1 ≤ k)) m
      rw [split, hhi] at this
      simpa using this
    obtain ⟨t, rfl⟩ : ∃ t, m = (kHi, vHi) :: t := by
      cases m with
      | nil => simp at hhi
      | cons a t => exact ⟨t, by simp at hhi; rw [hhi]⟩
    constructor <;> intro hp e he hek <;> exfalso <;> rw [List.pairwise_cons] at hp <;>
      rcases List.mem_cons.1 he with rfl | he'
    · exact absurd hek (not_le.2 hkHi)
    · exact absurd ((hp.1 e he').1.trans_le hek) (not_lt.2 hkHi.le)
    · exact absurd hek (not_le.2 hkHi)
    · exact absurd ((hp.1 e he').1.trans_le hek) (not_lt.2 hkHi.le)
  all_goals
    obtain ⟨l, hl⟩ := List.getLast?_eq_some_iff.1 hlo
    have hmemLo : (kLo, vLo) ∈ m := (List.takeWhile_sublist _).subset (List.mem_of_getLast? hlo)
    have hkLo : kLo ≤ k := by
      have := List.all_eq_true.1 List.all_takeWhile _ (List.mem_of_getLast? hlo)
      simpa using this
    rw [hl] at split
  · rw [List.head?_eq_none_iff] at hhi
    rw [hhi, List.append_nil] at split
    cases hv
    rw [← split]
    constructor <;> intro hp e he _ <;> rw [List.pairwise_append] at hp <;>
      rcases List.mem_append.1 he with he' | he'
    · exact (hp.2.2 e he' _ (List.mem_singleton.2 rfl)).2
    · rw [List.mem_singleton.1 he']
    · exact (hp.2.2 e he' _ (List.mem_singleton.2 rfl)).2
    · rw [List.mem_singleton.1 he']
  · obtain ⟨r, hr⟩ : ∃ r, m.dropWhile (fun e => decide (e.1 ≤ k)) = (kHi, vHi) :: r := by
      cases hq : m.dropWhile (fun e => decide (e.1 ≤ k)) with
      | nil => rw [hq] at hhi; simp at hhi
      | cons a t => rw [hq] at hhi; exact ⟨t, by simp at hhi; rw [hhi]⟩
    rw [hr] at split
    have hkHi : k < kHi := by
      have := List.head?_dropWhile_not (fun e : ℝ × ℝ => decide (e.1 ≤ k)) m
      rw [hhi] at this
      simpa using this
    have hk := h.pos (by linarith : 0 < kHi - kLo)
    have hx := h.nonneg (by linarith : 0 ≤ k - kLo)
    have dLo : IsDouble vLo := hd _ hmemLo
    cases hv
    constructor
    · intro hp e he hek
      rw [← split] at hp he
      rw [List.pairwise_append, List.pairwise_append] at hp
      have hv : vLo ≤ vHi := (hp.2.2 (kLo, vLo) (by simp) (kHi, vHi) (by simp)).2
      have h1 := h.nonneg (by linarith : 0 ≤ vHi - vLo)
      have h2 := h.nonneg (mul_nonneg (h.nonneg (div_nonneg h1 hk.le)) hx)
      refine le_trans ?_ ((h.self dLo).symm.le.trans (h.mono (le_add_of_nonneg_right h2)))
      rcases List.mem_append.1 he with he' | he'
      · rcases List.mem_append.1 he' with he' | he'
        · exact (hp.1.2.2 e he' _ (List.mem_singleton.2 rfl)).2
        · rw [List.mem_singleton.1 he']
      · rcases List.mem_cons.1 he' with rfl | he'
        · exact absurd hek (not_le.2 hkHi)
        · exact absurd (((List.pairwise_cons.1 hp.2.1).1 e he').1.trans_le hek) (not_lt.2 hkHi.le)
    · intro hp e he hek
      rw [← split] at hp he
      rw [List.pairwise_append, List.pairwise_append] at hp
      have hv : vHi ≤ vLo := (hp.2.2 (kLo, vLo) (by simp) (kHi, vHi) (by simp)).2
      have h1 := h.nonpos (by linarith : vHi - vLo ≤ 0)
      have h2 := h.nonpos (mul_nonpos_of_nonpos_of_nonneg
        (h.nonpos (div_nonpos_of_nonpos_of_nonneg h1 hk.le)) hx)
      refine le_trans ((h.mono (add_le_of_nonpos_right h2)).trans (h.self dLo).le) ?_
      rcases List.mem_append.1 he with he' | he'
      · rcases List.mem_append.1 he' with he' | he'
        · exact (hp.1.2.2 e he' _ (List.mem_singleton.2 rfl)).2
        · rw [List.mem_singleton.1 he']
      · rcases List.mem_cons.1 he' with rfl | he'
        · exact absurd hek (not_le.2 hkHi)
        · exact absurd (((List.pairwise_cons.1 hp.2.1).1 e he').1.trans_le hek) (not_lt.2 hkHi.le)

/-! ### Instances -/

/-- A rising table of three entries: no value at a key from `3` on is less than `7`. -/
example (h : Nearest rnd) {k v' : ℝ} (hk : 3 ≤ k)
    (hv : Rounded.tableAt rnd [(1, 5), (3, 7), (4, 9)] k = .ok v') : 7 ≤ v' := by
  have d (n : ℕ) (hn : n ≤ 2 ^ 53) : IsDouble (n : ℝ) := IsDouble.nat hn
  refine (C114_partial h ?_ hv).1 (by norm_num) (3, 7) (by simp) hk
  intro e he
  simp only [List.mem_cons, List.not_mem_nil, or_false] at he
  rcases he with rfl | rfl | rfl
  · exact_mod_cast d 5 (by norm_num)
  · exact_mod_cast d 7 (by norm_num)
  · exact_mod_cast d 9 (by norm_num)

end Minimc.Props
