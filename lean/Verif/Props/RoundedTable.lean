import Verif.Lemmas.RoundedCylinder
import Verif.Model.RoundedTable
import Verif.Props.RoundedRng
import Verif.Spec.RoundedTable

/-!
# Tables and flights in double precision
-/

open Classical

namespace Minimc.Props

open Minimc

variable {rnd : ℝ → ℝ}

/-- A product of a slope and a length of one sign, with five roundings. -/
theorem slope_near (h : Nearest rnd) {v k x : ℝ} (hk : 0 < k) (hx : 0 ≤ x) :
    |rnd (rnd (rnd v / rnd k) * rnd x) - v / k * x| ≤ 51 / 10 * eps * |v / k * x| := by
  have nk := h.near hk.le
  have nx := h.near hx
  have hk' := h.pos hk
  have hx' := h.nonneg hx
  rcases le_total 0 v with hv | hv
  · have nv := h.near hv
    have hv' := h.nonneg hv
    have hq : 0 ≤ v / k := div_nonneg hv hk.le
    have hq' : 0 ≤ rnd v / rnd k := div_nonneg hv' hk'.le
    have n1 : Near 3 (v / k) (rnd (rnd v / rnd k)) := (nv.div nk hv hk hv' hk').trans (h.near hq')
    have n2 : Near 4 (v / k * x) (rnd (rnd v / rnd k) * rnd x) :=
      n1.mul nx hq hx (h.nonneg hq') hx'
    have n3 : Near 5 (v / k * x) (rnd (rnd (rnd v / rnd k) * rnd x)) :=
      n2.trans (h.near (mul_nonneg (h.nonneg hq') hx'))
    have := Rounded.near_err n3 (mul_nonneg hq hx) le_rfl
    rw [abs_of_nonneg (mul_nonneg hq hx)]
    push_cast at this
    linarith
  · have nv := Rounded.neg_near h hv
    have hv' : rnd v ≤ 0 := h.nonpos hv
    have hq : v / k ≤ 0 := div_nonpos_of_nonpos_of_nonneg hv hk.le
    have hq' : rnd v / rnd k ≤ 0 := div_nonpos_of_nonpos_of_nonneg hv' hk'.le
    have n0 : Near 2 (-(v / k)) (-(rnd v / rnd k)) := by
      have := nv.div nk (by linarith) hk (by linarith) hk'
      rwa [neg_div, neg_div] at this
    have n1 : Near 3 (-(v / k)) (-rnd (rnd v / rnd k)) := n0.trans (Rounded.neg_near h hq')
    have hr : rnd (rnd v / rnd k) ≤ 0 := h.nonpos hq'
    have n2 : Near 4 (-(v / k * x)) (-(rnd (rnd v / rnd k) * rnd x)) := by
      have := n1.mul nx (by linarith) hx (by linarith) hx'
      rwa [neg_mul, neg_mul] at this
    have hp : rnd (rnd v / rnd k) * rnd x ≤ 0 := mul_nonpos_of_nonpos_of_nonneg hr hx'
    have n3 : Near 5 (-(v / k * x)) (-rnd (rnd (rnd v / rnd k) * rnd x)) := n2.trans (Rounded.neg_near h hp)
    have hP : v / k * x ≤ 0 := mul_nonpos_of_nonpos_of_nonneg hq hx
    have := Rounded.near_err n3 (by linarith) le_rfl
    rw [abs_of_nonpos hP, abs_sub_comm]
    push_cast at this
    rw [show -rnd (rnd (rnd v / rnd k) * rnd x) - -(v / k * x) =
      v / k * x - rnd (rnd (rnd v / rnd k) * rnd x) by ring] at this
    linarith

/-- **C113** Tables in double precision: a value that is found without rounding is found with
it, and differs by at most twelve units of `2 ^ -53` of the largest entry. -/
theorem C113_table (h : Nearest rnd) {m : ContinuousMap} {k v B : ℝ} (hB : ∀ e ∈ m, |e.2| ≤ B)
    (hv : ContinuousMap.at' m k = .ok v) :
    ∃ v', Rounded.tableAt rnd m k = .ok v' ∧ |v' - v| ≤ 12 * B / 2 ^ 53 := by
  have he := eps_pos
  have hs := eps_le
  rw [show 12 * B / 2 ^ 53 = 12 * eps * B by unfold eps; ring]
  unfold ContinuousMap.at' at hv
  unfold Rounded.tableAt
  rcases hlo : (m.takeWhile (fun e => decide (e.1 ≤ k))).getLast? with _ | ⟨kLo, vLo⟩ <;>
    rcases hhi : (m.dropWhile (fun e => decide (e.1 ≤ k))).head? with _ | ⟨kHi, vHi⟩ <;>
    rw [hlo, hhi] at hv ⊢ <;> simp only at hv ⊢
  · cases hv
  · cases hv
    have hmem : (kHi, v) ∈ m := (List.dropWhile_sublist _).subset (List.mem_of_mem_head? hhi)
    refine ⟨_, rfl, ?_⟩
    rw [sub_self, abs_zero]
    have := (abs_nonneg _).trans (hB _ hmem)
    positivity
  · cases hv
    have hmem : (kLo, v) ∈ m := (List.takeWhile_sublist _).subset (List.mem_of_getLast? hlo)
    refine ⟨_, rfl, ?_⟩
    rw [sub_self, abs_zero]
    have := (abs_nonneg _).trans (hB _ hmem)
    positivity
  · cases hv
    refine ⟨_, rfl, ?_⟩
    have hmemLo : (kLo, vLo) ∈ m := (List.takeWhile_sublist _).subset (List.mem_of_getLast? hlo)
    have hmemHi : (kHi, vHi) ∈ m := (List.dropWhile_sublist _).subset (List.mem_of_mem_head? hhi)
    have hkLo : kLo ≤ k := by
      have := List.all_eq_true.1 List.all_takeWhile _ (List.mem_of_getLast? hlo)
      simpa using this
    have hkHi : k < kHi := by
      have := List.head?_dropWhile_not (fun e : ℝ × ℝ => decide (e.1 ≤ k)) m
      rw [hhi] at this
      simpa using this
    have hk : 0 < kHi - kLo := by linarith
    have hx : 0 ≤ k - kLo := by linarith
    have key := slope_near h (v := vHi - vLo) hk hx
    have b1 := hB _ hmemLo
    have b2 := hB _ hmemHi
    simp only at b1 b2
    have B0 : 0 ≤ B := (abs_nonneg _).trans b1
    set f := (k - kLo) / (kHi - kLo) with hf
    have f0 : 0 ≤ f := div_nonneg hx hk.le
    have f1 : f ≤ 1 := (div_le_one hk).2 (by linarith)
    have hP : (vHi - vLo) / (kHi - kLo) * (k - kLo) = (vHi - vLo) * f := by
      rw [hf]
      ring
    rw [hP] at key ⊢
    have hPB : |(vHi - vLo) * f| ≤ 2 * B := by
      rw [abs_mul, abs_of_nonneg f0]
      have : |vHi - vLo| ≤ 2 * B := (abs_sub _ _).trans (by linarith)
      calc |vHi - vLo| * f ≤ 2 * B * 1 := mul_le_mul this f1 f0 (by linarith)
        _ = 2 * B := mul_one _
    have hV : |vLo + (vHi - vLo) * f| ≤ B := by
      rw [abs_le] at b1 b2 ⊢
      have e : vLo + (vHi - vLo) * f = vLo * (1 - f) + vHi * f := by ring
      rw [e]
      have g1 : 0 ≤ 1 - f := by linarith
      have := mul_le_mul_of_nonneg_right b1.1 g1
      have := mul_le_mul_of_nonneg_right b1.2 g1
      have := mul_le_mul_of_nonneg_right b2.1 f0
      have := mul_le_mul_of_nonneg_right b2.2 f0
      constructor <;> linarith
    set P := (vHi - vLo) * f
    set P' := rnd (rnd (rnd (vHi - vLo) / rnd (kHi - kLo)) * rnd (k - kLo))
    have k1 := mul_le_mul_of_nonneg_left hPB (by positivity : 0 ≤ 51 / 10 * eps)
    have eB := mul_nonneg he.le B0
    have eB' := mul_le_mul_of_nonneg_right hs B0
    have hV' : |vLo + P'| ≤ 101 / 100 * B := by
      rw [abs_le] at key hV ⊢
      constructor <;> linarith [key.1, key.2, hV.1, hV.2]
    have h4 := h.err_eps (vLo + P')
    have h5 := mul_le_mul_of_nonneg_left hV' he.le
    rw [abs_le] at key h4 ⊢
    constructor <;> linarith [key.1, key.2, h4.1, h4.2]

/-- **C113** Without rounding these are the functions of the exact model. -/
theorem C113_exact (m : ContinuousMap) (k lam : ℝ) {g : ℕ} (hg : Rng.Valid g) :
    Rounded.tableAt id m k = ContinuousMap.at' m k ∧
      Rounded.exponential id Real.log lam g = Rng.exponential lam g := by
  refine ⟨rfl, ?_⟩
  unfold Rounded.exponential Rng.exponential Rng.exponentialOf
  rw [C72_exact hg]
  rfl

/-- **C113** Flights in double precision: they are positive, shorter than 23 mean free paths, and as long as the
uniform number says up to four roundings. -/
theorem C113_flight (h : Nearest rnd) {logarithm : ℝ → ℝ} (hlog : Spec.AccurateLog logarithm) {lam : ℝ}
    (hl : 0 < lam) {g : ℕ} (hg : Rng.Valid g) :
    ∃ d : ℝ, (Rounded.exponential rnd logarithm lam g).1 = (d : WithTop ℝ) ∧ 0 < d ∧ lam * d < 23 ∧
      |lam * d - -Real.log (1 - (Rounded.canonical rnd g).1)| ≤
        4 * (1 + -Real.log (1 - (Rounded.canonical rnd g).1)) / 2 ^ 53 ∧
      (Rounded.exponential rnd logarithm lam g).2 = (Rng.exponential lam g).2 := by
  have he := eps_pos
  have hs := eps_le
  have hq := eps_sq
  obtain ⟨-, u0, u1, -, -⟩ := C72_canonical rnd h hg
  set u := (Rounded.canonical rnd g).1 with hu
  set w := 1 - u with hw
  have w0 : 1 / 2 ^ 32 < w := by rw [hw]; linarith
  have w1 : w < 1 - 1 / 2 ^ 32 := by rw [hw]; linarith
  have wpos : 0 < w := lt_trans (by norm_num) w0
  have herr := h.err_eps w
  rw [abs_of_pos wpos] at herr
  set w' := rnd w with hw'
  have ew : eps * w ≤ w / 10 ^ 15 := by
    have := mul_le_mul_of_nonneg_right hs wpos.le
    linarith
  have w'pos : 0 < w' := h.pos wpos
  have w'1 : w' < 1 := by
    have : w / 10 ^ 15 < 1 / 2 ^ 32 := by
      have : (1 : ℝ) / 10 ^ 15 < 1 / 2 ^ 32 := by norm_num
      linarith
    linarith [(abs_le.1 herr).2]
  have logd : |Real.log w' - Real.log w| ≤ 11 / 10 * eps := by
    rw [← Real.log_div w'pos.ne' wpos.ne']
    have r1 : w' / w ≤ 1 + eps := by
      rw [div_le_iff₀ wpos]
      linarith [(abs_le.1 herr).2]
    have r2 : 1 - eps ≤ w' / w := by
      rw [le_div_iff₀ wpos]
      linarith [(abs_le.1 herr).1]
    have rpos : 0 < w' / w := div_pos w'pos wpos
    rw [abs_le]
    constructor
    · have := Real.one_sub_inv_le_log_of_pos rpos
      have hinv : (w' / w)⁻¹ ≤ 1 + 11 / 10 * eps := by
        rw [inv_le_comm₀ rpos (by linarith)]
        refine le_trans ?_ r2
        rw [inv_le_iff_one_le_mul₀ (by linarith)]
        linarith
      linarith
    · have := Real.log_le_sub_one_of_pos rpos
      linarith
  have l1 : 0 < -Real.log w' := by linarith [Real.log_neg w'pos w'1]
  have l2 : 0 < -Real.log w := by
    have : Real.log w < 0 := Real.log_neg wpos (lt_trans w1 (by norm_num))
    linarith
  have l3 : -Real.log w < 222 / 10 := by
    have k1 : Real.log (1 / 2 ^ 32) < Real.log w := Real.log_lt_log (by norm_num) w0
    have k2 : Real.log (1 / 2 ^ 32) = -(32 * Real.log 2) := by
      rw [one_div, Real.log_inv, Real.log_pow]
      norm_num
    have k3 := Real.log_two_lt_d9
    linarith
  have hacc := hlog w' w'pos
  rw [abs_of_neg (by linarith : Real.log w' < 0), show -Real.log w' / 2 ^ 52 = 2 * eps * -Real.log w' by
    unfold eps; ring] at hacc
  set ℓ := -Real.log w' with hℓ
  set L := -Real.log w with hL
  have eℓ := mul_pos he l1
  have eL := mul_pos he l2
  have eℓ' := mul_le_mul_of_nonneg_right hs l1.le
  have a1 : |-logarithm w' - ℓ| ≤ 2 * eps * ℓ := by
    rw [abs_le] at hacc ⊢
    constructor <;> linarith [hacc.1, hacc.2]
  have lpos : 0 < -logarithm w' := by linarith [(abs_le.1 a1).1]
  set y := -logarithm w'
  have hdpos : 0 < y / lam := div_pos lpos hl
  have hd := h.err_eps (y / lam)
  rw [abs_of_pos hdpos] at hd
  have hexp : (Rounded.exponential rnd logarithm lam g).1 = ((rnd (y / lam) : ℝ) : WithTop ℝ) := by
    unfold Rounded.exponential
    rw [if_neg hl.ne']
  have hd' : |lam * rnd (y / lam) - y| ≤ eps * y := by
    have e : lam * rnd (y / lam) - y = lam * (rnd (y / lam) - y / lam) := by
      field_simp
    rw [e, abs_mul, abs_of_pos hl]
    calc lam * |rnd (y / lam) - y / lam| ≤ lam * (eps * (y / lam)) := mul_le_mul_of_nonneg_left hd hl.le
      _ = eps * y := by field_simp
  have ydiff : y ≤ 101 / 100 * ℓ := by linarith [(abs_le.1 a1).2]
  have ey := mul_le_mul_of_nonneg_left (abs_le.1 a1).2 he.le
  have eeℓ := mul_le_mul_of_nonneg_right hq l1.le
  have hLℓ : |ℓ - L| ≤ 11 / 10 * eps := by
    rw [hℓ, hL, abs_sub_comm]
    rwa [show -Real.log w - -Real.log w' = Real.log w' - Real.log w by ring]
  have hLe : eps * ℓ ≤ eps * (L + 11 / 10 * eps) :=
    mul_le_mul_of_nonneg_left (by linarith [(abs_le.1 hLℓ).2]) he.le
  have total : |lam * rnd (y / lam) - L| ≤ 4 * eps * (1 + L) := by
    rw [abs_le] at hd' a1 hLℓ ⊢
    constructor <;> linarith [hd'.1, hd'.2, a1.1, a1.2, hLℓ.1, hLℓ.2]
  refine ⟨_, hexp, h.pos hdpos, ?_, ?_, rfl⟩
  · have : eps * L ≤ L / 10 ^ 15 := by
      have := mul_le_mul_of_nonneg_right hs l2.le
      linarith
    linarith [(abs_le.1 total).2]
  · rw [show 4 * (1 + L) / 2 ^ 53 = 4 * eps * (1 + L) by unfold eps; ring]
    exact total

/-! ### Instances -/

/-- Instance of `C113_table`: half way between two entries. -/
example (h : Nearest rnd) : ∃ v', Rounded.tableAt rnd [(1, 5), (3, 7)] 2 = .ok v' ∧ |v' - 6| ≤ 12 * 7 / 2 ^ 53 := by
  refine C113_table h (m := [(1, 5), (3, 7)]) (k := 2) (v := 6) (B := 7) ?_ ?_
  · intro e he
    simp only [List.mem_cons, List.not_mem_nil, or_false] at he
    rcases he with rfl | rfl <;> norm_num
  · norm_num [ContinuousMap.at', List.takeWhile, List.dropWhile]

/-- Instance of `C113_flight`: the exact logarithm is accurate, 1 is a valid state. -/
example : ∃ d : ℝ, (Rounded.exponential double Real.log 2 1).1 = (d : WithTop ℝ) ∧ 0 < d ∧ 2 * d < 23 := by
  obtain ⟨d, h1, h2, h3, -⟩ := C113_flight (lam := 2) (g := 1) double_nearest (logarithm := Real.log)
    (fun x _ => by rw [sub_self, abs_zero]; positivity) two_pos ⟨by norm_num, by norm_num⟩
  exact ⟨d, h1, h2, h3⟩

end Minimc.Props
