import Verif.Props.ThermalChoice
import Verif.Props.ThermalScatter
import Verif.Lemmas.Histogram

/-! # Property C61: transfers follow the tabulated distributions -/

namespace Minimc.Props

open Classical Spec

/-- Row `row` of a partition, evaluated at temperature `t`, is a list of values `v` at cumulative
probabilities `f`. -/
structure Row (P : Partition) (row : ℕ) (t : ℝ) (n : ℕ) (f v : ℕ → ℝ) : Prop where
  axis : ∃ fs, P.cdfModes.getAxis 0 = .ok fs ∧ fs.length = n ∧ ∀ k < n, fs[k]? = some (f k)
  values : ∀ k < n, P.evaluate k row t = .ok (v k)

theorem knot_succ {n k : ℕ} {f v : ℕ → ℝ} {lo hi : ℝ} (h : k < n) :
    knot n f v lo hi (k + 1) = (f k, v k) := by
  simp only [knot]
  rw [if_pos h]

theorem knot_last {n : ℕ} {f v : ℕ → ℝ} {lo hi : ℝ} : knot n f v lo hi (n + 1) = (1, hi) := by
  simp only [knot]
  rw [if_neg (lt_irrefl _)]

/-- The code evaluates the inverse of the piecewise linear cumulative distribution. -/
theorem inverseCdf_eq {P : Partition} {row n : ℕ} {t : ℝ} {f v : ℕ → ℝ} (h : Row P row t n f v)
    {lo hi : ℝ} (hinc : Increasing n (knot n f v lo hi)) {F a : ℝ}
    (hF : OnCurve n (knot n f v lo hi) F a) :
    ThermalScattering.inverseCdf P row t lo hi F = .ok a := by
  obtain ⟨⟨fs, h1, h2, h3⟩, h4⟩ := h
  obtain ⟨k, hk, a1, a2, a3⟩ := hF
  have hu : upperIdx fs F = k := by
    refine upperIdx_eq (by omega) ?_ ?_
    · intro i x hi hx
      rw [h3 i (by omega)] at hx
      cases hx
      have := (knots_le hinc (show i + 1 ≤ k by omega) (by omega)).1
      rw [knot_succ (by omega)] at this
      exact this.trans a1
    · intro i x hi hx
      have hlt := lt_of_getElem? hx
      rw [h3 i (by omega)] at hx
      cases hx
      have := (knots_le hinc (show k + 1 ≤ i + 1 by omega) (by omega)).1
      rw [knot_succ (by omega), knot_succ (by omega)] at this
      rw [knot_succ (by omega)] at a2
      exact a2.trans_le this
  unfold ThermalScattering.inverseCdf
  rw [h1]
  simp only [bind, Except.bind, hu, h2]
  have hd := (hinc k hk).1
  rw [a3, line_ratio hd]
  have hz : ¬ (knot n f v lo hi (k + 1)).1 - (knot n f v lo hi k).1 = 0 := by linarith
  by_cases h0 : k = 0
  · have c0 : (k ≠ 0) = False := by simp [h0]
    have e1 : knot n f v lo hi k = (0, lo) := by rw [h0]; rfl
    by_cases hn : k = n
    · have cn : (k ≠ n) = False := by simp [hn]
      have e2 : knot n f v lo hi (k + 1) = (1, hi) := by rw [hn]; exact knot_last
      rw [e1, e2] at hz
      simp only [c0, cn, if_false, e1, e2]
      rw [if_neg hz]
    · have cn : (k ≠ n) = True := by simp [hn]
      have e2 : knot n f v lo hi (k + 1) = (f k, v k) := knot_succ (by omega)
      rw [e1, e2] at hz
      simp only [c0, cn, if_false, if_true, e1, e2, vecAt_eq_ok (h3 k (by omega)),
        h4 k (by omega)]
      rw [if_neg hz]
  · have c0 : (k ≠ 0) = True := by simp [h0]
    have e1 : knot n f v lo hi k = (f (k - 1), v (k - 1)) := by
      obtain ⟨k', rfl⟩ := Nat.exists_eq_succ_of_ne_zero h0
      exact knot_succ (by omega)
    by_cases hn : k = n
    · have cn : (k ≠ n) = False := by simp [hn]
      have e2 : knot n f v lo hi (k + 1) = (1, hi) := by rw [hn]; exact knot_last
      rw [e1, e2] at hz
      simp only [c0, cn, if_false, if_true, e1, e2, vecAt_eq_ok (h3 (k - 1) (by omega)),
        h4 (k - 1) (by omega)]
      rw [if_neg hz]
    · have cn : (k ≠ n) = True := by simp [hn]
      have e2 : knot n f v lo hi (k + 1) = (f k, v k) := knot_succ (by omega)
      rw [e1, e2] at hz
      simp only [c0, cn, if_true, e1, e2, vecAt_eq_ok (h3 k (by omega)),
        h4 k (by omega), vecAt_eq_ok (h3 (k - 1) (by omega)), h4 (k - 1) (by omega)]
      rw [if_neg hz]

theorem findCdfIndex_eq {P : Partition} {row n : ℕ} {t : ℝ} {v : ℕ → ℝ}
    (h4 : ∀ k < n, P.evaluate k row t = .ok (v k)) {a : ℝ} {k : ℕ}
    (h1 : ∀ i < k, v i ≤ a) (h2 : ∀ i, k ≤ i → i < n → a < v i) (len : ℕ) :
    ∀ {i : ℕ} (_ : i + len ≤ n) (_ : i ≤ k) (_ : k ≤ i + len),
      ThermalScattering.findCdfIndex P row t a len i = .ok k := by
  induction len using Nat.strong_induction_on with
  | _ len ih =>
    intro i him hik hki
    rw [ThermalScattering.findCdfIndex]
    rcases Nat.eq_zero_or_pos len with rfl | hpos
    · rw [if_pos rfl, show i = k by omega]
    · rw [if_neg (by omega), h4 (i + len / 2) (by omega)]
      simp only [bind, Except.bind]
      rcases Nat.lt_or_ge (i + len / 2) k with h | h
      · rw [if_neg (not_lt.2 (h1 _ h))]
        exact ih _ (by omega) (by omega) (by omega) (by omega)
      · rw [if_pos (h2 _ h (by omega))]
        exact ih _ (by omega) (by omega) hik h

/-- `find_cdf` returns the cumulative probability of a value. -/
theorem findCdf_eq {s : ThermalScattering} {P : Partition} {row n : ℕ} {t : ℝ} {f v : ℕ → ℝ}
    (h : Row P row t n f v) (hinc : Increasing n (knot n f v 0 s.alphaCutoff)) {F a : ℝ}
    (hF : OnCurve n (knot n f v 0 s.alphaCutoff) F a) : s.findCdf P row t a = .ok F := by
  obtain ⟨⟨fs, h1, h2, h3⟩, h4⟩ := h
  obtain ⟨k, hk, a1, a2, a3⟩ := hF
  obtain ⟨b1, b2⟩ := OnCurve.bounds hinc hk a1 a2 a3
  have hidx : ThermalScattering.findCdfIndex P row t a fs.length 0 = .ok k := by
    refine findCdfIndex_eq h4 ?_ ?_ fs.length (by omega) (by omega) (by omega)
    · intro i hi
      have := (knots_le hinc (show i + 1 ≤ k by omega) (by omega)).2
      rw [knot_succ (by omega)] at this
      exact this.trans b1
    · intro i hki hi
      have := (knots_le hinc (show k + 1 ≤ i + 1 by omega) (by omega)).2
      rw [knot_succ (by omega), knot_succ (by omega)] at this
      rw [knot_succ (by omega)] at b2
      exact b2.trans_le this
  unfold ThermalScattering.findCdf
  rw [h1]
  rw [h2] at hidx
  simp only [bind, Except.bind, h2, hidx]
  have hd := (hinc k hk).1
  have hd2 := (hinc k hk).2
  set K := knot n f v 0 s.alphaCutoff with hK
  have hz : ¬ (K (k + 1)).2 - (K k).2 = 0 := by linarith
  have hF' : F = (K k).1 + (a - (K k).2) * ((K (k + 1)).1 - (K k).1) /
      ((K (k + 1)).2 - (K k).2) := by
    rw [(line_swap hd hd2).1 a3, line_ratio (by simpa using hd2)]
    simp only [Prod.fst_swap, Prod.snd_swap]
    ring
  clear a3
  rw [hF']
  clear hF'
  by_cases h0 : k = 0
  · have c0 : (k ≠ 0) = False := by simp [h0]
    have e1 : K k = (0, 0) := by rw [h0]; rfl
    by_cases hn : k = n
    · have cn : (k ≠ n) = False := by simp [hn]
      have e2 : K (k + 1) = (1, s.alphaCutoff) := by rw [hn]; exact knot_last
      rw [e1, e2] at hz
      simp only [c0, cn, if_false, e1, e2]
      rw [if_neg hz]
    · have cn : (k ≠ n) = True := by simp [hn]
      have e2 : K (k + 1) = (f k, v k) := knot_succ (by omega)
      rw [e1, e2] at hz
      simp only [c0, cn, if_false, if_true, e1, e2, vecAt_eq_ok (h3 k (by omega)),
        h4 k (by omega)]
      rw [if_neg hz]
  · have c0 : (k ≠ 0) = True := by simp [h0]
    have e1 : K k = (f (k - 1), v (k - 1)) := by
      obtain ⟨k', rfl⟩ := Nat.exists_eq_succ_of_ne_zero h0
      exact knot_succ (by omega)
    by_cases hn : k = n
    · have cn : (k ≠ n) = False := by simp [hn]
      have e2 : K (k + 1) = (1, s.alphaCutoff) := by rw [hn]; exact knot_last
      rw [e1, e2] at hz
      simp only [c0, cn, if_false, if_true, e1, e2, vecAt_eq_ok (h3 (k - 1) (by omega)),
        h4 (k - 1) (by omega)]
      rw [if_neg hz]
    · have cn : (k ≠ n) = True := by simp [hn]
      have e2 : K (k + 1) = (f k, v k) := knot_succ (by omega)
      rw [e1, e2] at hz
      simp only [c0, cn, if_true, e1, e2, vecAt_eq_ok (h3 k (by omega)),
        h4 k (by omega), vecAt_eq_ok (h3 (k - 1) (by omega)), h4 (k - 1) (by omega)]
      rw [if_neg hz]

/-- **C61** The energy transfer obtained from one uniform number is at most `x` with the tabulated
cumulative probability of `x`. -/
theorem C61_energy_distribution {P : Partition} {row n : ℕ} {t : ℝ} {f v : ℕ → ℝ}
    (h : Row P row t n f v) {lo hi : ℝ} (hinc : Increasing n (knot n f v lo hi)) {Fx x : ℝ}
    (hx : OnCurve n (knot n f v lo hi) Fx x) :
    prob {F | ∃ b, ThermalScattering.inverseCdf P row t lo hi F = .ok b ∧ b ≤ x} =
      ENNReal.ofReal Fx := by
  have hx' := hx
  obtain ⟨k, hk, a1, a2, _⟩ := hx'
  have h0 : (0 : ℝ) ≤ Fx := by
    have := (knots_le hinc (Nat.zero_le k) (by omega)).1
    exact (show (0 : ℝ) = (knot n f v lo hi 0).1 from rfl).le.trans (this.trans a1)
  have h1 : Fx < 1 := by
    have := (knots_le hinc (show k + 1 ≤ n + 1 by omega) le_rfl).1
    rw [knot_last] at this
    exact a2.trans_le this
  have hset : {F | ∃ b, ThermalScattering.inverseCdf P row t lo hi F = .ok b ∧ b ≤ x} ∩
      Set.Ico 0 1 = Set.Icc 0 Fx := by
    ext F
    simp only [Set.mem_inter_iff, Set.mem_ofPred_eq, Set.mem_Ico, Set.mem_Icc]
    constructor
    · rintro ⟨⟨b, hb, hbx⟩, hF0, hF1⟩
      refine ⟨hF0, ?_⟩
      obtain ⟨c, hc⟩ := OnCurve.exists_value (n := n) (K := knot n f v lo hi) (F := F) hF0
        (by rw [knot_last]; exact hF1)
      rw [inverseCdf_eq h hinc hc] at hb
      cases hb
      by_contra hlt
      push Not at hlt
      exact absurd (OnCurve.lt hinc hx hc hlt) (not_lt.2 hbx)
    · rintro ⟨hF0, hF1⟩
      have hF2 : F < 1 := hF1.trans_lt h1
      obtain ⟨c, hc⟩ := OnCurve.exists_value (n := n) (K := knot n f v lo hi) (F := F) hF0
        (by rw [knot_last]; exact hF2)
      refine ⟨⟨c, inverseCdf_eq h hinc hc, ?_⟩, hF0, hF2⟩
      rcases hF1.eq_or_lt with rfl | hlt
      · exact (OnCurve.unique hinc hc hx).le
      · exact (OnCurve.lt hinc hc hx hlt).le
  rw [prob, hset, Real.volume_Icc, sub_zero]

/-- **C61** When the distribution of an incident energy not above the neutron's is used, the first
energy transfer sampled is possible, so nothing is ever resampled. -/
theorem C61_energy_first_round {s : ThermalScattering} {P : Partition} {row n : ℕ} {t : ℝ}
    {f v : ℕ → ℝ} (h : Row P row t n f v) (ht : 0 < t) {eS e : ℝ} (he : eS ≤ e)
    (hinc : Increasing n (knot n f v (-eS / (boltzmann * t)) s.betaCutoff)) {p : Particle}
    (hr : Rng.Valid p.rng) (m : ℕ) :
    ∃ b, OnCurve n (knot n f v (-eS / (boltzmann * t)) s.betaCutoff) p.sample.1 b ∧
      s.betaLoop P row eS e t (m + 1) p = .ok (b, p.sample.2) := by
  have hkt : 0 < boltzmann * t := mul_pos boltzmann_pos ht
  have hu0 : 0 < p.sample.1 := Rng.canonical_pos hr
  have hu1 : p.sample.1 < 1 := Rng.canonical_lt_one hr
  obtain ⟨b, hb⟩ := OnCurve.exists_value (n := n)
    (K := knot n f v (-eS / (boltzmann * t)) s.betaCutoff) (F := p.sample.1) hu0.le
    (by rw [knot_last]; exact hu1)
  refine ⟨b, hb, ?_⟩
  rw [ThermalScattering.betaLoop]
  simp only [bind, Except.bind]
  rw [if_neg hkt.ne', inverseCdf_eq h hinc hb]
  simp only
  rw [if_pos]
  obtain ⟨k, hk, a1, a2, a3⟩ := hb
  have h1 := (OnCurve.bounds hinc hk a1 a2 a3).1
  have h2 := (knots_le hinc (Nat.zero_le k) (by omega)).2
  have h3 : (knot n f v (-eS / (boltzmann * t)) s.betaCutoff 0).2 = -eS / (boltzmann * t) := rfl
  rw [h3] at h2
  have h4 : -e / (boltzmann * t) ≤ -eS / (boltzmann * t) :=
    (div_le_div_iff_of_pos_right hkt).2 (by linarith)
  linarith

/-- **C61** Momentum transfers are sampled from the tabulated distribution restricted to the
allowed range `(aMin, aMax)`: the value sampled is inside the range, and at most `x` with
probability `(F(x) - F(aMin)) / (F(aMax) - F(aMin))`. -/
theorem C61_momentum_distribution {s : ThermalScattering} {P : Partition} {row n : ℕ} {t : ℝ}
    {f v : ℕ → ℝ} (h : Row P row t n f v) (hinc : Increasing n (knot n f v 0 s.alphaCutoff))
    {fMin fMax aMin aMax Fx x : ℝ} (h1 : OnCurve n (knot n f v 0 s.alphaCutoff) fMin aMin)
    (h2 : OnCurve n (knot n f v 0 s.alphaCutoff) fMax aMax)
    (h3 : OnCurve n (knot n f v 0 s.alphaCutoff) Fx x) (hx1 : aMin ≤ x) (hx2 : x < aMax) :
    s.findCdf P row t aMin = .ok fMin ∧ s.findCdf P row t aMax = .ok fMax ∧
    (∀ u, 0 < u → u < 1 → ∃ a, ThermalScattering.inverseCdf P row t 0 s.alphaCutoff
      (fMin + u * (fMax - fMin)) = .ok a ∧ aMin < a ∧ a < aMax) ∧
    prob {u | ∃ a, ThermalScattering.inverseCdf P row t 0 s.alphaCutoff
      (fMin + u * (fMax - fMin)) = .ok a ∧ a ≤ x} =
      ENNReal.ofReal ((Fx - fMin) / (fMax - fMin)) := by
  set K := knot n f v 0 s.alphaCutoff with hK
  have hlt : fMin < fMax := (OnCurve.lt_iff hinc h1 h2).1 (hx1.trans_lt hx2)
  have hfx2 : Fx < fMax := (OnCurve.lt_iff hinc h3 h2).1 hx2
  have hfx1 : fMin ≤ Fx := by
    by_contra hc
    push Not at hc
    exact absurd (OnCurve.lt hinc h3 h1 hc) (not_lt.2 hx1)
  have hd : 0 < fMax - fMin := by linarith
  have hmin0 : (0 : ℝ) ≤ fMin := by
    obtain ⟨k, hk, a1, _, _⟩ := h1
    exact (show (0 : ℝ) = (K 0).1 from rfl).le.trans ((knots_le hinc (Nat.zero_le k) (by omega)).1.trans a1)
  have hmax1 : fMax < 1 := by
    obtain ⟨k, hk, _, a2, _⟩ := h2
    have := (knots_le hinc (show k + 1 ≤ n + 1 by omega) le_rfl).1
    rw [hK, knot_last] at this
    exact a2.trans_le this
  have hval : ∀ u, 0 ≤ u → u < 1 → ∃ a, OnCurve n K (fMin + u * (fMax - fMin)) a := by
    intro u hu0 hu1
    refine OnCurve.exists_value ?_ ?_
    · exact (show (K 0).1 = (0 : ℝ) from rfl).le.trans
        (add_nonneg hmin0 (mul_nonneg hu0 hd.le))
    · rw [hK, knot_last]
      simp only
      nlinarith
  refine ⟨findCdf_eq h hinc h1, findCdf_eq h hinc h2, ?_, ?_⟩
  · intro u hu0 hu1
    obtain ⟨a, ha⟩ := hval u hu0.le hu1
    refine ⟨a, inverseCdf_eq h hinc ha, ?_, ?_⟩
    · exact OnCurve.lt hinc h1 ha (by nlinarith)
    · exact OnCurve.lt hinc ha h2 (by nlinarith)
  · have hset : {u | ∃ a, ThermalScattering.inverseCdf P row t 0 s.alphaCutoff
        (fMin + u * (fMax - fMin)) = .ok a ∧ a ≤ x} ∩ Set.Ico 0 1 =
        Set.Icc 0 ((Fx - fMin) / (fMax - fMin)) := by
      ext u
      simp only [Set.mem_inter_iff, Set.mem_ofPred_eq, Set.mem_Ico, Set.mem_Icc]
      rw [le_div_iff₀ hd]
      constructor
      · rintro ⟨⟨a, ha, hax⟩, hu0, hu1⟩
        refine ⟨hu0, ?_⟩
        obtain ⟨c, hc⟩ := hval u hu0 hu1
        rw [inverseCdf_eq h hinc hc] at ha
        cases ha
        by_contra hgt
        push Not at hgt
        exact absurd (OnCurve.lt hinc h3 hc (by linarith)) (not_lt.2 hax)
      · rintro ⟨hu0, hu⟩
        have hu1 : u < 1 := by
          by_contra hge
          push Not at hge
          nlinarith
        obtain ⟨c, hc⟩ := hval u hu0 hu1
        refine ⟨⟨c, inverseCdf_eq h hinc hc, ?_⟩, hu0, hu1⟩
        rcases (show fMin + u * (fMax - fMin) ≤ Fx by linarith).eq_or_lt with heq | hl
        · rw [heq] at hc
          exact (OnCurve.unique hinc hc h3).le
        · exact (OnCurve.lt hinc hc h3 hl).le
    rw [prob, hset, Real.volume_Icc, sub_zero]

/-- **C61** The momentum transfer of the first round is accepted, so nothing is ever resampled. -/
theorem C61_momentum_first_round {s : ThermalScattering} {P : Partition} {row n : ℕ} {t : ℝ}
    {f v : ℕ → ℝ} (h : Row P row t n f v) (hinc : Increasing n (knot n f v 0 s.alphaCutoff))
    {fMin fMax aMin aMax : ℝ} (h1 : OnCurve n (knot n f v 0 s.alphaCutoff) fMin aMin)
    (h2 : OnCurve n (knot n f v 0 s.alphaCutoff) fMax aMax) (hlt : aMin < aMax) {b e bMin bMax : ℝ}
    (h3 : s.alphaMin b e t = .ok bMin) (h4 : s.alphaMax b e t = .ok bMax) {p : Particle}
    (hr : Rng.Valid p.rng) (m : ℕ) :
    ∃ a, aMin < a ∧ a < aMax ∧ OnCurve n (knot n f v 0 s.alphaCutoff)
        (fMin + p.sample.1 * (fMax - fMin)) a ∧
      s.alphaLoop P row b aMin aMax fMin fMax e t (m + 1) p =
        .ok (mix (weight aMin aMax a) bMin bMax, p.sample.2) := by
  have hu0 : 0 < p.sample.1 := Rng.canonical_pos hr
  have hu1 : p.sample.1 < 1 := Rng.canonical_lt_one hr
  obtain ⟨_, _, h5, _⟩ := C61_momentum_distribution h hinc h1 h2 h1 le_rfl hlt
  obtain ⟨a, ha, ha1, ha2⟩ := h5 _ hu0 hu1
  have hd : fMin < fMax := (OnCurve.lt_iff hinc h1 h2).1 hlt
  have hon : OnCurve n (knot n f v 0 s.alphaCutoff) (fMin + p.sample.1 * (fMax - fMin)) a := by
    have hc : ∃ c, OnCurve n (knot n f v 0 s.alphaCutoff) (fMin + p.sample.1 * (fMax - fMin)) c := by
      refine OnCurve.exists_value ?_ ?_
      · obtain ⟨k, hk, a1, _, _⟩ := h1
        have := (knots_le hinc (Nat.zero_le k) (by omega)).1
        nlinarith
      · obtain ⟨k, hk, _, a2, _⟩ := h2
        have := (knots_le hinc (show k + 1 ≤ n + 1 by omega) le_rfl).1
        nlinarith
    obtain ⟨c, hc⟩ := hc
    rw [inverseCdf_eq h hinc hc] at ha
    cases ha
    exact hc
  refine ⟨a, ha1, ha2, hon, ?_⟩
  rw [ThermalScattering.alphaLoop]
  simp only [bind, Except.bind, ha, h3, h4]
  rw [if_pos ⟨ha1, ha2⟩]
  congr 2
  unfold mix weight
  have : aMax - aMin ≠ 0 := by linarith
  field_simp
  ring

/-- Instance: the partition `rankOne` at 150 with value 18 at cumulative probability 1/2. -/
theorem rankOne_row : Row rankOne 0 150 1 (fun _ => 0.5) (fun _ => 18) where
  axis := ⟨[0.5], rfl, rfl, by intro k hk; interval_cases k; rfl⟩
  values := by
    intro k hk
    interval_cases k
    rw [C47_interpolated_partial rankOne_table (j := 0) (by norm_num) (by norm_num) rfl rfl
      (by norm_num) (by norm_num)]
    norm_num [mix, weight]

/-- Instance of `C61_energy_distribution`: between 18 and 22 the density is one eighth. -/
example : prob {F | ∃ b, ThermalScattering.inverseCdf rankOne 0 150 0 22 F = .ok b ∧ b ≤ 20} =
    ENNReal.ofReal 0.75 := by
  refine C61_energy_distribution rankOne_row ?_ ⟨1, le_rfl, ?_, ?_, ?_⟩
  · intro k hk
    interval_cases k <;> norm_num [knot]
  · norm_num [knot]
  · norm_num [knot]
  · norm_num [knot, line]

theorem rankOne_energy_increasing {lo hi : ℝ} (h1 : lo < 18) (h2 : 18 < hi) :
    Increasing 1 (knot 1 (fun _ => 0.5) (fun _ => 18) lo hi) := by
  intro k hk
  interval_cases k
  · exact ⟨by norm_num [knot], by simpa [knot] using h1⟩
  · exact ⟨by norm_num [knot], by simpa [knot] using h2⟩

/-- Instance of `C61_energy_first_round`. -/
example (m : ℕ) : ∃ b, { uniformThermal with betaCutoff := 22 }.betaLoop rankOne 0 1 2 150 (m + 1)
    thermalNeutron = .ok (b, thermalNeutron.sample.2) := by
  have hlo : (-1 : ℝ) / (boltzmann * 150) < 18 := by
    have : (-1 : ℝ) / (boltzmann * 150) < 0 :=
      div_neg_of_neg_of_pos (by norm_num) (mul_pos boltzmann_pos (by norm_num))
    linarith
  obtain ⟨b, _, hb⟩ := C61_energy_first_round (s := { uniformThermal with betaCutoff := 22 })
    rankOne_row (by norm_num) (show (1 : ℝ) ≤ 2 by norm_num)
    (rankOne_energy_increasing hlo (by norm_num)) (p := thermalNeutron)
    ⟨by norm_num [thermalNeutron], by norm_num [thermalNeutron]⟩ m
  exact ⟨b, hb⟩

/-- Instance of `C61_momentum_distribution` and `C61_momentum_first_round`: the range from 9 to 29
has cumulative probabilities one quarter and three quarters. -/
example (m : ℕ) : (∃ a, uniformThermal.alphaLoop rankOne 0 1 9 29 0.25 0.75 4 150 (m + 1)
      thermalNeutron = .ok (a, thermalNeutron.sample.2)) ∧
    prob {u | ∃ a, ThermalScattering.inverseCdf rankOne 0 150 0 uniformThermal.alphaCutoff
      (0.25 + u * (0.75 - 0.25)) = .ok a ∧ a ≤ 18} = ENNReal.ofReal ((0.5 - 0.25) / (0.75 - 0.25)) := by
  have h1 : OnCurve 1 (knot 1 (fun _ => 0.5) (fun _ => 18) 0 uniformThermal.alphaCutoff) 0.25 9 :=
    ⟨0, by norm_num, by norm_num [knot], by norm_num [knot], by norm_num [knot, line]⟩
  have h2 : OnCurve 1 (knot 1 (fun _ => 0.5) (fun _ => 18) 0 uniformThermal.alphaCutoff) 0.75 29 :=
    ⟨1, by norm_num, by norm_num [knot], by norm_num [knot],
      by norm_num [knot, line, uniformThermal]⟩
  have h3 : OnCurve 1 (knot 1 (fun _ => 0.5) (fun _ => 18) 0 uniformThermal.alphaCutoff) 0.5 18 :=
    ⟨1, by norm_num, by norm_num [knot], by norm_num [knot],
      by norm_num [knot, line, uniformThermal]⟩
  have hinc := rankOne_energy_increasing (lo := 0) (hi := uniformThermal.alphaCutoff)
    (by norm_num) (by norm_num [uniformThermal])
  have hk := boltzmann_pos
  have hc : ¬ ((4 : ℝ) < 0 ∨ 4 + 1 * boltzmann * 150 < 0 ∨
      uniformThermal.awr * boltzmann * 150 = 0) := by
    have : (0 : ℝ) < uniformThermal.awr * boltzmann * 150 := by
      have : uniformThermal.awr = 1 := rfl
      rw [this]
      linarith
    rintro (h | h | h) <;> linarith
  constructor
  · obtain ⟨a, _, _, _, ha⟩ := C61_momentum_first_round rankOne_row hinc h1 h2 (by norm_num)
      (b := 1) (e := 4) (by rw [ThermalScattering.alphaMin, if_neg hc])
      (by rw [ThermalScattering.alphaMax, if_neg hc]) (p := thermalNeutron)
      ⟨by norm_num [thermalNeutron], by norm_num [thermalNeutron]⟩ m
    exact ⟨_, ha⟩
  · exact (C61_momentum_distribution rankOne_row hinc h1 h2 h3 (by norm_num) (by norm_num)).2.2.2

end Minimc.Props
