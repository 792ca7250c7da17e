import Verif.Props.ThermalGrid
import Mathlib.MeasureTheory.Measure.Lebesgue.Basic

/-! # Properties C60 and C46: which neighbouring grid point is used -/

namespace Minimc.Props

open Classical Spec

/-- One uniform number is below `w`. -/
theorem prob_lt {w : ℝ} (h1 : w ≤ 1) :
    prob {u | u < w} = ENNReal.ofReal w := by
  unfold prob
  have : {u : ℝ | u < w} ∩ Set.Ico 0 1 = Set.Ico 0 w := by
    ext u
    simp only [Set.mem_inter_iff, Set.mem_ofPred_eq, Set.mem_Ico]
    constructor
    · rintro ⟨a, b, _⟩; exact ⟨b, a⟩
    · rintro ⟨a, b⟩; exact ⟨b, a, b.trans_le h1⟩
  rw [this, Real.volume_Ico, sub_zero]

theorem prob_ge {w : ℝ} (h0 : 0 ≤ w) :
    prob {u | w ≤ u} = ENNReal.ofReal (1 - w) := by
  unfold prob
  have : {u : ℝ | w ≤ u} ∩ Set.Ico 0 1 = Set.Ico w 1 := by
    ext u
    simp only [Set.mem_inter_iff, Set.mem_ofPred_eq, Set.mem_Ico]
    constructor
    · rintro ⟨a, _, c⟩; exact ⟨a, c⟩
    · rintro ⟨a, b⟩; exact ⟨a, h0.trans a, b⟩
  rw [this, Real.volume_Ico]

theorem weight_nonneg {lo hi x : ℝ} (h1 : lo ≤ x) (h2 : x < hi) : 0 ≤ weight lo hi x :=
  div_nonneg (by linarith) (by linarith)

theorem weight_lt_one {lo hi x : ℝ} (h1 : lo ≤ x) (h2 : x < hi) : weight lo hi x < 1 := by
  unfold weight
  rw [div_lt_one (by linarith)]
  linarith

theorem pickIndex_succ (r u : ℝ) (n : ℕ) :
    ThermalScattering.pickIndex r u (n + 1) = .ok (if r ≤ u then n else n + 1) := by
  unfold ThermalScattering.pickIndex
  split_ifs with h h2
  · omega
  · rfl
  · rfl

theorem betaIndex_between {s : ThermalScattering} (hs : s.es.Pairwise (· < ·)) {i : ℕ}
    {e₀ e₁ e : ℝ} (h1 : s.es[i]? = some e₀) (h2 : s.es[i + 1]? = some e₁) (h3 : e₀ ≤ e)
    (h4 : e < e₁) (u : ℝ) :
    s.betaIndex e u = .ok (if weight e₀ e₁ e ≤ u then i else i + 1) := by
  have hu := upperIdx_between hs h1 h2 h3 h4
  have hl := lt_of_getElem? h2
  have hf : s.betaFactor e = .ok (weight e₀ e₁ e) := by
    unfold ThermalScattering.betaFactor
    simp only [hu]
    rw [if_pos (by omega), Nat.add_sub_cancel, vecAt_eq_ok h1, vecAt_eq_ok h2]
    rfl
  unfold ThermalScattering.betaIndex
  simp only [hu]
  rw [if_neg (by omega), hf]
  exact pickIndex_succ _ _ _

/-- **C60** Between two incident energies of the grid, one uniform number chooses the upper one
with probability equal to the interpolation weight, and otherwise the lower one. -/
theorem C60_probability {s : ThermalScattering} (hs : s.es.Pairwise (· < ·)) {i : ℕ}
    {e₀ e₁ e : ℝ} (h1 : s.es[i]? = some e₀) (h2 : s.es[i + 1]? = some e₁) (h3 : e₀ ≤ e)
    (h4 : e < e₁) :
    prob {u | s.betaIndex e u = .ok (i + 1)} = ENNReal.ofReal (weight e₀ e₁ e) ∧
    prob {u | s.betaIndex e u = .ok i} = ENNReal.ofReal (1 - weight e₀ e₁ e) := by
  have hb := betaIndex_between hs h1 h2 h3 h4
  have e1 : {u | s.betaIndex e u = .ok (i + 1)} = {u | u < weight e₀ e₁ e} := by
    ext u
    simp only [Set.mem_ofPred_eq, hb, Except.ok.injEq]
    split_ifs with h
    · simp [h]
    · simpa using h
  have e2 : {u | s.betaIndex e u = .ok i} = {u | weight e₀ e₁ e ≤ u} := by
    ext u
    simp only [Set.mem_ofPred_eq, hb, Except.ok.injEq]
    split_ifs with h
    · simp [h]
    · simpa using h
  rw [e1, e2]
  exact ⟨prob_lt (weight_lt_one h3 h4).le, prob_ge (weight_nonneg h3 h4)⟩

/-- **C60** Below the grid its lowest energy is used. -/
theorem C60_below {s : ThermalScattering} (hs : s.es.Pairwise (· < ·)) {e₀ e u : ℝ} (h1 : s.es[0]? = some e₀) (h2 : e < e₀)
    (hu : u < 1) : s.betaIndex e u = .ok 0 := by
  have h0 := upperIdx_zero hs h1 h2
  have hl := lt_of_getElem? h1
  unfold ThermalScattering.betaIndex ThermalScattering.betaFactor
  simp only [h0]
  rw [if_neg (by omega)]
  simp only [ne_eq, not_true_eq_false, if_false, bind, Except.bind, ThermalScattering.pickIndex]
  rw [if_neg (by linarith)]

/-- **C60** The distribution that is sampled is the one stored for the chosen energy. -/
theorem C60_distribution {maj xsT xsS xsE : DataSet} {bp ap : List Partition} {bc ac awr : ℝ}
    {s : ThermalScattering}
    (hc : ThermalScattering.create maj xsT xsS xsE bp ap bc ac awr = .ok s) {p : Particle}
    {e t : ℝ} {g : ℕ} (hi : s.betaIndex e p.sample.1 = .ok g) {eS : ℝ} (hg : s.es[g]? = some eS) :
    ∃ P row axis, P ∈ bp ∧ P.rows = .ok axis ∧ axis[row]? = some eS ∧
      s.sampleBeta p e t = s.betaLoop P row eS e t betaResampleLimit p.sample.2 := by
  obtain ⟨_, _, h1, _, h2, _⟩ := C47_constructed hc
  obtain ⟨k, l, P, r, k1, k2, k3, k4⟩ := h1 g (lt_of_getElem? hg)
  refine ⟨P, l, r, ?_, k3, by rw [k4, hg], ?_⟩
  · rw [← h2]
    exact List.mem_of_getElem? k2
  · unfold ThermalScattering.sampleBeta
    simp only [hi, bind, Except.bind, vecAt_eq_ok hg, k1, vecAt_eq_ok k2]

/-- Instance: three quarters of the way from 1 to 2. -/
example : prob {u | (ThermalScattering.mk [] ⟨[], []⟩ ⟨[], []⟩ ⟨[], []⟩ [] [1, 2] [] [] [] [] 0 0 1
    2).betaIndex 1.75 u = .ok 1} = ENNReal.ofReal 0.75 := by
  have := (C60_probability (s := ThermalScattering.mk [] ⟨[], []⟩ ⟨[], []⟩ ⟨[], []⟩ [] [1, 2] [] [] []
    [] 0 0 1 2) (by norm_num) (i := 0) (e := 1.75) rfl rfl (by norm_num) (by norm_num)).1
  rw [this]
  norm_num [weight]

/-! ## C46 -/

/-- The upper neighbour `bHi` of an energy transfer `b` cannot be used: it is beyond the cutoff,
or the neutron has not that much energy to lose. -/
def Forced (s : ThermalScattering) (b e t bHi : ℝ) : Prop :=
  (0 < b ∧ s.betaCutoff ≤ bHi) ∨ (b < 0 ∧ e / (boltzmann * t) < bHi)

theorem snapToLower_eq {s : ThermalScattering} {b e t bHi : ℝ}
    (h : s.betas[upperIdx s.betas |b|]? = some bHi) :
    s.snapToLower b e t = .ok (decide (Forced s b e t bHi)) := by
  unfold ThermalScattering.snapToLower
  have hv := vecAt_eq_ok h
  simp only [hv, bind, Except.bind]
  rcases lt_trichotomy b 0 with hb | rfl | hb
  · have h1 : ThermalScattering.sgn b = -1 := by
      unfold ThermalScattering.sgn
      rw [if_neg (by linarith), if_pos hb]; norm_num
    rw [h1, if_neg (by norm_num), if_pos rfl]
    congr 1
    unfold Forced
    rw [decide_eq_decide, neg_div, neg_lt_neg_iff]
    constructor
    · intro h; exact Or.inr ⟨hb, h⟩
    · rintro (⟨h, _⟩ | ⟨_, h⟩)
      · linarith
      · exact h
  · have h1 : ThermalScattering.sgn 0 = 0 := by unfold ThermalScattering.sgn; simp
    rw [h1, if_neg (by norm_num), if_neg (by norm_num)]
    congr 1
    unfold Forced
    simp
  · have h1 : ThermalScattering.sgn b = 1 := by
      unfold ThermalScattering.sgn
      rw [if_pos hb, if_neg (by linarith)]; norm_num
    rw [h1, if_pos rfl]
    congr 1
    unfold Forced
    rw [decide_eq_decide]
    constructor
    · intro h; exact Or.inl ⟨hb, h⟩
    · rintro (⟨_, h⟩ | ⟨h, _⟩)
      · exact h
      · linarith

/-- **C46** Whatever grid point is used is one of the two neighbours of the energy transfer. -/
theorem C46_neighbour_partial {s : ThermalScattering} (hs : s.betas.Pairwise (· < ·)) {b e t u : ℝ} {i : ℕ}
    (h : s.alphaIndex b e t u = .ok i) :
    (∀ x, s.betas[i]? = some x → |b| < x → ∀ j y, j < i → s.betas[j]? = some y → y ≤ |b|) ∧
    (∀ x, s.betas[i]? = some x → x ≤ |b| → ∀ y, s.betas[i + 1]? = some y → |b| < y) := by
  unfold ThermalScattering.alphaIndex at h
  simp only [res_bind_ok] at h
  obtain ⟨r, _, h⟩ := h
  have hi : i = upperIdx s.betas |b| ∨ i + 1 = upperIdx s.betas |b| := by
    unfold ThermalScattering.pickIndex at h
    split_ifs at h with h1 h2
    · cases h; right; omega
    · cases h; left; rfl
  refine ⟨?_, ?_⟩
  · intro x hx hlt j y hj hy
    refine upperIdx_before hs (x := |b|) ?_ hy
    omega
  · intro x hx hle y hy
    rcases hi with rfl | hi
    · exact absurd (upperIdx_after hx) (not_lt.2 hle)
    · rw [hi] at hy
      exact upperIdx_after hy

/-- **C46** Where kinematics or the cutoff forbid the upper neighbour, the lower one is used. -/
theorem C46_forced_partial {s : ThermalScattering} (hs : s.betas.Pairwise (· < ·)) {i : ℕ}
    {bLo bHi b e t u : ℝ} (h1 : s.betas[i]? = some bLo) (h2 : s.betas[i + 1]? = some bHi)
    (h3 : bLo ≤ |b|) (h4 : |b| < bHi) (hf : Forced s b e t bHi) (hu : 0 ≤ u) :
    s.alphaIndex b e t u = .ok i := by
  have hui := upperIdx_between hs h1 h2 h3 h4
  have hsn := snapToLower_eq (s := s) (b := b) (e := e) (t := t) (by rw [hui]; exact h2)
  unfold ThermalScattering.alphaIndex ThermalScattering.alphaFactor
  simp only [hsn, hui, bind, Except.bind, hf, decide_true, if_true]
  rw [pickIndex_succ, if_pos hu]

/-- **C46** Below the grid its lowest energy transfer is used, unless it is forbidden. -/
theorem C46_lowest_partial {s : ThermalScattering} (hs : s.betas.Pairwise (· < ·)) {b₀ b e t u : ℝ} (h1 : s.betas[0]? = some b₀)
    (h2 : |b| < b₀) (hf : ¬ Forced s b e t b₀) (hu : u < 1) :
    s.alphaIndex b e t u = .ok 0 := by
  have hui := upperIdx_zero hs h1 h2
  have hsn := snapToLower_eq (s := s) (b := b) (e := e) (t := t) (by rw [hui]; exact h1)
  unfold ThermalScattering.alphaIndex ThermalScattering.alphaFactor
  simp only [hsn, hui, bind, Except.bind, hf, decide_false, if_true, Bool.false_eq_true, if_false,
    ThermalScattering.pickIndex]
  rw [if_neg (by linarith)]

/-- What the code uses in place of the interpolation weight. -/
theorem alphaIndex_between {s : ThermalScattering} (hs : s.betas.Pairwise (· < ·)) {i : ℕ}
    {bLo bHi b e t : ℝ} (h1 : s.betas[i]? = some bLo) (h2 : s.betas[i + 1]? = some bHi)
    (h3 : bLo ≤ |b|) (h4 : |b| < bHi) (hf : ¬ Forced s b e t bHi) (u : ℝ) :
    s.alphaIndex b e t u = .ok (if |b| - bLo / (bHi - bLo) ≤ u then i else i + 1) := by
  have hui := upperIdx_between hs h1 h2 h3 h4
  have hsn := snapToLower_eq (s := s) (b := b) (e := e) (t := t) (by rw [hui]; exact h2)
  unfold ThermalScattering.alphaIndex ThermalScattering.alphaFactor
  simp only [hsn, hui, bind, Except.bind, hf, decide_false, Bool.false_eq_true, if_false,
    Nat.add_one_ne_zero, Nat.add_sub_cancel, vecAt_eq_ok h1, vecAt_eq_ok h2]
  rw [pickIndex_succ]

theorem prob_upper {s : ThermalScattering} (hs : s.betas.Pairwise (· < ·)) {i : ℕ}
    {bLo bHi b e t : ℝ} (h1 : s.betas[i]? = some bLo) (h2 : s.betas[i + 1]? = some bHi)
    (h3 : bLo ≤ |b|) (h4 : |b| < bHi) (hf : ¬ Forced s b e t bHi) :
    {u | s.alphaIndex b e t u = .ok (i + 1)} = {u | u < |b| - bLo / (bHi - bLo)} := by
  ext u
  simp only [Set.mem_ofPred_eq, alphaIndex_between hs h1 h2 h3 h4 hf, Except.ok.injEq]
  split_ifs with h
  · exact ⟨fun h' => absurd h' (by omega), fun h' => absurd h (not_le.2 h')⟩
  · exact ⟨fun _ => not_le.1 h, fun _ => rfl⟩

/-- **C46** Between neighbours exactly one apart the upper one is used with probability equal to
the interpolation weight.  (The full statement asks this of neighbours any distance apart.) -/
theorem C46_probability_partial {s : ThermalScattering} (hs : s.betas.Pairwise (· < ·)) {i : ℕ}
    {bLo bHi b e t : ℝ} (h1 : s.betas[i]? = some bLo) (h2 : s.betas[i + 1]? = some bHi)
    (h3 : bLo ≤ |b|) (h4 : |b| < bHi) (hf : ¬ Forced s b e t bHi) (hd : bHi - bLo = 1) :
    prob {u | s.alphaIndex b e t u = .ok (i + 1)} = ENNReal.ofReal (weight bLo bHi |b|) := by
  rw [prob_upper hs h1 h2 h3 h4 hf, hd]
  have e1 : |b| - bLo / 1 = weight bLo bHi |b| := by
    unfold weight
    rw [hd, div_one, div_one]
  rw [e1]
  exact prob_lt (weight_lt_one h3 h4).le

/-- **C46 is violated**: between neighbours further than one apart, and well above the lower one,
the upper one is always used. -/
theorem C46_always_upper_violated {s : ThermalScattering} (hs : s.betas.Pairwise (· < ·)) {i : ℕ}
    {bLo bHi b e t u : ℝ} (h1 : s.betas[i]? = some bLo) (h2 : s.betas[i + 1]? = some bHi)
    (h3 : bLo ≤ |b|) (h4 : |b| < bHi) (hf : ¬ Forced s b e t bHi)
    (hb : 1 + bLo / (bHi - bLo) ≤ |b|) (hu : u < 1) : s.alphaIndex b e t u = .ok (i + 1) := by
  rw [alphaIndex_between hs h1 h2 h3 h4 hf, if_neg (by linarith)]

/-- Thermal data with the energy transfer grid 1, 5 and cutoff 20. -/
noncomputable def coarseGrid : ThermalScattering :=
  ⟨[], ⟨[], []⟩, ⟨[], []⟩, ⟨[], []⟩, [], [], [], [], [1, 5], [], 20, 0, 1, 2⟩

/-- **C46 is violated**: halfway between the grid points 1 and 5 the upper one is used with
probability one instead of one half. -/
theorem C46_violated : ¬ ∀ (s : ThermalScattering), s.betas.Pairwise (· < ·) →
    ∀ (i : ℕ) (bLo bHi b e t : ℝ), s.betas[i]? = some bLo → s.betas[i + 1]? = some bHi →
      bLo ≤ |b| → |b| < bHi → ¬ Forced s b e t bHi →
      prob {u | s.alphaIndex b e t u = .ok (i + 1)} = ENNReal.ofReal (weight bLo bHi |b|) := by
  intro h
  have hnf : ¬ Forced coarseGrid 3 1 300 5 := by
    unfold Forced coarseGrid
    push Not
    exact ⟨by norm_num, by norm_num⟩
  have habs : |(3 : ℝ)| = 3 := abs_of_pos (by norm_num)
  have h1 := h coarseGrid (by norm_num [coarseGrid]) 0 1 5 3 1 300 rfl rfl (by rw [habs]; norm_num)
    (by rw [habs]; norm_num) hnf
  rw [prob_upper (by norm_num [coarseGrid]) rfl rfl (by rw [habs]; norm_num)
    (by rw [habs]; norm_num) hnf, habs] at h1
  have h2 : prob {u : ℝ | u < 3 - 1 / (5 - 1)} = ENNReal.ofReal 1 := by
    unfold prob
    have : {u : ℝ | u < 3 - 1 / (5 - 1)} ∩ Set.Ico 0 1 = Set.Ico 0 1 := by
      apply Set.inter_eq_right.2
      intro u hu
      simp only [Set.mem_ofPred_eq]
      have := hu.2
      norm_num
      linarith
    rw [this, Real.volume_Ico, sub_zero]
  rw [h2] at h1
  have h3 := (ENNReal.ofReal_eq_ofReal_iff (by norm_num) (by norm_num [weight])).1 h1
  norm_num [weight] at h3

/-- **C46 is violated**: an energy transfer beyond the grid makes the lookup fail for every
uniform number. -/
theorem C46_beyond_grid_violated {s : ThermalScattering} {b : ℝ} (hb : b ≠ 0)
    (h : ∀ x ∈ s.betas, x ≤ |b|) (p : Particle) (e t : ℝ) :
    s.sampleAlpha p b e t = .error .outOfRange := by
  have hui : upperIdx s.betas |b| = s.betas.length := by
    refine upperIdx_eq le_rfl ?_ ?_
    · intro i a _ ha
      exact h a (List.mem_of_getElem? ha)
    · intro i a hi ha
      have := lt_of_getElem? ha
      omega
  have hv := vecAt_ge (l := s.betas) (i := upperIdx s.betas |b|) hui.ge
  have hsn : s.snapToLower b e t = .error .outOfRange := by
    unfold ThermalScattering.snapToLower
    simp only [hv, bind, Except.bind]
    rcases lt_or_gt_of_ne hb with hb | hb
    · have h1 : ThermalScattering.sgn b = -1 := by
        unfold ThermalScattering.sgn
        rw [if_neg (by linarith), if_pos hb]; norm_num
      rw [h1, if_neg (by norm_num), if_pos rfl]
    · have h1 : ThermalScattering.sgn b = 1 := by
        unfold ThermalScattering.sgn
        rw [if_pos hb, if_neg (by linarith)]; norm_num
      rw [h1, if_pos rfl]
  unfold ThermalScattering.sampleAlpha ThermalScattering.alphaIndex ThermalScattering.alphaFactor
  simp only [hsn, bind, Except.bind]

/-- **C46 is violated**: a small energy transfer whose upper neighbour, the lowest grid point, is
forbidden makes the lookup fail for every uniform number. -/
theorem C46_below_grid_violated {s : ThermalScattering} (hs : s.betas.Pairwise (· < ·)) {b₀ b e t : ℝ}
    (h1 : s.betas[0]? = some b₀) (h2 : |b| < b₀) (hf : Forced s b e t b₀) {p : Particle}
    (hr : Rng.Valid p.rng) : s.sampleAlpha p b e t = .error .outOfRange := by
  have hui := upperIdx_zero hs h1 h2
  have hsn := snapToLower_eq (s := s) (b := b) (e := e) (t := t) (by rw [hui]; exact h1)
  have hu : 0 ≤ p.sample.1 := (Rng.canonical_pos hr).le
  unfold ThermalScattering.sampleAlpha ThermalScattering.alphaIndex ThermalScattering.alphaFactor
  simp only [hsn, hui, bind, Except.bind, hf, decide_true, if_true, ThermalScattering.pickIndex]
  rw [if_pos hu]

/-- Instance of `C46_below_grid_violated`: a slow neutron that loses a little energy. -/
example : Forced coarseGrid (-0.5) boltzmann 300 1 := by
  refine Or.inr ⟨by norm_num, ?_⟩
  unfold boltzmann
  norm_num

end Minimc.Props
