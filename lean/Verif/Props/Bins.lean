import Verif.Lemmas.Bins
import Mathlib.Analysis.SpecialFunctions.Log.Base

/-! # Properties C10 to C13: bins -/

namespace Minimc.Props

open Classical Spec

/-! ## C10: every value falls in an existing bin -/

/-- C10 (part): whenever an index is returned it addresses an existing bin.  Missing for the
full statement: logspace bins and a value whose logarithm is not a number, see
`C10_index_violated`. -/
theorem C10_index_lt_size_partial {b : Bins} (hb : Created b) (v : ℝ) (i : ℕ)
    (h : b.getIndex v = .ok i) : i < b.size :=
  getIndex_lt_size hb h

/-- C10: for all structures except logspace, and for logspace with a base above one and a
value that is not negative, there is an index and it addresses an existing bin. -/
theorem C10_index_exists_partial {b : Bins} (hb : Created b) (v : ℝ)
    (hlog : ∀ n base lo hi w, b = .logspace n base lo hi w → 1 < base ∧ 0 ≤ v) :
    ∃ i, b.getIndex v = .ok i ∧ i < b.size := by
  have : ∃ i, b.getIndex v = .ok i := by
    cases b with
    | none => exact ⟨_, rfl⟩
    | linspace n lo hi w => exact ⟨_, rfl⟩
    | boundaries bs => exact ⟨_, rfl⟩
    | logspace n base lo hi w =>
      obtain ⟨h1, h2⟩ := hlog n base lo hi w rfl
      simp only [Bins.getIndex, Bins.logBase]
      rw [if_neg (by intro h; rcases h with h | h <;> linarith),
        if_neg (by linarith), if_neg (by linarith)]
      split_ifs
      · exact ⟨_, rfl⟩
      · exact ⟨_, rfl⟩
  obtain ⟨i, hi⟩ := this
  exact ⟨i, hi, getIndex_lt_size hb hi⟩

/-- The hypotheses are met by a three-bin linspace structure. -/
example : ∃ b, Created b ∧ b.getIndex (1 / 2) = .ok 2 ∧ b.size = 5 := by
  refine ⟨.linspace 5 0 1 (1 / 3), .linspace (bins := 3) (min := 0) (max := 1) (by norm_num) ?_,
    ?_, rfl⟩
  · simp only [Bins.createLinspace]; rw [if_neg (by norm_num)]; norm_num
  · simp only [Bins.getIndex, Bins.spaceIndex]
    rw [if_neg (by norm_num), if_neg (by norm_num)]
    congr 1
    rw [Nat.floor_eq_iff (by norm_num)]
    norm_num

/-- C10 is violated: logspace bins accepted by construction convert a not-a-number to an
index for a negative value, for example for a negative cosine. -/
theorem C10_index_violated : ∃ b : Bins, Created b ∧ b.getIndex (-1) = .error .ub := by
  refine ⟨.logspace 3 10 0 1 1, .logspace (bins := 1) (base := 10) (min := 0) (max := 1)
    le_rfl ?_, ?_⟩
  · simp only [Bins.createLogspace]; rw [if_neg (by norm_num)]; norm_num
  · simp only [Bins.getIndex, Bins.logBase]
    rw [if_pos (Or.inl (by norm_num))]

/-- Exact extent of the violation: the index is undefined exactly when the logarithm to the
base is not a number. -/
theorem C10_undefined_iff {n : ℕ} {base lo hi w v : ℝ} :
    Bins.getIndex (.logspace n base lo hi w) v = .error .ub ↔
      v < 0 ∨ base < 0 ∨ (base = 0 ∧ v = 0) ∨ (base = 1 ∧ v = 1) := by
  simp only [Bins.getIndex, Bins.logBase]
  split_ifs with h1 h2 h3 h4 h5 h6 h7 h8
  · simp only [true_iff]; tauto
  · simp only [true_iff]; tauto
  · simp only [false_iff]; subst h2; push Not at h1 ⊢
    exact ⟨h1.1, h1.2, fun _ => h3, by norm_num⟩
  · simp only [true_iff]; tauto
  · simp only [false_iff]; tauto
  · simp only [false_iff]; tauto
  · simp only [false_iff]; tauto
  · simp only [false_iff]; tauto
  · simp only [false_iff]; tauto

/-! ## C11: the index counts the printed boundaries not above the value -/

/-- C11 (part): the index is the number of printed boundaries not above the value.  For
logspace bins the base has to exceed one and the value must not be negative; neither is
checked by the code, see `C11_count_violated` and `C10_index_violated`. -/
theorem C11_index_counts_printed_partial {b : Bins} (hb : Created b) (v : ℝ)
    (hlog : ∀ n base lo hi w, b = .logspace n base lo hi w → 1 < base ∧ 0 ≤ v) :
    b.getIndex v = .ok (countNotAbove b.printed v) := by
  cases hb with
  | none => simp [Bins.getIndex, Bins.printed, countNotAbove]
  | linspace hn hc =>
    obtain ⟨hlt, rfl⟩ := createLinspace_ok hc
    simp only [Bins.getIndex, Bins.printed, countNotAbove, List.countP_map]
    congr 1
    refine spaceIndex_eq_count hn hlt _ (fun i => ?_)
    simp only [Function.comp, decide_eq_true_eq]
  | logspace hn hc =>
    obtain ⟨hlt, rfl⟩ := createLogspace_ok hc
    obtain ⟨hbase, hv⟩ := hlog _ _ _ _ _ rfl
    simp only [Bins.getIndex, Bins.logBase]
    rw [if_neg (by intro h; rcases h with h | h <;> linarith),
      if_neg (by linarith), if_neg (by linarith)]
    have hb0 := lt_trans (zero_lt_one (α := ℝ)) hbase
    by_cases h0 : v = 0
    · rw [if_pos h0, if_pos hbase]
      simp only [Except.ok.injEq]
      symm
      unfold countNotAbove Bins.printed
      rw [List.countP_eq_zero]
      intro a ha hc'
      obtain ⟨i, _, rfl⟩ := List.mem_map.1 ha
      simp only [decide_eq_true_eq, h0] at hc'
      exact absurd hc' (not_le.2 (Real.rpow_pos_of_pos hb0 _))
    · rw [if_neg h0]
      have hvpos : 0 < v := lt_of_le_of_ne hv (Ne.symm h0)
      simp only [Bins.printed, countNotAbove, List.countP_map]
      congr 1
      refine spaceIndex_eq_count hn hlt _ (fun i => ?_)
      simp only [Function.comp, decide_eq_true_eq]
      rw [← Real.le_logb_iff_rpow_le hbase hvpos, Real.logb]
  | boundaries hc =>
    obtain ⟨hp, rfl⟩ := createBoundaries_ok hc
    simp only [Bins.getIndex, Bins.printed]
    rw [upperIdx_eq_count hp]

/-- Non-trivial instance: boundaries 1, 10, 100 printed by logspace bins with base 10; the
value 50 is in bin 2. -/
example : ∃ b, Created b ∧ (∀ n base lo hi w, b = .logspace n base lo hi w →
      1 < base ∧ (0 : ℝ) ≤ 50) ∧ b.printed = [1, 10, 100] ∧ countNotAbove b.printed 50 = 2 := by
  have hp : Bins.printed (.logspace 4 10 0 2 1) = [1, 10, 100] := by
    simp only [Bins.printed]
    simp [List.range_succ]
    norm_num
  refine ⟨.logspace 4 10 0 2 1, .logspace (bins := 2) (base := 10) (min := 0) (max := 2)
    (by norm_num) ?_, ?_, hp, ?_⟩
  · simp only [Bins.createLogspace]; rw [if_neg (by norm_num)]; norm_num
  · intro n base lo hi w h
    injection h with _ h2
    subst h2
    norm_num
  · rw [hp]; norm_num [countNotAbove]

/-- C11 with base one, where all printed boundaries are 1: it holds for every value that is not
negative except 1 itself, for which there is no index (`C10_undefined_iff`). -/
theorem C11_base_one {n : ℕ} {lo hi w v : ℝ} (h0 : 0 ≤ v) (h1 : v ≠ 1) : Bins.getIndex (.logspace n 1 lo hi w) v =
      .ok (countNotAbove (Bins.printed (.logspace n 1 lo hi w)) v) := by
  have hp : Bins.printed (.logspace n 1 lo hi w) = List.replicate (n - 1) 1 := by
    simp only [Bins.printed, Real.one_rpow, List.map_const', List.length_range]
  rw [hp]
  simp only [Bins.getIndex, Bins.logBase]
  rw [if_neg (by intro h; rcases h with h | h <;> linarith), if_neg one_ne_zero, if_pos True.intro,
    if_neg h1]
  by_cases hv : v < 1
  · rw [if_pos hv]
    simp only [countNotAbove, List.countP_replicate, decide_eq_true_eq, if_neg (not_le.2 hv)]
  · rw [if_neg hv]
    simp only [countNotAbove, List.countP_replicate, decide_eq_true_eq, if_pos (not_lt.1 hv)]

/-- What the code does with a base below one: the index counts the printed boundaries that are not
below the value. -/
theorem C11_small_base {n : ℕ} {base lo hi w v : ℝ} (hb : Created (.logspace n base lo hi w))
    (hb0 : 0 < base) (hb1 : base < 1) (hv : 0 ≤ v) : Bins.getIndex (.logspace n base lo hi w) v =
      .ok ((Bins.printed (.logspace n base lo hi w)).countP fun b => decide (v ≤ b)) := by
  generalize he : Bins.logspace n base lo hi w = b at hb
  cases hb with
  | none => cases he
  | linspace _ hc => obtain ⟨_, rfl⟩ := createLinspace_ok hc; cases he
  | boundaries hc =>
    simp only [Bins.createBoundaries] at hc
    split_ifs at hc
    cases hc; cases he
  | logspace hn hc =>
    obtain ⟨hlt, heq⟩ := createLogspace_ok hc
    subst heq
    cases he
    simp only [Bins.getIndex, Bins.logBase]
    rw [if_neg (by intro h; rcases h with h | h <;> linarith),
      if_neg (by linarith), if_neg (by linarith)]
    by_cases h0 : v = 0
    · rw [if_pos h0, if_neg (by linarith)]
      simp only [Except.ok.injEq]
      symm
      unfold Bins.printed
      rw [List.countP_eq_length.2, List.length_map, List.length_range]
      intro a ha
      obtain ⟨i, _, rfl⟩ := List.mem_map.1 ha
      simp only [decide_eq_true_eq, h0]
      exact (Real.rpow_pos_of_pos hb0 _).le
    · rw [if_neg h0]
      have hvpos : 0 < v := lt_of_le_of_ne hv (Ne.symm h0)
      simp only [Bins.printed, List.countP_map]
      congr 1
      refine spaceIndex_eq_count hn hlt _ (fun i => ?_)
      simp only [Function.comp, decide_eq_true_eq]
      rw [← Real.le_logb_iff_rpow_le_of_base_lt_one hb0 hb1 hvpos, Real.logb]

/-- Instance: two bins with base one and with base one half. -/
example : Created (.logspace 4 1 0 2 1) ∧ Created (.logspace 4 (1 / 2) 0 2 1) := by
  constructor
  · refine .logspace (bins := 2) (base := 1) (min := 0) (max := 2) (by norm_num) ?_
    simp only [Bins.createLogspace]; rw [if_neg (by norm_num)]; norm_num
  · refine .logspace (bins := 2) (base := 1 / 2) (min := 0) (max := 2) (by norm_num) ?_
    simp only [Bins.createLogspace]; rw [if_neg (by norm_num)]; norm_num

/-- C11 is violated for a base below one, which is accepted: the value 2 is above both
printed boundaries 1 and 1/2 but is counted in bin 0. -/
theorem C11_count_violated : ∃ b : Bins, Created b ∧ b.getIndex 2 = .ok 0 ∧
    b.printed = [1, 1 / 2] ∧ countNotAbove b.printed 2 = 2 := by
  have hp : Bins.printed (.logspace 3 (1 / 2) 0 1 1) = [1, 1 / 2] := by
    simp only [Bins.printed]
    simp [List.range_succ]
  refine ⟨.logspace 3 (1 / 2) 0 1 1, .logspace (bins := 1) (base := 1 / 2) (min := 0) (max := 1)
    le_rfl ?_, ?_, hp, ?_⟩
  · simp only [Bins.createLogspace]; rw [if_neg (by norm_num)]; norm_num
  · simp only [Bins.getIndex, Bins.logBase]
    rw [if_neg (by norm_num), if_neg (by norm_num), if_neg (by norm_num), if_neg (by norm_num)]
    simp only [Bins.spaceIndex]
    rw [if_pos]
    apply div_neg_of_pos_of_neg (Real.log_pos (by norm_num))
    exact Real.log_neg (by norm_num) (by norm_num)
  · rw [hp]; norm_num [countNotAbove]

/-! ## C12: different bins never share a slot -/

/-- The flat index is below the total size. -/
theorem C12_flat_index_lt_size {b : ParticleBins} (hb : CreatedParticleBins b)
    (dir : Direction) (energy : ℝ) (i : ℕ) (h : b.getIndex dir energy = .ok i) : i < b.size := by
  obtain ⟨c, e, hc, he, hcr⟩ := hb
  simp only [ParticleBins.create, noexcept, bind, Except.bind, Except.ok.injEq] at hcr
  rw [← hcr] at h ⊢
  simp only [ParticleBins.getIndex, bind, Except.bind, ParticleBins.computeStrides] at h
  simp only [ParticleBins.size, ParticleBins.computeStrides]
  have key : ∀ ci ei, ci < c.size → ei < e.size → e.size * ci + ei < c.size * e.size := by
    intro ci ei h1 h2
    calc e.size * ci + ei < e.size * ci + e.size := by omega
      _ = e.size * (ci + 1) := by ring
      _ ≤ e.size * c.size := Nat.mul_le_mul_left _ h1
      _ = _ := mul_comm _ _
  have hc0 : 0 < c.size := by
    cases hc with
    | none => simp [Bins.size]
    | linspace _ hc => obtain ⟨_, rfl⟩ := createLinspace_ok hc; simp [Bins.size]
    | logspace _ hc => obtain ⟨_, rfl⟩ := createLogspace_ok hc; simp [Bins.size]
    | boundaries hc => obtain ⟨_, rfl⟩ := createBoundaries_ok hc; simp [Bins.size]
  cases hd : b.direction with
  | none =>
    rw [hd] at h
    simp only at h
    cases hE : e.getIndex energy with
    | error x => rw [hE] at h; simp at h
    | ok ei =>
      rw [hE] at h
      simp only [Except.ok.injEq] at h
      subst h
      exact key 0 ei hc0 (getIndex_lt_size he hE)
  | some ref =>
    rw [hd] at h
    simp only at h
    cases hC : c.getIndex (ref.dot dir) with
    | error x => rw [hC] at h; simp at h
    | ok ci =>
      rw [hC] at h
      cases hE : e.getIndex energy with
      | error x => rw [hE] at h; simp at h
      | ok ei =>
        rw [hE] at h
        simp only [Except.ok.injEq] at h
        subst h
        exact key ci ei (getIndex_lt_size hc hC) (getIndex_lt_size he hE)

/-- The flat index is determined by, and determines, the cosine bin and the energy bin. -/
theorem C12_flat_index_iff_same_bins {b : ParticleBins} (hb : CreatedParticleBins b)
    (dir dir' : Direction) (energy energy' : ℝ) (c c' e e' : ℕ)
    (hc : CosineBin b dir c) (hc' : CosineBin b dir' c')
    (he : b.energy.getIndex energy = .ok e) (he' : b.energy.getIndex energy' = .ok e') :
    b.getIndex dir energy = b.getIndex dir' energy' ↔ c = c' ∧ e = e' := by
  obtain ⟨cb, eb, hcb, heb, hcr⟩ := hb
  simp only [ParticleBins.create, noexcept, bind, Except.bind, Except.ok.injEq] at hcr
  have hstr : b.strides.1 = eb.size := by rw [← hcr]; rfl
  have heb' : b.energy = eb := by rw [← hcr]
  have flat : ∀ (d : Direction) (en : ℝ) (x y : ℕ), CosineBin b d x →
      b.energy.getIndex en = .ok y → b.getIndex d en = .ok (eb.size * x + y) := by
    intro d en x y hx hy
    simp only [ParticleBins.getIndex, hy, bind, Except.bind, hstr]
    rcases hx with ⟨hd, rfl⟩ | ⟨ref, hd, hx⟩
    · rw [hd]
    · rw [hd]; simp only [hx]
  rw [flat _ _ _ _ hc he, flat _ _ _ _ hc' he', Except.ok.injEq]
  rw [heb'] at he he'
  have h1 := getIndex_lt_size heb he
  have h2 := getIndex_lt_size heb he'
  constructor
  · intro h
    have hpos : 0 < eb.size := by omega
    have hq : c = c' := by
      have := congrArg (· / eb.size) h
      simpa [Nat.mul_add_div hpos, Nat.div_eq_of_lt h1, Nat.div_eq_of_lt h2] using this
    subst hq
    exact ⟨rfl, by omega⟩
  · rintro ⟨rfl, rfl⟩; rfl

/-- Instance: three cosine boundaries and two energy boundaries. -/
example : ∃ b : ParticleBins, CreatedParticleBins b ∧ b.size = 12 ∧
    CosineBin b ⟨1, 0, 0⟩ 3 ∧ b.energy.getIndex 1.5 = .ok 1 ∧
    b.getIndex ⟨1, 0, 0⟩ 1.5 = .ok 10 := by
  have hC : ∀ l : List ℝ, l.Pairwise (· < ·) → Bins.createBoundaries l = .ok (.boundaries l) := by
    intro l hl
    unfold Bins.createBoundaries
    rw [if_pos ((boundariesIncreasing_none l).2 hl)]
  have h3 : ([-1, 0, 1 / 2] : List ℝ).Pairwise (· < ·) := by norm_num
  have h2 : ([1, 2] : List ℝ).Pairwise (· < ·) := by norm_num
  have e1 : Bins.getIndex (.boundaries [1, 2]) 1.5 = .ok 1 := by
    simp only [Bins.getIndex, upperIdx_eq_count h2, countNotAbove]
    norm_num
  have e2 : Bins.getIndex (.boundaries [-1, 0, 1 / 2]) (Point.dot ⟨1, 0, 0⟩ ⟨1, 0, 0⟩) = .ok 3 := by
    simp only [Bins.getIndex, upperIdx_eq_count h3, countNotAbove]
    norm_num [Point.dot]
  refine ⟨⟨some ⟨1, 0, 0⟩, .boundaries [-1, 0, 1 / 2], .boundaries [1, 2], (3, 1)⟩,
    ⟨_, _, .boundaries (hC _ h3), .boundaries (hC _ h2), rfl⟩, rfl, Or.inr ⟨_, rfl, e2⟩, e1, ?_⟩
  simp only [ParticleBins.getIndex, e1, e2, bind, Except.bind]

/-! ## C13: malformed specifications are rejected -/

/-- Linspace: rejected exactly when the maximum does not exceed the minimum. -/
theorem C13_linspace_rejected_iff (bins : ℕ) (min max : ℝ) :
    Bins.createLinspace bins min max = .error .runtimeError ↔ max ≤ min := by
  unfold Bins.createLinspace; split_ifs with h <;> simp [h]

/-- Logspace: rejected exactly when the maximum does not exceed the minimum. -/
theorem C13_logspace_rejected_iff (bins : ℕ) (base min max : ℝ) :
    Bins.createLogspace bins base min max = .error .runtimeError ↔ max ≤ min := by
  unfold Bins.createLogspace; split_ifs with h <;> simp [h]

/-- Boundaries: rejected exactly when not strictly increasing. -/
theorem C13_boundaries_rejected_iff (bs : List ℝ) :
    Bins.createBoundaries bs = .error .runtimeError ↔ ¬ bs.Pairwise (· < ·) := by
  unfold Bins.createBoundaries
  rw [← boundariesIncreasing_none]
  split_ifs with h <;> simp [h]

/-- Accepted bins print strictly increasing boundaries (base above one for logspace). -/
theorem C13_printed_increasing {b : Bins} (hb : Created b)
    (hlog : ∀ n base lo hi w, b = .logspace n base lo hi w → 1 < base) :
    b.printed.Pairwise (· < ·) ∧ b.printed.length + 1 = b.size := by
  have mono : ∀ (bins : ℕ) (f : ℕ → ℝ), (∀ i j, i < j → f i < f j) →
      ((List.range (bins + 2 - 1)).map f).Pairwise (· < ·) := by
    intro bins f hf
    rw [List.pairwise_map]
    exact List.pairwise_lt_range.imp (fun h => hf _ _ h)
  cases hb with
  | none => simp [Bins.printed, Bins.size]
  | linspace hn hc =>
    obtain ⟨hlt, rfl⟩ := createLinspace_ok hc
    simp only [Bins.printed, Bins.size]
    refine ⟨mono _ _ ?_, by simp⟩
    intro i j hij
    have hw := div_pos (sub_pos.2 hlt) (Nat.cast_pos (α := ℝ).2 hn)
    have : (i : ℝ) < j := by exact_mod_cast hij
    have := mul_lt_mul_of_pos_right this hw
    linarith
  | logspace hn hc =>
    obtain ⟨hlt, rfl⟩ := createLogspace_ok hc
    simp only [Bins.printed, Bins.size]
    refine ⟨mono _ _ ?_, by simp⟩
    intro i j hij
    have hw := div_pos (sub_pos.2 hlt) (Nat.cast_pos (α := ℝ).2 hn)
    have : (i : ℝ) < j := by exact_mod_cast hij
    have := mul_lt_mul_of_pos_right this hw
    exact Real.rpow_lt_rpow_of_exponent_lt (hlog _ _ _ _ _ rfl) (by linarith)
  | boundaries hc =>
    obtain ⟨hp, rfl⟩ := createBoundaries_ok hc
    exact ⟨hp, by simp [Bins.printed, Bins.size]⟩

/-- First and last printed boundary of accepted linspace bins are the requested limits. -/
theorem C13_linspace_limits {bins : ℕ} {min max : ℝ} {b : Bins} (hn : 1 ≤ bins)
    (hc : Bins.createLinspace bins min max = .ok b) :
    b.printed.head? = some min ∧ b.printed.getLast? = some max ∧ b.size = bins + 2 := by
  obtain ⟨_, rfl⟩ := createLinspace_ok hc
  have hb : (bins : ℝ) ≠ 0 := by exact_mod_cast (by omega : bins ≠ 0)
  refine ⟨?_, ?_, rfl⟩
  · simp [Bins.printed, List.range_succ_eq_map]
  · simp only [Bins.printed]
    rw [show bins + 2 - 1 = bins + 1 from rfl, List.range_succ]
    rw [List.map_append, List.getLast?_append]
    simp only [List.map_cons, List.map_nil, List.getLast?_singleton, Option.some_or,
      Option.some.injEq]
    field_simp
    ring

/-- In the enclosing particle bins the rejection is fatal: the constructor may not throw, so
the program terminates.  Shown for a rejected energy specification. -/
theorem C13_particle_bins_terminate (direction : Option Direction) (c : Bins) (bs : List ℝ)
    (h : ¬ bs.Pairwise (· < ·)) :
    ParticleBins.create direction (.ok c) (Bins.createBoundaries bs) = .error .terminate := by
  rw [(C13_boundaries_rejected_iff bs).2 h]; rfl

/-- An accepted and a rejected list. -/
example : ([1, 2, 5] : List ℝ).Pairwise (· < ·) ∧ ¬ ([1, 2, 2] : List ℝ).Pairwise (· < ·) := by
  norm_num

end Minimc.Props
