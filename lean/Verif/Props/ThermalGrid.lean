import Verif.Lemmas.Thermal
import Verif.Lemmas.Keeps
import Verif.Spec.Select

/-! # Properties C47 (lookup in partitioned data) and C60, C46 (choice of the grid point) -/

namespace Minimc.Props

open Classical Spec

/-! ## Partitions -/

/-- The row axes of a list of partitions. -/
def RowAxes (ps : List Partition) (rs : List (List ℝ)) : Prop :=
  List.Forall₂ (fun P r => P.rows = .ok r) ps rs

/-- Number of rows in the first `k` partitions. -/
def rowsBefore (rs : List (List ℝ)) (k : ℕ) : ℕ := ((rs.take k).map List.length).sum

theorem concatRows_eq {ps : List Partition} {rs : List (List ℝ)} (h : RowAxes ps rs) :
    ThermalScattering.concatRows ps = .ok rs.flatten := by
  induction h with
  | nil => rfl
  | cons h1 _ ih =>
    simp only [ThermalScattering.concatRows, h1, ih, bind, Except.bind, List.flatten_cons]

theorem partitionEnds_eq {ps : List Partition} {rs : List (List ℝ)} (h : RowAxes ps rs)
    (base : ℕ) : ∃ ends, ThermalScattering.partitionEnds base ps = .ok ends ∧
      ends.length = rs.length ∧
      ∀ k < rs.length, ends[k]? = some (base + rowsBefore rs (k + 1)) := by
  induction h generalizing base with
  | nil => exact ⟨[], rfl, rfl, by simp⟩
  | @cons P r ps rs h1 _ ih =>
    obtain ⟨ends, h2, h3, h4⟩ := ih (base + r.length)
    refine ⟨(base + r.length) :: ends, ?_, by simp [h3], ?_⟩
    · simp only [ThermalScattering.partitionEnds, h1, h2, bind, Except.bind]
    · intro k hk
      cases k with
      | zero => simp [rowsBefore]
      | succ k =>
        rw [List.getElem?_cons_succ, h4 k (by simpa using hk)]
        simp [rowsBefore, add_assoc]

theorem rowAxes_of_concat : ∀ {ps : List Partition} {l : List ℝ}
    (_ : ThermalScattering.concatRows ps = .ok l), ∃ rs, RowAxes ps rs ∧ l = rs.flatten
  | [], l, h => by cases h; exact ⟨[], .nil, rfl⟩
  | P :: ps, l, h => by
    simp only [ThermalScattering.concatRows, res_bind_ok] at h
    obtain ⟨r, h1, l', h2, h3⟩ := h
    cases h3
    obtain ⟨rs, h4, rfl⟩ := rowAxes_of_concat h2
    exact ⟨r :: rs, .cons h1 h4, rfl⟩

theorem flatten_getElem? : ∀ {rs : List (List ℝ)} {k l : ℕ} {r : List ℝ}
    (_ : rs[k]? = some r) (_ : l < r.length), rs.flatten[rowsBefore rs k + l]? = r[l]?
  | [], _, _, _, h, _ => by simp at h
  | a :: rs, 0, l, r, h, hl => by
    simp at h
    subst h
    simp only [rowsBefore, List.take_zero, List.map_nil, List.sum_nil, zero_add, List.flatten_cons]
    rw [List.getElem?_append_left hl]
  | a :: rs, k + 1, l, r, h, hl => by
    have ih := flatten_getElem? (rs := rs) (k := k) (by simpa using h) hl
    rw [← ih]
    simp only [rowsBefore, List.take_succ_cons, List.map_cons, List.sum_cons, List.flatten_cons]
    rw [List.getElem?_append_right (by omega)]
    congr 1
    omega

theorem rowsBefore_succ {rs : List (List ℝ)} {k : ℕ} {r : List ℝ} (h : rs[k]? = some r) :
    rowsBefore rs (k + 1) = rowsBefore rs k + r.length := by
  unfold rowsBefore
  rw [List.take_add_one, h]
  simp

theorem rowsBefore_mono (rs : List (List ℝ)) {i j : ℕ} (h : i ≤ j) :
    rowsBefore rs i ≤ rowsBefore rs j := by
  induction h with
  | refl => exact le_rfl
  | @step m _ ih =>
    refine ih.trans ?_
    rcases hm : rs[m]? with _ | r
    · unfold rowsBefore
      have : rs.length ≤ m := List.getElem?_eq_none_iff.1 hm
      rw [List.take_of_length_le this, List.take_of_length_le (by omega)]
    · rw [rowsBefore_succ hm]; omega

theorem rowsBefore_all (rs : List (List ℝ)) : rowsBefore rs rs.length = rs.flatten.length := by
  unfold rowsBefore
  rw [List.take_length, List.length_flatten]

/-- **C47** Every index into the concatenated rows of the partitions is mapped to a partition
and a row inside it, the only ones that hold this grid point. -/
theorem C47_located {ps : List Partition} {rs : List (List ℝ)} (h : RowAxes ps rs)
    {ends : List ℕ} (he : ThermalScattering.partitionEnds 0 ps = .ok ends) {g : ℕ}
    (hg : g < rs.flatten.length) :
    ∃ k l r, ThermalScattering.locate ends g = .ok (k, l) ∧ rs[k]? = some r ∧ l < r.length ∧
      r[l]? = rs.flatten[g]? ∧ g = rowsBefore rs k + l ∧
      ∀ k' l' r', rs[k']? = some r' → l' < r'.length → g = rowsBefore rs k' + l' →
        k' = k ∧ l' = l := by
  obtain ⟨ends', h1, h2, h3⟩ := partitionEnds_eq h 0
  rw [h1] at he
  cases he
  set k := upperIdxNat ends g with hk
  have hkl : k < rs.length := by
    by_contra hc
    push Not at hc
    have hle : k ≤ ends.length := upperIdxNat_le_length ends g
    have hke : k = rs.length := by omega
    have hpos : 0 < rs.length := by
      rcases rs with _ | _
      · simp at hg
      · simp
    have := upperIdxNat_pred (l := ends) (x := g) (i := rs.length - 1) (by omega)
      (h3 _ (by omega))
    rw [Nat.sub_add_cancel hpos, rowsBefore_all] at this
    omega
  have hr : rs[k]? = some rs[k] := List.getElem?_eq_getElem hkl
  have hup : g < rowsBefore rs (k + 1) := by
    have := upperIdxNat_after (l := ends) (x := g) (h3 k hkl)
    omega
  have hlow : rowsBefore rs k ≤ g := by
    rcases Nat.eq_zero_or_pos k with h0 | h0
    · rw [h0]; simp [rowsBefore]
    · have := upperIdxNat_pred (l := ends) (x := g) (i := k - 1) (by omega) (h3 (k - 1) (by omega))
      rw [Nat.sub_add_cancel h0] at this
      omega
  rw [rowsBefore_succ hr] at hup
  have hl : g - rowsBefore rs k < rs[k].length := by omega
  refine ⟨k, g - rowsBefore rs k, rs[k], ?_, hr, hl, ?_, by omega, ?_⟩
  · unfold ThermalScattering.locate
    rw [← hk]
    rcases Nat.eq_zero_or_pos k with h0 | h0
    · rw [if_pos h0, h0]
      simp [rowsBefore]
    · simp only
      rw [if_neg (by omega), vecAt_eq_ok (h3 (k - 1) (by omega)), Nat.sub_add_cancel h0]
      simp [bind, Except.bind]
  · rw [← flatten_getElem? hr hl]
    congr 1
    omega
  · intro k' l' r' hr' hl' hg'
    have hs' := rowsBefore_succ hr'
    rcases lt_trichotomy k' k with hlt | heq | hgt
    · have := rowsBefore_mono rs (show k' + 1 ≤ k by omega)
      omega
    · exact ⟨heq, by rw [heq] at hg'; omega⟩
    · have := rowsBefore_mono rs (show k + 1 ≤ k' by omega)
      rw [rowsBefore_succ hr] at this
      omega

theorem increasing_of_assert : ∀ {l : List ℝ} {a : ℝ}
    (_ : ThermalScattering.assertIncreasing a l = .ok ()), (a :: l).Pairwise (· < ·)
  | [], _, _ => by simp
  | b :: l, a, h => by
    rw [ThermalScattering.assertIncreasing] at h
    split_ifs at h with hab
    have ih := increasing_of_assert h
    rw [List.pairwise_cons] at ih ⊢
    refine ⟨?_, List.pairwise_cons.2 ih⟩
    intro x hx
    rcases List.mem_cons.1 hx with rfl | hx
    · exact hab
    · exact hab.trans (ih.1 x hx)

/-- **C47** In thermal data as constructed, both grids are positive and strictly increasing and
every grid point is found in its partition. -/
theorem C47_constructed {maj xsT xsS xsE : DataSet} {bp ap : List Partition} {bc ac awr : ℝ}
    {s : ThermalScattering}
    (hc : ThermalScattering.create maj xsT xsS xsE bp ap bc ac awr = .ok s) :
    ((0 : ℝ) :: s.es).Pairwise (· < ·) ∧ ((0 : ℝ) :: s.betas).Pairwise (· < ·) ∧
    (∀ g < s.es.length, ∃ k l P r, ThermalScattering.locate s.betaEnds g = .ok (k, l) ∧
      s.betaPartitions[k]? = some P ∧ P.rows = .ok r ∧ r[l]? = s.es[g]?) ∧
    (∀ g < s.betas.length, ∃ k l P r, ThermalScattering.locate s.alphaEnds g = .ok (k, l) ∧
      s.alphaPartitions[k]? = some P ∧ P.rows = .ok r ∧ r[l]? = s.betas[g]?) ∧
    s.betaPartitions = bp ∧ s.alphaPartitions = ap ∧ s.betaCutoff = bc ∧ s.alphaCutoff = ac ∧
    s.awr = awr := by
  unfold ThermalScattering.create at hc
  rw [noexcept_eq_ok] at hc
  simp only [res_bind_ok] at hc
  obtain ⟨m, _, es, h1, _, h2, be, h3, bs, h4, _, h5, ae, h6, ax, hax, hc⟩ := hc
  cases hlast : ax.getLast? with
  | none => rw [hlast] at hc; cases hc
  | some c =>
    rw [hlast] at hc
    cases hc
    have look : ∀ {ps : List Partition} {l : List ℝ} {ends : List ℕ}
        (_ : ThermalScattering.concatRows ps = .ok l)
        (_ : ThermalScattering.partitionEnds 0 ps = .ok ends),
        ∀ g < l.length, ∃ k l' P r, ThermalScattering.locate ends g = .ok (k, l') ∧
          ps[k]? = some P ∧ P.rows = .ok r ∧ r[l']? = l[g]? := by
      intro ps l ends ha hb g hg
      obtain ⟨rs, hr, rfl⟩ := rowAxes_of_concat ha
      obtain ⟨k, l', r, k1, k2, k3, k4, _⟩ := C47_located hr hb hg
      have hlen := List.Forall₂.length_eq hr
      have hk : k < ps.length := by rw [hlen]; exact lt_of_getElem? k2
      have hrow : ps[k].rows = .ok r := by
        have := List.forall₂_iff_get.1 hr
        have h' := this.2 k hk (lt_of_getElem? k2)
        obtain ⟨_, hk2⟩ := List.getElem?_eq_some_iff.1 k2
        simpa [hk2] using h'
      exact ⟨k, l', ps[k], r, k1, List.getElem?_eq_getElem hk, hrow, k4⟩
    exact ⟨increasing_of_assert h2, increasing_of_assert h5, look h1 h3, look h4 h6, rfl, rfl, rfl,
      rfl, rfl⟩

/-! ## Evaluation -/

theorem evaluate_eq {P : Partition} {fs rows ts : List ℝ} {X : ℕ → ℕ → ℕ → ℝ}
    (h : PartitionTable P fs rows ts X) {f i : ℕ} (hf : f < fs.length) (hi : i < rows.length)
    {t tLo tHi : ℝ} (h1 : ts[tempLo ts t]? = some tLo) (h2 : ts[tempHi ts t]? = some tHi) :
    P.evaluate f i t = if tHi - tLo = 0 then .error .nan
      else .ok (mix (weight tLo tHi t) (X f i (tempLo ts t)) (X f i (tempHi ts t))) := by
  obtain ⟨_, o, oC, oM, S, C, M, hC, hM, a1, a2, a3, hX⟩ := h
  have term : ∀ j < ts.length, ∀ k < o.length,
      P.term f i j k = .ok (S k * C f k * M i j k) := by
    intro j hj k hk
    unfold Partition.term
    rw [a1.at1 hk, a2.at2 hf (by omega), a3.at3 hi hj (by omega)]
    rfl
  unfold Partition.evaluate
  rw [a3.getAxis (i := 1) rfl, a1.getAxis (i := 0) rfl]
  simp only [bind, Except.bind]
  rw [sumOrders_ok (term _ (lt_of_getElem? h2)), sumOrders_ok (term _ (lt_of_getElem? h1)),
    vecAt_eq_ok h1, vecAt_eq_ok h2]
  simp only [← hX]
  split_ifs with h0
  · rfl
  · simp only [mix, weight]
    congr 1
    field_simp
    ring

/-- **C47** Between two tabulated temperatures an entry is the linear interpolant of the low-rank
expansions at those temperatures. -/
theorem C47_interpolated_partial {P : Partition} {fs rows ts : List ℝ} {X : ℕ → ℕ → ℕ → ℝ}
    (h : PartitionTable P fs rows ts X) {f i j : ℕ} (hf : f < fs.length) (hi : i < rows.length)
    {t₀ t₁ t : ℝ} (h1 : ts[j]? = some t₀) (h2 : ts[j + 1]? = some t₁) (h3 : t₀ ≤ t)
    (h4 : t < t₁) :
    P.evaluate f i t = .ok (mix (weight t₀ t₁ t) (X f i j) (X f i (j + 1))) := by
  obtain ⟨_, k2, k3, _⟩ := tempHi_between h.1 h1 h2 h3 h4
  rw [evaluate_eq h hf hi (by rw [k3]; exact h1) (by rw [k2]; exact h2), if_neg (by linarith),
    k2, k3]

/-- **C47** At a tabulated temperature an entry is the low-rank expansion, provided there are at
least two temperatures. -/
theorem C47_tabulated_partial {P : Partition} {fs rows ts : List ℝ} {X : ℕ → ℕ → ℕ → ℝ}
    (h : PartitionTable P fs rows ts X) {f i j : ℕ} (hf : f < fs.length) (hi : i < rows.length)
    (hts : 2 ≤ ts.length) {t : ℝ} (h1 : ts[j]? = some t) : P.evaluate f i t = .ok (X f i j) := by
  have hj := lt_of_getElem? h1
  rcases Nat.lt_or_ge (j + 1) ts.length with hlt | hge
  · have e1 : ts[j + 1]? = some ts[j + 1] := List.getElem?_eq_getElem hlt
    have := pairwise_lt_getElem? h.1 (Nat.lt_succ_self j) h1 e1
    rw [C47_interpolated_partial h hf hi h1 e1 le_rfl this]
    simp [mix, weight]
  · obtain ⟨_, k2, k3⟩ := tempHi_above h.1 (n := j) (by omega) h1 le_rfl
    have e0 : ts[j - 1]? = some ts[j - 1] := List.getElem?_eq_getElem (by omega)
    have hlt := pairwise_lt_getElem? h.1 (show j - 1 < j by omega) e0 h1
    rw [evaluate_eq h hf hi (by rw [k3]; exact e0) (by rw [k2]; exact h1), if_neg (by linarith),
      k2, k3]
    have : weight ts[j - 1] t t = 1 := by
      unfold weight
      exact div_self (by linarith)
    rw [this]
    simp [mix]

/-- **C47 is violated** below the lowest temperature: the code divides zero by zero. -/
theorem C47_below_violated {P : Partition} {fs rows ts : List ℝ} {X : ℕ → ℕ → ℕ → ℝ}
    (h : PartitionTable P fs rows ts X) {f i : ℕ} (hf : f < fs.length) (hi : i < rows.length)
    {t₀ t : ℝ} (h1 : ts[0]? = some t₀) (h2 : t < t₀) : P.evaluate f i t = .error .nan := by
  obtain ⟨k1, k2⟩ := tempHi_below h.1 h1 h2
  rw [evaluate_eq h hf hi (by rw [k2]; exact h1) (by rw [k1]; exact h1), if_pos (by ring)]

/-- **C47 is violated** when only one temperature is tabulated: every lookup divides zero by
zero, even at that temperature. -/
theorem C47_single_temperature_violated {P : Partition} {fs rows : List ℝ} {t₀ : ℝ}
    {X : ℕ → ℕ → ℕ → ℝ} (h : PartitionTable P fs rows [t₀] X) {f i : ℕ} (hf : f < fs.length)
    (hi : i < rows.length) (t : ℝ) : P.evaluate f i t = .error .nan := by
  rcases lt_or_ge t t₀ with ht | ht
  · exact C47_below_violated h hf hi rfl ht
  · obtain ⟨_, k2, k3⟩ := tempHi_above (ts := [t₀]) h.1 (n := 0) rfl rfl ht
    rw [evaluate_eq h hf hi (tLo := t₀) (tHi := t₀) (by rw [k3]; rfl) (by rw [k2]; rfl),
      if_pos (by ring)]

/-- **C47** Above the highest temperature the code continues the line through the last two
tabulated values. -/
theorem C47_above_extrapolates {P : Partition} {fs rows ts : List ℝ} {X : ℕ → ℕ → ℕ → ℝ}
    (h : PartitionTable P fs rows ts X) {f i n : ℕ} (hf : f < fs.length) (hi : i < rows.length)
    (hn : ts.length = n + 2) {t₀ t₁ t : ℝ} (h1 : ts[n]? = some t₀) (h2 : ts[n + 1]? = some t₁)
    (h3 : t₁ ≤ t) :
    P.evaluate f i t = .ok (mix (weight t₀ t₁ t) (X f i n) (X f i (n + 1))) := by
  obtain ⟨_, k2, k3⟩ := tempHi_above h.1 (n := n + 1) hn h2 h3
  rw [Nat.add_sub_cancel] at k3
  have hlt := pairwise_lt_getElem? h.1 (Nat.lt_succ_self n) h1 h2
  rw [evaluate_eq h hf hi (by rw [k3]; exact h1) (by rw [k2]; exact h2), if_neg (by linarith),
    k2, k3]

/-- A partition with one cumulative probability, one row and two temperatures, of rank one. -/
noncomputable def rankOne : Partition :=
  ⟨⟨[[0.5], [0]], [2]⟩, ⟨[[0]], [3]⟩, ⟨[[1], [100, 200], [0]], [1, 5]⟩⟩

theorem rankOne_table :
    PartitionTable rankOne [0.5] [1] [100, 200] (fun _ _ j => 6 * (if j = 0 then 1 else 5)) := by
  refine ⟨by norm_num, [0], [0], [0], fun _ => 3, fun _ _ => 2,
    fun _ j _ => if j = 0 then 1 else 5, rfl, rfl, ?_, ?_, ?_, ?_⟩
  · exact holds1 (f := fun _ => 3) (by intro i hi; simp at hi; subst hi; rfl)
  · refine holds2 (f := fun _ _ => 2) ?_
    intro i hi j hj
    simp at hi hj
    subst hi hj
    rfl
  · refine holds3 (f := fun _ j _ => if j = 0 then 1 else 5) ?_
    intro i hi j hj k hk
    simp at hi hj hk
    subst hi hk
    interval_cases j
    · simp
    · simp
  · intro f i j
    simp only [List.length_singleton, Finset.sum_range_one]
    norm_num

/-- Instance of `C47_interpolated_partial`: halfway between 6 and 30. -/
example : rankOne.evaluate 0 0 150 = .ok 18 := by
  rw [C47_interpolated_partial rankOne_table (j := 0) (by norm_num) (by norm_num) rfl rfl
    (by norm_num) (by norm_num)]
  norm_num [mix, weight]

/-- **C47 is violated**: a value below the table range is not given. -/
theorem C47_violated : ¬ ∀ (P : Partition) (fs rows ts : List ℝ) (X : ℕ → ℕ → ℕ → ℝ),
    PartitionTable P fs rows ts X → ∀ f i t, f < fs.length → i < rows.length →
      ∃ v, P.evaluate f i t = .ok v := by
  intro h
  obtain ⟨v, hv⟩ := h rankOne _ _ _ _ rankOne_table 0 0 50 (by norm_num) (by norm_num)
  rw [C47_below_violated rankOne_table (t₀ := 100) (by norm_num) (by norm_num) rfl (by norm_num)]
    at hv
  cases hv

end Minimc.Props
