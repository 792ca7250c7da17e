import Verif.Lemmas.Continuous
import Verif.Props.Material

/-! # Properties C40 and C41 -/

namespace Minimc.Props

open Classical Spec

theorem anyModifies_eq {p : Particle} {m : ContinuousReaction → Bool} :
    ∀ {rs : List ContinuousReaction}, (∀ r ∈ rs, r.modifiesTotal p = .ok (m r)) →
      Continuous.anyModifies p rs = .ok (rs.any m)
  | [], _ => rfl
  | r :: rs, h => by
    rw [Continuous.anyModifies, h r (by simp)]
    simp only [bind, Except.bind]
    cases hm : m r
    · have ih := anyModifies_eq (rs := rs) (fun r' hr => h r' (List.mem_cons_of_mem _ hr))
      simp [hm, ih]
    · simp [hm]

/-- **C40** Continuous-energy data whose total is the sum of its reactions: the total is at least
zero and at most the majorant, wherever the temperature is at most the cell's declared
maximum. -/
theorem C40_continuous_partial {p : Particle} {e t T : ℝ} {c : Continuous}
    {v : ContinuousReaction → ℝ} (hp : Thermal p e t T) (hc : GoodContinuous p e t c v) :
    ∃ S M, c.getTotal p = .ok S ∧ c.getMajorant p = .ok M ∧ 0 ≤ S ∧ S ≤ M := by
  have hr : ∀ r, ∃ a b m, r ∈ c.reactions → r.getCrossSection p = .ok a ∧
      r.getMajorant p = .ok b ∧ r.modifiesTotal p = .ok m ∧ 0 ≤ a ∧ a ≤ b ∧ (m = false → v r ≤ b) := by
    intro r
    by_cases h : r ∈ c.reactions
    · obtain ⟨a, b, m, h'⟩ := reaction_bounds hp (hc.reactions r h)
      exact ⟨a, b, m, fun _ => h'⟩
    · exact ⟨0, 0, false, fun h' => absurd h' h⟩
  choose a b m hr using hr
  obtain ⟨ht, hT⟩ := temperature_of hp
  have hm := anyModifies_eq (p := p) (m := m) (rs := c.reactions) (fun r h => (hr r h).2.2.1)
  have ha := sumLoop_ok (f := fun r => ContinuousReaction.getCrossSection r p) (w := a) (acc := 0)
    (xs := c.reactions) (fun r h => (hr r h).1)
  have hb := sumLoop_ok (f := fun r => ContinuousReaction.getMajorant r p) (w := b) (acc := 0)
    (xs := c.reactions) (fun r h => (hr r h).2.1)
  rw [zero_add] at ha hb
  have hab : (c.reactions.map a).sum ≤ (c.reactions.map b).sum :=
    List.sum_le_sum (fun r h => (hr r h).2.2.2.2.1)
  have ha0 : 0 ≤ (c.reactions.map a).sum := by
    refine List.sum_nonneg fun x hx => ?_
    obtain ⟨r, h, rfl⟩ := List.mem_map.1 hx
    exact (hr r h).2.2.2.1
  have hv0 : 0 ≤ (c.reactions.map v).sum := by
    refine List.sum_nonneg fun x hx => ?_
    obtain ⟨r, h, rfl⟩ := List.mem_map.1 hx
    exact (hc.reactions r h).nonneg
  have htab : ContinuousReaction.tabulated c.total p = .ok (c.reactions.map v).sum := by
    unfold ContinuousReaction.tabulated
    rw [hp.energy]
    exact hc.total
  unfold Continuous.getTotal Continuous.getMajorant
  simp only [ht, hT, bind, Except.bind, hm]
  rw [ha, hb, htab]
  cases hany : c.reactions.any m
  · have hvb : (c.reactions.map v).sum ≤ (c.reactions.map b).sum := by
      refine List.sum_le_sum fun r h => ?_
      refine (hr r h).2.2.2.2.2 ?_
      rw [List.any_eq_false] at hany
      simpa using hany r h
    cases hvT : c.total.isValid T
    · cases hvt : c.total.isValid t
      · exact ⟨_, _, rfl, rfl, ha0, hab⟩
      · exact ⟨_, _, rfl, rfl, hv0, hvb⟩
    · rw [isValid_mono hc.temperature hp.bound hvT]
      exact ⟨_, _, rfl, rfl, hv0, le_refl _⟩
  · exact ⟨_, _, rfl, rfl, ha0, hab⟩

/-- What a nuclide offers to the particle: multigroup data with a non-negative total, or good
continuous-energy data. -/
def GoodNuclide (p : Particle) (e t : ℝ) (n : Nuclide) : Prop :=
  (∃ m σ, n.xs p.type = some (.multigroup m) ∧ m.getTotal p = .ok σ ∧ 0 ≤ σ) ∨
  ∃ c v, n.xs p.type = some (.continuous c) ∧ GoodContinuous p e t c v

theorem goodNuclide_bounds {p : Particle} {e t T : ℝ} {n : Nuclide} (hp : Thermal p e t T)
    (h : GoodNuclide p e t n) :
    ∃ S M, n.getTotal p = .ok S ∧ n.getMajorant p = .ok M ∧ 0 ≤ S ∧ S ≤ M := by
  unfold Nuclide.getTotal Nuclide.getMajorant Nuclide.xsAt
  rcases h with ⟨m, σ, h1, h2, h3⟩ | ⟨c, v, h1, h2⟩
  · have h4 : m.getMajorant p = .ok σ := h2
    refine ⟨σ, σ, ?_, ?_, h3, le_refl _⟩ <;>
      simp only [h1, bind, Except.bind, Interaction.getTotal, Interaction.getMajorant, h2, h4,
        noexcept_ok]
  · obtain ⟨S, M, h3, h4, h5, h6⟩ := C40_continuous_partial hp h2
    refine ⟨S, M, ?_, ?_, h5, h6⟩ <;>
      simp only [h1, bind, Except.bind, Interaction.getTotal, Interaction.getMajorant, h3, h4,
        noexcept_ok]

/-- **C40** In a material of such nuclides the total lies between zero and the majorant, and the
probability of accepting a tentative collision is between zero and one. -/
theorem C40_acceptance_partial {p : Particle} {e t T : ℝ} {c : Cell} {m : Material}
    (hp : Thermal p e t T) (hc : p.cell = some c) (hm : c.material = some m)
    (hn : ∀ x ∈ m.afracs, 0 ≤ x.2 ∧ GoodNuclide p e t x.1) :
    ∃ S M, m.getMicroscopicTotal p = .ok S ∧ m.getMicroscopicMajorant p = .ok M ∧ 0 ≤ S ∧ S ≤ M ∧
      (M ≠ 0 → ∃ a, acceptance p = .ok a ∧ 0 ≤ a ∧ a ≤ 1 ∧ a * M = S) := by
  have hr : ∀ n : Nuclide, ∃ S M, (∃ x ∈ m.afracs, x.1 = n) →
      n.getTotal p = .ok S ∧ n.getMajorant p = .ok M ∧ 0 ≤ S ∧ S ≤ M := by
    intro n
    by_cases h : ∃ x ∈ m.afracs, x.1 = n
    · obtain ⟨x, hx, rfl⟩ := h
      obtain ⟨S, M, h'⟩ := goodNuclide_bounds hp (hn x hx).2
      exact ⟨S, M, fun _ => h'⟩
    · exact ⟨0, 0, fun h' => absurd h' h⟩
  choose s b hr using hr
  have hS := (C23_weighted_mean m p s).1 (fun x hx => (hr x.1 ⟨x, hx, rfl⟩).1)
  have hM := (C23_weighted_mean m p b).2 (fun x hx => (hr x.1 ⟨x, hx, rfl⟩).2.1)
  have h0 : 0 ≤ (m.afracs.map (fun x => x.2 * s x.1)).sum := by
    refine List.sum_nonneg fun y hy => ?_
    obtain ⟨x, hx, rfl⟩ := List.mem_map.1 hy
    exact mul_nonneg (hn x hx).1 (hr x.1 ⟨x, hx, rfl⟩).2.2.1
  have hle : (m.afracs.map (fun x => x.2 * s x.1)).sum ≤ (m.afracs.map (fun x => x.2 * b x.1)).sum :=
    List.sum_le_sum fun x hx => mul_le_mul_of_nonneg_left (hr x.1 ⟨x, hx, rfl⟩).2.2.2 (hn x hx).1
  refine ⟨_, _, hS, hM, h0, hle, fun hne => ?_⟩
  have hpos : 0 < (m.afracs.map (fun x => x.2 * b x.1)).sum :=
    lt_of_le_of_ne (h0.trans hle) (Ne.symm hne)
  refine ⟨_, ?_, div_nonneg h0 hpos.le, (div_le_one hpos).2 hle, div_mul_cancel₀ _ hne⟩
  unfold acceptance Particle.getCell
  rw [hc]
  simp only [bind, Except.bind, hm, hS, hM]
  rw [if_neg hne]

/-- A nuclide that only captures, with the given table and total at 300 K. -/
def capturer (reaction total : ℝ) : Nuclide :=
  ⟨0, "n", fun _ => some (.continuous ⟨[.capture ⟨[(1, reaction)], 300⟩], ⟨[(1, total)], 300⟩⟩)⟩

/-- A neutron at a place of 300 K in a cell that is up to 600 K hot. -/
noncomputable def warmNeutron (n : Nuclide) : Particle where
  indirectEffects := []
  secondaries := []
  position := ⟨0, 0, 0⟩
  direction := ⟨1, 0, 0⟩
  energy := .continuous 1
  cell := some ⟨"c", [], some ⟨"m", [(n, 1)], 1⟩, .linear 600 300 ⟨1, 0, 0⟩ 300⟩
  rng := 1
  type := .neutron
  event := .birth
  currentSurface := none

theorem warmNeutron_thermal (n : Nuclide) : Thermal (warmNeutron n) 1 300 600 where
  energy := rfl
  cell := ⟨_, rfl, by simp [ScalarField.at', Point.dot, warmNeutron], rfl⟩
  positive := by norm_num
  nonneg := by norm_num
  bound := by norm_num

theorem one_entry_at (k v x : ℝ) : ContinuousMap.at' [(k, v)] x = .ok v := by
  unfold ContinuousMap.at'
  by_cases h : k ≤ x <;> simp [h]

/-- Instance of the hypotheses of C40, with a reaction table of 2. -/
example : GoodContinuous (warmNeutron (capturer 2 2)) 1 300
    ⟨[.capture ⟨[(1, 2)], 300⟩], ⟨[(1, 2)], 300⟩⟩ (fun _ => 2) where
  reactions := by
    intro r hr
    rw [List.mem_singleton.1 hr]
    refine ⟨one_entry_at _ _ _, by norm_num, by norm_num [ContinuousReaction.evaluation], ?_, ?_⟩
    · intro _ _ _ h; cases h
    · intro _ _ _ h; cases h
  temperature := by norm_num
  total := by simpa using one_entry_at 1 2 1

/-- Instance with free-gas scattering, where the majorant is strictly above the total. -/
example (n : Nuclide) : GoodReaction (warmNeutron n) 1 300
    (.scatter ⟨[(1, 2)], 300⟩ none 1) 2 where
  table := one_entry_at _ _ _
  nonneg := by norm_num
  temperature := by norm_num [ContinuousReaction.evaluation]
  mass := by intro _ _ _ h; cases h; norm_num
  thermal := by intro _ _ _ h; cases h

/-- The code violates C40 when the tabulated total exceeds the sum of the tabulated reactions:
the total table is used where the cell is cold, the sum of the reactions for the majorant. -/
theorem C40_inconsistent_total_violated : ∃ p : Particle, ∃ c m,
    p.cell = some c ∧ c.material = some m ∧ m.getMicroscopicTotal p = .ok 2 ∧
      m.getMicroscopicMajorant p = .ok 1 ∧ acceptance p = .ok 2 := by
  have hT : (capturer 1 2).getTotal (warmNeutron (capturer 1 2)) = .ok 2 := by
    unfold Nuclide.getTotal Nuclide.xsAt capturer
    simp only [bind, Except.bind, Interaction.getTotal]
    unfold Continuous.getTotal
    simp only [(temperature_of (warmNeutron_thermal _)).1, bind, Except.bind,
      Continuous.anyModifies, ContinuousReaction.modifiesTotal]
    have : ContinuousEvaluation.isValid ⟨[(1, 2)], 300⟩ 300 = true := by
      unfold ContinuousEvaluation.isValid temperatureTolerance
      norm_num
    rw [this]
    simp only [Bool.false_eq_true, if_false, Bool.not_false, Bool.true_and, if_true]
    unfold ContinuousReaction.tabulated warmNeutron
    simp only [Energy.getContinuous, bind, Except.bind, one_entry_at, noexcept_ok]
  have hM : (capturer 1 2).getMajorant (warmNeutron (capturer 1 2)) = .ok 1 := by
    unfold Nuclide.getMajorant Nuclide.xsAt capturer
    simp only [bind, Except.bind, Interaction.getMajorant]
    unfold Continuous.getMajorant
    simp only [(temperature_of (warmNeutron_thermal _)).2, bind, Except.bind,
      Continuous.anyModifies, ContinuousReaction.modifiesTotal]
    have : ContinuousEvaluation.isValid ⟨[(1, 2)], 300⟩ 600 = false := by
      unfold ContinuousEvaluation.isValid temperatureTolerance
      norm_num
    rw [this]
    simp only [Bool.false_eq_true, if_false, Bool.not_false, Bool.and_false]
    unfold sumLoop sumLoop ContinuousReaction.getMajorant ContinuousReaction.tabulated warmNeutron
    simp only [Energy.getContinuous, bind, Except.bind, one_entry_at, noexcept_ok, zero_add]
  have hS := (C23_weighted_mean ⟨"m", [(capturer 1 2, 1)], 1⟩ (warmNeutron (capturer 1 2))
    (fun _ => 2)).1 (by intro x hx; rw [List.mem_singleton.1 hx]; exact hT)
  have hM' := (C23_weighted_mean ⟨"m", [(capturer 1 2, 1)], 1⟩ (warmNeutron (capturer 1 2))
    (fun _ => 1)).2 (by intro x hx; rw [List.mem_singleton.1 hx]; exact hM)
  simp only [List.map_cons, List.map_nil, List.sum_cons, List.sum_nil, one_mul, add_zero] at hS hM'
  refine ⟨warmNeutron (capturer 1 2), _, _, rfl, rfl, hS, hM', ?_⟩
  unfold acceptance Particle.getCell
  have hcell : (warmNeutron (capturer 1 2)).cell =
    some ⟨"c", [], some ⟨"m", [(capturer 1 2, 1)], 1⟩, .linear 600 300 ⟨1, 0, 0⟩ 300⟩ := rfl
  rw [hcell]
  simp only [bind, Except.bind, hS, hM']
  norm_num

/-! ## C41 -/

/-- The statement of C41. -/
def WithinTolerance (evaluated requested : ℝ) : Prop :=
  |requested - evaluated| < 0.01 * evaluated

/-- **C41** For requests at or above the temperature of the evaluation the test is as stated. -/
theorem C41_hotter_partial (ev : ContinuousEvaluation) (hT : 0 < ev.temperature) (t : ℝ)
    (h : ev.temperature ≤ t) : ev.isValid t = true ↔ WithinTolerance ev.temperature t := by
  unfold ContinuousEvaluation.isValid WithinTolerance temperatureTolerance
  rw [if_neg hT.ne', abs_of_nonneg (by linarith), decide_eq_true_eq, div_lt_iff₀ hT]

/-- **C41** Whatever is within the tolerance is declared valid. -/
theorem C41_near_partial (ev : ContinuousEvaluation) (hT : 0 < ev.temperature) (t : ℝ)
    (h : WithinTolerance ev.temperature t) : ev.isValid t = true := by
  unfold WithinTolerance at h
  unfold ContinuousEvaluation.isValid temperatureTolerance
  rw [if_neg hT.ne', decide_eq_true_eq, div_lt_iff₀ hT]
  exact lt_of_le_of_lt (le_abs_self _) h

/-- The code violates C41: an evaluation is declared valid for every lower temperature. -/
theorem C41_colder_violated (ev : ContinuousEvaluation) (hT : 0 < ev.temperature) (t : ℝ)
    (h : t < 0.99 * ev.temperature) :
    ev.isValid t = true ∧ ¬ WithinTolerance ev.temperature t := by
  constructor
  · unfold ContinuousEvaluation.isValid temperatureTolerance
    rw [if_neg hT.ne', decide_eq_true_eq, div_lt_iff₀ hT]
    nlinarith
  · unfold WithinTolerance
    rw [abs_of_neg (by linarith)]
    linarith

/-- Witness: an evaluation for 300 K is used at 100 K. -/
theorem C41_violated : ∃ ev : ContinuousEvaluation, ev.temperature = 300 ∧ ev.isValid 100 = true ∧
    ¬ WithinTolerance 300 100 :=
  ⟨⟨[(1, 2)], 300⟩, rfl, C41_colder_violated ⟨[(1, 2)], 300⟩ (by norm_num) 100 (by norm_num)⟩

/-- An evaluation at absolute zero is never declared valid, not even for absolute zero. -/
theorem C41_zero_violated (xs : ContinuousMap) :
    ContinuousEvaluation.isValid ⟨xs, 0⟩ 0 = false := by
  simp [ContinuousEvaluation.isValid]

/-- As a consequence of C41 being violated, scattering in material colder than the evaluation uses
the hot table, although the free gas cross section is smaller. -/
theorem C41_cold_scatter_violated {awr e v : ℝ} (ha : 0 < awr) (he : 0 < e) (hv : 0 < v)
    {xs : ContinuousMap} (hx : xs.at' e = .ok v) {T t : ℝ} (ht : 0 ≤ t) (h : t < T) {p : Particle}
    (hp : p.energy = .continuous e) :
    ContinuousReaction.scatterXSAt ⟨xs, T⟩ awr p t = .ok v ∧
      ∃ a a', freeGasAdjustment awr e T = .ok a ∧ freeGasAdjustment awr e t = .ok a' ∧
        v / a * a' < v := by
  have hT : 0 < T := lt_of_le_of_lt ht h
  constructor
  · rw [scatterXSAt_eq (ev := ⟨xs, T⟩) hp he ha ht hT.le hx]
    unfold scatterValue
    rw [if_neg]
    rintro ⟨h1, -⟩
    have : ContinuousEvaluation.isValid ⟨xs, T⟩ t = true := by
      unfold ContinuousEvaluation.isValid temperatureTolerance
      rw [if_neg hT.ne', decide_eq_true_eq, div_lt_iff₀ hT]
      simp only
      nlinarith
    rw [this] at h1
    cases h1
  · refine ⟨_, _, freeGasAdjustment_eq ha he hT.le, freeGasAdjustment_eq ha he ht, ?_⟩
    have h1 : 1 ≤ adjV awr e T := one_le_adjV ha he hT.le
    have h2 : adjV awr e t < adjV awr e T := by
      unfold adjV
      rw [if_neg hT.ne']
      split_ifs with h0
      · exact one_lt_adj (adjArg_pos ha he hT)
      · have ht' : 0 < t := lt_of_le_of_ne ht (Ne.symm h0)
        refine adj_strictAnti (adjArg_pos ha he hT) (adjArg_pos ha he ht') ?_
        have hb := boltzmann_pos
        refine Real.sqrt_lt_sqrt (by positivity) ?_
        refine mul_lt_mul_of_pos_left ?_ ha
        exact div_lt_div_of_pos_left he (by positivity) (mul_lt_mul_of_pos_left h hb)
    rw [div_mul_eq_mul_div, div_lt_iff₀ (by linarith)]
    exact mul_lt_mul_of_pos_left h2 hv

end Minimc.Props
