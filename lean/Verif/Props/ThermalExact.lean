import Verif.Props.Search
import Verif.Props.ThermalLaw

/-! # Property C84: neutrons with exactly a tabulated energy, and an example -/

namespace Minimc.Props

open Classical Spec

theorem chosen_index {s : ThermalScattering} {t : ℝ} {L M : List (ℝ × Curve)}
    (h : Holding s t L M) {e b u : ℝ} (hu0 : 0 ≤ u) (hu1 : u < 1) {x : ℝ × Curve}
    (hx : Chosen M s.betaCutoff e t b u x) :
    ∃ g, M[g]? = some x ∧ s.alphaIndex b e t u = .ok g := by
  have hpos : ∀ {g : ℕ} {x : ℝ × Curve}, M[g]? = some x → s.betas[g]? = some x.1 := by
    intro g x hx
    rw [h.betas, List.getElem?_map, hx]
    rfl
  have hup := (List.pairwise_cons.1 h.betasUp).2
  cases hx with
  | @lower i x y h1 h2 h3 h4 h5 =>
    refine ⟨i, h1, ?_⟩
    by_cases hf : Barred s.betaCutoff e t b y.1
    · exact C46_forced_partial hup (hpos h1) (hpos h2) h3 h4 hf hu0
    · rw [alphaIndex_between (s := s) (t := t) (e := e) hup (hpos h1) (hpos h2) h3 h4 hf u,
        if_pos (h5.resolve_left hf)]
  | @upper i x y h1 h2 h3 h4 h5 h6 =>
    refine ⟨i + 1, h2, ?_⟩
    rw [alphaIndex_between (s := s) (t := t) (e := e) hup (hpos h1) (hpos h2) h3 h4 h5 u,
      if_neg (not_le.2 h6)]
  | lowest h1 h2 h3 => exact ⟨0, h1, C46_lowest_partial (List.pairwise_cons.1 h.betasUp).2 (hpos h1) h2 h3 hu1⟩

theorem alphaLoop_stuck {s : ThermalScattering} {P : Partition} {row : ℕ} {t : ℝ} {c : Curve}
    (h : Row P row t c.n c.f c.v) (hs : c.Sound 0 s.alphaCutoff) {f a : ℝ}
    (ha : c.At 0 s.alphaCutoff f a) (b e : ℝ) : ∀ (n : ℕ) (p : Particle),
    s.alphaLoop P row b a a f f e t n p = .error .runtimeError
  | 0, _ => rfl
  | n + 1, p => by
    rw [ThermalScattering.alphaLoop]
    simp only [bind, Except.bind, sub_self, mul_zero, add_zero, inverseCdf_eq h hs ha]
    rw [if_neg (fun h => lt_irrefl _ h.1)]
    exact alphaLoop_stuck h hs ha b e n p.sample.2

/-- **C84 is violated** for a neutron whose energy is exactly a tabulated energy transfer, whenever
the distribution stored for that transfer is chosen for a neutron that loses energy: only one
momentum transfer is possible there, ten times a value strictly between it and itself is looked for,
and the code gives up. -/
theorem C84_exact_violated {maj xsT xsS xsE : DataSet} {bp ap : List Partition} {bc ac awr : ℝ}
    {s : ThermalScattering}
    (hc : ThermalScattering.create maj xsT xsS xsE bp ap bc ac awr = .ok s) {t : ℝ}
    {L M : List (ℝ × Curve)} (hL : Tabulates bp t L) (hM : Tabulates ap t M) (ht : 0 < t)
    (hA : 0 < awr) {e b : ℝ} (he : 0 < e) (hb : b < 0) {x : ℝ × Curve}
    (hx : x.1 = e / (boltzmann * t)) (hs : x.2.Sound 0 ac) (htop : mostMomentum awr e t 0 < ac)
    {p : Particle} (hr : Rng.Valid p.rng) (hch : Chosen M bc e t b (drawn p.rng 0) x) :
    s.sampleAlpha p b e t = .error .runtimeError := by
  obtain ⟨h, rfl, rfl, rfl⟩ := holding hc hL hM
  have hkt : 0 < boltzmann * t := mul_pos boltzmann_pos ht
  have hK : 0 < s.awr * boltzmann * t := mul_pos (mul_pos hA boltzmann_pos) ht
  obtain ⟨g, hg, hidx⟩ := chosen_index h (Rng.canonical_pos hr).le (Rng.canonical_lt_one hr) hch
  obtain ⟨k, i, P, k1, k2, k3⟩ := h.momentum (x := x.1) (c := x.2) hg
  have hbg : s.betas[g]? = some x.1 := by rw [h.betas, List.getElem?_map, hg]; rfl
  set bS := Real.sign b * x.1 with hbS
  have hzero : e + bS * boltzmann * t = 0 := by
    rw [hbS, Real.sign_of_neg hb, hx, mul_assoc, neg_one_mul, neg_mul, div_mul_cancel₀ _ hkt.ne']
    ring
  obtain ⟨m1, m2⟩ := alphaBounds (s := s) ht hA he.le hzero.ge
  have heq : leastMomentum s.awr e t bS = mostMomentum s.awr e t bS := by
    unfold leastMomentum mostMomentum
    rw [hzero, Real.sqrt_zero, sub_zero, add_zero]
  have hx0 : 0 ≤ x.1 := by rw [hx]; exact (div_pos he hkt).le
  have hmost : mostMomentum s.awr e t bS < s.alphaCutoff := by
    refine (mostMomentum_mono hA ht ?_).trans_lt htop
    rw [hbS, Real.sign_of_neg hb]
    linarith
  have h0 : 0 ≤ mostMomentum s.awr e t bS := div_nonneg (sq_nonneg _) hK.le
  obtain ⟨f, hf⟩ := Curve_at_exists hs h0 hmost
  have hidx' : s.alphaIndex b e t p.sample.1 = .ok g := hidx
  unfold ThermalScattering.sampleAlpha
  simp only [hidx', bind, Except.bind, vecAt_eq_ok hbg, sgn_eq, ← hbS, m1, m2, k1, vecAt_eq_ok k2]
  rw [if_neg (not_not.2 hmost), heq]
  simp only [findCdf_eq k3 hs hf]
  exact alphaLoop_stuck k3 hs hf b e alphaResampleLimit p.sample.2

/-! ## An example -/

/-- A partition with rows `rows`, two temperatures around `1 / k` and the value `v` at cumulative
probability one half, of rank one. -/
noncomputable def flat (rows : List ℝ) (v : ℝ) : Partition :=
  ⟨⟨[[0.5], [0]], [2]⟩, ⟨[[0]], [3]⟩,
    ⟨[rows, [1 / (2 * boltzmann), 2 / boltzmann], [0]], List.replicate (rows.length * 2) (v / 6)⟩⟩

/-- The distribution with the median `v`. -/
noncomputable def half (v : ℝ) : Curve := ⟨1, fun _ => 0.5, fun _ => v⟩

theorem flat_table (rows : List ℝ) (v : ℝ) :
    PartitionTable (flat rows v) [0.5] rows [1 / (2 * boltzmann), 2 / boltzmann]
      (fun _ _ _ => v) := by
  have hb := boltzmann_pos
  refine ⟨?_, [0], [0], [0], fun _ => 3, fun _ _ => 2, fun _ _ _ => v / 6, rfl, rfl, ?_, ?_, ?_, ?_⟩
  · simp only [List.pairwise_cons, List.mem_singleton, forall_eq, List.not_mem_nil, false_imp_iff,
      implies_true, List.Pairwise.nil, and_true]
    rw [div_lt_div_iff₀ (by linarith) hb]
    linarith
  · exact holds1 (f := fun _ => 3) (by intro i hi; simp at hi; subst hi; rfl)
  · refine holds2 (f := fun _ _ => 2) ?_
    intro i hi j hj
    simp at hi hj
    subst hi hj
    rfl
  · refine holds3 (f := fun _ _ _ => v / 6) ?_
    intro i hi j hj k hk
    simp only [List.length_cons, List.length_nil] at hj hk
    rw [List.getElem?_replicate, if_pos]
    simp only [List.length_cons, List.length_nil]
    omega
  · intro f i j
    simp only [List.length_singleton, Finset.sum_range_one]
    ring

theorem flat_rows (rows : List ℝ) (v : ℝ) :
    RowsAt (flat rows v) (1 / boltzmann) (rows.map fun r => (r, half v)) := by
  have hb := boltzmann_pos
  refine ⟨_, _, _, _, 0, _, _, flat_table rows v, rfl, rfl, ?_, ?_, ?_, ?_⟩
  · rw [div_le_div_iff₀ (by linarith) hb]; linarith
  · rw [div_lt_div_iff_of_pos_right hb]; norm_num
  · rw [List.map_map]
    simp [Function.comp_def]
  · intro i x c hi
    rw [List.getElem?_map, Option.map_eq_some_iff] at hi
    obtain ⟨_, _, hi⟩ := hi
    cases hi
    refine ⟨rfl, ?_, ?_⟩
    · intro k hk
      have : k = 0 := by simp only [half] at hk; omega
      subst this
      rfl
    · intro k _
      simp only [half, mix]
      ring

/-- Two partitions of incident energies, two of energy transfers. -/
noncomputable def energyParts : List Partition := [flat [4] 1, flat [20] 1]
noncomputable def momentumParts : List Partition := [flat [1, 9] 18, flat [12] 18]
noncomputable def energyRows : List (ℝ × Curve) := [(4, half 1), (20, half 1)]
noncomputable def momentumRows : List (ℝ × Curve) := [(1, half 18), (9, half 18), (12, half 18)]

theorem energyParts_tabulate : Tabulates energyParts (1 / boltzmann) energyRows :=
  ⟨[_, _], .cons (flat_rows [4] 1) (.cons (flat_rows [20] 1) .nil), rfl⟩

theorem momentumParts_tabulate : Tabulates momentumParts (1 / boltzmann) momentumRows :=
  ⟨[_, _], .cons (flat_rows [1, 9] 18) (.cons (flat_rows [12] 18) .nil), rfl⟩

/-- Thermal data with transfers from the example, energy cutoff 10, largest momentum transfer 60. -/
theorem exampleTables_created : ∃ s, ThermalScattering.create ⟨[[1]], [1]⟩ ⟨[], []⟩ ⟨[], []⟩
    ⟨[[4, 20]], [1, 1]⟩ energyParts momentumParts 10 60 1 = .ok s := by
  have h1 : DataSet.toContinuousMap ⟨[[1]], [1]⟩ = .ok [(1, 1)] := by
    simp [DataSet.toContinuousMap, DataSet.toMapLoop, DataSet.at', DataSet.atFromBase, vecAt,
      bind, Except.bind, ContinuousMap.set]
  have h2 : ThermalScattering.concatRows energyParts = .ok [4, 20] := rfl
  have h3 : ThermalScattering.concatRows momentumParts = .ok [1, 9, 12] := rfl
  have h4 : ThermalScattering.partitionEnds 0 energyParts = .ok [1, 2] := rfl
  have h5 : ThermalScattering.partitionEnds 0 momentumParts = .ok [2, 3] := rfl
  have h6 : ThermalScattering.assertIncreasing 0 [4, 20] = .ok () := by
    norm_num [ThermalScattering.assertIncreasing]
  have h7 : ThermalScattering.assertIncreasing 0 [1, 9, 12] = .ok () := by
    norm_num [ThermalScattering.assertIncreasing]
  have h8 : DataSet.getAxis ⟨[[4, 20]], [1, 1]⟩ 0 = .ok [4, 20] := rfl
  unfold ThermalScattering.create
  simp only [h1, h2, h3, h4, h5, h6, h7, h8, bind, Except.bind]
  exact ⟨_, rfl⟩

/-- Instance of `C85_grids`. -/
example {s : ThermalScattering} (hc : ThermalScattering.create ⟨[[1]], [1]⟩ ⟨[], []⟩ ⟨[], []⟩
    ⟨[[4, 20]], [1, 1]⟩ energyParts momentumParts 10 60 1 = .ok s) :
    upperIdx s.betas 9 = countNotAbove s.betas 9 := (C85_grids hc 9).2

theorem half_sound {lo hi v : ℝ} (h1 : lo < v) (h2 : v < hi) : (half v).Sound lo hi := by
  intro k hk
  simp only [half] at hk
  interval_cases k
  · exact ⟨by norm_num [knot, half], by simpa [knot, half] using h1⟩
  · exact ⟨by norm_num [knot, half], by simpa [knot, half] using h2⟩

theorem allLost_one (e : ℝ) : allLost e (1 / boltzmann) = -e := by
  unfold allLost
  rw [kT_one, div_one]

theorem example_neighbours {e : ℝ} (h1 : 4 ≤ e) (h2 : e < 20) :
    Neighbours energyRows e (weight 4 20 e) (4, half 1) (20, half 1) :=
  Neighbours.between (L := energyRows) (i := 0) (x := (4, half 1)) (y := (20, half 1)) rfl rfl h1 h2

theorem example_energy_sound {e : ℝ} (he : 0 < e) : (half 1).Sound (allLost e (1 / boltzmann)) 10 := by
  rw [allLost_one]
  exact half_sound (by linarith) (by norm_num)

theorem example_most {e b : ℝ} : mostMomentum 1 e (1 / boltzmann) b =
    (Real.sqrt e + Real.sqrt (e + b)) ^ 2 := by
  unfold mostMomentum
  rw [one_mul, mul_assoc, kT_one, mul_one, div_one]

/-- Neutrons with energies between 4 and 9. -/
theorem example_most_lt {e b : ℝ} (h2 : e ≤ 9) (hb : b ≤ 10) :
    mostMomentum 1 e (1 / boltzmann) b < 60 := by
  rw [example_most]
  have h3 : Real.sqrt e ≤ 3 := Real.sqrt_le_iff.2 ⟨by norm_num, by linarith⟩
  have h4 : Real.sqrt (e + b) ≤ 4.5 := Real.sqrt_le_iff.2 ⟨by norm_num, by linarith⟩
  have h5 := Real.sqrt_nonneg e
  have h6 := Real.sqrt_nonneg (e + b)
  nlinarith

theorem example_serves {e : ℝ} (h1 : 4 ≤ e) (h2 : e < 9) :
    Serves momentumRows 10 60 1 e (1 / boltzmann) where
  first := ⟨_, rfl, by norm_num, by rw [kT_one]; norm_num; linarith⟩
  last := ⟨(12, half 18), by simp [momentumRows], by norm_num, by rw [kT_one]; norm_num; linarith⟩
  off := by
    rw [kT_one, div_one]
    intro x hx
    simp only [momentumRows, List.mem_cons, List.not_mem_nil, or_false] at hx
    rcases hx with rfl | rfl | rfl
    · exact (by linarith : (1 : ℝ) < e).ne
    · exact (h2 : e < 9).ne'
    · exact (by linarith : e < 12).ne'
  momentum := example_most_lt h2.le le_rfl
  sound := by
    intro x hx
    simp only [momentumRows, List.mem_cons, List.not_mem_nil, or_false] at hx
    rcases hx with rfl | rfl | rfl <;> exact half_sound (by norm_num) (by norm_num)

/-- Instance of `C84_outcome_partial`. -/
example {s : ThermalScattering} (hc : ThermalScattering.create ⟨[[1]], [1]⟩ ⟨[], []⟩ ⟨[], []⟩
    ⟨[[4, 20]], [1, 1]⟩ energyParts momentumParts 10 60 1 = .ok s) :
    s.scatter thermalNeutron = .error .runtimeError ∨ s.scatter thermalNeutron = .error .nan ∨
      ∃ p, s.scatter thermalNeutron = .ok p := by
  have hv : Rng.Valid thermalNeutron.rng := by
    show 1 ≤ 5 ∧ 5 ≤ 2147483646
    omega
  rcases C84_outcome_partial hc energyParts_tabulate momentumParts_tabulate
    (div_pos one_pos boltzmann_pos) one_pos (by norm_num : (0 : ℝ) < 4)
    (example_neighbours le_rfl (by norm_num)) (example_energy_sound (by norm_num))
    (example_energy_sound (by norm_num)) (example_serves le_rfl (by norm_num)) (p := thermalNeutron) hv
    (by norm_num [UnitVec, thermalNeutron]) rfl rfl with
    ⟨_, h⟩ | ⟨_, _, _, _, _, ⟨_, h⟩ | ⟨_, _, _, _, _, _, _, _, _, h⟩⟩
  · exact Or.inl h
  · exact Or.inr (Or.inl h)
  · exact Or.inr (Or.inr ⟨_, h⟩)

/-- Cumulative probability of losing all the energy, in the distribution stored for 20. -/
theorem example_lost : (half 1).At (allLost 20 (1 / boltzmann)) 10 (1 / 2 * (8 / 21))
    (allLost 12 (1 / boltzmann)) := by
  rw [allLost_one, allLost_one]
  exact ⟨0, by norm_num [half], by norm_num [knot, half], by norm_num [knot, half],
    by norm_num [knot, half, line]⟩

/-- Instance of `C84_gives_up`: halfway between 4 and 20. -/
example : uniforms {us | NoTransfer (weight 4 20 12) (20, half 1) 12 (1 / boltzmann) 10 us} =
    ENNReal.ofReal (1 / 2 * (4 / 21) ^ 10) := by
  rw [C84_gives_up (example_neighbours (by norm_num) (by norm_num))
    (example_energy_sound (by norm_num)) example_lost]
  norm_num [weight]

/-- Instance of `C84_energy_law`: the median of both distributions. -/
example : uniforms {us | ∃ k b, EnergyTransfer (weight 4 20 12) (4, half 1) (20, half 1) 12
      (1 / boltzmann) 10 us k b ∧ b ≤ 1} =
    ENNReal.ofReal (1 / 4 + 1 / 2 * ((∑ k ∈ Finset.range 10, (4 / 21) ^ k) * (1 / 2 - 4 / 21))) := by
  have hm : ∀ x : ℝ, 0 < x → (half 1).At (allLost x (1 / boltzmann)) 10 0.5 1 := fun x hx =>
    ⟨1, le_rfl, by norm_num [knot, half], by norm_num [knot, half], by norm_num [knot, half, line]⟩
  rw [C84_energy_law (example_neighbours (by norm_num) (by norm_num))
    (example_energy_sound (by norm_num)) (example_energy_sound (by norm_num)) example_lost
    (by rw [allLost_one]; norm_num) (Or.inr (Or.inl (hm 4 (by norm_num))))
    (Or.inr (Or.inl (hm 20 (by norm_num))))]
  norm_num [weight]

/-- Instance of `C84_keeps_energy`. -/
example : uniforms {us | ∃ k, EnergyTransfer (weight 4 20 12) (4, half 1) (20, half 1) 12
    (1 / boltzmann) 10 us k (allLost 12 (1 / boltzmann))} = 0 :=
  C84_keeps_energy (div_pos one_pos boltzmann_pos) (example_neighbours (by norm_num) (by norm_num))
    (example_energy_sound (by norm_num)) (example_energy_sound (by norm_num)) example_lost

/-- Instance of `C84_energy_transfer`. -/
example {s : ThermalScattering} (hc : ThermalScattering.create ⟨[[1]], [1]⟩ ⟨[], []⟩ ⟨[], []⟩
    ⟨[[4, 20]], [1, 1]⟩ energyParts momentumParts 10 60 1 = .ok s) :
    s.sampleBeta thermalNeutron 12 (1 / boltzmann) = .error .runtimeError ∨
      ∃ b p, s.sampleBeta thermalNeutron 12 (1 / boltzmann) = .ok (b, p) := by
  rcases C84_energy_transfer hc energyParts_tabulate momentumParts_tabulate
    (div_pos one_pos boltzmann_pos) (example_neighbours (e := 12) (by norm_num) (by norm_num))
    (example_energy_sound (by norm_num)) (example_energy_sound (by norm_num)) (p := thermalNeutron)
    ⟨by show 1 ≤ 5; omega, by show 5 ≤ 2147483646; omega⟩ with ⟨_, b, _, h⟩ | ⟨_, h⟩
  · exact Or.inr ⟨b, _, h⟩
  · exact Or.inl h

/-- Instance of `C84_momentum_transfer`: a neutron that loses half of its energy. -/
example {s : ThermalScattering} (hc : ThermalScattering.create ⟨[[1]], [1]⟩ ⟨[], []⟩ ⟨[], []⟩
    ⟨[[4, 20]], [1, 1]⟩ energyParts momentumParts 10 60 1 = .ok s) :
    ∃ α, MomentumTransfer momentumRows 10 60 1 4 (1 / boltzmann) (-2) (drawn 5 0) (drawn 5 1) α ∧
      s.sampleAlpha thermalNeutron (-2) 4 (1 / boltzmann) =
        .ok (α, { thermalNeutron with rng := Rng.next^[4] 5 }) :=
  C84_momentum_transfer hc energyParts_tabulate momentumParts_tabulate
    (div_pos one_pos boltzmann_pos) one_pos (by norm_num) (example_serves le_rfl (by norm_num))
    (by rw [allLost_one]; norm_num) (by norm_num) (p := thermalNeutron)
    ⟨by show 1 ≤ 5; omega, by show 5 ≤ 2147483646; omega⟩

/-- A neutron of energy `9 kT` in the state 7 of the generator. -/
noncomputable def exactNeutron : Particle :=
  { thermalNeutron with energy := .continuous 9, rng := 7 }

theorem draw7 : 0.5 < drawn 7 0 ∧ drawn 7 1 < 0.25 := by
  have h1 : Rng.next 7 = 337897 := by decide
  have h2 : Rng.next 337897 = 1278240558 := by decide
  have h3 : Rng.next 1278240558 = 449829614 := by decide
  have h4 : Rng.next 449829614 = 518142577 := by decide
  have e1 : Rng.next^[2 * 1] 7 = 1278240558 := by
    show Rng.next (Rng.next 7) = _
    rw [h1, h2]
  constructor
  · show _ < (Rng.canonical 7).1
    unfold Rng.canonical Rng.range
    simp only [h1, h2]
    norm_num
  · unfold drawn
    rw [e1]
    unfold Rng.canonical Rng.range
    simp only [h3, h4]
    norm_num

/-- **C84 is violated**: this neutron can afford the energy transfer that is selected, the tables
serve it in all other respects, and the code gives up. -/
theorem C84_violated : ¬ ∀ (maj xsT xsS xsE : DataSet) (bp ap : List Partition) (bc ac awr : ℝ)
    (s : ThermalScattering) (t : ℝ) (L M : List (ℝ × Curve)) (e w : ℝ) (x y : ℝ × Curve)
    (p : Particle), ThermalScattering.create maj xsT xsS xsE bp ap bc ac awr = .ok s →
    Tabulates bp t L → Tabulates ap t M → 0 < t → 0 < awr → 0 < e → Neighbours L e w x y →
    x.2.Sound (allLost x.1 t) bc → y.2.Sound (allLost y.1 t) bc →
    (∃ x, M[0]? = some x ∧ x.1 < bc ∧ x.1 ≤ e / (boltzmann * t)) →
    (∃ y ∈ M, bc ≤ y.1 ∧ e / (boltzmann * t) < y.1) → mostMomentum awr e t bc < ac →
    (∀ x ∈ M, x.2.Sound 0 ac) → Rng.Valid p.rng → UnitVec p.direction →
    p.energy = .continuous e → p.temperatureAt = .ok t →
    (∃ k b, EnergyTransfer w x y e t bc (drawn p.rng) k b ∧ allLost e t < b) →
    ∃ p', s.scatter p = .ok p' := by
  intro hall
  obtain ⟨s, hc⟩ := exampleTables_created
  have hv : Rng.Valid exactNeutron.rng := by
    show 1 ≤ 7 ∧ 7 ≤ 2147483646
    omega
  have ht : (0 : ℝ) < 1 / boltzmann := div_pos one_pos boltzmann_pos
  obtain ⟨d0, d1⟩ := draw7
  have d2 : 0 < drawn 7 1 := Rng.canonical_pos (Rng.valid_iterate (g := 7) hv 2)
  have hn := example_neighbours (e := 9) (by norm_num) (by norm_num)
  have hx := example_energy_sound (e := 4) (by norm_num)
  have hy := example_energy_sound (e := 20) (by norm_num)
  have hw : weight 4 20 9 ≤ drawn 7 0 := by norm_num [weight]; linarith
  have hat : (half 1).At (allLost 4 (1 / boltzmann)) 10 (drawn 7 1) (-4 + drawn 7 1 * 10) := by
    rw [allLost_one]
    refine ⟨0, by norm_num [half], ?_, ?_, ?_⟩
    · simpa [knot] using d2.le
    · simp only [knot, half]; norm_num; linarith
    · simp only [knot, half, line]; norm_num; ring
  set b := -4 + drawn 7 1 * 10 with hb
  have hET : EnergyTransfer (weight 4 20 9) (4, half 1) (20, half 1) 9 (1 / boltzmann) 10
      (drawn exactNeutron.rng) 0 b := Or.inl ⟨hw, rfl, hat⟩
  obtain ⟨p', hp'⟩ := hall _ _ _ _ _ _ _ _ _ s _ _ _ 9 _ _ _ exactNeutron hc energyParts_tabulate
    momentumParts_tabulate ht one_pos (by norm_num) hn hx hy
    ⟨_, rfl, by norm_num, by rw [kT_one]; norm_num⟩
    ⟨(12, half 18), by simp [momentumRows], by norm_num, by rw [kT_one]; norm_num⟩
    (example_most_lt le_rfl le_rfl) (example_serves (e := 4) le_rfl (by norm_num)).sound hv
    (by norm_num [UnitVec, exactNeutron, thermalNeutron]) rfl rfl
    ⟨0, b, hET, by rw [allLost_one]; linarith⟩
  have hbeta : s.sampleBeta exactNeutron 9 (1 / boltzmann) =
      .ok (b, { exactNeutron with rng := Rng.next^[4] 7 }) := by
    rcases C84_energy_transfer hc energyParts_tabulate momentumParts_tabulate ht hn hx hy hv with
      ⟨k, b', h1, h2⟩ | ⟨h1, _⟩
    · rcases h1 with ⟨_, rfl, h3⟩ | ⟨h3, _⟩
      · have : b' = b := OnCurve.unique hx h3 hat
        rw [h2, this]
        rfl
      · exact absurd hw (not_le.2 h3)
    · exact absurd hw (not_le.2 h1.1)
  have habs : |b| = -b := abs_of_neg (by linarith)
  have hv' : Rng.Valid (Rng.next^[4] 7) := Rng.valid_iterate hv 4
  have hu1 : drawn (Rng.next^[4] 7) 0 < 1 := Rng.canonical_lt_one hv'
  have halpha := C84_exact_violated hc energyParts_tabulate momentumParts_tabulate ht one_pos
    (e := 9) (b := b) (by norm_num) (by linarith) (x := (9, half 18)) (by rw [kT_one]; norm_num)
    (half_sound (by norm_num) (by norm_num)) (example_most_lt le_rfl (by norm_num))
    (p := { exactNeutron with rng := Rng.next^[4] 7 }) hv'
    (.upper (i := 0) (x := (1, half 18)) rfl rfl (by rw [habs]; simp only; linarith)
      (by rw [habs]; simp only; linarith)
      (by
        rintro (⟨h, _⟩ | ⟨_, h⟩)
        · linarith
        · rw [kT_one] at h
          norm_num at h)
      (lt_of_lt_of_le hu1 (by rw [habs]; norm_num; linarith)))
  have : s.scatter exactNeutron = .error .runtimeError := by
    unfold ThermalScattering.scatter ThermalScattering.sampleOutgoing
    have e1 : exactNeutron.energy.getContinuous = .ok 9 := rfl
    have e2 : exactNeutron.temperatureAt = .ok (1 / boltzmann) := rfl
    simp only [e1, e2, bind, Except.bind, hbeta, halpha]
  rw [this] at hp'
  cases hp'

end Minimc.Props
