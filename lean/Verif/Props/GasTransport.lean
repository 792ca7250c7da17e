import Verif.Lemmas.GasBins
import Verif.Lemmas.GasFollows
import Verif.Props.TransportEquation

/-! # Properties: the transport equation of neutrons in warm gases (C81) -/

namespace Minimc.Props

open Classical Spec MeasureTheory ProbabilityTheory
open scoped ENNReal

/-- **C81** What the current estimator counts in a history that ends is the score of the game that is
played with the generators of the source particle and of its descendants.  The axes `a` and `b` only say
from where azimuths are measured. -/
theorem C81_history : ∃ a b : Direction → Direction, Frames a b ∧
    ∀ {data : Nuclide → Continuous} {P : Problem}, GasWorld data P.world →
      EnergySource P.world P.source → Configured P.source.direction →
      ∀ {fuel h : ℕ} {states : List Particle}, P.history fuel h = .ok states →
      ∀ (surface : SurfaceObj) (bins : ParticleBins) (i : ℕ),
        ∃ q c e, P.source.sample (P.seed + h) = .ok q ∧ FirstCell P.world P.source.position c ∧
          P.source.energy = .continuous e ∧
          (crossings surface bins states i : ℝ≥0∞) =
            ⨆ n, gasScore generator a b data P.world P.method (energyHit surface bins i) n c
              P.source.position q.direction e (Rng.ofSeed q.seed) := by
  refine ⟨sideAxis, upAxis, frames_axes, ?_⟩
  intro data P hw hs hd fuel e states h surface bins i
  obtain ⟨b, b1, b2, b3, b4, b5, _⟩ := C51_source_particle P.source hd (P.seed + e)
  obtain ⟨g, g1, g2⟩ := hs.energy
  obtain ⟨c, hc, hm'⟩ := hs.place
  refine ⟨b, c, g, b1, hc, g1, ?_⟩
  unfold Problem.history at h
  rw [b1] at h
  simp only [bind, Except.bind] at h
  cases hlog : processBank (transport P.method fuel P.world) P.perturbations fuel
      [Particle.ofBorn b] with
  | error e => rw [hlog] at h; cases h
  | ok log =>
    rw [hlog] at h
    simp only [Except.ok.injEq] at h
    subst h
    obtain ⟨k0, N, k1, k2⟩ := bank_gas hw (energyHit surface bins i) fuel hlog (by
      intro p hp
      rw [List.mem_singleton] at hp
      subst hp
      exact gasReady_ofBorn ⟨b4.trans hs.type, b5, g, b3.trans g1, g2⟩)
    rw [← sum_energyHit k0]
    have hsc : ∀ n, gasPartScore data P.world P.method (energyHit surface bins i) n
        (Particle.ofBorn b) = gasScore generator sideAxis upAxis data P.world P.method
          (energyHit surface bins i) n c P.source.position b.direction g (Rng.ofSeed b.seed) := by
      intro n
      unfold gasPartScore gasFresh Particle.ofBorn
      dsimp only
      rw [b2, cellAt_of_first hc, b3, g1]
      rfl
    simp only [← hsc]
    simp only [List.map_singleton, List.sum_singleton] at k1
    refine le_antisymm (le_iSup_of_le N (k1 N le_rfl).ge) (iSup_le fun n => ?_)
    rw [← k1 (max n N) (le_max_right _ _), hsc, hsc]
    exact gasScore_monotone _ _ _ _ _ (le_max_left _ _)

variable {a b : Direction → Direction} {data : Nuclide → Continuous} {w : World}
  {hit : SurfaceObj → Direction → ℝ → ℝ≥0∞}

/-- **C81** If the numbers are independent, the mean score of `n + 1` rounds follows from that of `n`
rounds: scattering by moving atoms and fission along the flight and passage through the surface, all
attenuated. -/
theorem C81_rounds (h : Frames a b) (hw : GasWorld data w) (method : Method)
    (hh : ∀ s, Measurable fun q : Direction × ℝ => hit s q.1 q.2) {c : Cell} (hc : c ∈ w.cells) (x : Point)
    {d : Direction} (hd : UnitVec d) {e : ℝ} (he : 0 < e) :
    gasMean a b data w method hit 0 c x d e = 0 ∧
    ∀ n, gasMean a b data w method hit (n + 1) c x d e =
      gasTransported data w hit (gasMean a b data w method hit n) c x d e :=
  ⟨by simp [gasMean, gasScore], fun n => gasMean_succ h hw method hh n hc x hd he⟩

/-- **C81** The mean score of a neutron and its descendants satisfies the integral transport equation with
thermal motion and fission. -/
theorem C81_equation (h : Frames a b) (hw : GasWorld data w) (method : Method)
    (hh : ∀ s, Measurable fun q : Direction × ℝ => hit s q.1 q.2) {c : Cell} (hc : c ∈ w.cells) (x : Point)
    {d : Direction} (hd : UnitVec d) {e : ℝ} (he : 0 < e) :
    meanGas a b data w method hit c x d e =
      gasTransported data w hit (meanGas a b data w method hit) c x d e := by
  have hfun : meanGas a b data w method hit = fun c x d e =>
      ⨆ n, gasMean a b data w method hit n c x d e := by
    funext c x d e
    exact meanGas_eq h hh c x d e
  rw [hfun]
  dsimp only
  have hmono : Monotone fun n => gasMean a b data w method hit n c x d e := gasMean_monotone c x d e
  rw [gasTransported_iSup (E := gasMean a b data w method hit)
      (fun n c => measurable_gasMean h hh n c)
      (fun m n hmn c x d e => gasMean_monotone c x d e hmn) c x d he, ← hmono.iSup_nat_add 1]
  exact iSup_congr fun n => gasMean_succ h hw method hh n hc x hd he

/-- **C81** It is the smallest solution. -/
theorem C81_smallest (h : Frames a b) (hw : GasWorld data w) (method : Method)
    (hh : ∀ s, Measurable fun q : Direction × ℝ => hit s q.1 q.2)
    {E : Cell → Point → Direction → ℝ → ℝ≥0∞}
    (hE : ∀ c ∈ w.cells, ∀ x d e, UnitVec d → 0 < e → gasTransported data w hit E c x d e ≤ E c x d e)
    {c : Cell} (hc : c ∈ w.cells) (x : Point) {d : Direction} (hd : UnitVec d) {e : ℝ} (he : 0 < e) :
    meanGas a b data w method hit c x d e ≤ E c x d e := by
  rw [meanGas_eq h hh]
  refine iSup_le fun n => ?_
  induction n generalizing c x d e with
  | zero => simp [gasMean, gasScore]
  | succ n ih =>
    rw [gasMean_succ h hw method hh n hc x hd he]
    exact le_trans (gasTransported_mono (fun c hc x d e hd he => ih hc x hd he) hc x hd he)
      (hE c hc x d e hd he)

/-- **C81** The mean score does not depend on the method of tracking, nor on where azimuths are measured
from. -/
theorem C81_methods (h : Frames a b) {a' b' : Direction → Direction} (h' : Frames a' b')
    (hw : GasWorld data w) (method method' : Method)
    (hh : ∀ s, Measurable fun q : Direction × ℝ => hit s q.1 q.2) {c : Cell} (hc : c ∈ w.cells) (x : Point)
    {d : Direction} (hd : UnitVec d) {e : ℝ} (he : 0 < e) :
    meanGas a b data w method hit c x d e = meanGas a' b' data w method' hit c x d e :=
  le_antisymm
    (C81_smallest h hw method hh
      (fun _ hc x _ _ hd he => (C81_equation h' hw method' hh hc x hd he).ge) hc x hd he)
    (C81_smallest h' hw method' hh
      (fun _ hc x _ _ hd he => (C81_equation h hw method hh hc x hd he).ge) hc x hd he)

/-- **C81** If the collisions leave at most as many neutrons as collide, on average, and a crossing scores
at most one, and only if it takes the neutron out of the material, then the mean score of the neutron and
its descendants is at most one.  `S` are places where that is so and which neutrons do not leave. -/
theorem C81_at_most_one (h : Frames a b) (hw : GasWorld data w) (method : Method)
    (hh : ∀ s, Measurable fun q : Direction × ℝ => hit s q.1 q.2) {S : Cell → Point → Prop}
    (hk : ∀ c ∈ w.cells, ∀ m, c.material = some m → ∀ e, 0 < e →
      neutronRate data m (heat c) e ≤ collisionRate data m (heat c) e)
    (hstay : ∀ c ∈ w.cells, c.material ≠ none → ∀ x d (s : ℝ), S c x → UnitVec d → 0 < s →
      (s : WithTop ℝ) < ahead c x d → S c (along x d s) ∧
        ∀ c', cellAt w (along x d s) = some c' → S c' (along x d s))
    (hnext : ∀ c ∈ w.cells, c.material ≠ none → ∀ x d, S c x → UnitVec d → ahead c x d ≠ ⊤ → ∀ s c',
      faced c x d = some s → cellAt w (beyond c x d) = some c' → S c' (beyond c x d) ∧
        ∀ e, hit s d e ≤ 1 ∧ (hit s d e ≠ 0 → c'.material = none))
    {c : Cell} (hc : c ∈ w.cells) {x : Point} (hx : S c x) {d : Direction} (hd : UnitVec d) {e : ℝ}
    (he : 0 < e) : meanGas a b data w method hit c x d e ≤ 1 := by
  set E : Cell → Point → Direction → ℝ → ℝ≥0∞ := fun c x d _ =>
    if S c x ∧ UnitVec d then (if c.material = none then 0 else 1) else ⊤ with hE
  refine (C81_smallest h hw method hh (E := E) ?_ hc x hd he).trans ?_
  swap
  · simp only [hE, if_pos (And.intro hx hd)]
    split_ifs <;> simp
  clear hc hx hd he c x d e
  intro c hc x d e hd he
  by_cases hx : S c x
  swap
  · simp [hE, hx]
  have hle : ∀ c x, S c x → ∀ d e, UnitVec d → (0 : ℝ) < e → E c x d e ≤ 1 := by
    intro c x hx d e hd _
    simp only [hE, if_pos (And.intro hx hd)]
    split_ifs <;> simp
  cases hm : c.material with
  | none => simp [gasTransported, hm]
  | some m =>
    have hmn : c.material ≠ none := by rw [hm]; simp
    have hpos := hw.rate_pos hc hm he
    have hEc : E c x d e = 1 := by simp [hE, hx, hd, hm]
    rw [hEc, gasTransported_some hm]
    have hone := lintegral_round c method hpos (t := ahead c x d) (fun _ h => ahead_pos h) 1 fun _ => 1
    have hl : ∫⁻ u, (if FliesTo method (ahead c x d) (-Real.log (1 - u) / collisionRate data m (heat c) e)
        then (1 : ℝ≥0∞) else 1) ∂uniform = 1 := by
      simp
    rw [hl] at hone
    rw [hone]
    refine add_le_add ?_ ?_
    · refine setLIntegral_mono' (measurableSet_between _) fun s hs => ?_
      obtain ⟨k1, k2⟩ := hstay c hc hmn x d s hx hd hs.1 hs.2
      rw [mul_one, ENNReal.ofReal_mul hpos.le, mul_comm]
      gcongr
      refine (gasEmission_le h hw hc hm hd he (hle c _ k1) ?_).trans
        (ENNReal.ofReal_le_ofReal (hk c hc m hm e he))
      intro d' e' hd' he'
      cases hc' : cellAt w (along x d s) with
      | none => simp
      | some c' => exact hle c' _ (k2 c' hc') d' e' hd' he'
    · split_ifs with ht
      · exact le_rfl
      · refine mul_le_mul_right ?_ _
        unfold gasCrossed
        cases hfc : faced c x d with
        | none => simp
        | some s =>
          cases hcl : cellAt w (beyond c x d) with
          | none => simp
          | some c' =>
            obtain ⟨k1, k2⟩ := hnext c hc hmn x d hx hd ht s c' hfc hcl
            obtain ⟨k2, k3⟩ := k2 e
            simp only [Option.elim_some, hE, k1, hd, and_self, if_true]
            by_cases hcm : c'.material = none
            · simpa [hcm] using k2
            · have : hit s d e = 0 := by
                by_contra h
                exact hcm (k3 h)
              simp [hcm, this]

/-- **C81** With independent numbers for each history, the average score almost surely tends to the mean
score, if that is finite. -/
theorem C81_converges (h : Frames a b) {method : Method}
    (hh : ∀ s, Measurable fun q : Direction × ℝ => hit s q.1 q.2) {c : Cell} {x : Point} {d : Direction}
    {e : ℝ} (hfin : meanGas a b data w method hit c x d e ≠ ⊤) :
    ∀ᵐ histories ∂(Measure.infinitePi fun _ : ℕ => uniforms),
      Filter.Tendsto
        (fun n : ℕ => (∑ k ∈ Finset.range n,
          (⨆ j, gasScore endless a b data w method hit j c x d e (histories k)).toReal) / n)
        Filter.atTop (nhds (meanGas a b data w method hit c x d e).toReal) :=
  average_converges (f := fun us => ⨆ j, gasScore endless a b data w method hit j c x d e us)
    (Measurable.iSup fun k => (measurable_gasScore h data w method hh k c).comp
      (measurable_const.prodMk (measurable_const.prodMk (measurable_const.prodMk measurable_id)))) hfin

/-! ### Instance: a warm ball -/

/-- Data for 300 K of a nuclide that captures, scatters and undergoes fission. -/
noncomputable def warmData : Continuous where
  reactions := [.capture ⟨[(1, 2)], 300⟩, .scatter ⟨[(1, 1), (2, 3)], 300⟩ none 12,
    .fission ⟨[(1, 2)], 300⟩ (some [(1, 1), (2, 2)])]
  total := ⟨[(1, 5), (2, 7)], 300⟩

noncomputable def warmNuclide : Nuclide where
  id := 1
  name := "u"
  xs := fun _ => some (.continuous warmData)

noncomputable def warmGas : Material := ⟨"gas", [(warmNuclide, 1)], 1 / 12⟩

/-- The gas is hotter than its data. -/
noncomputable def warmIn : Cell := ⟨"in", [(ball 1 1, true)], some warmGas, .constant 600⟩

/-- A beam from the centre of a ball of the gas. -/
noncomputable def warmProblem (method : Method) : Problem :=
  { slabProblem 1000 8 with
    world := ⟨[ball 1 1], [warmNuclide], [warmGas], .constant 300, [warmIn, fogOut]⟩
    method := method
    source := ⟨⟨0, 0, 0⟩, .constant ⟨1, 0, 0⟩, .continuous (3 / 2), .neutron⟩ }

theorem warm_cells (method : Method) (x : Point) :
    (x.x ^ 2 + x.y ^ 2 + x.z ^ 2 < 1 → FirstCell (warmProblem method).world x warmIn) ∧
    (1 ≤ x.x ^ 2 + x.y ^ 2 + x.z ^ 2 → FirstCell (warmProblem method).world x fogOut) := by
  have b1 := ball_contains 1 1 x
  norm_num at b1
  refine ⟨fun h => ⟨[], [fogOut], rfl, ?_, by simp⟩, fun h => ⟨[warmIn], [], rfl, ?_, ?_⟩⟩
  · simp [InCell, warmIn, b1, h]
  · simp [InCell, fogOut, ← Bool.not_eq_true, b1, h]
  · simp [InCell, warmIn, ← Bool.not_eq_true, b1, h]

theorem pair_sorted (u v : ℝ) : Sorted [(1, u), (2, v)] := by
  unfold Sorted
  simp

/-- A table with two entries. -/
theorem pair_table (u v e : ℝ) : ContinuousMap.at' [(1, u), (2, v)] e =
    .ok (if e ≤ 1 then u else if e ≤ 2 then u + (v - u) * (e - 1) else v) := by
  rw [at_tabled (pair_sorted u v) (by simp)]
  simp only [tabled, line]
  congr 1
  split_ifs
  · rfl
  · norm_num
    ring
  · rfl

theorem pair_nonneg {u v e : ℝ} (hu : 0 ≤ u) (hv : u ≤ v) :
    0 ≤ (if e ≤ 1 then u else if e ≤ 2 then u + (v - u) * (e - 1) else v) := by
  split_ifs with h1 h2
  · exact hu
  · have := mul_nonneg (sub_nonneg.2 hv) (sub_nonneg.2 (not_le.1 h1).le)
    linarith
  · exact hu.trans hv

theorem warmData_sound : SoundContinuous warmData := by
  refine ⟨?_, by norm_num [warmData], ?_⟩
  · intro r hr
    simp only [warmData, List.mem_cons, List.not_mem_nil, or_false] at hr
    rcases hr with rfl | rfl | rfl
    · exact ⟨fun e _ => ⟨_, single_table _ _ _, by norm_num⟩,
        by norm_num [ContinuousReaction.evaluation], by simp, by simp⟩
    · refine ⟨fun e _ => ⟨_, pair_table _ _ _, pair_nonneg (by norm_num) (by norm_num)⟩,
        by norm_num [ContinuousReaction.evaluation], ?_, by simp⟩
      intro ev tsl awr h
      cases h
      exact ⟨rfl, by norm_num⟩
    · refine ⟨fun e _ => ⟨_, single_table _ _ _, by norm_num⟩,
        by norm_num [ContinuousReaction.evaluation], by simp, ?_⟩
      intro ev nubar h
      cases h
      exact ⟨_, rfl, fun e _ => ⟨_, pair_table _ _ _, pair_nonneg (by norm_num) (by norm_num)⟩⟩
  · intro e _ v hv
    have h1 := hv (.capture ⟨[(1, 2)], 300⟩) (by simp [warmData])
    have h2 := hv (.scatter ⟨[(1, 1), (2, 3)], 300⟩ none 12) (by simp [warmData])
    have h3 := hv (.fission ⟨[(1, 2)], 300⟩ (some [(1, 1), (2, 2)])) (by simp [warmData])
    simp only [ContinuousReaction.evaluation, single_table, pair_table, Except.ok.injEq] at h1 h2 h3
    simp only [warmData, pair_table, List.map_cons, List.map_nil, List.sum_cons, List.sum_nil,
      ← h1, ← h2, ← h3]
    congr 1
    split_ifs <;> ring

theorem warm_world (method : Method) : GasWorld (fun _ => warmData) (warmProblem method).world := by
  have hcm : ∀ c ∈ (warmProblem method).world.cells, ∀ m, c.material = some m →
      m = warmGas ∧ c = warmIn := by
    intro c hc m hm
    simp only [warmProblem, List.mem_cons, List.not_mem_nil, or_false] at hc
    rcases hc with rfl | rfl
    · exact ⟨by simpa [warmIn] using hm.symm, rfl⟩
    · cases hm
  have hcm' : ∀ c ∈ (warmProblem method).world.cells, c.material ≠ none → c = warmIn := by
    intro c hc hm
    obtain ⟨m, hm⟩ := Option.ne_none_iff_exists'.1 hm
    exact (hcm c hc m hm).2
  have hx1 : ∀ x ∈ warmGas.afracs, x = (warmNuclide, 1) := by
    intro x hx
    simpa [warmGas] using hx
  refine ⟨⟨?_, ?_, ?_, ?_, ?_, ?_⟩, ?_, ?_, ?_⟩
  · intro x
    obtain ⟨h1, h2⟩ := warm_cells method x
    have key : ∃ c, FirstCell (warmProblem method).world x c := by
      rcases lt_or_ge (x.x ^ 2 + x.y ^ 2 + x.z ^ 2) 1 with h | h
      · exact ⟨_, h1 h⟩
      · exact ⟨_, h2 h⟩
    obtain ⟨c, l, r, e, hin, -⟩ := key
    exact ⟨c, by rw [e]; simp, hin⟩
  · intro c hc hm
    rw [hcm' c hc hm]
    simp [warmIn]
  · intro c hc m hm
    rw [(hcm c hc m hm).1]
    norm_num [warmGas]
  · intro c hc hm
    rw [hcm' c hc hm]
    norm_num [warmIn, ScalarField.upperBound]
  · intro c hc m hm x hx
    rw [(hcm c hc m hm).1] at hx
    rw [hx1 x hx]
    exact ⟨one_pos, warmData, rfl, warmData_sound⟩
  · intro c hc m hm e _
    rw [(hcm c hc m hm).1]
    refine ⟨(warmNuclide, 1), by simp [warmGas], warmData, _, rfl, pair_table _ _ _, ?_⟩
    split_ifs with h1 h2
    · norm_num
    · rw [not_le] at h1
      linarith
    · norm_num
  · intro c hc m hm x hx
    rw [(hcm c hc m hm).1] at hx
    rw [hx1 x hx]
    rfl
  · intro c hc hm
    rw [hcm' c hc hm]
    exact ⟨600, by norm_num, rfl⟩
  · intro c hc m hm x hx r hr
    simp only [warmData, List.mem_cons, List.not_mem_nil, or_false] at hr
    rcases hr with rfl | rfl | rfl
    · exact ⟨by simp [Sorted, ContinuousReaction.evaluation], le_rfl, by simp⟩
    · exact ⟨pair_sorted _ _, le_rfl, by simp⟩
    · refine ⟨by simp [Sorted, ContinuousReaction.evaluation], le_rfl, ?_⟩
      intro ev l h
      cases h
      exact pair_sorted _ _

/-- The collisions do not multiply neutrons: a fission makes at most two, but every other neutron that does
not scatter is captured. -/
theorem warm_multiplies (t e : ℝ) :
    neutronRate (fun _ => warmData) warmGas t e ≤ collisionRate (fun _ => warmData) warmGas t e := by
  unfold neutronRate collisionRate nuclideXS
  refine mul_le_mul_of_nonneg_left ?_ (by norm_num [warmGas])
  have hy : yieldAt (some [(1, 1), (2, 2)]) e ≤ 2 := by
    simp only [yieldAt, Option.elim_some, tabled, line]
    split_ifs
    · norm_num
    · norm_num
      linarith
    · norm_num
  simp only [warmGas, warmData, List.map_cons, List.map_nil, List.sum_cons, List.sum_nil, neutronsLeft,
    reactionXS, tabled]
  linarith

theorem warm_ahead (x : Point) (d : Direction) : ahead warmIn x d = (ball 1 1).shape.distance x d := by
  simp [ahead, warmIn]

theorem warm_le {a b : Direction → Direction} (h : Frames a b) (method : Method) :
    meanGas a b (fun _ => warmData) (warmProblem method).world method
      (energyHit (ball 1 1) oneBin 0) warmIn ⟨0, 0, 0⟩ ⟨1, 0, 0⟩ (3 / 2) ≤ 1 := by
  have hw := warm_world method
  have hh := measurable_energyHit (ball 1 1) oneBin 0
  have hc : warmIn ∈ (warmProblem method).world.cells := by simp [warmProblem]
  exact C81_at_most_one h hw method hh
    (S := fun c x => c = warmIn → x.x ^ 2 + x.y ^ 2 + x.z ^ 2 < 1) (by
      intro c hc m hm e he
      simp only [warmProblem, List.mem_cons, List.not_mem_nil, or_false] at hc
      rcases hc with rfl | rfl
      · cases hm
        exact warm_multiplies _ _
      · cases hm) (by
      intro c hc hm x d s hx hd hs hlt
      simp only [warmProblem, List.mem_cons, List.not_mem_nil, or_false] at hc
      rcases hc with rfl | rfl
      · rw [warm_ahead] at hlt
        have := fog_stays (hx rfl) hd hs hlt
        exact ⟨fun _ => this, fun _ _ _ => this⟩
      · exact absurd rfl hm) (by
      intro c hc hm x d hx hd ht s c' _ hc'
      simp only [warmProblem, List.mem_cons, List.not_mem_nil, or_false] at hc
      rcases hc with rfl | rfl
      · obtain ⟨t, ht⟩ := WithTop.ne_top_iff_exists.1 ht
        rw [warm_ahead] at ht
        have hb : beyond warmIn x d = along x d (t + 10 / 2 ^ 52) := by
          unfold beyond
          rw [warm_ahead, ← ht]
          rfl
        have hout := fog_leaves (hx rfl) hd ht.symm
        have := cellAt_of_first ((warm_cells method _).2 hout)
        rw [hb, this] at hc'
        cases hc'
        refine ⟨fun h => ?_, fun g => ⟨?_, fun _ => rfl⟩⟩
        · have := congrArg Cell.material h
          cases this
        · unfold energyHit
          split_ifs <;> simp
      · exact absurd rfl hm) hc (x := ⟨0, 0, 0⟩) (fun _ => by norm_num) (d := ⟨1, 0, 0⟩)
      (by norm_num [UnitVec]) (e := 3 / 2) (by norm_num)

/-- Instance of the hypotheses of C81: the mean number of neutrons that leave the ball satisfies the
transport equation and is at most one, and the average over endlessly many histories tends to it. -/
example {a b : Direction → Direction} (h : Frames a b) (method : Method) :
    (∀ x d e, UnitVec d → 0 < e → meanGas a b (fun _ => warmData) (warmProblem method).world method
        (energyHit (ball 1 1) oneBin 0) warmIn x d e =
      gasTransported (fun _ => warmData) (warmProblem method).world (energyHit (ball 1 1) oneBin 0)
        (meanGas a b (fun _ => warmData) (warmProblem method).world method
          (energyHit (ball 1 1) oneBin 0)) warmIn x d e) ∧
    meanGas a b (fun _ => warmData) (warmProblem method).world method
      (energyHit (ball 1 1) oneBin 0) warmIn ⟨0, 0, 0⟩ ⟨1, 0, 0⟩ (3 / 2) ≤ 1 ∧
    ∀ᵐ histories ∂(Measure.infinitePi fun _ : ℕ => uniforms),
      Filter.Tendsto (fun n : ℕ => (∑ k ∈ Finset.range n,
        (⨆ j, gasScore endless a b (fun _ => warmData) (warmProblem method).world method
          (energyHit (ball 1 1) oneBin 0) j warmIn ⟨0, 0, 0⟩ ⟨1, 0, 0⟩ (3 / 2) (histories k)).toReal) / n)
        Filter.atTop (nhds (meanGas a b (fun _ => warmData) (warmProblem method).world method
          (energyHit (ball 1 1) oneBin 0) warmIn ⟨0, 0, 0⟩ ⟨1, 0, 0⟩ (3 / 2)).toReal) := by
  have hw := warm_world method
  have hh := measurable_energyHit (ball 1 1) oneBin 0
  have hc : warmIn ∈ (warmProblem method).world.cells := by simp [warmProblem]
  have hle := warm_le h method
  exact ⟨fun x d e hd he => C81_equation h hw method hh hc x hd he, hle,
    C81_converges h hh (ne_top_of_le_ne_top ENNReal.one_ne_top hle)⟩

/-- The gas is not adjusted to the temperature for such a fast neutron. -/
theorem warm_rate : collisionRate (fun _ => warmData) warmGas (heat warmIn) (3 / 2) = 1 / 2 := by
  have h : ¬ ((12 : ℝ) ≤ 1 ∨ (3 / 2 : ℝ) < 500 * boltzmannMeV * 600 / 12) := by
    unfold boltzmannMeV
    norm_num
  have hh : heat warmIn = 600 := rfl
  unfold collisionRate nuclideXS
  rw [hh]
  simp only [warmGas, warmData, List.map_cons, List.map_nil, List.sum_cons, List.sum_nil, reactionXS,
    tabled, line, h, and_false, if_false]
  norm_num

theorem warm_number : 4 / 5 < (Rng.canonical 144813).1 ∧ (Rng.canonical 144813).1 < 1 := by
  have a1 : Rng.next 144813 = 547817382 := rfl
  have a2 : Rng.next 547817382 = 1726701011 := rfl
  simp only [Rng.canonical, Rng.range, a1, a2]
  norm_num

/-- Instance of the hypotheses of `C81_history`: in history two the neutron leaves the ball without a
collision, and it is counted. -/
theorem warm_history : ∃ a b, Frames a b ∧ ∃ states, (warmProblem .surfaceTracking).history 2 2 = .ok states ∧
      ∃ q, (warmProblem .surfaceTracking).source.sample 3 = .ok q ∧
        crossings (ball 1 1) oneBin states 0 = 1 ∧
          ⨆ n, gasScore generator a b (fun _ => warmData) (warmProblem .surfaceTracking).world
            .surfaceTracking (energyHit (ball 1 1) oneBin 0) n warmIn ⟨0, 0, 0⟩ q.direction (3 / 2)
            (Rng.ofSeed q.seed) = 1 := by
  obtain ⟨ax, bx, hf, hist⟩ := C81_history
  refine ⟨ax, bx, hf, ?_⟩
  set P := warmProblem .surfaceTracking with hP
  have hw : GasWorld (fun _ => warmData) P.world := warm_world .surfaceTracking
  have hd : Configured P.source.direction := by
    norm_num [hP, warmProblem, Configured, UnitVec]
  obtain ⟨n1, n2⟩ := warm_number
  have hcell := (warm_cells .surfaceTracking ⟨0, 0, 0⟩).1 (by norm_num)
  obtain ⟨b, b1, b2, b3, b4, b5, _⟩ := C51_source_particle P.source hd (P.seed + 2)
  have hbd : b.direction = ⟨1, 0, 0⟩ := by
    cases b1
    rfl
  have hbr : Rng.ofSeed b.seed = 144813 := by
    cases b1
    change Rng.ofSeed (Rng.next (Rng.ofSeed 3)) = _
    norm_num [Rng.ofSeed, Rng.next, Rng.modulus, Rng.mult]
  set p : Particle := (Particle.ofBorn b).setPerturbations P.perturbations with hp
  set p₀ : Particle := { p with cell := some warmIn } with hp₀
  have hpp : p₀.position = ⟨0, 0, 0⟩ := b2
  have hpd : p₀.direction = ⟨1, 0, 0⟩ := hbd
  have hpr : p₀.rng = 144813 := hbr
  have hpe : p₀.energy = .continuous (3 / 2) := b3
  have hpc : p₀.cell = some warmIn := rfl
  have hend : ¬ Ended p₀ := by
    simp [Ended, hp₀, hp, Particle.ofBorn, Particle.setPerturbations]
  -- the flight
  obtain ⟨-, -, hD⟩ := gas_material hw (c := warmIn) (FirstCell.mem hcell).1 (m := warmGas) rfl hpc b4 hpe
    (by norm_num)
  have hden := hD .surfaceTracking
  have hmac : warmGas.numberDensity * (warmGas.afracs.map fun x => x.2 *
      nuclideXS warmData (heat warmIn) (3 / 2)).sum = 1 / 2 := warm_rate
  set f := -Real.log (1 - (Rng.canonical p₀.rng).1) / (1 / 2) with hfdef
  have hfl : sampleFlight .surfaceTracking p₀ =
      .ok ((f : WithTop ℝ), { p₀ with rng := (Rng.canonical p₀.rng).2 }) := by
    have hgc : p₀.getCell = .ok warmIn := Particle.getCell_ok.2 hpc
    have hmm : warmIn.material = some warmGas := rfl
    unfold sampleFlight
    rw [hgc]
    simp only [bind, Except.bind, hmm, hden, hmac]
    unfold Rng.exponential Rng.exponentialOf
    rw [if_neg (by norm_num)]
  have hlong : 1 < f := by
    rw [hfdef, hpr, lt_div_iff₀ (by norm_num), lt_neg, Real.log_lt_iff_lt_exp (by linarith)]
    have h3 := Real.add_one_lt_exp (x := -(1 / 2)) (by norm_num)
    linarith
  have hdist : (ball 1 1).shape.distance p₀.position p₀.direction = ((1 : ℝ) : WithTop ℝ) := by
    rw [hpp, hpd, ball_ahead 1 le_rfl one_pos, sub_zero]
  have hns : warmIn.nearestSurface p₀.position p₀.direction = .ok (ball 1 1, ((1 : ℝ) : WithTop ℝ)) := by
    rw [← hdist]
    rfl
  have hout := fog_leaves (x := p₀.position) (d := p₀.direction) (by rw [hpp]; norm_num)
    (by rw [hpd]; norm_num [UnitVec]) hdist
  have hfirst := (warm_cells .surfaceTracking _).2 hout
  obtain ⟨l, k⟩ : ∃ l, crossSurface .surfaceTracking P.world
      { p₀ with rng := (Rng.canonical p₀.rng).2 } (ball 1 1) ((1 : ℝ) : WithTop ℝ) = .ok l := by
    rw [← nudge_eq] at hfirst
    have hfind : P.world.findCellContaining (along p₀.position p₀.direction (1 + nudge)) = .ok fogOut :=
      findCellContaining_ok.2 hfirst
    have hs : Particle.stream .surfaceTracking { p₀ with rng := (Rng.canonical p₀.rng).2 }
        (((1 : ℝ) : WithTop ℝ) + (nudge : WithTop ℝ)) = .ok { p₀ with
          rng := (Rng.canonical p₀.rng).2
          position := along p₀.position p₀.direction (1 + nudge) } := by
      rw [← WithTop.coe_add, ← smul_eq_along]
      rfl
    unfold crossSurface
    rw [hs]
    simp only [bind, Except.bind, Particle.locate, hfind, Particle.getCell]
    exact ⟨_, rfl⟩
  have hstep : transportStep .surfaceTracking 2 P.world p₀ = .ok l := by
    change surfaceStep 2 P.world p₀ = .ok l
    unfold surfaceStep
    rw [hfl]
    have hgc : Particle.getCell { p₀ with rng := (Rng.canonical p₀.rng).2 } = .ok warmIn :=
      Particle.getCell_ok.2 hpc
    simp only [bind, Except.bind, hgc, hns]
    rw [if_neg (not_lt.2 (WithTop.coe_le_coe.2 hlong.le))]
    exact k
  obtain ⟨t, e0, e1, ⟨c', e2, e3, e4, e5⟩, e10, e6, e7, e8, e11, e9⟩ := crossSurface_ok k
  cases WithTop.coe_injective e0
  have hleak : l.event = .leak := by
    refine e4 ?_
    rw [e1] at e2
    rw [firstCell_unique e2 hfirst]
    rfl
  have hsec : l.secondaries = [] := e11
  have htr : transport P.method 2 P.world p = .ok (l, [l]) := by
    have hna : ¬ l.isAlive = true := fun hal => (alive_iff l).1 hal (.inr (.inr hleak))
    unfold transport
    rw [(locate_ok.2 ⟨_, (hpp ▸ hcell : FirstCell P.world p₀.position _), rfl⟩ :
      p.locate P.world = .ok p₀)]
    simp only [bind, Except.bind]
    change noexcept (transportLoop .surfaceTracking 2 P.world 2 p₀) = _
    rw [transportLoop, if_pos ((alive_iff _).2 hend), hstep]
    simp only [bind, Except.bind]
    rw [transportLoop, if_neg hna]
    rfl
  have hhist : P.history 2 2 = .ok [l] := by
    unfold Problem.history
    rw [b1]
    simp only [bind, Except.bind]
    have e := processBank_concat (run := transport P.method 2 P.world) (qs := P.perturbations) 1 []
      (Particle.ofBorn b)
    rw [List.nil_append, ← hp, htr] at e
    simp only [bind, Except.bind] at e
    rw [hsec, List.map_nil, List.nil_append, processBank_nil] at e
    rw [e]
    rfl
  obtain ⟨b', c, e, c1, c2, c3, c4⟩ := hist hw
    ⟨rfl, ⟨3 / 2, rfl, by norm_num⟩, _, hcell, by simp [warmIn]⟩ hd hhist (ball 1 1) oneBin 0
  cases c3
  cases firstCell_unique c2 hcell
  have hcount : crossings (ball 1 1) oneBin [l] 0 = 1 := by
    unfold crossings
    rw [List.countP_cons_of_pos, List.countP_nil]
    refine decide_eq_true ⟨?_, by simp [oneBin, ParticleBins.getIndex, Bins.getIndex, bind, Except.bind]⟩
    exact ⟨_, e10, rfl, .inr hleak⟩
  refine ⟨_, hhist, b', c1, hcount, ?_⟩
  rw [hcount] at c4
  exact_mod_cast c4.symm

end Minimc.Props
