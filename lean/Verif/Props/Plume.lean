import Verif.Props.GasExperiment

/-! # Instance of C103: a ball of gas -/

namespace Minimc.Props

open Classical Spec MeasureTheory ProbabilityTheory Filter Topology
open scoped ENNReal

/-! ### Whole scores -/

theorem whole_gasScattered {σ : Type} (S : Supply σ) {a b : Direction → Direction} (A β : ℝ) (d : Direction)
    (speed : ℝ) {next : Direction → ℝ → σ → ℝ≥0∞} (h : ∀ d e s, next d e s ≤ next d e s ^ 2) (s : σ) :
    (⨆ n, gasScattered S a b A β d speed next n s) ≤ (⨆ n, gasScattered S a b A β d speed next n s) ^ 2 := by
  refine iSup_le fun n => (gasScattered_le h n s).trans ?_
  rw [← gasScattered_sq]
  exact pow_le_pow_left' (le_iSup (fun n => gasScattered S a b A β d speed next n s) n) 2

theorem whole_gasBirths {σ : Type} (S : Supply σ) {start : Direction → σ → ℝ≥0∞}
    (h : ∀ d s, start d s ≤ start d s ^ 2) (k : ℕ) (s : σ) :
    gasBirths S start k s ≤ gasBirths S start k s ^ 2 := by
  induction k generalizing s with
  | zero => simp [gasBirths]
  | succ k ih => exact whole_add (h _ _) (ih _)

theorem whole_gasScore {σ : Type} (S : Supply σ) {a b : Direction → Direction} {data : Nuclide → Continuous}
    {w : World} {method : Method} {hit : SurfaceObj → Direction → ℝ → ℝ≥0∞}
    (hh : ∀ s d e, hit s d e ≤ hit s d e ^ 2) (n : ℕ) (c : Cell) (x : Point) (d : Direction) (e : ℝ) (s : σ) :
    gasScore S a b data w method hit n c x d e s ≤ gasScore S a b data w method hit n c x d e s ^ 2 := by
  induction n generalizing c x d e s with
  | zero => simp [gasScore]
  | succ n ih =>
    unfold gasScore
    cases c.material with
    | none => simp
    | some m =>
      simp only [Option.elim_some]
      split_ifs
      · cases faced c x d with
        | none => simp
        | some f =>
          cases cellAt w (beyond c x d) with
          | none => simp
          | some c' => exact whole_add (hh _ _ _) (ih _ _ _ _ _)
      · unfold afterGas
        refine whole_byWeight _ _ fun i => ?_
        cases m.afracs[i]? with
        | none => simp
        | some y =>
          simp only [Option.elim_some]
          refine whole_byWeight _ _ fun j => ?_
          cases (data y.1).reactions[j]? with
          | none => simp
          | some r =>
            cases r with
            | capture ev => simp [afterReaction]
            | scatter ev tsl A => exact whole_gasScattered S _ _ _ _ (fun _ _ _ => ih _ _ _ _ _) _
            | fission ev nubar =>
              refine whole_gasBirths S (fun d' s' => ?_) _ _
              cases cellAt w (along x d (-Real.log (1 - S.number s) / collisionRate data m (heat c) e)) with
              | none => simp
              | some c' => exact ih _ _ _ _ _

theorem whole_gasPlayed {a b : Direction → Direction} {data : Nuclide → Continuous} {P : Problem}
    (surface : SurfaceObj) (bins : ParticleBins) (i : ℕ) (u v : Direction) (c : Cell) (e : ℝ) (us : ℕ → ℝ) :
    gasPlayed endless a b data P (energyHit surface bins i) u v c e us ≤
      gasPlayed endless a b data P (energyHit surface bins i) u v c e us ^ 2 := by
  have key : ∀ d s, (⨆ n, gasScore endless a b data P.world P.method (energyHit surface bins i) n c
      P.source.position d e s) ≤ (⨆ n, gasScore endless a b data P.world P.method
        (energyHit surface bins i) n c P.source.position d e s) ^ 2 := by
    intro d s
    refine iSup_le fun n => (whole_gasScore endless (fun s d g => ?_) n c _ d e s).trans
      (pow_le_pow_left' (le_iSup (fun n => gasScore endless a b data P.world P.method
        (energyHit surface bins i) n c P.source.position d e s) n) 2)
    unfold energyHit
    split_ifs <;> simp
  unfold gasPlayed emitted
  cases P.source.direction with
  | constant d => exact key _ _
  | isotropic => exact key _ _
  | isotropicFlux r => exact key _ _

/-! ### The ball -/

/-- Data for 300 K of a nuclide that captures, scatters and undergoes fission. -/
noncomputable def plumeData : Continuous where
  reactions := [.capture ⟨[(1, 2)], 300⟩, .scatter ⟨[(1, 1), (2, 3)], 300⟩ none 12,
    .fission ⟨[(1, 2)], 300⟩ (some [(1, 1)])]
  total := ⟨[(1, 5), (2, 7)], 300⟩

noncomputable def plumeNuclide : Nuclide where
  id := 1
  name := "u"
  xs := fun _ => some (.continuous plumeData)

noncomputable def plumeGas : Material := ⟨"gas", [(plumeNuclide, 1)], 1 / 12⟩

/-- The gas is as hot as its data. -/
noncomputable def plumeIn : Cell := ⟨"in", [(ball 1 1, true)], some plumeGas, .constant 300⟩

/-- Neutrons from the centre of a ball of the gas, most of them along the x axis. -/
noncomputable def plumeProblem (method : Method) : Problem :=
  { slabProblem 1000 8 with
    world := ⟨[ball 1 1], [plumeNuclide], [plumeGas], .constant 300, [plumeIn, fogOut]⟩
    method := method
    source := ⟨⟨0, 0, 0⟩, .isotropicFlux ⟨1, 0, 0⟩, .continuous (3 / 2), .neutron⟩ }

theorem plume_cells (method : Method) (x : Point) :
    (x.x ^ 2 + x.y ^ 2 + x.z ^ 2 < 1 → FirstCell (plumeProblem method).world x plumeIn) ∧
    (1 ≤ x.x ^ 2 + x.y ^ 2 + x.z ^ 2 → FirstCell (plumeProblem method).world x fogOut) := by
  have b1 := ball_contains 1 1 x
  norm_num at b1
  refine ⟨fun h => ⟨[], [fogOut], rfl, ?_, by simp⟩, fun h => ⟨[plumeIn], [], rfl, ?_, ?_⟩⟩
  · simp [InCell, plumeIn, b1, h]
  · simp [InCell, fogOut, ← Bool.not_eq_true, b1, h]
  · simp [InCell, plumeIn, ← Bool.not_eq_true, b1, h]

theorem plumeData_sound : SoundContinuous plumeData := by
  refine ⟨?_, by norm_num [plumeData], ?_⟩
  · intro r hr
    simp only [plumeData, List.mem_cons, List.not_mem_nil, or_false] at hr
    rcases hr with rfl | rfl | rfl
    · exact ⟨fun e _ => ⟨_, single_table _ _ _, by norm_num⟩,
        by norm_num [ContinuousReaction.evaluation], by simp, by simp⟩
    · refine ⟨fun e _ => ⟨_, pair_table _ _ _, pair_nonneg (by norm_num) (by norm_num)⟩,
        by norm_num [ContinuousReaction.evaluation], ?_, by simp⟩
      intro ev tsl awr h
      cases h
      exact ⟨rfl, by norm_num⟩
    · refine ⟨fun e _ => ⟨_, single_table _ _ _, by norm_num⟩,
        by norm_num [ContinuousReaction.evaluation], by simp, ?_⟩
      intro ev nubar h
      cases h
      exact ⟨_, rfl, fun e _ => ⟨_, single_table _ _ _, by norm_num⟩⟩
  · intro e _ v hv
    have h1 := hv (.capture ⟨[(1, 2)], 300⟩) (by simp [plumeData])
    have h2 := hv (.scatter ⟨[(1, 1), (2, 3)], 300⟩ none 12) (by simp [plumeData])
    have h3 := hv (.fission ⟨[(1, 2)], 300⟩ (some [(1, 1)])) (by simp [plumeData])
    simp only [ContinuousReaction.evaluation, single_table, pair_table, Except.ok.injEq] at h1 h2 h3
    simp only [plumeData, pair_table, List.map_cons, List.map_nil, List.sum_cons, List.sum_nil,
      ← h1, ← h2, ← h3]
    congr 1
    split_ifs <;> ring

theorem plume_world (method : Method) : GasWorld (fun _ => plumeData) (plumeProblem method).world := by
  have hcm : ∀ c ∈ (plumeProblem method).world.cells, ∀ m, c.material = some m →
      m = plumeGas ∧ c = plumeIn := by
    intro c hc m hm
    simp only [plumeProblem, List.mem_cons, List.not_mem_nil, or_false] at hc
    rcases hc with rfl | rfl
    · exact ⟨by simpa [plumeIn] using hm.symm, rfl⟩
    · cases hm
  have hcm' : ∀ c ∈ (plumeProblem method).world.cells, c.material ≠ none → c = plumeIn := by
    intro c hc hm
    obtain ⟨m, hm⟩ := Option.ne_none_iff_exists'.1 hm
    exact (hcm c hc m hm).2
  have hx1 : ∀ x ∈ plumeGas.afracs, x = (plumeNuclide, 1) := by
    intro x hx
    simpa [plumeGas] using hx
  refine ⟨⟨?_, ?_, ?_, ?_, ?_, ?_⟩, ?_, ?_, ?_⟩
  · intro x
    obtain ⟨h1, h2⟩ := plume_cells method x
    have key : ∃ c, FirstCell (plumeProblem method).world x c := by
      rcases lt_or_ge (x.x ^ 2 + x.y ^ 2 + x.z ^ 2) 1 with h | h
      · exact ⟨_, h1 h⟩
      · exact ⟨_, h2 h⟩
    obtain ⟨c, l, r, e, hin, -⟩ := key
    exact ⟨c, by rw [e]; simp, hin⟩
  · intro c hc hm
    rw [hcm' c hc hm]
    simp [plumeIn]
  · intro c hc m hm
    rw [(hcm c hc m hm).1]
    norm_num [plumeGas]
  · intro c hc hm
    rw [hcm' c hc hm]
    norm_num [plumeIn, ScalarField.upperBound]
  · intro c hc m hm x hx
    rw [(hcm c hc m hm).1] at hx
    rw [hx1 x hx]
    exact ⟨one_pos, plumeData, rfl, plumeData_sound⟩
  · intro c hc m hm e _
    rw [(hcm c hc m hm).1]
    refine ⟨(plumeNuclide, 1), by simp [plumeGas], plumeData, _, rfl, pair_table _ _ _, ?_⟩
    split_ifs with h1 h2
    · norm_num
    · rw [not_le] at h1
      linarith
    · norm_num
  · intro c hc m hm x hx
    rw [(hcm c hc m hm).1] at hx
    rw [hx1 x hx]
    rfl
  · intro c hc hm
    rw [hcm' c hc hm]
    exact ⟨300, by norm_num, rfl⟩
  · intro c hc m hm x hx r hr
    simp only [plumeData, List.mem_cons, List.not_mem_nil, or_false] at hr
    rcases hr with rfl | rfl | rfl
    · exact ⟨by simp [Sorted, ContinuousReaction.evaluation], le_rfl, by simp⟩
    · exact ⟨pair_sorted _ _, le_rfl, by simp⟩
    · refine ⟨by simp [Sorted, ContinuousReaction.evaluation], le_rfl, ?_⟩
      intro ev l h
      cases h
      simp [Sorted]

/-- Cross section for scattering. -/
noncomputable def plumeScatter (e : ℝ) : ℝ := tabled [(1, 1), (2, 3)] e

theorem plumeScatter_bounds (e : ℝ) : 1 ≤ plumeScatter e ∧ plumeScatter e ≤ 3 := by
  simp only [plumeScatter, tabled, line]
  split_ifs with h1 h2
  · norm_num
  · norm_num
    constructor <;> linarith
  · norm_num

theorem plume_rates (e : ℝ) :
    collisionRate (fun _ => plumeData) plumeGas (heat plumeIn) e = (4 + plumeScatter e) / 12 ∧
    neutronRate (fun _ => plumeData) plumeGas (heat plumeIn) e = (2 + plumeScatter e) / 12 := by
  have hh : heat plumeIn = 300 := rfl
  have h : ¬ ((1.01 : ℝ) * 300 ≤ 300) := by norm_num
  unfold collisionRate neutronRate nuclideXS plumeScatter
  rw [hh]
  simp only [plumeGas, plumeData, List.map_cons, List.map_nil, List.sum_cons, List.sum_nil, neutronsLeft,
    reactionXS, h, false_and, if_false, yieldAt, Option.elim_some]
  constructor
  · simp only [tabled]
    ring
  · simp only [tabled]
    ring

/-- At most five of seven collisions leave a neutron, on average. -/
theorem plume_multiplies (e : ℝ) : neutronRate (fun _ => plumeData) plumeGas (heat plumeIn) e ≤
    5 / 7 * collisionRate (fun _ => plumeData) plumeGas (heat plumeIn) e := by
  obtain ⟨h1, h2⟩ := plume_rates e
  rw [h1, h2]
  linarith [(plumeScatter_bounds e).2]

theorem plume_ahead (x : Point) (d : Direction) : ahead plumeIn x d = (ball 1 1).shape.distance x d := by
  simp [ahead, plumeIn]

/-- Where neutrons can be. -/
def plumePlace (c : Cell) (x : Point) : Prop := c = plumeIn → x.x ^ 2 + x.y ^ 2 + x.z ^ 2 < 1

theorem plume_stay (method : Method) : ∀ c ∈ (plumeProblem method).world.cells, c.material ≠ none →
    ∀ x d (s : ℝ), plumePlace c x → UnitVec d → 0 < s → (s : WithTop ℝ) < ahead c x d →
      plumePlace c (along x d s) ∧ ∀ c', cellAt (plumeProblem method).world (along x d s) = some c' →
        plumePlace c' (along x d s) := by
  intro c hc hm x d s hx hd hs hlt
  simp only [plumeProblem, List.mem_cons, List.not_mem_nil, or_false] at hc
  rcases hc with rfl | rfl
  · rw [plume_ahead] at hlt
    have := fog_stays (hx rfl) hd hs hlt
    exact ⟨fun _ => this, fun _ _ _ => this⟩
  · exact absurd rfl hm

theorem plume_next (method : Method) : ∀ c ∈ (plumeProblem method).world.cells, c.material ≠ none →
    ∀ x d, plumePlace c x → UnitVec d → ahead c x d ≠ ⊤ → ∀ s c', faced c x d = some s →
      cellAt (plumeProblem method).world (beyond c x d) = some c' → plumePlace c' (beyond c x d) ∧
        ∀ e, energyHit (ball 1 1) oneBin 0 s d e ≤ 1 ∧
          (energyHit (ball 1 1) oneBin 0 s d e ≠ 0 → c'.material = none) := by
  intro c hc hm x d hx hd ht s c' _ hc'
  simp only [plumeProblem, List.mem_cons, List.not_mem_nil, or_false] at hc
  rcases hc with rfl | rfl
  · obtain ⟨t, ht⟩ := WithTop.ne_top_iff_exists.1 ht
    rw [plume_ahead] at ht
    have hb : beyond plumeIn x d = along x d (t + 10 / 2 ^ 52) := by
      unfold beyond
      rw [plume_ahead, ← ht]
      rfl
    have hout := fog_leaves (hx rfl) hd ht.symm
    have := cellAt_of_first ((plume_cells method _).2 hout)
    rw [hb, this] at hc'
    cases hc'
    refine ⟨fun h => ?_, fun g => ⟨?_, fun _ => rfl⟩⟩
    · have := congrArg Cell.material h
      cases this
    · unfold energyHit
      split_ifs <;> simp
  · exact absurd rfl hm

variable {a b : Direction → Direction}

theorem plume_le (h : Frames a b) (method : Method) : ∀ c ∈ (plumeProblem method).world.cells, ∀ x d,
    plumePlace c x → UnitVec d → ∀ e, 0 < e → meanGas a b (fun _ => plumeData) (plumeProblem method).world
      method (energyHit (ball 1 1) oneBin 0) c x d e ≤ ENNReal.ofReal 1 := by
  intro c hc x d hx hd e he
  rw [ENNReal.ofReal_one]
  refine C81_at_most_one h (plume_world method) method (measurable_energyHit _ _ _) (S := plumePlace) ?_
    (plume_stay method) (plume_next method) hc hx hd he
  intro c hc m hm e he
  simp only [plumeProblem, List.mem_cons, List.not_mem_nil, or_false] at hc
  rcases hc with rfl | rfl
  · cases hm
    obtain ⟨h1, h2⟩ := plume_rates e
    rw [h1, h2]
    linarith
  · cases hm

/-- The rate of collisions for the neutrons of the source. -/
theorem plume_rate : collisionRate (fun _ => plumeData) plumeGas (heat plumeIn) (3 / 2) = 1 / 2 := by
  rw [(plume_rates _).1]
  norm_num [plumeScatter, tabled, line]

theorem plume_left : neutronRate (fun _ => plumeData) plumeGas (heat plumeIn) (3 / 2) = 1 / 3 := by
  rw [(plume_rates _).2]
  norm_num [plumeScatter, tabled, line]

theorem plume_between : (∫⁻ s in {s : ℝ | 0 < s ∧ (s : WithTop ℝ) < ((1 : ℝ) : WithTop ℝ)},
    ENNReal.ofReal (Real.exp (-(1 / 2 * s)))) * ENNReal.ofReal (1 / 2) =
      ENNReal.ofReal (1 - Real.exp (-(1 / 2))) := by
  have h := lintegral_round plumeIn .surfaceTracking (M := 1 / 2) (by norm_num) (t := ((1 : ℝ) : WithTop ℝ))
    (fun r hr => by rw [← WithTop.coe_inj.1 hr]; exact one_pos) 1 fun _ => 1
  simp only [ite_self, lintegral_const, measure_univ, mul_one, WithTop.coe_ne_top, if_false,
    WithTop.untopD_coe] at h
  have he : Real.exp (-(1 / 2)) ≤ 1 := Real.exp_le_one_iff.2 (by norm_num)
  rw [ENNReal.ofReal_sub _ (Real.exp_pos _).le, ENNReal.ofReal_one, h,
    ENNReal.add_sub_cancel_right ENNReal.ofReal_ne_top, ← lintegral_mul_const' _ _ ENNReal.ofReal_ne_top]
  refine lintegral_congr fun s => ?_
  rw [mul_comm (1 / 2 : ℝ) (Real.exp _), ENNReal.ofReal_mul (Real.exp_pos _).le]

theorem plume_bounds (h : Frames a b) (method : Method) {d : Direction} (hd : UnitVec d) :
    ENNReal.ofReal (Real.exp (-(1 / 2))) ≤ meanGas a b (fun _ => plumeData) (plumeProblem method).world
        method (energyHit (ball 1 1) oneBin 0) plumeIn ⟨0, 0, 0⟩ d (3 / 2) ∧
      meanGas a b (fun _ => plumeData) (plumeProblem method).world method
        (energyHit (ball 1 1) oneBin 0) plumeIn ⟨0, 0, 0⟩ d (3 / 2) ≤
          ENNReal.ofReal ((2 + Real.exp (-(1 / 2))) / 3) := by
  have hw := plume_world method
  have hh := measurable_energyHit (ball 1 1) oneBin 0
  have hc : plumeIn ∈ (plumeProblem method).world.cells := by simp [plumeProblem]
  have hp : plumePlace plumeIn ⟨0, 0, 0⟩ := fun _ => by norm_num
  have ha : ahead plumeIn ⟨0, 0, 0⟩ d = ((1 : ℝ) : WithTop ℝ) := by
    rw [plume_ahead, centre_ahead hd]
  have hf : faced plumeIn ⟨0, 0, 0⟩ d = some (ball 1 1) := by
    simp [faced, plumeIn, ahead]
  have hcl : cellAt (plumeProblem method).world (beyond plumeIn ⟨0, 0, 0⟩ d) = some fogOut := by
    refine cellAt_of_first ((plume_cells method _).2 ?_)
    have := fog_leaves (x := ⟨0, 0, 0⟩) (by norm_num) hd (centre_ahead hd)
    unfold beyond
    rw [ha]
    exact this
  rw [C81_equation h hw method hh hc _ hd (by norm_num), gasTransported_some (m := plumeGas) rfl, ha,
    if_neg WithTop.coe_ne_top, plume_rate]
  have hcr : gasCrossed (plumeProblem method).world (energyHit (ball 1 1) oneBin 0)
      (meanGas a b (fun _ => plumeData) (plumeProblem method).world method
        (energyHit (ball 1 1) oneBin 0)) plumeIn ⟨0, 0, 0⟩ d (3 / 2) = 1 := by
    unfold gasCrossed
    rw [hf, hcl]
    simp only [Option.elim_some]
    have h0 : meanGas a b (fun _ => plumeData) (plumeProblem method).world method
        (energyHit (ball 1 1) oneBin 0) fogOut (beyond plumeIn ⟨0, 0, 0⟩ d) d (3 / 2) = 0 := by
      unfold meanGas
      simp [gasScore_none (c := fogOut) rfl]
    rw [h0, add_zero]
    unfold energyHit
    rw [if_pos ⟨rfl, by simp [oneBin, ParticleBins.getIndex, Bins.getIndex, Bind.bind, Except.bind]⟩]
  rw [hcr]
  simp only [WithTop.untopD_coe, mul_one]
  constructor
  · exact le_add_self
  have e3 : ∀ s ∈ {s : ℝ | 0 < s ∧ (s : WithTop ℝ) < ((1 : ℝ) : WithTop ℝ)},
      gasEmission (fun _ => plumeData) plumeGas (heat plumeIn) d (3 / 2)
        (meanGas a b (fun _ => plumeData) (plumeProblem method).world method
          (energyHit (ball 1 1) oneBin 0) plumeIn (along ⟨0, 0, 0⟩ d s)) (fun d' e' =>
          (cellAt (plumeProblem method).world (along ⟨0, 0, 0⟩ d s)).elim 0 fun c' =>
            meanGas a b (fun _ => plumeData) (plumeProblem method).world method
              (energyHit (ball 1 1) oneBin 0) c' (along ⟨0, 0, 0⟩ d s) d' e') ≤ ENNReal.ofReal (1 / 3) := by
    intro s hs
    obtain ⟨k1, k2⟩ := plume_stay method plumeIn hc (by simp [plumeIn]) ⟨0, 0, 0⟩ d s hp hd hs.1
      (by rw [ha]; exact hs.2)
    rw [← plume_left]
    refine gasEmission_le h hw hc rfl hd (by norm_num) (fun d' e' hd' he' => ?_) fun d' e' hd' he' => ?_
    · have := plume_le h method plumeIn hc _ d' k1 hd' e' he'
      rwa [ENNReal.ofReal_one] at this
    · cases hcl : cellAt (plumeProblem method).world (along ⟨0, 0, 0⟩ d s) with
      | none => simp
      | some c' =>
        have := plume_le h method c' (cellAt_mem hcl) _ d' (k2 c' hcl) hd' e' he'
        rwa [ENNReal.ofReal_one] at this
  have he : Real.exp (-(1 / 2)) ≤ 1 := Real.exp_le_one_iff.2 (by norm_num)
  calc _ ≤ (∫⁻ s in {s : ℝ | 0 < s ∧ (s : WithTop ℝ) < ((1 : ℝ) : WithTop ℝ)},
          ENNReal.ofReal (Real.exp (-(1 / 2 * s))) * ENNReal.ofReal (1 / 3)) +
            ENNReal.ofReal (Real.exp (-(1 / 2 * 1))) :=
        add_le_add (setLIntegral_mono' (measurableSet_between _) fun s hs =>
          mul_le_mul_right (e3 s hs) _) (by rw [mul_one])
    _ = ENNReal.ofReal ((1 - Real.exp (-(1 / 2))) * (2 / 3)) + ENNReal.ofReal (Real.exp (-(1 / 2))) := by
      rw [lintegral_mul_const' _ _ ENNReal.ofReal_ne_top, mul_one, ENNReal.ofReal_mul (by linarith),
        ← plume_between, mul_assoc, ← ENNReal.ofReal_mul (by norm_num)]
      norm_num
    _ = _ := by
      rw [← ENNReal.ofReal_add (mul_nonneg (by linarith) (by norm_num)) (Real.exp_pos _).le]
      congr 1
      ring

/-- Instance of the hypotheses of C103: the number of neutrons that leave the ball of gas.  Its mean square
is finite, its mean lies between zero and one, the standard deviation that is printed behaves as it should,
and in the long run about 95 percent of the means are within two of the standard deviations that are
printed. -/
example (h : Frames a b) (method : Method) :
    let score := gasPlayed endless a b (fun _ => plumeData) (plumeProblem method)
      (energyHit (ball 1 1) oneBin 0) ⟨0, 1, 0⟩ ⟨0, 0, 1⟩ plumeIn (3 / 2)
    let truth := emittedMean ⟨0, 1, 0⟩ ⟨0, 0, 1⟩ (.isotropicFlux ⟨1, 0, 0⟩) fun d =>
      meanGas a b (fun _ => plumeData) (plumeProblem method).world method
        (energyHit (ball 1 1) oneBin 0) plumeIn ⟨0, 0, 0⟩ d (3 / 2)
    ∫⁻ us, score us ^ 2 ∂uniforms ≤
      ENNReal.ofReal (1 + 2 * 1) * (∫⁻ us, score us ∂uniforms) +
        ENNReal.ofReal (5 / 7 * 1 * 1 ^ 2 / (1 - 5 / 7)) ∧
    0 < truth ∧ truth < 1 ∧
    (∀ᵐ histories ∂(Measure.infinitePi fun _ : ℕ => uniforms),
      Tendsto (fun n : ℕ => Real.sqrt n * standardError (sample (fun e =>
        (score (histories e)).toReal) n)) atTop
        (𝓝 (Real.sqrt ((∫⁻ us, score us ^ 2 ∂uniforms).toReal -
          (∫⁻ us, score us ∂uniforms).toReal ^ 2)))) ∧
    (∀ᵐ histories ∂(Measure.infinitePi fun _ : ℕ => uniforms),
      Tendsto (fun n : ℕ => mean (sample (fun e => (score (histories e)).toReal) n)) atTop
        (𝓝 truth.toReal)) ∧
    Tendsto (fun n : ℕ => (Measure.infinitePi fun _ : ℕ => uniforms) {histories |
      |mean (sample (fun e => (score (histories e)).toReal) n) - truth.toReal| ≤
        2 * standardError (sample (fun e => (score (histories e)).toReal) n)}) atTop
      (𝓝 (ENNReal.ofReal (∫ x in -2..2, Real.exp (-(x ^ 2 / 2)) / Real.sqrt (2 * Real.pi)))) := by
  intro score truth
  have hw := plume_world method
  have hh := measurable_energyHit (ball 1 1) oneBin 0
  have hc : plumeIn ∈ (plumeProblem method).world.cells := by simp [plumeProblem]
  have hconf : Configured (plumeProblem method).source.direction := by
    norm_num [plumeProblem, Configured, UnitVec]
  have hframe : ∀ r, (plumeProblem method).source.direction = .isotropicFlux r →
      Frame ⟨0, 1, 0⟩ ⟨0, 0, 1⟩ r := by
    rintro r ⟨⟩
    exact coal_frame
  have hsq := C103_second_moment (e := 3 / 2) h hw hconf hh
    (fun s d g => by unfold energyHit; split_ifs <;> simp) (S := plumePlace) (plume_stay method)
    (fun c hc hm x d hx hd ht s c' h1 h2 => (plume_next method c hc hm x d hx hd ht s c' h1 h2).1)
    (M := 1) (N := 1) (κ := 5 / 7) (by norm_num) (by norm_num) (by norm_num) (by norm_num)
    (plume_le h method)
    (by
      intro c hc m hm x hx r hr ev nubar hev e he
      simp only [plumeData, List.mem_cons, List.not_mem_nil, or_false] at hr
      rcases hr with rfl | rfl | rfl
      · cases hev
      · cases hev
      · cases hev
        exact le_of_eq (by simp [yieldAt, tabled]))
    (by
      intro c hc m hm e he
      simp only [plumeProblem, List.mem_cons, List.not_mem_nil, or_false] at hc
      rcases hc with rfl | rfl
      · cases hm
        exact plume_multiplies e
      · cases hm) hframe hc (fun _ => by norm_num [plumeProblem]) (by norm_num)
  have hmean : ∫⁻ us, score us ∂uniforms = truth :=
    C103_mean h (fun _ => plumeData) (plumeProblem method) hh _ _ _ _
  have hlow : ENNReal.ofReal (Real.exp (-(1 / 2))) ≤ truth := by
    rw [← emittedMean_const ⟨0, 1, 0⟩ ⟨0, 0, 1⟩ (.isotropicFlux ⟨1, 0, 0⟩)
      (ENNReal.ofReal (Real.exp (-(1 / 2))))]
    exact emittedMean_mono hconf hframe fun d hd => (plume_bounds h method hd).1
  have hhigh : truth ≤ ENNReal.ofReal ((2 + Real.exp (-(1 / 2))) / 3) := by
    rw [← emittedMean_const ⟨0, 1, 0⟩ ⟨0, 0, 1⟩ (.isotropicFlux ⟨1, 0, 0⟩)
      (ENNReal.ofReal ((2 + Real.exp (-(1 / 2))) / 3))]
    exact emittedMean_mono hconf hframe fun d hd => (plume_bounds h method hd).2
  have h0 : 0 < truth := lt_of_lt_of_le (ENNReal.ofReal_pos.2 (Real.exp_pos _)) hlow
  have h1 : truth < 1 := by
    refine hhigh.trans_lt ?_
    rw [← ENNReal.ofReal_one, ENNReal.ofReal_lt_ofReal_iff one_pos]
    have := Real.exp_lt_one_iff.2 (show (-(1 / 2) : ℝ) < 0 by norm_num)
    linarith
  have htop : ∫⁻ us, score us ^ 2 ∂uniforms ≠ ⊤ := by
    refine ne_top_of_le_ne_top ?_ hsq
    change _ * (∫⁻ us, score us ∂uniforms) + _ ≠ ⊤
    rw [hmean]
    exact ENNReal.add_ne_top.2 ⟨ENNReal.mul_ne_top ENNReal.ofReal_ne_top h1.ne_top, ENNReal.ofReal_ne_top⟩
  refine ⟨hsq, h0, h1, C103_standard_deviation h hh htop, C103_average h hh h1.ne_top,
    C103_confidence h hh htop ?_ two_pos.le⟩
  change (∫⁻ us, score us ∂uniforms) ^ 2 < ∫⁻ us, score us ^ 2 ∂uniforms
  have hle : truth ≤ ∫⁻ us, score us ^ 2 ∂uniforms := by
    rw [← hmean]
    exact lintegral_mono fun us => whole_gasPlayed _ _ _ _ _ _ _ us
  rw [hmean]
  refine lt_of_lt_of_le ?_ hle
  rw [sq]
  calc truth * truth < truth * 1 := ENNReal.mul_lt_mul_right h0.ne' h1.ne_top h1
    _ = truth := mul_one _

/-! ### A run -/

/-- One history in the warm ball of C81, which leaves it without a collision. -/
noncomputable def warmRun : Problem :=
  { warmProblem .surfaceTracking with
    seed := 3
    batchsize := 1
    init := ⟨[⟨⟨"out", oneBin, [0], [0]⟩, ball 1 1, []⟩], 1⟩ }

theorem warmRun_fresh : FreshSet warmRun.init := by
  refine ⟨⟨?_, ?_, ?_, ?_⟩, ⟨?_, ?_⟩, rfl⟩
  · intro e he e' he' _
    rw [List.mem_singleton.1 he, List.mem_singleton.1 he']
  · intro e he q hq
    rw [List.mem_singleton.1 he] at hq
    cases hq
  · intro e he
    rw [List.mem_singleton.1 he]
    exact ⟨rfl, rfl⟩
  · intro e he q hq
    rw [List.mem_singleton.1 he] at hq
    cases hq
  · intro e he
    rw [List.mem_singleton.1 he]
    exact oneBin_created
  · intro e he q hq
    rw [List.mem_singleton.1 he] at hq
    cases hq

/-- A problem with the estimator and the only history of `warmRun` has a result if the history ends. -/
theorem single_result {P : Problem} (hinit : P.init = warmRun.init) (hsize : P.batchsize = 1) {fuel : ℕ}
    (h : ∃ states, P.history fuel 0 = .ok states) : ∃ r k, SolveResult P fuel 0 r k :=
  C32_result_exists (hinit ▸ warmRun_fresh) (by
    intro e he
    rw [hsize] at he
    obtain rfl : e = 0 := Nat.lt_one_iff.1 he
    obtain ⟨states, hst⟩ := h
    rw [hinit]
    refine ⟨states, hst, fun p _ => ⟨?_, ?_, ?_⟩⟩
    · intro x hx _
      rw [List.mem_singleton.1 hx]
      exact ⟨0, rfl⟩
    · intro x hx q hq
      rw [List.mem_singleton.1 hx] at hq
      cases hq
    · intro x hx q hq
      rw [List.mem_singleton.1 hx] at hq
      cases hq)

theorem warmRun_result : ∃ r k, SolveResult warmRun 2 0 r k := by
  obtain ⟨-, -, -, states, hst, -⟩ := warm_history
  exact single_result rfl rfl ⟨states, hst⟩

/-- Instance of the hypotheses of `C101_printed` and `C103_result`: a run that has a result, and what it
prints. -/
example : ∃ r k, SolveResult warmRun 2 0 r k ∧ ∃ o, r.estimators = [o] ∧
    ∃ (game : ∀ {σ : Type}, Supply σ → σ → ℝ≥0∞) (truth : ℝ≥0∞), truth ≠ ⊤ ∧
      (o.base.means warmRun.batchsize)[0]? = some (.ok (mean (sample (fun k =>
        (game generator (Rng.ofSeed (3 + k))).toReal) 1))) ∧
      ∀ᵐ histories ∂(Measure.infinitePi fun _ : ℕ => uniforms),
        Tendsto (fun n : ℕ => mean (sample (fun k => (game endless (histories k)).toReal) n)) atTop
          (𝓝 truth.toReal) := by
  obtain ⟨r, k, h⟩ := warmRun_result
  refine ⟨r, k, h, ?_⟩
  have hcell := (warm_cells .surfaceTracking ⟨0, 0, 0⟩).1 (by norm_num)
  obtain ⟨a, b, hab, key⟩ := C103_result
  obtain ⟨u, v, c, e, -, h2, h3, -, h4⟩ := key (data := fun _ => warmData) (P := warmRun)
    (warm_world .surfaceTracking) ⟨rfl, ⟨3 / 2, rfl, by norm_num⟩, _, hcell, by simp [warmIn]⟩
    (by norm_num [warmRun, warmProblem, Configured, UnitVec]) warmRun_fresh
    (by norm_num [warmRun, warmProblem, slabProblem]) (by norm_num [warmRun]) h
  cases h3
  cases firstCell_unique h2 hcell
  change List.Forall₂ _ [(⟨⟨"out", oneBin, [0], [0]⟩, ball 1 1, []⟩ : Estimator)] _ at h4
  cases hr : r.estimators with
  | nil => rw [hr] at h4; cases h4
  | cons o rest =>
    rw [hr] at h4
    cases h4 with
    | cons h5 h6 =>
      cases h6
      obtain ⟨game, truth, k1, k2, -, -, k5⟩ := h5.2 0 Nat.one_pos
      have hfin : truth ≠ ⊤ := by
        rw [k1]
        exact ne_top_of_le_ne_top ENNReal.one_ne_top (warm_le hab .surfaceTracking)
      exact ⟨o, rfl, game, truth, hfin, k2, k5 hfin⟩

end Minimc.Props
