import Verif.Props.Experiment
import Verif.Props.TransportEquation

/-! # Instances of C79: a ball of coal, and thin fog -/

namespace Minimc.Props

open Classical Spec MeasureTheory ProbabilityTheory Filter Topology
open scoped ENNReal

/-! ### Whole scores -/

/-- A score that is zero or at least one is at most its square. -/
theorem whole_add {s t : ℝ≥0∞} (hs : s ≤ s ^ 2) (ht : t ≤ t ^ 2) : s + t ≤ (s + t) ^ 2 := by
  calc s + t ≤ s ^ 2 + t ^ 2 := add_le_add hs ht
    _ ≤ s ^ 2 + 2 * s * t + t ^ 2 := by
      rw [add_right_comm]
      exact le_self_add
    _ = _ := by ring

theorem whole_sum {ι : Type*} {F : ι → ℝ≥0∞} (T : Finset ι) (h : ∀ i ∈ T, F i ≤ F i ^ 2) :
    ∑ i ∈ T, F i ≤ (∑ i ∈ T, F i) ^ 2 :=
  Finset.sum_induction F (fun t => t ≤ t ^ 2) (fun _ _ => whole_add) (by simp) h

theorem whole_byWeight (ws : List ℝ) (u : ℝ) {F : ℕ → ℝ≥0∞} (h : ∀ i, F i ≤ F i ^ 2) :
    byWeight ws u F ≤ byWeight ws u F ^ 2 := by
  unfold byWeight
  refine whole_sum _ fun i _ => ?_
  split_ifs
  · exact h i
  · simp

theorem whole_births {σ : Type} (S : Supply σ) (ws : List ℝ) {start : Direction → ℕ → σ → ℝ≥0∞}
    (h : ∀ d g s, start d g s ≤ start d g s ^ 2) (k : ℕ) (s : σ) :
    births S ws start k s ≤ births S ws start k s ^ 2 := by
  induction k generalizing s with
  | zero => simp [births]
  | succ k ih =>
    unfold births
    exact whole_byWeight _ _ fun j => whole_add (h _ _ _) (ih _)

theorem whole_chainScore {σ : Type} (S : Supply σ) {G : ℕ} {nodes : Nuclide → List MgNode} {w : World}
    {method : Method} {hit : SurfaceObj → Direction → ℕ → ℝ≥0∞} (hh : ∀ s d g, hit s d g ≤ hit s d g ^ 2)
    (n : ℕ) (c : Cell) (x : Point) (d : Direction) (g : ℕ) (s : σ) :
    chainScore S G nodes w method hit n c x d g s ≤ chainScore S G nodes w method hit n c x d g s ^ 2 := by
  induction n generalizing c x d g s with
  | zero => simp [chainScore]
  | succ n ih =>
    unfold chainScore oneRound
    cases c.material with
    | none => simp
    | some m =>
      simp only [Option.elim_some]
      split_ifs
      · cases faced c x d with
        | none => simp
        | some f =>
          cases cellAt w (beyond c x d) with
          | none => simp
          | some c' => exact whole_add (hh _ _ _) (ih _ _ _ _ _)
      · unfold afterEvent
        refine whole_byWeight _ _ fun i => ?_
        cases m.afracs[i]? with
        | none => simp
        | some e =>
          simp only [Option.elim_some]
          refine whole_byWeight _ _ fun r => ?_
          split_ifs
          · exact whole_byWeight _ _ fun j => ih _ _ _ _ _
          · refine whole_births _ _ (fun d' g' s' => ?_) _ _
            cases cellAt w (along x d (-Real.log (1 - S.number s) / macroscopic G nodes g m)) with
            | none => simp
            | some c' => exact ih _ _ _ _ _
          · simp

theorem whole_played {G : ℕ} {nodes : Nuclide → List MgNode} {P : Problem} (surface : SurfaceObj)
    (bins : ParticleBins) (i : ℕ) (a b : Direction) (c : Cell) (g : ℕ) (us : ℕ → ℝ) :
    played endless G nodes P (currentHit surface bins i) a b c g us ≤
      played endless G nodes P (currentHit surface bins i) a b c g us ^ 2 := by
  have key : ∀ d s, (⨆ n, chainScore endless G nodes P.world P.method (currentHit surface bins i) n c
      P.source.position d g s) ≤ (⨆ n, chainScore endless G nodes P.world P.method
        (currentHit surface bins i) n c P.source.position d g s) ^ 2 := by
    intro d s
    refine iSup_le fun n => (whole_chainScore endless (fun s d g => ?_) n c _ d g s).trans
      (pow_le_pow_left' (le_iSup (fun n => chainScore endless G nodes P.world P.method
        (currentHit surface bins i) n c P.source.position d g s) n) 2)
    unfold currentHit
    split_ifs <;> simp
  unfold played emitted
  cases P.source.direction with
  | constant d => exact key _ _
  | isotropic => exact key _ _
  | isotropicFlux r => exact key _ _

theorem emittedMean_const (a b : Direction) (dist : DirectionDist) (t : ℝ≥0∞) :
    (emittedMean a b dist fun _ => t) = t := by
  cases dist with
  | constant d => rfl
  | isotropic => exact sphereMean_const t
  | isotropicFlux r =>
    have h := lintegral_emitted a b (.isotropicFlux r) (start := fun _ _ => t) measurable_const
    simp only [lintegral_const, measure_univ, mul_one] at h
    rw [← h]
    simp [emitted]

/-! ### A ball of coal -/

/-- Each collision leaves half a neutron on average. -/
noncomputable def coalNodes : List MgNode := [.fission (some [3 / 2]) (some [1]) [1 / 3], .capture [2 / 3]]

theorem coalNodes_ok : ∃ m, Multigroup.create 1 coalNodes = .ok m := by
  simp only [Multigroup.create, coalNodes, Multigroup.findNubar, Multigroup.findChi,
    Multigroup.findScatter, Multigroup.optionally, Multigroup.createReactions, Multigroup.reactionXS,
    Multigroup.oneDimensional, Multigroup.normalized_ok (G := 1) (flat := [1]) rfl, Bind.bind, Except.bind]
  exact ⟨_, rfl⟩

noncomputable def coalNuclide : Nuclide where
  id := 1
  name := "c"
  xs := fun _ => some (.multigroup coalNodes_ok.choose)

noncomputable def coal : Material := ⟨"coal", [(coalNuclide, 1)], 1⟩

noncomputable def coalIn : Cell := ⟨"in", [(ball 1 1, true)], some coal, .constant 300⟩

/-- Neutrons start at the centre of a ball in which they cause fissions, as if they came through a
surface in an isotropic flux. -/
noncomputable def coalProblem (method : Method) : Problem :=
  { slabProblem 1000 8 with
    world := ⟨[ball 1 1], [coalNuclide], [coal], .constant 300, [coalIn, fogOut]⟩
    method := method
    source := ⟨⟨0, 0, 0⟩, .isotropicFlux ⟨1, 0, 0⟩, .group 1, .neutron⟩ }

theorem coal_cells (method : Method) (x : Point) :
    (x.x ^ 2 + x.y ^ 2 + x.z ^ 2 < 1 → FirstCell (coalProblem method).world x coalIn) ∧
    (1 ≤ x.x ^ 2 + x.y ^ 2 + x.z ^ 2 → FirstCell (coalProblem method).world x fogOut) := by
  have b1 := ball_contains 1 1 x
  norm_num at b1
  refine ⟨fun h => ⟨[], [fogOut], rfl, ?_, by simp⟩, fun h => ⟨[coalIn], [], rfl, ?_, ?_⟩⟩
  · simp [InCell, coalIn, b1, h]
  · simp [InCell, fogOut, ← Bool.not_eq_true, b1, h]
  · simp [InCell, coalIn, ← Bool.not_eq_true, b1, h]

theorem coal_total : specTotal 1 coalNodes 1 = 1 := by
  change (2 / 3 : ℝ) + 0 + 1 / 3 = 1
  norm_num

theorem coal_nonneg : NonnegNodes coalNodes := by
  intro n hn
  simp only [coalNodes, List.mem_cons, List.not_mem_nil, or_false] at hn
  rcases hn with rfl | rfl
  · refine ⟨?_, ?_, ?_⟩
    · intro x hx
      rw [List.mem_singleton.1 hx]
      norm_num
    · rintro l ⟨⟩ x hx
      rw [List.mem_singleton.1 hx]
      norm_num
    · rintro l ⟨⟩ x hx
      rw [List.mem_singleton.1 hx]
      norm_num
  · intro x hx
    rw [List.mem_singleton.1 hx]
    norm_num

theorem coal_wellPosed (method : Method) :
    WellPosed 1 (fun _ => coalNodes) (coalProblem method).world := by
  have hcm : ∀ c ∈ (coalProblem method).world.cells, ∀ m, c.material = some m →
      m = coal ∧ c.surfaceSenses ≠ [] := by
    intro c hc m hm
    simp only [coalProblem, List.mem_cons, List.not_mem_nil, or_false] at hc
    rcases hc with rfl | rfl
    · exact ⟨by simpa [coalIn] using hm.symm, by simp [coalIn]⟩
    · cases hm
  refine ⟨?_, ?_, ?_, ?_, ?_⟩
  · intro x
    obtain ⟨h1, h2⟩ := coal_cells method x
    have key : ∃ c, FirstCell (coalProblem method).world x c := by
      rcases lt_or_ge (x.x ^ 2 + x.y ^ 2 + x.z ^ 2) 1 with h | h
      · exact ⟨_, h1 h⟩
      · exact ⟨_, h2 h⟩
    obtain ⟨c, l, r, e, hin, -⟩ := key
    exact ⟨c, by rw [e]; simp, hin⟩
  · intro c hc hm
    obtain ⟨m, hm⟩ := Option.ne_none_iff_exists'.1 hm
    exact (hcm c hc m hm).2
  · intro c hc m hm
    rw [(hcm c hc m hm).1]
    exact one_pos
  · intro c hc m hm e he
    rw [(hcm c hc m hm).1] at he
    simp only [coal, List.mem_singleton] at he
    subst he
    exact ⟨one_pos, coalNodes_ok.choose, rfl, coalNodes_ok.choose_spec, coal_nonneg,
      fun g _ => ⟨[3 / 2], [1], rfl, rfl⟩⟩
  · intro c hc m hm g h1 h2
    rw [(hcm c hc m hm).1]
    obtain rfl : g = 1 := by omega
    refine ⟨(coalNuclide, 1), by simp [coal], ?_⟩
    rw [coal_total]
    norm_num

theorem coal_rate : macroscopic 1 (fun _ => coalNodes) 1 coal = 1 := by
  simp only [macroscopic, coal, List.map_cons, List.map_nil, List.sum_cons, List.sum_nil, coal_total]
  norm_num

theorem coal_ahead (x : Point) (d : Direction) :
    ahead coalIn x d = (ball 1 1).shape.distance x d := by
  simp [ahead, coalIn]


theorem coal_multiplies : ∑ g' ∈ Finset.Icc 1 1, (transferRate 1 (fun _ => coalNodes) coal 1 g' +
    fissionRate 1 (fun _ => coalNodes) coal 1 g') = 1 / 2 := by
  have e1 : specXS 1 coalNodes .fission 1 = 1 / 3 := rfl
  have e2 : entry1 (nubarTable coalNodes) 1 = 3 / 2 := rfl
  have e3 : entry2 1 (chiTable coalNodes) 1 1 = 1 := rfl
  have e4 : colSum 1 (chiTable coalNodes) 1 = 1 := by
    simp [colSum, List.range', e3]
  have e5 : entry2 1 (scatterTable coalNodes) 1 1 = 0 := by
    simp [scatterTable, coalNodes, entry2]
  simp only [Finset.Icc_self, Finset.sum_singleton, transferRate, fissionRate, coal, List.map_cons,
    List.map_nil, List.sum_cons, List.sum_nil, e1, e2, e3, e4, e5]
  norm_num

/-- Where neutrons can be. -/
def coalPlace (c : Cell) (x : Point) : Prop := c = coalIn → x.x ^ 2 + x.y ^ 2 + x.z ^ 2 < 1

theorem coal_stay (method : Method) : ∀ c ∈ (coalProblem method).world.cells, c.material ≠ none →
    ∀ x d (s : ℝ), coalPlace c x → UnitVec d → 0 < s → (s : WithTop ℝ) < ahead c x d →
      coalPlace c (along x d s) ∧ ∀ c', cellAt (coalProblem method).world (along x d s) = some c' →
        coalPlace c' (along x d s) := by
  intro c hc hm x d s hx hd hs hlt
  simp only [coalProblem, List.mem_cons, List.not_mem_nil, or_false] at hc
  rcases hc with rfl | rfl
  · rw [coal_ahead] at hlt
    have := fog_stays (hx rfl) hd hs hlt
    exact ⟨fun _ => this, fun _ _ _ => this⟩
  · exact absurd rfl hm

theorem coal_next (method : Method) : ∀ c ∈ (coalProblem method).world.cells, c.material ≠ none →
    ∀ x d, coalPlace c x → UnitVec d → ahead c x d ≠ ⊤ → ∀ s c', faced c x d = some s →
      cellAt (coalProblem method).world (beyond c x d) = some c' → coalPlace c' (beyond c x d) ∧
        ∀ g, currentHit (ball 1 1) oneBin 0 s d g ≤ 1 ∧
          (currentHit (ball 1 1) oneBin 0 s d g ≠ 0 → c'.material = none) := by
  intro c hc hm x d hx hd ht s c' _ hc'
  simp only [coalProblem, List.mem_cons, List.not_mem_nil, or_false] at hc
  rcases hc with rfl | rfl
  · obtain ⟨t, ht⟩ := WithTop.ne_top_iff_exists.1 ht
    rw [coal_ahead] at ht
    have hb : beyond coalIn x d = along x d (t + 10 / 2 ^ 52) := by
      unfold beyond
      rw [coal_ahead, ← ht]
      rfl
    have hout := fog_leaves (hx rfl) hd ht.symm
    have := cellAt_of_first ((coal_cells method _).2 hout)
    rw [hb, this] at hc'
    cases hc'
    refine ⟨fun h => ?_, fun g => ⟨?_, fun _ => rfl⟩⟩
    · have := congrArg Cell.material h
      cases this
    · unfold currentHit
      split_ifs <;> simp
  · exact absurd rfl hm

theorem coal_le (method : Method) : ∀ c ∈ (coalProblem method).world.cells, ∀ x d, coalPlace c x →
    UnitVec d → ∀ g, 1 ≤ g → g ≤ 1 → meanChain 1 (fun _ => coalNodes) (coalProblem method).world method
      (currentHit (ball 1 1) oneBin 0) c x d g ≤ ENNReal.ofReal 1 := by
  intro c hc x d hx hd g h1 h2
  rw [ENNReal.ofReal_one]
  refine C78_at_most_one (coal_wellPosed method) method (measurable_currentHit _ _ _) (S := coalPlace) ?_
    (coal_stay method) (coal_next method) hc hx hd h1 h2
  intro c hc m hm g h1 h2
  obtain rfl : g = 1 := by omega
  simp only [coalProblem, List.mem_cons, List.not_mem_nil, or_false] at hc
  rcases hc with rfl | rfl
  · cases hm
    rw [coal_multiplies, coal_rate]
    norm_num
  · cases hm

theorem centre_ahead {d : Direction} (hd : UnitVec d) :
    (ball 1 1).shape.distance ⟨0, 0, 0⟩ d = ((1 : ℝ) : WithTop ℝ) := by
  obtain ⟨t, ht, -⟩ := ember_near (x := ⟨0, 0, 0⟩) (d := d) (by norm_num) hd
  obtain ⟨t0, ton, -⟩ := C04_distance_first_crossing _ _ _ t hd ht
  rw [ht]
  simp only [ball, OnSurface, surfaceValue, along] at ton
  unfold UnitVec at hd
  have h1 : (t - 1) * (t + 1) = 0 := by linear_combination ton - t ^ 2 * hd
  rcases mul_eq_zero.1 h1 with h | h
  · congr 1
    linarith
  · linarith

theorem coal_between : ∫⁻ s in {s : ℝ | 0 < s ∧ (s : WithTop ℝ) < ((1 : ℝ) : WithTop ℝ)},
    ENNReal.ofReal (Real.exp (-(1 * s))) = ENNReal.ofReal (1 - Real.exp (-1)) := by
  have h := lintegral_round coalIn .surfaceTracking one_pos (t := ((1 : ℝ) : WithTop ℝ))
    (fun r hr => by rw [← WithTop.coe_inj.1 hr]; exact one_pos) 1 fun _ => 1
  simp only [ite_self, lintegral_const, measure_univ, mul_one, one_mul, WithTop.coe_ne_top, if_false,
    WithTop.untopD_coe] at h
  have he : Real.exp (-1) ≤ 1 := Real.exp_le_one_iff.2 (by norm_num)
  rw [ENNReal.ofReal_sub _ (Real.exp_pos _).le, ENNReal.ofReal_one, h]
  simp only [one_mul]
  rw [ENNReal.add_sub_cancel_right ENNReal.ofReal_ne_top]

theorem coal_bounds (method : Method) {d : Direction} (hd : UnitVec d) :
    ENNReal.ofReal (Real.exp (-1)) ≤ meanChain 1 (fun _ => coalNodes) (coalProblem method).world method
        (currentHit (ball 1 1) oneBin 0) coalIn ⟨0, 0, 0⟩ d 1 ∧
      meanChain 1 (fun _ => coalNodes) (coalProblem method).world method
        (currentHit (ball 1 1) oneBin 0) coalIn ⟨0, 0, 0⟩ d 1 ≤
          ENNReal.ofReal ((1 + Real.exp (-1)) / 2) := by
  have hw := coal_wellPosed method
  have hh := measurable_currentHit (ball 1 1) oneBin 0
  have hc : coalIn ∈ (coalProblem method).world.cells := by simp [coalProblem]
  have hp : coalPlace coalIn ⟨0, 0, 0⟩ := fun _ => by norm_num
  have ha : ahead coalIn ⟨0, 0, 0⟩ d = ((1 : ℝ) : WithTop ℝ) := by
    rw [coal_ahead, centre_ahead hd]
  have hf : faced coalIn ⟨0, 0, 0⟩ d = some (ball 1 1) := by
    simp [faced, coalIn, ahead]
  have hcl : cellAt (coalProblem method).world (beyond coalIn ⟨0, 0, 0⟩ d) = some fogOut := by
    refine cellAt_of_first ((coal_cells method _).2 ?_)
    have := fog_leaves (x := ⟨0, 0, 0⟩) (by norm_num) hd (centre_ahead hd)
    unfold beyond
    rw [ha]
    exact this
  rw [C78_equation hw method hh hc _ d le_rfl le_rfl, transported_some (m := coal) rfl,
    bred_some (m := coal) rfl, ha, if_neg WithTop.coe_ne_top, coal_rate]
  have hcr : crossed (coalProblem method).world (currentHit (ball 1 1) oneBin 0)
      (meanChain 1 (fun _ => coalNodes) (coalProblem method).world method
        (currentHit (ball 1 1) oneBin 0)) coalIn ⟨0, 0, 0⟩ d 1 = 1 := by
    unfold crossed
    rw [hf, hcl]
    simp only [Option.elim_some]
    have h0 : meanChain 1 (fun _ => coalNodes) (coalProblem method).world method
        (currentHit (ball 1 1) oneBin 0) fogOut (beyond coalIn ⟨0, 0, 0⟩ d) d 1 = 0 := by
      unfold meanChain
      simp [chainScore_none (c := fogOut) rfl]
    rw [h0, add_zero]
    unfold currentHit
    rw [if_pos ⟨rfl, by simp [oneBin, ParticleBins.getIndex, Bins.getIndex, Bind.bind, Except.bind]⟩]
  rw [hcr]
  simp only [WithTop.untopD_coe, mul_one]
  constructor
  · exact le_add_of_le_left le_add_self
  have e1 : ∀ E : Direction → ℕ → ℝ≥0∞, emission 1 (fun _ => coalNodes) coal 1 E = 0 := by
    intro E
    have e5 : entry2 1 (scatterTable coalNodes) 1 1 = 0 := by
      simp [scatterTable, coalNodes, entry2]
    simp [emission, transferRate, coal, e5]
  have e2 : fissionRate 1 (fun _ => coalNodes) coal 1 1 = 1 / 2 := by
    have h := coal_multiplies
    have e5 : entry2 1 (scatterTable coalNodes) 1 1 = 0 := by
      simp [scatterTable, coalNodes, entry2]
    simp only [Finset.Icc_self, Finset.sum_singleton] at h
    rw [← h]
    simp [transferRate, coal, e5]
  have e3 : ∀ s ∈ {s : ℝ | 0 < s ∧ (s : WithTop ℝ) < ((1 : ℝ) : WithTop ℝ)},
      fissionEmission 1 (fun _ => coalNodes) (coalProblem method).world coal 1
        (meanChain 1 (fun _ => coalNodes) (coalProblem method).world method
          (currentHit (ball 1 1) oneBin 0)) (along ⟨0, 0, 0⟩ d s) ≤ ENNReal.ofReal (1 / 2) := by
    intro s hs
    unfold fissionEmission
    simp only [Finset.Icc_self, Finset.sum_singleton, e2]
    conv_rhs => rw [← mul_one (ENNReal.ofReal _)]
    refine mul_le_mul_right (sphereMean_le fun d' hd' => ?_) _
    have hin := (coal_stay method coalIn hc (by simp [coalIn]) ⟨0, 0, 0⟩ d s hp hd hs.1
      (by rw [ha]; exact hs.2)).2
    cases hcl : cellAt (coalProblem method).world (along ⟨0, 0, 0⟩ d s) with
    | none => simp
    | some c' =>
      simp only [Option.elim_some]
      have := coal_le method c' (cellAt_mem hcl) _ d' (hin c' hcl) hd' 1 le_rfl le_rfl
      rwa [ENNReal.ofReal_one] at this
  simp only [e1, mul_zero, lintegral_const, zero_mul, zero_add]
  calc _ ≤ ENNReal.ofReal (Real.exp (-1)) + ∫⁻ s in {s : ℝ | 0 < s ∧ (s : WithTop ℝ) < ((1 : ℝ) : WithTop ℝ)},
          ENNReal.ofReal (Real.exp (-(1 * s))) * ENNReal.ofReal (1 / 2) :=
        add_le_add le_rfl (setLIntegral_mono' (measurableSet_between _) fun s hs =>
          mul_le_mul_right (e3 s hs) _)
    _ = _ := by
      have he : Real.exp (-1) ≤ 1 := Real.exp_le_one_iff.2 (by norm_num)
      rw [lintegral_mul_const' _ _ ENNReal.ofReal_ne_top, coal_between,
        ← ENNReal.ofReal_mul (by linarith), ← ENNReal.ofReal_add (Real.exp_pos _).le (by linarith)]
      congr 1
      ring

theorem coal_frame : Frame ⟨0, 1, 0⟩ ⟨0, 0, 1⟩ ⟨1, 0, 0⟩ := by
  constructor <;> norm_num [UnitVec, cosAngle]

/-- Instance of the hypotheses of C79: the number of neutrons that leave the ball of coal.  Its mean
square is finite, its mean lies between zero and one, the standard deviation that is printed behaves as
it should, and in the long run about 95 percent of the means are within two of the standard deviations
that are printed. -/
example (method : Method) :
    let score := played endless 1 (fun _ => coalNodes) (coalProblem method)
      (currentHit (ball 1 1) oneBin 0) ⟨0, 1, 0⟩ ⟨0, 0, 1⟩ coalIn 1
    let truth := emittedMean ⟨0, 1, 0⟩ ⟨0, 0, 1⟩ (.isotropicFlux ⟨1, 0, 0⟩) fun d =>
      meanChain 1 (fun _ => coalNodes) (coalProblem method).world method
        (currentHit (ball 1 1) oneBin 0) coalIn ⟨0, 0, 0⟩ d 1
    ∫⁻ us, score us ^ 2 ∂uniforms ≤
      ENNReal.ofReal (1 + 2 * 1) * (∫⁻ us, score us ∂uniforms) +
        ENNReal.ofReal (1 / 2 * (3 / 2) * 1 ^ 2 / (1 - 1 / 2)) ∧
    0 < truth ∧ truth < 1 ∧
    (∀ᵐ histories ∂(Measure.infinitePi fun _ : ℕ => uniforms),
      Tendsto (fun n : ℕ => Real.sqrt n * standardError (sample (fun e =>
        (score (histories e)).toReal) n)) atTop
        (𝓝 (Real.sqrt ((∫⁻ us, score us ^ 2 ∂uniforms).toReal -
          (∫⁻ us, score us ∂uniforms).toReal ^ 2)))) ∧
    (∀ᵐ histories ∂(Measure.infinitePi fun _ : ℕ => uniforms),
      Tendsto (fun n : ℕ => mean (sample (fun e => (score (histories e)).toReal) n)) atTop
        (𝓝 truth.toReal)) ∧
    Tendsto (fun n : ℕ => (Measure.infinitePi fun _ : ℕ => uniforms) {histories |
      |mean (sample (fun e => (score (histories e)).toReal) n) - truth.toReal| ≤
        2 * standardError (sample (fun e => (score (histories e)).toReal) n)}) atTop
      (𝓝 (ENNReal.ofReal (∫ x in -2..2, Real.exp (-(x ^ 2 / 2)) / Real.sqrt (2 * Real.pi)))) := by
  intro score truth
  have hw := coal_wellPosed method
  have hh := measurable_currentHit (ball 1 1) oneBin 0
  have hc : coalIn ∈ (coalProblem method).world.cells := by simp [coalProblem]
  have hconf : Configured (coalProblem method).source.direction := by
    norm_num [coalProblem, Configured, UnitVec]
  have hframe : ∀ r, (coalProblem method).source.direction = .isotropicFlux r →
      Frame ⟨0, 1, 0⟩ ⟨0, 0, 1⟩ r := by
    rintro r ⟨⟩
    exact coal_frame
  have hsq := C79_second_moment hw hconf hh
    (fun s d g => by unfold currentHit; split_ifs <;> simp) (S := coalPlace) (coal_stay method)
    (fun c hc hm x d hx hd ht s c' h1 h2 => (coal_next method c hc hm x d hx hd ht s c' h1 h2).1)
    (M := 1) (N := 3 / 2) (κ := 1 / 2) (by norm_num) (by norm_num) (by norm_num) (by norm_num)
    (coal_le method)
    (by
      intro c hc m hm e he g h1 h2
      obtain rfl : g = 1 := by omega
      exact le_of_eq rfl)
    (by
      intro c hc m hm g h1 h2
      obtain rfl : g = 1 := by omega
      simp only [coalProblem, List.mem_cons, List.not_mem_nil, or_false] at hc
      rcases hc with rfl | rfl
      · cases hm
        rw [coal_multiplies, coal_rate, mul_one]
      · cases hm) hframe hc (fun _ => by norm_num [coalProblem]) (g := 1) le_rfl le_rfl
  have hmean : ∫⁻ us, score us ∂uniforms = truth := C79_mean 1 _ (coalProblem method) hh _ _ _ _
  have hlow : ENNReal.ofReal (Real.exp (-1)) ≤ truth := by
    rw [← emittedMean_const ⟨0, 1, 0⟩ ⟨0, 0, 1⟩ (.isotropicFlux ⟨1, 0, 0⟩) (ENNReal.ofReal (Real.exp (-1)))]
    exact emittedMean_mono hconf hframe fun d hd => (coal_bounds method hd).1
  have hhigh : truth ≤ ENNReal.ofReal ((1 + Real.exp (-1)) / 2) := by
    rw [← emittedMean_const ⟨0, 1, 0⟩ ⟨0, 0, 1⟩ (.isotropicFlux ⟨1, 0, 0⟩)
      (ENNReal.ofReal ((1 + Real.exp (-1)) / 2))]
    exact emittedMean_mono hconf hframe fun d hd => (coal_bounds method hd).2
  have h0 : 0 < truth := lt_of_lt_of_le (ENNReal.ofReal_pos.2 (Real.exp_pos _)) hlow
  have h1 : truth < 1 := by
    refine hhigh.trans_lt ?_
    rw [← ENNReal.ofReal_one, ENNReal.ofReal_lt_ofReal_iff one_pos]
    have := Real.exp_lt_one_iff.2 (show (-1 : ℝ) < 0 by norm_num)
    linarith
  have htop : ∫⁻ us, score us ^ 2 ∂uniforms ≠ ⊤ := by
    refine ne_top_of_le_ne_top ?_ hsq
    change _ * (∫⁻ us, score us ∂uniforms) + _ ≠ ⊤
    rw [hmean]
    exact ENNReal.add_ne_top.2 ⟨ENNReal.mul_ne_top ENNReal.ofReal_ne_top h1.ne_top, ENNReal.ofReal_ne_top⟩
  refine ⟨hsq, h0, h1, C79_standard_deviation hh htop, C79_average hh h1.ne_top,
    C79_confidence hh htop ?_ two_pos.le⟩
  change (∫⁻ us, score us ∂uniforms) ^ 2 < ∫⁻ us, score us ^ 2 ∂uniforms
  have hle : truth ≤ ∫⁻ us, score us ^ 2 ∂uniforms := by
    rw [← hmean]
    exact lintegral_mono fun us => whole_played _ _ _ _ _ _ _ us
  rw [hmean]
  refine lt_of_lt_of_le ?_ hle
  rw [sq]
  calc truth * truth < truth * 1 := ENNReal.mul_lt_mul_right h0.ne' h1.ne_top h1
    _ = truth := mul_one _

/-! ### Thin fog -/

/-- A thousand histories in very thin fog on eight threads. -/
noncomputable def hazeProblem (method : Method) : Problem :=
  { fogProblem (1 / 2 ^ 70) method with
    init := ⟨[⟨⟨"out", oneBin, [0], [0]⟩, ball 1 1, []⟩], 1000⟩ }

theorem haze_fresh (method : Method) : FreshSet (hazeProblem method).init := by
  refine ⟨⟨?_, ?_, ?_, ?_⟩, ⟨?_, ?_⟩, ?_⟩
  · intro e he e' he' _
    rw [List.mem_singleton.1 he, List.mem_singleton.1 he']
  · intro e he q hq
    rw [List.mem_singleton.1 he] at hq
    cases hq
  · intro e he
    rw [List.mem_singleton.1 he]
    exact ⟨rfl, rfl⟩
  · intro e he q hq
    rw [List.mem_singleton.1 he] at hq
    cases hq
  · intro e he
    rw [List.mem_singleton.1 he]
    exact oneBin_created
  · intro e he q hq
    rw [List.mem_singleton.1 he] at hq
    cases hq
  · rfl

theorem haze_result (method : Method) : ∃ r k, SolveResult (hazeProblem method) 1 0 r k :=
  C32_result_exists (P := hazeProblem method) (fuel := 1) (haze_fresh method) (by
    intro e _
    obtain ⟨states, hst⟩ := thin_fog_history method e
    refine ⟨states, hst, fun p _ => ⟨?_, ?_, ?_⟩⟩
    · intro x hx _
      rw [List.mem_singleton.1 hx]
      exact ⟨0, rfl⟩
    · intro x hx q hq
      rw [List.mem_singleton.1 hx] at hq
      cases hq
    · intro x hx q hq
      rw [List.mem_singleton.1 hx] at hq
      cases hq)

/-- Instance of the hypotheses of C79: the run has a result, and it is the mean and the standard error
of a thousand games. -/
example (method : Method) : ∃ r k, SolveResult (hazeProblem method) 1 0 r k ∧
    ∃ e', r.estimators = [e'] ∧ ∃ a b,
      (e'.base.means 1000)[0]? = some (.ok (mean (sample (fun k =>
        (played generator 1 (fun _ => fogNodes) (hazeProblem method) (currentHit (ball 1 1) oneBin 0) a b
          (fogIn (1 / 2 ^ 70)) 1 (Rng.ofSeed (1 + k))).toReal) 1000))) ∧
      (e'.base.stdDevs 1000)[0]? = some (.ok (standardError (sample (fun k =>
        (played generator 1 (fun _ => fogNodes) (hazeProblem method) (currentHit (ball 1 1) oneBin 0) a b
          (fogIn (1 / 2 ^ 70)) 1 (Rng.ofSeed (1 + k))).toReal) 1000))) := by
  have hw : WellPosed 1 (fun _ => fogNodes) (hazeProblem method).world :=
    fog_wellPosed (by positivity) method
  have hcell := (fog_cells (1 / 2 ^ 70) method ⟨0, 0, 0⟩).1 (by norm_num)
  have hs : GroupSource 1 (hazeProblem method).world (hazeProblem method).source :=
    ⟨rfl, ⟨1, rfl, le_rfl, le_rfl⟩, _, hcell, by simp [fogIn]⟩
  have hd : Configured (hazeProblem method).source.direction := by
    norm_num [hazeProblem, fogProblem, Configured, UnitVec]
  obtain ⟨r, k, h⟩ := haze_result method
  refine ⟨r, k, h, ?_⟩
  obtain ⟨a, b, c, g, -, h2, h3, h4⟩ := C79_result hw hs hd (haze_fresh method) (by norm_num [hazeProblem, fogProblem, slabProblem])
    (by norm_num [hazeProblem, fogProblem, slabProblem]) h
  cases h3
  cases firstCell_unique h2 hcell
  change List.Forall₂ _ [(⟨⟨"out", oneBin, [0], [0]⟩, ball 1 1, []⟩ : Estimator)] _ at h4
  cases hr : r.estimators with
  | nil => rw [hr] at h4; cases h4
  | cons e' rest =>
    rw [hr] at h4
    cases h4 with
    | cons k1 k2 =>
      cases k2
      obtain ⟨m1, m2⟩ := k1.2 0 (by decide)
      exact ⟨e', rfl, a, b, m1, m2⟩

end Minimc.Props
