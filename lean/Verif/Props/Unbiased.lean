import Verif.Props.Attenuation
import Verif.Props.Score
import Mathlib.Probability.StrongLaw
import Mathlib.Probability.Independence.InfinitePi

/-! # Property C71: the mean score of a current estimator in an absorber -/

namespace Minimc.Props

open Classical Spec MeasureTheory ProbabilityTheory

theorem route_prefix {G : ℕ} {nodes : Nuclide → List MgNode} {w : World} {g : ℕ} {d : Direction}
    {x y : Point} {rs : List Slice} (h : Route G nodes w g d x rs y) (k : ℕ) :
    ∃ z, Route G nodes w g d x (rs.take k) z := by
  by_cases hk : k < rs.length
  · obtain ⟨z, _, hz, _⟩ := route_take h k hk
    exact ⟨z, hz⟩
  · rw [List.take_of_length_le (not_lt.1 hk)]
    exact ⟨y, h⟩

/-- The states of a history in an absorber, one for each part of the way that is begun. -/
theorem absorb_way {G : ℕ} {nodes : Nuclide → List MgNode} {P : Problem}
    (hw : WellPosed G nodes P.world) (ha : Absorbing G nodes P.world) {R : ℝ} (hR : 0 ≤ R)
    (hb : MaterialWithin R P.world) (hs : GroupSource G P.world P.source)
    (hd : Configured P.source.direction) {fuel : ℕ} (hf : 2 * R < fuel * (10 / 2 ^ 52)) (e : ℕ)
    {g : ℕ} (hg : P.source.energy = .group g) {b : Born}
    (hsam : P.source.sample (P.seed + e) = .ok b) {rs : List Slice} {y : Point}
    (hroute : Route G nodes P.world g b.direction P.source.position rs y) {c : Cell}
    (hy : FirstCell P.world y c) (hc : c.material = none) :
    ∃ states, P.history fuel e = .ok states ∧ states.length ≤ rs.length ∧
      (∀ q ∈ states, q.direction = b.direction ∧ q.energy = P.source.energy) ∧
      ∀ k r, rs[k]? = some r →
        ((∃ q, states[k]? = some q ∧ CrossedSurface q) ↔
          Clears P.method (rs.take (k + 1)) (drawn (Rng.ofSeed b.seed))) ∧
        ∀ q, states[k]? = some q → CrossedSurface q →
          ∃ s, q.currentSurface = some s ∧ EndsAt r b.direction s := by
  obtain ⟨b', p, last, states, k1, k2, k3, k4, k5, k6, k7, k8, k9, k10, k11, k12⟩ :=
    absorb_history hw ha hR hb hs hd hf e
  rw [hsam] at k1
  cases k1
  obtain ⟨g', j1, j2, j3⟩ := hs.group
  rw [hg] at j1
  cases j1
  have hin : InGroup p g := k6.trans hg
  obtain ⟨init, q, rfl, hev, hinit⟩ := straight_last k11
  have hmain : ∀ {rs' : List Slice} {z : Point}, Route G nodes P.world g b.direction
      P.source.position rs' z → _ := fun hr => C70_uncollided hw j2 j3 P.method fuel hr k7 hin
        (k8 ▸ Rng.valid_ofSeed _) k4 k5 k10 k9 k3
  rw [k8] at hmain
  have hne : rs ≠ [] := by
    rintro rfl
    cases hroute
    obtain ⟨c', f1, f2⟩ := hs.place
    exact f2 (firstCell_unique f1 hy ▸ hc)
  have hpre : ∀ k (q' : Particle), (init ++ [q])[k]? = some q' → CrossedSurface q' →
      ∀ q'' ∈ (init ++ [q]).take (k + 1), CrossedSurface q'' := by
    intro k q' hq' hcr q'' hq''
    obtain ⟨hk, e1⟩ := List.getElem?_eq_some_iff.1 hq'
    obtain ⟨j, hj, rfl⟩ := List.getElem_of_mem hq''
    rw [List.getElem_take]
    rw [List.length_take] at hj
    by_cases hji : j < init.length
    · rw [List.getElem_append_left hji]
      exact .inl (hinit _ (List.getElem_mem hji))
    · have hkl : k < init.length + 1 := by simpa using hk
      have hjk : j = k := by omega
      subst hjk
      rw [e1]
      exact hcr
  refine ⟨_, k2, ?_, fun q' hq' => ⟨(k12 q' hq').1, (k12 q' hq').2.1⟩, ?_⟩
  · by_contra hlt
    have hlt' : rs.length ≤ init.length := by
      rw [List.length_append, List.length_singleton] at hlt
      omega
    obtain ⟨u1, u2⟩ := hmain hroute
    have hcl := u1.2 ⟨by simp; omega, fun q' hq' => by
      rw [List.take_append_of_le_length hlt'] at hq'
      exact .inl (hinit _ (List.mem_of_mem_take hq'))⟩
    obtain ⟨n, hn⟩ : ∃ n, rs.length = n + 1 :=
      ⟨rs.length - 1, by have := List.length_pos_iff.2 hne; omega⟩
    have hnl : n < init.length := by omega
    obtain ⟨-, -, -, v3, -⟩ := u2 hcl init[n] (by
      rw [hn, List.getElem?_cons_succ, List.getElem?_append_left hnl, List.getElem?_eq_getElem hnl])
    obtain ⟨c'', f4, f5⟩ := v3 hne
    have hleak := f5.2 (firstCell_unique hy f4 ▸ hc)
    rw [hinit _ (List.getElem_mem hnl)] at hleak
    cases hleak
  · intro k r hr
    obtain ⟨z, hz⟩ := route_prefix hroute (k + 1)
    obtain ⟨u1, u2⟩ := hmain hz
    have hk : k < rs.length := (List.getElem?_eq_some_iff.1 hr).1
    have hlen : (rs.take (k + 1)).length = k + 1 := by rw [List.length_take]; omega
    rw [hlen] at u1 u2
    have hiff : (∃ q', (init ++ [q])[k]? = some q' ∧ CrossedSurface q') ↔
        Clears P.method (rs.take (k + 1)) (drawn (Rng.ofSeed b.seed)) := by
      constructor
      · rintro ⟨q', hq', hcr⟩
        exact u1.2 ⟨(List.getElem?_eq_some_iff.1 hq').1, hpre k q' hq' hcr⟩
      · intro hcl
        obtain ⟨v1, v2⟩ := u1.1 hcl
        have hkl : k < (init ++ [q]).length := v1
        refine ⟨(init ++ [q])[k], List.getElem?_eq_getElem hkl, v2 _ ?_⟩
        rw [List.mem_take_iff_getElem]
        exact ⟨k, by omega, rfl⟩
    refine ⟨hiff, fun q' hq' hcr => ?_⟩
    obtain ⟨-, -, -, -, v⟩ := u2 (hiff.1 ⟨q', hq', hcr⟩) q' (by rw [List.getElem?_cons_succ, hq'])
    refine v r ?_
    rw [List.getLast?_eq_getElem?, hlen, Nat.add_sub_cancel, List.getElem?_take, if_pos (by omega), hr]

theorem countP_eq_sum (l : List Particle) (P : Particle → Prop) [DecidablePred P] :
    ∀ n, l.length ≤ n → l.countP (fun p => decide (P p)) =
      ∑ k ∈ Finset.range n, if ∃ q, l[k]? = some q ∧ P q then 1 else 0 := by
  induction l with
  | nil => intro n _; simp
  | cons a l ih =>
    intro n hn
    obtain ⟨n, rfl⟩ : ∃ m, n = m + 1 := ⟨n - 1, by simp at hn; omega⟩
    rw [Finset.sum_range_succ', List.countP_cons, ih n (by simpa using hn)]
    simp

/-- **C71** The score that a history in an absorber makes for a current estimator: the number of
crossings of the surface on the part of the way that the drawn numbers let it pass. -/
theorem C71_score {G : ℕ} {nodes : Nuclide → List MgNode} {P : Problem}
    (hw : WellPosed G nodes P.world) (ha : Absorbing G nodes P.world) {R : ℝ} (hR : 0 ≤ R)
    (hb : MaterialWithin R P.world) (hs : GroupSource G P.world P.source)
    (hd : Configured P.source.direction) {fuel : ℕ} (hf : 2 * R < fuel * (10 / 2 ^ 52)) (e : ℕ)
    {g : ℕ} (hg : P.source.energy = .group g) {b : Born}
    (hsam : P.source.sample (P.seed + e) = .ok b) {rs : List Slice} {y : Point}
    (hroute : Route G nodes P.world g b.direction P.source.position rs y) {c : Cell}
    (hy : FirstCell P.world y c) (hc : c.material = none) (hties : NoTies rs b.direction)
    (surface : SurfaceObj) (bins : ParticleBins) (i : ℕ) :
    ∃ states, P.history fuel e = .ok states ∧
      crossings surface bins states i =
        if bins.getIndex b.direction P.source.energy.toReal = .ok i then
          passages P.method rs b.direction surface (drawn (Rng.ofSeed b.seed)) else 0 := by
  obtain ⟨states, h1, h2, h3, h4⟩ :=
    absorb_way hw ha hR hb hs hd hf e hg hsam hroute hy hc
  refine ⟨states, h1, ?_⟩
  unfold crossings
  have hcongr : states.countP (fun p => decide (Crossed surface p ∧
        bins.getIndex p.direction p.energy.toReal = .ok i)) =
      states.countP (fun p => decide (Crossed surface p ∧
        bins.getIndex b.direction P.source.energy.toReal = .ok i)) :=
    List.countP_congr fun q hq => by rw [(h3 q hq).1, (h3 q hq).2]
  rw [hcongr]
  split_ifs with hi
  · rw [countP_eq_sum states _ rs.length h2]
    unfold passages
    refine Finset.sum_congr rfl fun k hk => ?_
    congr 1
    apply propext
    have hkl : k < rs.length := Finset.mem_range.1 hk
    have hr : rs[k]? = some rs[k] := List.getElem?_eq_getElem hkl
    obtain ⟨v1, v2⟩ := h4 k _ hr
    constructor
    · rintro ⟨q, hq, ⟨s, s1, s2, s3⟩, -⟩
      obtain ⟨s', w1, w2⟩ := v2 q hq s3
      rw [s1] at w1
      cases w1
      obtain ⟨s'', x1, x2, x3⟩ := w2
      exact ⟨⟨_, hr, s'', x1, x2, x3.trans s2⟩, v1.1 ⟨q, hq, s3⟩⟩
    · rintro ⟨⟨r, r1, r2⟩, hcl⟩
      rw [hr] at r1
      cases r1
      obtain ⟨q, hq, hcr⟩ := v1.2 hcl
      obtain ⟨s', w1, w2⟩ := v2 q hq hcr
      exact ⟨q, hq, ⟨s', w1, hties _ (List.getElem_mem hkl) _ _ w2 r2, hcr⟩, hi⟩
  · rw [List.countP_eq_zero]
    intro q _
    simp [hi]

theorem measurable_passages (method : Method) (rs : List Slice) (d : Direction)
    (surface : SurfaceObj) : Measurable (passages method rs d surface) := by
  unfold passages
  refine Finset.measurable_fun_sum _ fun k _ => ?_
  have hm := measurableSet_clears method (rs.take (k + 1))
  by_cases hr : ∃ r, rs[k]? = some r ∧ EndsAt r d surface
  · simp only [hr, true_and]
    exact Measurable.ite hm measurable_const measurable_const
  · simp only [hr, false_and, if_false]
    exact measurable_const

theorem passages_le (method : Method) (rs : List Slice) (d : Direction) (surface : SurfaceObj)
    (us : ℕ → ℝ) : passages method rs d surface us ≤ rs.length := by
  unfold passages
  calc _ ≤ ∑ _k ∈ Finset.range rs.length, 1 := Finset.sum_le_sum fun k _ => by split_ifs <;> simp
    _ = _ := by simp

/-- **C71** If the numbers are independent, the mean of that score is, for each crossing of the
surface by the way, the exponential of minus the optical depth up to there. -/
theorem C71_mean {G : ℕ} {nodes : Nuclide → List MgNode} {w : World}
    (hw : WellPosed G nodes w) {g : ℕ} (h1 : 1 ≤ g) (h2 : g ≤ G) {d : Direction} (hd : UnitVec d)
    {x y : Point} {rs : List Slice} (h : Route G nodes w g d x rs y) (method : Method)
    (surface : SurfaceObj) :
    ∫⁻ us, (passages method rs d surface us : ENNReal) ∂uniforms =
      ∑ k ∈ Finset.range rs.length, if ∃ r, rs[k]? = some r ∧ EndsAt r d surface then
        ENNReal.ofReal (Real.exp (-opticalDepth (rs.take (k + 1)))) else 0 := by
  unfold passages
  simp only [Nat.cast_sum]
  rw [lintegral_finsetSum]
  · refine Finset.sum_congr rfl fun k _ => ?_
    split_ifs with hr
    · obtain ⟨z, hz⟩ := route_prefix h (k + 1)
      rw [← C70_attenuation hw h1 h2 hd hz method, ← lintegral_indicator_one
        (measurableSet_clears method _)]
      refine lintegral_congr fun us => ?_
      simp only [hr, true_and, Set.indicator_apply, Set.mem_ofPred_eq, Pi.one_apply]
      split_ifs <;> simp
    · simp [hr]
  · intro k _
    have hm := measurableSet_clears method (rs.take (k + 1))
    by_cases hr : ∃ r, rs[k]? = some r ∧ EndsAt r d surface
    · simp only [hr, true_and]
      exact (measurable_from_nat (f := fun n : ℕ => (n : ENNReal))).comp
        (Measurable.ite hm measurable_const measurable_const)
    · simp [hr]

/-- **C71** With independent numbers for each history, the average score of the histories almost surely
tends to that mean. -/
theorem C71_converges {G : ℕ} {nodes : Nuclide → List MgNode} {w : World}
    (hw : WellPosed G nodes w) {g : ℕ} (h1 : 1 ≤ g) (h2 : g ≤ G) {d : Direction} (hd : UnitVec d)
    {x y : Point} {rs : List Slice} (h : Route G nodes w g d x rs y) (method : Method)
    (surface : SurfaceObj) :
    ∀ᵐ histories ∂(Measure.infinitePi fun _ : ℕ => uniforms),
      Filter.Tendsto
        (fun n : ℕ => (∑ e ∈ Finset.range n, (passages method rs d surface (histories e) : ℝ)) / n)
        Filter.atTop
        (nhds (∑ k ∈ Finset.range rs.length, if ∃ r, rs[k]? = some r ∧ EndsAt r d surface then
          Real.exp (-opticalDepth (rs.take (k + 1))) else 0)) := by
  have hm : Measurable fun us : ℕ → ℝ => (passages method rs d surface us : ℝ) :=
    measurable_from_nat.comp (measurable_passages method rs d surface)
  have hev : ∀ e : ℕ, MeasurePreserving (fun histories : ℕ → ℕ → ℝ => histories e)
      (Measure.infinitePi fun _ : ℕ => uniforms) uniforms :=
    fun e => measurePreserving_eval_infinitePi (fun _ : ℕ => uniforms) e
  have hint : Integrable (fun us => (passages method rs d surface us : ℝ)) uniforms :=
    Integrable.of_bound hm.aestronglyMeasurable rs.length (ae_of_all _ fun us => by
      rw [Real.norm_of_nonneg (Nat.cast_nonneg _)]
      exact_mod_cast passages_le method rs d surface us)
  have hlim := strong_law_ae_real (μ := Measure.infinitePi fun _ : ℕ => uniforms)
    (fun e histories => (passages method rs d surface (histories e) : ℝ))
    ((hev 0).integrable_comp_of_integrable hint)
    (fun i j hij => (iIndepFun_infinitePi (P := fun _ : ℕ => uniforms)
      (X := fun _ us => (passages method rs d surface us : ℝ)) fun _ => hm).indepFun hij)
    (fun i => ⟨(hm.comp (hev i).measurable).aemeasurable, (hm.comp (hev 0).measurable).aemeasurable, by
      rw [show (fun histories : ℕ → ℕ → ℝ => (passages method rs d surface (histories i) : ℝ)) =
          (fun us => (passages method rs d surface us : ℝ)) ∘ fun hs : ℕ → ℕ → ℝ => hs i from rfl,
        show (fun histories : ℕ → ℕ → ℝ => (passages method rs d surface (histories 0) : ℝ)) =
          (fun us => (passages method rs d surface us : ℝ)) ∘ fun hs : ℕ → ℕ → ℝ => hs 0 from rfl,
        ← Measure.map_map hm (hev i).measurable, ← Measure.map_map hm (hev 0).measurable,
        (hev i).map_eq, (hev 0).map_eq]⟩)
  have hmean : (Measure.infinitePi fun _ : ℕ => uniforms)[fun histories : ℕ → ℕ → ℝ =>
      (passages method rs d surface (histories 0) : ℝ)] =
      ∑ k ∈ Finset.range rs.length, if ∃ r, rs[k]? = some r ∧ EndsAt r d surface then
        Real.exp (-opticalDepth (rs.take (k + 1))) else 0 := by
    have hl := C71_mean hw h1 h2 hd h method surface
    rw [integral_eq_lintegral_of_nonneg_ae (ae_of_all _ fun _ => Nat.cast_nonneg _)
      (hm.comp (hev 0).measurable).aestronglyMeasurable,
      (hev 0).lintegral_comp (f := fun us => ENNReal.ofReal (passages method rs d surface us : ℝ))
        hm.ennreal_ofReal]
    simp only [ENNReal.ofReal_natCast]
    rw [hl, ENNReal.toReal_sum fun k _ => by split_ifs <;> simp]
    refine Finset.sum_congr rfl fun k _ => ?_
    split_ifs
    · exact ENNReal.toReal_ofReal (Real.exp_pos _).le
    · rfl
  rw [hmean] at hlim
  exact hlim

/-! ### Instance: a ball in a shell -/

theorem shellWay_ends (s : SurfaceObj) :
    (EndsAt ⟨innerCell, ⟨0, 0, 0⟩, 1, 1⟩ ⟨1, 0, 0⟩ s ↔ s.id = 1) ∧
    (EndsAt ⟨shellCell, ⟨1 + 10 / 2 ^ 52, 0, 0⟩, 1, 1 - 10 / 2 ^ 52⟩ ⟨1, 0, 0⟩ s ↔ s.id = 2) := by
  constructor
  · constructor
    · rintro ⟨s', ⟨b, hb⟩, -, h⟩
      simp only [innerCell, List.mem_singleton, Prod.mk.injEq] at hb
      rw [← h, hb.1]
      rfl
    · intro h
      refine ⟨ball 1 1, ⟨true, by simp [innerCell]⟩, ?_, h.symm⟩
      rw [ball_ahead 1 le_rfl one_pos, sub_zero]
  · constructor
    · rintro ⟨s', ⟨b, hb⟩, hdist, h⟩
      simp only [shellCell, List.mem_cons, List.not_mem_nil, or_false, Prod.mk.injEq] at hb
      rcases hb with ⟨rfl, -⟩ | ⟨rfl, -⟩
      · rw [ball_behind 1 one_pos (by norm_num)] at hdist
        cases hdist
      · exact h.symm
    · intro h
      refine ⟨ball 2 2, ⟨true, by simp [shellCell]⟩, ?_, h.symm⟩
      rw [ball_ahead 2 (by norm_num) (by norm_num)]
      congr 1
      ring

/-- Instance of the hypotheses of C71: the score of each history of the beam for the sphere about the
shell is given by its numbers; the average over endlessly many histories is the exponential of minus
the optical depth of ball and shell. -/
example (method : Method) (e : ℕ) :
    (∃ b states, (shellProblem method).source.sample (1 + e) = .ok b ∧
      (shellProblem method).history (2 ^ 52) e = .ok states ∧
      crossings (ball 2 2) oneBin states 0 =
        passages method shellWay ⟨1, 0, 0⟩ (ball 2 2) (drawn (Rng.ofSeed b.seed))) ∧
    ∀ᵐ histories ∂(Measure.infinitePi fun _ : ℕ => uniforms),
      Filter.Tendsto (fun n : ℕ => (∑ e ∈ Finset.range n,
        (passages method shellWay ⟨1, 0, 0⟩ (ball 2 2) (histories e) : ℝ)) / n)
        Filter.atTop (nhds (Real.exp (-(2 - 10 / 2 ^ 52)))) := by
  constructor
  · have hd : Configured (shellProblem method).source.direction := by
      norm_num [shellProblem, Configured, UnitVec]
    obtain ⟨b, h1, -⟩ := C51_source_particle (shellProblem method).source hd (1 + e)
    have hbd : b.direction = ⟨1, 0, 0⟩ := by
      cases h1
      rfl
    obtain ⟨states, h2, h3⟩ := C71_score (P := shellProblem method) (G := 1)
      (shell_wellPosed method) (by
        intro c _ m _ e _ g h1 h2
        simp [specXS, nodeXS]) (R := 2) (by norm_num) (by
        intro x c hc hm
        by_contra hlt
        exact hm (firstCell_unique hc ((shell_cells method x).2.2 (by linarith)) ▸ rfl))
      ⟨rfl, ⟨1, rfl, le_rfl, le_rfl⟩, innerCell,
        (shell_cells method _).1 (by norm_num [shellProblem]),
        by simp [innerCell]⟩ hd (fuel := 2 ^ 52) (by norm_num) e rfl h1
      (rs := shellWay) (y := ⟨2 + 10 / 2 ^ 52, 0, 0⟩) (hbd ▸ shell_route method)
      (c := outerCell) ((shell_cells method _).2.2 (by norm_num)) rfl (by
        rw [hbd]
        intro r hr s s' hs hs'
        simp only [shellWay, List.mem_cons, List.not_mem_nil, or_false] at hr
        rcases hr with rfl | rfl
        · rw [(shellWay_ends s).1.1 hs, (shellWay_ends s').1.1 hs']
        · rw [(shellWay_ends s).2.1 hs, (shellWay_ends s').2.1 hs']) (ball 2 2) oneBin 0
    refine ⟨b, states, h1, h2, ?_⟩
    rw [h3, if_pos (by rfl), hbd]
    rfl
  · have h := C71_converges (shell_wellPosed method) le_rfl le_rfl (by norm_num [UnitVec])
      (shell_route method) method (ball 2 2)
    have e1 : ¬ EndsAt ⟨innerCell, ⟨0, 0, 0⟩, 1, 1⟩ ⟨1, 0, 0⟩ (ball 2 2) := by
      rw [(shellWay_ends _).1]
      simp [ball]
    have e2 : EndsAt ⟨shellCell, ⟨1 + 10 / 2 ^ 52, 0, 0⟩, 1, 1 - 10 / 2 ^ 52⟩ ⟨1, 0, 0⟩ (ball 2 2) := by
      rw [(shellWay_ends _).2]
      rfl
    have hsum : (∑ k ∈ Finset.range shellWay.length,
        if ∃ r, shellWay[k]? = some r ∧ EndsAt r ⟨1, 0, 0⟩ (ball 2 2) then
          Real.exp (-opticalDepth (shellWay.take (k + 1))) else 0) =
        Real.exp (-(2 - 10 / 2 ^ 52)) := by
      rw [show shellWay.length = 2 from rfl, Finset.sum_range_succ, Finset.sum_range_one,
        if_neg, if_pos, zero_add]
      · congr 1
        norm_num [opticalDepth, shellWay]
      · exact ⟨_, rfl, e2⟩
      · rintro ⟨r, hr, hends⟩
        cases hr
        exact e1 hends
    rw [hsum] at h
    exact h

end Minimc.Props
