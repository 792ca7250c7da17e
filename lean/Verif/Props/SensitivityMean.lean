import Verif.Props.Unbiased
import Verif.Props.Sensitivity
import Verif.Spec.SensitivityWay
import Mathlib.Analysis.SpecialFunctions.ExpDeriv

/-! # Property C83: the mean score of a sensitivity in an absorber -/

namespace Minimc.Props

open Classical Spec MeasureTheory ProbabilityTheory

/-- The particle carries an effect of the perturbation. -/
def Carries (p : Particle) (q : Perturbation) (v : ℝ) : Prop :=
  p.indirectEffects.find? (fun e => e.1.id == q.id) = some (q, v)

theorem carries_forall₂ {q : Perturbation} {v : ℝ} {f : Perturbation → ℝ → Prop} :
    ∀ {l l' : List (Perturbation × ℝ)},
    List.Forall₂ (fun a b => ∃ u, f a.1 u ∧ b = (a.1, a.2 + u)) l l' →
    l.find? (fun e => e.1.id == q.id) = some (q, v) →
    ∃ u, f q u ∧ l'.find? (fun e => e.1.id == q.id) = some (q, v + u)
  | [], _, _, h => by simp at h
  | a :: l, _, .cons (b := b) (l₂ := l') hab hl, h => by
    obtain ⟨u, hu, rfl⟩ := hab
    rw [List.find?_cons] at h
    rw [List.find?_cons]
    by_cases ha : (a.1.id == q.id) = true
    · rw [ha] at h
      dsimp only at h
      obtain rfl := Option.some.inj h
      exact ⟨u, hu, by simp⟩
    · rw [Bool.not_eq_true] at ha
      rw [ha] at h
      dsimp only at h
      obtain ⟨u', h1, h2⟩ := carries_forall₂ hl h
      refine ⟨u', h1, ?_⟩
      simp only [ha]
      exact h2

theorem effects_keys {qs : List Perturbation} : ∀ (m : List (Perturbation × ℝ)),
    ∀ e ∈ qs.foldl (fun m q => emplaceByAddr Perturbation.id q 0 m) m,
      e.1 ∈ qs ∨ e.1 ∈ m.map Prod.fst := by
  induction qs with
  | nil =>
    intro m e he
    exact .inr (List.mem_map.2 ⟨e, he, rfl⟩)
  | cons q qs ih =>
    intro m e he
    rcases ih _ e he with h | h
    · exact .inl (List.mem_cons_of_mem _ h)
    · obtain ⟨e', he', h'⟩ := List.mem_map.1 h
      rcases (emplaceByAddr_mem Perturbation.id q 0 m e').1 he' with k | ⟨rfl, _⟩ | ⟨rfl, _⟩
      · exact .inr (List.mem_map.2 ⟨e', k, h'⟩)
      · exact .inl (by rw [← h']; simp)
      · exact .inl (by rw [← h']; simp)

theorem carries_start {p : Particle} {qs : List Perturbation} {q : Perturbation}
    (hp : p.indirectEffects = getIndirectEffects qs) (hq : q ∈ qs)
    (hid : ∀ q' ∈ qs, q'.id = q.id → q' = q) : Carries p q 0 := by
  unfold Carries
  rw [hp]
  have hmem : q.id ∈ (getIndirectEffects qs).map (fun e => e.1.id) :=
    (effects_ids [] q.id).2 (Or.inl (List.mem_map.2 ⟨q, hq, rfl⟩))
  rcases hf : (getIndirectEffects qs).find? (fun e => e.1.id == q.id) with _ | e
  · obtain ⟨e, he, hid'⟩ := List.mem_map.1 hmem
    have := List.find?_eq_none.1 hf e he
    simp [hid'] at this
  · have hm := List.mem_of_find?_eq_some hf
    have h0 := effects_mem (qs := qs) [] (by simp) e hm
    have h1 : e.1.id = q.id := by simpa using List.find?_some hf
    rcases effects_keys (qs := qs) [] e hm with h | h
    · have h2 := hid _ h h1
      refine hf.trans ?_
      rw [show e = (e.1, e.2) from rfl, h2, h0]
    · simp at h

theorem along_injective {x : Point} {d : Direction} (hd : UnitVec d) {s t : ℝ}
    (h : along x d s = along x d t) : s = t := by
  have := congrArg (fun y => progress y d) h
  simp only [progress_along _ _ hd] at this
  linarith

/-- What a crossing adds to the effect of a perturbation. -/
theorem crossing_credit {G : ℕ} {nodes : Nuclide → List MgNode} {w : World}
    (hw : WellPosed G nodes w) {p : Particle} {g : ℕ} (ht : p.type = .neutron) (hg : InGroup p g)
    (h1 : 1 ≤ g) (h2 : g ≤ G) {c : Cell} (hc : c ∈ w.cells) (hpc : p.cell = some c) {m : Material}
    (hm : c.material = some m) (method : Method) (q : Perturbation) (x : Point) (t : ℝ) :
    q.stream method p (t + 10 / 2 ^ 52) =
      .ok (credit q.nuclideId ⟨c, x, macroscopic G nodes g m, t⟩) := by
  obtain ⟨-, -, hden⟩ := group_density hw hc hm hpc ht hg h1 h2 method
  have hpos := group_shares hw hc hm h1 h2
  have hN := hw.density c hc m hm
  have hmac : macroscopic G nodes g m =
    m.numberDensity * (shares m fun n => specTotal G (nodes n) g).sum := rfl
  unfold Perturbation.stream credit
  rw [Particle.getCell_ok.2 hpc]
  simp only [bind, Except.bind, hm]
  by_cases ha : m.afracs.any (fun e => e.1.id == q.nuclideId) = true
  · have hh : HoldsNuclide q.nuclideId ⟨c, x, macroscopic G nodes g m, t⟩ := by
      obtain ⟨e, he, hid⟩ := List.any_eq_true.1 ha
      exact ⟨m, hm, e, he, by simpa using hid⟩
    rw [if_pos ha, if_pos hh, hden]
    dsimp only
    rw [if_neg hpos.ne']
    simp only [allAtoms, hm, hmac]
    rw [div_mul_cancel_left₀ hN.ne', one_div]
    rfl
  · have hh : ¬ HoldsNuclide q.nuclideId ⟨c, x, macroscopic G nodes g m, t⟩ := by
      rintro ⟨m', hm', e, he, hid⟩
      have : m' = m := Option.some.inj (hm'.symm.trans hm)
      subst this
      exact ha (List.any_eq_true.2 ⟨e, he, by simpa using hid⟩)
    rw [if_neg ha, if_neg hh]
    rfl

/-- The effect of a perturbation after a way without collision. -/
theorem uncollided_credits {G : ℕ} {nodes : Nuclide → List MgNode} {w : World}
    (hw : WellPosed G nodes w) {g : ℕ} (h1 : 1 ≤ g) (h2 : g ≤ G) (method : Method) (fuel : ℕ)
    {d : Direction} (hd : UnitVec d) {x y : Point} {rs : List Slice}
    (hroute : Route G nodes w g d x rs y) (q : Perturbation) :
    ∀ {n : ℕ} {p last : Particle} {scored : List Particle} {v : ℝ}, p.type = .neutron → InGroup p g →
      Rng.Valid p.rng → p.position = x → p.direction = d →
      (∃ c, FirstCell w x c ∧ p.cell = some c) → ¬ Ended p → Carries p q v →
      transportLoop method fuel w n p = .ok (last, scored) → Clears method rs (drawn p.rng) →
      ∀ p', (p :: scored)[rs.length]? = some p' → Carries p' q (v + credits q.nuclideId rs) := by
  induction hroute with
  | arrived =>
    intro n p last scored v ht hg hr hx hd' hc hend hcar h _ p' hp'
    simp only [List.length_nil, List.getElem?_cons_zero, Option.some.injEq] at hp'
    subst hp'
    simpa [credits] using hcar
  | @slice x y c m t rest hc hm hn hroute ih =>
    intro n p last scored v ht hg hr hx hd' hcell hend hcar h hcl p' hp'
    obtain ⟨c', hc', hpc⟩ := hcell
    obtain rfl : c' = c := firstCell_unique hc' hc
    subst hx hd'
    obtain ⟨p₁, hs, hyes, -⟩ := group_step_reach hw ht hg h1 h2 hr hc hpc hm hn method fuel
    have hcw : c' ∈ w.cells := by
      obtain ⟨l, r, hlr, -⟩ := hc
      rw [hlr]; simp
    cases n with
    | zero =>
      unfold transportLoop at h
      rw [if_pos ((alive_iff p).2 hend)] at h
      cases h
    | succ n =>
      unfold transportLoop at h
      rw [if_pos ((alive_iff p).2 hend), hs] at h
      simp only [bind, Except.bind] at h
      cases hl : transportLoop method fuel w n p₁ with
      | error e => rw [hl] at h; cases h
      | ok r =>
        obtain ⟨last', scored'⟩ := r
        rw [hl] at h
        cases h
        simp only [Clears, drawn_zero, drawn_succ] at hcl
        rw [List.length_cons, List.getElem?_cons_succ] at hp'
        obtain ⟨k1, k2, ⟨c'', k3, k4, k5⟩, k6, k7, k8, k9, -⟩ := hyes hcl.1
        obtain ⟨t', gen, a1, a2⟩ := C50_accumulates hs
        have htt : t' = t + 10 / 2 ^ 52 := along_injective hd (a1.symm.trans k2)
        subst htt
        obtain ⟨u, hu, hcar'⟩ := carries_forall₂ (f := fun q u =>
          q.stream method { p with rng := gen } (t + 10 / 2 ^ 52) = .ok u) a2 hcar
        rw [crossing_credit hw (p := { p with rng := gen }) ht hg h1 h2 hcw hpc hm method q p.position t,
          Except.ok.injEq] at hu
        subst hu
        have hsum : v + credits q.nuclideId (⟨c', p.position, macroscopic G nodes g m, t⟩ :: rest) =
            v + credit q.nuclideId ⟨c', p.position, macroscopic G nodes g m, t⟩ +
              credits q.nuclideId rest := by
          simp only [credits, List.map_cons, List.sum_cons]
          ring
        rw [hsum]
        cases hroute with
        | arrived =>
          simp only [List.length_nil, List.getElem?_cons_zero, Option.some.injEq] at hp'
          subst hp'
          have h0 : credits q.nuclideId [] = 0 := rfl
          rw [h0, add_zero]
          exact hcar'
        | slice j1 j2 j3 j4 =>
          rename_i c2 m2 t2 rest2
          have hc2 : c'' = c2 := firstCell_unique k3 (k2 ▸ j1)
          have hcr : p₁.event = .surfaceCross := by
            rcases k1 with k | k
            · exact k
            · have := k5.2 k
              rw [hc2, j2] at this
              cases this
          have hg' : InGroup p₁ g := by
            unfold InGroup at hg ⊢
            rw [k7]; exact hg
          exact ih (n := n) (p := p₁) (last := last') (scored := scored') (k8.trans ht) hg'
            (k9 ▸ Rng.valid_canonical hr) k2 k6 ⟨c'', k2 ▸ k3, k4⟩ (by simp [Ended, hcr]) hcar' hl
            (k9.symm ▸ hcl.2) p' hp'

/-- The effects of a perturbation in a history in an absorber. -/
theorem absorb_way_effects {G : ℕ} {nodes : Nuclide → List MgNode} {P : Problem}
    (hw : WellPosed G nodes P.world) (ha : Absorbing G nodes P.world) {R : ℝ} (hR : 0 ≤ R)
    (hb : MaterialWithin R P.world) (hs : GroupSource G P.world P.source)
    (hd : Configured P.source.direction) {fuel : ℕ} (hf : 2 * R < fuel * (10 / 2 ^ 52)) (e : ℕ)
    {g : ℕ} (hg : P.source.energy = .group g) {b : Born}
    (hsam : P.source.sample (P.seed + e) = .ok b) {rs : List Slice} {y : Point}
    (hroute : Route G nodes P.world g b.direction P.source.position rs y)
    {q : Perturbation} (hq : q ∈ P.perturbations)
    (hid : ∀ q' ∈ P.perturbations, q'.id = q.id → q' = q) :
    ∃ states, P.history fuel e = .ok states ∧ ∀ k < rs.length, ∀ p, states[k]? = some p →
      Clears P.method (rs.take (k + 1)) (drawn (Rng.ofSeed b.seed)) →
      Carries p q (credits q.nuclideId (rs.take (k + 1))) := by
  obtain ⟨b', p, last, states, k1, k2, k3, k4, k5, k6, k7, k8, k9, k10, k11, k12, k13⟩ :=
    absorb_history_effects hw ha hR hb hs hd hf e
  rw [hsam] at k1
  cases k1
  obtain ⟨g', j1, j2, j3⟩ := hs.group
  rw [hg] at j1
  cases j1
  have hin : InGroup p g := k6.trans hg
  obtain ⟨b'', h1, -, -, -, h5, -⟩ := C51_source_particle P.source hd (P.seed + e)
  rw [hsam] at h1
  cases h1
  refine ⟨states, k2, fun k hk p' hp' hcl => ?_⟩
  obtain ⟨z, hz⟩ := route_prefix hroute (k + 1)
  have hlen : (rs.take (k + 1)).length = k + 1 := by rw [List.length_take]; omega
  have := uncollided_credits hw j2 j3 P.method fuel h5 hz q k7 hin (k8 ▸ Rng.valid_ofSeed _) k4 k5 k10
    k9 (carries_start k13 hq hid) k3 (k8.symm ▸ hcl) p' (by rw [hlen, List.getElem?_cons_succ, hp'])
  rwa [zero_add] at this

theorem sum_map_eq_sum (l : List Particle) (f : Particle → ℝ) :
    ∀ n, l.length ≤ n → (l.map f).sum =
      ∑ k ∈ Finset.range n, (l[k]?.map f).getD 0 := by
  induction l with
  | nil => intro n _; simp
  | cons a l ih =>
    intro n hn
    obtain ⟨n, rfl⟩ : ∃ m, n = m + 1 := ⟨n - 1, by simp at hn; omega⟩
    rw [Finset.sum_range_succ', List.map_cons, List.sum_cons, ih n (by simpa using hn), add_comm]
    simp

/-- **C83** The score that a history in an absorber makes for a sensitivity: the credits at the
crossings of the surface on the part of the way that the drawn numbers let it pass. -/
theorem C83_score {G : ℕ} {nodes : Nuclide → List MgNode} {P : Problem}
    (hw : WellPosed G nodes P.world) (ha : Absorbing G nodes P.world) {R : ℝ} (hR : 0 ≤ R)
    (hb : MaterialWithin R P.world) (hs : GroupSource G P.world P.source)
    (hd : Configured P.source.direction) {fuel : ℕ} (hf : 2 * R < fuel * (10 / 2 ^ 52)) (e : ℕ)
    {g : ℕ} (hg : P.source.energy = .group g) {b : Born}
    (hsam : P.source.sample (P.seed + e) = .ok b) {rs : List Slice} {y : Point}
    (hroute : Route G nodes P.world g b.direction P.source.position rs y) {c : Cell}
    (hy : FirstCell P.world y c) (hc : c.material = none) (hties : NoTies rs b.direction)
    {q : Perturbation} (hq : q ∈ P.perturbations)
    (hid : ∀ q' ∈ P.perturbations, q'.id = q.id → q' = q)
    (surface : SurfaceObj) (bins : ParticleBins) (i : ℕ) :
    ∃ states, P.history fuel e = .ok states ∧
      historyScore bins (effectAtCrossing surface q) states i =
        if bins.getIndex b.direction P.source.energy.toReal = .ok i then
          creditedPassages P.method q.nuclideId rs b.direction surface (drawn (Rng.ofSeed b.seed))
        else 0 := by
  obtain ⟨states, h1, h2, h3, h4⟩ :=
    absorb_way hw ha hR hb hs hd hf e hg hsam hroute hy hc
  obtain ⟨states', h1', h5⟩ := absorb_way_effects hw ha hR hb hs hd hf e hg hsam hroute hq hid
  rw [h1] at h1'
  cases h1'
  refine ⟨states, h1, ?_⟩
  unfold historyScore
  rw [List.map_congr_left (g := fun p =>
    if bins.getIndex b.direction P.source.energy.toReal = .ok i then effectAtCrossing surface q p
      else 0) fun p hp => by rw [(h3 p hp).1, (h3 p hp).2]]
  split_ifs with hi
  · rw [sum_map_eq_sum states _ rs.length h2]
    unfold creditedPassages
    refine Finset.sum_congr rfl fun k hk => ?_
    have hkl : k < rs.length := Finset.mem_range.1 hk
    have hr : rs[k]? = some rs[k] := List.getElem?_eq_getElem hkl
    obtain ⟨v1, v2⟩ := h4 k _ hr
    by_cases hcl : Clears P.method (rs.take (k + 1)) (drawn (Rng.ofSeed b.seed))
    · obtain ⟨p, hp, hcr⟩ := v1.2 hcl
      obtain ⟨s', w1, w2⟩ := v2 p hp hcr
      have hcar := h5 k hkl p hp hcl
      unfold Carries at hcar
      rw [hp, Option.map_some, Option.getD_some]
      unfold effectAtCrossing
      rw [hcar, Option.map_some, Option.getD_some]
      have hiff : Crossed surface p ↔ (∃ r, rs[k]? = some r ∧ EndsAt r b.direction surface) ∧
          Clears P.method (rs.take (k + 1)) (drawn (Rng.ofSeed b.seed)) := by
        constructor
        · rintro ⟨s, s1, s2, s3⟩
          rw [s1] at w1
          cases w1
          obtain ⟨s'', x1, x2, x3⟩ := w2
          exact ⟨⟨_, hr, s'', x1, x2, x3.trans s2⟩, hcl⟩
        · rintro ⟨⟨r, r1, r2⟩, -⟩
          rw [hr] at r1
          cases r1
          exact ⟨s', w1, hties _ (List.getElem_mem hkl) _ _ w2 r2, hcr⟩
      simp only [hiff]
    · rw [if_neg fun h => hcl h.2]
      rcases hp : states[k]? with _ | p
      · rfl
      · rw [Option.map_some, Option.getD_some]
        unfold effectAtCrossing
        rw [if_neg]
        rintro ⟨s, -, -, s3⟩
        exact hcl (v1.1 ⟨p, hp, s3⟩)
  · exact List.sum_eq_zero fun x hx => by
      obtain ⟨_, -, rfl⟩ := List.mem_map.1 hx
      rfl

theorem measurable_creditedPassages (method : Method) (nuclide : ℕ) (rs : List Slice) (d : Direction)
    (surface : SurfaceObj) : Measurable (creditedPassages method nuclide rs d surface) := by
  unfold creditedPassages
  refine Finset.measurable_fun_sum _ fun k _ => ?_
  have hm := measurableSet_clears method (rs.take (k + 1))
  by_cases hr : ∃ r, rs[k]? = some r ∧ EndsAt r d surface
  · simp only [hr, true_and]
    exact Measurable.ite hm measurable_const measurable_const
  · simp only [hr, false_and, if_false]
    exact measurable_const

theorem creditedPassages_le (method : Method) (nuclide : ℕ) (rs : List Slice) (d : Direction)
    (surface : SurfaceObj) (us : ℕ → ℝ) : ‖creditedPassages method nuclide rs d surface us‖ ≤
      ∑ k ∈ Finset.range rs.length, ‖credits nuclide (rs.take (k + 1))‖ := by
  unfold creditedPassages
  refine (norm_sum_le _ _).trans (Finset.sum_le_sum fun k _ => ?_)
  split_ifs
  · exact le_rfl
  · rw [norm_zero]; exact norm_nonneg _

/-- **C83** If the numbers are independent, the mean of that score is, for each crossing of the
surface by the way, the credits up to there times the exponential of minus the optical depth. -/
theorem C83_mean {G : ℕ} {nodes : Nuclide → List MgNode} {w : World}
    (hw : WellPosed G nodes w) {g : ℕ} (h1 : 1 ≤ g) (h2 : g ≤ G) {d : Direction} (hd : UnitVec d)
    {x y : Point} {rs : List Slice} (h : Route G nodes w g d x rs y) (method : Method)
    (nuclide : ℕ) (surface : SurfaceObj) :
    ∫ us, creditedPassages method nuclide rs d surface us ∂uniforms =
      meanCredits nuclide rs d surface := by
  unfold creditedPassages meanCredits
  rw [integral_finsetSum]
  · refine Finset.sum_congr rfl fun k _ => ?_
    split_ifs with hr
    · obtain ⟨z, hz⟩ := route_prefix h (k + 1)
      have hm := measurableSet_clears method (rs.take (k + 1))
      have : (fun us => if (∃ r, rs[k]? = some r ∧ EndsAt r d surface) ∧
          Clears method (rs.take (k + 1)) us then credits nuclide (rs.take (k + 1)) else 0) =
          {us | Clears method (rs.take (k + 1)) us}.indicator
            fun _ => credits nuclide (rs.take (k + 1)) := by
        funext us
        simp only [hr, true_and, Set.indicator_apply, Set.mem_ofPred_eq]
      rw [this, integral_indicator_const _ hm, Measure.real,
        C70_attenuation hw h1 h2 hd hz method, ENNReal.toReal_ofReal (Real.exp_pos _).le, smul_eq_mul,
        mul_comm]
    · simp [hr]
  · intro k _
    have hm := measurableSet_clears method (rs.take (k + 1))
    by_cases hr : ∃ r, rs[k]? = some r ∧ EndsAt r d surface
    · simp only [hr, true_and]
      refine Integrable.of_bound (Measurable.ite hm measurable_const
        measurable_const).aestronglyMeasurable ‖credits nuclide (rs.take (k + 1))‖ (ae_of_all _ fun us => ?_)
      split_ifs
      · exact le_rfl
      · rw [norm_zero]; exact norm_nonneg _
    · simp [hr]

/-- **C83** With independent numbers for each history, the average score of the histories almost surely
tends to that mean. -/
theorem C83_converges {G : ℕ} {nodes : Nuclide → List MgNode} {w : World}
    (hw : WellPosed G nodes w) {g : ℕ} (h1 : 1 ≤ g) (h2 : g ≤ G) {d : Direction} (hd : UnitVec d)
    {x y : Point} {rs : List Slice} (h : Route G nodes w g d x rs y) (method : Method)
    (nuclide : ℕ) (surface : SurfaceObj) :
    ∀ᵐ histories ∂(Measure.infinitePi fun _ : ℕ => uniforms),
      Filter.Tendsto
        (fun n : ℕ => (∑ e ∈ Finset.range n,
          creditedPassages method nuclide rs d surface (histories e)) / n)
        Filter.atTop (nhds (meanCredits nuclide rs d surface)) := by
  have hm := measurable_creditedPassages method nuclide rs d surface
  have hev : ∀ e : ℕ, MeasurePreserving (fun histories : ℕ → ℕ → ℝ => histories e)
      (Measure.infinitePi fun _ : ℕ => uniforms) uniforms :=
    fun e => measurePreserving_eval_infinitePi (fun _ : ℕ => uniforms) e
  have hint : Integrable (creditedPassages method nuclide rs d surface) uniforms :=
    Integrable.of_bound hm.aestronglyMeasurable _ (ae_of_all _ fun us =>
      creditedPassages_le method nuclide rs d surface us)
  have hlim := strong_law_ae_real (μ := Measure.infinitePi fun _ : ℕ => uniforms)
    (fun e histories => creditedPassages method nuclide rs d surface (histories e))
    ((hev 0).integrable_comp_of_integrable hint)
    (fun i j hij => (iIndepFun_infinitePi (P := fun _ : ℕ => uniforms)
      (X := fun _ us => creditedPassages method nuclide rs d surface us) fun _ => hm).indepFun hij)
    (fun i => ⟨(hm.comp (hev i).measurable).aemeasurable, (hm.comp (hev 0).measurable).aemeasurable, by
      rw [show (fun histories : ℕ → ℕ → ℝ => creditedPassages method nuclide rs d surface
            (histories i)) = creditedPassages method nuclide rs d surface ∘
            fun hs : ℕ → ℕ → ℝ => hs i from rfl,
        show (fun histories : ℕ → ℕ → ℝ => creditedPassages method nuclide rs d surface
            (histories 0)) = creditedPassages method nuclide rs d surface ∘
            fun hs : ℕ → ℕ → ℝ => hs 0 from rfl,
        ← Measure.map_map hm (hev i).measurable, ← Measure.map_map hm (hev 0).measurable,
        (hev i).map_eq, (hev 0).map_eq]⟩)
  have hmean : (Measure.infinitePi fun _ : ℕ => uniforms)[fun histories : ℕ → ℕ → ℝ =>
      creditedPassages method nuclide rs d surface (histories 0)] =
      meanCredits nuclide rs d surface := by
    rw [← C83_mean hw h1 h2 hd h method nuclide surface]
    have := integral_map (μ := Measure.infinitePi fun _ : ℕ => uniforms)
      (hev 0).measurable.aemeasurable (f := creditedPassages method nuclide rs d surface)
      hm.aestronglyMeasurable
    rw [(hev 0).map_eq] at this
    exact this.symm
  rw [hmean] at hlim
  exact hlim

/-! ### The derivative -/

theorem opticalDepth_shifted (nuclide : ℕ) (δ : ℝ) : ∀ rs : List Slice,
    opticalDepth (rs.map fun r => r.shifted nuclide δ) =
      opticalDepth rs + δ * atomsPassed nuclide rs
  | [] => by simp [opticalDepth, atomsPassed]
  | r :: rs => by
    have ih := opticalDepth_shifted nuclide δ rs
    simp only [opticalDepth, atomsPassed, List.map_cons, List.sum_cons] at ih ⊢
    rw [ih]
    simp only [Slice.shifted]
    ring

theorem shiftedPassages_eq (nuclide : ℕ) (rs : List Slice) (d : Direction) (surface : SurfaceObj)
    (δ : ℝ) : shiftedPassages nuclide rs d surface δ =
      ∑ k ∈ Finset.range rs.length, if ∃ r, rs[k]? = some r ∧ EndsAt r d surface then
        Real.exp (-(opticalDepth (rs.take (k + 1)) + δ * atomsPassed nuclide (rs.take (k + 1))))
      else 0 := by
  unfold shiftedPassages meanPassages
  rw [List.length_map]
  refine Finset.sum_congr rfl fun k _ => ?_
  rw [← List.map_take, opticalDepth_shifted]
  congr 1
  apply propext
  rw [List.getElem?_map]
  constructor
  · rintro ⟨r, hr, hends⟩
    obtain ⟨r', hr', rfl⟩ := Option.map_eq_some_iff.1 hr
    exact ⟨r', hr', hends⟩
  · rintro ⟨r, hr, hends⟩
    exact ⟨r.shifted nuclide δ, by rw [hr]; rfl, hends⟩

theorem changed_firstCell {φ : Nuclide → Nuclide} {w : World} {x : Point} {c : Cell}
    (h : FirstCell w x c) : FirstCell (w.changed φ) x (c.changed φ) := by
  obtain ⟨l, r, hlr, hin, hl⟩ := h
  refine ⟨l.map (Cell.changed φ), r.map (Cell.changed φ), ?_, hin, ?_⟩
  · rw [show (w.changed φ).cells = w.cells.map (Cell.changed φ) from rfl, hlr]
    simp
  · intro c' hc'
    obtain ⟨c₀, h0, rfl⟩ := List.mem_map.1 hc'
    exact hl c₀ h0

theorem changed_macroscopic {G : ℕ} {nodes nodes' : Nuclide → List MgNode} {φ : Nuclide → Nuclide}
    {g nuclide : ℕ} {δ : ℝ} (hφ : ∀ n, specTotal G (nodes' (φ n)) g =
      specTotal G (nodes n) g + if n.id = nuclide then δ else 0) (m : Material) :
    macroscopic G nodes' g (m.changed φ) = macroscopic G nodes g m +
      δ * (m.numberDensity * (m.afracs.map fun e => if e.1.id = nuclide then e.2 else 0).sum) := by
  unfold macroscopic
  rw [show (m.changed φ).numberDensity = m.numberDensity from rfl,
    show (m.changed φ).afracs = m.afracs.map fun e => (φ e.1, e.2) from rfl, List.map_map]
  rw [mul_left_comm, ← mul_add]
  congr 1
  generalize m.afracs = l
  induction l with
  | nil => simp
  | cons e l ih =>
    simp only [List.map_cons, List.sum_cons, Function.comp, hφ] at ih ⊢
    rw [ih]
    split_ifs <;> ring

theorem changed_route {G : ℕ} {nodes nodes' : Nuclide → List MgNode} {φ : Nuclide → Nuclide}
    {w : World} {g nuclide : ℕ} {δ : ℝ} (hφ : ∀ n, specTotal G (nodes' (φ n)) g =
      specTotal G (nodes n) g + if n.id = nuclide then δ else 0) {d : Direction} {x y : Point}
    {rs : List Slice} (h : Route G nodes w g d x rs y) :
    Route G nodes' (w.changed φ) g d x
      (rs.map fun r => { r.shifted nuclide δ with cell := r.cell.changed φ }) y := by
  induction h with
  | arrived => exact .arrived
  | @slice x y c m t rest hc hm hn _ ih =>
    have hm' : (c.changed φ).material = some (m.changed φ) := by
      unfold Cell.changed
      rw [hm]
      rfl
    have := Route.slice (G := G) (nodes := nodes') (g := g) (changed_firstCell (φ := φ) hc) hm'
      (t := t) (d := d) hn ih
    rw [changed_macroscopic hφ] at this
    have hs : (⟨c, x, macroscopic G nodes g m, t⟩ : Slice).shifted nuclide δ =
        ⟨c, x, macroscopic G nodes g m + δ * (m.numberDensity *
          (m.afracs.map fun e => if e.1.id = nuclide then e.2 else 0).sum), t⟩ := by
      simp only [Slice.shifted, atoms, hm]
    rw [List.map_cons, hs]
    exact this

/-- **C83** What is derived below: the mean score of the current estimator in the same world with the
cross section of the nuclide changed by `δ`. -/
theorem C83_changed {G : ℕ} {nodes nodes' : Nuclide → List MgNode} {φ : Nuclide → Nuclide}
    {w : World} (hw : WellPosed G nodes' (w.changed φ)) {g : ℕ} (h1 : 1 ≤ g) (h2 : g ≤ G)
    {nuclide : ℕ} {δ : ℝ} (hφ : ∀ n, specTotal G (nodes' (φ n)) g =
      specTotal G (nodes n) g + if n.id = nuclide then δ else 0) {d : Direction} (hd : UnitVec d)
    {x y : Point} {rs : List Slice} (h : Route G nodes w g d x rs y) (method : Method)
    (surface : SurfaceObj) :
    ∃ rs', Route G nodes' (w.changed φ) g d x rs' y ∧
      ∫⁻ us, (passages method rs' d surface us : ENNReal) ∂uniforms =
        ENNReal.ofReal (shiftedPassages nuclide rs d surface δ) := by
  have hr := changed_route hφ h
  refine ⟨_, hr, ?_⟩
  rw [C71_mean hw h1 h2 hd hr, shiftedPassages_eq, ENNReal.ofReal_sum_of_nonneg, List.length_map]
  · refine Finset.sum_congr rfl fun k _ => ?_
    have hiff : (∃ r, (rs.map fun r => { r.shifted nuclide δ with cell := r.cell.changed φ })[k]? =
        some r ∧ EndsAt r d surface) ↔ ∃ r, rs[k]? = some r ∧ EndsAt r d surface := by
      rw [List.getElem?_map]
      constructor
      · rintro ⟨r, hr, hends⟩
        obtain ⟨r', hr', rfl⟩ := Option.map_eq_some_iff.1 hr
        exact ⟨r', hr', hends⟩
      · rintro ⟨r, hr, hends⟩
        exact ⟨{ r.shifted nuclide δ with cell := r.cell.changed φ }, by rw [hr]; rfl, hends⟩
    simp only [hiff]
    split_ifs
    · rw [← List.map_take, ← opticalDepth_shifted]
      congr 3
      unfold opticalDepth
      rw [List.map_map, List.map_map]
      rfl
    · simp
  · intro k _
    split_ifs
    · exact (Real.exp_pos _).le
    · exact le_rfl

/-- **C83** The derivative of the mean number of crossings with respect to the cross section of the
nuclide: for each crossing of the surface by the way, minus the atoms of the nuclide passed per unit
area times the exponential of minus the optical depth. -/
theorem C83_derivative (nuclide : ℕ) (rs : List Slice) (d : Direction) (surface : SurfaceObj) :
    shiftedPassages nuclide rs d surface 0 = meanPassages rs d surface ∧
    HasDerivAt (shiftedPassages nuclide rs d surface)
      (∑ k ∈ Finset.range rs.length, if ∃ r, rs[k]? = some r ∧ EndsAt r d surface then
        -atomsPassed nuclide (rs.take (k + 1)) * Real.exp (-opticalDepth (rs.take (k + 1)))
      else 0) 0 := by
  constructor
  · rw [shiftedPassages_eq]
    simp only [zero_mul, add_zero]
    rfl
  · rw [show shiftedPassages nuclide rs d surface = fun δ => _ from
      funext fun δ => shiftedPassages_eq nuclide rs d surface δ]
    refine HasDerivAt.fun_sum fun k _ => ?_
    split_ifs with hr
    · have h1 : HasDerivAt (fun δ : ℝ => -(opticalDepth (rs.take (k + 1)) +
          δ * atomsPassed nuclide (rs.take (k + 1)))) (-(1 * atomsPassed nuclide (rs.take (k + 1)))) 0 :=
        (((hasDerivAt_id (0 : ℝ)).mul_const _).const_add _).neg
      have h2 := h1.exp
      simp only [zero_mul, add_zero, one_mul] at h2
      rw [mul_comm]
      exact h2
    · exact hasDerivAt_const _ _

/-- What the average of the scores is too great by, for a part of the way. -/
noncomputable def excess (nuclide : ℕ) (r : Slice) : ℝ :=
  credit nuclide r + atoms nuclide r * r.length

theorem credits_excess (nuclide : ℕ) : ∀ rs : List Slice,
    credits nuclide rs = (rs.map (excess nuclide)).sum - atomsPassed nuclide rs
  | [] => by simp [credits, atomsPassed]
  | r :: rs => by
    have ih := credits_excess nuclide rs
    simp only [credits, atomsPassed, List.map_cons, List.sum_cons] at ih ⊢
    rw [ih]
    unfold excess
    ring

/-- **C83** If the way crosses the surface once, then the average of the scores of a sensitivity tends
to the derivative of the mean number of crossings exactly if the credits for the way up to there are
minus the atoms of the nuclide passed per unit area. -/
theorem C83_derivative_iff (nuclide : ℕ) {rs : List Slice} {d : Direction} {surface : SurfaceObj}
    {k : ℕ} (hk : ∀ j, (∃ r, rs[j]? = some r ∧ EndsAt r d surface) ↔ j = k) :
    HasDerivAt (shiftedPassages nuclide rs d surface) (meanCredits nuclide rs d surface) 0 ↔
      credits nuclide (rs.take (k + 1)) = -atomsPassed nuclide (rs.take (k + 1)) := by
  have hlt : k ∈ Finset.range rs.length := by
    obtain ⟨r, hr, -⟩ := (hk k).2 rfl
    exact Finset.mem_range.2 (List.getElem?_eq_some_iff.1 hr).1
  have hone : ∀ f : ℕ → ℝ, (∑ j ∈ Finset.range rs.length,
      if ∃ r, rs[j]? = some r ∧ EndsAt r d surface then f j else 0) = f k := by
    intro f
    simp only [hk]
    rw [Finset.sum_ite_eq' , if_pos hlt]
  have hder := (C83_derivative nuclide rs d surface).2
  rw [hone fun j => -atomsPassed nuclide (rs.take (j + 1)) *
    Real.exp (-opticalDepth (rs.take (j + 1)))] at hder
  have hmean : meanCredits nuclide rs d surface = credits nuclide (rs.take (k + 1)) *
      Real.exp (-opticalDepth (rs.take (k + 1))) :=
    hone fun j => credits nuclide (rs.take (j + 1)) * Real.exp (-opticalDepth (rs.take (j + 1)))
  have hne := (Real.exp_pos (-opticalDepth (rs.take (k + 1)))).ne'
  constructor
  · intro h
    exact mul_right_cancel₀ hne (hmean.symm.trans (h.unique hder))
  · intro h
    rw [hmean, h]
    exact hder

theorem atoms_of_not_holds {nuclide : ℕ} {r : Slice} (h : ¬ HoldsNuclide nuclide r) :
    atoms nuclide r = 0 := by
  unfold atoms
  split
  · rfl
  · rename_i m hm
    rw [List.sum_eq_zero, mul_zero]
    intro x hx
    obtain ⟨e, he, rfl⟩ := List.mem_map.1 hx
    exact if_neg fun hid => h ⟨m, hm, e, he, hid⟩

/-- **C83** If no material with the nuclide is on the way, the average of the scores of a sensitivity
tends to the derivative of the mean number of crossings, which is zero.  Missing from C83: ways through
materials with the nuclide, for which the code is wrong (below). -/
theorem C83_elsewhere_partial {G : ℕ} {nodes : Nuclide → List MgNode} {w : World}
    (hw : WellPosed G nodes w) {g : ℕ} (h1 : 1 ≤ g) (h2 : g ≤ G) {d : Direction} (hd : UnitVec d)
    {x y : Point} {rs : List Slice} (h : Route G nodes w g d x rs y) (method : Method)
    (nuclide : ℕ) (hn : ∀ r ∈ rs, ¬ HoldsNuclide nuclide r) (surface : SurfaceObj) :
    ∃ v, HasDerivAt (shiftedPassages nuclide rs d surface) v 0 ∧
      ∀ᵐ histories ∂(Measure.infinitePi fun _ : ℕ => uniforms),
        Filter.Tendsto
          (fun n : ℕ => (∑ e ∈ Finset.range n,
            creditedPassages method nuclide rs d surface (histories e)) / n)
          Filter.atTop (nhds v) := by
  have h0 : ∀ k, credits nuclide (rs.take (k + 1)) = -atomsPassed nuclide (rs.take (k + 1)) := by
    intro k
    rw [credits_excess, List.sum_eq_zero, zero_sub]
    intro v hv
    obtain ⟨r, hr, rfl⟩ := List.mem_map.1 hv
    have hr' := hn r (List.mem_of_mem_take hr)
    unfold excess credit
    rw [if_neg hr', atoms_of_not_holds hr', zero_mul, zero_add]
  refine ⟨meanCredits nuclide rs d surface, ?_, C83_converges hw h1 h2 hd h method nuclide surface⟩
  have := (C83_derivative nuclide rs d surface).2
  unfold meanCredits
  simpa only [h0] using this

theorem excess_pure {nuclide : ℕ} {r : Slice} (h : OnlyOf nuclide r) :
    excess nuclide r = 1 / r.rate - 10 / 2 ^ 52 ∧ atoms nuclide r = 1 ∧
      credit nuclide r = 1 / r.rate - (r.length + 10 / 2 ^ 52) := by
  obtain ⟨m, e, hm, he, hid, hf, hN⟩ := h
  have hh : HoldsNuclide nuclide r := ⟨m, hm, e, by simp [he], hid⟩
  have ha : atoms nuclide r = 1 := by
    unfold atoms
    rw [hm]
    simp [he, hid, hf, hN]
  have hc : credit nuclide r = 1 / r.rate - (r.length + 10 / 2 ^ 52) := by
    unfold credit allAtoms
    rw [if_pos hh, hm]
    simp only [hN]
  refine ⟨?_, ha, hc⟩
  unfold excess
  rw [ha, hc]
  ring

theorem sum_pos_of_take {f : Slice → ℝ} {rs : List Slice} (h : ∀ r ∈ rs, 0 < f r) {k : ℕ}
    (hk : k < rs.length) : 0 < ((rs.take (k + 1)).map f).sum := by
  refine List.sum_pos _ (fun v hv => ?_) ?_
  · obtain ⟨r, hr, rfl⟩ := List.mem_map.1 hv
    exact h r (List.mem_of_mem_take hr)
  · intro h0
    have := congrArg List.length h0
    rw [List.length_map, List.length_take, List.length_nil] at this
    omega

theorem sum_ends_lt {rs : List Slice} {d : Direction} {surface : SurfaceObj} {f f' : ℕ → ℝ}
    (h : ∀ k < rs.length, f k < f' k) (hcross : ∃ r ∈ rs, EndsAt r d surface) :
    (∑ k ∈ Finset.range rs.length, if ∃ r, rs[k]? = some r ∧ EndsAt r d surface then f k else 0) <
      ∑ k ∈ Finset.range rs.length, if ∃ r, rs[k]? = some r ∧ EndsAt r d surface then f' k else 0 := by
  refine Finset.sum_lt_sum (fun k hk => ?_) ?_
  · split_ifs
    · exact (h k (Finset.mem_range.1 hk)).le
    · exact le_rfl
  · obtain ⟨r, hr, hends⟩ := hcross
    obtain ⟨k, hk, rfl⟩ := List.getElem_of_mem hr
    have hex : ∃ r, rs[k]? = some r ∧ EndsAt r d surface :=
      ⟨rs[k], List.getElem?_eq_getElem hk, hends⟩
    refine ⟨k, Finset.mem_range.2 hk, ?_⟩
    rw [if_pos hex, if_pos hex]
    exact h k hk

/-- The code violates C83 on every way through materials of only the nuclide with unit number density
(and a mean free path of more than `10 / 2 ^ 52`): the average of the scores tends to a value that is
greater than the derivative. -/
theorem C83_derivative_violated {G : ℕ} {nodes : Nuclide → List MgNode} {w : World}
    (hw : WellPosed G nodes w) {g : ℕ} (h1 : 1 ≤ g) (h2 : g ≤ G) {d : Direction} (hd : UnitVec d)
    {x y : Point} {rs : List Slice} (h : Route G nodes w g d x rs y) (method : Method)
    {nuclide : ℕ} (hn : ∀ r ∈ rs, OnlyOf nuclide r) (hfree : ∀ r ∈ rs, 10 / 2 ^ 52 < 1 / r.rate)
    {surface : SurfaceObj} (hcross : ∃ r ∈ rs, EndsAt r d surface) :
    ∃ v v', HasDerivAt (shiftedPassages nuclide rs d surface) v 0 ∧ v < v' ∧
      ∀ᵐ histories ∂(Measure.infinitePi fun _ : ℕ => uniforms),
        Filter.Tendsto
          (fun n : ℕ => (∑ e ∈ Finset.range n,
            creditedPassages method nuclide rs d surface (histories e)) / n)
          Filter.atTop (nhds v') := by
  refine ⟨_, _, (C83_derivative nuclide rs d surface).2, ?_,
    C83_converges hw h1 h2 hd h method nuclide surface⟩
  refine sum_ends_lt (fun k hk => ?_) hcross
  have hpos := sum_pos_of_take (f := excess nuclide) (rs := rs) (fun r hr => by
    rw [(excess_pure (hn r hr)).1]
    linarith [hfree r hr]) hk
  rw [credits_excess]
  refine mul_lt_mul_of_pos_right ?_ (Real.exp_pos _)
  linarith

/-- The code gets even the sign wrong if the parts of the way are shorter than the mean free path: the
average of the scores tends to a positive value, although a greater cross section means fewer
crossings. -/
theorem C83_sign_violated {G : ℕ} {nodes : Nuclide → List MgNode} {w : World}
    (hw : WellPosed G nodes w) {g : ℕ} (h1 : 1 ≤ g) (h2 : g ≤ G) {d : Direction} (hd : UnitVec d)
    {x y : Point} {rs : List Slice} (h : Route G nodes w g d x rs y) (method : Method)
    {nuclide : ℕ} (hn : ∀ r ∈ rs, OnlyOf nuclide r)
    (hthin : ∀ r ∈ rs, r.length + 10 / 2 ^ 52 < 1 / r.rate)
    {surface : SurfaceObj} (hcross : ∃ r ∈ rs, EndsAt r d surface) :
    ∃ v v', HasDerivAt (shiftedPassages nuclide rs d surface) v 0 ∧ v < 0 ∧ 0 < v' ∧
      ∀ᵐ histories ∂(Measure.infinitePi fun _ : ℕ => uniforms),
        Filter.Tendsto
          (fun n : ℕ => (∑ e ∈ Finset.range n,
            creditedPassages method nuclide rs d surface (histories e)) / n)
          Filter.atTop (nhds v') := by
  have hzero : (∑ k ∈ Finset.range rs.length,
      if ∃ r, rs[k]? = some r ∧ EndsAt r d surface then (0 : ℝ) else 0) = 0 := by simp
  refine ⟨_, _, (C83_derivative nuclide rs d surface).2, ?_, ?_,
    C83_converges hw h1 h2 hd h method nuclide surface⟩
  · refine lt_of_lt_of_eq (sum_ends_lt (f' := fun _ => 0) (fun k hk => ?_) hcross) hzero
    have hpos := sum_pos_of_take (f := fun r => atoms nuclide r * r.length) (rs := rs)
      (fun r hr => by
        rw [(excess_pure (hn r hr)).2.1, one_mul]
        exact (route_positive hw h1 h2 hd h r hr).2) hk
    exact mul_neg_of_neg_of_pos (neg_lt_zero.2 hpos) (Real.exp_pos _)
  · refine lt_of_eq_of_lt hzero.symm (sum_ends_lt (f := fun _ => 0) (fun k hk => ?_) hcross)
    have hpos := sum_pos_of_take (f := credit nuclide) (rs := rs) (fun r hr => by
      rw [(excess_pure (hn r hr)).2.2]
      linarith [hthin r hr]) hk
    exact mul_pos hpos (Real.exp_pos _)

/-! ### Instance: a ball in a shell -/

theorem shellWay_pure : ∀ r ∈ shellWay, OnlyOf 7 r := by
  intro r hr
  simp only [shellWay, List.mem_cons, List.not_mem_nil, or_false] at hr
  rcases hr with rfl | rfl <;> exact ⟨absorbing 1, (absorber 7 "a" 1, 1), rfl, rfl, rfl, rfl, rfl⟩

theorem shellWay_crossing (j : ℕ) :
    (∃ r, shellWay[j]? = some r ∧ EndsAt r ⟨1, 0, 0⟩ (ball 2 2)) ↔ j = 1 := by
  constructor
  · rintro ⟨r, hr, hends⟩
    obtain ⟨hj, hrr⟩ := List.getElem?_eq_some_iff.1 hr
    have hj' : j < 2 := hj
    rcases (by omega : j = 0 ∨ j = 1) with rfl | rfl
    · cases hr
      rw [(shellWay_ends _).1] at hends
      simp [ball] at hends
    · rfl
  · rintro rfl
    exact ⟨_, rfl, (shellWay_ends _).2.2 rfl⟩

theorem shellWay_credits : credits 7 (shellWay.take 2) = -(10 / 2 ^ 52) ∧
    atomsPassed 7 (shellWay.take 2) = 2 - 10 / 2 ^ 52 ∧
    opticalDepth (shellWay.take 2) = 2 - 10 / 2 ^ 52 := by
  have h0 := excess_pure (shellWay_pure _ (List.mem_cons_self ..))
  have h1 := excess_pure (shellWay_pure _ (List.mem_cons_of_mem _ (List.mem_cons_self ..)))
  have ht : shellWay.take 2 = shellWay := rfl
  refine ⟨?_, ?_, ?_⟩
  · rw [ht]
    simp only [credits, shellWay, List.map_cons, List.map_nil, List.sum_cons, List.sum_nil, h0.2.2,
      h1.2.2]
    norm_num
  · rw [ht]
    simp only [atomsPassed, shellWay, List.map_cons, List.map_nil, List.sum_cons, List.sum_nil, h0.2.1,
      h1.2.1]
    norm_num
  · norm_num [opticalDepth, shellWay]

theorem shellWay_meanCredits : meanCredits 7 shellWay ⟨1, 0, 0⟩ (ball 2 2) =
    -(10 / 2 ^ 52) * Real.exp (-(2 - 10 / 2 ^ 52)) := by
  unfold meanCredits
  simp only [shellWay_crossing]
  rw [Finset.sum_ite_eq', if_pos (by simp [shellWay]), shellWay_credits.1, shellWay_credits.2.2]

/-- Instance of the hypotheses of C83: the score of each history of the beam for the sensitivity of
the current through the sphere about the shell is given by its numbers; the average over endlessly many
histories is nearly zero, which is not the derivative of the current. -/
example (method : Method) (e : ℕ) :
    (∃ b states, (shellProblem method).source.sample (1 + e) = .ok b ∧
      Problem.history { shellProblem method with perturbations := [absorberPerturbation] } (2 ^ 52) e =
        .ok states ∧
      historyScore oneBin (effectAtCrossing (ball 2 2) absorberPerturbation) states 0 =
        creditedPassages method 7 shellWay ⟨1, 0, 0⟩ (ball 2 2) (drawn (Rng.ofSeed b.seed))) ∧
    (∀ᵐ histories ∂(Measure.infinitePi fun _ : ℕ => uniforms),
      Filter.Tendsto (fun n : ℕ => (∑ e ∈ Finset.range n,
        creditedPassages method 7 shellWay ⟨1, 0, 0⟩ (ball 2 2) (histories e)) / n)
        Filter.atTop (nhds (-(10 / 2 ^ 52) * Real.exp (-(2 - 10 / 2 ^ 52))))) ∧
    ¬ HasDerivAt (shiftedPassages 7 shellWay ⟨1, 0, 0⟩ (ball 2 2))
      (-(10 / 2 ^ 52) * Real.exp (-(2 - 10 / 2 ^ 52))) 0 := by
  refine ⟨?_, ?_, ?_⟩
  · have hd : Configured (shellProblem method).source.direction := by
      norm_num [shellProblem, Configured, UnitVec]
    obtain ⟨b, h1, -⟩ := C51_source_particle (shellProblem method).source hd (1 + e)
    have hbd : b.direction = ⟨1, 0, 0⟩ := by
      cases h1
      rfl
    obtain ⟨states, h2, h3⟩ := C83_score
      (P := { shellProblem method with perturbations := [absorberPerturbation] }) (G := 1)
      (shell_wellPosed method) (by
        intro c _ m _ e _ g h1 h2
        simp [specXS, nodeXS]) (R := 2) (by norm_num) (by
        intro x c hc hm
        by_contra hlt
        exact hm (firstCell_unique hc ((shell_cells method x).2.2 (by linarith)) ▸ rfl))
      ⟨rfl, ⟨1, rfl, le_rfl, le_rfl⟩, innerCell,
        (shell_cells method _).1 (by norm_num [shellProblem]),
        by simp [innerCell]⟩ hd (fuel := 2 ^ 52) (by norm_num) e rfl h1
      (rs := shellWay) (y := ⟨2 + 10 / 2 ^ 52, 0, 0⟩) (hbd ▸ shell_route method)
      (c := outerCell) ((shell_cells method _).2.2 (by norm_num)) rfl (by
        rw [hbd]
        intro r hr s s' hs hs'
        simp only [shellWay, List.mem_cons, List.not_mem_nil, or_false] at hr
        rcases hr with rfl | rfl
        · rw [(shellWay_ends s).1.1 hs, (shellWay_ends s').1.1 hs']
        · rw [(shellWay_ends s).2.1 hs, (shellWay_ends s').2.1 hs'])
      (q := absorberPerturbation) (by simp) (by simp) (ball 2 2) oneBin 0
    refine ⟨b, states, h1, h2, ?_⟩
    rw [h3, if_pos (by rfl), hbd]
    rfl
  · have h := C83_converges (shell_wellPosed method) le_rfl le_rfl (by norm_num [UnitVec])
      (shell_route method) method 7 (ball 2 2)
    rw [shellWay_meanCredits] at h
    exact h
  · rw [← shellWay_meanCredits, C83_derivative_iff 7 shellWay_crossing, shellWay_credits.1,
      shellWay_credits.2.1]
    norm_num

/-- Instance of the hypotheses of `C83_elsewhere_partial` and `C83_derivative_violated`. -/
example (method : Method) :
    (∃ v, HasDerivAt (shiftedPassages 8 shellWay ⟨1, 0, 0⟩ (ball 2 2)) v 0 ∧
      ∀ᵐ histories ∂(Measure.infinitePi fun _ : ℕ => uniforms),
        Filter.Tendsto (fun n : ℕ => (∑ e ∈ Finset.range n,
          creditedPassages method 8 shellWay ⟨1, 0, 0⟩ (ball 2 2) (histories e)) / n)
          Filter.atTop (nhds v)) ∧
    ∃ v v', HasDerivAt (shiftedPassages 7 shellWay ⟨1, 0, 0⟩ (ball 2 2)) v 0 ∧ v < v' ∧
      ∀ᵐ histories ∂(Measure.infinitePi fun _ : ℕ => uniforms),
        Filter.Tendsto (fun n : ℕ => (∑ e ∈ Finset.range n,
          creditedPassages method 7 shellWay ⟨1, 0, 0⟩ (ball 2 2) (histories e)) / n)
          Filter.atTop (nhds v') := by
  have hu : UnitVec (⟨1, 0, 0⟩ : Direction) := by norm_num [UnitVec]
  refine ⟨C83_elsewhere_partial (shell_wellPosed method) le_rfl le_rfl hu (shell_route method) method 8
    ?_ _, C83_derivative_violated (shell_wellPosed method) le_rfl le_rfl hu (shell_route method) method
    shellWay_pure ?_ ⟨_, List.mem_cons_of_mem _ (List.mem_cons_self ..), (shellWay_ends _).2.2 rfl⟩⟩
  · rintro r hr ⟨m, hm, e, he, hid⟩
    obtain ⟨m', e', k1, k2, k3, -⟩ := shellWay_pure r hr
    rw [hm] at k1
    cases k1
    rw [k2, List.mem_singleton] at he
    subst he
    omega
  · intro r hr
    simp only [shellWay, List.mem_cons, List.not_mem_nil, or_false] at hr
    rcases hr with rfl | rfl <;> norm_num

/-- The absorber with another cross section. -/
noncomputable def otherAbsorber (δ : ℝ) (n : Nuclide) : Nuclide :=
  if n.id = 7 then absorber 7 "a" (1 + δ) else n

/-- The data of the nuclides with the other cross section. -/
noncomputable def otherNodes (δ : ℝ) (n : Nuclide) : List MgNode :=
  if n.id = 7 then [.capture [1 + δ]] else [.capture [1]]

theorem other_total (δ : ℝ) (n : Nuclide) : specTotal 1 (otherNodes δ (otherAbsorber δ n)) 1 =
    specTotal 1 [.capture [1]] 1 + if n.id = 7 then δ else 0 := by
  have h1 : ∀ x : ℝ, specTotal 1 [.capture [x]] 1 = x := by
    intro x
    change x + 0 + 0 = x
    ring
  by_cases h : n.id = 7
  · rw [show otherAbsorber δ n = absorber 7 "a" (1 + δ) from if_pos h, if_pos h]
    rw [show otherNodes δ (absorber 7 "a" (1 + δ)) = [.capture [1 + δ]] from if_pos rfl, h1, h1]
  · rw [show otherAbsorber δ n = n from if_neg h, if_neg h,
      show otherNodes δ n = [.capture [1]] from if_neg h, add_zero]

theorem absorber_data_of {x : ℝ} (hx : 0 ≤ x) (i : ℕ) (n : String) :
    HasGroupData 1 (absorber i n x) [.capture [x]] := by
  refine ⟨_, rfl, ?_, ?_, ?_⟩
  · simp [Multigroup.create, Multigroup.optionally, Multigroup.findNubar, Multigroup.findChi,
      Multigroup.findScatter, Multigroup.createReactions, Multigroup.reactionXS,
      Multigroup.oneDimensional, Multigroup.emplace, Multigroup.createTotalXS, bind, Except.bind]
  · intro m hm
    rw [List.mem_singleton.1 hm]
    intro v hv
    rw [List.mem_singleton.1 hv]
    exact hx
  · intro g hg
    exfalso
    simp [specXS, nodeXS] at hg

theorem other_wellPosed (method : Method) {δ : ℝ} (hδ : 0 < 1 + δ) :
    WellPosed 1 (otherNodes δ) ((shellProblem method).world.changed (otherAbsorber δ)) := by
  have hw := shell_wellPosed method
  have hch : (absorbing 1).changed (otherAbsorber δ) = absorbing (1 + δ) := by
    simp [Material.changed, absorbing, otherAbsorber, absorber]
  have hcm : ∀ c ∈ ((shellProblem method).world.changed (otherAbsorber δ)).cells, ∀ m,
      c.material = some m → m = absorbing (1 + δ) ∧ c.surfaceSenses ≠ [] := by
    intro c hc m hm
    obtain ⟨c₀, hc₀, rfl⟩ := List.mem_map.1 hc
    simp only [shellProblem, List.mem_cons, List.not_mem_nil, or_false] at hc₀
    rcases hc₀ with rfl | rfl | rfl
    · have : some ((absorbing 1).changed (otherAbsorber δ)) = some m := hm
      rw [hch] at this
      exact ⟨(Option.some.inj this).symm, by simp [innerCell, Cell.changed]⟩
    · have : some ((absorbing 1).changed (otherAbsorber δ)) = some m := hm
      rw [hch] at this
      exact ⟨(Option.some.inj this).symm, by simp [shellCell, Cell.changed]⟩
    · cases hm
  refine ⟨?_, ?_, ?_, ?_, ?_⟩
  · intro x
    obtain ⟨c, hc, hin⟩ := hw.covered x
    exact ⟨_, List.mem_map.2 ⟨c, hc, rfl⟩, hin⟩
  · intro c hc hm
    obtain ⟨m, hm⟩ := Option.ne_none_iff_exists'.1 hm
    exact (hcm c hc m hm).2
  · intro c hc m hm
    rw [(hcm c hc m hm).1]; norm_num [absorbing]
  · intro c hc m hm e he
    rw [(hcm c hc m hm).1] at he
    simp only [absorbing, List.mem_singleton] at he
    subst he
    exact ⟨one_pos, absorber_data_of hδ.le _ _⟩
  · intro c hc m hm g h1 h2
    rw [(hcm c hc m hm).1]
    refine ⟨(absorber 7 "a" (1 + δ), 1), by simp [absorbing], ?_⟩
    obtain rfl : g = 1 := by omega
    change (0 : ℝ) < (1 + δ) + 0 + 0
    linarith

/-- Instance of the hypotheses of `C83_changed` and `C83_sign_violated`: with half of the cross section,
ball and shell are shorter than the mean free path. -/
example (method : Method) : ∃ rs, Route 1 (otherNodes (-(1 / 2)))
      ((shellProblem method).world.changed (otherAbsorber (-(1 / 2)))) 1 ⟨1, 0, 0⟩ ⟨0, 0, 0⟩ rs
      ⟨2 + 10 / 2 ^ 52, 0, 0⟩ ∧
    ∃ v v', HasDerivAt (shiftedPassages 7 rs ⟨1, 0, 0⟩ (ball 2 2)) v 0 ∧ v < 0 ∧ 0 < v' ∧
      ∀ᵐ histories ∂(Measure.infinitePi fun _ : ℕ => uniforms),
        Filter.Tendsto (fun n : ℕ => (∑ e ∈ Finset.range n,
          creditedPassages method 7 rs ⟨1, 0, 0⟩ (ball 2 2) (histories e)) / n)
          Filter.atTop (nhds v') := by
  have hu : UnitVec (⟨1, 0, 0⟩ : Direction) := by norm_num [UnitVec]
  have hw := other_wellPosed method (δ := -(1 / 2)) (by norm_num)
  have hr := changed_route (other_total (-(1 / 2))) (shell_route method)
  have hat : ∀ r ∈ shellWay, atoms 7 r = 1 := fun r hr => (excess_pure (shellWay_pure r hr)).2.1
  have hrate : ∀ r ∈ shellWay, r.rate = 1 ∧ r.length ≤ 1 := by
    intro r hr
    simp only [shellWay, List.mem_cons, List.not_mem_nil, or_false] at hr
    rcases hr with rfl | rfl <;> norm_num
  refine ⟨_, hr, C83_sign_violated hw le_rfl le_rfl hu hr method ?_ ?_ ?_⟩
  · intro r hr
    obtain ⟨r₀, h0, rfl⟩ := List.mem_map.1 hr
    obtain ⟨m, e, k1, k2, k3, k4, k5⟩ := shellWay_pure r₀ h0
    refine ⟨m.changed (otherAbsorber (-(1 / 2))), (otherAbsorber (-(1 / 2)) e.1, e.2), ?_, ?_, ?_, k4, k5⟩
    · simp [Cell.changed, k1]
    · simp [Material.changed, k2]
    · simp [otherAbsorber, k3, absorber]
  · intro r hr
    obtain ⟨r₀, h0, rfl⟩ := List.mem_map.1 hr
    obtain ⟨k1, k2⟩ := hrate r₀ h0
    simp only [Slice.shifted, k1, hat r₀ h0]
    norm_num
    linarith
  · refine ⟨_, List.mem_map.2 ⟨_, List.mem_cons_of_mem _ (List.mem_cons_self ..), rfl⟩, ?_⟩
    exact (shellWay_ends _).2.2 rfl

/-- Instance of the hypotheses of `C83_changed`. -/
example (method : Method) {δ : ℝ} (hδ : 0 < 1 + δ) : ∃ rs, Route 1 (otherNodes δ)
      ((shellProblem method).world.changed (otherAbsorber δ)) 1 ⟨1, 0, 0⟩ ⟨0, 0, 0⟩ rs
      ⟨2 + 10 / 2 ^ 52, 0, 0⟩ ∧
    ∫⁻ us, (passages method rs ⟨1, 0, 0⟩ (ball 2 2) us : ENNReal) ∂uniforms =
      ENNReal.ofReal (shiftedPassages 7 shellWay ⟨1, 0, 0⟩ (ball 2 2) δ) :=
  C83_changed (other_wellPosed method hδ) le_rfl le_rfl (other_total δ) (by norm_num [UnitVec])
    (shell_route method) method (ball 2 2)

end Minimc.Props
