import Verif.Lemmas.ContinuousSafe
import Verif.Props.RunSafety

/-! # Property C66: continuous-energy transport stays clear of undefined behaviour -/

namespace Minimc.Props

open Classical Spec

/-- A neutron in a cell with material. -/
structure InGas (w : World) (p : Particle) : Prop where
  neutron : EnergyNeutron p
  cell : ∃ c ∈ w.cells, p.cell = some c ∧ c.material ≠ none

theorem temperature_in {p : Particle} {c : Cell} (h : p.cell = some c) :
    p.temperatureAt = .ok (c.temperature.at' p.position) ∧
    p.temperatureUpper = .ok c.temperature.upperBound := by
  unfold Particle.temperatureAt Particle.temperatureUpper Particle.getCell
  rw [h]
  exact ⟨rfl, rfl⟩

/-- Totals and majorants of the nuclides and of the material. -/
theorem gas_density {w : World} (hw : ThermalWorld w) {c : Cell} (hc : c ∈ w.cells)
    {m : Material} (hm : c.material = some m) {p : Particle} (hpc : p.cell = some c)
    (hp : EnergyNeutron p) (ht0 : 0 ≤ c.temperature.at' p.position) :
    ∃ σ : Nuclide → ℝ, (∀ x ∈ m.afracs, x.1.getTotal p = .ok (σ x.1) ∧ 0 ≤ x.2 * σ x.1) ∧
      0 < (shares m σ).sum ∧ m.getMicroscopicTotal p = .ok (shares m σ).sum ∧
      ∃ M, 0 < M ∧ m.getMicroscopicMajorant p = .ok M ∧
        ∀ method, ∃ D, 0 < D ∧ collisionDensity method p = .ok D := by
  obtain ⟨hty, ⟨e, he, he0⟩, hr, hu⟩ := hp
  obtain ⟨ht, hT⟩ := temperature_in hpc
  have hT0 := hw.upper c hc (by simp [hm])
  have hn : ∀ n : Nuclide, ∃ S M, (∃ x ∈ m.afracs, x.1 = n) →
      n.getTotal p = .ok S ∧ n.getMajorant p = .ok M ∧ 0 ≤ S ∧ 0 ≤ M ∧
      ∀ d σ, n.xs .neutron = some (.continuous d) → d.total.xs.at' e = .ok σ → 0 < σ →
        0 < S ∧ 0 < M := by
    intro n
    by_cases hx : ∃ x ∈ m.afracs, x.1 = n
    · obtain ⟨x, hx, rfl⟩ := hx
      obtain ⟨_, d, hd, hs⟩ := hw.data c hc m hm x hx
      obtain ⟨a, S, M, σ, _, hS, hM, hσ, h0, h1, h2, _⟩ := sound_total hty he he0 ht hT ht0 hT0 hs
      refine ⟨S, M, fun _ => ⟨?_, ?_, h0, h1, ?_⟩⟩
      · unfold Nuclide.getTotal Nuclide.xsAt
        rw [hty, hd]
        simp only [bind, Except.bind, Interaction.getTotal, hS, noexcept_ok]
      · unfold Nuclide.getMajorant Nuclide.xsAt
        rw [hty, hd]
        simp only [bind, Except.bind, Interaction.getMajorant, hM, noexcept_ok]
      · intro d' σ' hd' hσ'
        rw [hd] at hd'
        cases hd'
        rw [hσ] at hσ'
        cases hσ'
        exact h2
    · exact ⟨0, 0, fun h => absurd h hx⟩
  choose s b hn using hn
  have hS := (C23_weighted_mean m p s).1 (fun x hx => (hn x.1 ⟨x, hx, rfl⟩).1)
  have hM := (C23_weighted_mean m p b).2 (fun x hx => (hn x.1 ⟨x, hx, rfl⟩).2.1)
  obtain ⟨x, hx, d, σ, hd, hσ, hσ0⟩ := hw.reacts c hc m hm e he0
  have hx0 := (hw.data c hc m hm x hx).1
  obtain ⟨_, _, _, _, hle⟩ := hn x.1 ⟨x, hx, rfl⟩
  obtain ⟨l1, l2⟩ := hle d σ hd hσ hσ0
  have pos : ∀ f : Nuclide → ℝ, (∀ x ∈ m.afracs, 0 ≤ f x.1) → 0 < f x.1 →
      0 < (shares m f).sum := by
    intro f hf hl
    have h1 : x.2 * f x.1 ∈ shares m f := List.mem_map.2 ⟨x, hx, rfl⟩
    have h2 := List.single_le_sum (l := shares m f) (by
      intro y hy
      obtain ⟨z, hz, rfl⟩ := List.mem_map.1 hy
      exact mul_nonneg (hw.data c hc m hm z hz).1.le (hf z hz)) _ h1
    have h3 := mul_pos hx0 hl
    linarith
  have ps := pos s (fun x hx => (hn x.1 ⟨x, hx, rfl⟩).2.2.1) l1
  have pb := pos b (fun x hx => (hn x.1 ⟨x, hx, rfl⟩).2.2.2.1) l2
  refine ⟨s, fun x hx => ⟨(hn x.1 ⟨x, hx, rfl⟩).1, mul_nonneg (hw.data c hc m hm x hx).1.le
    (hn x.1 ⟨x, hx, rfl⟩).2.2.1⟩, ps, hS, _, pb, hM, fun method => ?_⟩
  unfold collisionDensity Particle.getCell
  rw [hpc]
  simp only [bind, Except.bind, hm]
  cases method
  · exact ⟨_, ps, by simp only [hS]; rfl⟩
  · exact ⟨_, pb, by simp only [hM]; rfl⟩

/-- What a step of a neutron in a cell with material may come to. -/
def StepOutcome (fuel : ℕ) (w : World) (p : Particle) (r : Res Particle) : Prop :=
  (∃ p', r = .ok p' ∧ (¬ Ended p' → InGas w p') ∧ Energetic p' ∧
    (BanksEnergies p → BanksEnergies p')) ∨
  ((fuel = 0 ∨ MeetsWarmth p) ∧ r = .error .fuel) ∨
  (r = .error .nan ∧ NextStopsDead fuel p) ∨ MeetsFrost p ∨
  ThermalEnd r (fun Q => NextThermal Q p)

/-- The collision at the end of a flight of length `t` that reaches no surface. -/
theorem gas_collide {w : World} (hw : ThermalWorld w) {p : Particle} (hp : InGas w p)
    (method : Method) (fuel k : ℕ) {t : ℝ} (ht : 0 ≤ t)
    (hns : ∀ c, p.cell = some c → NoSurfaceBefore c p ((t : ℝ) : WithTop ℝ)) :
    StepOutcome fuel w p
      (collide method fuel { p with rng := Rng.next^[k] p.rng } (t : WithTop ℝ)) := by
  obtain ⟨hn, c, hc, hpc, hm'⟩ := hp
  obtain ⟨m, hm⟩ := Option.ne_none_iff_exists'.1 hm'
  by_cases hfr : c.temperature.at' p.position < 0
  · exact Or.inr (Or.inr (Or.inr (Or.inl ⟨p, Or.inl rfl, c, hpc, hfr⟩)))
  have hah : Ahead p { p with position := along p.position p.direction t } :=
    ⟨c, t, hpc, ht, hns c hpc, rfl⟩
  by_cases hfr' : c.temperature.at' (along p.position p.direction t) < 0
  · exact Or.inr (Or.inr (Or.inr (Or.inl ⟨_, Or.inr hah, c, hpc, hfr'⟩)))
  push Not at hfr hfr'
  have hn' : EnergyNeutron { p with rng := Rng.next^[k] p.rng } :=
    ⟨hn.type, hn.energy, Rng.valid_iterate hn.rng k, hn.direction⟩
  obtain ⟨_, _, _, _, _, _, _, hD⟩ := gas_density hw hc hm (p := { p with rng := Rng.next^[k] p.rng })
    hpc hn' hfr
  obtain ⟨D, hD0, hD⟩ := hD method
  obtain ⟨eff, heff⟩ := effects_ok (p := { p with rng := Rng.next^[k] p.rng }) hpc hm hD hD0.ne' t
    p.indirectEffects
  have hs : Particle.stream method { p with rng := Rng.next^[k] p.rng } (t : WithTop ℝ) = .ok
      { p with
        rng := Rng.next^[k] p.rng
        indirectEffects := eff
        position := along p.position p.direction t } := by
    change (streamEffects method _ t p.indirectEffects >>= fun effects => Except.ok _) = _
    rw [heff]
    simp only [bind, Except.bind, smul_eq_along]
  set p₁ : Particle := { p with
      rng := Rng.next^[k] p.rng
      indirectEffects := eff
      position := along p.position p.direction t } with hp₁
  have hn₁ : EnergyNeutron p₁ :=
    ⟨hn.type, hn.energy, Rng.valid_iterate hn.rng k, hn.direction⟩
  obtain ⟨σ, hσ, hpos, _, _⟩ := gas_density hw hc hm (p := p₁) hpc hn₁ hfr'
  obtain ⟨i, hi, _, hi0, hsel⟩ := C24_selects (p := p₁) (σ := σ) hpc hm (fun x hx => (hσ x hx).1)
    (fun x hx => (hσ x hx).2) hn₁.rng hpos
  have hmem := List.getElem_mem hi
  obtain ⟨f1, d, hd, hsd⟩ := hw.data c hc m hm _ hmem
  have hσpos : 0 < σ m.afracs[i].1 := by
    by_contra hcon
    have := mul_nonpos_of_nonneg_of_nonpos f1.le (not_lt.1 hcon)
    linarith
  have hcol : collide method fuel { p with rng := Rng.next^[k] p.rng } (t : WithTop ℝ) =
      m.afracs[i].1.interact fuel { p₁ with rng := (Rng.canonical p₁.rng).2 } := by
    unfold collide
    rw [hs]
    simp only [bind, Except.bind, hsel]
  obtain ⟨hta, htu⟩ := temperature_in (p := { p₁ with rng := (Rng.canonical p₁.rng).2 }) hpc
  have hit : (Rng.canonical p₁.rng).2 = Rng.next^[2 + k] p.rng := by
    rw [Function.iterate_add_apply]; rfl
  have hit' : Rng.next^[2] (Rng.canonical p₁.rng).2 = Rng.next^[4 + k] p.rng := by
    rw [hit, ← Function.iterate_add_apply]
    congr 1
    omega
  rcases sound_interact (fuel := fuel) hd hsd (p := { p₁ with rng := (Rng.canonical p₁.rng).2 })
    ⟨hn.type, hn.energy, Rng.valid_canonical hn₁.rng, hn.direction⟩ hta htu hfr'
    (hw.upper c hc hm') (by
      rw [Nuclide.getTotal_rng]
      exact (hσ _ hmem).1) hσpos with ⟨p', h1, h2, h3, h4, h5⟩ | ⟨h1, h2⟩ | ⟨h1, ev, tsl, A, h2, h3⟩ |
      h1
  · refine Or.inl ⟨p', hcol.trans h1, fun he => ⟨h3 he, c, hc, h2.trans hpc, hm'⟩, h4, h5⟩
  · refine Or.inr (Or.inl ⟨h1.imp id ?_, hcol.trans h2⟩)
    rintro ⟨t', ht', ht0⟩
    rw [hta] at ht'
    cases ht'
    exact ⟨_, hah, c, hpc, ht0⟩
  · refine Or.inr (Or.inr (Or.inl ⟨hcol.trans h1, ?_⟩))
    refine ⟨c, m, m.afracs[i], d, ev, tsl, A, t, 4 + k, eff, hpc, hm, hmem, hd, h2, ?_⟩
    rw [← hit']
    exact h3
  · refine Or.inr (Or.inr (Or.inr (Or.inr (thermalEnd_imp h1 (fun err _ h => hcol.trans h) ?_))))
    rintro Q ⟨r, hr, ev, s, A, e, rfl, he, hlt, hQ⟩
    refine ⟨c, m, m.afracs[i], d, ev, A, s, e, t, 4 + k, eff, hpc, hm, hmem, hd, hr, he, hlt, ?_⟩
    rw [← hit']
    exact hQ

theorem gas_step {w : World} (hw : ThermalWorld w) {p : Particle} (hp : InGas w p)
    (method : Method) (fuel : ℕ) :
    StepOutcome fuel w p (transportStep method fuel w p) := by
  have hp0 := hp
  obtain ⟨hn, c, hc, hpc, hm'⟩ := hp
  obtain ⟨m, hm⟩ := Option.ne_none_iff_exists'.1 hm'
  by_cases hfr : c.temperature.at' p.position < 0
  · exact Or.inr (Or.inr (Or.inr (Or.inl ⟨p, Or.inl rfl, c, hpc, hfr⟩)))
  push Not at hfr
  obtain ⟨σ, hσ, hpos, hS, M, hM0, hM, hD⟩ := gas_density hw hc hm hpc hn hfr
  obtain ⟨D, hD0, hD⟩ := hD method
  have hrate := mul_pos (hw.density c hc m hm) hD0
  obtain ⟨dc, hdc⟩ : ∃ dc : ℝ, (Rng.exponential (m.numberDensity * D) p.rng).1 = (dc : WithTop ℝ) := by
    unfold Rng.exponential Rng.exponentialOf
    rw [if_neg hrate.ne']
    exact ⟨_, rfl⟩
  have hdc0 : 0 ≤ dc := exponential_nonneg hn.rng hrate.le hdc
  set p₁ : Particle := { p with rng := Rng.next^[2] p.rng } with hp₁
  have hfl : sampleFlight method p = .ok ((dc : WithTop ℝ), p₁) := by
    have hgc : p.getCell = .ok c := Particle.getCell_ok.2 hpc
    unfold sampleFlight
    rw [hgc]
    simp only [bind, Except.bind, hm, hD]
    rw [← hdc]
    rfl
  have hn₁ : EnergyNeutron p₁ :=
    ⟨hn.type, hn.energy, Rng.valid_iterate hn.rng 2, hn.direction⟩
  obtain ⟨⟨s, ds⟩, hns⟩ := (C07_raises_iff_no_surfaces c p.position p.direction).2
    (hw.bounded c hc hm')
  have hnear : ∀ {t : WithTop ℝ}, t ≤ ds → ∀ c', p.cell = some c' → NoSurfaceBefore c' p t := by
    intro t hle c' hc' s' hs'
    rw [hpc] at hc'
    cases hc'
    obtain ⟨b, hb⟩ := hs'
    exact hle.trans ((C07_nearest hns).2.1 _ hb)
  obtain ⟨_, _, _, hS₁, M₁, hM₁0, hM₁, hD₁⟩ := gas_density hw hc hm (p := p₁) hpc hn₁ hfr
  obtain ⟨D₁, hD₁0, hD₁⟩ := hD₁ method
  -- flying a finite distance
  have hfly : ∀ (g : ℕ) (t : ℝ), ∃ eff, Particle.stream method { p with rng := g } (t : WithTop ℝ) =
      .ok { p with
        rng := g
        indirectEffects := eff
        position := along p.position p.direction t } := by
    intro g t
    have hd : collisionDensity method { p with rng := g } = .ok D := by
      have hgc : p.getCell = .ok c := Particle.getCell_ok.2 hpc
      have hgc' : Particle.getCell { p with rng := g } = .ok c := hgc
      have h1 := m.getMicroscopicTotal_congr (p := { p with rng := g }) (q := p) rfl rfl rfl
      have h2 := m.getMicroscopicMajorant_congr (p := { p with rng := g }) (q := p) rfl rfl rfl
      rw [← hD]
      unfold collisionDensity
      rw [hgc, hgc']
      simp only [bind, Except.bind, hm, h1, h2]
    obtain ⟨eff, heff⟩ := effects_ok (p := { p with rng := g }) hpc hm hd hD0.ne' t p.indirectEffects
    refine ⟨eff, ?_⟩
    change (streamEffects method _ t p.indirectEffects >>= fun effects => Except.ok _) = _
    rw [heff]
    simp only [bind, Except.bind, smul_eq_along]
  -- the crossing branch, when the surface is at a finite distance
  have hcross : ds ≤ (dc : WithTop ℝ) → StepOutcome fuel w p (crossSurface method w p₁ s ds) := by
    intro hle
    obtain ⟨t, rfl⟩ : ∃ t : ℝ, ds = (t : WithTop ℝ) := by
      induction ds using WithTop.recTopCoe with
      | top => exact absurd hle (not_le.2 (WithTop.coe_lt_top _))
      | coe t => exact ⟨t, rfl⟩
    obtain ⟨eff, hs⟩ := hfly (Rng.next^[2] p.rng) (t + nudge)
    obtain ⟨c', hfirst⟩ := firstCell_covered hw.covered (along p.position p.direction (t + nudge))
    have hfind := findCellContaining_ok.2 hfirst
    obtain ⟨l, r, hlr, _, _⟩ := hfirst
    left
    refine ⟨{ p₁ with
        indirectEffects := eff
        position := along p.position p.direction (t + nudge)
        cell := some c'
        currentSurface := some s
        event := if c'.material.isSome then .surfaceCross else .leak }, ?_, ?_, hn.energy, id⟩
    · unfold crossSurface
      have hs' : p₁.stream method ((t : WithTop ℝ) + (nudge : WithTop ℝ)) = _ := hs
      rw [hs']
      simp only [bind, Except.bind, Particle.locate, hfind, Particle.getCell]
      rfl
    · intro hend
      refine ⟨⟨hn.type, hn.energy, hn₁.rng, hn.direction⟩, c', by rw [hlr]; simp, rfl, ?_⟩
      intro hnone
      exact hend (by simp [Ended, hnone])
  have hgc : p₁.getCell = .ok c := Particle.getCell_ok.2 hpc
  have hns' : c.nearestSurface p₁.position p₁.direction = .ok (s, ds) := hns
  cases method
  · change StepOutcome fuel w p (surfaceStep fuel w p)
    unfold surfaceStep
    rw [hfl]
    simp only [bind, Except.bind, hgc, hns']
    by_cases hlt : (dc : WithTop ℝ) < ds
    · rw [if_pos hlt]
      exact gas_collide hw hp0 _ fuel 2 hdc0 (hnear hlt.le)
    · rw [if_neg hlt]
      exact hcross (not_lt.1 hlt)
  · change StepOutcome fuel w p (deltaStep fuel w p)
    unfold deltaStep
    rw [hfl]
    simp only [bind, Except.bind, hgc, hns']
    by_cases hlt : ds < (dc : WithTop ℝ)
    · rw [if_pos hlt]
      exact hcross hlt.le
    · rw [if_neg hlt]
      obtain ⟨x, hacc⟩ : ∃ x, acceptance p₁ = .ok x := by
        unfold acceptance
        rw [hgc]
        simp only [bind, Except.bind, hm, hS₁, hM₁]
        rw [if_neg hM₁0.ne']
        exact ⟨_, rfl⟩
      rw [hacc]
      have hit : (Rng.canonical p₁.rng).2 = Rng.next^[4] p.rng := rfl
      unfold Rng.bernoulli
      simp only [hit]
      split
      · exact gas_collide hw hp0 _ fuel 4 hdc0 (hnear (not_lt.1 hlt))
      · obtain ⟨eff, hs⟩ := hfly (Rng.next^[4] p.rng) dc
        left
        have hs' : Particle.stream .cellDeltaTracking { p₁ with rng := Rng.next^[4] p.rng }
          (dc : WithTop ℝ) = _ := hs
        refine ⟨{ p with
            rng := Rng.next^[4] p.rng
            indirectEffects := eff
            position := along p.position p.direction dc
            event := .virtualCollision }, by rw [hs'], fun _ => ?_, hn.energy, id⟩
        exact ⟨⟨hn.type, hn.energy, Rng.valid_iterate hn.rng 4, hn.direction⟩, c, hc, hpc, hm'⟩

/-- What transporting a neutron in a continuous-energy problem may come to. -/
def LoopOutcome (method : Method) (fuel n : ℕ) (w : World) (p : Particle)
    (r : Res (Particle × List Particle)) : Prop :=
  (∃ x, r = .ok x ∧ (∀ q ∈ x.2, Energetic q) ∧ (BanksEnergies p → BanksEnergies x.1)) ∨
  (r = .error .fuel ∧
    (Lasts method fuel w n p ∨ ∃ q, StepsTo method fuel w p q ∧ MeetsWarmth q)) ∨
  (r = .error .nan ∧ ∃ q, StepsTo method fuel w p q ∧ NextStopsDead fuel q) ∨
  (∃ q, StepsTo method fuel w p q ∧ MeetsFrost q) ∨
  ThermalEnd r (fun Q => ∃ q, StepsTo method fuel w p q ∧ NextThermal Q q)

theorem gas_loop {w : World} (hw : ThermalWorld w) (method : Method) (fuel n : ℕ) (hnf : n ≤ fuel)
    (p : Particle) (hp : ¬ Ended p → InGas w p) :
    LoopOutcome method fuel n w p (transportLoop method fuel w n p) := by
  induction n generalizing p with
  | zero =>
    unfold transportLoop
    split_ifs with ha
    · exact Or.inr (Or.inl ⟨rfl, Or.inl ((alive_iff p).1 ha)⟩)
    · exact Or.inl ⟨_, rfl, by simp, id⟩
  | succ n ih =>
    unfold transportLoop
    by_cases ha : p.isAlive = true
    · have halive := (alive_iff p).1 ha
      rw [if_pos ha]
      rcases gas_step hw (hp halive) method fuel with
        ⟨p', hs, hinv, hgr, hbank⟩ | ⟨h0, hs⟩ | ⟨hs, hd⟩ | hf | ht
      · have hreach : ∀ {q}, StepsTo method fuel w p' q → StepsTo method fuel w p q :=
          fun h => .step hs h
        rw [hs]
        simp only [bind, Except.bind]
        rcases ih (by omega) p' hinv with
          ⟨x, hr, hg, hb⟩ | ⟨hr, hl⟩ | ⟨hr, q, hq, hd⟩ | ⟨q, hq, hf⟩ | ht
        · rw [hr]
          refine Or.inl ⟨_, rfl, ?_, fun h => hb (hbank h)⟩
          intro q hq
          rcases List.mem_cons.1 hq with rfl | hq
          · exact hgr
          · exact hg q hq
        · rw [hr]
          refine Or.inr (Or.inl ⟨rfl, hl.imp (fun h => ⟨halive, p', hs, h⟩) ?_⟩)
          rintro ⟨q, hq, hw⟩
          exact ⟨q, hreach hq, hw⟩
        · rw [hr]; exact Or.inr (Or.inr (Or.inl ⟨rfl, q, hreach hq, hd⟩))
        · exact Or.inr (Or.inr (Or.inr (Or.inl ⟨q, hreach hq, hf⟩)))
        · refine Or.inr (Or.inr (Or.inr (Or.inr (thermalEnd_imp ht (fun err _ h => by rw [h]) ?_))))
          rintro Q ⟨q, hq, hQ⟩
          exact ⟨q, hreach hq, hQ⟩
      · rw [hs]
        refine Or.inr (Or.inl ⟨rfl, Or.inr ⟨p, .refl p, h0.resolve_left (by omega)⟩⟩)
      · rw [hs]; exact Or.inr (Or.inr (Or.inl ⟨rfl, p, .refl p, hd⟩))
      · exact Or.inr (Or.inr (Or.inr (Or.inl ⟨p, .refl p, hf⟩)))
      · refine Or.inr (Or.inr (Or.inr (Or.inr (thermalEnd_imp ht (fun err _ h => by rw [h]; rfl) ?_))))
        exact fun Q hQ => ⟨p, .refl p, hQ⟩
    · rw [if_neg ha]
      exact Or.inl ⟨_, rfl, by simp, id⟩

/-- **C66** A neutron that starts in a cell with material of a sound continuous-energy problem is
transported to the end of its life with either method, all of its states and all that it banks
having a positive energy, or the model's step counter runs out: the neutron lives for more steps
than that, or it met a moving target, which may take any number of draws.  Only three things can go
wrong: a collision with a moving target stops the neutron dead, which gives a direction that is not
a number; or the neutron meets a place with a negative temperature; or the neutron collides with a
scatterer that has thermal data, and the tables do not serve its energy, or none of ten energy
transfers can be afforded, or all the energy is transferred. -/
theorem C66_transport_partial {w : World} (hw : ThermalWorld w) {p : Particle}
    (hp : EnergyNeutron p) {c : Cell} (hc : FirstCell w p.position c) (hm : c.material ≠ none)
    (method : Method) (fuel : ℕ) :
    (∃ r, transport method fuel w p = .ok r ∧ (∀ q ∈ r.2, Energetic q) ∧
      (BanksEnergies p → BanksEnergies r.1)) ∨
    (transport method fuel w p = .error .fuel ∧
      (Lasts method fuel w fuel { p with cell := some c } ∨
        ∃ q, StepsTo method fuel w { p with cell := some c } q ∧ MeetsWarmth q)) ∨
    (transport method fuel w p = .error .nan ∧
      ∃ q, StepsTo method fuel w { p with cell := some c } q ∧ NextStopsDead fuel q) ∨
    (∃ q, StepsTo method fuel w { p with cell := some c } q ∧ MeetsFrost q) ∨
    ThermalEnd (transport method fuel w p)
      (fun Q => ∃ q, StepsTo method fuel w { p with cell := some c } q ∧ NextThermal Q q) := by
  have hloc : p.locate w = .ok { p with cell := some c } := locate_ok.2 ⟨c, hc, rfl⟩
  obtain ⟨l, r, hlr, _, _⟩ := hc
  have := gas_loop hw method fuel fuel le_rfl { p with cell := some c }
    (fun _ => ⟨⟨hp.type, hp.energy, hp.rng, hp.direction⟩, c, by rw [hlr]; simp, rfl, hm⟩)
  unfold transport
  rw [hloc]
  simp only [bind, Except.bind]
  rcases this with ⟨r, hr, hg, hb⟩ | ⟨hr, h⟩ | ⟨hr, h⟩ | h | h
  · rw [hr]; exact Or.inl ⟨_, rfl, hg, hb⟩
  · rw [hr]; exact Or.inr (Or.inl ⟨rfl, h⟩)
  · rw [hr]; exact Or.inr (Or.inr (Or.inl ⟨rfl, h⟩))
  · exact Or.inr (Or.inr (Or.inr (Or.inl h)))
  · refine Or.inr (Or.inr (Or.inr (Or.inr (thermalEnd_imp h ?_ fun Q hQ => hQ))))
    rintro err (rfl | rfl) h <;> rw [h] <;> rfl

/-- Everything that a transported particle meets is in one of the cells of the world. -/
theorem reaches_cell {method : Method} {fuel : ℕ} {w : World} {p q : Particle}
    (h : StepsTo method fuel w p q) (hp : ∃ c ∈ w.cells, p.cell = some c) :
    ∃ c ∈ w.cells, q.cell = some c := by
  induction h with
  | refl => exact hp
  | @step p p' q h1 _ ih =>
    refine ih ?_
    rcases step_cases h1 with ⟨c₀, d, ds, p₁, s, hc₀, h1, h2, hd, h3⟩ |
      ⟨c₀, d, ds, p₁, p₂, s, hc₀, h1, h2, hd, _, hr, h3⟩ |
      ⟨c₀, d, ds, p₁, p₂, p₃, s, hm, hc₀, h1, h2, hd, hr, h3, h4⟩
    · obtain ⟨t, _, _, ⟨c', ⟨l, r, hlr, _, _⟩, hc', _⟩, _⟩ := crossSurface_ok h3
      exact ⟨c', by rw [hlr]; simp, hc'⟩
    · obtain ⟨c, m, _, e1, e2, _, _, rfl⟩ := sampleFlight_ok h1
      obtain ⟨r, hr1, rfl⟩ := hr
      unfold collide at h3
      simp only [res_bind_ok] at h3
      obtain ⟨p₃, h4, ⟨n, p₄⟩, h5, h6⟩ := h3
      obtain ⟨t, eff, rfl, _, rfl⟩ := Particle.stream_ok h4
      have hk := (Particle.sampleNuclide_rng h5).keeps.trans (Nuclide.interact_keeps h6).1
      rw [hk.cell]
      exact hp
    · obtain ⟨_, _, _, _, _, _, _, rfl⟩ := sampleFlight_ok h1
      obtain ⟨r, _, rfl⟩ := hr
      obtain ⟨t, eff, ht, _, rfl⟩ := Particle.stream_ok h3
      subst h4
      exact hp

/-- A neutron can only be stopped dead where the temperature is positive. -/
theorem nextStopsDead_warm {fuel : ℕ} {p : Particle} (h : NextStopsDead fuel p) :
    ∃ c x, p.cell = some c ∧ 0 < c.temperature.at' x := by
  obtain ⟨c, m, n, d, ev, tsl, A, t, k, eff, hc, _, _, _, _, e, t', s, mu, q, V, _, ht, ht0, _⟩ := h
  refine ⟨c, along p.position p.direction t, hc, ?_⟩
  have := (temperature_in (p := { p with
      position := along p.position p.direction t, rng := Rng.next^[k] p.rng, event := .scatter,
      indirectEffects := eff }) hc).1
  rw [this] at ht
  cases ht
  exact ht0

theorem continuousWorld_thermal {w : World} (hw : ContinuousWorld w) : ThermalWorld w := by
  refine ⟨hw.covered, hw.bounded, hw.density, hw.upper, ?_, hw.reacts⟩
  intro c hc m hm x hx
  obtain ⟨h1, d, h2, h3⟩ := hw.data c hc m hm x hx
  exact ⟨h1, d, h2, fun r hr => soundReaction_thermal (h3.reactions r hr), h3.temperature, h3.total⟩

/-- Without thermal data no collision is with a scatterer that has it. -/
theorem no_thermal {w : World} (hw : ContinuousWorld w) {method : Method} {fuel : ℕ} {p : Particle}
    (hp : ∃ c ∈ w.cells, p.cell = some c) (Q : ThermalScattering → Particle → Prop) :
    ¬ ∃ q, StepsTo method fuel w p q ∧ NextThermal Q q := by
  rintro ⟨q, hq, c, m, n, d, ev, A, s, e, t, k, eff, h1, h2, h3, h4, h5, _⟩
  obtain ⟨c', hc', h6⟩ := reaches_cell hq hp
  rw [h1] at h6
  cases h6
  obtain ⟨_, d', h7, h8⟩ := hw.data c hc' m h2 n h3
  rw [h4] at h7
  cases h7
  have := ((h8.reactions _ h5).scatter _ _ _ rfl).1
  cases this

theorem no_thermalEnd {α : Type} {r : Res α} {N : (ThermalScattering → Particle → Prop) → Prop}
    (h : ∀ Q, ¬ N Q) : ¬ ThermalEnd r N := by
  rintro (⟨_, h'⟩ | ⟨_, h'⟩ | h') <;> exact h _ h'

/-- **C66** If no temperature is negative, then only a collision that stops the neutron dead and
thermal data can go wrong. -/
theorem C66_transport_warm_partial {w : World} (hw : ThermalWorld w)
    (hT : ∀ c ∈ w.cells, ∀ x, 0 ≤ c.temperature.at' x) {p : Particle}
    (hp : EnergyNeutron p) {c : Cell} (hc : FirstCell w p.position c) (hm : c.material ≠ none)
    (method : Method) (fuel : ℕ) :
    (∃ r, transport method fuel w p = .ok r ∧ (∀ q ∈ r.2, Energetic q) ∧
      (BanksEnergies p → BanksEnergies r.1)) ∨
    transport method fuel w p = .error .fuel ∨
    (transport method fuel w p = .error .nan ∧
      ∃ q, StepsTo method fuel w { p with cell := some c } q ∧ NextStopsDead fuel q) ∨
    ThermalEnd (transport method fuel w p)
      (fun Q => ∃ q, StepsTo method fuel w { p with cell := some c } q ∧ NextThermal Q q) := by
  rcases C66_transport_partial hw hp hc hm method fuel with
    h | ⟨h, _⟩ | h | ⟨q, hq, q', hq', c', hc', ht⟩ | h
  · exact Or.inl h
  · exact Or.inr (Or.inl h)
  · exact Or.inr (Or.inr (Or.inl h))
  rotate_left
  · exact Or.inr (Or.inr (Or.inr h))
  · exfalso
    obtain ⟨l, r, hlr, _, _⟩ := hc
    obtain ⟨c₁, h1, h2⟩ := reaches_cell hq ⟨c, by rw [hlr]; simp, rfl⟩
    have hcell : q'.cell = q.cell := by
      rcases hq' with rfl | ⟨_, _, _, _, _, rfl⟩ <;> rfl
    rw [hcell, h2] at hc'
    cases hc'
    exact absurd (hT c' h1 q'.position) (not_le.2 ht)

/-- **C66** At zero temperature all targets are at rest and nothing can go wrong: the neutron is
transported to the end of its life, unless it lives for more steps than the model counts. -/
theorem C66_transport_cold {w : World} (hw : ContinuousWorld w)
    (hT : ∀ c ∈ w.cells, ∀ x, c.temperature.at' x = 0) {p : Particle}
    (hp : EnergyNeutron p) {c : Cell} (hc : FirstCell w p.position c) (hm : c.material ≠ none)
    (method : Method) (fuel : ℕ) :
    (∃ r, transport method fuel w p = .ok r ∧ (∀ q ∈ r.2, Energetic q) ∧
      (BanksEnergies p → BanksEnergies r.1)) ∨
    (transport method fuel w p = .error .fuel ∧
      Lasts method fuel w fuel { p with cell := some c }) := by
  have hmem : ∃ c' ∈ w.cells, ({ p with cell := some c } : Particle).cell = some c' := by
    obtain ⟨l, r, hlr, _, _⟩ := hc
    exact ⟨c, by rw [hlr]; simp, rfl⟩
  rcases C66_transport_partial (continuousWorld_thermal hw) hp hc hm method fuel with
    h | ⟨h, h'⟩ | ⟨_, q, hq, hd⟩ | ⟨q, hq, q', hq', c', hc', ht⟩ | h
  · exact Or.inl h
  · rcases h' with h' | ⟨q, hq, q', ⟨c₂, t, hc₂, _, _, rfl⟩, c', hc', ht⟩
    · exact Or.inr ⟨h, h'⟩
    · exfalso
      obtain ⟨c₁, h1, h2⟩ := reaches_cell hq hmem
      have : q.cell = some c' := hc'
      rw [h2] at this
      cases this
      rw [hT _ h1] at ht
      exact lt_irrefl _ ht
  · exfalso
    obtain ⟨c₁, h1, h2⟩ := reaches_cell hq hmem
    obtain ⟨c₂, x, h3, h4⟩ := nextStopsDead_warm hd
    rw [h2] at h3
    cases h3
    rw [hT _ h1] at h4
    exact lt_irrefl _ h4
  · exfalso
    obtain ⟨c₁, h1, h2⟩ := reaches_cell hq hmem
    have hcell : q'.cell = q.cell := by
      rcases hq' with rfl | ⟨_, _, _, _, _, rfl⟩ <;> rfl
    rw [hcell, h2] at hc'
    cases hc'
    rw [hT _ h1] at ht
    exact lt_irrefl _ ht
  · exact absurd h (no_thermalEnd (no_thermal hw hmem))

/-! ### Histories -/

/-- A particle of the bank that can be dealt with. -/
structure ReadyGas (P : Problem) (fuel e : ℕ) (p : Particle) : Prop where
  neutron : EnergyNeutron p
  empty : p.secondaries = []
  handled : Handled P fuel e (p.setPerturbations P.perturbations)

theorem gas_bank {P : Problem} (hw : ThermalWorld P.world)
    (hT : ∀ c ∈ P.world.cells, ∀ x, 0 ≤ c.temperature.at' x) (fuel e n : ℕ) (bank : Bank)
    (hb : ∀ p ∈ bank, ReadyGas P fuel e p) :
    (∃ log, processBank (transport P.method fuel P.world) P.perturbations n bank = .ok log ∧
      ∀ x ∈ log, ∀ q ∈ x.2, Energetic q) ∨
    processBank (transport P.method fuel P.world) P.perturbations n bank = .error .fuel ∨
    (processBank (transport P.method fuel P.world) P.perturbations n bank = .error .nan ∧
      HistoryStopsDead P fuel e) ∨
    (∃ p, Handled P fuel e p ∧ StartsInVoid P.world p) ∨
    ThermalEnd (processBank (transport P.method fuel P.world) P.perturbations n bank)
      (fun Q => HistoryThermal Q P fuel e) := by
  induction n generalizing bank with
  | zero =>
    rcases bank.eq_nil_or_concat' with rfl | ⟨b, p, rfl⟩
    · exact Or.inl ⟨[], processBank_nil _, by simp⟩
    · exact Or.inr (Or.inl (processBank_zero _ _))
  | succ n ih =>
    rcases bank.eq_nil_or_concat' with rfl | ⟨b, p, rfl⟩
    · exact Or.inl ⟨[], processBank_nil _, by simp⟩
    · obtain ⟨hn, he, hh⟩ := hb p (by simp)
      obtain ⟨c, hc⟩ := firstCell_covered hw.covered p.position
      by_cases hm : c.material = none
      · exact Or.inr (Or.inr (Or.inr (Or.inl ⟨_, hh, c, hc, hm⟩)))
      rw [processBank_concat]
      rcases C66_transport_warm_partial hw hT (p := p.setPerturbations P.perturbations)
        ⟨hn.type, hn.energy, hn.rng, hn.direction⟩ hc hm P.method fuel with
        ⟨⟨last, scored⟩, hr, hg, hbk⟩ | hr | ⟨hr, q, hq, hd⟩ | ht
      · rw [hr]
        simp only [bind, Except.bind]
        have hbank : ∀ q ∈ last.secondaries.map Particle.ofBorn ++ b, ReadyGas P fuel e q := by
          intro q hq
          rcases List.mem_append.1 hq with hq | hq
          · obtain ⟨x, hx, rfl⟩ := List.mem_map.1 hq
            obtain ⟨t1, t2, t3⟩ := hbk (by
              intro y hy
              have : y ∈ p.secondaries := hy
              rw [he] at this
              cases this) x hx
            exact ⟨⟨t1, t3, Rng.valid_ofSeed x.seed, t2⟩, rfl, .secondary hh hr hx⟩
          · exact hb q (by simp [hq])
        rcases ih _ hbank with ⟨log, hl, hlg⟩ | hl | ⟨hl, hd⟩ | hl | ht
        · rw [hl]
          refine Or.inl ⟨_, rfl, ?_⟩
          intro x hx
          rcases List.mem_cons.1 hx with rfl | hx
          · exact hg
          · exact hlg x hx
        · rw [hl]; exact Or.inr (Or.inl rfl)
        · rw [hl]; exact Or.inr (Or.inr (Or.inl ⟨rfl, hd⟩))
        · exact Or.inr (Or.inr (Or.inr (Or.inl hl)))
        · exact Or.inr (Or.inr (Or.inr (Or.inr
            (thermalEnd_imp ht (fun err _ h => by rw [h]) fun Q hQ => hQ))))
      · rw [hr]
        exact Or.inr (Or.inl rfl)
      · rw [hr]
        exact Or.inr (Or.inr (Or.inl ⟨rfl, _, c, q, hh, hc, hq, hd⟩))
      · refine Or.inr (Or.inr (Or.inr (Or.inr (thermalEnd_imp ht (fun err _ h => by rw [h]; rfl) ?_))))
        rintro Q ⟨q, hq, hQ⟩
        exact ⟨_, c, q, hh, hc, hq, hQ⟩

/-- **C66** With a source of neutrons in a cell with material and no negative temperature, a history
ends with its states, all with a positive energy, or the model's step counter runs out; only three
things can go wrong: a neutron of the history is stopped dead by a moving target, or a fission
neutron starts at a point whose first cell has no material, or a neutron of the history is scattered
by thermal data that does not serve it, gives up, or takes all of its energy. -/
theorem C66_history_partial {P : Problem} (hw : ThermalWorld P.world)
    (hT : ∀ c ∈ P.world.cells, ∀ x, 0 ≤ c.temperature.at' x)
    (hs : EnergySource P.world P.source) (hd : Configured P.source.direction) (fuel e : ℕ) :
    (∃ states, P.history fuel e = .ok states ∧ ∀ q ∈ states, Energetic q) ∨
      P.history fuel e = .error .fuel ∨
      (P.history fuel e = .error .nan ∧ HistoryStopsDead P fuel e) ∨
      (∃ p, Handled P fuel e p ∧ StartsInVoid P.world p) ∨
      ThermalEnd (P.history fuel e) (fun Q => HistoryThermal Q P fuel e) := by
  obtain ⟨b, h1, h2, h3, h4, h5, _⟩ := C51_source_particle P.source hd (P.seed + e)
  obtain ⟨x, x1, x2⟩ := hs.energy
  have := gas_bank (P := P) hw hT fuel e fuel [Particle.ofBorn b] (by
    intro p hp
    obtain rfl := List.mem_singleton.1 hp
    exact ⟨⟨h4.trans hs.type, ⟨x, h3.trans x1, x2⟩, Rng.valid_ofSeed b.seed, h5⟩, rfl,
      .source h1⟩)
  unfold Problem.history
  rw [h1]
  simp only [bind, Except.bind]
  rcases this with ⟨log, hl, hg⟩ | hl | ⟨hl, h⟩ | hl | h
  · rw [hl]
    refine Or.inl ⟨_, rfl, ?_⟩
    intro q hq
    obtain ⟨x, hx, hq⟩ := List.mem_flatMap.1 hq
    exact hg x hx q hq
  · rw [hl]; exact Or.inr (Or.inl rfl)
  · rw [hl]; exact Or.inr (Or.inr (Or.inl ⟨rfl, h⟩))
  · exact Or.inr (Or.inr (Or.inr (Or.inl hl)))
  · exact Or.inr (Or.inr (Or.inr (Or.inr
      (thermalEnd_imp h (fun err _ h => by rw [h]) fun Q hQ => hQ))))

/-- At zero temperature nothing is stopped dead. -/
theorem cold_history {P : Problem} (hT : ∀ c ∈ P.world.cells, ∀ x, c.temperature.at' x = 0)
    (fuel e : ℕ) : ¬ HistoryStopsDead P fuel e := by
  rintro ⟨p, c, q, _, ⟨l, r, hlr, _, _⟩, hq, hd⟩
  obtain ⟨c₁, h1, h2⟩ := reaches_cell hq ⟨c, by rw [hlr]; simp, rfl⟩
  obtain ⟨c₂, x, h3, h4⟩ := nextStopsDead_warm hd
  rw [h2] at h3
  cases h3
  rw [hT _ h1] at h4
  exact lt_irrefl _ h4

/-- **C66** If also the radii of cylinders are 0 or 1 (see C06) and no cell without material is
listed before one with material that it overlaps, then `Solve` returns a result, unless a history
needs more rounds than the model counts, is stopped dead, has a particle that begins or ends a
step exactly on a surface, or meets thermal data that does not serve it, gives up, or takes all of
its energy.  At zero temperature nothing is stopped dead. -/
theorem C66_solve_partial {P : Problem} (hw : ThermalWorld P.world)
    (hT : ∀ c ∈ P.world.cells, ∀ x, 0 ≤ c.temperature.at' x)
    (hs : EnergySource P.world P.source) (hd : Configured P.source.direction)
    (hn : NonnegRates P.method P.world)
    (hconf : ∀ c ∈ P.world.cells, ∀ s, Bounds s c → Conforming s.shape)
    (hmf : MaterialFirst P.world) (hinit : FreshSet P.init)
    (hest : ∃ ns, List.Forall₂ (EstimatorOf P.world P.perturbations) ns P.init.estimators)
    (hbins : ∀ x ∈ P.init.estimators, TotalBins x.base.bins) (fuel : ℕ) :
    (∃ r k, SolveResult P fuel 0 r k) ∨
      ∃ e < P.batchsize, P.history fuel e = .error .fuel ∨
        ((∃ c ∈ P.world.cells, ∃ x, c.temperature.at' x ≠ 0) ∧ P.history fuel e = .error .nan ∧
          HistoryStopsDead P fuel e) ∨
        (∃ p, Handled P fuel e p ∧ TouchesSurface P.method fuel P.world p) ∨
        ThermalEnd (P.history fuel e) (fun Q => HistoryThermal Q P fuel e) := by
  by_cases hall : ∀ e < P.batchsize, ∃ states, P.history fuel e = .ok states ∧
      ∀ q ∈ states, Energetic q
  · left
    refine solve_of_histories hinit hest hbins fuel fun e he => ?_
    obtain ⟨states, h, hg⟩ := hall e he
    refine ⟨states, h, fun q hq => ?_⟩
    obtain ⟨x, hx, hx0⟩ := hg q hq
    rw [hx]
    exact hx0.le
  · right
    push Not at hall
    obtain ⟨e, he, hne⟩ := hall
    refine ⟨e, he, ?_⟩
    rcases C66_history_partial hw hT hs hd fuel e with
      ⟨states, h, hg⟩ | h | ⟨h, hd'⟩ | ⟨p, hp, hv⟩ | h
    · obtain ⟨q, hq, hnq⟩ := hne states h
      exact absurd (hg q hq) hnq
    · exact Or.inl h
    · refine Or.inr (Or.inl ⟨?_, h, hd'⟩)
      by_contra hcon
      push Not at hcon
      exact cold_history hcon fuel e hd'
    · rcases (handled_material hn hconf hmf hd hs.place hp).2.2 with h | h
      · exact absurd hv h
      · exact Or.inr (Or.inr (Or.inl h))
    · exact Or.inr (Or.inr (Or.inr h))

/-- **C66** Without thermal data none of its troubles is met. -/
theorem C66_without_thermal {P : Problem} (hw : ContinuousWorld P.world) (fuel e : ℕ)
    (Q : ThermalScattering → Particle → Prop) :
    ThermalWorld P.world ∧ ¬ HistoryThermal Q P fuel e ∧
      ¬ ThermalEnd (P.history fuel e) (fun Q => HistoryThermal Q P fuel e) := by
  have h : ∀ Q, ¬ HistoryThermal Q P fuel e := by
    rintro Q ⟨p, c, q, _, ⟨l, r, hlr, _, _⟩, hq, hQ⟩
    exact no_thermal hw ⟨c, by rw [hlr]; simp, rfl⟩ Q ⟨q, hq, hQ⟩
  exact ⟨continuousWorld_thermal hw, h Q, no_thermalEnd h⟩

/-! ### Instance: a fissile slab -/

/-- Data of a nuclide that captures, scatters and undergoes fission, evaluated at temperature
`T`. -/
noncomputable def gasData (T : ℝ) : Continuous where
  reactions := [.capture ⟨[(1, 1)], T⟩, .scatter ⟨[(1, 2)], T⟩ none 12,
    .fission ⟨[(1, 3)], T⟩ (some [(1, 2)])]
  total := ⟨[(1, 6)], T⟩

/-- The nuclide. -/
noncomputable def gasNuclide (T : ℝ) : Nuclide where
  id := 1
  name := "u"
  xs := fun _ => some (.continuous (gasData T))

/-- A slab of it at temperature `T`, surrounded by void. -/
noncomputable def gasSlab (T : ℝ) : World where
  cells := [⟨"in", slabWalls, some ⟨"m", [(gasNuclide T, 1)], 1⟩, .constant T⟩,
    ⟨"out", [], none, .constant T⟩]
  surfaces := [plane1, plane3]
  nuclides := [gasNuclide T]
  materials := [⟨"m", [(gasNuclide T, 1)], 1⟩]
  temperature := .constant T

theorem single_table (k v e : ℝ) : ContinuousMap.at' [(k, v)] e = .ok v := by
  unfold ContinuousMap.at'
  by_cases h : k ≤ e <;> simp [h]

theorem gasSlab_first (T : ℝ) : FirstCell (gasSlab T) ⟨2, 0, 0⟩
    ⟨"in", slabWalls, some ⟨"m", [(gasNuclide T, 1)], 1⟩, .constant T⟩ :=
  ⟨[], [⟨"out", [], none, .constant T⟩], rfl, slab_in (by norm_num) (by norm_num), by simp⟩

theorem gasSlab_material (T : ℝ) : ∀ c ∈ (gasSlab T).cells, c.temperature = .constant T ∧
    ∀ m, c.material = some m → m = ⟨"m", [(gasNuclide T, 1)], 1⟩ := by
  intro c hc
  simp only [gasSlab, List.mem_cons, List.not_mem_nil, or_false] at hc
  rcases hc with rfl | rfl
  · exact ⟨rfl, fun m hm => by simpa using hm.symm⟩
  · exact ⟨rfl, fun m hm => by cases hm⟩

theorem gasData_sound {T : ℝ} (hT : 0 ≤ T) : SoundContinuous (gasData T) := by
  refine ⟨?_, hT, ?_⟩
  · intro r hr
    simp only [gasData, List.mem_cons, List.not_mem_nil, or_false] at hr
    rcases hr with rfl | rfl | rfl
    · exact ⟨fun e _ => ⟨_, single_table _ _ _, by norm_num⟩, hT, by simp, by simp⟩
    · refine ⟨fun e _ => ⟨_, single_table _ _ _, by norm_num⟩, hT, ?_, by simp⟩
      intro ev tsl awr h
      cases h
      exact ⟨rfl, by norm_num⟩
    · refine ⟨fun e _ => ⟨_, single_table _ _ _, by norm_num⟩, hT, by simp, ?_⟩
      intro ev nubar h
      cases h
      exact ⟨_, rfl, fun e _ => ⟨_, single_table _ _ _, by norm_num⟩⟩
  · intro e _ v hv
    have h1 := hv (.capture ⟨[(1, 1)], T⟩) (by simp [gasData])
    have h2 := hv (.scatter ⟨[(1, 2)], T⟩ none 12) (by simp [gasData])
    have h3 := hv (.fission ⟨[(1, 3)], T⟩ (some [(1, 2)])) (by simp [gasData])
    simp only [ContinuousReaction.evaluation, single_table, Except.ok.injEq] at h1 h2 h3
    simp only [gasData, single_table, List.map_cons, List.map_nil, List.sum_cons, List.sum_nil,
      ← h1, ← h2, ← h3]
    norm_num

theorem gasSlab_sound {T : ℝ} (hT : 0 ≤ T) : ContinuousWorld (gasSlab T) := by
  refine ⟨?_, ?_, ?_, ?_, ?_, ?_⟩
  · intro x
    exact ⟨⟨"out", [], none, .constant T⟩, by simp [gasSlab], by simp [InCell]⟩
  · intro c hc hm
    simp only [gasSlab, List.mem_cons, List.not_mem_nil, or_false] at hc
    rcases hc with rfl | rfl
    · simp [slabWalls]
    · simp at hm
  · intro c hc m hm
    rw [(gasSlab_material T c hc).2 m hm]; norm_num
  · intro c hc _
    rw [(gasSlab_material T c hc).1]
    exact hT
  · intro c hc m hm x hx
    rw [(gasSlab_material T c hc).2 m hm] at hx
    obtain rfl := List.mem_singleton.1 hx
    exact ⟨one_pos, gasData T, rfl, gasData_sound hT⟩
  · intro c hc m hm e _
    rw [(gasSlab_material T c hc).2 m hm]
    exact ⟨_, List.mem_singleton.2 rfl, gasData T, 6, rfl, single_table _ _ _, by norm_num⟩

/-- Instance of the hypotheses at zero temperature. -/
example : ContinuousWorld (gasSlab 0) ∧ (∀ c ∈ (gasSlab 0).cells, ∀ x, c.temperature.at' x = 0) ∧
    ∃ c, FirstCell (gasSlab 0) ⟨2, 0, 0⟩ c ∧ c.material ≠ none := by
  refine ⟨gasSlab_sound le_rfl, fun c hc x => ?_, _, gasSlab_first 0, by simp⟩
  rw [(gasSlab_material 0 c hc).1]
  rfl

theorem gasSlab_rates {T : ℝ} (hT : 0 < T) (method : Method) : NonnegRates method (gasSlab T) := by
  intro c hc m hm q hq x hx
  obtain ⟨h1, h2⟩ := gasSlab_material T c hc
  obtain ⟨ht, hu⟩ := temperature_in hq
  rw [h1] at ht hu
  have ht' : q.temperatureAt = .ok T := ht
  have hu' : q.temperatureUpper = .ok T := hu
  obtain rfl := h2 m hm
  have hv : (gasData T).total.isValid T = true := by
    have h0 : (gasData T).total.temperature = T := rfl
    unfold ContinuousEvaluation.isValid
    rw [h0, if_neg hT.ne']
    simp [temperatureTolerance]
    norm_num
  have ha : Continuous.anyModifies q (gasData T).reactions = .ok false := rfl
  rcases he : q.energy with e | g
  · have htab : ContinuousReaction.tabulated (gasData T).total q = .ok 6 := by
      unfold ContinuousReaction.tabulated
      rw [he]
      exact single_table _ _ _
    cases method
    · simp [Material.getMicroscopicTotal, sumLoop, Nuclide.getTotal, Nuclide.xsAt, gasNuclide,
        Interaction.getTotal, Continuous.getTotal, bind, Except.bind, ht', ha, hv, htab,
        noexcept] at hx
      rw [← hx]; norm_num
    · simp [Material.getMicroscopicMajorant, sumLoop, Nuclide.getMajorant, Nuclide.xsAt, gasNuclide,
        Interaction.getMajorant, Continuous.getMajorant, bind, Except.bind, hu', ha, hv, htab,
        noexcept] at hx
      rw [← hx]; norm_num
  · exfalso
    cases method <;>
    simp [Material.getMicroscopicTotal, Material.getMicroscopicMajorant, sumLoop, Nuclide.getTotal,
      Nuclide.getMajorant, Nuclide.xsAt, gasNuclide, Interaction.getTotal, Interaction.getMajorant,
      Continuous.getTotal, Continuous.getMajorant, bind, Except.bind, ht', hu', ha, hv,
      ContinuousReaction.tabulated, he, Energy.getContinuous, noexcept] at hx

/-- A thousand histories of a beam in the slab at 300 K. -/
noncomputable def gasProblem : Problem :=
  { slabProblem 1000 8 with
    world := gasSlab 300
    source := { (slabProblem 1000 8).source with energy := .continuous 1 } }

/-- Instance of the hypotheses of `C66_solve_partial` (with `continuousWorld_thermal`) and of
`C66_without_thermal`. -/
example : ContinuousWorld gasProblem.world ∧
    (∀ c ∈ gasProblem.world.cells, ∀ x, 0 ≤ c.temperature.at' x) ∧
    EnergySource gasProblem.world gasProblem.source ∧ Configured gasProblem.source.direction ∧
    NonnegRates gasProblem.method gasProblem.world ∧
    (∀ c ∈ gasProblem.world.cells, ∀ s, Bounds s c → Conforming s.shape) ∧
    MaterialFirst gasProblem.world ∧ FreshSet gasProblem.init ∧
    (∃ ns, List.Forall₂ (EstimatorOf gasProblem.world gasProblem.perturbations) ns
      gasProblem.init.estimators) ∧
    ∀ x ∈ gasProblem.init.estimators, TotalBins x.base.bins := by
  refine ⟨gasSlab_sound (by norm_num), ?_, ⟨rfl, ⟨1, rfl, one_pos⟩, _, gasSlab_first 300, by simp⟩,
    ?_, gasSlab_rates (by norm_num) _, ?_, ?_, slabProblem_fresh 1000 8, ?_, ?_⟩
  · intro c hc x
    rw [(gasSlab_material 300 c hc).1]
    change (0 : ℝ) ≤ 300
    norm_num
  · norm_num [gasProblem, slabProblem, Configured, UnitVec]
  · rintro c hc s ⟨b, hs⟩
    simp only [gasProblem, gasSlab, List.mem_cons, List.not_mem_nil, or_false] at hc
    rcases hc with rfl | rfl
    · simp only [slabWalls, List.mem_cons, List.not_mem_nil, or_false, Prod.mk.injEq] at hs
      rcases hs with ⟨rfl, _⟩ | ⟨rfl, _⟩ <;> trivial
    · simp at hs
  · intro x c hc hin hm c' hf
    simp only [gasProblem, gasSlab, List.mem_cons, List.not_mem_nil, or_false] at hc
    rcases hc with rfl | rfl
    · obtain ⟨l, r, hlr, _, hl⟩ := hf
      cases l with
      | nil =>
        have := (List.cons.inj hlr).1
        rw [← this]
        simp
      | cons y ys =>
        have := (List.cons.inj hlr).1
        exact absurd hin (this ▸ hl y (by simp))
    · simp at hm
  · refine ⟨[⟨true, "right", "b", .ok oneBin, []⟩], .cons ⟨rfl, ?_, ?_, .nil⟩ .nil⟩
    · exact ⟨rfl, rfl, rfl, rfl, by simp, by simp⟩
    · exact ⟨[plane1], [], rfl, rfl, by simp [plane1]⟩
  · intro x hx
    rw [List.mem_singleton.1 hx]
    exact ⟨by simp [oneBin], by simp [oneBin]⟩

end Minimc.Props
