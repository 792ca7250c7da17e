import Verif.Props.Safety
import Verif.Props.Estimators
import Verif.Props.Source
import Verif.Props.Solve
import Verif.Props.Bins
import Verif.Spec.Run

/-! # Property C65: a well posed multigroup problem runs to its end -/

namespace Minimc.Props

open Classical Spec Multigroup

theorem firstCell_covered {w : World} (h : ∀ x, ∃ c ∈ w.cells, InCell c x) (x : Point) :
    ∃ c, FirstCell w x c := by
  obtain ⟨c, hc, hin⟩ := h x
  rcases hf : w.findCellContaining x with e | c'
  · exfalso
    have he : e = .runtimeError := by
      unfold World.findCellContaining at hf
      split at hf <;> simp_all
    subst he
    obtain ⟨e, he, hne⟩ := (C08_raises_partial _ _).1 hf c hc
    exact hne (hin e he)
  · exact ⟨c', findCellContaining_ok.1 hf⟩

/-- A particle of the bank that a well posed problem can deal with. -/
structure Ready (G : ℕ) (P : Problem) (fuel e : ℕ) (p : Particle) : Prop where
  neutron : GroupNeutron G p
  empty : p.secondaries = []
  handled : Handled P fuel e (p.setPerturbations P.perturbations)

theorem bank_safe {G : ℕ} {nodes : Nuclide → List MgNode} {P : Problem}
    (hw : WellPosed G nodes P.world) (fuel e n : ℕ) (bank : Bank)
    (hb : ∀ p ∈ bank, Ready G P fuel e p) :
    (∃ log, processBank (transport P.method fuel P.world) P.perturbations n bank = .ok log ∧
      ∀ x ∈ log, ∀ q ∈ x.2, Grouped q) ∨
    processBank (transport P.method fuel P.world) P.perturbations n bank = .error .fuel ∨
    ∃ p, Handled P fuel e p ∧ StartsInVoid P.world p := by
  induction n generalizing bank with
  | zero =>
    rcases bank.eq_nil_or_concat' with rfl | ⟨b, p, rfl⟩
    · exact Or.inl ⟨[], processBank_nil _, by simp⟩
    · exact Or.inr (Or.inl (processBank_zero _ _))
  | succ n ih =>
    rcases bank.eq_nil_or_concat' with rfl | ⟨b, p, rfl⟩
    · exact Or.inl ⟨[], processBank_nil _, by simp⟩
    · obtain ⟨hn, he, hh⟩ := hb p (by simp)
      obtain ⟨c, hc⟩ := firstCell_covered hw.covered p.position
      by_cases hm : c.material = none
      · exact Or.inr (Or.inr ⟨_, hh, c, hc, hm⟩)
      rw [processBank_concat]
      rcases C55_multigroup_safe_partial hw
        (p := p.setPerturbations P.perturbations) ⟨hn.type, hn.group, hn.rng⟩ hc hm P.method fuel with
        ⟨⟨last, scored⟩, hr, hg, hbk⟩ | hr
      · rw [hr]
        simp only [bind, Except.bind]
        have hbank : ∀ q ∈ last.secondaries.map Particle.ofBorn ++ b,
            Ready G P fuel e q := by
          intro q hq
          rcases List.mem_append.1 hq with hq | hq
          · obtain ⟨x, hx, rfl⟩ := List.mem_map.1 hq
            obtain ⟨t1, g, t2, t3, t4⟩ := hbk (by
              intro y hy
              have : y ∈ p.secondaries := hy
              rw [he] at this
              cases this) x hx
            exact ⟨⟨t1, ⟨g, t2, t3, t4⟩, Rng.valid_ofSeed x.seed⟩, rfl, .secondary hh hr hx⟩
          · exact hb q (by simp [hq])
        rcases ih _ hbank with ⟨log, hl, hlg⟩ | hl | hl
        · rw [hl]
          refine Or.inl ⟨_, rfl, ?_⟩
          intro x hx
          rcases List.mem_cons.1 hx with rfl | hx
          · exact hg
          · exact hlg x hx
        · rw [hl]; exact Or.inr (Or.inl rfl)
        · exact Or.inr (Or.inr hl)
      · rw [hr]
        exact Or.inr (Or.inl rfl)

/-- **C65** In a well posed multigroup problem with a source of neutrons in a cell with material, a
history ends with its states, all of them in some group, or the model's step counter runs out; the
only thing that can go wrong is that a fission neutron starts at a point whose first cell has no
material. -/
theorem C65_history_partial {G : ℕ} {nodes : Nuclide → List MgNode} {P : Problem}
    (hw : WellPosed G nodes P.world) (hs : GroupSource G P.world P.source)
    (hd : Configured P.source.direction) (fuel e : ℕ) :
    (∃ states, P.history fuel e = .ok states ∧ ∀ q ∈ states, ∃ g, InGroup q g) ∨
      P.history fuel e = .error .fuel ∨
      ∃ p, Handled P fuel e p ∧ StartsInVoid P.world p := by
  obtain ⟨b, h1, h2, h3, h4, _, _⟩ := C51_source_particle P.source hd (P.seed + e)
  obtain ⟨g, g1, g2, g3⟩ := hs.group
  have := bank_safe (P := P) hw fuel e fuel [Particle.ofBorn b] (by
    intro p hp
    obtain rfl := List.mem_singleton.1 hp
    exact ⟨⟨h4.trans hs.type, ⟨g, h3.trans g1, g2, g3⟩, Rng.valid_ofSeed b.seed⟩, rfl,
      .source h1⟩)
  unfold Problem.history
  rw [h1]
  simp only [bind, Except.bind]
  rcases this with ⟨log, hl, hg⟩ | hl | hl
  · rw [hl]
    refine Or.inl ⟨_, rfl, ?_⟩
    intro q hq
    obtain ⟨x, hx, hq⟩ := List.mem_flatMap.1 hq
    exact hg x hx q hq
  · rw [hl]; exact Or.inr (Or.inl rfl)
  · exact Or.inr (Or.inr hl)

/-! ### Conforming geometries -/

/-- What a step banks is in the cell of the particle, which has material, at its position. -/
theorem step_banks {method : Method} {fuel : ℕ} {w : World} {p p' : Particle}
    (h : transportStep method fuel w p = .ok p') :
    ∀ b ∈ p'.secondaries, b ∈ p.secondaries ∨
      (b.position = p'.position ∧ ∃ c, p'.cell = some c ∧ c.material ≠ none ∧
        (Physical p → UnitVec b.direction)) := by
  intro b hb
  rcases step_cases h with ⟨c₀, d, ds, p₁, s, hc₀, h1, h2, hd, h3⟩ |
    ⟨c₀, d, ds, p₁, p₂, s, hc₀, h1, h2, hd, _, hr, h3⟩ |
    ⟨c₀, d, ds, p₁, p₂, p₃, s, hm, hc₀, h1, h2, hd, hr, h3, h4⟩
  · obtain ⟨_, _, _, _, _, _, _, rfl⟩ := sampleFlight_ok h1
    obtain ⟨_, _, _, _, _, _, _, _, f, _⟩ := crossSurface_ok h3
    rw [f] at hb
    exact Or.inl hb
  · obtain ⟨c, m, _, e1, e2, _, _, rfl⟩ := sampleFlight_ok h1
    obtain ⟨r, hr1, rfl⟩ := hr
    unfold collide at h3
    simp only [res_bind_ok] at h3
    obtain ⟨p₃, h4, ⟨n, p₄⟩, h5, h6⟩ := h3
    obtain ⟨t, eff, rfl, _, rfl⟩ := Particle.stream_ok h4
    have hk := (Particle.sampleNuclide_rng h5).keeps.trans (Nuclide.interact_keeps h6).1
    obtain ⟨new, hn, hnew⟩ := hk.secondaries
    rw [hn] at hb
    rcases List.mem_append.1 hb with hb | hb
    · exact Or.inl hb
    · obtain ⟨b1, _, _, b4⟩ := hnew b hb
      exact Or.inr ⟨b1.trans hk.position.symm, c, hk.cell.trans e1, by simp [e2],
        fun hp => b4 ⟨hr1 (Rng.valid_canonical hp.rng), hp.direction⟩⟩
  · obtain ⟨_, _, _, _, _, _, _, rfl⟩ := sampleFlight_ok h1
    obtain ⟨r, _, rfl⟩ := hr
    obtain ⟨t, eff, ht, _, rfl⟩ := Particle.stream_ok h3
    subst h4
    exact Or.inl hb

/-- Where the secondaries of a transported particle are: at the position of one of the scored
states, whose cell has material. -/
theorem life_banks {method : Method} {fuel : ℕ} {w : World} {p : Particle} {scored : List Particle}
    (h : Life (fun q q' => transportStep method fuel w q = .ok q') p scored) (hp : Physical p) :
    ∀ b ∈ ((p :: scored).getLast (by simp)).secondaries, b ∈ p.secondaries ∨
      (UnitVec b.direction ∧ ∃ q ∈ scored, b.position = q.position ∧
        ∃ c, q.cell = some c ∧ c.material ≠ none) := by
  induction h with
  | ended _ => intro b hb; exact Or.inl hb
  | @step p p' rest h1 h2 h3 ih =>
    intro b hb
    rw [List.getLast_cons (by simp)] at hb
    rcases ih (step_physical h2 hp) b hb with hb | ⟨hu, q, hq, hrest⟩
    · rcases step_banks h2 b hb with hb | ⟨hpos, c, hc, hm, hu⟩
      · exact Or.inl hb
      · exact Or.inr ⟨hu hp, p', by simp, hpos, c, hc, hm⟩
    · exact Or.inr ⟨hu, q, by simp [hq], hrest⟩

/-- In a conforming geometry, particles of a history whose predecessors never touch a surface do
not start in void. -/
theorem handled_material {P : Problem} {fuel e : ℕ} (hn : NonnegRates P.method P.world)
    (hconf : ∀ c ∈ P.world.cells, ∀ s, Bounds s c → Conforming s.shape)
    (hmf : MaterialFirst P.world) (hd : Configured P.source.direction)
    (hplace : ∃ c, FirstCell P.world P.source.position c ∧ c.material ≠ none) {p : Particle}
    (h : Handled P fuel e p) :
    Physical p ∧ p.secondaries = [] ∧
      (¬ StartsInVoid P.world p ∨
        ∃ p', Handled P fuel e p' ∧ TouchesSurface P.method fuel P.world p') := by
  induction h with
  | @source born hb =>
    obtain ⟨b, h1, h2, h3, h4, h5, _⟩ := C51_source_particle P.source hd (P.seed + e)
    rw [hb] at h1
    cases h1
    refine ⟨⟨Rng.valid_ofSeed _, h5⟩, rfl, Or.inl ?_⟩
    rintro ⟨c, hc, hm⟩
    obtain ⟨c', hc', hm'⟩ := hplace
    have : FirstCell P.world P.source.position c := h2 ▸ hc
    rw [← findCellContaining_ok] at this hc'
    rw [hc'] at this
    cases this
    exact hm' hm
  | @secondary p last scored b hp ht hb ih =>
    obtain ⟨i1, i2, _⟩ := ih
    obtain ⟨c, hc, hl, hlast, _⟩ := transport_ok ht
    rw [← hlast] at hb
    rcases life_banks hl ⟨i1.rng, i1.direction⟩ b hb with hb | ⟨hu, q, hq, hpos, c', hc', hm'⟩
    · have : b ∈ p.secondaries := hb
      rw [i2] at this
      cases this
    · refine ⟨⟨Rng.valid_ofSeed _, hu⟩, rfl, ?_⟩
      by_cases htouch : TouchesSurface P.method fuel P.world p
      · exact Or.inr ⟨p, hp, htouch⟩
      · left
        rintro ⟨c₁, hc₁, hm₁⟩
        obtain ⟨c₂, hc₂, e2, hin⟩ := C09_inside_cell_partial hn hconf i1.rng i1.direction ht (by
          intro q hq c hc s hs hon
          exact htouch ⟨last, scored, ht, q, hq, c, hc, s, hs, hon⟩) q hq
        rw [hc'] at e2
        cases e2
        have hc₁' : FirstCell P.world q.position c₁ := hpos ▸ hc₁
        exact hmf q.position c' hc₂ hin hm' c₁ hc₁' hm₁

/-- **C65** If also the radii of cylinders are 0 or 1 (see C06) and no cell without material is
listed before one with material that it overlaps, then a history can only fail when one of its
particles begins or ends a step exactly on a surface. -/
theorem C65_history_conforming_partial {G : ℕ} {nodes : Nuclide → List MgNode} {P : Problem}
    (hw : WellPosed G nodes P.world) (hs : GroupSource G P.world P.source)
    (hd : Configured P.source.direction) (hn : NonnegRates P.method P.world)
    (hconf : ∀ c ∈ P.world.cells, ∀ s, Bounds s c → Conforming s.shape)
    (hmf : MaterialFirst P.world) (fuel e : ℕ) :
    (∃ states, P.history fuel e = .ok states ∧ ∀ q ∈ states, ∃ g, InGroup q g) ∨
      P.history fuel e = .error .fuel ∨
      ∃ p, Handled P fuel e p ∧ TouchesSurface P.method fuel P.world p := by
  rcases C65_history_partial hw hs hd fuel e with h | h | ⟨p, hp, hv⟩
  · exact Or.inl h
  · exact Or.inr (Or.inl h)
  · rcases (handled_material hn hconf hmf hd hs.place hp).2.2 with h | h
    · exact absurd hv h
    · exact Or.inr (Or.inr h)

/-! ### Solving -/

theorem forall₂_exists {α β : Type _} {R : α → β → Prop} {l : List α} {l' : List β}
    (h : List.Forall₂ R l l') {b : β} (hb : b ∈ l') : ∃ a, R a b := by
  induction h with
  | nil => cases hb
  | cons h1 _ ih =>
    rcases List.mem_cons.1 hb with rfl | hb
    · exact ⟨_, h1⟩
    · exact ih hb

theorem totalBins_index {b : ParticleBins} (hb : CreatedParticleBins b) (h : TotalBins b)
    (dir : Direction) {energy : ℝ} (he : 0 ≤ energy) : ∃ i, b.getIndex dir energy = .ok i := by
  obtain ⟨c, e, hc, hee, hcr⟩ := hb
  simp only [ParticleBins.create, noexcept, bind, Except.bind, Except.ok.injEq] at hcr
  have ec : b.cosine = c := by rw [← hcr]
  have ee : b.energy = e := by rw [← hcr]
  obtain ⟨h1, h2⟩ := h
  obtain ⟨j, hj, _⟩ := C10_index_exists_partial hee energy
    (fun n base lo hi w hb => ⟨h2 n base lo hi w (ee.trans hb), he⟩)
  unfold ParticleBins.getIndex
  rw [ee, hj, ec]
  rcases hdir : b.direction with _ | ref
  · exact ⟨_, rfl⟩
  · obtain ⟨k, hk, _⟩ := C10_index_exists_partial hc (ref.dot dir)
      (fun n base lo hi w hb => absurd (ec.trans hb) (h1 n base lo hi w (by simp [hdir])))
    simp only [hk, bind, Except.bind]
    exact ⟨_, rfl⟩

/-- `Solve` returns a result if every history ends with states whose energies are not negative. -/
theorem solve_of_histories {P : Problem} (hinit : FreshSet P.init)
    (hest : ∃ ns, List.Forall₂ (EstimatorOf P.world P.perturbations) ns P.init.estimators)
    (hbins : ∀ x ∈ P.init.estimators, TotalBins x.base.bins) (fuel : ℕ)
    (hh : ∀ e < P.batchsize, ∃ states, P.history fuel e = .ok states ∧
      ∀ q ∈ states, 0 ≤ q.energy.toReal) :
    ∃ r k, SolveResult P fuel 0 r k := by
  obtain ⟨ns, hns⟩ := hest
  refine C32_result_exists hinit fun e he => ?_
  obtain ⟨states, h, hg⟩ := hh e he
  refine ⟨states, h, fun p hp => ?_⟩
  have hen := hg p hp
  have hsens : ∀ x ∈ P.init.estimators, ∀ q ∈ x.sensitivities,
      q.base.bins = x.base.bins := by
    intro x hx q hq
    obtain ⟨n, hof⟩ := forall₂_exists hns hx
    obtain ⟨nm, hq'⟩ := forall₂_exists hof.sensitivities hq
    exact hq'.2.2.bins
  refine ⟨fun x hx _ => ?_, fun x hx q hq => ?_, fun x hx q hq _ => ?_⟩
  · exact totalBins_index (hinit.bins.base x hx) (hbins x hx) _ hen
  · obtain ⟨y, hy⟩ := (C57_effects_present h p hp).2 ns hns x hx q hq
    unfold Sensitivity.getScore at hy
    simp only [res_bind_ok] at hy
    obtain ⟨z, hz, _⟩ := hy
    unfold Particle.getIndirectEffect at hz
    rw [noexcept_eq_ok] at hz
    split at hz
    · next y hf => exact ⟨y, List.mem_of_find?_eq_some hf, by simpa using List.find?_some hf⟩
    · cases hz
  · rw [hsens x hx q hq]
    exact totalBins_index (hinit.bins.base x hx) (hbins x hx) _ hen

/-- **C65** If no history of the problem needs more rounds than the model counts and no particle
ever begins or ends a step exactly on a surface, then `Solve` returns a result, whatever the order
in which the workers take their steps, as long as the bins have a place for every direction and
energy. -/
theorem C65_solve_partial {G : ℕ} {nodes : Nuclide → List MgNode} {P : Problem}
    (hw : WellPosed G nodes P.world) (hs : GroupSource G P.world P.source)
    (hd : Configured P.source.direction) (hn : NonnegRates P.method P.world)
    (hconf : ∀ c ∈ P.world.cells, ∀ s, Bounds s c → Conforming s.shape)
    (hmf : MaterialFirst P.world) (hinit : FreshSet P.init)
    (hest : ∃ ns, List.Forall₂ (EstimatorOf P.world P.perturbations) ns P.init.estimators)
    (hbins : ∀ x ∈ P.init.estimators, TotalBins x.base.bins)
    (fuel : ℕ) (hfuel : ∀ e < P.batchsize, P.history fuel e ≠ .error .fuel)
    (hoff : ∀ e < P.batchsize, ∀ p, Handled P fuel e p →
      ¬ TouchesSurface P.method fuel P.world p) :
    ∃ r k, SolveResult P fuel 0 r k := by
  refine solve_of_histories hinit hest hbins fuel fun e he => ?_
  rcases C65_history_conforming_partial hw hs hd hn hconf hmf fuel e with ⟨states, h, hg⟩ | h | ⟨p, hp, ht⟩
  · refine ⟨states, h, fun p hp => ?_⟩
    obtain ⟨g, hpg⟩ := hg p hp
    rw [show p.energy = .group g from hpg]
    exact Nat.cast_nonneg g
  · exact absurd h (hfuel e he)
  · exact absurd ht (hoff e he p hp)

/-! ### Instance: a beam in an absorbing slab -/

/-- Like `slabProblem`, but some of the neutrons are absorbed in the slab. -/
noncomputable def beamProblem (batchsize threads : ℕ) : Problem :=
  { slabProblem batchsize threads with world := absorbingWorld slabWalls 1 }

theorem slab_in {x : ℝ} (h1 : 1 < x) (h3 : x < 3) {m : Option Material} {T : ScalarField} :
    InCell ⟨"in", slabWalls, m, T⟩ ⟨x, 0, 0⟩ := by
  intro s hs
  simp only [slabWalls, List.mem_cons, List.not_mem_nil, or_false] at hs
  rcases hs with rfl | rfl
  · change (Surface.planeX 1).contains ⟨x, 0, 0⟩ = false
    rw [← Bool.not_eq_true, planeXContains_iff]
    simp only [Inside, surfaceValue, not_lt]
    linarith
  · change (Surface.planeX 3).contains ⟨x, 0, 0⟩ = true
    rw [planeXContains_iff]
    simp only [Inside, surfaceValue]
    linarith

theorem slab_nearest {m : Option Material} {T : ScalarField} :
    Cell.nearestSurface ⟨"in", slabWalls, m, T⟩ ⟨2, 0, 0⟩ ⟨1, 0, 0⟩ =
      .ok (plane3, ((1 : ℝ) : WithTop ℝ)) := by
  have h1 : plane1.shape.distance ⟨2, 0, 0⟩ ⟨1, 0, 0⟩ = ⊤ := by
    norm_num [plane1, Surface.distance, Surface.planeXDistance, Point.dot]
  have h3 : plane3.shape.distance ⟨2, 0, 0⟩ ⟨1, 0, 0⟩ = ((1 : ℝ) : WithTop ℝ) := by
    norm_num [plane3, Surface.distance, Surface.planeXDistance, Point.dot]
  simp only [Cell.nearestSurface, slabWalls, Cell.nearestFrom]
  rw [h1, h3, if_pos (WithTop.coe_lt_top _), h3]

/-- A neutron of the beam makes one step, which ends in the slab or beyond x = 3. -/
theorem beam_run (p : Particle) (hp : p.energy = .group 1) (he : p.indirectEffects = [])
    (hb : p.event = .birth) (hr : Rng.Valid p.rng) (hx : p.position = ⟨2, 0, 0⟩)
    (hd : p.direction = ⟨1, 0, 0⟩) :
    ∃ q, transport .surfaceTracking 1 (absorbingWorld slabWalls 1) p = .ok (q, [q]) ∧
      q.secondaries = p.secondaries ∧
      ∃ x : ℝ, q.position = ⟨x, 0, 0⟩ ∧ 1 < x ∧ x ≠ 3 := by
  let c : Cell := ⟨"in", slabWalls, some (absorbing 1), .constant 300⟩
  have hin : InCell c p.position := by rw [hx]; exact slab_in (by norm_num) (by norm_num)
  have hns : c.nearestSurface p.position p.direction = .ok (plane3, ((1 : ℝ) : WithTop ℝ)) := by
    rw [hx, hd]; exact slab_nearest
  obtain ⟨t, ht, ht0⟩ : ∃ t : ℝ, Rng.exponentialOf 1 (Rng.canonical p.rng).1 = (t : WithTop ℝ) ∧
      0 ≤ t := by
    unfold Rng.exponentialOf
    rw [if_neg one_ne_zero]
    refine ⟨_, rfl, ?_⟩
    have h1 := Rng.canonical_lt_one hr
    have h2 := Rng.canonical_pos hr
    have := Real.log_nonpos (x := 1 - (Rng.canonical p.rng).1) (by linarith) (by linarith)
    rw [div_one]
    linarith
  by_cases hlt : t < 1
  · obtain ⟨q, h1, h2, _, _, h5⟩ := absorbing_capture_run (senses := slabWalls) one_pos 0 hp he hr hb
      (c := c) rfl hin hns ht (by exact_mod_cast hlt)
    refine ⟨q, h1, h5, 2 + t, ?_, by linarith, by linarith⟩
    rw [h2, hx, hd]
    ext <;> norm_num [along]
  · have e : along p.position p.direction (1 + 10 / 2 ^ 52) = ⟨3 + 10 / 2 ^ 52, 0, 0⟩ := by
      rw [hx, hd]; ext <;> norm_num [along]
    have h := absorbing_leak_run (senses := slabWalls) (σ := 1) (p := p) (c := c) (t := 1)
      (s := plane3) 0 hp (by simp [he]) hb rfl hin hns
      (by rw [ht]; exact_mod_cast not_lt.1 hlt) (by
        rw [e]
        intro hin
        have := hin (plane3, true) (by simp [c, slabWalls])
        change (Surface.planeX 3).contains _ = true at this
        rw [planeXContains_iff] at this
        norm_num [Inside, surfaceValue] at this)
    exact ⟨_, h, rfl, 3 + 10 / 2 ^ 52, e, by norm_num, by norm_num⟩

theorem absorber_data {G : ℕ} (hG : G = 1) (i : ℕ) (n : String) :
    HasGroupData G (absorber i n 1) [.capture [1]] := by
  subst hG
  refine ⟨_, rfl, ?_, ?_, ?_⟩
  · simp [Multigroup.create, Multigroup.optionally, Multigroup.findNubar, Multigroup.findChi,
      Multigroup.findScatter, Multigroup.createReactions, Multigroup.reactionXS,
      Multigroup.oneDimensional, Multigroup.emplace, Multigroup.createTotalXS, bind, Except.bind]
  · intro m hm
    rw [List.mem_singleton.1 hm]
    intro x hx
    rw [List.mem_singleton.1 hx]
    exact zero_le_one
  · intro g hg
    exfalso
    simp [specXS, nodeXS] at hg

theorem beam_wellPosed (n t : ℕ) : WellPosed 1 (fun _ => [.capture [1]]) (beamProblem n t).world := by
  have hcm : ∀ c ∈ (beamProblem n t).world.cells, ∀ m, c.material = some m → m = absorbing 1 := by
    intro c hc m hm
    simp only [beamProblem, absorbingWorld, List.mem_cons, List.not_mem_nil, or_false] at hc
    rcases hc with rfl | rfl
    · simpa using hm.symm
    · cases hm
  refine ⟨?_, ?_, ?_, ?_, ?_⟩
  · intro x
    exact ⟨⟨"out", [], none, .constant 300⟩, by simp [beamProblem, absorbingWorld], by simp [InCell]⟩
  · intro c hc hm
    simp only [beamProblem, absorbingWorld, List.mem_cons, List.not_mem_nil, or_false] at hc
    rcases hc with rfl | rfl
    · simp [slabWalls]
    · simp at hm
  · intro c hc m hm
    rw [hcm c hc m hm]; norm_num [absorbing]
  · intro c hc m hm e he
    rw [hcm c hc m hm] at he
    simp only [absorbing, List.mem_singleton] at he
    subst he
    exact ⟨one_pos, absorber_data rfl _ _⟩
  · intro c hc m hm g h1 h2
    rw [hcm c hc m hm]
    refine ⟨(absorber 7 "a" 1, 1), by simp [absorbing], ?_⟩
    obtain rfl : g = 1 := by omega
    change (0 : ℝ) < 1 + 0 + 0
    norm_num

/-- Instance of the hypotheses of C65: a thousand histories of the beam on eight threads, none of
which begins or ends a step on a surface. -/
example : ∃ P : Problem, 0 < P.batchsize ∧ WellPosed 1 (fun _ => [.capture [1]]) P.world ∧
    GroupSource 1 P.world P.source ∧ Configured P.source.direction ∧
    NonnegRates P.method P.world ∧
    (∀ c ∈ P.world.cells, ∀ s, Bounds s c → Conforming s.shape) ∧
    MaterialFirst P.world ∧ FreshSet P.init ∧
    (∃ ns, List.Forall₂ (EstimatorOf P.world P.perturbations) ns P.init.estimators) ∧
    (∀ x ∈ P.init.estimators, TotalBins x.base.bins) ∧
    (∀ e < P.batchsize, P.history 1 e ≠ .error .fuel) ∧
    ∀ e < P.batchsize, ∀ p, Handled P 1 e p → ¬ TouchesSurface P.method 1 P.world p := by
  have hshape : ∀ c ∈ (beamProblem 1000 8).world.cells, ∀ s, Bounds s c →
      s.shape = .planeX 1 ∨ s.shape = .planeX 3 := by
    rintro c hc s ⟨b, hs⟩
    simp only [beamProblem, absorbingWorld, List.mem_cons, List.not_mem_nil, or_false] at hc
    rcases hc with rfl | rfl
    · simp only [slabWalls, List.mem_cons, List.not_mem_nil, or_false, Prod.mk.injEq] at hs
      rcases hs with ⟨rfl, _⟩ | ⟨rfl, _⟩
      · exact Or.inl rfl
      · exact Or.inr rfl
    · simp at hs
  have hstart : ∀ e p, Handled (beamProblem 1000 8) 1 e p → p.energy = .group 1 ∧
      p.indirectEffects = [] ∧ p.event = .birth ∧ Rng.Valid p.rng ∧ p.position = ⟨2, 0, 0⟩ ∧
      p.direction = ⟨1, 0, 0⟩ ∧ p.secondaries = [] := by
    intro e p hp
    induction hp with
    | source hb =>
      cases hb
      exact ⟨rfl, rfl, rfl, Rng.valid_ofSeed _, rfl, rfl, rfl⟩
    | @secondary p last scored b hp ht hb ih =>
      exfalso
      obtain ⟨i1, i2, i3, i4, i5, i6, i7⟩ := ih
      obtain ⟨q, h1, h2, _⟩ := beam_run p i1 i2 i3 i4 i5 i6
      have := h1.symm.trans ht
      cases this
      rw [h2, i7] at hb
      cases hb
  refine ⟨beamProblem 1000 8, by norm_num [beamProblem, slabProblem], beam_wellPosed 1000 8,
    ⟨rfl, ⟨1, rfl, le_rfl, le_rfl⟩, ?_⟩, ?_, absorbing_nonneg _ _ zero_le_one, ?_, ?_,
    slabProblem_fresh 1000 8, ?_, ?_, ?_, ?_⟩
  · exact ⟨_, absorbing_first _ rfl (slab_in (by norm_num) (by norm_num)), by simp⟩
  · norm_num [beamProblem, slabProblem, Configured, UnitVec]
  · intro c hc s hb
    rcases hshape c hc s hb with h | h <;> rw [h] <;> trivial
  · intro x c hc hin hm c' hf
    simp only [beamProblem, absorbingWorld, List.mem_cons, List.not_mem_nil, or_false] at hc
    rcases hc with rfl | rfl
    · have := absorbing_first (σ := 1) _ rfl hin
      rw [← findCellContaining_ok] at this hf
      rw [show (beamProblem 1000 8).world = absorbingWorld slabWalls 1 from rfl, this] at hf
      cases hf
      simp
    · simp at hm
  · refine ⟨[⟨true, "right", "b", .ok oneBin, []⟩], .cons ⟨rfl, ?_, ?_, .nil⟩ .nil⟩
    · exact ⟨rfl, rfl, rfl, rfl, by simp,
        by simp⟩
    · exact ⟨[plane1], [], rfl, rfl, by simp [plane1]⟩
  · intro x hx
    rw [List.mem_singleton.1 hx]
    exact ⟨by simp [oneBin], by simp [oneBin]⟩
  · intro e _ hf
    let b : Born := ⟨⟨2, 0, 0⟩, ⟨1, 0, 0⟩, .group 1, .neutron, Rng.next (Rng.ofSeed (1 + e)), none⟩
    have hs : (beamProblem 1000 8).source.sample ((beamProblem 1000 8).seed + e) = .ok b := rfl
    obtain ⟨q, h1, h2, _⟩ := beam_run ((Particle.ofBorn b).setPerturbations []) rfl rfl rfl
      (Rng.valid_ofSeed _) rfl rfl
    have hp := processBank_concat (run := transport .surfaceTracking 1 (absorbingWorld slabWalls 1))
      (qs := []) 0 [] (Particle.ofBorn b)
    rw [h1] at hp
    simp only [bind, Except.bind, h2] at hp
    unfold Problem.history at hf
    rw [hs] at hf
    simp only [bind, Except.bind] at hf
    have hp' : processBank (transport (beamProblem 1000 8).method 1 (beamProblem 1000 8).world)
      (beamProblem 1000 8).perturbations 1 [Particle.ofBorn b] = _ := hp
    rw [hp'] at hf
    have hk : ((Particle.ofBorn b).setPerturbations []).secondaries = [] := rfl
    simp only [hk, List.map_nil, List.append_nil, processBank_nil] at hf
    cases hf
  · rintro e _ p hp ⟨last, scored, ht, q, hq, c, hc, s, hs, hon⟩
    obtain ⟨i1, i2, i3, i4, i5, i6, i7⟩ := hstart e p hp
    obtain ⟨q', h1, h2, x, hx, hx1, hx3⟩ := beam_run p i1 i2 i3 i4 i5 i6
    have := h1.symm.trans ht
    cases this
    simp only [List.mem_cons, List.not_mem_nil, or_false] at hq
    rcases hshape c hc s hs with h | h <;> rw [h] at hon <;> rcases hq with rfl | rfl
    · rw [i5] at hon; norm_num [OnSurface, surfaceValue] at hon
    · rw [hx] at hon; simp only [OnSurface, surfaceValue] at hon; linarith
    · rw [i5] at hon; norm_num [OnSurface, surfaceValue] at hon
    · rw [hx] at hon; simp only [OnSurface, surfaceValue] at hon; exact hx3 (by linarith)

end Minimc.Props
