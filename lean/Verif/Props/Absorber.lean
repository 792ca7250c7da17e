import Verif.Props.RunSafety
import Verif.Spec.Absorber

/-! # Property C69: histories in absorbers -/

namespace Minimc.Props

open Classical Spec Multigroup

theorem absorb_interact {G : ℕ} {n : Nuclide} {nodes : List MgNode} (h : HasGroupData G n nodes)
    {p : Particle} {g : ℕ} (ht : p.type = .neutron) (hg : InGroup p g) (h1 : 1 ≤ g) (h2 : g ≤ G)
    (hr : Rng.Valid p.rng) (hpos : 0 < specTotal G nodes g)
    (a1 : specXS G nodes .scatter g = 0) (a2 : specXS G nodes .fission g = 0) (fuel : ℕ) :
    n.interact fuel p = .ok { p with event := .capture, rng := (Rng.canonical p.rng).2 } := by
  obtain ⟨m, hm, hc, hn, hdata⟩ := h
  have key : n.interact fuel p = noexcept (m.interact p) := by
    unfold Nuclide.interact Nuclide.xsAt
    rw [ht, hm]
    rfl
  obtain ⟨⟨j, hj, -⟩, c0, -, -⟩ := C19_reaction hc hn hg h1 h2 hr hpos
  have hj0 : j = 0 := by
    obtain ⟨j1, j2, j3⟩ := hj
    simp only [weights, List.length_cons, List.length_nil] at j1
    simp only [weights] at j2 j3
    rcases (by omega : j = 0 ∨ j = 1 ∨ j = 2) with rfl | rfl | rfl
    · rfl
    · simp [a1, a2] at j2 j3
      linarith
    · simp [a1, a2] at j2 j3
      linarith
  subst hj0
  rw [key, c0 hj]
  rfl

theorem absorb_collide {G : ℕ} {nodes : Nuclide → List MgNode} {w : World}
    (hw : WellPosed G nodes w) (ha : Absorbing G nodes w) {p : Particle} (hp : InMaterial G w p)
    {method : Method} {fuel : ℕ} {t : ℝ} {p' : Particle}
    (h : collide method fuel p (t : WithTop ℝ) = .ok p') :
    p'.event = .capture ∧ p'.position = along p.position p.direction t ∧
      p'.direction = p.direction ∧ p'.energy = p.energy ∧ p'.type = p.type ∧
      p'.secondaries = p.secondaries := by
  obtain ⟨⟨ht, ⟨g, hg, h1, h2⟩, hr⟩, c, hc, hpc, hm'⟩ := hp
  obtain ⟨m, hm⟩ := Option.ne_none_iff_exists'.1 hm'
  have hpos := group_shares hw hc hm h1 h2
  unfold collide at h
  simp only [res_bind_ok] at h
  obtain ⟨p₁, k1, ⟨n, p₂⟩, k2, k3⟩ := h
  obtain ⟨t', eff, e1, -, rfl⟩ := Particle.stream_ok k1
  rw [WithTop.coe_inj] at e1
  subst e1
  obtain ⟨i, hi, _, hi0, hsel⟩ := C24_selects (p := { p with
      indirectEffects := eff
      position := along p.position p.direction t }) (σ := fun n => specTotal G (nodes n) g) hpc hm
    (fun e he => (group_total (p := { p with
      indirectEffects := eff
      position := along p.position p.direction t }) (hw.data c hc m hm e he).2 ht hg h1 h2).1)
    (fun e he => by
      obtain ⟨f1, _, _, _, f2, _⟩ := hw.data c hc m hm e he
      exact mul_nonneg f1.le (specTotal_nonneg f2 g)) hr hpos
  rw [hsel] at k2
  cases k2
  have hmem := List.getElem_mem hi
  obtain ⟨f1, f2⟩ := hw.data c hc m hm _ hmem
  obtain ⟨a1, a2⟩ := ha c hc m hm _ hmem g h1 h2
  have hpos' : 0 < specTotal G (nodes m.afracs[i].1) g := by
    by_contra hcon
    have := mul_nonpos_of_nonneg_of_nonpos f1.le (not_lt.1 hcon)
    linarith
  dsimp only at k3
  rw [absorb_interact f2 (p := { p with
      indirectEffects := eff
      position := along p.position p.direction t
      rng := (Rng.canonical p.rng).2 }) ht hg h1 h2 (Rng.valid_canonical hr) hpos' a1 a2] at k3
  cases k3
  exact ⟨rfl, rfl, rfl, rfl, rfl, rfl⟩

/-- The component of a position along a direction. -/
noncomputable def progress (x : Point) (d : Direction) : ℝ := x.x * d.x + x.y * d.y + x.z * d.z

theorem progress_along (x : Point) (d : Direction) (hd : UnitVec d) (t : ℝ) :
    progress (along x d t) d = progress x d + t := by
  unfold UnitVec at hd
  simp only [progress, along]
  linear_combination t * hd

theorem progress_le {x : Point} {d : Direction} {R : ℝ} (hd : UnitVec d) (hR : 0 ≤ R)
    (hx : x.x ^ 2 + x.y ^ 2 + x.z ^ 2 ≤ R ^ 2) : |progress x d| ≤ R := by
  apply abs_le_of_sq_le_sq _ hR
  unfold UnitVec at hd
  refine le_trans ?_ hx
  unfold progress
  have : (x.x * d.x + x.y * d.y + x.z * d.z) ^ 2 ≤
      (x.x ^ 2 + x.y ^ 2 + x.z ^ 2) * (d.x ^ 2 + d.y ^ 2 + d.z ^ 2) := by
    nlinarith [sq_nonneg (x.x * d.y - x.y * d.x), sq_nonneg (x.x * d.z - x.z * d.x),
      sq_nonneg (x.y * d.z - x.z * d.y)]
  calc _ ≤ _ := this
    _ = _ := by rw [show d.x ^ 2 + d.y ^ 2 + d.z ^ 2 = 1 by nlinarith [hd], mul_one]

theorem along_again (o : Point) (d : Direction) (s t : ℝ) :
    along (along o d s) d t = along o d (s + t) := by
  simp only [along, Point.mk.injEq]
  refine ⟨by ring, by ring, by ring⟩

/-- One step of a neutron in an absorber. -/
theorem absorb_step {G : ℕ} {nodes : Nuclide → List MgNode} {w : World}
    (hw : WellPosed G nodes w) (ha : Absorbing G nodes w) {p : Particle} (hp : InMaterial G w p)
    (hd : UnitVec p.direction) (method : Method) (fuel : ℕ) :
    ∃ p', transportStep method fuel w p = .ok p' ∧ p'.direction = p.direction ∧
      p'.energy = p.energy ∧ p'.type = p.type ∧ p'.secondaries = p.secondaries ∧
      ((p'.event = .capture ∧ ∃ t : ℝ, 0 ≤ t ∧ p'.position = along p.position p.direction t) ∨
        ∃ t : ℝ, 10 / 2 ^ 52 < t ∧ p'.position = along p.position p.direction t ∧
          (p'.event = .leak ∨ p'.event = .surfaceCross ∧ InMaterial G w p' ∧
            ∃ c, FirstCell w p'.position c ∧ c.material ≠ none)) := by
  obtain ⟨p', h, hin, -, -, hev⟩ := group_step_event hw hp method fuel
  refine ⟨p', h, ?_⟩
  obtain ⟨⟨ht, ⟨g, hg, h1, h2⟩, hr⟩, c, hc, hpc, hm'⟩ := hp
  obtain ⟨m, hm⟩ := Option.ne_none_iff_exists'.1 hm'
  have hpos := group_shares hw hc hm h1 h2
  obtain ⟨_, _, hden⟩ := group_density hw hc hm hpc ht hg h1 h2 method
  have hrate := mul_pos (hw.density c hc m hm) hpos
  rcases step_cases h with ⟨c₀, d, ds, p₁, s, hc₀, k1, k2, hd', k3⟩ |
    ⟨c₀, d, ds, p₁, p₂, s, hc₀, k1, k2, hd', _, hr', k3⟩ |
    ⟨c₀, d, ds, p₁, p₂, p₃, s, hm, hc₀, k1, k2, hd', hr', k3, k4⟩
  · obtain ⟨_, _, _, _, _, _, _, rfl⟩ := sampleFlight_ok k1
    obtain ⟨t, rfl, e1, ⟨c', e2, e3, e4, e5⟩, -, e6, e7, e8, e9, -⟩ := crossSurface_ok k3
    refine ⟨e6, e7, e8, e9, Or.inr ⟨t + 10 / 2 ^ 52, ?_, e1, ?_⟩⟩
    · have := (firstCrossing_surface s.shape p.position p.direction hd).pos t
        (nearest_ok k2).1.symm
      linarith
    · by_cases hcm : c'.material = none
      · exact Or.inl (e4 hcm)
      · have hsc := e5 hcm
        exact Or.inr ⟨hsc, hin (by simp [Ended, hsc]), c', e2, hcm⟩
  · obtain ⟨c₁, m₁, den, f1, f2, f3, f4, rfl⟩ := sampleFlight_ok k1
    rw [hpc] at f1
    cases f1
    rw [hm] at f2
    cases f2
    rw [hden] at f3
    cases f3
    obtain ⟨r, hr1, rfl⟩ := hr'
    obtain ⟨t, rfl, -⟩ := collide_ok k3
    have hmat : InMaterial G w { p with rng := r } :=
      ⟨⟨ht, ⟨g, hg, h1, h2⟩, hr1 (Rng.valid_canonical hr)⟩, c, hc, hpc, hm'⟩
    obtain ⟨e1, e2, e3, e4, e5, e6⟩ := absorb_collide hw ha hmat k3
    exact ⟨e3, e4, e5, e6, Or.inl ⟨e1, t, exponential_nonneg hr hrate.le f4.symm, e2⟩⟩
  · subst k4
    exact absurd rfl hev

theorem absorb_loop {G : ℕ} {nodes : Nuclide → List MgNode} {w : World}
    (hw : WellPosed G nodes w) (ha : Absorbing G nodes w) {R : ℝ} (hR : 0 ≤ R)
    (hb : MaterialWithin R w) (method : Method) (fuel : ℕ) (o : Point) (n : ℕ) :
    ∀ (p : Particle) (t : ℝ), InMaterial G w p → UnitVec p.direction → ¬ Ended p →
      (∃ c, FirstCell w p.position c ∧ c.material ≠ none) → p.position = along o p.direction t →
      R - progress p.position p.direction < n * (10 / 2 ^ 52) →
      ∃ last scored, transportLoop method fuel w n p = .ok (last, scored) ∧
        last.secondaries = p.secondaries ∧ Straight o p.direction t scored ∧
        ∀ q ∈ scored, q.direction = p.direction ∧ q.energy = p.energy ∧ q.type = p.type := by
  induction n with
  | zero =>
    intro p t hp hd hend hc hpos hn
    obtain ⟨c, hc, hm⟩ := hc
    have := (abs_le.1 (progress_le hd hR (hb _ _ hc hm))).2
    norm_num at hn
    linarith
  | succ n ih =>
    intro p t hp hd hend hc hpos hn
    unfold transportLoop
    rw [if_pos ((alive_iff p).2 hend)]
    obtain ⟨p', hs, e1, e2, e3, e4, hev⟩ := absorb_step hw ha hp hd method fuel
    rw [hs]
    simp only [bind, Except.bind]
    have hstop : Ended p' → transportLoop method fuel w n p' = .ok (p', []) := by
      intro h
      have hd : ¬ p'.isAlive = true := fun hal => (alive_iff p').1 hal h
      unfold transportLoop
      cases n with
      | zero => dsimp only; rw [if_neg hd]
      | succ n => dsimp only; rw [if_neg hd]
    have hsame : ∀ q ∈ [p'], q.direction = p.direction ∧ q.energy = p.energy ∧ q.type = p.type := by
      intro q hq
      obtain rfl := List.mem_singleton.1 hq
      exact ⟨e1, e2, e3⟩
    have hat : ∀ s, p'.position = along p.position p.direction s →
        p'.position = along o p.direction (t + s) := by
      intro s hs
      rw [hs, hpos, along_again]
    rcases hev with ⟨hcap, s, hs0, hsp⟩ | ⟨s, hs0, hsp, hleak | ⟨hcr, hin, hcell⟩⟩
    · rw [hstop (Or.inl hcap)]
      exact ⟨_, _, rfl, e4, .capture (by linarith) (hat s hsp) hcap, hsame⟩
    · rw [hstop (Or.inr (Or.inr hleak))]
      refine ⟨_, _, rfl, e4, .leak (t' := t + s) ?_ (hat s hsp) hleak, hsame⟩
      have : (0 : ℝ) < 10 / 2 ^ 52 := by positivity
      linarith
    · have hpr : progress p'.position p'.direction = progress p.position p.direction + s := by
        rw [e1, hsp, progress_along _ _ hd]
      obtain ⟨last, scored, i1, i2, i3, i4⟩ := ih p' (t + s) hin (e1 ▸ hd)
        (by simp [Ended, hcr]) hcell (by rw [e1]; exact hat s hsp) (by
          rw [hpr]
          push_cast at hn
          linarith)
      rw [i1]
      rw [e1] at i3
      refine ⟨_, _, rfl, i2.trans e4, .cross (t' := t + s) ?_ (hat s hsp) hcr i3, ?_⟩
      · have : (0 : ℝ) < 10 / 2 ^ 52 := by positivity
        linarith
      · intro q hq
        rcases List.mem_cons.1 hq with rfl | hq
        · exact ⟨e1, e2, e3⟩
        · obtain ⟨j1, j2, j3⟩ := i4 q hq
          exact ⟨j1.trans e1, j2.trans e2, j3.trans e3⟩

/-- The history of a source particle in an absorber consists of its own transport. -/
theorem absorb_history_effects {G : ℕ} {nodes : Nuclide → List MgNode} {P : Problem}
    (hw : WellPosed G nodes P.world) (ha : Absorbing G nodes P.world) {R : ℝ} (hR : 0 ≤ R)
    (hb : MaterialWithin R P.world) (hs : GroupSource G P.world P.source)
    (hd : Configured P.source.direction) {fuel : ℕ} (hf : 2 * R < fuel * (10 / 2 ^ 52)) (e : ℕ) :
    ∃ b p last states, P.source.sample (P.seed + e) = .ok b ∧ P.history fuel e = .ok states ∧
      transportLoop P.method fuel P.world fuel p = .ok (last, states) ∧
      p.position = P.source.position ∧ p.direction = b.direction ∧ p.energy = P.source.energy ∧
      p.type = .neutron ∧ p.rng = Rng.ofSeed b.seed ∧ ¬ Ended p ∧
      (∃ c, FirstCell P.world P.source.position c ∧ p.cell = some c) ∧
      Straight P.source.position b.direction 0 states ∧
      (∀ q ∈ states, q.direction = b.direction ∧ q.energy = P.source.energy ∧ q.type = .neutron) ∧
      p.indirectEffects = getIndirectEffects P.perturbations := by
  obtain ⟨b, h1, h2, h3, h4, h5, _⟩ := C51_source_particle P.source hd (P.seed + e)
  obtain ⟨g, g1, g2, g3⟩ := hs.group
  obtain ⟨c, hc, hm⟩ := hs.place
  set p : Particle := (Particle.ofBorn b).setPerturbations P.perturbations with hp
  have hpp : p.position = P.source.position := h2
  have hc' : FirstCell P.world p.position c := hpp ▸ hc
  have hloc : p.locate P.world = .ok { p with cell := some c } := locate_ok.2 ⟨c, hc', rfl⟩
  obtain ⟨l, r, hlr, hin, hl⟩ := id hc
  have hend : ¬ Ended { p with cell := some c } := by
    simp [Ended, hp, Particle.ofBorn, Particle.setPerturbations]
  obtain ⟨last, scored, k1, k2, k3, k4⟩ := absorb_loop hw ha hR hb P.method fuel P.source.position
    fuel { p with cell := some c } 0
    ⟨⟨h4.trans hs.type, ⟨g, h3.trans g1, g2, g3⟩, Rng.valid_ofSeed b.seed⟩, c,
      by rw [hlr]; simp, rfl, hm⟩ h5 hend
    ⟨c, hc', hm⟩ (by rw [← hpp]; simp [along]) (by
      have := (abs_le.1 (progress_le (x := p.position) (d := b.direction) h5 hR
        (hb _ _ hc' hm))).1
      change R - progress p.position b.direction < _
      linarith)
  have htr : transport P.method fuel P.world p = .ok (last, scored) := by
    unfold transport
    rw [hloc]
    simp only [bind, Except.bind]
    rw [k1]
    rfl
  have hfuel : ∃ n, fuel = n + 1 := by
    cases fuel with
    | zero => norm_num at hf; linarith
    | succ n => exact ⟨n, rfl⟩
  obtain ⟨n, hn⟩ := hfuel
  refine ⟨b, { p with cell := some c }, last, scored, h1, ?_, k1, h2, rfl, h3, h4.trans hs.type, rfl, hend,
    ⟨c, hc, rfl⟩, k3, fun q hq => ?_, rfl⟩
  · unfold Problem.history
    rw [h1]
    simp only [bind, Except.bind]
    have : processBank (transport P.method fuel P.world) P.perturbations fuel
        [Particle.ofBorn b] = .ok [(p, scored)] := by
      have e := processBank_concat (run := transport P.method fuel P.world) (qs := P.perturbations)
        n [] (Particle.ofBorn b)
      rw [List.nil_append] at e
      conv_lhs => arg 3; rw [hn]
      rw [e, htr]
      simp only [bind, Except.bind]
      have k2' : last.secondaries = [] := k2
      rw [k2', List.map_nil, List.append_nil, processBank_nil]
    rw [this]
    simp
  · obtain ⟨q1, q2, q3⟩ := k4 q hq
    exact ⟨q1, q2.trans h3, q3.trans (h4.trans hs.type)⟩

theorem absorb_history {G : ℕ} {nodes : Nuclide → List MgNode} {P : Problem}
    (hw : WellPosed G nodes P.world) (ha : Absorbing G nodes P.world) {R : ℝ} (hR : 0 ≤ R)
    (hb : MaterialWithin R P.world) (hs : GroupSource G P.world P.source)
    (hd : Configured P.source.direction) {fuel : ℕ} (hf : 2 * R < fuel * (10 / 2 ^ 52)) (e : ℕ) :
    ∃ b p last states, P.source.sample (P.seed + e) = .ok b ∧ P.history fuel e = .ok states ∧
      transportLoop P.method fuel P.world fuel p = .ok (last, states) ∧
      p.position = P.source.position ∧ p.direction = b.direction ∧ p.energy = P.source.energy ∧
      p.type = .neutron ∧ p.rng = Rng.ofSeed b.seed ∧ ¬ Ended p ∧
      (∃ c, FirstCell P.world P.source.position c ∧ p.cell = some c) ∧
      Straight P.source.position b.direction 0 states ∧
      ∀ q ∈ states, q.direction = b.direction ∧ q.energy = P.source.energy ∧ q.type = .neutron := by
  obtain ⟨b, p, last, states, k1, k2, k3, k4, k5, k6, k7, k8, k9, k10, k11, k12, -⟩ :=
    absorb_history_effects hw ha hR hb hs hd hf e
  exact ⟨b, p, last, states, k1, k2, k3, k4, k5, k6, k7, k8, k9, k10, k11, k12⟩

/-- **C69** In a world that only absorbs and whose material is bounded, every history ends, within a
number of steps that does not depend on the random numbers: it is a straight flight from the source,
across surfaces, to a capture or a leak, without change of direction or group. -/
theorem C69_straight {G : ℕ} {nodes : Nuclide → List MgNode} {P : Problem}
    (hw : WellPosed G nodes P.world) (ha : Absorbing G nodes P.world) {R : ℝ} (hR : 0 ≤ R)
    (hb : MaterialWithin R P.world) (hs : GroupSource G P.world P.source)
    (hd : Configured P.source.direction) {fuel : ℕ} (hf : 2 * R < fuel * (10 / 2 ^ 52)) (e : ℕ) :
    ∃ b states, P.source.sample (P.seed + e) = .ok b ∧ P.history fuel e = .ok states ∧
      Straight P.source.position b.direction 0 states ∧
      ∀ q ∈ states, q.direction = b.direction ∧ q.energy = P.source.energy ∧ q.type = .neutron := by
  obtain ⟨b, _, _, states, h1, h2, _, _, _, _, _, _, _, _, h3, h4⟩ :=
    absorb_history hw ha hR hb hs hd hf e
  exact ⟨b, states, h1, h2, h3, h4⟩

end Minimc.Props
