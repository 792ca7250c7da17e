import Verif.Lemmas.Absorber
import Verif.Lemmas.Fuel
import Verif.Spec.Score

/-! # Properties C09, C29, C37 and C55: the life of a particle -/

namespace Minimc.Props

open Classical Spec

/-! ## C29 -/

theorem transportLoop_life {method : Method} {fuel : ℕ} {w : World} :
    ∀ {n : ℕ} {p last : Particle} {scored : List Particle},
      transportLoop method fuel w n p = .ok (last, scored) →
      Life (fun q q' => transportStep method fuel w q = .ok q') p scored ∧
        (p :: scored).getLast (by simp) = last ∧ Ended last
  | 0, p, last, scored, h => by
    unfold transportLoop at h
    by_cases ha : p.isAlive = true
    · rw [if_pos ha] at h; cases h
    · rw [if_neg ha] at h
      cases h
      rw [alive_iff, not_not] at ha
      exact ⟨.ended ha, rfl, ha⟩
  | n + 1, p, last, scored, h => by
    unfold transportLoop at h
    by_cases ha : p.isAlive = true
    · rw [if_pos ha] at h
      simp only [res_bind_ok] at h
      obtain ⟨p', h1, ⟨last', rest⟩, h2, h3⟩ := h
      cases h3
      obtain ⟨h4, h5, h6⟩ := transportLoop_life h2
      refine ⟨.step ((alive_iff p).1 ha) h1 h4, ?_, h6⟩
      rw [List.getLast_cons (by simp)]
      exact h5
    · rw [if_neg ha] at h
      cases h
      rw [alive_iff, not_not] at ha
      exact ⟨.ended ha, rfl, ha⟩

theorem life_imp {R S : Particle → Particle → Prop} (hRS : ∀ p p', R p p' → S p p') {p : Particle}
    {states : List Particle} (h : Life R p states) : Life S p states := by
  induction h with
  | ended h => exact .ended h
  | step h1 h2 _ ih => exact .step h1 (hRS _ _ h2) ih

theorem transport_ok {method : Method} {fuel : ℕ} {w : World} {p last : Particle}
    {scored : List Particle} (h : transport method fuel w p = .ok (last, scored)) :
    ∃ c, FirstCell w p.position c ∧
      Life (fun q q' => transportStep method fuel w q = .ok q') { p with cell := some c } scored ∧
      ({ p with cell := some c } :: scored).getLast (by simp) = last ∧ Ended last := by
  unfold transport at h
  rw [noexcept_eq_ok] at h
  simp only [res_bind_ok] at h
  obtain ⟨p₁, h1, h2⟩ := h
  obtain ⟨c, hc, rfl⟩ := locate_ok.1 h1
  exact ⟨c, hc, transportLoop_life h2⟩

/-- **C29** Transport first puts the particle into the first cell that contains it.  Then it
makes one step after another, scoring the state after each one, as long as the last event was
not a capture, a fission or a leak, and returns the state after the last step, in which the
particle's life has ended. -/
theorem C29_life {method : Method} {fuel : ℕ} {w : World} {p last : Particle}
    {scored : List Particle} (h : transport method fuel w p = .ok (last, scored)) :
    ∃ c, FirstCell w p.position c ∧ Life (Step method w) { p with cell := some c } scored ∧
      ({ p with cell := some c } :: scored).getLast (by simp) = last ∧ Ended last := by
  obtain ⟨c, hc, h1, h2, h3⟩ := transport_ok h
  exact ⟨c, hc, life_imp (fun _ _ => step_spec) h1, h2, h3⟩

/-- **C29** The event of a step says what the step was: a leak is a surface crossing into a cell
without material, a surface crossing is one into a cell with material, scatter, capture and
fission are collisions, and a virtual collision changes nothing but the position. -/
theorem C29_events {method : Method} {w : World} {p p' : Particle} (h : Step method w p p') :
    (p'.event = .leak ↔
      ∃ s c', Crosses w p p' s ∧ p'.cell = some c' ∧ c'.material = none) ∧
    (p'.event = .surfaceCross ↔
      ∃ s c', Crosses w p p' s ∧ p'.cell = some c' ∧ c'.material ≠ none) ∧
    (p'.event = .scatter ∨ p'.event = .capture ∨ p'.event = .fission ↔ Collides p p') ∧
    (p'.event = .virtualCollision ↔ Passes p p') ∧ p'.event ≠ .birth := by
  have hX : ∀ {s : SurfaceObj}, Crosses w p p' s → ∃ c', p'.cell = some c' ∧
      (c'.material = none → p'.event = .leak) ∧ (c'.material ≠ none → p'.event = .surfaceCross) :=
    fun h => by
      obtain ⟨c', _, h1, h2, h3⟩ := h.arrival
      exact ⟨c', h1, h2, h3⟩
  have hXe : ∀ {s : SurfaceObj}, Crosses w p p' s → p'.event = .leak ∨ p'.event = .surfaceCross :=
    fun h => by
      obtain ⟨c', _, h2, h3⟩ := hX h
      by_cases hm : c'.material = none
      · exact Or.inl (h2 hm)
      · exact Or.inr (h3 hm)
  refine ⟨⟨fun he => ?_, ?_⟩, ⟨fun he => ?_, ?_⟩, ⟨fun he => ?_, fun hc => hc.event⟩,
    ⟨fun he => ?_, fun hc => hc.event⟩, fun he => ?_⟩
  · rcases h with ⟨s, hs⟩ | hc | ⟨_, hc⟩
    · obtain ⟨c', h1, h2, h3⟩ := hX hs
      refine ⟨s, c', hs, h1, ?_⟩
      by_contra hm
      rw [h3 hm] at he; cases he
    · rcases hc.event with h | h | h <;> rw [h] at he <;> cases he
    · rw [hc.event] at he; cases he
  · rintro ⟨s, c', hs, h1, h2⟩
    obtain ⟨c'', h3, h4, _⟩ := hX hs
    rw [h1] at h3
    cases h3
    exact h4 h2
  · rcases h with ⟨s, hs⟩ | hc | ⟨_, hc⟩
    · obtain ⟨c', h1, h2, h3⟩ := hX hs
      refine ⟨s, c', hs, h1, ?_⟩
      intro hm
      rw [h2 hm] at he; cases he
    · rcases hc.event with h | h | h <;> rw [h] at he <;> cases he
    · rw [hc.event] at he; cases he
  · rintro ⟨s, c', hs, h1, h2⟩
    obtain ⟨c'', h3, _, h4⟩ := hX hs
    rw [h1] at h3
    cases h3
    exact h4 h2
  · rcases h with ⟨s, hs⟩ | hc | ⟨_, hc⟩
    · rcases hXe hs with h | h <;> rw [h] at he <;> rcases he with h | h | h <;> cases h
    · exact hc
    · rw [hc.event] at he; rcases he with h | h | h <;> cases h
  · rcases h with ⟨s, hs⟩ | hc | ⟨_, hc⟩
    · rcases hXe hs with h | h <;> rw [h] at he <;> cases he
    · rcases hc.event with h | h | h <;> rw [h] at he <;> cases he
    · exact hc
  · rcases h with ⟨s, hs⟩ | hc | ⟨_, hc⟩
    · rcases hXe hs with h | h <;> rw [h] at he <;> cases he
    · rcases hc.event with h | h | h <;> rw [h] at he <;> cases he
    · rw [hc.event] at he; cases he

/-- **C29** Surface tracking never records a virtual collision. -/
theorem C29_surface_tracking {fuel : ℕ} {w : World} {p last : Particle} {scored : List Particle}
    (h : transport .surfaceTracking fuel w p = .ok (last, scored)) :
    ∀ q ∈ scored, q.event ≠ .virtualCollision := by
  obtain ⟨c, _, hl, hx, _⟩ := C29_life h
  clear h hx
  revert hl
  generalize ({ p with cell := some c } : Particle) = q₀
  intro hl
  induction hl with
  | ended _ => simp
  | step h1 h2 _ ih =>
    intro q hq
    rcases List.mem_cons.1 hq with rfl | hq
    · intro he
      have := (C29_events h2).2.2.2.1.1 he
      rcases h2 with ⟨s, hs⟩ | hc | ⟨hm, _⟩
      · obtain ⟨c', _, _, h3, h4⟩ := hs.arrival
        by_cases hm : c'.material = none
        · rw [h3 hm] at he; cases he
        · rw [h4 hm] at he; cases he
      · rcases hc.event with h | h | h <;> rw [h] at he <;> cases he
      · cases hm
    · exact ih q hq

/-- **C29** The outcome of transport does not depend on the number of rounds that the model
allows, as long as it is enough. -/
theorem C29_outcome_unique {method : Method} {fuel fuel' : ℕ} {w : World} {p : Particle}
    {r r' : Particle × List Particle} (h : transport method fuel w p = .ok r)
    (h' : transport method fuel' w p = .ok r') : r = r' := by
  rcases le_total fuel fuel' with hle | hle
  · have := (transport_le hle method w p).ok h
    rw [this] at h'
    cases h'; rfl
  · have := (transport_le hle method w p).ok h'
    rw [this] at h
    cases h; rfl

theorem life_last {R : Particle → Particle → Prop} {p : Particle} {states : List Particle}
    (h : Life R p states) : Ended ((p :: states).getLast (by simp)) ∧
      ∀ q ∈ (p :: states).dropLast, ¬ Ended q := by
  induction h with
  | ended h => exact ⟨h, by simp⟩
  | @step q q' rest h1 _ _ ih =>
    refine ⟨by rw [List.getLast_cons (by simp)]; exact ih.1, ?_⟩
    intro x hx
    rw [List.dropLast_cons_of_ne_nil (by simp)] at hx
    rcases List.mem_cons.1 hx with rfl | hx
    · exact h1
    · exact ih.2 x hx

/-- **C29** Every state but the last is one from which the particle goes on, and the last one is
one at which its life ends. -/
theorem C29_ends_exactly {method : Method} {fuel : ℕ} {w : World} {p last : Particle}
    {scored : List Particle} (h : transport method fuel w p = .ok (last, scored)) :
    Ended last ∧ (scored = [] ∧ Ended p ∨
      ∃ before, scored = before ++ [last] ∧ ¬ Ended p ∧ ∀ q ∈ before, ¬ Ended q) := by
  obtain ⟨c, _, hl, h1, h2⟩ := C29_life h
  obtain ⟨_, h4⟩ := life_last hl
  refine ⟨h2, ?_⟩
  rcases List.eq_nil_or_concat scored with rfl | ⟨before, x, rfl⟩
  · left
    simp only [List.getLast_singleton] at h1
    rw [← h1] at h2
    exact ⟨rfl, h2⟩
  · right
    have hx : x = last := by
      rw [← h1]; simp
    subst hx
    refine ⟨before, by simp, ?_, ?_⟩
    · have := h4 { p with cell := some c } (by
        rw [List.concat_eq_append, ← List.cons_append, List.dropLast_concat]; simp)
      exact this
    · intro q hq
      exact h4 q (by
        rw [List.concat_eq_append, ← List.cons_append, List.dropLast_concat]; simp [hq])

/-! ## C37 (link to steps) -/

/-- **C37** The states that a current estimator counts are exactly those after a step in which
the particle flew to that surface, as the nearest one, and across it. -/
theorem C37_counted_steps {method : Method} {w : World} {p p' : Particle}
    (h : Step method w p p') (surface : SurfaceObj) :
    Crossed surface p' ↔ ∃ s, s.id = surface.id ∧ Crosses w p p' s := by
  constructor
  · rintro ⟨s, hs, hid, he⟩
    obtain ⟨h1, h2, _⟩ := C29_events h
    have : ∃ s', Crosses w p p' s' := by
      rcases he with he | he
      · obtain ⟨s', _, h3, _⟩ := h2.1 he
        exact ⟨s', h3⟩
      · obtain ⟨s', _, h3, _⟩ := h1.1 he
        exact ⟨s', h3⟩
    obtain ⟨s', hs'⟩ := this
    have hss : s = s' := by
      have := hs'.surface
      rw [hs] at this
      cases this; rfl
    exact ⟨s, hid, hss ▸ hs'⟩
  · rintro ⟨s, hid, hs⟩
    refine ⟨s, hs.surface, hid, ?_⟩
    obtain ⟨c', _, _, h3, h4⟩ := hs.arrival
    by_cases hm : c'.material = none
    · exact Or.inr (h3 hm)
    · exact Or.inl (h4 hm)

/-! ## C09 -/

theorem FirstCell.mem {w : World} {x : Point} {c : Cell} (h : FirstCell w x c) :
    c ∈ w.cells ∧ InCell c x := by
  obtain ⟨l, r, h1, h2, _⟩ := h
  exact ⟨by rw [h1]; simp, h2⟩

theorem flight_nonneg {method : Method} {w : World} (hn : NonnegRates method w) {p p₁ : Particle}
    {c : Cell} (hc : p.cell = some c) (hcw : c ∈ w.cells) (hp : Physical p) {t : ℝ}
    (h : sampleFlight method p = .ok ((t : WithTop ℝ), p₁)) : 0 ≤ t := by
  obtain ⟨c', m, σ, hc', hm, hσ, hd, _⟩ := sampleFlight_ok h
  rw [hc] at hc'
  cases hc'
  refine exponential_nonneg hp.rng ?_ hd.symm
  refine hn c hcw m hm p hc σ ?_
  unfold collisionDensity at hσ
  rw [noexcept_eq_ok, Particle.getCell_ok.2 hc] at hσ
  simp only [bind, Except.bind, hm] at hσ
  cases method <;> exact hσ

/-- Moving on without reaching a surface keeps a particle in its cell. -/
theorem flight_inCell {c : Cell} (hconf : ∀ s, Bounds s c → Conforming s.shape) {o : Point}
    {d : Direction} (hd : UnitVec d) {t : ℝ} (ht : 0 ≤ t) (hin : InCell c o)
    (hoff : ∀ s, Bounds s c → ¬ OnSurface s.shape o)
    (hoff' : ∀ s, Bounds s c → ¬ OnSurface s.shape (along o d t))
    (hle : ∀ s, Bounds s c → (t : WithTop ℝ) ≤ s.shape.distance o d) :
    InCell c (along o d t) := by
  intro e he
  have hb : Bounds e.1 c := ⟨e.2, he⟩
  rcases lt_or_eq_of_le (hle e.1 hb) with hlt | heq
  · rw [C06_side_constant_before_partial _ (hconf _ hb) o d hd (hoff _ hb) t ht hlt]
    exact hin e he
  · exact absurd (C04_distance_first_crossing e.1.shape o d t hd heq.symm).2.1 (hoff' _ hb)

theorem step_inCell {method : Method} {fuel : ℕ} {w : World} {p p' : Particle} {c : Cell}
    (hn : NonnegRates method w) (hconf : ∀ c ∈ w.cells, ∀ s, Bounds s c → Conforming s.shape)
    (hp : Physical p) (hc : p.cell = some c) (hcw : c ∈ w.cells) (hin : InCell c p.position)
    (hoff : ∀ s, Bounds s c → ¬ OnSurface s.shape p.position)
    (hoff' : ∀ s, Bounds s c → ¬ OnSurface s.shape p'.position)
    (h : transportStep method fuel w p = .ok p') :
    ∃ c', p'.cell = some c' ∧ c' ∈ w.cells ∧ InCell c' p'.position := by
  have key : ∀ {d ds : WithTop ℝ} {s : SurfaceObj} {p₁ : Particle} {t : ℝ},
      sampleFlight method p = .ok (d, p₁) → c.nearestSurface p.position p.direction = .ok (s, ds) →
      d ≤ ds → d = (t : WithTop ℝ) → p'.position = along p.position p.direction t →
      InCell c p'.position := by
    intro d ds s p₁ t h1 h2 hle hdt hpos
    subst hdt
    obtain ⟨_, _, e3⟩ := nearest_ok h2
    rw [hpos] at hoff' ⊢
    exact flight_inCell (hconf c hcw) hp.direction (flight_nonneg hn hc hcw hp h1) hin hoff hoff'
      (fun s hs => hle.trans (e3 s hs))
  rcases step_cases h with ⟨c₀, d, ds, p₁, s, hc₀, h1, h2, hd, h3⟩ |
    ⟨c₀, d, ds, p₁, p₂, s, hc₀, h1, h2, hd, _, hr, h3⟩ |
    ⟨c₀, d, ds, p₁, p₂, p₃, s, hm, hc₀, h1, h2, hd, hr, h3, h4⟩
  · obtain ⟨t, rfl, f1, ⟨c', f2, f3, _⟩, _⟩ := crossSurface_ok h3
    exact ⟨c', f3, FirstCell.mem f2⟩
  · rw [hc] at hc₀
    cases hc₀
    obtain ⟨_, _, _, _, _, _, _, rfl⟩ := sampleFlight_ok h1
    obtain ⟨r, _, rfl⟩ := hr
    obtain ⟨t, ht, f1, f2, _⟩ := collide_ok h3
    exact ⟨c, f2.trans hc, hcw, key h1 h2 hd ht f1⟩
  · rw [hc] at hc₀
    cases hc₀
    obtain ⟨_, _, _, _, _, _, _, rfl⟩ := sampleFlight_ok h1
    obtain ⟨r, _, rfl⟩ := hr
    obtain ⟨t, eff, ht, _, rfl⟩ := Particle.stream_ok h3
    subst h4
    exact ⟨c, hc, hcw, key h1 h2 hd ht rfl⟩

/-- **C09** Whenever scores are recorded, the particle's cell contains its position, provided
that collision rates are not negative, that cylinders have radius 0 or 1 (see C06), and that the
particle is never exactly on a surface when a step begins or ends. -/
theorem C09_inside_cell_partial {method : Method} {fuel : ℕ} {w : World} {p last : Particle}
    {scored : List Particle} (hn : NonnegRates method w)
    (hconf : ∀ c ∈ w.cells, ∀ s, Bounds s c → Conforming s.shape)
    (hr : Rng.Valid p.rng) (hd : UnitVec p.direction)
    (h : transport method fuel w p = .ok (last, scored))
    (hoff : ∀ q ∈ p :: scored, ∀ c ∈ w.cells, ∀ s, Bounds s c → ¬ OnSurface s.shape q.position) :
    ∀ q ∈ scored, ∃ c ∈ w.cells, q.cell = some c ∧ InCell c q.position := by
  obtain ⟨c, hc, hl, hx, _⟩ := transport_ok h
  clear h hx
  obtain ⟨hcw, hin⟩ := FirstCell.mem hc
  have hp : Physical { p with cell := some c } := ⟨hr, hd⟩
  have hoff₀ : ∀ q ∈ { p with cell := some c } :: scored, ∀ c ∈ w.cells, ∀ s, Bounds s c →
      ¬ OnSurface s.shape q.position := by
    intro q hq
    rcases List.mem_cons.1 hq with rfl | hq
    · exact hoff p (by simp)
    · exact hoff q (by simp [hq])
  have hq₀ : ∃ c' ∈ w.cells, ({ p with cell := some c } : Particle).cell = some c' ∧
      InCell c' ({ p with cell := some c } : Particle).position := ⟨c, hcw, rfl, hin⟩
  clear hoff
  revert hl hp hoff₀ hq₀
  generalize ({ p with cell := some c } : Particle) = q₀
  intro hl hp hoff hq₀
  induction hl with
  | ended _ => simp
  | @step q q' rest _ h2 _ ih =>
    obtain ⟨c', hcw', hc', hin'⟩ := hq₀
    obtain ⟨c'', e1, e2, e3⟩ := step_inCell hn hconf hp hc' hcw' hin' (hoff q (by simp) c' hcw')
      (hoff q' (by simp) c' hcw') h2
    have hq' : ∃ c' ∈ w.cells, q'.cell = some c' ∧ InCell c' q'.position := ⟨c'', e2, e1, e3⟩
    intro x hx
    rcases List.mem_cons.1 hx with rfl | hx
    · exact hq'
    · exact ih (step_physical h2 hp) (fun y hy => hoff y (List.mem_cons_of_mem _ hy)) hq' x hx

/-- A particle of the first group in the instances. -/
def groupOne (x : Point) (d : Direction) (rng : ℕ) : Particle where
  indirectEffects := []
  secondaries := []
  position := x
  direction := d
  energy := .group 1
  cell := none
  rng := rng
  type := .neutron
  event := .birth
  currentSurface := none

theorem absorbing_nonneg (method : Method) (senses : List (SurfaceObj × Bool)) {σ : ℝ} (hσ : 0 ≤ σ) :
    NonnegRates method (absorbingWorld senses σ) := by
  intro c hc m hm q hq x hx
  simp only [absorbingWorld, List.mem_cons, List.not_mem_nil, or_false] at hc
  rcases hc with rfl | rfl
  · simp only [Option.some.injEq] at hm
    subst hm
    rcases he : q.energy with e | g
    · exfalso
      cases method <;>
        simp [Material.getMicroscopicTotal, Material.getMicroscopicMajorant, absorbing, sumLoop,
          Nuclide.getTotal, Nuclide.getMajorant, Nuclide.xsAt, absorber, Interaction.getTotal,
          Interaction.getMajorant, Multigroup.getMajorant, Multigroup.getTotal, he,
          Energy.getGroup, bind, Except.bind, noexcept] at hx
    · by_cases hg : g = 1
      · subst hg
        have := absorbing_density method σ he hq rfl
        unfold collisionDensity at this
        rw [noexcept_eq_ok, Particle.getCell_ok.2 hq] at this
        simp only [bind, Except.bind] at this
        have hxx : x = σ := by
          cases method
          · have h' := hx.symm.trans this; cases h'; rfl
          · have h' := hx.symm.trans this; cases h'; rfl
        rw [hxx]
        simpa [absorbing] using hσ
      · exfalso
        have h1 : Multigroup.oneAt [σ] g = .error .outOfRange := by
          unfold Multigroup.oneAt
          by_cases h0 : g = 0
          · rw [if_pos h0]
          · rw [if_neg h0, vecAt_ge (by simp; omega)]
        cases method <;>
          simp [Material.getMicroscopicTotal, Material.getMicroscopicMajorant, absorbing, sumLoop,
            Nuclide.getTotal, Nuclide.getMajorant, Nuclide.xsAt, absorber, Interaction.getTotal,
            Interaction.getMajorant, Multigroup.getMajorant, Multigroup.getTotal, he,
            Energy.getGroup, h1, bind, Except.bind, noexcept] at hx
  · cases hm

theorem absorbing_first {senses : List (SurfaceObj × Bool)} {σ : ℝ} {x : Point} (c : Cell)
    (hc : c = ⟨"in", senses, some (absorbing σ), .constant 300⟩) (hin : InCell c x) :
    FirstCell (absorbingWorld senses σ) x c :=
  ⟨[], [⟨"out", [], none, .constant 300⟩], by rw [hc]; rfl, hin, by simp⟩

/-- A particle that is captured on its first flight. -/
theorem absorbing_capture_run {senses : List (SurfaceObj × Bool)} {σ : ℝ} (hσ : 0 < σ)
    {p : Particle} {c : Cell} {t : ℝ} {s : SurfaceObj} {ds : WithTop ℝ} (fuel : ℕ)
    (hp : p.energy = .group 1) (he : p.indirectEffects = []) (hr : Rng.Valid p.rng)
    (hb : p.event = .birth) (hc : c = ⟨"in", senses, some (absorbing σ), .constant 300⟩)
    (hin : InCell c p.position) (hns : c.nearestSurface p.position p.direction = .ok (s, ds))
    (ht : Rng.exponentialOf σ (Rng.canonical p.rng).1 = (t : WithTop ℝ)) (hlt : (t : WithTop ℝ) < ds) :
    ∃ q, transport .surfaceTracking (fuel + 1) (absorbingWorld senses σ) p = .ok (q, [q]) ∧
      q.position = along p.position p.direction t ∧ q.cell = some c ∧ q.event = .capture ∧
      q.secondaries = p.secondaries := by
  have hm : c.material = some (absorbing σ) := by rw [hc]
  have hloc : p.locate (absorbingWorld senses σ) = .ok { p with cell := some c } :=
    locate_ok.2 ⟨c, absorbing_first c hc hin, rfl⟩
  have hfl := absorbing_flight .surfaceTracking σ (p := { p with cell := some c }) hp rfl hm
  rw [ht] at hfl
  have hcol := absorbing_collide .surfaceTracking hσ
    (p := { p with cell := some c, rng := (Rng.canonical p.rng).2 }) hp rfl hm he
    (Rng.valid_canonical hr) (fuel + 1) t
  have hst : transportStep .surfaceTracking (fuel + 1) (absorbingWorld senses σ)
      { p with cell := some c } = collide .surfaceTracking (fuel + 1)
        { p with cell := some c, rng := (Rng.canonical p.rng).2 } (t : WithTop ℝ) := by
    change surfaceStep _ _ _ = _
    unfold surfaceStep
    rw [hfl]
    simp only [bind, Except.bind, Particle.getCell, hns]
    rw [if_pos hlt]
  rw [hcol] at hst
  refine ⟨{ p with
      cell := some c
      position := along p.position p.direction t
      rng := (Rng.canonical (Rng.canonical (Rng.canonical p.rng).2).2).2
      event := .capture }, ?_, rfl, rfl, rfl, rfl⟩
  unfold transport
  rw [hloc]
  simp only [bind, Except.bind]
  unfold transportLoop
  rw [if_pos (by simp [Particle.isAlive, hb]), hst]
  simp only [bind, Except.bind]
  unfold transportLoop
  rcases fuel with _ | fuel <;> rfl

/-- Perturbations of other nuclides have no effect in the absorber. -/
theorem absorbing_no_effect {σ : ℝ} {c : Cell} (hm : c.material = some (absorbing σ))
    {p : Particle} (hc : p.cell = some c) (method : Method) (t : ℝ) :
    ∀ {l : List (Perturbation × ℝ)}, (∀ e ∈ l, e.1.nuclideId ≠ 7) →
      streamEffects method p t l = .ok l
  | [], _ => rfl
  | (q, x) :: l, h => by
    have h1 : q.stream method p t = .ok 0 := by
      unfold Perturbation.stream Particle.getCell
      rw [hc]
      simp only [bind, Except.bind, hm, absorbing, absorber, List.any_cons, List.any_nil,
        Bool.or_false, beq_iff_eq]
      rw [if_neg (fun h' => h (q, x) (by simp) h'.symm)]
      rfl
    unfold streamEffects
    rw [h1, absorbing_no_effect hm hc method t (fun e he => h e (by simp [he]))]
    simp only [bind, Except.bind, add_zero]

/-- A particle that leaks on its first flight. -/
theorem absorbing_leak_run {senses : List (SurfaceObj × Bool)} {σ : ℝ}
    {p : Particle} {c : Cell} {t : ℝ} {s : SurfaceObj} (fuel : ℕ)
    (hp : p.energy = .group 1) (he : ∀ e ∈ p.indirectEffects, e.1.nuclideId ≠ 7)
    (hb : p.event = .birth) (hc : c = ⟨"in", senses, some (absorbing σ), .constant 300⟩)
    (hin : InCell c p.position)
    (hns : c.nearestSurface p.position p.direction = .ok (s, (t : WithTop ℝ)))
    (hle : (t : WithTop ℝ) ≤ Rng.exponentialOf σ (Rng.canonical p.rng).1)
    (hout : ¬ InCell c (along p.position p.direction (t + 10 / 2 ^ 52))) :
    transport .surfaceTracking (fuel + 1) (absorbingWorld senses σ) p =
      .ok ({ p with
          cell := some ⟨"out", [], none, .constant 300⟩
          position := along p.position p.direction (t + 10 / 2 ^ 52)
          rng := (Rng.canonical p.rng).2
          currentSurface := some s
          event := .leak }, [{ p with
          cell := some ⟨"out", [], none, .constant 300⟩
          position := along p.position p.direction (t + 10 / 2 ^ 52)
          rng := (Rng.canonical p.rng).2
          currentSurface := some s
          event := .leak }]) := by
  have hm : c.material = some (absorbing σ) := by rw [hc]
  have hloc : p.locate (absorbingWorld senses σ) = .ok { p with cell := some c } :=
    locate_ok.2 ⟨c, absorbing_first c hc hin, rfl⟩
  have hfl := absorbing_flight .surfaceTracking σ (p := { p with cell := some c }) hp rfl hm
  have hfind : (absorbingWorld senses σ).findCellContaining
      (along p.position p.direction (t + 10 / 2 ^ 52)) = .ok ⟨"out", [], none, .constant 300⟩ :=
    findCellContaining_ok.2 ⟨[c], [], by rw [hc]; rfl, by simp [InCell], by simpa using hout⟩
  have hst : transportStep .surfaceTracking (fuel + 1) (absorbingWorld senses σ)
      { p with cell := some c } = .ok { p with
          cell := some ⟨"out", [], none, .constant 300⟩
          position := along p.position p.direction (t + 10 / 2 ^ 52)
          rng := (Rng.canonical p.rng).2
          currentSurface := some s
          event := .leak } := by
    change surfaceStep _ _ _ = _
    unfold surfaceStep
    rw [hfl]
    simp only [bind, Except.bind, Particle.getCell, hns]
    rw [if_neg (not_lt.2 hle)]
    unfold crossSurface
    have hadd : ((t : WithTop ℝ) + (nudge : WithTop ℝ)) = ((t + 10 / 2 ^ 52 : ℝ) : WithTop ℝ) := by
      rw [nudge_eq]; rfl
    have hs : ({ p with cell := some c, rng := (Rng.canonical p.rng).2 } : Particle).stream
        .surfaceTracking ((t + 10 / 2 ^ 52 : ℝ) : WithTop ℝ) = .ok { p with
          cell := some c
          rng := (Rng.canonical p.rng).2
          position := along p.position p.direction (t + 10 / 2 ^ 52) } := by
      change (streamEffects _ _ _ p.indirectEffects >>= fun effects => Except.ok _) = _
      rw [absorbing_no_effect hm rfl _ _ he]
      simp only [bind, Except.bind, smul_eq_along]
    rw [hadd, hs]
    simp only [bind, Except.bind, Particle.locate, hfind, Particle.getCell]
    rfl
  unfold transport
  rw [hloc]
  simp only [bind, Except.bind]
  unfold transportLoop
  rw [if_pos (by simp [Particle.isAlive, hb]), hst]
  simp only [bind, Except.bind]
  unfold transportLoop
  rcases fuel with _ | fuel <;> rfl

/-- A cylinder of radius 2 around the x axis. -/
def cylinder2 : SurfaceObj := ⟨0, "c", .cylinderX 2⟩

/-- **C09 is violated** inside cylinders of other radii: a particle that starts 3 away from the
axis, off the surface of a cylinder of radius 2 and in the cell inside it as far as the code is
concerned, flies outwards without meeting a surface and is captured 13 away from the axis, where
its cell does not contain it. -/
theorem C09_cylinder_violated :
    ∃ (w : World) (p last : Particle) (scored : List Particle),
      NonnegRates .surfaceTracking w ∧ Rng.Valid p.rng ∧ UnitVec p.direction ∧
      (∀ c ∈ w.cells, ∀ s, Bounds s c → ¬ OnSurface s.shape p.position) ∧
      transport .surfaceTracking 1 w p = .ok (last, scored) ∧
      ∃ q ∈ scored, ∃ c, q.cell = some c ∧ ¬ InCell c q.position := by
  have hv : Rng.Valid 1 := by constructor <;> norm_num
  have h0 := Rng.canonical_pos hv
  have h1 := Rng.canonical_lt_one hv
  set u := (Rng.canonical 1).1 with hu
  have hlog : Real.log (1 - u) < 0 := Real.log_neg (by linarith) (by linarith)
  have hσ : 0 < -Real.log (1 - u) / 10 := by linarith
  have h16 : Real.sqrt 16 = 4 := by
    rw [show (16:ℝ) = 4 ^ 2 by norm_num]; exact Real.sqrt_sq (by norm_num)
  have hdist : (Surface.cylinderX 2).distance ⟨0, 3, 0⟩ ⟨0, 1, 0⟩ = ⊤ := by
    unfold Surface.distance Surface.cylinderXDistance Surface.solveQuadratic
    simp only [Point.dot]
    norm_num [h16]
  have hexp : Rng.exponentialOf (-Real.log (1 - u) / 10) u = ((10 : ℝ) : WithTop ℝ) := by
    unfold Rng.exponentialOf
    rw [if_neg hσ.ne']
    congr 1
    field_simp
    exact div_self hlog.ne
  obtain ⟨q, hq, hpos, hcell, _⟩ := absorbing_capture_run (senses := [(cylinder2, true)]) hσ
    (p := groupOne ⟨0, 3, 0⟩ ⟨0, 1, 0⟩ 1) (c := ⟨"in", [(cylinder2, true)], some (absorbing _),
      .constant 300⟩) (t := 10) (s := cylinder2) (ds := ⊤) 0 rfl rfl hv rfl rfl
    (by
      intro e he
      simp only [List.mem_singleton] at he
      subst he
      change (Surface.cylinderX 2).contains ⟨0, 3, 0⟩ = true
      rw [cylinderXContains_iff]; norm_num)
    (by
      change Except.ok (cylinder2, (Surface.cylinderX 2).distance ⟨0, 3, 0⟩ ⟨0, 1, 0⟩) = _
      rw [hdist])
    hexp (WithTop.coe_lt_top _)
  refine ⟨_, _, q, [q], absorbing_nonneg _ _ hσ.le, hv, by norm_num [UnitVec, groupOne], ?_, hq, q,
    by simp, _, hcell, ?_⟩
  · rintro c hc s ⟨b, hs⟩
    simp only [absorbingWorld, List.mem_cons, List.not_mem_nil, or_false] at hc
    rcases hc with rfl | rfl
    · simp only [List.mem_singleton, Prod.mk.injEq] at hs
      rw [hs.1]
      norm_num [OnSurface, surfaceValue, cylinder2, groupOne]
    · simp at hs
  · intro hin
    have := hin (cylinder2, true) (by simp)
    rw [hpos] at this
    change (Surface.cylinderX 2).contains (along ⟨0, 3, 0⟩ ⟨0, 1, 0⟩ 10) = true at this
    rw [cylinderXContains_iff] at this
    norm_num [along] at this

/-- The walls of the slab between x = 1 and x = 3. -/
def slabWalls : List (SurfaceObj × Bool) := [(plane1, false), (plane3, true)]

/-- Instance for C09 and C29: from x = 2 along +x, through a slab without collisions, the
particle crosses the plane at x = 3 and leaks. -/
theorem slab_leak_run (p : Particle) (fuel : ℕ) (hp : p.energy = .group 1)
    (he : ∀ e ∈ p.indirectEffects, e.1.nuclideId ≠ 7) (hb : p.event = .birth)
    (hx : p.position = ⟨2, 0, 0⟩) (hd : p.direction = ⟨1, 0, 0⟩) :
    transport .surfaceTracking (fuel + 1) (absorbingWorld slabWalls 0) p =
      .ok ({ p with
          cell := some ⟨"out", [], none, .constant 300⟩
          position := ⟨3 + 10 / 2 ^ 52, 0, 0⟩
          rng := (Rng.canonical p.rng).2
          currentSurface := some plane3
          event := .leak }, [{ p with
          cell := some ⟨"out", [], none, .constant 300⟩
          position := ⟨3 + 10 / 2 ^ 52, 0, 0⟩
          rng := (Rng.canonical p.rng).2
          currentSurface := some plane3
          event := .leak }]) := by
  have e : along p.position p.direction (1 + 10 / 2 ^ 52) = ⟨3 + 10 / 2 ^ 52, 0, 0⟩ := by
    rw [hx, hd]; ext <;> norm_num [along]
  have h := absorbing_leak_run (senses := slabWalls) (σ := 0) (p := p)
    (c := ⟨"in", slabWalls, some (absorbing 0), .constant 300⟩) (t := 1) (s := plane3) fuel hp he hb
    rfl ?_ ?_ ?_ ?_
  · rw [e] at h; exact h
  · intro s hs
    simp only [slabWalls, List.mem_cons, List.not_mem_nil, or_false] at hs
    rw [hx]
    rcases hs with rfl | rfl
    · change (Surface.planeX 1).contains ⟨2, 0, 0⟩ = false
      rw [← Bool.not_eq_true, planeXContains_iff]; norm_num [Inside, surfaceValue]
    · change (Surface.planeX 3).contains ⟨2, 0, 0⟩ = true
      rw [planeXContains_iff]; norm_num [Inside, surfaceValue]
  · have h1 : plane1.shape.distance ⟨2, 0, 0⟩ ⟨1, 0, 0⟩ = ⊤ := by
      norm_num [plane1, Surface.distance, Surface.planeXDistance, Point.dot]
    have h3 : plane3.shape.distance ⟨2, 0, 0⟩ ⟨1, 0, 0⟩ = ((1 : ℝ) : WithTop ℝ) := by
      norm_num [plane3, Surface.distance, Surface.planeXDistance, Point.dot]
    rw [hx, hd]
    simp only [Cell.nearestSurface, slabWalls, Cell.nearestFrom]
    rw [h1, h3, if_pos (WithTop.coe_lt_top _), h3]
  · unfold Rng.exponentialOf
    rw [if_pos rfl]
    exact le_top
  · rw [e]
    intro hin
    have := hin (plane3, true) (by simp [slabWalls])
    change (Surface.planeX 3).contains _ = true at this
    rw [planeXContains_iff] at this
    norm_num [Inside, surfaceValue] at this

/-- Instance of the hypotheses of `C09_inside_cell_partial`. -/
example : NonnegRates .surfaceTracking (absorbingWorld slabWalls 0) ∧
    (∀ c ∈ (absorbingWorld slabWalls 0).cells, ∀ s, Bounds s c → Conforming s.shape) ∧
    ∃ last scored, transport .surfaceTracking 1 (absorbingWorld slabWalls 0)
      (groupOne ⟨2, 0, 0⟩ ⟨1, 0, 0⟩ 1) = .ok (last, scored) ∧ scored ≠ [] ∧
      ∀ q ∈ groupOne ⟨2, 0, 0⟩ ⟨1, 0, 0⟩ 1 :: scored, ∀ c ∈ (absorbingWorld slabWalls 0).cells,
        ∀ s, Bounds s c → ¬ OnSurface s.shape q.position := by
  have hs : ∀ c ∈ (absorbingWorld slabWalls 0).cells, ∀ s, Bounds s c →
      s.shape = .planeX 1 ∨ s.shape = .planeX 3 := by
    rintro c hc s ⟨b, hs⟩
    simp only [absorbingWorld, List.mem_cons, List.not_mem_nil, or_false] at hc
    rcases hc with rfl | rfl
    · simp only [slabWalls, List.mem_cons, List.not_mem_nil, or_false, Prod.mk.injEq] at hs
      rcases hs with ⟨rfl, _⟩ | ⟨rfl, _⟩
      · exact Or.inl rfl
      · exact Or.inr rfl
    · simp at hs
  refine ⟨absorbing_nonneg _ _ le_rfl, ?_, _, _, slab_leak_run _ 0 rfl (by simp [groupOne]) rfl rfl rfl, by simp, ?_⟩
  · intro c hc s hb
    rcases hs c hc s hb with h | h <;> rw [h] <;> trivial
  · intro q hq c hc s hb
    simp only [List.mem_cons, List.not_mem_nil, or_false] at hq
    rcases hs c hc s hb with h | h <;> rw [h] <;> rcases hq with rfl | rfl <;>
      norm_num [OnSurface, surfaceValue, groupOne]

/-! ## C55 -/

/-- **C55 is violated**: a particle that starts in a cell without material makes transport
dereference a null pointer, with either method. -/
theorem C55_void_start_violated {w : World} {p : Particle} {c : Cell} (method : Method) (fuel : ℕ)
    (hc : FirstCell w p.position c) (hm : c.material = none) (ha : ¬ Ended p) :
    transport method (fuel + 1) w p = .error .ub := by
  have hloc : p.locate w = .ok { p with cell := some c } := locate_ok.2 ⟨c, hc, rfl⟩
  have hs : transportStep method (fuel + 1) w { p with cell := some c } = .error .ub := by
    cases method <;>
      simp [transportStep, surfaceStep, deltaStep, sampleFlight, Particle.getCell, hm, bind,
        Except.bind]
  unfold transport
  rw [hloc]
  simp only [bind, Except.bind]
  unfold transportLoop
  have ha' : ({ p with cell := some c } : Particle).isAlive = true := (alive_iff _).2 ha
  rw [if_pos ha', hs]
  rfl

/-- Witness: outside the slab. -/
example : transport .surfaceTracking 1 (absorbingWorld slabWalls 1)
    (groupOne ⟨7, 0, 0⟩ ⟨1, 0, 0⟩ 1) = .error .ub := by
  refine C55_void_start_violated (c := ⟨"out", [], none, .constant 300⟩) _ _ ?_ rfl
    (by simp [Ended, groupOne])
  refine ⟨[⟨"in", slabWalls, some (absorbing 1), .constant 300⟩], [], rfl, by simp [InCell], ?_⟩
  intro c hc hin
  simp only [List.mem_singleton] at hc
  subst hc
  have := hin (plane3, true) (by simp [slabWalls])
  change (Surface.planeX 3).contains _ = true at this
  rw [planeXContains_iff] at this
  norm_num [Inside, surfaceValue, groupOne] at this

/-- **C55 is violated**: a particle that starts in no cell ends the program. -/
theorem C55_outside_start_violated {w : World} {p : Particle} (method : Method) (fuel : ℕ)
    (hc : ∀ c ∈ w.cells, ¬ InCell c p.position) :
    transport method fuel w p = .error .terminate := by
  have h : w.findCellContaining p.position = .error .runtimeError := by
    rw [C08_raises_partial]
    intro c hcw
    have := hc c hcw
    unfold InCell at this
    push Not at this
    exact this
  unfold transport Particle.locate
  rw [h]
  rfl

end Minimc.Props
