import Verif.Lemmas.Keeps
import Verif.Lemmas.Rng
import Verif.Props.Geometry
import Verif.Spec.Transport

/-! # Steps of the transport methods -/

namespace Minimc

open Classical Spec

theorem Particle.getCell_ok {p : Particle} {c : Cell} : p.getCell = .ok c ↔ p.cell = some c := by
  unfold Particle.getCell
  rcases p.cell with _ | c'
  · simp
  · simp

theorem alive_iff (p : Particle) : p.isAlive = true ↔ ¬ Ended p := by
  unfold Particle.isAlive Ended
  cases p.event <;> simp

theorem smul_eq_along (o d : Point) (t : ℝ) : o + d.smul t = along o d t := by
  ext <;> simp [along, mul_comm]

/-- Streaming changes the position and the effects. -/
theorem Particle.stream_ok {method : Method} {p p' : Particle} {d : WithTop ℝ}
    (h : p.stream method d = .ok p') :
    ∃ (t : ℝ) (eff : List (Perturbation × ℝ)), d = (t : WithTop ℝ) ∧
      streamEffects method p t p.indirectEffects = .ok eff ∧
      p' = { p with indirectEffects := eff, position := along p.position p.direction t } := by
  induction d using WithTop.recTopCoe with
  | top => cases h
  | coe t =>
    change (streamEffects method p t p.indirectEffects >>= fun effects => Except.ok _) = _ at h
    rw [res_bind_ok] at h
    obtain ⟨eff, heff, h⟩ := h
    simp only [Except.ok.injEq] at h
    exact ⟨t, eff, rfl, heff, by rw [← h, smul_eq_along]⟩

theorem sampleFlight_ok {method : Method} {p p' : Particle} {d : WithTop ℝ}
    (h : sampleFlight method p = .ok (d, p')) : ∃ c m density, p.cell = some c ∧
      c.material = some m ∧ collisionDensity method p = .ok density ∧
      d = (Rng.exponential (m.numberDensity * density) p.rng).1 ∧
      p' = { p with rng := (Rng.exponential (m.numberDensity * density) p.rng).2 } := by
  unfold sampleFlight at h
  simp only [res_bind_ok, Particle.getCell_ok] at h
  obtain ⟨c, hc, h⟩ := h
  rcases hm : c.material with _ | m
  · rw [hm] at h; cases h
  · rw [hm] at h
    simp only [res_bind_ok, Except.ok.injEq, Prod.mk.injEq] at h
    obtain ⟨density, hd, h1, h2⟩ := h
    exact ⟨c, m, density, hc, hm, hd, h1.symm, h2.symm⟩

theorem Particle.sampleNuclide_rng {p p' : Particle} {n : Nuclide}
    (h : p.sampleNuclide = .ok (n, p')) : RngOnly p p' := by
  unfold Particle.sampleNuclide at h
  rw [noexcept_eq_ok] at h
  simp only [res_bind_ok] at h
  obtain ⟨_, _, _, _, o, _, h⟩ := h
  rcases o with _ | e
  · cases h
  · simp only [Except.ok.injEq, Prod.mk.injEq] at h
    rw [← h.2]
    exact RngOnly.sample p

/-- The collision branch. -/
theorem collide_ok {method : Method} {fuel : ℕ} {p p' : Particle} {d : WithTop ℝ}
    (h : collide method fuel p d = .ok p') : ∃ (t : ℝ), d = (t : WithTop ℝ) ∧
      p'.position = along p.position p.direction t ∧ p'.cell = p.cell ∧
      p'.currentSurface = p.currentSurface ∧
      (p'.event = .scatter ∨ p'.event = .capture ∨ p'.event = .fission) ∧ Continues p p' := by
  unfold collide at h
  simp only [res_bind_ok] at h
  obtain ⟨p₁, h1, ⟨n, p₂⟩, h2, h3⟩ := h
  obtain ⟨t, eff, rfl, _, rfl⟩ := Particle.stream_ok h1
  have hr := Particle.sampleNuclide_rng h2
  obtain ⟨h4, h5⟩ := Nuclide.interact_keeps h3
  have hk := hr.keeps.trans h4
  refine ⟨t, rfl, hk.position, hk.cell, hk.surface, ?_, hk.type, ?_⟩
  · rcases h5 with h | h | h <;> simp [h]
  · obtain ⟨new, hn, hb⟩ := hk.secondaries
    refine ⟨new, hn, ?_⟩
    rw [hk.position, hk.cell]
    exact fun b hbm => ⟨(hb b hbm).1, (hb b hbm).2.1, (hb b hbm).2.2.1⟩

theorem findCellContaining_ok {w : World} {x : Point} {c : Cell} :
    w.findCellContaining x = .ok c ↔ FirstCell w x c := by
  rw [Props.C08_first_cell_partial]
  unfold FirstCell InCell
  simp only [not_forall, Props.OnRequiredSide, exists_prop]

theorem locate_ok {w : World} {p p' : Particle} :
    p.locate w = .ok p' ↔ ∃ c, FirstCell w p.position c ∧ p' = { p with cell := some c } := by
  unfold Particle.locate
  rw [res_bind_ok]
  simp only [Except.ok.injEq, findCellContaining_ok]
  constructor <;> rintro ⟨c, h1, h2⟩ <;> exact ⟨c, h1, h2.symm⟩

theorem nudge_eq : nudge = 10 / 2 ^ 52 := by
  unfold nudge
  rw [zpow_neg]
  norm_num

/-- The crossing branch. -/
theorem crossSurface_ok {method : Method} {w : World} {p p' : Particle} {s : SurfaceObj}
    {d : WithTop ℝ} (h : crossSurface method w p s d = .ok p') : ∃ (t : ℝ), d = (t : WithTop ℝ) ∧
      p'.position = along p.position p.direction (t + 10 / 2 ^ 52) ∧
      (∃ c', FirstCell w p'.position c' ∧ p'.cell = some c' ∧
        (c'.material = none → p'.event = .leak) ∧
        (c'.material ≠ none → p'.event = .surfaceCross)) ∧
      p'.currentSurface = some s ∧ p'.direction = p.direction ∧ p'.energy = p.energy ∧
      p'.type = p.type ∧ p'.secondaries = p.secondaries ∧ p'.rng = p.rng := by
  unfold crossSurface at h
  simp only [res_bind_ok] at h
  obtain ⟨p₁, h1, p₂, h2, c', h3, h4⟩ := h
  obtain ⟨t, eff, ht, _, rfl⟩ := Particle.stream_ok h1
  obtain ⟨c, hc, rfl⟩ := locate_ok.1 h2
  have hcc : c = c' := by
    have := Particle.getCell_ok.1 h3
    simpa using this
  subst hcc
  simp only [Except.ok.injEq] at h4
  induction d using WithTop.recTopCoe with
  | top => cases ht
  | coe a =>
    rw [← WithTop.coe_add, WithTop.coe_inj] at ht
    rw [nudge_eq] at ht
    refine ⟨a, rfl, ?_, ⟨c, ?_, ?_, ?_, ?_⟩, ?_, ?_, ?_, ?_, ?_, ?_⟩
    · rw [← h4, ht]
    · rw [← h4]; exact hc
    · rw [← h4]
    · intro hm
      rw [← h4]
      simp [hm]
    · intro hm
      rw [← h4]
      simp [Option.isSome_iff_ne_none.2 hm]
    all_goals rw [← h4]

theorem nearest_ok {c : Cell} {x : Point} {d : Direction} {s : SurfaceObj} {t : WithTop ℝ}
    (h : c.nearestSurface x d = .ok (s, t)) : t = s.shape.distance x d ∧ Bounds s c ∧
      ∀ s', Bounds s' c → t ≤ s'.shape.distance x d := by
  obtain ⟨h1, h2, l, b, r, h3, _⟩ := Props.C07_nearest h
  refine ⟨h1, ⟨b, ?_⟩, ?_⟩
  · rw [h3]; simp
  · rintro s' ⟨b', hb'⟩
    exact h2 _ hb'

/-- Sampled distances are not negative. -/
theorem exponential_nonneg {lam : ℝ} {g : ℕ} {t : ℝ} (hg : Rng.Valid g) (hl : 0 ≤ lam)
    (h : (Rng.exponential lam g).1 = (t : WithTop ℝ)) : 0 ≤ t := by
  unfold Rng.exponential Rng.exponentialOf at h
  by_cases h0 : lam = 0
  · rw [if_pos h0] at h; cases h
  · rw [if_neg h0, WithTop.coe_inj] at h
    rw [← h]
    have h1 := Rng.canonical_pos hg
    have h2 := Rng.canonical_lt_one hg
    have : Real.log (1 - (Rng.canonical g).1) ≤ 0 :=
      Real.log_nonpos (by linarith) (by linarith)
    exact div_nonneg (by linarith) hl

/-- What a step does, in terms of the sampled distance `d`. -/
inductive StepCase (method : Method) (fuel : ℕ) (w : World) (p p' : Particle) : Prop where
  | cross (c : Cell) (d ds : WithTop ℝ) (p₁ : Particle) (s : SurfaceObj) :
      p.cell = some c → sampleFlight method p = .ok (d, p₁) →
      c.nearestSurface p.position p.direction = .ok (s, ds) → ds ≤ d →
      crossSurface method w p₁ s ds = .ok p' → StepCase method fuel w p p'
  | collide (c : Cell) (d ds : WithTop ℝ) (p₁ p₂ : Particle) (s : SurfaceObj) :
      p.cell = some c → sampleFlight method p = .ok (d, p₁) →
      c.nearestSurface p.position p.direction = .ok (s, ds) → d ≤ ds →
      (method = .surfaceTracking → d < ds) → RngOnly p₁ p₂ →
      collide method fuel p₂ d = .ok p' → StepCase method fuel w p p'
  | pass (c : Cell) (d ds : WithTop ℝ) (p₁ p₂ p₃ : Particle) (s : SurfaceObj) :
      method = .cellDeltaTracking →
      p.cell = some c → sampleFlight method p = .ok (d, p₁) →
      c.nearestSurface p.position p.direction = .ok (s, ds) → d ≤ ds → RngOnly p₁ p₂ →
      p₂.stream method d = .ok p₃ → p' = { p₃ with event := .virtualCollision } →
      StepCase method fuel w p p'

theorem step_cases {method : Method} {fuel : ℕ} {w : World} {p p' : Particle}
    (h : transportStep method fuel w p = .ok p') : StepCase method fuel w p p' := by
  unfold transportStep at h
  cases method
  · dsimp only at h
    unfold surfaceStep at h
    simp only [res_bind_ok] at h
    obtain ⟨⟨d, p₁⟩, h1, c, h2, ⟨s, ds⟩, h3, h⟩ := h
    dsimp only at h h2 h3
    obtain ⟨c₀, m, σ, hc, hm, hσ, hd, hp⟩ := sampleFlight_ok h1
    have hcell : p.cell = some c := by
      rw [Particle.getCell_ok, hp] at h2
      exact h2
    have hn : c.nearestSurface p.position p.direction = .ok (s, ds) := by
      rw [hp] at h3; exact h3
    by_cases hlt : d < ds
    · rw [if_pos hlt] at h
      exact .collide c d ds p₁ p₁ s hcell h1 hn hlt.le (fun _ => hlt) (RngOnly.refl _) h
    · rw [if_neg hlt] at h
      exact .cross c d ds p₁ s hcell h1 hn (not_lt.1 hlt) h
  · dsimp only at h
    unfold deltaStep at h
    simp only [res_bind_ok] at h
    obtain ⟨⟨d, p₁⟩, h1, c, h2, ⟨s, ds⟩, h3, h⟩ := h
    dsimp only at h h2 h3
    obtain ⟨c₀, m, σ, hc, hm, hσ, hd, hp⟩ := sampleFlight_ok h1
    have hcell : p.cell = some c := by
      rw [Particle.getCell_ok, hp] at h2
      exact h2
    have hn : c.nearestSurface p.position p.direction = .ok (s, ds) := by
      rw [hp] at h3; exact h3
    by_cases hlt : ds < d
    · rw [if_pos hlt] at h
      exact .cross c d ds p₁ s hcell h1 hn hlt.le h
    · rw [if_neg hlt] at h
      simp only [res_bind_ok] at h
      obtain ⟨pr, _, h⟩ := h
      have hr : RngOnly p₁ { p₁ with rng := (Rng.bernoulli pr p₁.rng).2 } :=
        ⟨_, fun hv => Rng.valid_canonical hv, rfl⟩
      by_cases hb : (Rng.bernoulli pr p₁.rng).1 = true
      · rw [if_pos hb] at h
        exact .collide c d ds p₁ _ s hcell h1 hn (not_lt.1 hlt) (by simp) hr h
      · rw [if_neg hb] at h
        simp only [res_bind_ok, Except.ok.injEq] at h
        obtain ⟨p₃, h4, h5⟩ := h
        exact .pass c d ds p₁ _ p₃ s rfl hcell h1 hn (not_lt.1 hlt) hr h4 h5.symm

theorem step_spec {method : Method} {fuel : ℕ} {w : World} {p p' : Particle}
    (h : transportStep method fuel w p = .ok p') : Step method w p p' := by
  rcases step_cases h with ⟨c, d, ds, p₁, s, hc, h1, h2, hd, h3⟩ |
    ⟨c, d, ds, p₁, p₂, s, hc, h1, h2, hd, _, hr, h3⟩ |
    ⟨c, d, ds, p₁, p₂, p₃, s, hm, hc, h1, h2, hd, hr, h3, h4⟩
  · obtain ⟨_, _, _, _, _, _, _, rfl⟩ := sampleFlight_ok h1
    obtain ⟨e1, e2, e3⟩ := nearest_ok h2
    obtain ⟨t, rfl, f1, f2, f3, f4, f5, f6, f7, f8⟩ := crossSurface_ok h3
    exact Or.inl ⟨s, ⟨⟨c, t, hc, e2, e1.symm, e3, f1⟩, f2, f3, f4, f5, f6, f7⟩⟩
  · obtain ⟨_, _, _, _, _, _, _, rfl⟩ := sampleFlight_ok h1
    obtain ⟨r, _, rfl⟩ := hr
    obtain ⟨e1, e2, e3⟩ := nearest_ok h2
    obtain ⟨t, rfl, f1, f2, f3, f4, f5⟩ := collide_ok h3
    exact Or.inr (Or.inl ⟨⟨c, t, hc, fun s' hs' => hd.trans (e3 s' hs'), f1⟩, f2, f3, f4,
      ⟨f5.type, f5.secondaries⟩⟩)
  · obtain ⟨_, _, _, _, _, _, _, rfl⟩ := sampleFlight_ok h1
    obtain ⟨r, _, rfl⟩ := hr
    obtain ⟨e1, e2, e3⟩ := nearest_ok h2
    obtain ⟨t, eff, rfl, _, rfl⟩ := Particle.stream_ok h3
    subst h4
    exact Or.inr (Or.inr ⟨hm, ⟨c, t, hc, fun s' hs' => hd.trans (e3 s' hs'), rfl⟩, rfl, rfl, rfl,
      rfl, rfl, rfl, rfl⟩)

/-- A step keeps directions of unit length and generators in valid states. -/
theorem step_physical {method : Method} {fuel : ℕ} {w : World} {p p' : Particle}
    (h : transportStep method fuel w p = .ok p') (hp : Physical p) : Physical p' := by
  have hfl : ∀ {d : WithTop ℝ} {p₁ : Particle}, sampleFlight method p = .ok (d, p₁) →
      Physical p₁ := by
    intro d p₁ h1
    obtain ⟨_, _, _, _, _, _, _, rfl⟩ := sampleFlight_ok h1
    exact ⟨Rng.valid_canonical hp.rng, hp.direction⟩
  rcases step_cases h with ⟨c, d, ds, p₁, s, hc, h1, h2, hd, h3⟩ |
    ⟨c, d, ds, p₁, p₂, s, hc, h1, h2, hd, _, hr, h3⟩ |
    ⟨c, d, ds, p₁, p₂, p₃, s, hm, hc, h1, h2, hd, hr, h3, h4⟩
  · obtain ⟨t, rfl, f1, f2, f3, f4, f5, f6, f7, f8⟩ := crossSurface_ok h3
    have := hfl h1
    exact ⟨by rw [f8]; exact this.rng, by rw [f4]; exact this.direction⟩
  · have h2 := hr.keeps.physical (hfl h1)
    unfold Minimc.collide at h3
    simp only [res_bind_ok] at h3
    obtain ⟨q₁, g1, ⟨n, q₂⟩, g2, g3⟩ := h3
    obtain ⟨t, eff, rfl, _, rfl⟩ := Particle.stream_ok g1
    exact (Nuclide.interact_keeps g3).1.physical
      ((Particle.sampleNuclide_rng g2).keeps.physical ⟨h2.rng, h2.direction⟩)
  · have h2 := hr.keeps.physical (hfl h1)
    obtain ⟨t, eff, rfl, _, rfl⟩ := Particle.stream_ok h3
    subst h4
    exact ⟨h2.rng, h2.direction⟩

end Minimc
