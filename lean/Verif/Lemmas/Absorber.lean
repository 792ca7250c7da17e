import Verif.Lemmas.Transport
import Verif.Props.Material

/-! # A one-group absorber in a slab, used in instances and counterexamples -/

namespace Minimc.Props

open Classical Spec

/-- A material made of one absorber with unit density. -/
noncomputable def absorbing (σ : ℝ) : Material := ⟨"m", [(absorber 7 "a" σ, 1)], 1⟩

theorem absorber_total (i : ℕ) (n : String) (σ : ℝ) {p : Particle} (hp : p.energy = .group 1) :
    (absorber i n σ).getTotal p = .ok σ := by
  simp [Nuclide.getTotal, Nuclide.xsAt, absorber, Interaction.getTotal, Multigroup.getTotal, hp,
    Energy.getGroup, Multigroup.oneAt, vecAt, bind, Except.bind, noexcept]

theorem absorber_majorant (i : ℕ) (n : String) (σ : ℝ) {p : Particle} (hp : p.energy = .group 1) :
    (absorber i n σ).getMajorant p = .ok σ := by
  simp [Nuclide.getMajorant, Nuclide.xsAt, absorber, Interaction.getMajorant,
    Multigroup.getMajorant, Multigroup.getTotal, hp,
    Energy.getGroup, Multigroup.oneAt, vecAt, bind, Except.bind, noexcept]

theorem absorbing_density (method : Method) (σ : ℝ) {p : Particle} {c : Cell}
    (hp : p.energy = .group 1) (hc : p.cell = some c) (hm : c.material = some (absorbing σ)) :
    collisionDensity method p = .ok σ := by
  have h1 := (C23_weighted_mean (absorbing σ) p (fun _ => σ)).1
    (by intro e he; simp only [absorbing, List.mem_singleton] at he; subst he
        exact absorber_total _ _ _ hp)
  have h2 := (C23_weighted_mean (absorbing σ) p (fun _ => σ)).2
    (by intro e he; simp only [absorbing, List.mem_singleton] at he; subst he
        exact absorber_majorant _ _ _ hp)
  have hs : ((absorbing σ).afracs.map (fun e => e.2 * σ)).sum = σ := by simp [absorbing]
  rw [hs] at h1 h2
  unfold collisionDensity
  rw [Particle.getCell_ok.2 hc]
  simp only [bind, Except.bind, hm]
  cases method
  · simp only [h1]; rfl
  · simp only [h2]; rfl

theorem absorbing_flight (method : Method) (σ : ℝ) {p : Particle} {c : Cell}
    (hp : p.energy = .group 1) (hc : p.cell = some c) (hm : c.material = some (absorbing σ)) :
    sampleFlight method p =
      .ok (Rng.exponentialOf σ (Rng.canonical p.rng).1, { p with rng := (Rng.canonical p.rng).2 }) := by
  unfold sampleFlight
  rw [Particle.getCell_ok.2 hc, absorbing_density method σ hp hc hm]
  simp only [bind, Except.bind, hm, absorbing, one_mul]
  rfl

theorem absorber_interact (i : ℕ) (n : String) {σ : ℝ} (hσ : 0 < σ) {p : Particle}
    (hp : p.energy = .group 1) (hr : Rng.Valid p.rng) (fuel : ℕ) :
    (absorber i n σ).interact fuel p =
      .ok { p with rng := (Rng.canonical p.rng).2, event := .capture } := by
  have hu := Rng.canonical_lt_one hr
  have h : (Rng.canonical p.rng).1 * σ < σ := by nlinarith
  simp [Nuclide.interact, Nuclide.xsAt, absorber, Interaction.interact, Multigroup.interact,
    Multigroup.getTotal, hp, Energy.getGroup, Multigroup.oneAt, vecAt, bind, Except.bind, noexcept,
    Particle.sample, Multigroup.selectReaction, selectLoop, h, Multigroup.capture]

theorem absorbing_collide (method : Method) {σ : ℝ} (hσ : 0 < σ) {p : Particle} {c : Cell}
    (hp : p.energy = .group 1) (hc : p.cell = some c) (hm : c.material = some (absorbing σ))
    (he : p.indirectEffects = []) (hr : Rng.Valid p.rng) (fuel : ℕ) (t : ℝ) :
    collide method fuel p ((t : ℝ) : WithTop ℝ) =
      .ok { p with
        position := along p.position p.direction t
        rng := (Rng.canonical (Rng.canonical p.rng).2).2
        event := .capture } := by
  have hs : p.stream method ((t : ℝ) : WithTop ℝ) =
      .ok { p with position := along p.position p.direction t } := by
    change (streamEffects method p t p.indirectEffects >>= fun effects => Except.ok _) = _
    rw [he]
    simp only [streamEffects, bind, Except.bind, smul_eq_along]
  have hn : ({ p with position := along p.position p.direction t } : Particle).sampleNuclide =
      .ok (absorber 7 "a" σ, { p with
        position := along p.position p.direction t, rng := (Rng.canonical p.rng).2 }) := by
    obtain ⟨i, hi, _, _, h⟩ := C24_selects (c := c) (m := absorbing σ) (σ := fun _ => σ)
      (p := { p with position := along p.position p.direction t }) hc hm
      (by intro e he; simp only [absorbing, List.mem_singleton] at he; subst he
          exact absorber_total _ _ _ hp)
      (by intro e he; simp only [absorbing, List.mem_singleton] at he; subst he; simp [hσ.le])
      hr (by simp [shares, absorbing, hσ])
    rw [h]
    have : i = 0 := by simpa [absorbing] using hi
    subst this
    rfl
  unfold collide
  rw [hs]
  simp only [bind, Except.bind]
  rw [hn]
  simp only []
  exact absorber_interact _ _ hσ (p := { p with
    position := along p.position p.direction t, rng := (Rng.canonical p.rng).2 }) hp
    (Rng.valid_canonical hr) fuel

/-- A cell filled with the absorber, and everything else void. -/
noncomputable def absorbingWorld (senses : List (SurfaceObj × Bool)) (σ : ℝ) : World where
  surfaces := senses.map Prod.fst
  nuclides := [absorber 7 "a" σ]
  materials := [absorbing σ]
  temperature := .constant 300
  cells := [⟨"in", senses, some (absorbing σ), .constant 300⟩, ⟨"out", [], none, .constant 300⟩]

end Minimc.Props
