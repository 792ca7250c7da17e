import Verif.Lemmas.Multigroup
import Verif.Lemmas.MgInteract
import Verif.Lemmas.Point
import Verif.Lemmas.Rng
import Verif.Model.Transport

/-! # What a collision leaves alone -/

namespace Minimc

theorem res_bind_ok {α β : Type _} {x : Res α} {f : α → Res β} {b : β} :
    (x >>= f) = .ok b ↔ ∃ a, x = .ok a ∧ f a = .ok b := by
  rcases x with e | a
  · constructor
    · intro h; cases h
    · rintro ⟨a, h, _⟩; cases h
  · constructor
    · intro h; exact ⟨a, rfl, h⟩
    · rintro ⟨a', h, h'⟩; cases h; exact h'

/-- The generator is in a state that it can reach and the direction has unit length. -/
structure Physical (p : Particle) : Prop where
  rng : Rng.Valid p.rng
  direction : Spec.UnitVec p.direction

theorem normalize_unit {x d : Point} (h : x.normalize = .ok d) : Spec.UnitVec d := by
  by_cases hx : x = ⟨0, 0, 0⟩
  · subst hx
    unfold Point.normalize at h
    rw [if_pos (by simp [Point.dot])] at h
    cases h
  · obtain ⟨d', h', hu, _⟩ := Point.normalize_ok hx
    rw [h'] at h
    cases h
    exact hu

theorem rotated_unit {d d' : Direction} {mu phi : ℝ} (h : d.rotated mu phi = .ok d') :
    Spec.UnitVec d' := by
  unfold Direction.rotated at h
  simp only [res_bind_ok] at h
  obtain ⟨u, _, v, _, h⟩ := h
  split at h
  · cases h
  · exact normalize_unit h

theorem isotropic_unit {g : ℕ} (h : Rng.Valid g) : Spec.UnitVec (Direction.isotropic g).1 := by
  have h1 := Rng.canonical_pos h
  have h2 := Rng.canonical_lt_one h
  unfold Direction.isotropic Rng.uniformReal
  apply Direction.unitVec_isotropicOf
  · linarith
  · linarith

theorem isotropic_valid {g : ℕ} (h : Rng.Valid g) : Rng.Valid (Direction.isotropic g).2 :=
  Rng.valid_canonical (Rng.valid_canonical h)

/-- Only the state of the generator differs. -/
def RngOnly (p p' : Particle) : Prop :=
  ∃ r, (Rng.Valid p.rng → Rng.Valid r) ∧ p' = { p with rng := r }

theorem RngOnly.refl (p : Particle) : RngOnly p p := ⟨p.rng, id, rfl⟩

theorem RngOnly.trans {p p' p'' : Particle} (h : RngOnly p p') (h' : RngOnly p' p'') :
    RngOnly p p'' := by
  obtain ⟨r, hr, rfl⟩ := h
  obtain ⟨r', hr', rfl⟩ := h'
  exact ⟨r', fun h => hr' (hr h), rfl⟩

theorem RngOnly.sample (p : Particle) : RngOnly p p.sample.2 :=
  ⟨_, fun h => Rng.valid_canonical h, rfl⟩

/-- A collision keeps the position, the cell, the surface, the type and the accumulated effects
of a particle, and only appends secondaries, which are neutrons born at the position and in the
cell of the particle. -/
structure Keeps (p p' : Particle) : Prop where
  position : p'.position = p.position
  cell : p'.cell = p.cell
  surface : p'.currentSurface = p.currentSurface
  type : p'.type = p.type
  effects : p'.indirectEffects = p.indirectEffects
  secondaries : ∃ new, p'.secondaries = p.secondaries ++ new ∧
    ∀ b ∈ new, b.position = p.position ∧ b.cell = p.cell ∧ b.type = .neutron ∧
      (Physical p → Spec.UnitVec b.direction)
  physical : Physical p → Physical p'

/-- The common case: no secondaries are banked. -/
theorem Keeps.plain {p p' : Particle} (h1 : p'.position = p.position) (h2 : p'.cell = p.cell)
    (h3 : p'.currentSurface = p.currentSurface) (h4 : p'.type = p.type)
    (h5 : p'.indirectEffects = p.indirectEffects) (h6 : p'.secondaries = p.secondaries)
    (h7 : Physical p → Physical p') : Keeps p p' :=
  ⟨h1, h2, h3, h4, h5, ⟨[], by rw [h6, List.append_nil], by simp⟩, h7⟩

theorem Keeps.refl (p : Particle) : Keeps p p := Keeps.plain rfl rfl rfl rfl rfl rfl id

theorem Keeps.trans {p p' p'' : Particle} (h : Keeps p p') (h' : Keeps p' p'') : Keeps p p'' := by
  obtain ⟨n, hn, hb⟩ := h.secondaries
  obtain ⟨n', hn', hb'⟩ := h'.secondaries
  refine ⟨h'.position.trans h.position, h'.cell.trans h.cell, h'.surface.trans h.surface,
    h'.type.trans h.type, h'.effects.trans h.effects,
    ⟨n ++ n', by rw [hn', hn, List.append_assoc], ?_⟩, fun hp => h'.physical (h.physical hp)⟩
  intro b hbm
  rcases List.mem_append.1 hbm with hbm | hbm
  · exact hb b hbm
  · obtain ⟨b1, b2, b3, b4⟩ := hb' b hbm
    exact ⟨b1.trans h.position, b2.trans h.cell, b3, fun hp => b4 (h.physical hp)⟩

theorem RngOnly.keeps {p p' : Particle} (h : RngOnly p p') : Keeps p p' := by
  obtain ⟨r, hr, rfl⟩ := h
  exact Keeps.plain rfl rfl rfl rfl rfl rfl (fun h => ⟨hr h.rng, h.direction⟩)

theorem Keeps.bankIsotropic (p : Particle) (e : Energy) :
    Keeps p ({ p with rng := (Direction.isotropic p.rng).2 }.bankSecondary
      (Direction.isotropic p.rng).1 e) := by
  refine ⟨rfl, rfl, rfl, rfl, rfl, ⟨[_], rfl, ?_⟩, fun h => ⟨?_, h.direction⟩⟩
  · intro b hb
    rw [List.mem_singleton.1 hb]
    exact ⟨rfl, rfl, rfl, fun h => isotropic_unit h.rng⟩
  · exact Rng.valid_next (isotropic_valid h.rng)

theorem Keeps.withEvent (p : Particle) (ev : Event) : Keeps p { p with event := ev } :=
  Keeps.plain rfl rfl rfl rfl rfl rfl (fun h => ⟨h.rng, h.direction⟩)

theorem Particle.scatter_keeps {p p' : Particle} {mu : ℝ} {e : Energy}
    (h : p.scatter mu e = .ok p') : Keeps p p' ∧ p'.event = p.event := by
  unfold Particle.scatter at h
  simp only [res_bind_ok, Except.ok.injEq] at h
  obtain ⟨d, hd, rfl⟩ := h
  exact ⟨Keeps.plain rfl rfl rfl rfl rfl rfl
    (fun h => ⟨Rng.valid_canonical h.rng, rotated_unit hd⟩), rfl⟩

/-! ## Multigroup -/

theorem Multigroup.bankLoop_keeps {G : ℕ} {c : List ℝ} : ∀ {n : ℕ} {p p' : Particle},
    Multigroup.bankLoop G c n p = .ok p' → Keeps p p' ∧ p'.event = p.event
  | 0, p, p', h => by
    simp only [Multigroup.bankLoop, Except.ok.injEq] at h
    subst h
    exact ⟨Keeps.refl p, rfl⟩
  | n + 1, p, p', h => by
    simp only [Multigroup.bankLoop, res_bind_ok] at h
    obtain ⟨o, _, h⟩ := h
    rcases o with _ | g
    · obtain ⟨h1, h2⟩ := Multigroup.bankLoop_keeps h
      exact ⟨(RngOnly.sample p).keeps.trans h1, h2⟩
    · obtain ⟨h1, h2⟩ := Multigroup.bankLoop_keeps h
      exact ⟨((RngOnly.sample p).keeps.trans (Keeps.bankIsotropic p.sample.2 _)).trans h1, h2⟩

theorem Multigroup.interact_keeps {m : Multigroup} {p p' : Particle}
    (h : m.interact p = .ok p') : Keeps p p' ∧
      (p'.event = .capture ∨ p'.event = .scatter ∨ p'.event = .fission) := by
  unfold Multigroup.interact at h
  rw [noexcept_eq_ok] at h
  simp only [res_bind_ok] at h
  obtain ⟨_, _, o, _, h⟩ := h
  rcases o with _ | ⟨r, l⟩
  · cases h
  · have h0 : Keeps p p.sample.2 := (RngOnly.sample p).keeps
    cases r
    · simp only [Except.ok.injEq] at h
      subst h
      exact ⟨h0.trans (Keeps.withEvent _ .capture), Or.inl rfl⟩
    · dsimp only at h
      unfold Multigroup.scatter at h
      rw [noexcept_eq_ok] at h
      simp only [res_bind_ok] at h
      obtain ⟨_, _, _, _, _, _, o, _, h⟩ := h
      rcases o with _ | g
      · cases h
      · simp only [Except.ok.injEq] at h
        subst h
        exact ⟨h0.trans (Keeps.plain rfl rfl rfl rfl rfl rfl (fun h =>
          ⟨isotropic_valid (Rng.valid_canonical h.rng),
            isotropic_unit (Rng.valid_canonical h.rng)⟩)), Or.inr (Or.inl rfl)⟩
    · dsimp only at h
      unfold Multigroup.fission at h
      rw [noexcept_eq_ok] at h
      simp only [res_bind_ok] at h
      obtain ⟨_, _, _, _, _, _, _, _, _, _, _, _, h⟩ := h
      obtain ⟨h1, h2⟩ := Multigroup.bankLoop_keeps h
      exact ⟨h0.trans (((Keeps.withEvent _ .fission).trans (RngOnly.sample _).keeps).trans h1),
        Or.inr (Or.inr h2)⟩

/-! ## Continuous energy -/

theorem ContinuousReaction.bankLoop_keeps : ∀ (n : ℕ) (p : Particle),
    Keeps p (ContinuousReaction.bankLoop n p) ∧
      (ContinuousReaction.bankLoop n p).event = p.event
  | 0, p => ⟨Keeps.refl p, rfl⟩
  | n + 1, p => by
    unfold ContinuousReaction.bankLoop
    obtain ⟨h1, h2⟩ := ContinuousReaction.bankLoop_keeps n
      ({ p with rng := (Direction.isotropic p.rng).2 }.bankSecondary
        (Direction.isotropic p.rng).1 p.energy)
    exact ⟨(Keeps.bankIsotropic p p.energy).trans h1, h2⟩

theorem ThermalScattering.betaLoop_rng {s : ThermalScattering} {P : Partition} {row : ℕ}
    {eS e t : ℝ} : ∀ {n : ℕ} {p p' : Particle} {b : ℝ},
    s.betaLoop P row eS e t n p = .ok (b, p') → RngOnly p p'
  | 0, _, _, _, h => by cases h
  | n + 1, p, p', b, h => by
    unfold ThermalScattering.betaLoop at h
    dsimp only at h
    split at h
    · cases h
    · simp only [res_bind_ok] at h
      obtain ⟨_, _, h⟩ := h
      split at h
      · simp only [Except.ok.injEq, Prod.mk.injEq] at h
        rw [← h.2]
        exact RngOnly.sample p
      · exact (RngOnly.sample p).trans (ThermalScattering.betaLoop_rng h)

theorem ThermalScattering.alphaLoop_rng {s : ThermalScattering} {P : Partition} {row : ℕ}
    {b bsMin bsMax fMin fMax e t : ℝ} : ∀ {n : ℕ} {p p' : Particle} {a : ℝ},
    s.alphaLoop P row b bsMin bsMax fMin fMax e t n p = .ok (a, p') → RngOnly p p'
  | 0, _, _, _, h => by cases h
  | n + 1, p, p', b, h => by
    unfold ThermalScattering.alphaLoop at h
    dsimp only at h
    simp only [res_bind_ok] at h
    obtain ⟨_, _, h⟩ := h
    split at h
    · simp only [res_bind_ok, Except.ok.injEq, Prod.mk.injEq] at h
      obtain ⟨_, _, _, _, _, h⟩ := h
      rw [← h]
      exact RngOnly.sample p
    · exact (RngOnly.sample p).trans (ThermalScattering.alphaLoop_rng h)

theorem ThermalScattering.sampleBeta_rng {s : ThermalScattering} {p p' : Particle} {e t b : ℝ}
    (h : s.sampleBeta p e t = .ok (b, p')) : RngOnly p p' := by
  unfold ThermalScattering.sampleBeta at h
  simp only [res_bind_ok] at h
  obtain ⟨_, _, _, _, ⟨_, _⟩, _, _, _, h⟩ := h
  exact (RngOnly.sample p).trans (ThermalScattering.betaLoop_rng h)

theorem ThermalScattering.sampleAlpha_rng {s : ThermalScattering} {p p' : Particle} {b e t a : ℝ}
    (h : s.sampleAlpha p b e t = .ok (a, p')) : RngOnly p p' := by
  unfold ThermalScattering.sampleAlpha at h
  simp only [res_bind_ok] at h
  obtain ⟨_, _, _, _, _, _, _, _, h⟩ := h
  split at h
  · cases h
  · simp only [res_bind_ok] at h
    obtain ⟨⟨_, _⟩, _, _, _, _, _, _, _, h⟩ := h
    exact (RngOnly.sample p).trans (ThermalScattering.alphaLoop_rng h)

theorem ThermalScattering.sampleOutgoing_rng {s : ThermalScattering} {p p' : Particle}
    {mu e' : ℝ} (h : s.sampleOutgoing p = .ok (mu, e', p')) : RngOnly p p' := by
  unfold ThermalScattering.sampleOutgoing at h
  simp only [res_bind_ok] at h
  obtain ⟨_, _, _, _, ⟨_, p₁⟩, h1, ⟨_, p₂⟩, h2, _, _, h⟩ := h
  simp only [Except.ok.injEq, Prod.mk.injEq] at h
  rw [← h.2.2]
  exact (ThermalScattering.sampleBeta_rng h1).trans (ThermalScattering.sampleAlpha_rng h2)

theorem ThermalScattering.scatter_keeps {s : ThermalScattering} {p p' : Particle}
    (h : s.scatter p = .ok p') : Keeps p p' ∧ p'.event = p.event := by
  unfold ThermalScattering.scatter at h
  simp only [res_bind_ok] at h
  obtain ⟨⟨_, _, p₁⟩, h1, h⟩ := h
  have hr := ThermalScattering.sampleOutgoing_rng h1
  obtain ⟨h2, h3⟩ := Particle.scatter_keeps h
  refine ⟨hr.keeps.trans h2, ?_⟩
  rw [h3]
  obtain ⟨r, _, rfl⟩ := hr
  rfl

theorem FreeGas.candidate_rng (y : ℝ) (p : Particle) :
    RngOnly p (FreeGas.candidate y p).2.2 := by
  have h4 := (RngOnly.sample p).trans ((RngOnly.sample _).trans ((RngOnly.sample _).trans
    (RngOnly.sample _)))
  unfold FreeGas.candidate
  dsimp only
  split
  · exact h4
  · exact h4.trans (RngOnly.sample _)

theorem FreeGas.targetLoop_rng {y : ℝ} : ∀ {n : ℕ} {p p' : Particle} {x mu : ℝ},
    FreeGas.targetLoop y n p = .ok (x, mu, p') → RngOnly p p'
  | 0, _, _, _, _, h => by cases h
  | n + 1, p, p', x, mu, h => by
    unfold FreeGas.targetLoop at h
    dsimp only at h
    have h0 := (FreeGas.candidate_rng y p).trans (RngOnly.sample _)
    split at h
    · exact h0.trans (FreeGas.targetLoop_rng h)
    · simp only [Except.ok.injEq, Prod.mk.injEq] at h
      rw [← h.2.2]
      exact h0

theorem FreeGas.sampleTarget_rng {fuel : ℕ} {awr e t x mu : ℝ} {p p' : Particle}
    (h : FreeGas.sampleTarget fuel awr e t p = .ok (x, mu, p')) : RngOnly p p' := by
  unfold FreeGas.sampleTarget at h
  by_cases ht : t = 0
  · rw [if_pos ht] at h
    simp only [Except.ok.injEq, Prod.mk.injEq] at h
    rw [← h.2.2]
    exact (RngOnly.sample p).trans ((RngOnly.sample _).trans ((RngOnly.sample _).trans
      ((RngOnly.sample _).trans ((RngOnly.sample _).trans (RngOnly.sample _)))))
  · rw [if_neg ht] at h
    simp only [res_bind_ok] at h
    obtain ⟨⟨y, mu', p₂⟩, h2, h1⟩ := h
    split at h1
    · cases h1
    · simp only [Except.ok.injEq, Prod.mk.injEq] at h1
      rw [← h1.2.2]
      exact FreeGas.targetLoop_rng h2

theorem FreeGas.collideWith_keeps {awr e s mu : ℝ} {p p' : Particle}
    (h : FreeGas.collideWith awr e s mu p = .ok p') : Keeps p p' ∧ p'.event = p.event := by
  unfold FreeGas.collideWith at h
  simp only [res_bind_ok] at h
  obtain ⟨dT, _, v', _, d', _, h⟩ := h
  have hr := (RngOnly.sample p).trans ((RngOnly.sample _).trans (RngOnly.sample _))
  obtain ⟨h2, h3⟩ := Particle.scatter_keeps h
  exact ⟨hr.keeps.trans h2, h3⟩

theorem FreeGas.interact_keeps {fuel : ℕ} {awr : ℝ} {p p' : Particle}
    (h : FreeGas.interact fuel awr p = .ok p') : Keeps p p' ∧ p'.event = p.event := by
  unfold FreeGas.interact at h
  simp only [res_bind_ok] at h
  obtain ⟨e, _, t, _, h⟩ := h
  split at h
  · cases h
  · simp only [res_bind_ok] at h
    obtain ⟨⟨s, mu, p₁⟩, h1, h⟩ := h
    have hr := FreeGas.sampleTarget_rng h1
    obtain ⟨h2, h3⟩ := FreeGas.collideWith_keeps h
    refine ⟨hr.keeps.trans h2, ?_⟩
    rw [h3]
    obtain ⟨r, _, rfl⟩ := hr
    rfl

theorem ContinuousReaction.interact_keeps {fuel : ℕ} {r : ContinuousReaction} {p p' : Particle}
    (h : r.interact fuel p = .ok p') : Keeps p p' ∧
      (p'.event = .capture ∨ p'.event = .scatter ∨ p'.event = .fission) := by
  unfold ContinuousReaction.interact at h
  rw [noexcept_eq_ok] at h
  rcases r with ev | ⟨ev, tsl, awr⟩ | ⟨ev, nubar⟩
  · simp only [Except.ok.injEq] at h
    subst h
    exact ⟨Keeps.withEvent p .capture, Or.inl rfl⟩
  · dsimp only at h
    unfold ContinuousReaction.scatterInteract at h
    have h0 : Keeps p { p with event := .scatter } := Keeps.withEvent p .scatter
    rcases tsl with _ | s
    · obtain ⟨h1, h2⟩ := FreeGas.interact_keeps h
      exact ⟨h0.trans h1, Or.inr (Or.inl h2)⟩
    · simp only [res_bind_ok] at h
      obtain ⟨b, _, h⟩ := h
      split at h
      · obtain ⟨h1, h2⟩ := ThermalScattering.scatter_keeps h
        exact ⟨h0.trans h1, Or.inr (Or.inl h2)⟩
      · obtain ⟨h1, h2⟩ := FreeGas.interact_keeps h
        exact ⟨h0.trans h1, Or.inr (Or.inl h2)⟩
  · dsimp only at h
    unfold ContinuousReaction.fissionInteract at h
    simp only [res_bind_ok, Except.ok.injEq] at h
    obtain ⟨_, _, _, _, _, _, _, _, rfl⟩ := h
    obtain ⟨h1, h2⟩ := ContinuousReaction.bankLoop_keeps _ _
    have h0 : Keeps p ({ p with event := .fission } : Particle).sample.2 :=
      (Keeps.withEvent p .fission).trans (RngOnly.sample _).keeps
    exact ⟨h0.trans h1, Or.inr (Or.inr h2)⟩

theorem Continuous.interactLoop_keeps {c : Continuous} {fuel : ℕ} : ∀ {n : ℕ} {p p' : Particle},
    c.interactLoop fuel n p = .ok p' → Keeps p p' ∧
      (p'.event = .capture ∨ p'.event = .scatter ∨ p'.event = .fission)
  | 0, _, _, h => by cases h
  | n + 1, p, p', h => by
    unfold Continuous.interactLoop at h
    simp only [res_bind_ok] at h
    obtain ⟨_, _, o, _, h⟩ := h
    rcases o with _ | r
    · obtain ⟨h1, h2⟩ := Continuous.interactLoop_keeps h
      exact ⟨(RngOnly.sample p).keeps.trans h1, h2⟩
    · obtain ⟨h1, h2⟩ := ContinuousReaction.interact_keeps h
      exact ⟨(RngOnly.sample p).keeps.trans h1, h2⟩

theorem Nuclide.interact_keeps {n : Nuclide} {fuel : ℕ} {p p' : Particle}
    (h : n.interact fuel p = .ok p') : Keeps p p' ∧
      (p'.event = .capture ∨ p'.event = .scatter ∨ p'.event = .fission) := by
  unfold Nuclide.interact at h
  rw [noexcept_eq_ok] at h
  simp only [res_bind_ok] at h
  obtain ⟨i, _, h⟩ := h
  rcases i with m | c
  · exact Multigroup.interact_keeps h
  · unfold Interaction.interact Continuous.interact at h
    dsimp only at h
    rw [noexcept_eq_ok] at h
    exact Continuous.interactLoop_keeps h

end Minimc
