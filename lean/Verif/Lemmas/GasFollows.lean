import Verif.Lemmas.GasLimit
import Verif.Lemmas.ChainFollows
import Verif.Props.Equilibrium
import Verif.Props.ContinuousSafety

/-! # The program plays the game in gases -/

namespace Minimc

open Classical Spec Props
open scoped ENNReal

/-! ### Data -/

section Data

variable {data : Nuclide → Continuous} {w : World} {c : Cell} {m : Material} {x : Nuclide × ℝ}
  {p : Particle} {e : ℝ}

theorem gas_temperature (hw : GasWorld data w) (hc : c ∈ w.cells) (hm : c.material = some m)
    (hpc : p.cell = some c) : p.temperatureAt = .ok (heat c) ∧ p.temperatureUpper = .ok (heat c) := by
  obtain ⟨h1, h2⟩ := temperature_in hpc
  refine ⟨?_, h2⟩
  rw [h1, (hw.temperature hc hm).2]
  rfl

theorem gas_reaction (hw : GasWorld data w) (hc : c ∈ w.cells) (hm : c.material = some m)
    (hx : x ∈ m.afracs) (hpc : p.cell = some c) (hty : p.type = .neutron) (he : p.energy = .continuous e)
    (he0 : 0 < e) {r : ContinuousReaction} (hr : r ∈ (data x.1).reactions) :
    r.getCrossSection p = .ok (reactionXS (heat c) e r) ∧
      r.getMajorant p = .ok (reactionXS (heat c) e r) ∧ r.modifiesTotal p = .ok false := by
  obtain ⟨ht, hT⟩ := gas_temperature hw hc hm hpc
  obtain ⟨hs, hv, hv0, -, -, -⟩ := hw.reaction hc hm hx hr he0
  have ht0 := (hw.temperature hc hm).1
  cases r with
  | capture ev =>
    refine ⟨?_, ?_, rfl⟩ <;>
    · unfold ContinuousReaction.evaluation at hv
      first
      | unfold ContinuousReaction.getCrossSection
      | unfold ContinuousReaction.getMajorant
      unfold ContinuousReaction.tabulated
      rw [he]
      simp only [Energy.getContinuous, bind, Except.bind, hv, noexcept_ok, reactionXS]
  | fission ev nu =>
    refine ⟨?_, ?_, rfl⟩ <;>
    · unfold ContinuousReaction.evaluation at hv
      first
      | unfold ContinuousReaction.getCrossSection
      | unfold ContinuousReaction.getMajorant
      unfold ContinuousReaction.tabulated
      rw [he]
      simp only [Energy.getContinuous, bind, Except.bind, hv, noexcept_ok, reactionXS]
  | scatter ev tsl awr =>
    obtain ⟨rfl, ha⟩ := hs.scatter ev tsl awr rfl
    have hev : 0 ≤ ev.temperature := hs.temperature
    have e1 := scatterXSAt_eq he he0 ha ht0.le hev hv
    rw [reactionXS_scatter ha he0 ht0 hev hty]
    refine ⟨?_, ?_, rfl⟩
    · unfold ContinuousReaction.getCrossSection
      simp only [ht, bind, Except.bind, e1, noexcept_ok]
      rfl
    · unfold ContinuousReaction.getMajorant
      simp only [hT, bind, Except.bind, e1, noexcept_ok]
      rfl

theorem gas_total (hw : GasWorld data w) (hc : c ∈ w.cells) (hm : c.material = some m)
    (hx : x ∈ m.afracs) (hpc : p.cell = some c) (hty : p.type = .neutron) (he : p.energy = .continuous e)
    (he0 : 0 < e) :
    (data x.1).getTotal p = .ok (nuclideXS (data x.1) (heat c) e) ∧
      (data x.1).getMajorant p = .ok (nuclideXS (data x.1) (heat c) e) := by
  obtain ⟨ht, hT⟩ := gas_temperature hw hc hm hpc
  have ht0 := (hw.temperature hc hm).1
  have hr := fun r hr => gas_reaction hw hc hm hx hpc hty he he0 (r := r) hr
  have hd := (hw.nuclide hc hm hx).2
  have hany := anyModifies_eq (p := p) (m := fun _ => false) (rs := (data x.1).reactions)
    (fun r h => (hr r h).2.2)
  rw [show (data x.1).reactions.any (fun _ => false) = false by simp] at hany
  have hsa := sumLoop_ok (f := fun r => ContinuousReaction.getCrossSection r p)
    (w := reactionXS (heat c) e) (acc := 0) (xs := (data x.1).reactions) (fun r h => (hr r h).1)
  have hsb := sumLoop_ok (f := fun r => ContinuousReaction.getMajorant r p)
    (w := reactionXS (heat c) e) (acc := 0) (xs := (data x.1).reactions) (fun r h => (hr r h).2.1)
  rw [zero_add] at hsa hsb
  have htab : ContinuousReaction.tabulated (data x.1).total p =
      .ok ((data x.1).reactions.map fun r => tabled r.evaluation.xs e).sum := by
    unfold ContinuousReaction.tabulated
    rw [he]
    exact hd.total e he0 _ fun r h => (hw.reaction hc hm hx h he0).2.1
  have hvalid : (data x.1).total.isValid (heat c) = true →
      ((data x.1).reactions.map fun r => tabled r.evaluation.xs e).sum =
        nuclideXS (data x.1) (heat c) e := by
    intro hv
    unfold nuclideXS
    congr 1
    refine List.map_congr_left fun r h => ?_
    cases r with
    | capture ev => rfl
    | fission ev nu => rfl
    | scatter ev tsl A =>
      have h1 : ¬ 1.01 * (data x.1).total.temperature ≤ heat c := by
        rw [← isValid_false_iff hd.temperature ht0, hv]
        simp
      have h2 : (data x.1).total.temperature ≤ ev.temperature := (hw.tables c hc m hm x hx _ h).2.1
      have e0 : reactionXS (heat c) e (.scatter ev tsl A) =
          if 1.01 * ev.temperature ≤ heat c ∧ (A ≤ 1 ∨ e < 500 * boltzmannMeV * heat c / A) then
            tabled ev.xs e * (meetingSpeed A (heat c) e / meetingSpeed A ev.temperature e)
          else tabled ev.xs e := rfl
      rw [e0, if_neg fun h' => h1 (by linarith [h'.1])]
      rfl
  constructor
  · unfold Continuous.getTotal
    simp only [ht, bind, Except.bind, hany]
    rw [hsa, htab]
    cases hv : (data x.1).total.isValid (heat c)
    · rfl
    · rw [hvalid hv]
      rfl
  · unfold Continuous.getMajorant
    simp only [hT, bind, Except.bind, hany]
    rw [hsb, htab]
    cases hv : (data x.1).total.isValid (heat c)
    · rfl
    · rw [hvalid hv]
      rfl

theorem gas_nuclide (hw : GasWorld data w) (hc : c ∈ w.cells) (hm : c.material = some m)
    (hx : x ∈ m.afracs) (hpc : p.cell = some c) (hty : p.type = .neutron) (he : p.energy = .continuous e)
    (he0 : 0 < e) :
    x.1.getTotal p = .ok (nuclideXS (data x.1) (heat c) e) ∧
      x.1.getMajorant p = .ok (nuclideXS (data x.1) (heat c) e) := by
  obtain ⟨h1, h2⟩ := gas_total hw hc hm hx hpc hty he he0
  constructor
  · unfold Nuclide.getTotal Nuclide.xsAt
    rw [hty, hw.supplied c hc m hm x hx]
    simp only [bind, Except.bind, Interaction.getTotal, h1, noexcept_ok]
  · unfold Nuclide.getMajorant Nuclide.xsAt
    rw [hty, hw.supplied c hc m hm x hx]
    simp only [bind, Except.bind, Interaction.getMajorant, h2, noexcept_ok]

theorem gas_material (hw : GasWorld data w) (hc : c ∈ w.cells) (hm : c.material = some m)
    (hpc : p.cell = some c) (hty : p.type = .neutron) (he : p.energy = .continuous e) (he0 : 0 < e) :
    m.getMicroscopicTotal p =
        .ok (m.afracs.map fun x => x.2 * nuclideXS (data x.1) (heat c) e).sum ∧
      m.getMicroscopicMajorant p =
        .ok (m.afracs.map fun x => x.2 * nuclideXS (data x.1) (heat c) e).sum ∧
      ∀ method, collisionDensity method p =
        .ok (m.afracs.map fun x => x.2 * nuclideXS (data x.1) (heat c) e).sum := by
  have h := fun x hx => gas_nuclide hw hc hm (x := x) hx hpc hty he he0
  have h1 := (C23_weighted_mean m p fun n => nuclideXS (data n) (heat c) e).1 fun x hx => (h x hx).1
  have h2 := (C23_weighted_mean m p fun n => nuclideXS (data n) (heat c) e).2 fun x hx => (h x hx).2
  refine ⟨h1, h2, fun method => ?_⟩
  unfold collisionDensity Particle.getCell
  rw [hpc]
  simp only [bind, Except.bind, hm]
  cases method
  · simp only [h1]; rfl
  · simp only [h2]; rfl

end Data

/-! ### Collisions -/

theorem iSup_gasScattered {σ : Type} (S : Supply σ) (a b : Direction → Direction) (A β : ℝ)
    (d : Direction) (speed : ℝ) (next : Direction → ℝ → σ → ℝ≥0∞) (s : σ) :
    ⨆ n, gasScattered S a b A β d speed next n s =
      ⨆ n, gasScattered S a b A β d speed next (n + 1) s :=
  ((gasScattered_monotone S A β d speed next s).iSup_nat_add 1).symm

/-- The rejection loop and the collision that follows it are those of the game. -/
theorem loop_scattered {A e β : ℝ} (hA : 0 < A) (hβ : 0 < β) {p' : Particle} :
    ∀ {n : ℕ} {p : Particle} (_ : Rng.Valid p.rng) (_ : UnitVec p.direction)
      (_ : (FreeGas.targetLoop (β * speedOf neutronMass e) n p).bind
        (fun z => FreeGas.collideWith A e (z.1 / β) z.2.1 z.2.2) = .ok p'),
      ∃ d' e' g', p' = { p with direction := d', energy := .continuous e', rng := g' } ∧ Rng.Valid g' ∧
        ∀ next, ⨆ n, gasScattered generator sideAxis upAxis A β
          p.direction (speedOf neutronMass e) next n p.rng = next d' e' g'
  | 0, p, _, _, h => by cases h
  | n + 1, p, hr, hd, h => by
    have hc := C43_candidate hr (candidate_eq (β * speedOf neutronMass e) p)
    have hnn : generator.numbers p.rng = roundNumber p := funext fun k => generator_numbers p.rng k
    have hgs : ∀ next : Direction → ℝ → ℕ → ℝ≥0∞, ⨆ n, gasScattered generator sideAxis upAxis A β
        p.direction (speedOf neutronMass e) next n p.rng =
        ⨆ n, gasScattered generator sideAxis upAxis A β
          p.direction (speedOf neutronMass e) next (n + 1) p.rng :=
      fun next => iSup_gasScattered _ _ _ _ _ _ _ _ _
    simp only [gasScattered, hnn] at hgs
    rw [FreeGas.targetLoop, candidate_eq] at h
    generalize proposal (β * speedOf neutronMass e) (roundNumber p) = q at hc h hgs
    obtain ⟨x, μ, k⟩ := q
    obtain ⟨hx, hμ1, hμ2, hvk, _⟩ := hc
    simp only at hx hμ1 hμ2 hvk hgs
    have hrn : (Rng.canonical (Rng.next^[2 * k] p.rng)).2 = Rng.next^[2 * (k + 1)] p.rng := by
      rw [show 2 * (k + 1) = 2 + 2 * k by ring, Function.iterate_add_apply]
      rfl
    have h2 : (Particle.sample { p with rng := Rng.next^[2 * k] p.rng }).2 =
        { p with rng := Rng.next^[2 * (k + 1)] p.rng } := by
      unfold Particle.sample
      simp only [hrn]
    have hvn : Rng.Valid (Rng.next^[2 * (k + 1)] p.rng) := hrn ▸ Rng.valid_canonical hvk
    by_cases hacc : roundNumber p k < relativeSpeed (β * speedOf neutronMass e) x μ /
        (x + β * speedOf neutronMass e)
    · have h1 : ¬(Particle.sample { p with rng := Rng.next^[2 * k] p.rng }).1 ≥
          FreeGas.acceptProb x (β * speedOf neutronMass e) μ := by
        rw [acceptProb_eq]; exact not_le.2 hacc
      simp only [if_neg h1, h2] at h
      simp only [if_pos hacc, generator_rest, ciSup_const] at hgs
      have hrel : relativeSpeed (speedOf neutronMass e) (x / β) μ ≠ 0 := by
        have h0 : 0 ≤ roundNumber p k := (Rng.canonical_pos hvk).le
        have h3 : relativeSpeed (β * speedOf neutronMass e) x μ ≠ 0 := by
          intro h4
          rw [h4, zero_div] at hacc
          linarith
        have h5 : relativeSpeed (β * speedOf neutronMass e) x μ =
            β * relativeSpeed (speedOf neutronMass e) (x / β) μ := by
          unfold relativeSpeed
          rw [← Real.sqrt_sq hβ.le, ← Real.sqrt_mul (by positivity), Real.sqrt_sq hβ.le]
          congr 1
          field_simp
        intro h6
        exact h3 (by rw [h5, h6, mul_zero])
      change FreeGas.collideWith A e (x / β) μ { p with rng := Rng.next^[2 * (k + 1)] p.rng } =
        .ok p' at h
      rw [collideWith_departure (p := { p with rng := Rng.next^[2 * (k + 1)] p.rng }) hA hvn hd hμ1.le
        hμ2.le hrel] at h
      have hnum : roundNumber { p with rng := Rng.next^[2 * (k + 1)] p.rng } =
          generator.numbers (Rng.next^[2 * (k + 1)] p.rng) :=
        (funext fun k => generator_numbers _ k).symm
      rw [hnum] at h
      dsimp only at h
      generalize departure sideAxis upAxis A neutronMass p.direction (speedOf neutronMass e) (x / β) μ
        (generator.numbers (Rng.next^[2 * (k + 1)] p.rng)) = z at h hgs
      by_cases h7 : z.2 = 0
      · rw [if_pos h7] at h
        cases h
      · rw [if_neg h7] at h
        cases h
        refine ⟨z.1, z.2, _, rfl, Rng.valid_iterate hvn _, fun next => ?_⟩
        rw [hgs, if_neg h7, ← Function.iterate_add_apply, show 2 * 4 + 2 * (k + 1) = 2 * (k + 5) by ring]
    · have h1 : (Particle.sample { p with rng := Rng.next^[2 * k] p.rng }).1 ≥
          FreeGas.acceptProb x (β * speedOf neutronMass e) μ := by
        rw [acceptProb_eq]; exact not_lt.1 hacc
      simp only [if_pos h1, h2] at h
      simp only [if_neg hacc, generator_rest] at hgs
      obtain ⟨d', e', g', r1, r2, r3⟩ := loop_scattered hA hβ (n := n)
        (p := { p with rng := Rng.next^[2 * (k + 1)] p.rng }) hvn hd h
      exact ⟨d', e', g', r1, r2, fun next => (hgs next).trans (r3 next)⟩

/-- What a new particle scores if `start` is what a new neutron scores. -/
noncomputable def gasBornScore (start : Direction → ℝ → ℕ → ℝ≥0∞) (e : ℝ) (b : Born) : ℝ≥0∞ :=
  start b.direction e (Rng.ofSeed b.seed)

/-- New neutrons at a place. -/
def GasBornAt (x : Point) (e : ℝ) (b : Born) : Prop :=
  b.position = x ∧ b.type = .neutron ∧ b.energy = .continuous e ∧ UnitVec b.direction

/-- The loop that banks neutrons banks those of the game. -/
theorem bankLoop_gasBirths (k : ℕ) (p : Particle) {e : ℝ} (he : p.energy = .continuous e)
    (hr : Rng.Valid p.rng) :
    ∃ new, (ContinuousReaction.bankLoop k p).secondaries = p.secondaries ++ new ∧
      (∀ b ∈ new, GasBornAt p.position e b) ∧
      ∀ start : Direction → ℝ → ℕ → ℝ≥0∞, gasBirths generator (fun d => start d e) k p.rng =
        (new.map (gasBornScore start e)).sum := by
  induction k generalizing p with
  | zero => exact ⟨[], by simp [ContinuousReaction.bankLoop], by simp, fun start => by simp [gasBirths]⟩
  | succ k ih =>
    obtain ⟨new, e2, e3, e4⟩ := ih (({ p with rng := (Direction.isotropic p.rng).2 } : Particle).bankSecondary
        (Direction.isotropic p.rng).1 p.energy) he (Rng.valid_iterate hr 5)
    refine ⟨⟨p.position, (Direction.isotropic p.rng).1, p.energy, .neutron,
      Rng.next (Direction.isotropic p.rng).2, p.cell⟩ :: new, ?_, ?_, fun start => ?_⟩
    · rw [ContinuousReaction.bankLoop]
      refine e2.trans ?_
      simp [Particle.bankSecondary]
    · intro b hb
      rcases List.mem_cons.1 hb with rfl | hb
      · exact ⟨rfl, rfl, he, (isotropic_unit hr)⟩
      · exact e3 b hb
    · rw [gasBirths, List.map_cons, List.sum_cons, ← e4, generator_numbers, generator_numbers]
      have hd : directionFrom (drawn p.rng 0) (drawn p.rng 1) = (Direction.isotropic p.rng).1 := by
        rw [isotropic_eq]
        rfl
      rw [hd]
      rfl

/-- A collision where the temperature is positive is made by the rejection loop. -/
theorem freeGas_bind {fuel : ℕ} {A t e : ℝ} {p : Particle} (hA : 0 < A) (ht : 0 < t)
    (he : p.energy = .continuous e) (he0 : 0 < e) (hta : p.temperatureAt = .ok t) :
    FreeGas.interact fuel A p =
      (FreeGas.targetLoop (slowness (A * neutronMass) t * speedOf neutronMass e) fuel p).bind (fun z =>
        FreeGas.collideWith A e (z.1 / slowness (A * neutronMass) t) z.2.1 z.2.2) := by
  have hβ : 0 < slowness (A * neutronMass) t := slowness_pos (mul_pos hA neutronMass_pos) ht
  unfold FreeGas.interact
  rw [hta, he]
  simp only [Energy.getContinuous, bind, Except.bind]
  rw [if_neg (by push Not; exact ⟨he0.le, ht.le, hA.le⟩)]
  unfold FreeGas.sampleTarget
  rw [if_neg ht.ne', show FreeGas.betaOf A t = slowness (A * neutronMass) t from rfl,
    show FreeGas.neutronSpeed e = speedOf neutronMass e from rfl]
  simp only [if_neg hβ.ne', bind, Except.bind]
  generalize FreeGas.targetLoop _ fuel _ = L
  cases L <;> rfl

/-- A reaction in the program is one in the game. -/
theorem react_gas {fuel : ℕ} {r : ContinuousReaction} (h : SoundReaction r)
    (hf : ∀ ev l, r = .fission ev (some l) → Sorted l) {p p' : Particle} {c : Cell} {e : ℝ}
    (hpc : p.cell = some c) (hct : c.temperature = .constant (heat c)) (ht : 0 < heat c)
    (he : p.energy = .continuous e) (hn : EnergyNeutron p) (hok : r.interact fuel p = .ok p') :
    (Ended p' ∧ p'.energy = .continuous e ∧ ∃ new, p'.secondaries = p.secondaries ++ new ∧
        (∀ b ∈ new, GasBornAt p.position e b) ∧
        ∀ next start, afterReaction generator sideAxis upAxis (heat c) p.direction e next start p.rng r =
          (new.map (gasBornScore start e)).sum) ∨
      p'.secondaries = p.secondaries ∧ ¬ Ended p' ∧ EnergyNeutron p' ∧ ∃ e', p'.energy = .continuous e' ∧
        ∀ next start, afterReaction generator sideAxis upAxis (heat c) p.direction e next start p.rng r =
          next p'.direction e' p'.rng := by
  have hn0 := hn
  obtain ⟨hty, ⟨e1, he1, he0⟩, hr, hu⟩ := hn
  rw [he] at he1
  cases he1
  have hta : p.temperatureAt = .ok (heat c) := by
    rw [(temperature_in hpc).1, hct]
    rfl
  cases r with
  | capture ev =>
    left
    have : p' = { p with event := .capture } := (Except.ok.inj hok).symm
    subst this
    exact ⟨.inl rfl, he, [], by simp, by simp, fun next start => by simp [afterReaction]⟩
  | scatter ev tsl A =>
    right
    obtain ⟨rfl, hA⟩ := h.scatter ev tsl A rfl
    have hm := neutronMass_pos
    have hβ : 0 < slowness (A * neutronMass) (heat c) := slowness_pos (mul_pos hA hm) ht
    have hok' : FreeGas.interact fuel A { p with event := .scatter } = .ok p' := noexcept_eq_ok.1 hok
    rw [freeGas_bind (p := { p with event := .scatter }) hA ht he he0 hta] at hok'
    obtain ⟨d', e', g', k1, k2, k3⟩ := loop_scattered hA hβ (p := { p with event := .scatter }) hr hu hok'
    have hE : Energetic p' ∧ p'.type = p.type ∧ UnitVec p'.direction := by
      have hk := (ContinuousReaction.interact_keeps hok).1
      refine ⟨?_, hk.type, (hk.physical ⟨hr, hu⟩).direction⟩
      rcases sound_react (fuel := fuel) (soundReaction_thermal h) hn0 hta ht.le with
        ⟨q, q1, q2, -⟩ | ⟨-, q1⟩ | ⟨q1, -⟩ | ⟨q1, -⟩ | ⟨q1, -⟩ | ⟨_, _, _, _, q1, -⟩
      · rw [hok] at q1
        cases q1
        exact q2
      · rw [hok] at q1
        cases q1
      · rw [hok] at q1
        cases q1
      · rw [hok] at q1
        cases q1
      · rw [hok] at q1
        cases q1
      · cases q1
    subst k1
    exact ⟨rfl, by simp [Ended], ⟨hE.2.1.trans hty, hE.1, k2, hE.2.2⟩, e', rfl, fun next start => k3 next⟩
  | fission ev nubar =>
    left
    obtain ⟨l, rfl, hl⟩ := h.fission ev nubar rfl
    obtain ⟨hy, hy0⟩ := sound_tabled (hf ev l rfl) hl he0
    have hsz : toSize (tabled l e + (Rng.canonical p.rng).1) =
        .ok ⌊tabled l e + (Rng.canonical p.rng).1⌋₊ := by
      unfold toSize
      rw [if_neg]
      have := Rng.canonical_pos hr
      linarith
    have hok' : ContinuousReaction.interact fuel (.fission ev (some l)) p =
        .ok (ContinuousReaction.bankLoop ⌊tabled l e + (Rng.canonical p.rng).1⌋₊
          { p with event := .fission, rng := (Rng.canonical p.rng).2 }) := by
      unfold ContinuousReaction.interact ContinuousReaction.fissionInteract Multigroup.optValue
      simp only [he, Energy.getContinuous, hy, Particle.sample, hsz, bind, Except.bind, noexcept_ok]
    rw [hok] at hok'
    have hp' := Except.ok.inj hok'
    obtain ⟨new, b1, b2, b3⟩ := bankLoop_gasBirths ⌊tabled l e + (Rng.canonical p.rng).1⌋₊
      { p with event := .fission, rng := (Rng.canonical p.rng).2 } he (Rng.valid_canonical hr)
    rw [← hp'] at b1
    refine ⟨?_, ?_, new, b1, b2, fun next start => ?_⟩
    · refine .inr (.inl ?_)
      rw [hp']
      exact (ContinuousReaction.bankLoop_keeps _ _).2
    · rw [hp']
      exact (bankLoop_energy _ _).1.trans he
    · rw [← b3]
      rfl

/-- A collision in the program is one in the game. -/
theorem collide_gas {data : Nuclide → Continuous} {w : World} (hw : GasWorld data w) {p p' : Particle}
    {e : ℝ} (hn : EnergyNeutron p) (he : p.energy = .continuous e) {c : Cell} (hc : c ∈ w.cells)
    (hpc : p.cell = some c) {m : Material} (hm : c.material = some m) {method : Method} {fuel : ℕ} {t : ℝ}
    (hok : collide method fuel p (t : WithTop ℝ) = .ok p') :
    p'.position = along p.position p.direction t ∧ p'.cell = some c ∧ ¬ CrossedSurface p' ∧
      ((Ended p' ∧ p'.energy = .continuous e ∧ ∃ new, p'.secondaries = p.secondaries ++ new ∧
          (∀ b ∈ new, GasBornAt p'.position e b) ∧
          ∀ next start, afterGas generator sideAxis upAxis data m (heat c) p.direction e next start p.rng =
            (new.map (gasBornScore start e)).sum) ∨
        p'.secondaries = p.secondaries ∧ ¬ Ended p' ∧ EnergyNeutron p' ∧
          ∃ e', p'.energy = .continuous e' ∧
            ∀ next start, afterGas generator sideAxis upAxis data m (heat c) p.direction e next start
              p.rng = next p'.direction e' p'.rng) := by
  have hn0 := hn
  obtain ⟨hty, ⟨e1, he1, he0⟩, hr, hu⟩ := hn
  rw [he] at he1
  cases he1
  have hpos := hw.shares_pos hc hm he0
  have hd := (gas_material hw hc hm hpc hty he he0).2.2 method
  obtain ⟨eff, heff⟩ := effects_ok hpc hm hd hpos.ne' t p.indirectEffects
  have hs : p.stream method (t : WithTop ℝ) = .ok { p with
      indirectEffects := eff
      position := along p.position p.direction t } := by
    change (streamEffects method p t p.indirectEffects >>= fun effects => Except.ok _) = _
    rw [heff]
    simp only [bind, Except.bind, smul_eq_along]
  set p₁ : Particle := { p with
      indirectEffects := eff
      position := along p.position p.direction t } with hp₁
  obtain ⟨i, hi, hiff, hi0, hsel⟩ := C24_selects (p := p₁) (σ := fun n => nuclideXS (data n) (heat c) e)
    hpc hm (fun x hx => (gas_nuclide hw hc hm hx (p := p₁) hpc hty he he0).1)
    (fun x hx => mul_nonneg (hw.nuclide hc hm hx).1.le (hw.nuclideXS_ge hc hm hx he0).1) hr hpos
  have hx := List.getElem_mem hi
  set x := m.afracs[i] with hxi
  obtain ⟨f1, f2⟩ := hw.nuclide hc hm hx
  have hσ : 0 < nuclideXS (data x.1) (heat c) e := by
    by_contra hcon
    have := mul_nonpos_of_nonneg_of_nonpos f1.le (not_lt.1 hcon)
    linarith
  set p₂ : Particle := { p₁ with rng := (Rng.canonical p₁.rng).2 } with hp₂
  have hr₂ : Rng.Valid p₂.rng := Rng.valid_canonical hr
  have hloop : (data x.1).interactLoop fuel fuel p₂ = .ok p' := by
    have key : x.1.interact fuel p₂ = noexcept (noexcept ((data x.1).interactLoop fuel fuel p₂)) := by
      unfold Nuclide.interact Nuclide.xsAt
      rw [show p₂.type = .neutron from hty, hw.supplied c hc m hm x hx]
      rfl
    have h := hok
    unfold collide at h
    rw [hs] at h
    simp only [bind, Except.bind, hsel] at h
    change x.1.interact fuel p₂ = _ at h
    rw [key] at h
    exact noexcept_eq_ok.1 (noexcept_eq_ok.1 h)
  obtain ⟨t', ht', k1, k2, -, k3, -⟩ := collide_ok hok
  rw [WithTop.coe_inj] at ht'
  subst ht'
  refine ⟨k1, by rw [k2, hpc], by rcases k3 with h | h | h <;> simp [CrossedSurface, h], ?_⟩
  have hfuel : 0 < fuel := by
    rcases fuel with _ | fuel
    · cases hloop
    · omega
  have hnn : ∀ r ∈ (data x.1).reactions, 0 ≤ reactionXS (heat c) e r := fun r hr => by
    obtain ⟨-, -, q1, q2, -⟩ := hw.reaction hc hm hx hr he0
    exact q1.trans q2
  have hu0 := (Rng.canonical_pos hr₂).le
  have hu1 := Rng.canonical_lt_one hr₂
  obtain ⟨j, hj⟩ := Selected.exists (ws := (data x.1).reactions.map (reactionXS (heat c) e))
    (θ := roundNumber p₂ 0 * nuclideXS (data x.1) (heat c) e) (mul_nonneg hu0 hσ.le) (by
      have e1 : roundNumber p₂ 0 = (Rng.canonical p₂.rng).1 := rfl
      have e2 : ((data x.1).reactions.map (reactionXS (heat c) e)).sum =
        nuclideXS (data x.1) (heat c) e := rfl
      rw [e1, e2]
      nlinarith)
  obtain ⟨r, hrj, _, hl⟩ := C53_selects (c := data x.1) (fuel := fuel) (k := 0) (n := fuel)
    (p := p₂) (w := reactionXS (heat c) e)
    (fun r h => (gas_reaction hw hc hm hx (p := p₂) hpc hty he he0 h).1) hnn
    (gas_total hw hc hm hx (p := p₂) hpc hty he he0).1 hfuel
    (show SelectedInRound _ _ (roundNumber p₂) 0 j from ⟨fun j hj => absurd hj (by omega), hj⟩)
  have hmem : r ∈ (data x.1).reactions := List.mem_of_getElem? hrj
  rw [hl] at hloop
  have huse : ∀ next start, afterGas generator sideAxis upAxis data m (heat c) p.direction e next start
      p.rng = afterReaction generator sideAxis upAxis (heat c) p.direction e next start
        (afterRound p₂ 0).rng r := by
    intro next start
    unfold afterGas
    simp only [generator_numbers, generator_rest]
    refine (byWeight_eq (i := i) hiff _).trans ?_
    rw [List.getElem?_eq_getElem hi, Option.elim_some]
    refine (byWeight_eq (ws := (data x.1).reactions.map (reactionXS (heat c) e)) (i := j)
      (fun l => ⟨fun h => Selected.unique (fun y hy => ?_) h hj, fun h => h ▸ hj⟩) _).trans ?_
    · obtain ⟨r', hr', rfl⟩ := List.mem_map.1 hy
      exact hnn r' hr'
    · rw [hrj]
      rfl
  obtain ⟨ht0, hct⟩ := hw.temperature hc hm
  rcases react_gas (f2.reactions r hmem) (fun ev l h => (hw.tables c hc m hm x hx r hmem).2.2 ev l h)
    (p := afterRound p₂ 0) hpc hct ht0 he ⟨hty, ⟨e, he, he0⟩, Rng.valid_iterate hr₂ _, hu⟩ hloop with
    ⟨r1, r2, new, r3, r4, r5⟩ | ⟨r1, r2, r3, e', r4, r5⟩
  · left
    refine ⟨r1, r2, new, r3, fun b hb => ?_, fun next start => (huse next start).trans (r5 next start)⟩
    rw [k1]
    exact r4 b hb
  · right
    exact ⟨r1, r2, r3, e', r4, fun next start => (huse next start).trans (r5 next start)⟩

/-! ### Rounds -/

/-- What new neutrons score. -/
noncomputable def gasFresh {σ : Type} (S : Supply σ) (a b : Direction → Direction)
    (data : Nuclide → Continuous) (w : World) (method : Method)
    (hit : SurfaceObj → Direction → ℝ → ℝ≥0∞) (n : ℕ) (x : Point) (d : Direction) (e : ℝ) (s : σ) : ℝ≥0∞ :=
  (cellAt w x).elim 0 fun c => gasScore S a b data w method hit n c x d e s

/-- What new neutrons score at a place, if `next` is what they score in a cell. -/
noncomputable def freshIn {σ : Type} (w : World) (next : Cell → Point → Direction → ℝ → σ → ℝ≥0∞)
    (x : Point) (d : Direction) (e : ℝ) (s : σ) : ℝ≥0∞ :=
  (cellAt w x).elim 0 fun c => next c x d e s

/-- A step of the program is a round of the game. -/
theorem step_gasRound {data : Nuclide → Continuous} {w : World} (hw : GasWorld data w) {p p' : Particle} {e : ℝ}
    (hn : EnergyNeutron p) (he : p.energy = .continuous e) {c : Cell} (hc : c ∈ w.cells)
    (hpc : p.cell = some c) {m : Material} (hm : c.material = some m) {method : Method} {fuel : ℕ}
    (h : transportStep method fuel w p = .ok p') :
    (Ended p' ∧ p'.energy = .continuous e ∧ ∃ new, p'.secondaries = p.secondaries ++ new ∧
        (∀ b ∈ new, GasBornAt p'.position e b) ∧
        ∀ hit next, (∀ c x d e s, c.material = none → next c x d e s = 0) →
          gasRound generator sideAxis upAxis data w method hit next c p.position p.direction e p.rng =
            energyScoreOf hit p' + (new.map (gasBornScore (freshIn w next p'.position) e)).sum) ∨
      ¬ Ended p' ∧ p'.secondaries = p.secondaries ∧ EnergyNeutron p' ∧ ∃ c' e' m',
        p'.energy = .continuous e' ∧ c' ∈ w.cells ∧ p'.cell = some c' ∧ c'.material = some m' ∧
        ∀ hit next, gasRound generator sideAxis upAxis data w method hit next c p.position p.direction e
          p.rng = energyScoreOf hit p' + next c' p'.position p'.direction e' p'.rng := by
  have hn0 := hn
  obtain ⟨hty, ⟨e1, he1, he0⟩, hr, hu⟩ := hn
  rw [he] at he1
  cases he1
  obtain ⟨hT, hM, hD⟩ := gas_material hw hc hm hpc hty he he0
  have hden := hD method
  have hsh := hw.shares_pos hc hm he0
  have hpos := hw.rate_pos hc hm he0
  have hmac : m.numberDensity * (m.afracs.map fun x => x.2 * nuclideXS (data x.1) (heat c) e).sum =
    collisionRate data m (heat c) e := rfl
  set f := -Real.log (1 - (Rng.canonical p.rng).1) / collisionRate data m (heat c) e with hf
  have hnum : -Real.log (1 - generator.number p.rng) / collisionRate data m (heat c) e = f := rfl
  set p₁ : Particle := { p with rng := (Rng.canonical p.rng).2 } with hp₁
  have hfl : sampleFlight method p = .ok ((f : WithTop ℝ), p₁) := by
    have hgc : p.getCell = .ok c := Particle.getCell_ok.2 hpc
    unfold sampleFlight
    rw [hgc]
    simp only [bind, Except.bind, hm, hden, hmac]
    unfold Rng.exponential Rng.exponentialOf
    rw [if_neg hpos.ne']
  obtain ⟨⟨s, ds⟩, hns⟩ := (C07_raises_iff_no_surfaces c p.position p.direction).2
    (hw.sound.bounded c hc (by rw [hm]; simp))
  obtain ⟨ha, hface⟩ := faced_of_nearest hns
  set Goal : Prop := ((Ended p' ∧ p'.energy = .continuous e ∧ ∃ new,
        p'.secondaries = p.secondaries ++ new ∧ (∀ b ∈ new, GasBornAt p'.position e b) ∧
        ∀ hit next, (∀ c x d e s, c.material = none → next c x d e s = 0) →
          gasRound generator sideAxis upAxis data w method hit next c p.position p.direction e p.rng =
            energyScoreOf hit p' + (new.map (gasBornScore (freshIn w next p'.position) e)).sum) ∨
      ¬ Ended p' ∧ p'.secondaries = p.secondaries ∧ EnergyNeutron p' ∧ ∃ c' e' m',
        p'.energy = .continuous e' ∧ c' ∈ w.cells ∧ p'.cell = some c' ∧ c'.material = some m' ∧
        ∀ hit next, gasRound generator sideAxis upAxis data w method hit next c p.position p.direction e
          p.rng = energyScoreOf hit p' + next c' p'.position p'.direction e' p'.rng) with hGoal
  -- the two outcomes
  have hcross : FliesTo method (ahead c p.position p.direction) f →
      crossSurface method w p₁ s ds = .ok p' → Goal := by
    intro hfly k
    obtain ⟨t, e0, e1, ⟨c', e2, e3, e4, e5⟩, e10, e6, e7, e8, e11, e9⟩ := crossSurface_ok k
    have hb : beyond c p.position p.direction = p'.position := by
      unfold beyond
      rw [ha, e0, e1]
      rfl
    have hep : p'.energy = .continuous e := e7.trans he
    have hcs : CrossedSurface p' := by
      by_cases hcm : c'.material = none
      · exact .inr (e4 hcm)
      · exact .inl (e5 hcm)
    have hsc : ∀ hit, energyScoreOf hit p' = hit s p'.direction e := by
      intro hit
      unfold energyScoreOf
      rw [if_pos hcs, e10]
      simp [hep]
    have hwalk : ∀ hit next, gasRound generator sideAxis upAxis data w method hit next c p.position
        p.direction e p.rng = energyScoreOf hit p' + next c' p'.position p'.direction e p'.rng := by
      intro hit next
      rw [gasRound_some hm, hnum, if_pos hfly]
      unfold gasCrossed
      rw [hface, Option.elim_some, hb, cellAt_of_first e2, Option.elim_some, hsc, e6, e9]
      rfl
    have hcw : c' ∈ w.cells := by
      obtain ⟨l, r, hlr, -⟩ := e2
      rw [hlr]
      simp
    cases hcm : c'.material with
    | none =>
      left
      refine ⟨.inr (.inr (e4 hcm)), hep, [], by rw [e11]; simp [hp₁], by simp, fun hit next h0 => ?_⟩
      rw [hwalk, h0 _ _ _ _ _ hcm]
      simp
    | some m' =>
      right
      have hev := e5 (by rw [hcm]; simp)
      exact ⟨by simp [Ended, hev], e11, ⟨e8.trans hty, ⟨e, hep, he0⟩, by
        rw [e9]; exact Rng.valid_canonical hr, by rw [e6]; exact hu⟩, c', e, m', hep, hcw, e3, hcm, hwalk⟩
  have hcoll : ∀ q : Particle, q.type = p.type → q.energy = p.energy → q.cell = p.cell →
      q.position = p.position → q.direction = p.direction →
      q.rng = Rng.next^[2 * drawnBefore method] p.rng →
      ¬ FliesTo method (ahead c p.position p.direction) f →
      q.secondaries = p.secondaries → collide method fuel q (f : WithTop ℝ) = .ok p' → Goal := by
    intro q q1 q2 q3 q4 q5 q6 hfly q7 k
    obtain ⟨k2, k3, k4, k5⟩ := collide_gas hw (p := q) ⟨q1.trans hty, ⟨e, q2.trans he, he0⟩, by
      rw [q6]; exact Rng.valid_iterate hr _, by rw [q5]; exact hu⟩ (q2.trans he) hc (q3.trans hpc) hm k
    have hwalk : ∀ hit next, gasRound generator sideAxis upAxis data w method hit next c p.position
        p.direction e p.rng = afterGas generator sideAxis upAxis data m (heat c) q.direction e
          (next c p'.position) (freshIn w next p'.position) q.rng := by
      intro hit next
      rw [gasRound_some hm, hnum, if_neg hfly, generator_rest, q6, k2, q4, q5]
      rfl
    have hsc : ∀ hit, energyScoreOf hit p' = 0 := fun hit => if_neg k4
    rcases k5 with ⟨e1, e2, new, e3, e4, e5⟩ | ⟨e1, e2, e3, e', e4, e5⟩
    · left
      exact ⟨e1, e2, new, by rw [e3, q7], e4, fun hit next _ => by rw [hwalk, e5, hsc, zero_add]⟩
    · right
      exact ⟨e2, e1.trans q7, e3, c, e', m, e4, hc, k3, hm, fun hit next => by
        rw [hwalk, e5, hsc, zero_add]⟩
  have hgc : p₁.getCell = .ok c := Particle.getCell_ok.2 hpc
  have hns' : c.nearestSurface p₁.position p₁.direction = .ok (s, ds) := hns
  cases method
  · change surfaceStep fuel w p = .ok p' at h
    unfold surfaceStep at h
    rw [hfl] at h
    simp only [bind, Except.bind, hgc, hns'] at h
    split_ifs at h with hlt
    · refine hcoll p₁ rfl rfl rfl rfl rfl rfl ?_ rfl h
      rw [ha]
      exact not_le.2 hlt
    · refine hcross ?_ h
      rw [ha]
      exact not_lt.1 hlt
  · change deltaStep fuel w p = .ok p' at h
    unfold deltaStep at h
    rw [hfl] at h
    simp only [bind, Except.bind, hgc, hns'] at h
    split_ifs at h with hlt
    · refine hcross ?_ h
      rw [ha]
      exact hlt
    · obtain ⟨hT₁, hM₁, -⟩ := gas_material hw hc hm (p := p₁) hpc hty he he0
      have hacc : acceptance p₁ = .ok 1 := by
        unfold acceptance
        rw [hgc]
        simp only [bind, Except.bind, hm, hT₁, hM₁]
        rw [if_neg hsh.ne', div_self hsh.ne']
      rw [hacc] at h
      have hb : Rng.bernoulli 1 p₁.rng = (true, (Rng.canonical p₁.rng).2) := by
        unfold Rng.bernoulli
        rw [decide_eq_true (Rng.canonical_lt_one (Rng.valid_canonical hr))]
      simp only [hb, if_true] at h
      refine hcoll _ ?_ ?_ ?_ ?_ ?_ ?_ ?_ ?_ h
      · rfl
      · rfl
      · rfl
      · rfl
      · rfl
      · rfl
      · rw [ha]
        exact hlt
      · rfl

/-- A step of the program is a round of the game. -/
theorem step_gas {data : Nuclide → Continuous} {w : World} (hw : GasWorld data w) {p p' : Particle} {e : ℝ}
    (hn : EnergyNeutron p) (he : p.energy = .continuous e) {c : Cell} (hc : c ∈ w.cells)
    (hpc : p.cell = some c) {m : Material} (hm : c.material = some m) {method : Method} {fuel : ℕ}
    (h : transportStep method fuel w p = .ok p') :
    (Ended p' ∧ p'.energy = .continuous e ∧ ∃ new, p'.secondaries = p.secondaries ++ new ∧
        (∀ b ∈ new, GasBornAt p'.position e b) ∧
        ∀ hit n, gasScore generator sideAxis upAxis data w method hit (n + 1) c p.position p.direction e
          p.rng = energyScoreOf hit p' + (new.map (gasBornScore
            (gasFresh generator sideAxis upAxis data w method hit n p'.position) e)).sum) ∨
      ¬ Ended p' ∧ p'.secondaries = p.secondaries ∧ EnergyNeutron p' ∧ ∃ c' e' m',
        p'.energy = .continuous e' ∧ c' ∈ w.cells ∧ p'.cell = some c' ∧ c'.material = some m' ∧
        ∀ hit n, gasScore generator sideAxis upAxis data w method hit (n + 1) c p.position p.direction e
          p.rng = energyScoreOf hit p' + gasScore generator sideAxis upAxis data w method hit n c'
            p'.position p'.direction e' p'.rng := by
  rcases step_gasRound hw hn he hc hpc hm h with ⟨e1, e2, new, e3, e4, e5⟩ |
    ⟨e1, e2, e3, c', e', m', e4, e5, e6, e7, e8⟩
  · refine .inl ⟨e1, e2, new, e3, e4, fun hit n => ?_⟩
    rw [gasScore_round]
    exact e5 hit _ fun c x d e s hm => gasScore_none hm s
  · refine .inr ⟨e1, e2, e3, c', e', m', e4, e5, e6, e7, fun hit n => ?_⟩
    rw [gasScore_round]
    exact e8 hit _

/-- The energy of a particle, if it has one. -/
def energyOf : Energy → ℝ
  | .continuous e => e
  | _ => 0

/-- What a particle of the bank scores. -/
noncomputable def gasPartScore (data : Nuclide → Continuous) (w : World) (method : Method)
    (hit : SurfaceObj → Direction → ℝ → ℝ≥0∞) (n : ℕ) (p : Particle) : ℝ≥0∞ :=
  gasFresh generator sideAxis upAxis data w method hit n p.position p.direction (energyOf p.energy) p.rng

/-- A particle of the bank that is a moving neutron. -/
def BornMoving (b : Born) : Prop :=
  b.type = .neutron ∧ UnitVec b.direction ∧ ∃ e, b.energy = .continuous e ∧ 0 < e

/-- What the states of a neutron score, together with what the neutrons score that it has made. -/
theorem loop_gas {data : Nuclide → Continuous} {w : World} (hw : GasWorld data w)
    {method : Method} {fuel k : ℕ} {p last : Particle} {scored : List Particle}
    (h : transportLoop method fuel w k p = .ok (last, scored)) {e : ℝ} (hn : EnergyNeutron p)
    (he : p.energy = .continuous e) (hp : ¬ Ended p) {c : Cell} (hc : c ∈ w.cells) (hpc : p.cell = some c)
    {m : Material} (hm : c.material = some m) :
    ∃ new, last.secondaries = p.secondaries ++ new ∧ (∀ b ∈ new, BornMoving b) ∧
      (∀ q ∈ scored, ∃ e, q.energy = .continuous e) ∧
      ∀ hit n, gasScore generator sideAxis upAxis data w method hit (n + scored.length) c p.position
          p.direction e p.rng = (scored.map (energyScoreOf hit)).sum +
            (new.map fun b => gasPartScore data w method hit n (Particle.ofBorn b)).sum := by
  induction k generalizing p scored e c m with
  | zero =>
    unfold transportLoop at h
    rw [if_pos ((alive_iff p).2 hp)] at h
    cases h
  | succ k ih =>
    unfold transportLoop at h
    rw [if_pos ((alive_iff p).2 hp)] at h
    simp only [bind, Except.bind] at h
    cases hs : transportStep method fuel w p with
    | error e => rw [hs] at h; cases h
    | ok p' =>
      rw [hs] at h
      dsimp only at h
      have hcase := step_gas hw hn he hc hpc hm hs
      cases hl : transportLoop method fuel w k p' with
      | error e => rw [hl] at h; cases h
      | ok r =>
        obtain ⟨last', scored'⟩ := r
        rw [hl] at h
        simp only [Except.ok.injEq, Prod.mk.injEq] at h
        obtain ⟨rfl, rfl⟩ := h
        rcases hcase with ⟨hend, b0, new, b1, b2, b3⟩ | ⟨hend, b1, t1, c', e', m', t2, t3, t4, t5, hwk⟩
        · have hnil : last' = p' ∧ scored' = [] := by
            have hna : ¬ p'.isAlive = true := fun hal => (alive_iff p').1 hal hend
            cases k with
            | zero => rw [transportLoop, if_neg hna] at hl; cases hl; exact ⟨rfl, rfl⟩
            | succ k => rw [transportLoop, if_neg hna] at hl; cases hl; exact ⟨rfl, rfl⟩
          obtain ⟨rfl, rfl⟩ := hnil
          obtain ⟨-, ⟨e1, he1, he0⟩, -, -⟩ := hn
          rw [he] at he1
          cases he1
          refine ⟨new, b1, fun b hb => ⟨(b2 b hb).2.1, (b2 b hb).2.2.2, e, (b2 b hb).2.2.1, he0⟩,
            fun q hq => ?_, fun hit n => ?_⟩
          · rw [List.mem_singleton] at hq
            subst hq
            exact ⟨e, b0⟩
          rw [List.length_singleton, b3, List.map_singleton, List.sum_singleton]
          congr 2
          refine List.map_congr_left fun b hb => ?_
          unfold gasBornScore gasPartScore Particle.ofBorn
          dsimp only
          rw [(b2 b hb).1, (b2 b hb).2.2.1]
          rfl
        · obtain ⟨new, a1, a2, a3, a4⟩ := ih hl t1 t2 hend t3 t4 t5
          refine ⟨new, by rw [a1, b1], a2, fun q hq => ?_, fun hit n => ?_⟩
          · rcases List.mem_cons.1 hq with rfl | hq
            · exact ⟨e', t2⟩
            · exact a3 q hq
          · rw [List.length_cons, ← Nat.add_assoc, hwk, a4, List.map_cons, List.sum_cons, add_assoc]

/-- A neutron that is ready to be transported. -/
structure GasReady (p : Particle) : Prop where
  neutron : EnergyNeutron p
  alive : ¬ Ended p
  empty : p.secondaries = []

theorem gasReady_ofBorn {b : Born} (h : BornMoving b) : GasReady (Particle.ofBorn b) :=
  ⟨⟨h.1, h.2.2, Rng.valid_ofSeed b.seed, h.2.1⟩, by simp [Ended, Particle.ofBorn], rfl⟩

/-- Transport of a neutron of the bank. -/
theorem transport_gas {data : Nuclide → Continuous} {w : World} (hw : GasWorld data w)
    {method : Method} {fuel : ℕ} {p last : Particle} {scored : List Particle}
    (h : transport method fuel w p = .ok (last, scored)) (hp : GasReady p) :
    ∃ new, last.secondaries = new ∧ (∀ b ∈ new, BornMoving b) ∧
      (∀ q ∈ scored, ∃ e, q.energy = .continuous e) ∧
      ∀ hit n, gasPartScore data w method hit (n + scored.length) p =
        (scored.map (energyScoreOf hit)).sum +
          (new.map fun b => gasPartScore data w method hit n (Particle.ofBorn b)).sum := by
  obtain ⟨hn, ha, hs⟩ := hp
  obtain ⟨hty, ⟨e, he, he0⟩, hr, hu⟩ := hn
  have hl := noexcept_eq_ok.1 h
  rw [res_bind_ok] at hl
  obtain ⟨p', hp', hl⟩ := hl
  obtain ⟨c, hc, rfl⟩ := locate_ok.1 hp'
  have hcw : c ∈ w.cells := (FirstCell.mem hc).1
  have ha' : ({ p with cell := some c } : Particle).isAlive = true := (alive_iff _).2 ha
  cases hm : c.material with
  | none =>
    exfalso
    cases fuel with
    | zero =>
      unfold transportLoop at hl
      rw [if_pos ha'] at hl
      cases hl
    | succ k =>
      unfold transportLoop at hl
      rw [if_pos ha'] at hl
      have hfl : sampleFlight method { p with cell := some c } = .error .ub := by
        unfold sampleFlight Particle.getCell
        simp only [bind, Except.bind, hm]
      have hst : transportStep method (k + 1) w { p with cell := some c } = .error .ub := by
        cases method
        · change surfaceStep _ _ _ = _
          unfold surfaceStep
          rw [hfl]
          rfl
        · change deltaStep _ _ _ = _
          unfold deltaStep
          rw [hfl]
          rfl
      rw [hst] at hl
      cases hl
  | some m =>
    obtain ⟨new, e1, e2, e3, e4⟩ := loop_gas hw (p := { p with cell := some c }) hl
      ⟨hty, ⟨e, he, he0⟩, hr, hu⟩ he ha hcw rfl hm
    refine ⟨new, ?_, e2, e3, fun hit n => ?_⟩
    · rw [e1]
      change p.secondaries ++ new = new
      rw [hs, List.nil_append]
    · rw [← e4]
      unfold gasPartScore gasFresh
      rw [cellAt_of_first hc, he]
      rfl

/-- What all states score that come of a bank is what its particles score in sufficiently many
rounds. -/
theorem bank_gas {data : Nuclide → Continuous} {w : World} (hw : GasWorld data w)
    {method : Method} {fuel : ℕ} {qs : List Perturbation}
    (hit : SurfaceObj → Direction → ℝ → ℝ≥0∞) (k : ℕ) {bank : Bank}
    {log : List (Particle × List Particle)}
    (h : processBank (transport method fuel w) qs k bank = .ok log) (hb : ∀ p ∈ bank, GasReady p) :
    (∀ q ∈ log.flatMap Prod.snd, ∃ e, q.energy = .continuous e) ∧
    ∃ N, (∀ n ≥ N, (bank.map (gasPartScore data w method hit n)).sum =
        ((log.flatMap Prod.snd).map (energyScoreOf hit)).sum) ∧
      ∀ p ∈ bank, ∀ n ≥ N, gasPartScore data w method hit n p = gasPartScore data w method hit N p := by
  induction k generalizing bank log with
  | zero =>
    rcases List.eq_nil_or_concat' bank with rfl | ⟨front, p, rfl⟩
    · rw [processBank_nil] at h
      cases h
      exact ⟨by simp, 0, by simp, by simp⟩
    · rw [processBank_zero] at h
      cases h
  | succ k ih =>
    rcases List.eq_nil_or_concat' bank with rfl | ⟨front, p, rfl⟩
    · rw [processBank_nil] at h
      cases h
      exact ⟨by simp, 0, by simp, by simp⟩
    · rw [processBank_concat, res_bind_ok] at h
      obtain ⟨⟨last, scored⟩, hrun, h⟩ := h
      simp only [res_bind_ok] at h
      obtain ⟨rest, hrest, h⟩ := h
      simp only [Except.ok.injEq] at h
      subst h
      have hp : GasReady p := hb p (by simp)
      have hp' : GasReady (p.setPerturbations qs) :=
        ⟨⟨hp.1.1, hp.1.2, hp.1.3, hp.1.4⟩, hp.2, hp.3⟩
      obtain ⟨new, e1, e2, e3, e4⟩ := transport_gas hw hrun hp'
      rw [e1] at hrest
      obtain ⟨i0, N, i1, i2⟩ := ih hrest (by
        intro q hq
        rcases List.mem_append.1 hq with hq | hq
        · obtain ⟨b, hbn, rfl⟩ := List.mem_map.1 hq
          exact gasReady_ofBorn (e2 b hbn)
        · exact hb q (by simp [hq]))
      refine ⟨?_, ?_⟩
      · intro q hq
        rw [List.flatMap_cons] at hq
        rcases List.mem_append.1 hq with hq | hq
        · exact e3 q hq
        · exact i0 q hq
      have hscore : ∀ n ≥ N, gasPartScore data w method hit (n + scored.length) p =
          (scored.map (energyScoreOf hit)).sum +
            (new.map fun b => gasPartScore data w method hit N (Particle.ofBorn b)).sum := by
        intro n hn
        refine (e4 hit n).trans ?_
        congr 2
        refine List.map_congr_left fun b hbn => ?_
        exact i2 _ (List.mem_append_left _ (List.mem_map.2 ⟨b, hbn, rfl⟩)) n hn
      have hconst : ∀ n ≥ N + scored.length, gasPartScore data w method hit n p =
          gasPartScore data w method hit (N + scored.length) p := by
        intro n hn
        obtain ⟨j, rfl⟩ := Nat.exists_eq_add_of_le hn
        rw [Nat.add_right_comm, hscore _ (Nat.le_add_right _ _), hscore _ le_rfl]
      refine ⟨N + scored.length, fun n hn => ?_, ?_⟩
      · rw [List.map_append, List.sum_append, List.map_singleton, List.sum_singleton, hconst n hn,
          hscore N le_rfl, List.flatMap_cons, List.map_append, List.sum_append, ← i1 N le_rfl,
          List.map_append, List.sum_append, List.map_map]
        have hfront : (front.map (gasPartScore data w method hit n)) =
            front.map (gasPartScore data w method hit N) :=
          List.map_congr_left fun q hq => i2 q (List.mem_append_right _ hq) n (by omega)
        rw [hfront]
        change _ + (_ + List.sum (new.map _)) = _ + (List.sum (new.map _) + _)
        rw [add_left_comm, add_comm (List.sum (front.map _))]
        rfl
      · intro q hq n hn
        rcases List.mem_append.1 hq with hq | hq
        · have hm := i2 q (List.mem_append_right _ hq)
          rw [hm n (by omega), hm (N + scored.length) (by omega)]
        · rw [List.mem_singleton] at hq
          subst hq
          exact hconst n hn

end Minimc
