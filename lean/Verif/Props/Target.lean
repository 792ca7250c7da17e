import Verif.Lemmas.Target
import Verif.Props.Maxwell
import Verif.Props.Reactions

/-! # C62: the target of a free gas collision

The rejection loop chooses the atoms as a neutron meets them: with a probability proportional to
Maxwell's density and to the relative speed. -/

namespace Minimc.Props

open Spec MeasureTheory

theorem roundNumber_rng (p : Particle) (k i : ℕ) :
    roundNumber { p with rng := Rng.next^[2 * k] p.rng } i = roundNumber p (i + k) := by
  unfold roundNumber
  rw [← Function.iterate_add_apply, ← mul_add]

theorem acceptProb_eq (x y μ : ℝ) :
    FreeGas.acceptProb x y μ = relativeSpeed y x μ / (x + y) := by
  unfold FreeGas.acceptProb relativeSpeed
  congr 2
  ring

/-- The body of the loop in terms of the successive random numbers of the particle. -/
theorem candidate_eq (y : ℝ) (p : Particle) :
    FreeGas.candidate y p = ((proposal y (roundNumber p)).1, (proposal y (roundNumber p)).2.1,
      { p with rng := Rng.next^[2 * (proposal y (roundNumber p)).2.2] p.rng }) := by
  unfold FreeGas.candidate proposal FreeGas.branchProb
  by_cases h : roundNumber p 2 < 2 / (Real.sqrt Real.pi * y + 2)
  · rw [if_pos h]
    exact (if_pos (by exact h)).trans rfl
  · rw [if_neg h]
    exact (if_neg (by exact h)).trans rfl

/-- **C62** The loop returns the first accepted proposal made from the particle's random numbers. -/
theorem C62_loop {y x μ : ℝ} : ∀ {n : ℕ} {p : Particle},
    (∃ p', FreeGas.targetLoop y n p = .ok (x, μ, p')) ↔ chosen y n (roundNumber p) = some (x, μ)
  | 0, p => by
    constructor
    · rintro ⟨p', h⟩; cases h
    · intro h; cases h
  | n + 1, p => by
    rw [FreeGas.targetLoop, chosen, candidate_eq]
    generalize proposal y (roundNumber p) = q
    obtain ⟨x', μ', k⟩ := q
    have hr : (Rng.canonical (Rng.next^[2 * k] p.rng)).2 = Rng.next^[2 * (k + 1)] p.rng := by
      rw [show 2 * (k + 1) = 2 + 2 * k by ring, Function.iterate_add_apply]
      rfl
    by_cases h : roundNumber p k < relativeSpeed y x' μ' / (x' + y)
    · have h1 : ¬(Particle.sample { p with rng := Rng.next^[2 * k] p.rng }).1 ≥
          FreeGas.acceptProb x' y μ' := by
        rw [acceptProb_eq]; exact not_le.2 h
      simp only [if_neg h1, if_pos h]
      constructor
      · rintro ⟨p', h'⟩
        cases h'
        rfl
      · intro h'
        cases h'
        exact ⟨_, rfl⟩
    · have h1 : (Particle.sample { p with rng := Rng.next^[2 * k] p.rng }).1 ≥
          FreeGas.acceptProb x' y μ' := by
        rw [acceptProb_eq]; exact not_lt.1 h
      have h2 : (Particle.sample { p with rng := Rng.next^[2 * k] p.rng }).2 =
          { p with rng := Rng.next^[2 * (k + 1)] p.rng } := by
        unfold Particle.sample
        simp only [hr]
      simp only [if_pos h1, if_neg h]
      rw [h2, C62_loop (n := n)]
      have : roundNumber { p with rng := Rng.next^[2 * (k + 1)] p.rng } =
          fun i => roundNumber p (i + (k + 1)) := funext (roundNumber_rng p (k + 1))
      rw [this]

/-- **C62** The speed and cosine of the target of a collision. -/
theorem C62_sample {awr e t s μ : ℝ} (ha : 0 < awr) (ht : 0 < t) {n : ℕ} {p : Particle} :
    (∃ p', FreeGas.sampleTarget n awr e t p = .ok (s, μ, p')) ↔
      ∃ x, chosen (slowness (awr * neutronMass) t * speedOf neutronMass e) n (roundNumber p) =
        some (x, μ) ∧ s = x / slowness (awr * neutronMass) t := by
  have hm : 0 < neutronMass := by unfold neutronMass; norm_num
  have hβ : FreeGas.betaOf awr t = slowness (awr * neutronMass) t := rfl
  have hpos := slowness_pos (mul_pos ha hm) ht
  unfold FreeGas.sampleTarget
  rw [if_neg ht.ne', hβ, show FreeGas.neutronSpeed e = speedOf neutronMass e from rfl]
  simp only [if_neg hpos.ne']
  constructor
  · rintro ⟨p', h⟩
    obtain ⟨⟨x, μ', q⟩, h1, h2⟩ := res_bind_ok.1 h
    cases h2
    exact ⟨x, C62_loop.1 ⟨_, h1⟩, rfl⟩
  · rintro ⟨x, h, rfl⟩
    obtain ⟨p', h⟩ := C62_loop.2 h
    exact ⟨p', by rw [h]; rfl⟩

/-- **C62** With independent uniform numbers, the speed and cosine of the chosen atom have the
distribution of the atoms met by the neutron. -/
theorem C62_distribution {β v : ℝ} (hβ : 0 < β) (hv : 0 < v) {A : Set (ℝ × ℝ)}
    (hA : MeasurableSet A) :
    uniforms {us | ∃ n x μ, chosen (β * v) n us = some (x, μ) ∧ (x / β, μ) ∈ A} =
      ∫⁻ s in Set.Ioi (0 : ℝ), ∫⁻ μ in Set.Ioo (-1 : ℝ) 1,
        A.indicator (fun z => ENNReal.ofReal (metDensity β v z.1 z.2)) (s, μ) :=
  uniforms_target hβ hv hA

/-- **C62** Some atom is chosen in the end, with probability one. -/
theorem C62_terminates {y : ℝ} (hy : 0 < y) :
    uniforms {us | ∃ n z, chosen y n us = some z} = 1 := by
  have h := uniforms_target one_pos hy MeasurableSet.univ
  simp only [Set.indicator_univ] at h
  rw [lintegral_metDensity one_pos hy] at h
  rw [← h]
  congr 1
  ext us
  simp only [Set.mem_ofPred_eq, Set.mem_univ, and_true, one_mul, Prod.exists]

/-- Instance: hydrogen at 300 K; the chosen atom moves towards the neutron (negative cosine) with the
probability given by the integral. -/
example : uniforms {us | ∃ n x μ, chosen (slowness (0.9992 * neutronMass) 300 *
      speedOf neutronMass 2.53e-8) n us = some (x, μ) ∧
      (x / slowness (0.9992 * neutronMass) 300, μ) ∈ {z : ℝ × ℝ | z.2 < 0}} =
    ∫⁻ s in Set.Ioi (0 : ℝ), ∫⁻ μ in Set.Ioo (-1 : ℝ) 1, {z : ℝ × ℝ | z.2 < 0}.indicator
      (fun z => ENNReal.ofReal (metDensity (slowness (0.9992 * neutronMass) 300)
        (speedOf neutronMass 2.53e-8) z.1 z.2)) (s, μ) := by
  have hm : 0 < neutronMass := by unfold neutronMass; norm_num
  exact C62_distribution (slowness_pos (by positivity) (by norm_num)) (speedOf_pos hm (by norm_num))
    (measurableSet_lt measurable_snd measurable_const)

/-- Instance of `C62_loop`: a sequence whose first proposal is taken in the first branch and
accepted. -/
example : chosen 1 1 (fun i => if i = 4 then 0 else 1 / 4) =
    some (Real.sqrt (-Real.log (1 / 4 * (1 / 4))), -1 / 2) := by
  have hlog : 0 < -Real.log (1 / 4 * (1 / 4)) := by
    have := Real.log_neg (show (0 : ℝ) < 1 / 4 * (1 / 4) by norm_num) (by norm_num)
    linarith
  have hp : Real.sqrt Real.pi ≤ 2 := by
    rw [Real.sqrt_le_left two_pos.le]
    linarith [Real.pi_le_four]
  have h2 : (1 / 4 : ℝ) < 2 / (Real.sqrt Real.pi * 1 + 2) := by
    rw [lt_div_iff₀ (by positivity)]
    linarith
  have hx := Real.sqrt_pos.2 hlog
  have hacc : 0 < relativeSpeed 1 (Real.sqrt (-Real.log (1 / 4 * (1 / 4)))) (2 * (1 / 4) - 1) /
      (Real.sqrt (-Real.log (1 / 4 * (1 / 4))) + 1) := by
    refine div_pos (Real.sqrt_pos.2 ?_) (by linarith)
    nlinarith [sq_nonneg (Real.sqrt (-Real.log (1 / 4 * (1 / 4))))]
  simp only [chosen, proposal]
  rw [if_neg (by norm_num : ¬(2 : ℕ) = 4), if_pos h2]
  simp only [show ¬(0 : ℕ) = 4 by norm_num, show ¬(1 : ℕ) = 4 by norm_num,
    show ¬(3 : ℕ) = 4 by norm_num, if_false, if_true]
  rw [if_pos hacc]
  norm_num

end Minimc.Props
