import Verif.Spec.Likelihood
import Verif.Lemmas.Transport
import Mathlib.Analysis.SpecialFunctions.ExpDeriv

/-! # Lemmas about flights and accumulated effects -/

namespace Minimc

open Spec

theorem collisionPdf_eq (N sigma d : ℝ) :
    collisionPdf N sigma d = N * sigma * Real.exp (-(N * sigma * d)) := by
  unfold collisionPdf
  have h : HasDerivAt (flightSurvival N sigma) (Real.exp (-(N * sigma * d)) * (-(N * sigma))) d := by
    have h1 : HasDerivAt (fun t : ℝ => -(N * sigma * t)) (-(N * sigma)) d := by
      have := ((hasDerivAt_id d).const_mul (N * sigma)).neg
      rw [mul_one] at this
      exact this
    exact h1.exp
  rw [h.deriv]
  ring

/-- The logarithm of the density of a collision changes with one of the cross sections. -/
theorem hasDerivAt_log_pdf {N f rest x d : ℝ} (hN : 0 < N) (hS : 0 < rest + f * x) :
    HasDerivAt (fun y => Real.log (collisionPdf N (rest + f * y) d))
      (f / (rest + f * x) - N * f * d) x := by
  have hlin : HasDerivAt (fun y : ℝ => rest + f * y) f x := by
    simpa using ((hasDerivAt_id x).const_mul f).const_add rest
  have h1 : HasDerivAt (fun y : ℝ => N * (rest + f * y)) (N * f) x := hlin.const_mul N
  have h2 : HasDerivAt (fun y : ℝ => Real.exp (-(N * (rest + f * y) * d)))
      (Real.exp (-(N * (rest + f * x) * d)) * (-(N * f * d))) x := (h1.mul_const d).neg.exp
  have h3 := (h1.mul h2).log (mul_pos (mul_pos hN hS) (Real.exp_pos _)).ne'
  have hfun : (fun y => Real.log (collisionPdf N (rest + f * y) d)) =
      fun y => Real.log (N * (rest + f * y) * Real.exp (-(N * (rest + f * y) * d))) := by
    funext y
    rw [collisionPdf_eq]
  rw [hfun]
  have he := (Real.exp_pos (-(N * (rest + f * x) * d))).ne'
  have hval : f / (rest + f * x) - N * f * d =
      (N * f * Real.exp (-(N * (rest + f * x) * d)) +
        N * (rest + f * x) * (Real.exp (-(N * (rest + f * x) * d)) * -(N * f * d))) /
      (N * (rest + f * x) * Real.exp (-(N * (rest + f * x) * d))) := by
    have hN' := hN.ne'
    have hS' := hS.ne'
    field_simp
    ring
  rw [hval]
  exact h3

/-- The logarithm of the survival probability changes with one of the cross sections. -/
theorem hasDerivAt_log_survival (N f rest x d : ℝ) :
    HasDerivAt (fun y => Real.log (flightSurvival N (rest + f * y) d)) (-(N * f * d)) x := by
  have hfun : (fun y => Real.log (flightSurvival N (rest + f * y) d)) =
      fun y => -(N * (rest + f * y) * d) := by
    funext y
    rw [flightSurvival, Real.log_exp]
  rw [hfun]
  have hlin : HasDerivAt (fun y : ℝ => rest + f * y) f x := by
    simpa using ((hasDerivAt_id x).const_mul f).const_add rest
  exact ((hlin.const_mul N).mul_const d).neg

/-- Every entry is increased by what its perturbation adds. -/
theorem streamEffects_ok {method : Method} {p : Particle} {t : ℝ} :
    ∀ {l eff : List (Perturbation × ℝ)}, streamEffects method p t l = .ok eff →
      List.Forall₂ (fun a b => ∃ v, a.1.stream method p t = .ok v ∧ b = (a.1, a.2 + v)) l eff
  | [], eff, h => by
    simp only [streamEffects, Except.ok.injEq] at h
    rw [← h]
    exact .nil
  | (q, x) :: l, eff, h => by
    unfold streamEffects at h
    simp only [res_bind_ok] at h
    obtain ⟨v, hv, rest, hrest, h⟩ := h
    simp only [Except.ok.injEq] at h
    rw [← h]
    exact .cons ⟨v, hv, rfl⟩ (streamEffects_ok hrest)

end Minimc
