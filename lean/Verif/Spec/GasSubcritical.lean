import Verif.Spec.GasWalk
import Verif.Spec.Subcritical

/-!
# Specification: gases in which neutrons die out

How many flights a neutron with a continuous energy and its descendants make in gases, and what it means
that a collision leaves fewer neutrons than it takes, see `Verif.Spec.Subcritical` for energy groups.
-/

namespace Minimc.Spec

open Classical MeasureTheory
open scoped ENNReal

/-- One round of the game, if a crossing of a surface scores `hit` and the neutrons that are there
afterwards score what `next` says, see `gasScore`. -/
noncomputable def gasRound {σ : Type} (S : Supply σ) (a b : Direction → Direction)
    (data : Nuclide → Continuous) (w : World) (method : Method)
    (hit : SurfaceObj → Direction → ℝ → ℝ≥0∞) (next : Cell → Point → Direction → ℝ → σ → ℝ≥0∞)
    (c : Cell) (x : Point) (d : Direction) (e : ℝ) (s : σ) : ℝ≥0∞ :=
  c.material.elim 0 fun m =>
    if FliesTo method (ahead c x d) (-Real.log (1 - S.number s) / collisionRate data m (heat c) e) then
      (faced c x d).elim 0 fun f => (cellAt w (beyond c x d)).elim 0 fun c' =>
        hit f d e + next c' (beyond c x d) d e (S.rest s)
    else
      afterGas S a b data m (heat c) d e
        (next c (along x d (-Real.log (1 - S.number s) / collisionRate data m (heat c) e)))
        (fun d' e' s' =>
          (cellAt w (along x d (-Real.log (1 - S.number s) / collisionRate data m (heat c) e))).elim 0
            fun c' => next c'
              (along x d (-Real.log (1 - S.number s) / collisionRate data m (heat c) e)) d' e' s')
        (S.rest^[drawnBefore method] s)

/-- How many flights a neutron and its descendants make in the first rounds.  In a cell without material
there is no flight. -/
noncomputable def gasFlights {σ : Type} (S : Supply σ) (a b : Direction → Direction)
    (data : Nuclide → Continuous) (w : World) (method : Method) :
    ℕ → Cell → Point → Direction → ℝ → σ → ℝ≥0∞
  | 0, _, _, _, _, _ => 0
  | n + 1, c, x, d, e, s => (if c.material = none then 0 else 1) +
    gasRound S a b data w method (fun _ _ _ => 0) (gasFlights S a b data w method n) c x d e s

/-- How many neutrons are still flying after some rounds. -/
noncomputable def gasFlying {σ : Type} (S : Supply σ) (a b : Direction → Direction)
    (data : Nuclide → Continuous) (w : World) (method : Method) :
    ℕ → Cell → Point → Direction → ℝ → σ → ℝ≥0∞
  | 0, c, _, _, _, _ => if c.material = none then 0 else 1
  | n + 1, c, x, d, e, s =>
    gasRound S a b data w method (fun _ _ _ => 0) (gasFlying S a b data w method n) c x d e s

/-- The mean number of flights, if the numbers are independent. -/
noncomputable def meanGasFlights (a b : Direction → Direction) (data : Nuclide → Continuous) (w : World)
    (method : Method) (c : Cell) (x : Point) (d : Direction) (e : ℝ) : ℝ≥0∞ :=
  ∫⁻ us, ⨆ n, gasFlights endless a b data w method n c x d e us ∂uniforms

/-- A collision leaves at most `k` neutrons on average, wherever it happens and at every energy. -/
def GasAtMost (k : ℝ) (data : Nuclide → Continuous) (w : World) : Prop :=
  ∀ c ∈ w.cells, ∀ m, c.material = some m → ∀ e, 0 < e →
    neutronRate data m (heat c) e ≤ k * collisionRate data m (heat c) e

end Minimc.Spec
