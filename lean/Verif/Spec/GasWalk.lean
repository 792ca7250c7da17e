import Verif.Spec.Chain
import Verif.Spec.ContinuousRun
import Verif.Spec.Equilibrium
import Verif.Spec.Table

/-!
# Specification: chains of neutrons in gases

The walk of a neutron with a continuous energy, and of its descendants, through gases in thermal
equilibrium: first as a game played with a supply of numbers, then the integral transport equation for the
mean number of crossings.
-/

namespace Minimc.Spec

open Classical MeasureTheory
open scoped ENNReal

/-! ### Data -/

/-- Value of a table at an energy: on the straight line between neighbours, constant outside. -/
noncomputable def tabled : List (ℝ × ℝ) → ℝ → ℝ
  | [], _ => 0
  | [a], _ => a.2
  | a :: b :: l, e => if e ≤ a.1 then a.2 else if e ≤ b.1 then line a b e else tabled (b :: l) e

/-- Mean speed, relative to atoms of mass number `A` at temperature `t`, of a neutron of energy `e`. -/
noncomputable def meetingSpeed (A t e : ℝ) : ℝ :=
  if t = 0 then speedOf neutronMass e
  else meanRelativeSpeed (slowness (A * neutronMass) t) (speedOf neutronMass e)

/-- Cross section of a reaction at temperature `t` for a neutron of energy `e`.  The table is for the
temperature of the evaluation.  Scattering that is more than one percent hotter is adjusted if the atom is
not heavier than the neutron or the neutron is slow enough: the rate of collisions grows with the mean
relative speed. -/
noncomputable def reactionXS (t e : ℝ) : ContinuousReaction → ℝ
  | .capture ev => tabled ev.xs e
  | .fission ev _ => tabled ev.xs e
  | .scatter ev _ A =>
    if 1.01 * ev.temperature ≤ t ∧ (A ≤ 1 ∨ e < 500 * boltzmannMeV * t / A) then
      tabled ev.xs e * (meetingSpeed A t e / meetingSpeed A ev.temperature e)
    else tabled ev.xs e

/-- Cross section of all reactions. -/
noncomputable def nuclideXS (d : Continuous) (t e : ℝ) : ℝ := (d.reactions.map (reactionXS t e)).sum

/-- Collisions per unit length. -/
noncomputable def collisionRate (data : Nuclide → Continuous) (m : Material) (t e : ℝ) : ℝ :=
  m.numberDensity * (m.afracs.map fun x => x.2 * nuclideXS (data x.1) t e).sum

/-- Mean number of neutrons that a fission makes. -/
noncomputable def yieldAt (nubar : Option ContinuousMap) (e : ℝ) : ℝ := nubar.elim 0 fun l => tabled l e

/-- Temperature of a cell in which it is the same everywhere. -/
def heat (c : Cell) : ℝ := c.temperature.upperBound

/-- A world that transport can deal with, in which materials are gases of one temperature.  Their data
are tables without gaps, and the total is not tabulated for a higher temperature than a reaction. -/
structure GasWorld (data : Nuclide → Continuous) (w : World) : Prop where
  sound : ContinuousWorld w
  supplied : ∀ c ∈ w.cells, ∀ m, c.material = some m → ∀ x ∈ m.afracs,
    x.1.xs .neutron = some (.continuous (data x.1))
  warm : ∀ c ∈ w.cells, c.material ≠ none → ∃ t, 0 < t ∧ c.temperature = .constant t
  tables : ∀ c ∈ w.cells, ∀ m, c.material = some m → ∀ x ∈ m.afracs, ∀ r ∈ (data x.1).reactions,
    Sorted r.evaluation.xs ∧ (data x.1).total.temperature ≤ r.evaluation.temperature ∧
      ∀ ev l, r = .fission ev (some l) → Sorted l

/-! ### The game -/

/-- A collision with an atom of the gas, see `leaving`, if one of the first `n` proposals for it is
accepted.  A neutron that moves on scores what `next` says, with the remaining numbers. -/
noncomputable def gasScattered {σ : Type} (S : Supply σ) (a b : Direction → Direction) (A β : ℝ)
    (d : Direction) (speed : ℝ) (next : Direction → ℝ → σ → ℝ≥0∞) : ℕ → σ → ℝ≥0∞
  | 0, _ => 0
  | n + 1, s =>
    let (x, μ, k) := proposal (β * speed) (S.numbers s)
    if S.numbers s k < relativeSpeed (β * speed) x μ / (x + β * speed) then
      let z := departure a b A neutronMass d speed (x / β) μ (S.numbers (S.rest^[k + 1] s))
      if z.2 = 0 then 0 else next z.1 z.2 (S.rest^[k + 5] s)
    else gasScattered S a b A β d speed next n (S.rest^[k + 1] s)

/-- What the neutrons of a fission score, if `start` is what a new neutron scores.  For each of them two
numbers give the direction, then it gets its own numbers. -/
noncomputable def gasBirths {σ : Type} (S : Supply σ) (start : Direction → σ → ℝ≥0∞) : ℕ → σ → ℝ≥0∞
  | 0, _ => 0
  | k + 1, s => start (directionFrom (S.numbers s 0) (S.numbers s 1)) (S.child (S.rest^[2] s)) +
      gasBirths S start k (S.after (S.rest^[2] s))

/-- What a neutron of energy `e` scores after a reaction at temperature `t`.  The neutrons of a fission
have the energy of the neutron that made it. -/
noncomputable def afterReaction {σ : Type} (S : Supply σ) (a b : Direction → Direction) (t : ℝ)
    (d : Direction) (e : ℝ) (next start : Direction → ℝ → σ → ℝ≥0∞) (s : σ) :
    ContinuousReaction → ℝ≥0∞
  | .capture _ => 0
  | .scatter _ _ A => ⨆ n, gasScattered S a b A (slowness (A * neutronMass) t) d
      (speedOf neutronMass e) next n s
  | .fission _ nubar => gasBirths S (fun d' => start d' e) ⌊yieldAt nubar e + S.number s⌋₊ (S.rest s)

/-- A collision: the first number chooses the nuclide, the second the reaction. -/
noncomputable def afterGas {σ : Type} (S : Supply σ) (a b : Direction → Direction)
    (data : Nuclide → Continuous) (m : Material) (t : ℝ) (d : Direction) (e : ℝ)
    (next start : Direction → ℝ → σ → ℝ≥0∞) (s : σ) : ℝ≥0∞ :=
  byWeight (m.afracs.map fun x => x.2 * nuclideXS (data x.1) t e) (S.numbers s 0) fun i =>
    m.afracs[i]?.elim 0 fun x =>
      byWeight ((data x.1).reactions.map (reactionXS t e)) (S.numbers s 1) fun j =>
        (data x.1).reactions[j]?.elim 0 (afterReaction S a b t d e next start (S.rest^[2] s))

/-- What a neutron and its descendants score in their first rounds, if a crossing of a surface scores
`hit`, see `chainScore`. -/
noncomputable def gasScore {σ : Type} (S : Supply σ) (a b : Direction → Direction)
    (data : Nuclide → Continuous) (w : World) (method : Method)
    (hit : SurfaceObj → Direction → ℝ → ℝ≥0∞) : ℕ → Cell → Point → Direction → ℝ → σ → ℝ≥0∞
  | 0, _, _, _, _, _ => 0
  | n + 1, c, x, d, e, s => c.material.elim 0 fun m =>
    if FliesTo method (ahead c x d) (-Real.log (1 - S.number s) / collisionRate data m (heat c) e) then
      (faced c x d).elim 0 fun f => (cellAt w (beyond c x d)).elim 0 fun c' =>
        hit f d e + gasScore S a b data w method hit n c' (beyond c x d) d e (S.rest s)
    else
      afterGas S a b data m (heat c) d e
        (gasScore S a b data w method hit n c
          (along x d (-Real.log (1 - S.number s) / collisionRate data m (heat c) e)))
        (fun d' e' s' =>
          (cellAt w (along x d (-Real.log (1 - S.number s) / collisionRate data m (heat c) e))).elim 0
            fun c' => gasScore S a b data w method hit n c'
              (along x d (-Real.log (1 - S.number s) / collisionRate data m (heat c) e)) d' e' s')
        (S.rest^[drawnBefore method] s)

/-- What the state of a neutron after a round scores: `hit` if it has crossed a surface. -/
noncomputable def energyScoreOf (hit : SurfaceObj → Direction → ℝ → ℝ≥0∞) (p : Particle) : ℝ≥0∞ :=
  if CrossedSurface p then
    p.currentSurface.elim 0 fun s => match p.energy with
      | .continuous e => hit s p.direction e
      | _ => 0
  else 0

/-- The score of the current estimator of a surface for one of its bins: one for a crossing of the
surface, with the direction and energy of the bin. -/
noncomputable def energyHit (surface : SurfaceObj) (bins : ParticleBins) (i : ℕ) (s : SurfaceObj)
    (d : Direction) (e : ℝ) : ℝ≥0∞ :=
  if s.id = surface.id ∧ bins.getIndex d e = .ok i then 1 else 0

/-! ### The transport equation -/

/-- What is expected of a neutron of velocity `v`; nothing if it is at rest. -/
noncomputable def ofVelocity (E : Direction → ℝ → ℝ≥0∞) (v : Point) : ℝ≥0∞ :=
  if normSq v = 0 then 0 else E (directed v) (neutronMass * normSq v / 2)

/-- What is expected of a neutron that collides with an atom of a gas.  The atoms of velocity `V` are met
at a rate proportional to their density and to the relative speed, and the collision turns the velocity in
the frame of the centre of mass evenly into all directions. -/
noncomputable def collided (A t : ℝ) (d : Direction) (e : ℝ) (E : Direction → ℝ → ℝ≥0∞) : ℝ≥0∞ :=
  let v := combine (speedOf neutronMass e) d 0 d
  ENNReal.ofReal (1 / meetingSpeed A t e) *
    ∫⁻ x, ∫⁻ y, ∫⁻ z, ENNReal.ofReal (gasDensity (slowness (A * neutronMass) t) ⟨x, y, z⟩ *
        Real.sqrt (normSq (combine 1 v (-1) ⟨x, y, z⟩))) *
      sphereMean fun n => ofVelocity E (struck A v ⟨x, y, z⟩ n)

/-- What is expected after a reaction, of the neutron that goes on and of new ones. -/
noncomputable def reacted (t : ℝ) (d : Direction) (e : ℝ) (E F : Direction → ℝ → ℝ≥0∞) :
    ContinuousReaction → ℝ≥0∞
  | .capture _ => 0
  | .scatter _ _ A => collided A t d e E
  | .fission _ nubar => ENNReal.ofReal (yieldAt nubar e) * sphereMean fun d' => F d' e

/-- What is expected, per unit length, of the collisions: for each nuclide and reaction the rate times what
is expected after it. -/
noncomputable def gasEmission (data : Nuclide → Continuous) (m : Material) (t : ℝ) (d : Direction) (e : ℝ)
    (E F : Direction → ℝ → ℝ≥0∞) : ℝ≥0∞ :=
  ENNReal.ofReal m.numberDensity * (m.afracs.map fun x => ENNReal.ofReal x.2 *
    ((data x.1).reactions.map fun r => ENNReal.ofReal (reactionXS t e r) * reacted t d e E F r).sum).sum

/-- The right hand side of the integral transport equation: what comes of the collisions along the way to
the next surface and what is expected beyond the surface, both attenuated. -/
noncomputable def gasTransported (data : Nuclide → Continuous) (w : World)
    (hit : SurfaceObj → Direction → ℝ → ℝ≥0∞) (E : Cell → Point → Direction → ℝ → ℝ≥0∞)
    (c : Cell) (x : Point) (d : Direction) (e : ℝ) : ℝ≥0∞ :=
  c.material.elim 0 fun m =>
    (∫⁻ s in {s : ℝ | 0 < s ∧ (s : WithTop ℝ) < ahead c x d},
      ENNReal.ofReal (Real.exp (-(collisionRate data m (heat c) e * s))) *
        gasEmission data m (heat c) d e (E c (along x d s)) fun d' e' =>
          (cellAt w (along x d s)).elim 0 fun c' => E c' (along x d s) d' e') +
    if ahead c x d = ⊤ then 0 else
      ENNReal.ofReal (Real.exp (-(collisionRate data m (heat c) e * (ahead c x d).untopD 0))) *
        (faced c x d).elim 0 fun s => (cellAt w (beyond c x d)).elim 0 fun c' =>
          hit s d e + E c' (beyond c x d) d e

/-- Mean number of neutrons that a reaction leaves. -/
noncomputable def neutronsLeft (e : ℝ) : ContinuousReaction → ℝ
  | .capture _ => 0
  | .scatter _ _ _ => 1
  | .fission _ nubar => yieldAt nubar e

/-- Mean number of neutrons, per unit length, that the collisions leave. -/
noncomputable def neutronRate (data : Nuclide → Continuous) (m : Material) (t e : ℝ) : ℝ :=
  m.numberDensity * (m.afracs.map fun x => x.2 *
    ((data x.1).reactions.map fun r => reactionXS t e r * neutronsLeft e r).sum).sum

/-- The mean of the score in the first rounds, if the numbers are independent. -/
noncomputable def gasMean (a b : Direction → Direction) (data : Nuclide → Continuous) (w : World)
    (method : Method) (hit : SurfaceObj → Direction → ℝ → ℝ≥0∞) (n : ℕ) (c : Cell) (x : Point)
    (d : Direction) (e : ℝ) : ℝ≥0∞ :=
  ∫⁻ us, gasScore endless a b data w method hit n c x d e us ∂uniforms

/-- The mean of the score in all rounds. -/
noncomputable def meanGas (a b : Direction → Direction) (data : Nuclide → Continuous) (w : World)
    (method : Method) (hit : SurfaceObj → Direction → ℝ → ℝ≥0∞) (c : Cell) (x : Point) (d : Direction)
    (e : ℝ) : ℝ≥0∞ :=
  ∫⁻ us, ⨆ n, gasScore endless a b data w method hit n c x d e us ∂uniforms

end Minimc.Spec
