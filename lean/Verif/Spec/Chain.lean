import Verif.Spec.Walk

/-!
# Specification: chains of neutrons

The walk of a neutron and of all its descendants by fission, played with a supply of numbers, and what
fission adds to the integral transport equation.
-/

namespace Minimc.Spec

open Classical MeasureTheory
open scoped ENNReal

/-! ### Numbers -/

/-- Where a neutron takes its numbers from, and where a neutron born by fission takes its own from. -/
structure Supply (σ : Type) where
  /-- the next number -/
  number : σ → ℝ
  /-- what is left after it -/
  rest : σ → σ
  /-- the supply of a new neutron -/
  child : σ → σ
  /-- what is left after a new neutron has got its supply -/
  after : σ → σ

/-- Number `k` of the supply. -/
def Supply.numbers {σ : Type} (S : Supply σ) (s : σ) (k : ℕ) : ℝ := S.number (S.rest^[k] s)

/-- The supply that is a sequence of numbers: a new neutron gets every other one. -/
def endless : Supply (ℕ → ℝ) where
  number us := us 0
  rest us k := us (k + 1)
  child us k := us (2 * k)
  after us k := us (2 * k + 1)

/-- The supply that is the state of a random number generator: a new neutron gets a generator that is
seeded with the next output (Particle.cpp:96-100, 36-40). -/
noncomputable def generator : Supply ℕ where
  number s := (Rng.canonical s).1
  rest s := (Rng.canonical s).2
  child s := Rng.ofSeed (Rng.next s)
  after s := Rng.next s

/-! ### Data -/

/-- The yields of the first fission node, empty if there are none. -/
def nubarTable (nodes : List MgNode) : List ℝ :=
  (nodes.findSome? fun n => match n with | .fission nubar _ _ => some (nubar.getD []) | _ => none).getD []

/-- The emission spectra of the first fission node, empty if there are none. -/
def chiTable (nodes : List MgNode) : List ℝ :=
  (nodes.findSome? fun n => match n with | .fission _ chi _ => some (chi.getD []) | _ => none).getD []

/-- Neutrons of group `g'` made by fission, per unit length of the way of a neutron of group `g`: density
times the sum, over the nuclides, of fraction, fission cross section, yield and share of the group in
the spectrum. -/
noncomputable def fissionRate (G : ℕ) (nodes : Nuclide → List MgNode) (m : Material) (g g' : ℕ) : ℝ :=
  m.numberDensity * (m.afracs.map fun e => e.2 * (specXS G (nodes e.1) .fission g *
    entry1 (nubarTable (nodes e.1)) g *
      (entry2 G (chiTable (nodes e.1)) g g' / colSum G (chiTable (nodes e.1)) g))).sum

/-! ### The game -/

/-- What the neutrons of a fission score, if `start` is what a new neutron scores.  For each of them one
number chooses the group and two the direction, then it gets its own numbers. -/
noncomputable def births {σ : Type} (S : Supply σ) (ws : List ℝ) (start : Direction → ℕ → σ → ℝ≥0∞) :
    ℕ → σ → ℝ≥0∞
  | 0, _ => 0
  | k + 1, s => byWeight ws (S.number s) fun j =>
    start (directionFrom (S.numbers s 1) (S.numbers s 2)) (j + 1) (S.child (S.rest^[3] s)) +
      births S ws start k (S.after (S.rest^[3] s))

/-- A collision of a neutron of group `g`, see `afterCollision`.  After a fission the third number
rounds the yield down or up. -/
noncomputable def afterEvent {σ : Type} (S : Supply σ) (G : ℕ) (nodes : Nuclide → List MgNode)
    (m : Material) (g : ℕ) (next start : Direction → ℕ → σ → ℝ≥0∞) (s : σ) : ℝ≥0∞ :=
  byWeight (m.afracs.map fun e => e.2 * specTotal G (nodes e.1) g) (S.numbers s 0) fun i =>
    m.afracs[i]?.elim 0 fun e =>
      byWeight [specXS G (nodes e.1) .capture g, specXS G (nodes e.1) .scatter g,
          specXS G (nodes e.1) .fission g] (S.numbers s 1) fun r =>
        if r = 1 then
          byWeight (colEntries G (scatterTable (nodes e.1)) g) (S.numbers s 2) fun j =>
            next (directionFrom (S.numbers s 3) (S.numbers s 4)) (j + 1) (S.rest^[5] s)
        else if r = 2 then
          births S (colEntries G (chiTable (nodes e.1)) g) start
            ⌊entry1 (nubarTable (nodes e.1)) g + S.numbers s 2⌋₊ (S.rest^[3] s)
        else 0

/-- One round of a neutron: it scores `hit` for the surface that it crosses, and the neutrons that are
there after the round score `next` from then on, see `walkScore`.  New neutrons start in the first cell
that they are in. -/
noncomputable def oneRound {σ : Type} (S : Supply σ) (G : ℕ) (nodes : Nuclide → List MgNode)
    (w : World) (method : Method) (hit : SurfaceObj → Direction → ℕ → ℝ≥0∞)
    (next : Cell → Point → Direction → ℕ → σ → ℝ≥0∞) (c : Cell) (x : Point) (d : Direction) (g : ℕ)
    (s : σ) : ℝ≥0∞ :=
  c.material.elim 0 fun m =>
    if FliesTo method (ahead c x d) (-Real.log (1 - S.number s) / macroscopic G nodes g m) then
      (faced c x d).elim 0 fun f => (cellAt w (beyond c x d)).elim 0 fun c' =>
        hit f d g + next c' (beyond c x d) d g (S.rest s)
    else
      afterEvent S G nodes m g
        (next c (along x d (-Real.log (1 - S.number s) / macroscopic G nodes g m)))
        (fun d' g' s' =>
          (cellAt w (along x d (-Real.log (1 - S.number s) / macroscopic G nodes g m))).elim 0 fun c' =>
            next c' (along x d (-Real.log (1 - S.number s) / macroscopic G nodes g m)) d' g' s')
        (S.rest^[drawnBefore method] s)

/-- What a neutron and its descendants score in their first rounds, if a crossing of a surface scores
`hit`. -/
noncomputable def chainScore {σ : Type} (S : Supply σ) (G : ℕ) (nodes : Nuclide → List MgNode)
    (w : World) (method : Method) (hit : SurfaceObj → Direction → ℕ → ℝ≥0∞) :
    ℕ → Cell → Point → Direction → ℕ → σ → ℝ≥0∞
  | 0, _, _, _, _, _ => 0
  | n + 1, c, x, d, g, s =>
    oneRound S G nodes w method hit (chainScore S G nodes w method hit n) c x d g s

/-! ### The transport equation -/

/-- What fission adds to the right hand side of the integral transport equation: the neutrons that it
makes along the way, attenuated. -/
noncomputable def bred (G : ℕ) (nodes : Nuclide → List MgNode) (w : World)
    (E : Cell → Point → Direction → ℕ → ℝ≥0∞) (c : Cell) (x : Point) (d : Direction) (g : ℕ) : ℝ≥0∞ :=
  c.material.elim 0 fun m =>
    ∫⁻ s in {s : ℝ | 0 < s ∧ (s : WithTop ℝ) < ahead c x d},
      ENNReal.ofReal (Real.exp (-(macroscopic G nodes g m * s))) *
        ∑ g' ∈ Finset.Icc 1 G, ENNReal.ofReal (fissionRate G nodes m g g') *
          sphereMean fun d' => (cellAt w (along x d s)).elim 0 fun c' => E c' (along x d s) d' g'

/-- The mean of the score of the chain in the first rounds, if the numbers are independent. -/
noncomputable def chainMean (G : ℕ) (nodes : Nuclide → List MgNode) (w : World) (method : Method)
    (hit : SurfaceObj → Direction → ℕ → ℝ≥0∞) (n : ℕ) (c : Cell) (x : Point) (d : Direction)
    (g : ℕ) : ℝ≥0∞ :=
  ∫⁻ us, chainScore endless G nodes w method hit n c x d g us ∂uniforms

/-- The mean of the score of the chain in all rounds. -/
noncomputable def meanChain (G : ℕ) (nodes : Nuclide → List MgNode) (w : World) (method : Method)
    (hit : SurfaceObj → Direction → ℕ → ℝ≥0∞) (c : Cell) (x : Point) (d : Direction) (g : ℕ) : ℝ≥0∞ :=
  ∫⁻ us, ⨆ n, chainScore endless G nodes w method hit n c x d g us ∂uniforms

end Minimc.Spec
