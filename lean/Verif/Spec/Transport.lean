import Verif.Model.Transport
import Verif.Spec.Geometry
import Verif.Spec.Surface
import Verif.Spec.Multigroup
import Verif.Lemmas.Rng

/-! # Specification of the steps of a particle -/

namespace Minimc.Spec

/-- The surface bounds the cell. -/
def Bounds (s : SurfaceObj) (c : Cell) : Prop := ∃ b, (s, b) ∈ c.surfaceSenses

/-- The point is on the side of every bounding surface that the cell asks for, going by the
surfaces' own test. -/
def InCell (c : Cell) (x : Point) : Prop := ∀ e ∈ c.surfaceSenses, e.1.shape.contains x = e.2

/-- `c` is the first cell of the world that the point is in. -/
def FirstCell (w : World) (x : Point) (c : Cell) : Prop :=
  ∃ l r, w.cells = l ++ c :: r ∧ InCell c x ∧ ∀ c' ∈ l, ¬ InCell c' x

/-- No surface of the cell is ahead of the particle at a distance smaller than `t`. -/
def NoSurfaceBefore (c : Cell) (p : Particle) (t : WithTop ℝ) : Prop :=
  ∀ s, Bounds s c → t ≤ s.shape.distance p.position p.direction

/-- What no step changes: the type.  Secondaries are only added, at the new position, in the
cell, and as neutrons. -/
structure Continues (p p' : Particle) : Prop where
  type : p'.type = p.type
  secondaries : ∃ new, p'.secondaries = p.secondaries ++ new ∧
    ∀ b ∈ new, b.position = p'.position ∧ b.cell = p'.cell ∧ b.type = .neutron

/-- The particle flew to the nearest surface `s` of its cell and a little beyond, and is now in
the first cell containing its new position; it leaked if that cell has no material. -/
structure Crosses (w : World) (p p' : Particle) (s : SurfaceObj) : Prop where
  flight : ∃ c t, p.cell = some c ∧ Bounds s c ∧
    s.shape.distance p.position p.direction = ((t : ℝ) : WithTop ℝ) ∧
    NoSurfaceBefore c p ((t : ℝ) : WithTop ℝ) ∧
    p'.position = along p.position p.direction (t + 10 / 2 ^ 52)
  arrival : ∃ c', FirstCell w p'.position c' ∧ p'.cell = some c' ∧
    (c'.material = none → p'.event = .leak) ∧ (c'.material ≠ none → p'.event = .surfaceCross)
  surface : p'.currentSurface = some s
  direction : p'.direction = p.direction
  energy : p'.energy = p.energy
  type : p'.type = p.type
  secondaries : p'.secondaries = p.secondaries

/-- The particle flew a distance `t`, reaching no surface of its cell before, and collided
there. -/
structure Collides (p p' : Particle) : Prop where
  flight : ∃ c t, p.cell = some c ∧ NoSurfaceBefore c p ((t : ℝ) : WithTop ℝ) ∧
    p'.position = along p.position p.direction t
  cell : p'.cell = p.cell
  surface : p'.currentSurface = p.currentSurface
  event : p'.event = .scatter ∨ p'.event = .capture ∨ p'.event = .fission
  continues : Continues p p'

/-- The particle flew a distance `t`, reaching no surface of its cell before, and went on
as before. -/
structure Passes (p p' : Particle) : Prop where
  flight : ∃ c t, p.cell = some c ∧ NoSurfaceBefore c p ((t : ℝ) : WithTop ℝ) ∧
    p'.position = along p.position p.direction t
  cell : p'.cell = p.cell
  surface : p'.currentSurface = p.currentSurface
  event : p'.event = .virtualCollision
  direction : p'.direction = p.direction
  energy : p'.energy = p.energy
  type : p'.type = p.type
  secondaries : p'.secondaries = p.secondaries

/-- The rate of collisions per unit length is not negative anywhere in the world. -/
def NonnegRates (method : Method) (w : World) : Prop :=
  ∀ c ∈ w.cells, ∀ m, c.material = some m → ∀ q : Particle, q.cell = some c →
    ∀ σ, (match method with
      | .surfaceTracking => m.getMicroscopicTotal q
      | .cellDeltaTracking => m.getMicroscopicMajorant q) = .ok σ → 0 ≤ m.numberDensity * σ

/-- A step of either transport method; only delta tracking has collisions in which nothing
happens. -/
def Step (method : Method) (w : World) (p p' : Particle) : Prop :=
  (∃ s, Crosses w p p' s) ∨ Collides p p' ∨ (method = .cellDeltaTracking ∧ Passes p p')

/-- The last thing that happened ends the particle's life. -/
def Ended (p : Particle) : Prop := p.event = .capture ∨ p.event = .fission ∨ p.event = .leak

/-- `states` are the states of a particle after each step of its life, starting from `p`. -/
inductive Life (R : Particle → Particle → Prop) : Particle → List Particle → Prop where
  | ended {p : Particle} : Ended p → Life R p []
  | step {p p' : Particle} {rest : List Particle} : ¬ Ended p → R p p' → Life R p' rest →
      Life R p (p' :: rest)

/-- Neutrons see multigroup data read from the given nodes: non-negative numbers, and a yield and
an emission spectrum if there is fission. -/
def HasGroupData (G : ℕ) (n : Nuclide) (nodes : List MgNode) : Prop :=
  ∃ m, n.xs .neutron = some (.multigroup m) ∧ Multigroup.create G nodes = .ok m ∧
    NonnegNodes nodes ∧ ∀ g, 0 < specXS G nodes .fission g →
      ∃ nubar chi, Multigroup.findNubar nodes = some nubar ∧ Multigroup.findChi nodes = some chi

/-- A multigroup problem that transport can deal with: every point is in a cell, cells with
material have a surface, and in each group something reacts in each material. -/
structure WellPosed (G : ℕ) (nodes : Nuclide → List MgNode) (w : World) : Prop where
  covered : ∀ x, ∃ c ∈ w.cells, InCell c x
  bounded : ∀ c ∈ w.cells, c.material ≠ none → c.surfaceSenses ≠ []
  density : ∀ c ∈ w.cells, ∀ m, c.material = some m → 0 < m.numberDensity
  data : ∀ c ∈ w.cells, ∀ m, c.material = some m → ∀ e ∈ m.afracs,
    0 < e.2 ∧ HasGroupData G e.1 (nodes e.1)
  reacts : ∀ c ∈ w.cells, ∀ m, c.material = some m → ∀ g, 1 ≤ g → g ≤ G →
    ∃ e ∈ m.afracs, 0 < specTotal G (nodes e.1) g

/-- A neutron in one of the groups. -/
structure GroupNeutron (G : ℕ) (p : Particle) : Prop where
  type : p.type = .neutron
  group : ∃ g, InGroup p g ∧ 1 ≤ g ∧ g ≤ G
  rng : Rng.Valid p.rng

/-- All that the particle has banked are neutrons in one of the groups. -/
def BanksInGroups (G : ℕ) (p : Particle) : Prop :=
  ∀ b ∈ p.secondaries, b.type = .neutron ∧ ∃ g, b.energy = .group g ∧ 1 ≤ g ∧ g ≤ G

end Minimc.Spec
