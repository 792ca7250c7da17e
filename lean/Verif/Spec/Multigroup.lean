import Verif.Model.Multigroup

/-!
# Multigroup data as the user writes it

These definitions read numbers directly off the input lists; they do not use the tables built
by the code.
-/

namespace Minimc.Spec

/-- Entry of a one-dimensional table for group `g` (counted from one). -/
noncomputable def entry1 (l : List ℝ) (g : ℕ) : ℝ := l.getD (g - 1) 0

/-- Entry of a `G` by `G` table listed row by row: row `g` is the outgoing group, column `gp`
the incoming one. -/
noncomputable def entry2 (G : ℕ) (flat : List ℝ) (gp g : ℕ) : ℝ :=
  flat.getD (G * (g - 1) + (gp - 1)) 0

/-- Entries of a column, in the order of the outgoing groups. -/
noncomputable def colEntries (G : ℕ) (flat : List ℝ) (gp : ℕ) : List ℝ :=
  (List.range' 1 G).map (entry2 G flat gp)

/-- Sum of a column: over all outgoing groups. -/
noncomputable def colSum (G : ℕ) (flat : List ℝ) (gp : ℕ) : ℝ :=
  ((List.range' 1 G).map (entry2 G flat gp)).sum

/-- Cross section a node contributes to reaction `r` in group `g`, if it is of that kind. -/
noncomputable def nodeXS (G : ℕ) (r : Reaction) (g : ℕ) : MgNode → Option ℝ
  | .capture xs => if r = .capture then some (entry1 xs g) else none
  | .scatter flat => if r = .scatter then some (colSum G flat g) else none
  | .fission _ _ xs => if r = .fission then some (entry1 xs g) else none

/-- Cross section of reaction `r` in group `g`: that of the first node of the kind, zero when
there is none. -/
noncomputable def specXS (G : ℕ) (nodes : List MgNode) (r : Reaction) (g : ℕ) : ℝ :=
  (nodes.findSome? (nodeXS G r g)).getD 0

/-- Total cross section: all three reactions. -/
noncomputable def specTotal (G : ℕ) (nodes : List MgNode) (g : ℕ) : ℝ :=
  specXS G nodes .capture g + specXS G nodes .scatter g + specXS G nodes .fission g

/-- The numbers of a node that the schema requires to be non-negative. -/
def NonnegNode : MgNode → Prop
  | .capture xs => ∀ x ∈ xs, 0 ≤ x
  | .scatter flat => ∀ x ∈ flat, 0 ≤ x
  | .fission nubar chi xs =>
    (∀ x ∈ xs, 0 ≤ x) ∧ (∀ l, nubar = some l → ∀ x ∈ l, 0 ≤ x) ∧
      ∀ l, chi = some l → ∀ x ∈ l, 0 ≤ x

/-- Input that passes validation: non-negative numbers. -/
def NonnegNodes (nodes : List MgNode) : Prop := ∀ n ∈ nodes, NonnegNode n

/-- The group of a particle is `g`. -/
def InGroup (p : Particle) (g : ℕ) : Prop := p.energy = .group g

end Minimc.Spec
