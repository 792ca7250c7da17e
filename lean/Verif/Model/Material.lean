import Verif.Model.Continuous

/-! # Nuclides and materials (Nuclide.cpp, Material.cpp, Particle::SampleNuclide) -/

namespace Minimc

/-- Virtual calls on `Interaction` (Interaction.hpp:28-37). -/
noncomputable def Interaction.getTotal (i : Interaction) (p : Particle) : Res ℝ :=
  match i with
  | .multigroup m => m.getTotal p
  | .continuous c => c.getTotal p

/-- Virtual calls on `Interaction` (Interaction.hpp:28-37). -/
noncomputable def Interaction.getMajorant (i : Interaction) (p : Particle) : Res ℝ :=
  match i with
  | .multigroup m => m.getMajorant p
  | .continuous c => c.getMajorant p

/-- Virtual calls on `Interaction` (Interaction.hpp:28-37). -/
noncomputable def Interaction.interact (i : Interaction) (fuel : ℕ) (p : Particle) :
    Res Particle :=
  match i with
  | .multigroup m => m.interact p
  | .continuous c => c.interact fuel p

namespace Nuclide

/-- `xs.at(p.type)` (Nuclide.cpp:17, 21, 25): throws when the particle type is absent. -/
def xsAt (n : Nuclide) (p : Particle) : Res Interaction :=
  match n.xs p.type with
  | some i => .ok i
  | none => .error .outOfRange

/-- `Nuclide::GetMajorant` (Nuclide.cpp:16-18). -/
noncomputable def getMajorant (n : Nuclide) (p : Particle) : Res ℝ := noexcept do
  (← n.xsAt p).getMajorant p

/-- `Nuclide::GetTotal` (Nuclide.cpp:20-22). -/
noncomputable def getTotal (n : Nuclide) (p : Particle) : Res ℝ := noexcept do
  (← n.xsAt p).getTotal p

/-- `Nuclide::Interact` (Nuclide.cpp:24-26). -/
noncomputable def interact (n : Nuclide) (fuel : ℕ) (p : Particle) : Res Particle := noexcept do
  (← n.xsAt p).interact fuel p

end Nuclide

namespace Material

/-- The loop of `Material::AssignNuclides` over the nuclide nodes (Material.cpp:70-81), given
as pairs of name and fraction.  A missing nuclide trips the assertion. -/
def collect (all : List Nuclide) :
    List (Nuclide × ℝ) → List (String × ℝ) → Res (List (Nuclide × ℝ))
  | m, [] => .ok m
  | m, (name, afrac) :: nodes =>
    match all.find? (fun n => n.name == name) with
    | some n => collect all (emplaceByAddr Nuclide.id n afrac m) nodes
    | none => .error .assertFail

/-- `sum_afrac` (Material.cpp:83-87). -/
noncomputable def sumAfrac (m : List (Nuclide × ℝ)) : ℝ := m.foldl (fun acc e => acc + e.2) 0

open Classical in
/-- `Material::AssignNuclides` (Material.cpp:65-94).  Dividing by a zero sum is not a number
or infinite unless there are no entries. -/
noncomputable def assignNuclides (all : List Nuclide) (nodes : List (String × ℝ)) :
    Res (List (Nuclide × ℝ)) := do
  let m ← collect all [] nodes
  if sumAfrac m = 0 ∧ m ≠ [] then .error .nan
  else .ok (m.map (fun e => (e.1, e.2 / sumAfrac m)))

/-- `Material` constructor (Material.cpp:35-39) from a `material` node that was found. -/
noncomputable def create (name : String) (all : List Nuclide) (nodes : List (String × ℝ))
    (aden : ℝ) : Res Material := do
  let afracs ← assignNuclides all nodes
  .ok ⟨name, afracs, aden⟩

/-- `Material::GetMicroscopicMajorant` (Material.cpp:41-50). -/
noncomputable def getMicroscopicMajorant (m : Material) (p : Particle) : Res ℝ := noexcept <|
  sumLoop (fun e => do .ok (e.2 * (← e.1.getMajorant p))) 0 m.afracs

/-- `Material::GetMicroscopicTotal` (Material.cpp:52-61). -/
noncomputable def getMicroscopicTotal (m : Material) (p : Particle) : Res ℝ := noexcept <|
  sumLoop (fun e => do .ok (e.2 * (← e.1.getTotal p))) 0 m.afracs

/-- The loop of `SampleNuclide` (Particle.cpp:114-120) with the given threshold. -/
noncomputable def selectNuclide (m : Material) (p : Particle) (threshold : ℝ) :
    Res (Option (Nuclide × ℝ)) :=
  selectLoop (fun e => do .ok (e.2 * (← e.1.getTotal p))) threshold 0 m.afracs

end Material

/-- `cell->material->...` (Particle.cpp:112, TransportMethod.cpp:58): dereferencing a null
pointer is undefined. -/
def Particle.materialOrUB (p : Particle) : Res Material :=
  match p.cell with
  | none => .error .ub
  | some c =>
    match c.material with
    | none => .error .ub
    | some m => .ok m

/-- `Particle::SampleNuclide` (Particle.cpp:110-124). -/
noncomputable def Particle.sampleNuclide (p : Particle) : Res (Nuclide × Particle) := noexcept do
  let m ← p.materialOrUB
  let total ← m.getMicroscopicTotal p
  let (u, p') := p.sample
  match ← m.selectNuclide p' (total * u) with
  | some e => .ok (e.1, p')
  | none => .error .assertFail

end Minimc
