import Verif.Model.Particle

/-! # Multigroup interactions (Multigroup.cpp) -/

namespace Minimc

/-- A child of a multigroup particle node, with the numbers already read
(Multigroup.cpp:84-88, 127-132, 215-226). -/
inductive MgNode where
  | capture (xs : List ℝ)
  | scatter (flattened : List ℝ)
  | fission (nubar chi : Option (List ℝ)) (xs : List ℝ)

namespace Multigroup

/-- `OneDimensional(groupxs_node)` (Multigroup.cpp:82-94) for `G` groups. -/
def oneDimensional (G : ℕ) (elements : List ℝ) : Res (List ℝ) :=
  if elements.length ≠ G then .error .runtimeError else .ok elements

/-- `OneDimensional::at` (Multigroup.cpp:96-98); `g - 1` wraps around for `g = 0`. -/
def oneAt (l : List ℝ) (g : ℕ) : Res ℝ :=
  if g = 0 then .error .outOfRange else vecAt l (g - 1)

/-- Inner loop of the `TwoDimensional` constructor (Multigroup.cpp:141-144): column `gp`. -/
def column (G : ℕ) (flattened : List ℝ) (gp : ℕ) : Res (List ℝ) :=
  (List.range' 1 G).mapM (fun g => vecAt flattened (G * (g - 1) + (gp - 1)))

/-- `TwoDimensional(groupxs_node)` (Multigroup.cpp:124-147). -/
def twoDimensional (G : ℕ) (flattened : List ℝ) : Res (List (List ℝ)) :=
  if flattened.length ≠ G * G then .error .runtimeError
  else (List.range' 1 G).mapM (fun gp => column G flattened gp)

/-- `TwoDimensional::at` (Multigroup.cpp:149-152). -/
def twoAt (t : List (List ℝ)) (g : ℕ) : Res (List ℝ) :=
  if g = 0 then .error .outOfRange else vecAt t (g - 1)

/-- `std::accumulate(begin, end, 0.)` (Multigroup.cpp:174-176, 206-207). -/
noncomputable def columnSum (column : List ℝ) : ℝ := column.foldl (· + ·) 0

open Classical in
/-- One round of the normalisation (Multigroup.cpp:173-185). -/
noncomputable def normalizeColumn (column : List ℝ) : List ℝ :=
  if columnSum column = 0 then column else column.map (fun e => e / columnSum column)

/-- `NormalizedTwoDimensional(groupxs_node)` (Multigroup.cpp:168-186). -/
noncomputable def normalizedTwoDimensional (G : ℕ) (flattened : List ℝ) :
    Res (List (List ℝ)) := do
  let t ← twoDimensional G flattened
  .ok (t.map normalizeColumn)

/-- `CreateScatterXS` (Multigroup.cpp:201-210). -/
noncomputable def createScatterXS (G : ℕ) (flattened : List ℝ) : Res (List ℝ) := do
  let t ← twoDimensional G flattened
  .ok (t.map columnSum)

/-- Position of a reaction in the enumeration (Reaction.hpp:9-13): the key order of the
map. -/
def rank : Reaction → ℕ
  | .capture => 0
  | .scatter => 1
  | .fission => 2

/-- `std::map::emplace` (Multigroup.cpp:218, 222, 225): insert in key order, keep an existing
entry. -/
def emplace (r : Reaction) (xs : List ℝ) : List (Reaction × List ℝ) → List (Reaction × List ℝ)
  | [] => [(r, xs)]
  | (r', xs') :: m =>
    if rank r < rank r' then (r, xs) :: (r', xs') :: m
    else if r = r' then (r', xs') :: m
    else (r', xs') :: emplace r xs m

/-- One round of the loop in `CreateReactions` (Multigroup.cpp:216-226). -/
noncomputable def reactionXS (G : ℕ) : MgNode → Res (Reaction × List ℝ)
  | .capture xs => do .ok (.capture, ← oneDimensional G xs)
  | .scatter flattened => do .ok (.scatter, ← createScatterXS G flattened)
  | .fission _ _ xs => do .ok (.fission, ← oneDimensional G xs)

/-- `CreateReactions` (Multigroup.cpp:212-229): loop over the remaining nodes. -/
noncomputable def createReactions (G : ℕ) :
    List (Reaction × List ℝ) → List MgNode → Res (List (Reaction × List ℝ))
  | m, [] => .ok m
  | m, node :: nodes => do
    let (r, xs) ← reactionXS G node
    createReactions G (emplace r xs m) nodes

/-- `CreateTotalXS` (Multigroup.cpp:231-243). -/
noncomputable def createTotalXS (G : ℕ) (reactions : List (Reaction × List ℝ)) : List ℝ :=
  reactions.foldl (fun accumulated r => List.zipWith (· + ·) accumulated r.2)
    (List.replicate G 0)

/-- `particle_node.child("fission").child("nubar")` (Multigroup.cpp:24-27): the first fission
node decides. -/
def findNubar : List MgNode → Option (List ℝ)
  | [] => none
  | .fission nubar _ _ :: _ => nubar
  | _ :: nodes => findNubar nodes

/-- `particle_node.child("fission").child("chi")` (Multigroup.cpp:28-31). -/
def findChi : List MgNode → Option (List ℝ)
  | [] => none
  | .fission _ chi _ :: _ => chi
  | _ :: nodes => findChi nodes

/-- `particle_node.child("scatter")` (Multigroup.cpp:32-35). -/
def findScatter : List MgNode → Option (List ℝ)
  | [] => none
  | .scatter flattened :: _ => some flattened
  | _ :: nodes => findScatter nodes

/-- `std::make_optional` around a constructor that may throw (Multigroup.cpp:24-35). -/
def optionally {α β : Type _} (f : α → Res β) : Option α → Res (Option β)
  | none => .ok none
  | some a => do .ok (some (← f a))

/-- `Multigroup` constructor (Multigroup.cpp:23-38) for `G` groups (`GroupStructureSize`,
Multigroup.cpp:192-199). -/
noncomputable def create (G : ℕ) (nodes : List MgNode) : Res Multigroup := do
  let nubar ← optionally (oneDimensional G) (findNubar nodes)
  let chi ← optionally (normalizedTwoDimensional G) (findChi nodes)
  let scatterProbs ← optionally (normalizedTwoDimensional G) (findScatter nodes)
  let reactions ← createReactions G [] nodes
  .ok ⟨nubar, chi, scatterProbs, reactions, createTotalXS G reactions, G⟩

/-- `Multigroup::GetTotal` (Multigroup.cpp:45-47). -/
def getTotal (m : Multigroup) (p : Particle) : Res ℝ := noexcept do
  let g ← p.energy.getGroup
  oneAt m.total g

/-- `Multigroup::GetMajorant` (Multigroup.cpp:40-43). -/
def getMajorant (m : Multigroup) (p : Particle) : Res ℝ := m.getTotal p

/-- `std::optional::value` (Multigroup.cpp:254, 272, 274): throws when empty. -/
def optValue {α : Type _} : Option α → Res α
  | some a => .ok a
  | none => .error .badVariant

/-- The group selected by the loops Multigroup.cpp:255-262 and 279-285. -/
noncomputable def selectGroup (maxGroup : ℕ) (probs : List ℝ) (threshold : ℝ) :
    Res (Option ℕ) :=
  selectLoop (fun g => oneAt probs g) threshold 0 (List.range' 1 maxGroup)

/-- `Multigroup::Capture` (Multigroup.cpp:245-247). -/
def capture (p : Particle) : Particle := { p with event := .capture }

/-- `Multigroup::Scatter` (Multigroup.cpp:249-265). -/
noncomputable def scatter (m : Multigroup) (p : Particle) : Res Particle := noexcept do
  let p := { p with event := .scatter }
  let (threshold, p) := p.sample
  let probs ← optValue m.scatterProbs
  let g ← p.energy.getGroup
  let column ← twoAt probs g
  match ← selectGroup m.maxGroup column threshold with
  | some g' => .ok { p with energy := .group g' }.setDirectionIsotropic
  | none => .error .assertFail

/-- The loop over secondaries (Multigroup.cpp:275-286), `n` rounds left. -/
noncomputable def bankLoop (maxGroup : ℕ) (probs : List ℝ) : ℕ → Particle → Res Particle
  | 0, p => .ok p
  | n + 1, p => do
    let (threshold, p) := p.sample
    match ← selectGroup maxGroup probs threshold with
    | some g =>
      let (d, rng) := Direction.isotropic p.rng
      bankLoop maxGroup probs n ({ p with rng := rng }.bankSecondary d (.group g))
    | none => bankLoop maxGroup probs n p

/-- `Multigroup::Fission` (Multigroup.cpp:267-287). -/
noncomputable def fission (m : Multigroup) (p : Particle) : Res Particle := noexcept do
  let p := { p with event := .fission }
  let g ← p.energy.getGroup
  let nubar ← optValue m.nubar
  let nu ← oneAt nubar g
  let (u, p) := p.sample
  let yield ← toSize (nu + u)
  let chi ← optValue m.chi
  let probs ← twoAt chi g
  bankLoop m.maxGroup probs yield p

/-- The reaction selected by Multigroup.cpp:52-69 with the given threshold. -/
noncomputable def selectReaction (m : Multigroup) (p : Particle) (threshold : ℝ) :
    Res (Option (Reaction × List ℝ)) :=
  selectLoop (fun r => do oneAt r.2 (← p.energy.getGroup)) threshold 0 m.reactions

/-- `Multigroup::Interact` (Multigroup.cpp:49-73). -/
noncomputable def interact (m : Multigroup) (p : Particle) : Res Particle := noexcept do
  let (u, p) := p.sample
  let total ← m.getTotal p
  match ← m.selectReaction p (u * total) with
  | some (.capture, _) => .ok (capture p)
  | some (.scatter, _) => m.scatter p
  | some (.fission, _) => m.fission p
  | none => .error .assertFail

end Multigroup
end Minimc
