import Verif.Model.Types

/-! # Cells and world lookup (Cell.cpp, World.cpp) -/

namespace Minimc

open Classical

namespace Cell

/-- `Cell::Contains` (Cell.cpp:27-35). -/
noncomputable def contains (c : Cell) (p : Point) : Bool :=
  c.surfaceSenses.all (fun s => s.1.shape.contains p == s.2)

/-- `std::min_element` (Cell.cpp:39-43) over the remaining entries with the best one so far: a
later entry replaces it only if strictly nearer. -/
noncomputable def nearestFrom (p : Point) (d : Direction) :
    SurfaceObj → List (SurfaceObj × Bool) → SurfaceObj
  | best, [] => best
  | best, s :: ss =>
    if s.1.shape.distance p d < best.shape.distance p d then nearestFrom p d s.1 ss
    else nearestFrom p d best ss

/-- `Cell::NearestSurface` (Cell.cpp:37-51). -/
noncomputable def nearestSurface (c : Cell) (p : Point) (d : Direction) :
    Res (SurfaceObj × WithTop ℝ) :=
  match c.surfaceSenses with
  | [] => .error .runtimeError
  | s :: ss =>
    let nearest := nearestFrom p d s.1 ss
    .ok (nearest, nearest.shape.distance p d)

end Cell

namespace World

/-- `World::FindCellContaining` (World.cpp:26-37). -/
noncomputable def findCellContaining (w : World) (p : Point) : Res Cell :=
  match w.cells.find? (fun c => c.contains p) with
  | some c => .ok c
  | none => .error .runtimeError

/-- `World::HasConstantTemperature` (World.cpp:39-41). -/
noncomputable def hasConstantTemperature (w : World) : Bool := w.temperature.isConstant

/-- `World::FindSurfaceByName` (World.cpp:43-61). -/
def findSurfaceByName (w : World) (name : String) : Res SurfaceObj :=
  match w.surfaces.find? (fun s => s.name == name) with
  | some s => .ok s
  | none => .error .runtimeError

/-- `World::FindNuclideByName` (World.cpp:63-81). -/
def findNuclideByName (w : World) (name : String) : Res Nuclide :=
  match w.nuclides.find? (fun n => n.name == name) with
  | some n => .ok n
  | none => .error .runtimeError

end World

/-- The content of the `tracking` element (TransportMethod.cpp:27-28) as far as
`TransportMethod::Create` distinguishes it. -/
inductive TrackingType where
  | absent
  | surface
  | cellDelta
  | other
deriving DecidableEq, Repr

/-- `TransportMethod::Create` (TransportMethod.cpp:23-46). -/
noncomputable def createMethod (t : TrackingType) (w : World) : Res Method :=
  match t with
  | .absent => if w.hasConstantTemperature then .ok .surfaceTracking else .error .runtimeError
  | .surface => if w.hasConstantTemperature then .ok .surfaceTracking else .error .runtimeError
  | .cellDelta => .ok .cellDeltaTracking
  | .other => .error .assertFail

end Minimc
