import Verif.Spec.Shift
import Verif.Lemmas.Keeps
import Verif.Lemmas.Material

/-! # Lemmas about problems that are moved as a whole -/

namespace Minimc

open Classical Spec

theorem noexcept_map {α β : Type _} (f : α → β) (x : Res α) :
    (noexcept x).map f = noexcept (x.map f) := by
  rcases x with e | a
  · cases e <;> rfl
  · rfl

theorem bind_map {α β γ : Type _} (x : Res α) (f : α → Res β) (g : β → γ) :
    (x >>= f).map g = x >>= fun a => (f a).map g := by
  cases x <;> rfl

/-! ### Geometry -/

theorem shift_sub (p c v : Point) : (p + v) - (c + v) = p - c := by
  change Point.mk _ _ _ = Point.mk _ _ _
  congr 1
  · exact add_sub_add_right_eq_sub p.x c.x v.x
  · exact add_sub_add_right_eq_sub p.y c.y v.y
  · exact add_sub_add_right_eq_sub p.z c.z v.z

/-- Moving a cylinder along its axis, or any other surface. -/
def CanShiftShape (v : Point) (s : Surface) : Prop :=
  (v.y = 0 ∧ v.z = 0) ∨ ∀ r, s ≠ .cylinderX r

theorem shift_contains {v : Point} {s : Surface} (h : CanShiftShape v s) (p : Point) :
    (shiftShape v s).contains (p + v) = s.contains p := by
  rcases s with ⟨c, r⟩ | c | r
  · simp only [shiftShape, Surface.contains, Surface.sphereContains, shift_sub]
  · simp only [shiftShape, Surface.contains, Surface.planeXContains]
    congr 1
    have : (p + v).dot ⟨1, 0, 0⟩ = p.dot ⟨1, 0, 0⟩ + v.x := by
      change (p.x + v.x) * 1 + (p.y + v.y) * 0 + (p.z + v.z) * 0 = p.x * 1 + p.y * 0 + p.z * 0 + v.x
      ring
    rw [this, add_lt_add_iff_right]
  · have hv : v.y = 0 ∧ v.z = 0 := by
      rcases h with h | h
      · exact h
      · exact absurd rfl (h r)
    simp only [shiftShape, Surface.contains, Surface.cylinderXContains]
    congr 3
    change (p.x + v.x) * (p.x + v.x) + (p.y + v.y) * (p.y + v.y) + (p.z + v.z) * (p.z + v.z) -
      ((p.x + v.x) * 1 + (p.y + v.y) * 0 + (p.z + v.z) * 0) *
        ((p.x + v.x) * 1 + (p.y + v.y) * 0 + (p.z + v.z) * 0) =
      p.x * p.x + p.y * p.y + p.z * p.z -
        (p.x * 1 + p.y * 0 + p.z * 0) * (p.x * 1 + p.y * 0 + p.z * 0)
    rw [hv.1, hv.2]
    ring

theorem shift_distance {v : Point} {s : Surface} (h : CanShiftShape v s) (p : Point)
    (d : Direction) : (shiftShape v s).distance (p + v) d = s.distance p d := by
  rcases s with ⟨c, r⟩ | c | r
  · simp only [shiftShape, Surface.distance, Surface.sphereDistance, shift_sub]
  · simp only [shiftShape, Surface.distance, Surface.planeXDistance]
    have : c + v.x - (p + v).dot ⟨1, 0, 0⟩ = c - p.dot ⟨1, 0, 0⟩ := by
      change c + v.x - ((p.x + v.x) * 1 + (p.y + v.y) * 0 + (p.z + v.z) * 0) =
        c - (p.x * 1 + p.y * 0 + p.z * 0)
      ring
    rw [this]
  · have hv : v.y = 0 ∧ v.z = 0 := by
      rcases h with h | h
      · exact h
      · exact absurd rfl (h r)
    simp only [shiftShape, Surface.distance, Surface.cylinderXDistance]
    congr 2
    · change (p.x + v.x) * d.x + (p.y + v.y) * d.y + (p.z + v.z) * d.z -
        ((p.x + v.x) * 1 + (p.y + v.y) * 0 + (p.z + v.z) * 0) *
          (d.x * 1 + d.y * 0 + d.z * 0) =
        p.x * d.x + p.y * d.y + p.z * d.z -
          (p.x * 1 + p.y * 0 + p.z * 0) * (d.x * 1 + d.y * 0 + d.z * 0)
      rw [hv.1, hv.2]
      ring
    · change (p.x + v.x) * (p.x + v.x) + (p.y + v.y) * (p.y + v.y) + (p.z + v.z) * (p.z + v.z) -
        ((p.x + v.x) * 1 + (p.y + v.y) * 0 + (p.z + v.z) * 0) *
          ((p.x + v.x) * 1 + (p.y + v.y) * 0 + (p.z + v.z) * 0) =
        p.x * p.x + p.y * p.y + p.z * p.z -
          (p.x * 1 + p.y * 0 + p.z * 0) * (p.x * 1 + p.y * 0 + p.z * 0)
      rw [hv.1, hv.2]
      ring

theorem canShift_shape {v : Point} {c : Cell} (h : CanShift v c) {e : SurfaceObj × Bool}
    (he : e ∈ c.surfaceSenses) : CanShiftShape v e.1.shape :=
  h.imp id (fun h => h e he)

theorem shift_cell_contains {v : Point} {c : Cell} (h : CanShift v c) (p : Point) :
    (shiftCell v c).contains (p + v) = c.contains p := by
  unfold Cell.contains shiftCell
  dsimp only
  rw [List.all_map]
  rw [Bool.eq_iff_iff, List.all_eq_true, List.all_eq_true]
  refine forall₂_congr fun e he => ?_
  simp only [Function.comp_apply, shiftSurface, shift_contains (canShift_shape h he)]

theorem shift_nearestFrom {v : Point} {p : Point} {d : Direction} :
    ∀ {l : List (SurfaceObj × Bool)} {best : SurfaceObj}, CanShiftShape v best.shape →
      (∀ e ∈ l, CanShiftShape v e.1.shape) →
      Cell.nearestFrom (p + v) d (shiftSurface v best)
          (l.map (fun e => (shiftSurface v e.1, e.2))) =
        shiftSurface v (Cell.nearestFrom p d best l) ∧
      CanShiftShape v (Cell.nearestFrom p d best l).shape
  | [], best, hb, _ => ⟨rfl, hb⟩
  | e :: l, best, hb, hl => by
    have he := hl e List.mem_cons_self
    have hl' := fun x hx => hl x (List.mem_cons_of_mem _ hx)
    rw [List.map_cons, Cell.nearestFrom, Cell.nearestFrom]
    have h1 : (shiftSurface v e.1).shape.distance (p + v) d = e.1.shape.distance p d :=
      shift_distance he p d
    have h2 : (shiftSurface v best).shape.distance (p + v) d = best.shape.distance p d :=
      shift_distance hb p d
    dsimp only
    rw [h1, h2]
    split
    · exact shift_nearestFrom he hl'
    · exact shift_nearestFrom hb hl'

theorem shift_nearestSurface {v : Point} {c : Cell} (h : CanShift v c) (p : Point)
    (d : Direction) : (shiftCell v c).nearestSurface (p + v) d =
      (c.nearestSurface p d).map (fun x => (shiftSurface v x.1, x.2)) := by
  unfold Cell.nearestSurface shiftCell
  have hs : ∀ e ∈ c.surfaceSenses, CanShiftShape v e.1.shape := fun e he => canShift_shape h he
  dsimp only
  cases hc : c.surfaceSenses with
  | nil => rfl
  | cons e l =>
    rw [hc] at hs
    obtain ⟨h1, h2⟩ := shift_nearestFrom (p := p) (d := d) (hs e List.mem_cons_self)
      (fun x hx => hs x (List.mem_cons_of_mem _ hx))
    simp only [List.map_cons]
    rw [h1]
    simp only [Except.map]
    congr 2
    exact shift_distance h2 p d

theorem shift_at (v : Point) (f : ScalarField) (p : Point) :
    (shiftField v f).at' (p + v) = f.at' p := by
  rcases f with c | ⟨u, l, g, b⟩
  · rfl
  · change g.x * (p.x + v.x) + g.y * (p.y + v.y) + g.z * (p.z + v.z) +
      (b - (g.x * v.x + g.y * v.y + g.z * v.z)) = g.x * p.x + g.y * p.y + g.z * p.z + b
    ring

theorem shift_upper (v : Point) (f : ScalarField) : (shiftField v f).upperBound = f.upperBound := by
  cases f <;> rfl

theorem shift_isConstant (v : Point) (f : ScalarField) :
    (shiftField v f).isConstant = f.isConstant := by
  cases f <;> rfl

theorem shift_find {v : Point} {w : World} (h : ∀ c ∈ w.cells, CanShift v c) (p : Point) :
    (shiftWorld v w).findCellContaining (p + v) =
      (w.findCellContaining p).map (shiftCell v) := by
  unfold World.findCellContaining shiftWorld
  dsimp only
  rw [List.find?_map]
  have : w.cells.find? ((fun c => c.contains (p + v)) ∘ shiftCell v) =
      w.cells.find? (fun c => c.contains p) := by
    have key : ∀ l : List Cell, (∀ c ∈ l, CanShift v c) →
        l.find? ((fun c => c.contains (p + v)) ∘ shiftCell v) =
          l.find? (fun c => c.contains p) := by
      intro l
      induction l with
      | nil => intro _; rfl
      | cons c l ih =>
        intro hl
        rw [List.find?_cons, List.find?_cons, ih (fun x hx => hl x (List.mem_cons_of_mem _ hx))]
        simp only [Function.comp_apply, shift_cell_contains (hl c List.mem_cons_self)]
    exact key _ h
  rw [this]
  cases w.cells.find? (fun c => c.contains p) <;> rfl

/-! ### Cross sections -/

variable (v : Point)

theorem shift_getCell (p : Particle) : (shiftParticle v p).getCell = p.getCell.map (shiftCell v) := by
  unfold Particle.getCell shiftParticle
  dsimp only
  cases p.cell <;> rfl

theorem shift_temperatureAt (p : Particle) :
    (shiftParticle v p).temperatureAt = p.temperatureAt := by
  unfold Particle.temperatureAt
  rw [shift_getCell]
  cases p.getCell with
  | error e => rfl
  | ok c => exact congrArg Except.ok (shift_at v c.temperature p.position)

theorem shift_temperatureUpper (p : Particle) :
    (shiftParticle v p).temperatureUpper = p.temperatureUpper := by
  unfold Particle.temperatureUpper
  rw [shift_getCell]
  cases p.getCell with
  | error e => rfl
  | ok c => exact congrArg Except.ok (shift_upper v c.temperature)

theorem shift_microTotal (m : Material) (p : Particle) :
    m.getMicroscopicTotal (shiftParticle v p) = m.getMicroscopicTotal p :=
  m.getMicroscopicTotal_congr rfl rfl (shift_temperatureAt v p)

theorem shift_microMajorant (m : Material) (p : Particle) :
    m.getMicroscopicMajorant (shiftParticle v p) = m.getMicroscopicMajorant p :=
  m.getMicroscopicMajorant_congr rfl rfl (shift_temperatureUpper v p)

theorem shift_density (method : Method) (p : Particle) :
    collisionDensity method (shiftParticle v p) = collisionDensity method p := by
  unfold collisionDensity
  rw [shift_getCell]
  cases p.getCell with
  | error e => rfl
  | ok c =>
    simp only [Except.map, bind, Except.bind]
    change noexcept (match c.material with
      | none => _
      | some m => _) = _
    cases c.material with
    | none => rfl
    | some m => cases method <;> simp only [shift_microTotal, shift_microMajorant]

/-! ### Interactions -/

theorem shift_sample (p : Particle) :
    (shiftParticle v p).sample = (p.sample.1, shiftParticle v p.sample.2) := rfl

theorem shift_bank (p : Particle) (d : Direction) (e : Energy) :
    (shiftParticle v p).bankSecondary d e = shiftParticle v (p.bankSecondary d e) := by
  unfold Particle.bankSecondary shiftParticle
  simp only [List.map_append, List.map_cons, List.map_nil]
  rfl

theorem shift_scatter (p : Particle) (mu : ℝ) (e : Energy) :
    (shiftParticle v p).scatter mu e = (p.scatter mu e).map (shiftParticle v) := by
  unfold Particle.scatter
  rw [bind_map]
  rfl

theorem shift_mgBank (G : ℕ) (probs : List ℝ) : ∀ (n : ℕ) (p : Particle),
    Multigroup.bankLoop G probs n (shiftParticle v p) =
      (Multigroup.bankLoop G probs n p).map (shiftParticle v)
  | 0, p => rfl
  | n + 1, p => by
    unfold Multigroup.bankLoop
    rw [shift_sample]
    dsimp only
    cases Multigroup.selectGroup G probs p.sample.1 with
    | error e => rfl
    | ok o =>
      cases o with
      | none => exact shift_mgBank G probs n _
      | some g =>
        have := shift_bank v { p.sample.2 with rng := (Direction.isotropic p.sample.2.rng).2 }
          (Direction.isotropic p.sample.2.rng).1 (.group g)
        simp only [bind, Except.bind]
        rw [← shift_mgBank G probs n, ← this]
        rfl

theorem shift_mgScatter (m : Multigroup) (p : Particle) :
    m.scatter (shiftParticle v p) = (m.scatter p).map (shiftParticle v) := by
  unfold Multigroup.scatter
  rw [noexcept_map]
  congr 1
  dsimp only
  cases Multigroup.optValue m.scatterProbs with
  | error e => rfl
  | ok probs =>
    have he : (({ shiftParticle v p with event := Event.scatter } : Particle).sample.2).energy =
      p.energy := rfl
    have he' : (({ p with event := Event.scatter } : Particle).sample.2).energy = p.energy := rfl
    have hs : ({ shiftParticle v p with event := Event.scatter } : Particle).sample.1 =
      ({ p with event := Event.scatter } : Particle).sample.1 := rfl
    simp only [bind, Except.bind, he, he', hs]
    cases p.energy.getGroup with
    | error e => rfl
    | ok g =>
      dsimp only
      cases Multigroup.twoAt probs g with
      | error e => rfl
      | ok c =>
        dsimp only
        cases Multigroup.selectGroup m.maxGroup c
            ({ p with event := Event.scatter } : Particle).sample.1 with
        | error e => rfl
        | ok o => cases o <;> rfl

theorem shift_mgFission (m : Multigroup) (p : Particle) :
    m.fission (shiftParticle v p) = (m.fission p).map (shiftParticle v) := by
  unfold Multigroup.fission
  rw [noexcept_map]
  congr 1
  have hs : ({ shiftParticle v p with event := Event.fission } : Particle).sample.1 =
    ({ p with event := Event.fission } : Particle).sample.1 := rfl
  have hs2 : ({ shiftParticle v p with event := Event.fission } : Particle).sample.2 =
    shiftParticle v ({ p with event := Event.fission } : Particle).sample.2 := rfl
  dsimp only
  simp only [hs, hs2, bind_map, shift_mgBank]
  rfl

theorem shift_mgInteract (m : Multigroup) (p : Particle) :
    m.interact (shiftParticle v p) = (m.interact p).map (shiftParticle v) := by
  unfold Multigroup.interact
  rw [noexcept_map]
  congr 1
  rw [shift_sample]
  dsimp only
  have ht : m.getTotal (shiftParticle v p.sample.2) = m.getTotal p.sample.2 := rfl
  have hsel : ∀ x, m.selectReaction (shiftParticle v p.sample.2) x =
    m.selectReaction p.sample.2 x := fun x => rfl
  rw [ht]
  simp only [hsel, bind_map]
  cases m.getTotal p.sample.2 with
  | error e => rfl
  | ok t =>
    simp only [bind, Except.bind]
    cases m.selectReaction p.sample.2 (p.sample.1 * t) with
    | error e => rfl
    | ok o =>
      rcases o with _ | ⟨_ | _ | _, _⟩
      · rfl
      · rfl
      · exact shift_mgScatter v m _
      · exact shift_mgFission v m _

theorem shift_beta (s : ThermalScattering) (P : Partition) (row : ℕ) (eS e t : ℝ) :
    ∀ (n : ℕ) (p : Particle), s.betaLoop P row eS e t n (shiftParticle v p) =
      (s.betaLoop P row eS e t n p).map (fun x => (x.1, shiftParticle v x.2))
  | 0, p => rfl
  | n + 1, p => by
    unfold ThermalScattering.betaLoop
    rw [shift_sample]
    dsimp only
    split
    · rfl
    · rw [bind_map]
      congr 1
      funext b
      split
      · rfl
      · exact shift_beta s P row eS e t n _

theorem shift_alpha (s : ThermalScattering) (P : Partition) (row : ℕ)
    (b bsMin bsMax fMin fMax e t : ℝ) : ∀ (n : ℕ) (p : Particle),
      s.alphaLoop P row b bsMin bsMax fMin fMax e t n (shiftParticle v p) =
      (s.alphaLoop P row b bsMin bsMax fMin fMax e t n p).map (fun x => (x.1, shiftParticle v x.2))
  | 0, p => rfl
  | n + 1, p => by
    unfold ThermalScattering.alphaLoop
    rw [shift_sample]
    dsimp only
    rw [bind_map]
    congr 1
    funext a
    split
    · simp only [bind_map]
      rfl
    · exact shift_alpha s P row b bsMin bsMax fMin fMax e t n _

theorem shift_thermal (s : ThermalScattering) (p : Particle) :
    s.scatter (shiftParticle v p) = (s.scatter p).map (shiftParticle v) := by
  have hb : ∀ (p : Particle) (e t : ℝ), s.sampleBeta (shiftParticle v p) e t =
      (s.sampleBeta p e t).map (fun x => (x.1, shiftParticle v x.2)) := by
    intro p e t
    unfold ThermalScattering.sampleBeta
    rw [shift_sample]
    dsimp only
    simp only [bind_map, shift_beta]
  have ha : ∀ (p : Particle) (b e t : ℝ), s.sampleAlpha (shiftParticle v p) b e t =
      (s.sampleAlpha p b e t).map (fun x => (x.1, shiftParticle v x.2)) := by
    intro p b e t
    unfold ThermalScattering.sampleAlpha
    rw [shift_sample]
    dsimp only
    simp only [bind_map]
    congr 1; funext i
    congr 1; funext bAbs
    congr 1; funext m
    congr 1; funext M
    split
    · rfl
    · simp only [bind_map, shift_alpha]
  have ho : s.sampleOutgoing (shiftParticle v p) =
      (s.sampleOutgoing p).map (fun x => (x.1, x.2.1, shiftParticle v x.2.2)) := by
    unfold ThermalScattering.sampleOutgoing
    rw [shift_temperatureAt]
    simp only [bind_map]
    change p.energy.getContinuous >>= _ = _
    congr 1; funext e
    congr 1; funext t
    rw [hb]
    cases s.sampleBeta p e t with
    | error x => rfl
    | ok x =>
      simp only [Except.map, bind, Except.bind]
      rw [ha]
      cases s.sampleAlpha x.2 x.1 e t with
      | error y => rfl
      | ok y => simp only [Except.map]
  unfold ThermalScattering.scatter
  rw [ho]
  cases s.sampleOutgoing p with
  | error x => rfl
  | ok x => exact shift_scatter v _ _ _

theorem shift_candidate (y : ℝ) (p : Particle) : FreeGas.candidate y (shiftParticle v p) =
    ((FreeGas.candidate y p).1, (FreeGas.candidate y p).2.1,
      shiftParticle v (FreeGas.candidate y p).2.2) := by
  unfold FreeGas.candidate
  simp only [shift_sample]
  by_cases h : p.sample.2.sample.2.sample.1 < FreeGas.branchProb y
  · simp only [h, if_true]
  · simp only [h, if_false]

theorem shift_targetLoop (y : ℝ) : ∀ (n : ℕ) (p : Particle),
    FreeGas.targetLoop y n (shiftParticle v p) =
      (FreeGas.targetLoop y n p).map (fun x => (x.1, x.2.1, shiftParticle v x.2.2))
  | 0, p => rfl
  | n + 1, p => by
    unfold FreeGas.targetLoop
    rw [shift_candidate]
    simp only [shift_sample]
    by_cases h : (FreeGas.candidate y p).2.2.sample.1 ≥
        FreeGas.acceptProb (FreeGas.candidate y p).1 y (FreeGas.candidate y p).2.1
    · simp only [h, if_true]
      exact shift_targetLoop y n _
    · simp only [h, if_false]
      rfl

theorem shift_gas (fuel : ℕ) (awr : ℝ) (p : Particle) :
    FreeGas.interact fuel awr (shiftParticle v p) =
      (FreeGas.interact fuel awr p).map (shiftParticle v) := by
  have htarget : ∀ e t, FreeGas.sampleTarget fuel awr e t (shiftParticle v p) =
      (FreeGas.sampleTarget fuel awr e t p).map
        (fun x => (x.1, x.2.1, shiftParticle v x.2.2)) := by
    intro e t
    unfold FreeGas.sampleTarget
    split
    · rfl
    · rw [shift_targetLoop, bind_map]
      cases FreeGas.targetLoop (FreeGas.betaOf awr t * FreeGas.neutronSpeed e) fuel p with
      | error x => rfl
      | ok x =>
        simp only [Except.map, bind, Except.bind]
        split <;> rfl
  have hcollide : ∀ (e s mu : ℝ) (p : Particle), FreeGas.collideWith awr e s mu (shiftParticle v p) =
      (FreeGas.collideWith awr e s mu p).map (shiftParticle v) := by
    intro e s mu p
    unfold FreeGas.collideWith
    simp only [shift_sample, bind_map, shift_scatter]
    rfl
  unfold FreeGas.interact
  rw [shift_temperatureAt]
  simp only [bind_map]
  change p.energy.getContinuous >>= _ = _
  congr 1; funext e
  congr 1; funext t
  split
  · rfl
  · rw [htarget, bind_map]
    cases FreeGas.sampleTarget fuel awr e t p with
    | error x => rfl
    | ok x => exact hcollide _ _ _ _

theorem shift_ceBank : ∀ (n : ℕ) (p : Particle),
    ContinuousReaction.bankLoop n (shiftParticle v p) =
      shiftParticle v (ContinuousReaction.bankLoop n p)
  | 0, p => rfl
  | n + 1, p => by
    unfold ContinuousReaction.bankLoop
    dsimp only
    rw [← shift_ceBank n]
    congr 1
    exact shift_bank v { p with rng := (Direction.isotropic p.rng).2 } _ _

theorem shift_reaction (fuel : ℕ) (r : ContinuousReaction) (p : Particle) :
    r.interact fuel (shiftParticle v p) = (r.interact fuel p).map (shiftParticle v) := by
  unfold ContinuousReaction.interact
  rw [noexcept_map]
  congr 1
  rcases r with ev | ⟨ev, tsl, awr⟩ | ⟨ev, nu⟩
  · rfl
  · dsimp only
    unfold ContinuousReaction.scatterInteract
    dsimp only
    cases tsl with
    | none => exact shift_gas v fuel awr { p with event := .scatter }
    | some s =>
      dsimp only
      rw [bind_map]
      have hv : s.isValid { shiftParticle v p with event := Event.scatter } =
        s.isValid { p with event := Event.scatter } := rfl
      rw [hv]
      congr 1; funext b
      cases b
      · exact shift_gas v fuel awr { p with event := .scatter }
      · exact shift_thermal v s { p with event := .scatter }
  · dsimp only
    unfold ContinuousReaction.fissionInteract
    have hs : ({ shiftParticle v p with event := Event.fission } : Particle).sample.1 =
      ({ p with event := Event.fission } : Particle).sample.1 := rfl
    have hs2 : ({ shiftParticle v p with event := Event.fission } : Particle).sample.2 =
      shiftParticle v ({ p with event := Event.fission } : Particle).sample.2 := rfl
    dsimp only
    simp only [hs, hs2, bind_map, shift_ceBank]
    rfl

theorem shift_ceInteract (c : Continuous) (fuel : ℕ) : ∀ (n : ℕ) (p : Particle),
    c.interactLoop fuel n (shiftParticle v p) =
      (c.interactLoop fuel n p).map (shiftParticle v)
  | 0, p => rfl
  | n + 1, p => by
    unfold Continuous.interactLoop
    rw [shift_sample]
    dsimp only
    have hT := shift_temperatureAt v p.sample.2
    have hx : ∀ r : ContinuousReaction, r.getCrossSection (shiftParticle v p.sample.2) =
        r.getCrossSection p.sample.2 := fun r => r.getCrossSection_congr rfl rfl hT
    have ht : c.getTotal (shiftParticle v p.sample.2) = c.getTotal p.sample.2 := by
      unfold Continuous.getTotal
      rw [hT]
      simp only [hx]
      rw [Continuous.anyModifies_congr (p := shiftParticle v p.sample.2) (q := p.sample.2) rfl rfl]
      rfl
    have hs : ∀ x, c.selectReaction (shiftParticle v p.sample.2) x =
        c.selectReaction p.sample.2 x := by
      intro x
      unfold Continuous.selectReaction
      simp only [hx]
    rw [ht]
    simp only [hs, bind_map]
    congr 1; funext t
    congr 1; funext o
    cases o with
    | none => exact shift_ceInteract c fuel n _
    | some r => exact shift_reaction v fuel r _

theorem shift_interact (n : Nuclide) (fuel : ℕ) (p : Particle) :
    n.interact fuel (shiftParticle v p) = (n.interact fuel p).map (shiftParticle v) := by
  unfold Nuclide.interact
  rw [noexcept_map, bind_map]
  have : n.xsAt (shiftParticle v p) = n.xsAt p := rfl
  rw [this]
  congr 2; funext i
  rcases i with m | c
  · exact shift_mgInteract v m p
  · unfold Interaction.interact Continuous.interact
    dsimp only
    rw [noexcept_map, shift_ceInteract]

/-! ### Transport -/

theorem shift_streamEffects (method : Method) (p : Particle) (d : ℝ) :
    ∀ l : List (Perturbation × ℝ), streamEffects method (shiftParticle v p) d l =
      streamEffects method p d l
  | [] => rfl
  | (q, x) :: l => by
    have hq : q.stream method (shiftParticle v p) d = q.stream method p d := by
      unfold Perturbation.stream
      rw [shift_getCell, shift_density]
      cases p.getCell with
      | error e => rfl
      | ok c => rfl
    unfold streamEffects
    rw [hq, shift_streamEffects method p d l]

theorem shift_add (p d v : Point) : (p + v) + d = p + d + v := by
  change Point.mk _ _ _ = Point.mk _ _ _
  congr 1
  · exact add_right_comm p.x v.x d.x
  · exact add_right_comm p.y v.y d.y
  · exact add_right_comm p.z v.z d.z

theorem shift_stream (method : Method) (p : Particle) (d : WithTop ℝ) :
    (shiftParticle v p).stream method d = (p.stream method d).map (shiftParticle v) := by
  induction d using WithTop.recTopCoe with
  | top => rfl
  | coe d =>
    change (streamEffects method (shiftParticle v p) d p.indirectEffects >>= fun effects => _) =
      (streamEffects method p d p.indirectEffects >>= fun effects => _).map _
    rw [bind_map, shift_streamEffects]
    congr 1; funext effects
    simp only [Except.map, shiftParticle]
    rw [shift_add]

theorem shift_locate {w : World} (h : ∀ c ∈ w.cells, CanShift v c) (p : Particle) :
    (shiftParticle v p).locate (shiftWorld v w) = (p.locate w).map (shiftParticle v) := by
  unfold Particle.locate
  rw [bind_map]
  change (shiftWorld v w).findCellContaining (p.position + v) >>= _ = _
  rw [shift_find h]
  cases w.findCellContaining p.position <;> rfl

theorem shift_crossSurface {w : World} (h : ∀ c ∈ w.cells, CanShift v c) (method : Method)
    (p : Particle) (s : SurfaceObj) (d : WithTop ℝ) :
    crossSurface method (shiftWorld v w) (shiftParticle v p) (shiftSurface v s) d =
      (crossSurface method w p s d).map (shiftParticle v) := by
  unfold crossSurface
  rw [shift_stream]
  cases p.stream method (d + (nudge : WithTop ℝ)) with
  | error e => rfl
  | ok q =>
    simp only [Except.map, bind, Except.bind]
    rw [shift_locate v h]
    cases q.locate w with
    | error e => rfl
    | ok q' =>
      simp only [Except.map]
      rw [shift_getCell]
      cases q'.getCell <;> rfl

theorem shift_sampleNuclide (p : Particle) : (shiftParticle v p).sampleNuclide =
    p.sampleNuclide.map (fun x => (x.1, shiftParticle v x.2)) := by
  unfold Particle.sampleNuclide
  rw [noexcept_map]
  congr 1
  have hm : (shiftParticle v p).materialOrUB = p.materialOrUB := by
    unfold Particle.materialOrUB shiftParticle
    dsimp only
    cases p.cell <;> rfl
  have hs : ∀ (m : Material) (t : ℝ), m.selectNuclide (shiftParticle v p.sample.2) t =
      m.selectNuclide p.sample.2 t := by
    intro m t
    unfold Material.selectNuclide
    have : ∀ n : Nuclide, n.getTotal (shiftParticle v p.sample.2) = n.getTotal p.sample.2 :=
      fun n => n.getTotal_congr rfl rfl (shift_temperatureAt v _)
    simp only [this]
  rw [hm, shift_sample]
  simp only [bind_map, hs, shift_microTotal]
  congr 1; funext m
  congr 1; funext t
  congr 1; funext o
  cases o <;> rfl

theorem shift_collide (method : Method) (fuel : ℕ) (p : Particle) (d : WithTop ℝ) :
    collide method fuel (shiftParticle v p) d =
      (collide method fuel p d).map (shiftParticle v) := by
  unfold collide
  rw [shift_stream]
  cases p.stream method d with
  | error e => rfl
  | ok q =>
    simp only [Except.map, bind, Except.bind]
    rw [shift_sampleNuclide]
    cases q.sampleNuclide with
    | error e => rfl
    | ok x => exact shift_interact v x.1 fuel x.2

theorem shift_sampleFlight (method : Method) (p : Particle) :
    sampleFlight method (shiftParticle v p) =
      (sampleFlight method p).map (fun x => (x.1, shiftParticle v x.2)) := by
  unfold sampleFlight
  rw [shift_getCell, shift_density]
  cases p.getCell with
  | error e => rfl
  | ok c =>
    simp only [Except.map, bind, Except.bind]
    change (match c.material with
      | none => _
      | some m => _) = _
    cases c.material with
    | none => rfl
    | some m =>
      dsimp only
      cases collisionDensity method p <;> rfl

theorem shift_acceptance (p : Particle) : acceptance (shiftParticle v p) = acceptance p := by
  unfold acceptance
  rw [shift_getCell]
  cases p.getCell with
  | error e => rfl
  | ok c =>
    simp only [Except.map, bind, Except.bind, shift_microTotal, shift_microMajorant]
    rfl

theorem sampleFlight_cell {method : Method} {p q : Particle} {d : WithTop ℝ}
    (h : sampleFlight method p = .ok (d, q)) : q.cell = p.cell := by
  unfold sampleFlight at h
  obtain ⟨c, _, h⟩ := res_bind_ok.1 h
  split at h
  · cases h
  · obtain ⟨x, _, h⟩ := res_bind_ok.1 h
    have := Except.ok.inj h
    rw [Prod.mk.injEq] at this
    rw [← this.2]

theorem shift_step {w : World} (h : ∀ c ∈ w.cells, CanShift v c) (method : Method) (fuel : ℕ)
    {p : Particle} (hp : ∀ c, p.cell = some c → CanShift v c) :
    transportStep method fuel (shiftWorld v w) (shiftParticle v p) =
      (transportStep method fuel w p).map (shiftParticle v) := by
  have hnear : ∀ (q : Particle), q.cell = p.cell → ∀ c, q.getCell = .ok c →
      (shiftCell v c).nearestSurface (shiftParticle v q).position (shiftParticle v q).direction =
        (c.nearestSurface q.position q.direction).map (fun x => (shiftSurface v x.1, x.2)) := by
    intro q hq c hc
    refine shift_nearestSurface (hp c ?_) _ _
    unfold Particle.getCell at hc
    rw [← hq]
    cases hqc : q.cell with
    | none => rw [hqc] at hc; cases hc
    | some c' => rw [hqc] at hc; rw [Except.ok.inj hc]
  cases method
  · change surfaceStep fuel (shiftWorld v w) (shiftParticle v p) = (surfaceStep fuel w p).map _
    unfold surfaceStep
    rw [shift_sampleFlight]
    cases hf : sampleFlight .surfaceTracking p with
    | error e => rfl
    | ok x =>
      obtain ⟨dc, q⟩ := x
      have hq := sampleFlight_cell hf
      simp only [Except.map, bind, Except.bind]
      rw [shift_getCell]
      cases hc : q.getCell with
      | error e => rfl
      | ok c =>
        simp only [Except.map]
        have hn := hnear q hq c hc
        rw [hn]
        cases c.nearestSurface q.position q.direction with
        | error e => rfl
        | ok y =>
          by_cases hlt : dc < y.2
          · simp only [Except.map, hlt, if_true]
            exact shift_collide v _ _ _ _
          · simp only [Except.map, hlt, if_false]
            exact shift_crossSurface v h _ _ _ _
  · change deltaStep fuel (shiftWorld v w) (shiftParticle v p) = (deltaStep fuel w p).map _
    unfold deltaStep
    rw [shift_sampleFlight]
    cases hf : sampleFlight .cellDeltaTracking p with
    | error e => rfl
    | ok x =>
      obtain ⟨dc, q⟩ := x
      have hq := sampleFlight_cell hf
      simp only [Except.map, bind, Except.bind]
      rw [shift_getCell]
      cases hc : q.getCell with
      | error e => rfl
      | ok c =>
        simp only [Except.map]
        have hn := hnear q hq c hc
        rw [hn]
        cases c.nearestSurface q.position q.direction with
        | error e => rfl
        | ok y =>
          by_cases hlt : y.2 < dc
          · simp only [Except.map, hlt, if_true]
            exact shift_crossSurface v h _ _ _ _
          · simp only [Except.map, hlt, if_false]
            rw [shift_acceptance]
            cases acceptance q with
            | error e => rfl
            | ok a =>
              have hr : (shiftParticle v q).rng = q.rng := rfl
              simp only [hr]
              cases hb : (Rng.bernoulli a q.rng).1
              · have := shift_stream v .cellDeltaTracking
                  { q with rng := (Rng.bernoulli a q.rng).2 } dc
                have hsh : shiftParticle v { q with rng := (Rng.bernoulli a q.rng).2 } =
                  { shiftParticle v q with rng := (Rng.bernoulli a q.rng).2 } := rfl
                rw [hsh] at this
                simp only [Bool.false_eq_true, if_false]
                dsimp only at this
                rw [this]
                cases Particle.stream .cellDeltaTracking
                  { q with rng := (Rng.bernoulli a q.rng).2 } dc <;> rfl
              · simp only [if_true]
                exact shift_collide v _ _ { q with rng := (Rng.bernoulli a q.rng).2 } _

end Minimc
