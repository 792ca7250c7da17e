import Verif.Spec.Turn
import Verif.Lemmas.Space
import Verif.Lemmas.WalkFollows
import Mathlib.LinearAlgebra.Matrix.NonsingularInverse

/-! # Lemmas about problems that are turned or mirrored as a whole -/

namespace Minimc

open Classical Spec MeasureTheory
open scoped ENNReal

variable {R : Point → Point}

/-! ### Vectors -/

theorem dot_eq_cosAngle (a b : Point) : a.dot b = cosAngle a b := rfl

theorem squares_zero {a b c : ℝ} (h : a ^ 2 + b ^ 2 + c ^ 2 = 0) : a = 0 ∧ b = 0 ∧ c = 0 := by
  have ha : a ^ 2 = 0 := le_antisymm (by linarith [sq_nonneg b, sq_nonneg c]) (sq_nonneg a)
  have hb : b ^ 2 = 0 := le_antisymm (by linarith [sq_nonneg a, sq_nonneg c]) (sq_nonneg b)
  have hc : c ^ 2 = 0 := le_antisymm (by linarith [sq_nonneg a, sq_nonneg b]) (sq_nonneg c)
  exact ⟨pow_eq_zero_iff two_ne_zero |>.1 ha, pow_eq_zero_iff two_ne_zero |>.1 hb,
    pow_eq_zero_iff two_ne_zero |>.1 hc⟩

theorem rigid_zero (hR : Rigid R) : R ⟨0, 0, 0⟩ = ⟨0, 0, 0⟩ := by
  have h := hR.angle ⟨0, 0, 0⟩ ⟨0, 0, 0⟩
  unfold cosAngle at h
  obtain ⟨hx, hy, hz⟩ := squares_zero
    (show (R ⟨0, 0, 0⟩).x ^ 2 + (R ⟨0, 0, 0⟩).y ^ 2 + (R ⟨0, 0, 0⟩).z ^ 2 = 0 by linarith)
  exact Point.ext hx hy hz

theorem rigid_sub (hR : Rigid R) (x c : Point) : R x - R c = R (x - c) := by
  have e1 : x - c = along x c (-1) := by
    change Point.mk _ _ _ = Point.mk _ _ _
    congr 1 <;> ring
  have e2 : R x - R c = along (R x) (R c) (-1) := by
    change Point.mk _ _ _ = Point.mk _ _ _
    congr 1 <;> ring
  rw [e1, e2, hR.straight]

theorem rigid_dot (hR : Rigid R) (a b : Point) : (R a).dot (R b) = a.dot b := hR.angle a b

theorem rigid_unit (hR : Rigid R) {d : Point} (hd : UnitVec d) : UnitVec (R d) := by
  have h := hR.angle d d
  unfold cosAngle at h
  unfold UnitVec at *
  linarith

theorem sq_eq_one_or {k : ℝ} (h : k ^ 2 = 1) : k = 1 ∨ k = -1 := by
  rcases mul_eq_zero.1 (show (k - 1) * (k + 1) = 0 by linear_combination h) with h | h
  · exact .inl (by linarith)
  · exact .inr (by linarith)

theorem find?_congr_mem {α : Type*} {l : List α} {p q : α → Bool} (h : ∀ a ∈ l, p a = q a) :
    l.find? p = l.find? q := by
  induction l with
  | nil => rfl
  | cons a l ih =>
    rw [List.find?_cons, List.find?_cons, h a (by simp), ih fun b hb => h b (by simp [hb])]

/-- In coordinates. -/
theorem rigid_eq_inFrame (hR : Rigid R) (x : Point) :
    R x = inFrame (R ⟨0, 1, 0⟩) (R ⟨0, 0, 1⟩) (R ⟨1, 0, 0⟩) x := by
  have e : x = along (along (along ⟨0, 0, 0⟩ ⟨1, 0, 0⟩ x.x) ⟨0, 1, 0⟩ x.y) ⟨0, 0, 1⟩ x.z := by
    unfold along
    ext <;> simp
  conv_lhs => rw [e]
  rw [hR.straight, hR.straight, hR.straight, rigid_zero hR]
  unfold along inFrame
  ext <;> simp only <;> ring

theorem measurable_rigid (hR : Rigid R) : Measurable R := by
  have e : R = inFrame (R ⟨0, 1, 0⟩) (R ⟨0, 0, 1⟩) (R ⟨1, 0, 0⟩) := funext (rigid_eq_inFrame hR)
  rw [e]
  refine measurable_point ?_ ?_ ?_ <;> (unfold inFrame; fun_prop)

/-! ### Directions -/

/-- The mean over the directions is the same in the mirror. -/
theorem sphereMean_mirror (F : Direction → ℝ≥0∞) :
    (sphereMean fun d => F ⟨d.x, d.y, -d.z⟩) = sphereMean F := by
  unfold sphereMean
  congr 1
  refine lintegral_congr fun z => ?_
  have h := lintegral_image_eq_lintegral_abs_deriv_mul (s := Set.Ioo (0 : ℝ) (2 * Real.pi))
    (f := fun φ => 2 * Real.pi - φ) (f' := fun _ => -1) measurableSet_Ioo
    (fun x _ => ((hasDerivAt_id x).const_sub _).hasDerivWithinAt)
    (fun a _ b _ hab => by simpa using hab)
    (fun φ => F ⟨z, Real.sqrt (1 - z ^ 2) * Real.cos φ, Real.sqrt (1 - z ^ 2) * Real.sin φ⟩)
  have hi : (fun φ : ℝ => 2 * Real.pi - φ) '' Set.Ioo (0 : ℝ) (2 * Real.pi) =
      Set.Ioo (0 : ℝ) (2 * Real.pi) := by
    rw [Set.image_const_sub_Ioo]
    simp
  rw [hi] at h
  rw [h]
  simp only [abs_neg, abs_one, ENNReal.ofReal_one, one_mul, Real.cos_two_pi_sub, Real.sin_two_pi_sub,
    mul_neg]

/-- The mean over the directions is the same however they are turned. -/
theorem sphereMean_rigid (hR : Rigid R) {F : Direction → ℝ≥0∞} (hF : Measurable F) :
    (sphereMean fun d => F (R d)) = sphereMean F := by
  have hd : UnitVec (R ⟨1, 0, 0⟩) := rigid_unit hR (by unfold UnitVec; norm_num)
  have ha : UnitVec (R ⟨0, 1, 0⟩) := rigid_unit hR (by unfold UnitVec; norm_num)
  have hb : UnitVec (R ⟨0, 0, 1⟩) := rigid_unit hR (by unfold UnitVec; norm_num)
  have hda : cosAngle (R ⟨1, 0, 0⟩) (R ⟨0, 1, 0⟩) = 0 := by rw [hR.angle]; unfold cosAngle; norm_num
  have hdb : cosAngle (R ⟨1, 0, 0⟩) (R ⟨0, 0, 1⟩) = 0 := by rw [hR.angle]; unfold cosAngle; norm_num
  have hab : cosAngle (R ⟨0, 1, 0⟩) (R ⟨0, 0, 1⟩) = 0 := by rw [hR.angle]; unfold cosAngle; norm_num
  have he := rigid_eq_inFrame hR
  generalize R ⟨1, 0, 0⟩ = d at *
  generalize R ⟨0, 1, 0⟩ = a at *
  generalize R ⟨0, 0, 1⟩ = b at *
  simp only [he]
  set n : Point := ⟨d.y * a.z - d.z * a.y, d.z * a.x - d.x * a.z, d.x * a.y - d.y * a.x⟩ with hn
  have hnn : n.x ^ 2 + n.y ^ 2 + n.z ^ 2 = 1 := by
    unfold UnitVec cosAngle at *
    rw [hn]
    simp only
    linear_combination (a.x ^ 2 + a.y ^ 2 + a.z ^ 2) * hd + ha -
      (d.x * a.x + d.y * a.y + d.z * a.z) * hda
  have hk2 : cosAngle b n ^ 2 = 1 := by
    unfold UnitVec cosAngle at *
    rw [hn]
    simp only
    linear_combination (a.x ^ 2 + a.y ^ 2 + a.z ^ 2) * (b.x ^ 2 + b.y ^ 2 + b.z ^ 2) * hd +
      (b.x ^ 2 + b.y ^ 2 + b.z ^ 2) * ha + hb -
      (d.x ^ 2 + d.y ^ 2 + d.z ^ 2) * (a.x * b.x + a.y * b.y + a.z * b.z) * hab +
      ((a.x * b.x + a.y * b.y + a.z * b.z) * (d.x * b.x + d.y * b.y + d.z * b.z) * 2 -
        (b.x ^ 2 + b.y ^ 2 + b.z ^ 2) * (d.x * a.x + d.y * a.y + d.z * a.z)) * hda -
      (a.x ^ 2 + a.y ^ 2 + a.z ^ 2) * (d.x * b.x + d.y * b.y + d.z * b.z) * hdb
  have hs : (b.x - cosAngle b n * n.x) ^ 2 + (b.y - cosAngle b n * n.y) ^ 2 +
      (b.z - cosAngle b n * n.z) ^ 2 = 0 := by
    have e : cosAngle b n = b.x * n.x + b.y * n.y + b.z * n.z := rfl
    unfold UnitVec at hb
    linear_combination hb + (cosAngle b n) ^ 2 * hnn - hk2 + 2 * cosAngle b n * e
  obtain ⟨hx, hy, hz⟩ := squares_zero hs
  rcases sq_eq_one_or hk2 with h1 | h1
  · rw [h1] at hx hy hz
    refine sphereMean_inFrame hd ⟨ha, hb, hda, hdb, hab, ?_⟩ hF
    ext <;> simp only [hn] at * <;> linarith
  · rw [h1] at hx hy hz
    set b' : Point := ⟨-b.x, -b.y, -b.z⟩ with hb'
    have hf : Frame a b' d := by
      unfold UnitVec cosAngle at *
      refine ⟨ha, ?_, hda, ?_, ?_, ?_⟩
      · unfold UnitVec
        simp only [hb']
        linarith
      · unfold cosAngle
        simp only [hb']
        linarith
      · unfold cosAngle
        simp only [hb']
        linarith
      · rw [hb']
        ext <;> simp only [hn] at * <;> linarith
    rw [← sphereMean_inFrame hd hf hF, ← sphereMean_mirror fun d' => F (inFrame a b' d d')]
    congr 1
    funext x
    congr 1
    unfold inFrame
    simp only [hb']
    ext <;> simp only <;> ring

/-! ### Geometry -/

theorem turn_contains (hR : Rigid R) {s : Surface}
    (h : R ⟨1, 0, 0⟩ = ⟨1, 0, 0⟩ ∨ ∃ center radius, s = .sphere center radius) (p : Point) :
    (turnShape R s).contains (R p) = s.contains p := by
  rcases s with ⟨c, r⟩ | c | r
  · simp only [turnShape, Surface.contains, Surface.sphereContains, rigid_sub hR, rigid_dot hR]
  all_goals
    obtain h | ⟨_, _, h⟩ := h
    swap
    · cases h
    have e := fun q => rigid_dot hR q ⟨1, 0, 0⟩
    rw [h] at e
    simp only [turnShape, Surface.contains, Surface.planeXContains, Surface.cylinderXContains, e,
      rigid_dot hR]

theorem turn_distance (hR : Rigid R) {s : Surface}
    (h : R ⟨1, 0, 0⟩ = ⟨1, 0, 0⟩ ∨ ∃ center radius, s = .sphere center radius) (p : Point)
    (d : Direction) : (turnShape R s).distance (R p) (R d) = s.distance p d := by
  rcases s with ⟨c, r⟩ | c | r
  · simp only [turnShape, Surface.distance, Surface.sphereDistance, rigid_sub hR, rigid_dot hR]
  all_goals
    obtain h | ⟨_, _, h⟩ := h
    swap
    · cases h
    have e := fun q => rigid_dot hR q ⟨1, 0, 0⟩
    rw [h] at e
    simp only [turnShape, Surface.distance, Surface.planeXDistance, Surface.cylinderXDistance, e,
      rigid_dot hR]

theorem canTurn_surface {c : Cell} (h : CanTurn R c) {e : SurfaceObj × Bool} (he : e ∈ c.surfaceSenses) :
    R ⟨1, 0, 0⟩ = ⟨1, 0, 0⟩ ∨ ∃ center radius, e.1.shape = .sphere center radius :=
  h.imp_right fun h => h e he

theorem turn_inCell (hR : Rigid R) {c : Cell} (h : CanTurn R c) (x : Point) :
    InCell (turnCell R c) (R x) ↔ InCell c x := by
  unfold InCell turnCell
  simp only [List.mem_map]
  constructor
  · intro k e he
    have := k _ ⟨e, he, rfl⟩
    exact (turn_contains hR (canTurn_surface h he) x).symm.trans this
  · rintro k _ ⟨e, he, rfl⟩
    exact (turn_contains hR (canTurn_surface h he) x).trans (k e he)

theorem turn_ahead (hR : Rigid R) {c : Cell} (h : CanTurn R c) (x : Point) (d : Direction) :
    ahead (turnCell R c) (R x) (R d) = ahead c x d := by
  unfold ahead turnCell
  simp only [List.map_map]
  congr 1
  refine List.map_congr_left fun e he => ?_
  exact turn_distance hR (canTurn_surface h he) x d

theorem turn_faced (hR : Rigid R) {c : Cell} (h : CanTurn R c) (x : Point) (d : Direction) :
    faced (turnCell R c) (R x) (R d) = (faced c x d).map (turnSurface R) := by
  unfold faced
  rw [turn_ahead hR h]
  unfold turnCell
  simp only [List.find?_map, Option.map_map]
  have e : c.surfaceSenses.find? ((fun e : SurfaceObj × Bool =>
        decide (e.1.shape.distance (R x) (R d) = ahead c x d)) ∘
          fun e : SurfaceObj × Bool => (turnSurface R e.1, e.2)) =
      c.surfaceSenses.find? fun e => decide (e.1.shape.distance x d = ahead c x d) := by
    refine find?_congr_mem fun e he => ?_
    simp only [Function.comp]
    congr 2
    exact turn_distance hR (canTurn_surface h he) x d
  rw [e]
  rfl

theorem turn_beyond (hR : Rigid R) {c : Cell} (h : CanTurn R c) (x : Point) (d : Direction) :
    beyond (turnCell R c) (R x) (R d) = R (beyond c x d) := by
  unfold beyond
  rw [turn_ahead hR h, hR.straight]

theorem turn_cellAt (hR : Rigid R) {w : World} (h : ∀ c ∈ w.cells, CanTurn R c) (x : Point) :
    cellAt (turnWorld R w) (R x) = (cellAt w x).map (turnCell R) := by
  unfold cellAt turnWorld
  simp only [List.find?_map]
  congr 1
  refine find?_congr_mem fun c hc => ?_
  simp only [Function.comp]
  rw [decide_eq_decide]
  exact turn_inCell hR (h c hc) x

theorem turn_firstCell (hR : Rigid R) {w : World} (h : ∀ c ∈ w.cells, CanTurn R c) {x : Point}
    {c : Cell} (hc : FirstCell w x c) : FirstCell (turnWorld R w) (R x) (turnCell R c) := by
  obtain ⟨l, r, e, h1, h2⟩ := hc
  have hm : ∀ c', c' ∈ l ∨ c' = c → CanTurn R c' := by
    intro c' hc'
    refine h c' ?_
    rw [e]
    rcases hc' with hc' | rfl <;> simp [*]
  refine ⟨l.map (turnCell R), r.map (turnCell R), ?_, (turn_inCell hR (hm c (.inr rfl)) x).2 h1, ?_⟩
  · change w.cells.map (turnCell R) = _
    rw [e, List.map_append, List.map_cons]
  · intro c' hc'
    obtain ⟨c'', k, rfl⟩ := List.mem_map.1 hc'
    rw [turn_inCell hR (hm c'' (.inl k))]
    exact h2 c'' k

/-- Every direction and point is one that has been turned. -/
theorem rigid_surjective (hR : Rigid R) (y : Point) : ∃ x, R x = y := by
  have hdd := hR.angle ⟨1, 0, 0⟩ ⟨1, 0, 0⟩
  have haa := hR.angle ⟨0, 1, 0⟩ ⟨0, 1, 0⟩
  have hbb := hR.angle ⟨0, 0, 1⟩ ⟨0, 0, 1⟩
  have hda := hR.angle ⟨1, 0, 0⟩ ⟨0, 1, 0⟩
  have hdb := hR.angle ⟨1, 0, 0⟩ ⟨0, 0, 1⟩
  have hab := hR.angle ⟨0, 1, 0⟩ ⟨0, 0, 1⟩
  have he := rigid_eq_inFrame hR
  generalize R ⟨1, 0, 0⟩ = d at *
  generalize R ⟨0, 1, 0⟩ = a at *
  generalize R ⟨0, 0, 1⟩ = b at *
  unfold cosAngle at hdd haa hbb hda hdb hab
  have h : (!![d.x, d.y, d.z; a.x, a.y, a.z; b.x, b.y, b.z] : Matrix (Fin 3) (Fin 3) ℝ) *
      !![d.x, a.x, b.x; d.y, a.y, b.y; d.z, a.z, b.z] = 1 := by
    ext i j
    fin_cases i <;> fin_cases j <;> simp [Matrix.mul_apply, Fin.sum_univ_three] <;> linarith
  rw [mul_eq_one_comm] at h
  have hij := fun i j => congrFun (congrFun h i) j
  have h00 := hij 0 0
  have h01 := hij 0 1
  have h02 := hij 0 2
  have h11 := hij 1 1
  have h12 := hij 1 2
  have h22 := hij 2 2
  simp [Matrix.mul_apply, Fin.sum_univ_three] at h00 h01 h02 h11 h12 h22
  refine ⟨⟨cosAngle y d, cosAngle y a, cosAngle y b⟩, ?_⟩
  rw [he]
  unfold inFrame cosAngle
  ext
  · simp only
    linear_combination y.x * h00 + y.y * h01 + y.z * h02
  · simp only
    linear_combination y.x * h01 + y.y * h11 + y.z * h12
  · simp only
    linear_combination y.x * h02 + y.y * h12 + y.z * h22

theorem turn_wellPosed (hR : Rigid R) {G : ℕ} {nodes : Nuclide → List MgNode} {w : World}
    (h : ∀ c ∈ w.cells, CanTurn R c) (hw : WellPosed G nodes w) : WellPosed G nodes (turnWorld R w) := by
  have hm : ∀ c ∈ (turnWorld R w).cells, ∃ c' ∈ w.cells, turnCell R c' = c := fun c hc =>
    List.mem_map.1 hc
  refine ⟨fun y => ?_, ?_, ?_, ?_, ?_⟩
  · obtain ⟨x, rfl⟩ := rigid_surjective hR y
    obtain ⟨c, hc, hx⟩ := hw.covered x
    exact ⟨turnCell R c, List.mem_map.2 ⟨c, hc, rfl⟩, (turn_inCell hR (h c hc) x).2 hx⟩
  · intro c hc
    obtain ⟨c', hc', rfl⟩ := hm c hc
    intro k e
    exact hw.bounded c' hc' k (List.map_eq_nil_iff.1 e)
  · intro c hc
    obtain ⟨c', hc', rfl⟩ := hm c hc
    exact hw.density c' hc'
  · intro c hc
    obtain ⟨c', hc', rfl⟩ := hm c hc
    exact hw.data c' hc'
  · intro c hc
    obtain ⟨c', hc', rfl⟩ := hm c hc
    exact hw.reacts c' hc'

end Minimc
