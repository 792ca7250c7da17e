import Verif.Spec.Walk
import Verif.Lemmas.Target
import Mathlib.MeasureTheory.Constructions.BorelSpace.WithTop
import Mathlib.MeasureTheory.Constructions.BorelSpace.Order
import Mathlib.MeasureTheory.Function.SpecialFunctions.Basic
import Mathlib.MeasureTheory.Measure.Prod

/-! # The walk is measurable -/

namespace Minimc

open Classical MeasureTheory Spec
open scoped ENNReal

instance : MeasurableSpace Point :=
  MeasurableSpace.comap (fun p : Point => (p.x, p.y, p.z)) inferInstance

theorem measurable_coords : Measurable fun p : Point => (p.x, p.y, p.z) := comap_measurable _

variable {α : Type*} [MeasurableSpace α]

@[fun_prop]
theorem _root_.Measurable.point_x {f : α → Point} (hf : Measurable f) : Measurable fun a => (f a).x :=
  measurable_fst.comp (measurable_coords.comp hf)

@[fun_prop]
theorem _root_.Measurable.point_y {f : α → Point} (hf : Measurable f) : Measurable fun a => (f a).y :=
  measurable_fst.comp (measurable_snd.comp (measurable_coords.comp hf))

@[fun_prop]
theorem _root_.Measurable.point_z {f : α → Point} (hf : Measurable f) : Measurable fun a => (f a).z :=
  measurable_snd.comp (measurable_snd.comp (measurable_coords.comp hf))

theorem measurable_point {f : α → Point} (hx : Measurable fun a => (f a).x)
    (hy : Measurable fun a => (f a).y) (hz : Measurable fun a => (f a).z) : Measurable f := by
  refine measurable_comap_iff.2 ?_
  exact hx.prodMk (hy.prodMk hz)

@[fun_prop]
theorem _root_.Measurable.dot {f g : α → Point} (hf : Measurable f) (hg : Measurable g) :
    Measurable fun a => (f a).dot (g a) := by
  unfold Point.dot
  fun_prop

@[fun_prop]
theorem _root_.Measurable.along {f g : α → Point} {t : α → ℝ} (hf : Measurable f) (hg : Measurable g)
    (ht : Measurable t) : Measurable fun a => Spec.along (f a) (g a) (t a) := by
  refine measurable_point ?_ ?_ ?_ <;> (unfold Spec.along; fun_prop)

theorem _root_.Measurable.point_sub {f : α → Point} (hf : Measurable f) (c : Point) :
    Measurable fun a => f a - c := by
  refine measurable_point ?_ ?_ ?_
  · exact hf.point_x.sub_const c.x
  · exact hf.point_y.sub_const c.y
  · exact hf.point_z.sub_const c.z

theorem _root_.Measurable.solveQuadratic {a b c : α → ℝ} (ha : Measurable a) (hb : Measurable b)
    (hc : Measurable c) : Measurable fun z => Surface.solveQuadratic (a z) (b z) (c z) := by
  unfold Surface.solveQuadratic
  have hb0 : MeasurableSet {z | b z > 0} := measurableSet_lt measurable_const hb
  have hl : Measurable fun z => if b z > 0 then
      (-b z - Real.sqrt (b z * b z - 4 * a z * c z)) / (2 * a z)
      else (2 * c z) / (-b z + Real.sqrt (b z * b z - 4 * a z * c z)) :=
    Measurable.ite hb0 (by fun_prop) (by fun_prop)
  have hg : Measurable fun z => if b z > 0 then
      (2 * c z) / (-b z - Real.sqrt (b z * b z - 4 * a z * c z))
      else (-b z + Real.sqrt (b z * b z - 4 * a z * c z)) / (2 * a z) :=
    Measurable.ite hb0 (by fun_prop) (by fun_prop)
  refine Measurable.ite (measurableSet_le (by fun_prop) measurable_const) measurable_const ?_
  refine Measurable.ite (measurableSet_lt measurable_const hl) hl.withTop_coe ?_
  exact Measurable.ite (measurableSet_lt measurable_const hg) hg.withTop_coe measurable_const

theorem _root_.Measurable.surface_distance (s : Surface) {x d : α → Point} (hx : Measurable x)
    (hd : Measurable d) : Measurable fun a => s.distance (x a) (d a) := by
  cases s with
  | sphere center radius =>
    have h := hx.point_sub center
    exact Measurable.solveQuadratic (a := fun _ => 1) measurable_const (by fun_prop) (by fun_prop)
  | planeX c =>
    change Measurable fun a => Surface.planeXDistance c (x a) (d a)
    unfold Surface.planeXDistance
    have h : Measurable fun a => (c - (x a).dot ⟨1, 0, 0⟩) / (d a).dot ⟨1, 0, 0⟩ := by fun_prop
    exact Measurable.ite (measurableSet_lt measurable_const h) h.withTop_coe measurable_const
  | cylinderX radius =>
    exact Measurable.solveQuadratic (by fun_prop) (by fun_prop) (by fun_prop)

theorem measurableSet_contains (s : Surface) (b : Bool) {x : α → Point} (hx : Measurable x) :
    MeasurableSet {a | s.contains (x a) = b} := by
  have key : ∀ {P : α → Prop}, MeasurableSet {a | P a} → MeasurableSet {a | decide (P a) = b} := by
    intro P hP
    cases b
    · simp only [decide_eq_false_iff_not]
      exact hP.compl
    · simpa only [decide_eq_true_eq] using hP
  cases s with
  | sphere center radius =>
    have h := hx.point_sub center
    exact key (measurableSet_lt (by fun_prop) measurable_const)
  | planeX c => exact key (measurableSet_lt (by fun_prop) measurable_const)
  | cylinderX radius => exact key (measurableSet_lt (by fun_prop) measurable_const)

theorem measurableSet_inCell (c : Cell) {x : α → Point} (hx : Measurable x) :
    MeasurableSet {a | InCell c (x a)} := by
  have : {a | InCell c (x a)} = ⋂ e ∈ {e | e ∈ c.surfaceSenses}, {a | e.1.shape.contains (x a) = e.2} := by
    ext a
    simp [InCell]
  rw [this]
  exact MeasurableSet.biInter (List.finite_toSet _).countable fun e _ => measurableSet_contains _ _ hx

theorem measurable_ahead (c : Cell) {x d : α → Point} (hx : Measurable x) (hd : Measurable d) :
    Measurable fun a => ahead c (x a) (d a) := by
  unfold ahead
  induction c.surfaceSenses with
  | nil => exact measurable_const
  | cons e l ih => exact (Measurable.surface_distance _ hx hd).min ih

theorem measurable_beyond (c : Cell) {x d : α → Point} (hx : Measurable x) (hd : Measurable d) :
    Measurable fun a => beyond c (x a) (d a) := by
  unfold beyond
  have := measurable_ahead c hx hd
  fun_prop

/-- Taking the first item with a property. -/
theorem measurable_find {β : Type*} (l : List β) {P : β → α → Prop}
    (hP : ∀ b ∈ l, MeasurableSet {a | P b a}) {F : β → α → ℝ≥0∞} (hF : ∀ b ∈ l, Measurable (F b)) :
    Measurable fun a => (l.find? fun b => decide (P b a)).elim 0 fun b => F b a := by
  induction l with
  | nil => exact measurable_const
  | cons b l ih =>
    have e : (fun a => ((b :: l).find? fun b => decide (P b a)).elim 0 fun b => F b a) = fun a =>
        if P b a then F b a else (l.find? fun b => decide (P b a)).elim 0 fun b => F b a := by
      funext a
      by_cases h : P b a <;> simp [h]
    rw [e]
    exact Measurable.ite (hP b (by simp)) (hF b (by simp))
      (ih (fun b' h => hP b' (by simp [h])) fun b' h => hF b' (by simp [h]))

theorem measurable_faced (c : Cell) {x d : α → Point} (hx : Measurable x) (hd : Measurable d)
    {F : SurfaceObj → α → ℝ≥0∞} (hF : ∀ s, Measurable (F s)) :
    Measurable fun a => (faced c (x a) (d a)).elim 0 fun s => F s a := by
  have h := measurable_find c.surfaceSenses
    (P := fun e a => e.1.shape.distance (x a) (d a) = ahead c (x a) (d a)) (F := fun e => F e.1)
    (fun e _ => measurableSet_eq_fun (Measurable.surface_distance _ hx hd) (measurable_ahead c hx hd))
    fun e _ => hF e.1
  have e : (fun a => (faced c (x a) (d a)).elim 0 fun s => F s a) = fun a =>
      (c.surfaceSenses.find? fun e => @decide
        (e.1.shape.distance (x a) (d a) = ahead c (x a) (d a)) (propDecidable _)).elim 0
        fun e => F e.1 a := by
    funext a
    unfold faced
    rw [Option.elim_map]
    simp only [Function.comp_def]
    congr!
  rw [e]
  exact h

theorem measurable_cellAt (w : World) {x : α → Point} (hx : Measurable x)
    {F : Cell → α → ℝ≥0∞} (hF : ∀ c ∈ w.cells, Measurable (F c)) :
    Measurable fun a => (cellAt w (x a)).elim 0 fun c => F c a :=
  measurable_find w.cells (P := fun c a => InCell c (x a))
    (fun c _ => measurableSet_inCell c hx) hF

theorem measurableSet_reaches' (method : Method) {t : α → WithTop ℝ} {f : α → ℝ} (ht : Measurable t)
    (hf : Measurable f) : MeasurableSet {a | FliesTo method (t a) (f a)} := by
  cases method
  · exact measurableSet_le ht hf.withTop_coe
  · exact measurableSet_lt ht hf.withTop_coe

theorem measurable_byWeight (ws : List ℝ) {u : α → ℝ} (hu : Measurable u) {F : ℕ → α → ℝ≥0∞}
    (hF : ∀ i, Measurable (F i)) : Measurable fun a => byWeight ws (u a) fun i => F i a := by
  unfold byWeight
  refine Finset.measurable_fun_sum _ fun i _ => ?_
  exact Measurable.ite (hu (measurableSet_selected ws ws.sum i)) (hF i) measurable_const

theorem measurable_directionFrom {u v : α → ℝ} (hu : Measurable u) (hv : Measurable v) :
    Measurable fun a => directionFrom (u a) (v a) := by
  refine measurable_point ?_ ?_ ?_ <;> (unfold directionFrom; fun_prop)

theorem measurable_shift {us : α → ℕ → ℝ} (hu : Measurable us) (k : ℕ) :
    Measurable fun a n => us a (n + k) :=
  measurable_pi_iff.2 fun n => (measurable_pi_apply (n + k)).comp hu

theorem measurable_at {us : α → ℕ → ℝ} (hu : Measurable us) (k : ℕ) : Measurable fun a => us a k :=
  (measurable_pi_apply k).comp hu

theorem measurable_afterCollision (G : ℕ) (nodes : Nuclide → List MgNode) (m : Material) (g : ℕ)
    {next : α → Direction → ℕ → (ℕ → ℝ) → ℝ≥0∞}
    (hn : ∀ g', Measurable fun q : α × Direction × (ℕ → ℝ) => next q.1 q.2.1 g' q.2.2)
    {us : α → ℕ → ℝ} (hu : Measurable us) :
    Measurable fun a => afterCollision G nodes m g (next a) (us a) := by
  unfold afterCollision
  refine measurable_byWeight _ (measurable_at hu 0) fun i => ?_
  cases m.afracs[i]? with
  | none => exact measurable_const
  | some e =>
    refine measurable_byWeight _ (measurable_at hu 1) fun r => ?_
    split_ifs
    · refine measurable_byWeight _ (measurable_at hu 2) fun j => ?_
      exact (hn (j + 1)).comp (measurable_id.prodMk
        ((measurable_directionFrom (measurable_at hu 3) (measurable_at hu 4)).prodMk
          (measurable_shift hu 5)))
    · exact measurable_const

/-- The score of the walk depends measurably on everything. -/
theorem measurable_walkScore (G : ℕ) (nodes : Nuclide → List MgNode) (w : World) (method : Method)
    {hit : SurfaceObj → Direction → ℕ → ℝ≥0∞} (hh : ∀ s g, Measurable fun d => hit s d g) (n : ℕ)
    (c : Cell) (g : ℕ) : Measurable fun q : Point × Direction × (ℕ → ℝ) =>
      walkScore G nodes w method hit n c q.1 q.2.1 g q.2.2 := by
  induction n generalizing c g with
  | zero => exact measurable_const
  | succ n ih =>
    unfold walkScore
    cases c.material with
    | none => exact measurable_const
    | some m =>
      have hx : Measurable fun q : Point × Direction × (ℕ → ℝ) => q.1 := measurable_fst
      have hd : Measurable fun q : Point × Direction × (ℕ → ℝ) => q.2.1 := by fun_prop
      have hu : Measurable fun q : Point × Direction × (ℕ → ℝ) => q.2.2 := by fun_prop
      have hf : Measurable fun q : Point × Direction × (ℕ → ℝ) =>
          -Real.log (1 - q.2.2 0) / macroscopic G nodes g m := by
        have := measurable_at hu 0
        fun_prop
      have hb := measurable_beyond c hx hd
      refine Measurable.ite (measurableSet_reaches' method (measurable_ahead c hx hd) hf) ?_ ?_
      · refine measurable_faced c hx hd fun s => ?_
        refine measurable_cellAt w hb fun c' _ => ?_
        exact ((hh s g).comp hd).add ((ih c' g).comp (hb.prodMk (hd.prodMk (measurable_shift hu 1))))
      · refine measurable_afterCollision G nodes m g (fun g' => ?_)
          (measurable_shift hu (drawnBefore method))
        have h1 : Measurable fun q : (Point × Direction × (ℕ → ℝ)) × Direction × (ℕ → ℝ) =>
            along q.1.1 q.1.2.1 (-Real.log (1 - q.1.2.2 0) / macroscopic G nodes g m) :=
          Measurable.along (by fun_prop) (by fun_prop) (hf.comp measurable_fst)
        exact (ih c g').comp (h1.prodMk measurable_snd)

end Minimc
