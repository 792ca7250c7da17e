import Verif.Spec.FaceSource
import Verif.Props.Solve

/-!
# Sources on surfaces

A point on a surface counts as outside of it (above a plane), whichever way a neutron goes from
there, and a plane on which a neutron is is never reached by it.  Neutrons that start on the lower
face of a slab and fly out of it therefore stay in its material: none leaves through that face,
though all do if the source is a little inside.  If the source is on the upper face, the program
dereferences a null pointer.
-/

namespace Minimc.Props

open Classical Spec

/-! ## Cells at the start -/

theorem value_along (s : Surface) (o : Point) (d : Direction) :
    ∃ q, 0 ≤ q ∧ ∀ t, surfaceValue s (along o d t) = surfaceValue s o + slope s o d * t + q * t ^ 2 := by
  cases s with
  | sphere c r =>
    refine ⟨d.x ^ 2 + d.y ^ 2 + d.z ^ 2, by positivity, fun t => ?_⟩
    simp only [surfaceValue, slope, along]
    ring
  | planeX c =>
    refine ⟨0, le_rfl, fun t => ?_⟩
    simp only [surfaceValue, slope, along]
    ring
  | cylinderX r =>
    refine ⟨d.y ^ 2 + d.z ^ 2, by positivity, fun t => ?_⟩
    simp only [surfaceValue, slope, along]
    ring

/-- Small steps keep the sign of a value that is not zero. -/
theorem sign_kept {v k q : ℝ} (hq : 0 ≤ q) (hv : v ≠ 0) :
    ∃ T, 0 < T ∧ ∀ t, 0 ≤ t → t < T → (v + k * t + q * t ^ 2 < 0 ↔ v < 0) := by
  refine ⟨min 1 (|v| / (|k| + q + 1)), lt_min one_pos (div_pos (abs_pos.2 hv) (by positivity)), ?_⟩
  intro t h0 ht
  have h1 : t < 1 := ht.trans_le (min_le_left _ _)
  have h2 : t * (|k| + q + 1) < |v| := (lt_div_iff₀ (by positivity)).1 (ht.trans_le (min_le_right _ _))
  have h3 : |k * t + q * t ^ 2| < |v| := by
    refine lt_of_le_of_lt ?_ h2
    calc |k * t + q * t ^ 2| ≤ |k * t| + |q * t ^ 2| := abs_add_le _ _
      _ = |k| * t + q * t ^ 2 := by
        rw [abs_mul, abs_of_nonneg h0, abs_of_nonneg (by positivity : 0 ≤ q * t ^ 2)]
      _ ≤ _ := by nlinarith [mul_nonneg hq h0]
  rcases lt_or_gt_of_ne hv with hv | hv
  · rw [abs_of_neg hv] at h3
    have := (abs_lt.1 h3).2
    exact ⟨fun _ => hv, fun _ => by linarith⟩
  · rw [abs_of_pos hv] at h3
    have := (abs_lt.1 h3).1
    exact ⟨fun h => by linarith, fun h => by linarith⟩

/-- **C96, the part that holds**: a neutron that starts on surfaces of its cell and flies away from
their insides is, to begin with, in the cell it was given. -/
theorem C96_cell_partial {c : Cell} {o : Point} {d : Direction}
    (hs : ∀ e ∈ c.surfaceSenses, Conforming e.1.shape) (hin : InCell c o)
    (hout : ∀ e ∈ c.surfaceSenses, OnSurface e.1.shape o → 0 ≤ slope e.1.shape o d) :
    ∃ T, 0 < T ∧ ∀ t, 0 ≤ t → t < T → InCell c (along o d t) := by
  unfold InCell at *
  generalize c.surfaceSenses = l at *
  induction l with
  | nil => exact ⟨1, one_pos, fun t _ _ e he => absurd he List.not_mem_nil⟩
  | cons e l ih =>
    obtain ⟨T, h0, hT⟩ := ih (fun e' h' => hs e' (List.mem_cons_of_mem _ h'))
      (fun e' h' => hin e' (List.mem_cons_of_mem _ h'))
      (fun e' h' => hout e' (List.mem_cons_of_mem _ h'))
    have he := hin e List.mem_cons_self
    have hc := hs e List.mem_cons_self
    obtain ⟨q, hq, hval⟩ := value_along e.1.shape o d
    obtain ⟨T', h0', hT'⟩ : ∃ T, 0 < T ∧ ∀ t, 0 ≤ t → t < T →
        (surfaceValue e.1.shape (along o d t) < 0 ↔ surfaceValue e.1.shape o < 0) := by
      by_cases hon : OnSurface e.1.shape o
      · refine ⟨1, one_pos, fun t ht _ => ?_⟩
        have hsl := hout e List.mem_cons_self hon
        have hon' : surfaceValue e.1.shape o = 0 := hon
        rw [hval, hon']
        have h1 : 0 ≤ slope e.1.shape o d * t := mul_nonneg hsl ht
        have h2 : 0 ≤ q * t ^ 2 := by positivity
        exact ⟨fun h => by linarith, fun h => absurd h (lt_irrefl _)⟩
      · obtain ⟨T, a, b⟩ := sign_kept (k := slope e.1.shape o d) hq hon
        exact ⟨T, a, fun t h1 h2 => by rw [hval]; exact b t h1 h2⟩
    refine ⟨min T T', lt_min h0 h0', fun t h1 h2 e' he' => ?_⟩
    rcases List.mem_cons.1 he' with rfl | he'
    · have hside : ∀ x, (e'.1.shape.contains x = true ↔ surfaceValue e'.1.shape x < 0) :=
        fun x => C06_contains_partial e'.1.shape hc x
      rw [← he, Bool.eq_iff_iff, hside, hside]
      exact hT' t h1 (h2.trans_le (min_le_right _ _))
    · exact hT t h1 (h2.trans_le (min_le_left _ _)) e' he'

/-- **C96 is violated** by every neutron that starts on a surface and flies to its inside: the cell
it is given is not the one it flies through. -/
theorem C96_cell_violated {c : Cell} {o : Point} {d : Direction} {s : SurfaceObj} {b : Bool}
    (hs : Conforming s.shape) (hb : (s, b) ∈ c.surfaceSenses) (hin : InCell c o)
    (hon : OnSurface s.shape o) (hd : slope s.shape o d < 0) :
    ∃ T, 0 < T ∧ ∀ t, 0 < t → t < T → ¬ InCell c (along o d t) := by
  obtain ⟨q, hq, hval⟩ := value_along s.shape o d
  have hside : ∀ x, (s.shape.contains x = true ↔ surfaceValue s.shape x < 0) :=
    fun x => C06_contains_partial s.shape hs x
  have hon' : surfaceValue s.shape o = 0 := hon
  have hbf : b = false := by
    have h1 : s.shape.contains o = b := hin (s, b) hb
    rw [← h1, ← Bool.not_eq_true, hside, hon']
    exact lt_irrefl _
  refine ⟨-slope s.shape o d / (q + 1), div_pos (by linarith) (by linarith), fun t h0 ht hin' => ?_⟩
  have h1 := hin' (s, b) hb
  rw [hbf, ← Bool.not_eq_true, hside, hval, hon'] at h1
  apply h1
  rw [lt_div_iff₀ (by linarith)] at ht
  nlinarith

/-- A plane on which a particle is is never reached by it. -/
theorem C96_plane_unseen {c : ℝ} {o : Point} (h : OnSurface (.planeX c) o) (d : Direction) :
    (Surface.planeX c).distance o d = ⊤ := by
  have h' : o.x - c = 0 := h
  have : c - o.x = 0 := by linarith
  simp [Surface.distance, Surface.planeXDistance, Point.dot, this]

/-- Instances: on a sphere around the origin flying away from it, and into it. -/
example : InCell ⟨"around", [(⟨0, "ball", .sphere ⟨0, 0, 0⟩ 2⟩, false)], none, .constant 300⟩ ⟨2, 0, 0⟩ ∧
    OnSurface (.sphere ⟨0, 0, 0⟩ 2) ⟨2, 0, 0⟩ ∧ 0 ≤ slope (.sphere ⟨0, 0, 0⟩ 2) ⟨2, 0, 0⟩ ⟨1, 0, 0⟩ ∧
    slope (.sphere ⟨0, 0, 0⟩ 2) ⟨2, 0, 0⟩ ⟨-1, 0, 0⟩ < 0 := by
  refine ⟨?_, by norm_num [OnSurface, surfaceValue], by norm_num [slope], by norm_num [slope]⟩
  intro e he
  rw [List.mem_singleton.1 he]
  change (Surface.sphere _ _).contains _ = false
  rw [← Bool.not_eq_true, sphereContains_iff]
  norm_num [Inside, surfaceValue]

/-! ## A slab with a source at its face -/

/-- The lower face. -/
noncomputable def lowFace (a : ℝ) : SurfaceObj := ⟨0, "low", .planeX a⟩

/-- The upper face. -/
noncomputable def highFace (b : ℝ) : SurfaceObj := ⟨1, "high", .planeX b⟩

/-- A slab of an absorber between `x = a` and `x = b`, a source at `(x, 0, 0)` and an estimator on
the lower face. -/
noncomputable def faceProblem (σ a b x : ℝ) (direction : DirectionDist)
    (seed batchsize threads : ℕ) : Problem where
  world := absorbingWorld [(lowFace a, false), (highFace b, true)] σ
  perturbations := []
  batchsize := batchsize
  seed := seed
  init := ⟨[⟨⟨"out", oneBin, [0], [0]⟩, lowFace a, []⟩], batchsize⟩
  threads := threads
  method := .surfaceTracking
  source := ⟨⟨x, 0, 0⟩, direction, .group 1, .neutron⟩

/-- The cell of the slab. -/
noncomputable def faceCell (σ a b : ℝ) : Cell :=
  ⟨"in", [(lowFace a, false), (highFace b, true)], some (absorbing σ), .constant 300⟩

theorem face_in {σ a b : ℝ} {p : Point} : InCell (faceCell σ a b) p ↔ a ≤ p.x ∧ p.x < b := by
  have h1 : (lowFace a).shape.contains p = false ↔ a ≤ p.x := by
    change (Surface.planeX a).contains p = false ↔ _
    rw [← Bool.not_eq_true, planeXContains_iff]
    simp [Inside, surfaceValue]
  have h2 : (highFace b).shape.contains p = true ↔ p.x < b := by
    change (Surface.planeX b).contains p = true ↔ _
    rw [planeXContains_iff]
    simp [Inside, surfaceValue]
  unfold InCell faceCell
  simp only [List.mem_cons, List.not_mem_nil, or_false, forall_eq_or_imp, forall_eq]
  rw [h1, h2]

theorem face_history_ok {σ a b x : ℝ} {direction : DirectionDist} {seed n t fuel e : ℕ}
    {d : Direction} {g : ℕ}
    (hd : direction.sample (Rng.ofSeed (seed + e)) = .ok (d, g)) {q : Particle}
    (hq : transport .surfaceTracking (fuel + 1)
      (absorbingWorld [(lowFace a, false), (highFace b, true)] σ)
      ((Particle.ofBorn ⟨⟨x, 0, 0⟩, d, .group 1, .neutron, Rng.next g, none⟩).setPerturbations []) =
        .ok (q, [q])) (hs : q.secondaries = []) :
    (faceProblem σ a b x direction seed n t).history (fuel + 1) e = .ok [q] := by
  unfold Problem.history
  have h1 : (faceProblem σ a b x direction seed n t).source.sample
      ((faceProblem σ a b x direction seed n t).seed + e) =
      .ok ⟨⟨x, 0, 0⟩, d, .group 1, .neutron, Rng.next g, none⟩ := by
    unfold Source.sample
    change direction.sample (Rng.ofSeed (seed + e)) >>= _ = _
    rw [hd]
    rfl
  rw [h1]
  simp only [bind, Except.bind]
  have hp := processBank_concat (run := transport .surfaceTracking (fuel + 1)
      (absorbingWorld [(lowFace a, false), (highFace b, true)] σ))
    (qs := []) fuel [] (Particle.ofBorn ⟨⟨x, 0, 0⟩, d, .group 1, .neutron, Rng.next g, none⟩)
  rw [hq] at hp
  simp only [bind, Except.bind, hs, List.nil_append, List.map_nil, List.append_nil,
    processBank_nil] at hp
  have hb : processBank (transport (faceProblem σ a b x direction seed n t).method (fuel + 1)
      (faceProblem σ a b x direction seed n t).world)
      (faceProblem σ a b x direction seed n t).perturbations (fuel + 1)
      [Particle.ofBorn ⟨⟨x, 0, 0⟩, d, .group 1, .neutron, Rng.next g, none⟩] = _ := hp
  rw [hb]
  rfl

/-- The distance of the first collision in history `e` of a source that draws nothing for the
direction. -/
noncomputable def firstFlight (σ : ℝ) (seed e : ℕ) : ℝ :=
  -Real.log (1 - (Rng.canonical (Rng.ofSeed (Rng.next (Rng.ofSeed (seed + e))))).1) / σ

theorem exponential_pos {σ : ℝ} (hσ : 0 < σ) {g : ℕ} (hg : Rng.Valid g) :
    0 < -Real.log (1 - (Rng.canonical g).1) / σ := by
  have h1 := Rng.canonical_pos hg
  have h2 := Rng.canonical_lt_one hg
  exact div_pos (neg_pos.2 (Real.log_neg (by linarith) (by linarith))) hσ

/-- Any neutron from the lower face is captured or leaves through the upper face. -/
theorem face_history {σ a b : ℝ} (hσ : 0 < σ) (hab : a < b) {direction : DirectionDist}
    {seed n t fuel e : ℕ} {d : Direction} {g : ℕ}
    (hd : direction.sample (Rng.ofSeed (seed + e)) = .ok (d, g)) :
    ∃ q, (faceProblem σ a b a direction seed n t).history (fuel + 1) e = .ok [q] ∧
      q.secondaries = [] ∧
      ((q.event = .capture ∧ ∃ s, 0 < s ∧ q.position = along ⟨a, 0, 0⟩ d s) ∨
        (0 < d.x ∧ q.event = .leak ∧ q.currentSurface = some (highFace b))) := by
  set p := (Particle.ofBorn ⟨⟨a, 0, 0⟩, d, .group 1, .neutron, Rng.next g, none⟩).setPerturbations []
    with hp
  have hr : Rng.Valid p.rng := Rng.valid_ofSeed _
  have hin : InCell (faceCell σ a b) p.position := face_in.2 ⟨le_rfl, hab⟩
  have hlow : (lowFace a).shape.distance p.position p.direction = ⊤ :=
    C96_plane_unseen (c := a) (o := ⟨a, 0, 0⟩) (show a - a = 0 by ring) d
  have hhigh : (highFace b).shape.distance p.position p.direction =
      if (b - a) / d.x > 0 then (((b - a) / d.x : ℝ) : WithTop ℝ) else ⊤ := by
    change (Surface.planeX b).distance ⟨a, 0, 0⟩ d = _
    simp [Surface.distance, Surface.planeXDistance, Point.dot]
  have hexp : Rng.exponentialOf σ (Rng.canonical p.rng).1 =
      ((-Real.log (1 - (Rng.canonical p.rng).1) / σ : ℝ) : WithTop ℝ) := by
    unfold Rng.exponentialOf
    rw [if_neg hσ.ne']
  have hpos := exponential_pos hσ hr
  set s := -Real.log (1 - (Rng.canonical p.rng).1) / σ with hsdef
  by_cases hdx : 0 < d.x
  · have hq0 : 0 < (b - a) / d.x := div_pos (by linarith) hdx
    rw [if_pos hq0] at hhigh
    have hns : (faceCell σ a b).nearestSurface p.position p.direction =
        .ok (highFace b, (((b - a) / d.x : ℝ) : WithTop ℝ)) := by
      simp only [Cell.nearestSurface, faceCell, Cell.nearestFrom]
      rw [hlow, hhigh, if_pos (WithTop.coe_lt_top _), hhigh]
    by_cases hlt : s < (b - a) / d.x
    · obtain ⟨q, h1, h2, h3, h4, h5⟩ := absorbing_capture_run hσ (p := p) (c := faceCell σ a b)
        fuel rfl rfl hr rfl rfl hin hns hexp (WithTop.coe_lt_coe.2 hlt)
      exact ⟨q, face_history_ok hd h1 h5, h5, Or.inl ⟨h4, s, hpos, h2⟩⟩
    · have h1 := absorbing_leak_run (p := p) (c := faceCell σ a b) (σ := σ)
        (senses := [(lowFace a, false), (highFace b, true)])
        (t := (b - a) / d.x) (s := highFace b) fuel rfl
        (by intro e he; cases he) rfl rfl hin hns
        (by rw [hexp]; exact WithTop.coe_le_coe.2 (not_lt.1 hlt))
        (by
          rw [face_in]
          rintro ⟨-, h⟩
          change a + ((b - a) / d.x + 10 / 2 ^ 52) * d.x < b at h
          rw [add_mul, div_mul_cancel₀ _ hdx.ne'] at h
          have : 0 < (10 / 2 ^ 52 : ℝ) * d.x := by positivity
          linarith)
      exact ⟨_, face_history_ok hd h1 rfl, rfl, Or.inr ⟨hdx, rfl, rfl⟩⟩
  · have hq0 : ¬ (b - a) / d.x > 0 := not_lt.2 (div_nonpos_of_nonneg_of_nonpos (by linarith) (not_lt.1 hdx))
    rw [if_neg hq0] at hhigh
    have hns : (faceCell σ a b).nearestSurface p.position p.direction = .ok (lowFace a, ⊤) := by
      simp only [Cell.nearestSurface, faceCell, Cell.nearestFrom]
      rw [hlow, hhigh, if_neg (lt_irrefl _), hlow]
    obtain ⟨q, h1, h2, h3, h4, h5⟩ := absorbing_capture_run hσ (p := p) (c := faceCell σ a b)
      fuel rfl rfl hr rfl rfl hin hns hexp (WithTop.coe_lt_top _)
    exact ⟨q, face_history_ok hd h1 h5, h5, Or.inl ⟨h4, s, hpos, h2⟩⟩

/-- **C96 is violated**: a neutron that starts on the lower face of a slab and flies down is captured
outside of the slab. -/
theorem C96_captured_outside_violated {σ a b : ℝ} (hσ : 0 < σ) (hab : a < b)
    {direction : DirectionDist} {seed n t fuel e : ℕ} {d : Direction} {g : ℕ}
    (hd : direction.sample (Rng.ofSeed (seed + e)) = .ok (d, g)) (hdown : d.x < 0) :
    ∃ q, (faceProblem σ a b a direction seed n t).history (fuel + 1) e = .ok [q] ∧
      q.event = .capture ∧ q.position.x < a := by
  obtain ⟨q, h1, -, h2⟩ := face_history (n := n) (t := t) (fuel := fuel) hσ hab hd
  rcases h2 with ⟨h2, s, hs, h3⟩ | ⟨h2, -⟩
  · refine ⟨q, h1, h2, ?_⟩
    rw [h3]
    change a + s * d.x < a
    nlinarith
  · linarith

theorem faceProblem_fresh (σ a b x : ℝ) (direction : DirectionDist) (seed n t : ℕ) :
    FreshSet (faceProblem σ a b x direction seed n t).init := by
  refine ⟨⟨?_, ?_, ?_, ?_⟩, ⟨?_, ?_⟩, ?_⟩
  · intro e he e' he' _
    rw [List.mem_singleton.1 he, List.mem_singleton.1 he']
  · intro e he q hq
    rw [List.mem_singleton.1 he] at hq
    cases hq
  · intro e he
    rw [List.mem_singleton.1 he]
    exact ⟨rfl, rfl⟩
  · intro e he q hq
    rw [List.mem_singleton.1 he] at hq
    cases hq
  · intro e he
    rw [List.mem_singleton.1 he]
    exact oneBin_created
  · intro e he q hq
    rw [List.mem_singleton.1 he] at hq
    cases hq
  · rfl

/-- If every history scores the same number of crossings of the lower face, that is what is
printed. -/
theorem face_printed {σ a b x : ℝ} {direction : DirectionDist} {seed n t fuel k : ℕ}
    (hn : 1 ≤ n) (ht : 1 ≤ t) {v : ℝ} {r : EstimatorSet}
    (hv : ∀ e < n, ∀ h, (faceProblem σ a b x direction seed n t).history fuel e = .ok h →
      historyScore oneBin (fun p => if Crossed (lowFace a) p then 1 else 0) h 0 = v)
    (hr : SolveResult (faceProblem σ a b x direction seed n t) fuel 0 r k) :
    r.estimators.map (fun e => (e.base.means n)[0]?) = [some (.ok v)] := by
  obtain ⟨hists, h1, h2, h3⟩ := C32_as_if_sequential (faceProblem_fresh σ a b x direction seed n t) ht hr
  have h1' : hists.length = n := h1
  have hne : hists ≠ [] := by
    intro h0
    rw [h0] at h1'
    simp at h1'
    omega
  have hf := faceProblem_fresh σ a b x direction seed n t
  have hp := C35_printed hf.shaped hf.bins hf.zero hne h3
  change List.Forall₂ _ [(⟨⟨"out", oneBin, [0], [0]⟩, lowFace a, []⟩ : Estimator)] _ at hp
  cases hs : r.estimators with
  | nil => rw [hs] at hp; cases hp
  | cons e' rest =>
    rw [hs] at hp
    cases hp with
    | cons h4 h5 =>
      cases h5
      have h6 := (h4.2.2.2.1 0 Nat.one_pos).1
      simp only [List.map_cons, List.map_nil, List.cons.injEq, and_true]
      rw [h1'] at h6
      rw [h6]
      congr 2
      have hall : hists.map (fun h => historyScore oneBin
          (fun p => if Crossed (lowFace a) p then (1 : ℝ) else 0) h 0) =
          List.replicate n v := by
        rw [← h1', ← List.map_const']
        apply List.map_congr_left
        intro h hh
        obtain ⟨e, he⟩ := List.mem_iff_getElem?.1 hh
        have hlt : e < n := by
          rw [← h1']
          exact (List.getElem?_eq_some_iff.1 he).1
        exact hv e hlt h (h2 e h he)
      have hnn : (n : ℝ) ≠ 0 := by exact_mod_cast (by omega : n ≠ 0)
      change mean (hists.map (fun h => historyScore oneBin
          (fun p => if Crossed (lowFace a) p then (1 : ℝ) else 0) h 0)) = v
      rw [hall, mean, List.sum_replicate, List.length_replicate, nsmul_eq_mul]
      field_simp

/-- **C96 is violated**: whatever the directions of the source, the estimator on the lower face, on
which the source is, prints zero for every seed, number of histories and schedule. -/
theorem C96_prints_zero_violated {σ a b : ℝ} (hσ : 0 < σ) (hab : a < b)
    (direction : DirectionDist) {seed n t fuel k : ℕ} (hn : 1 ≤ n) (ht : 1 ≤ t)
    {r : EstimatorSet} (hr : SolveResult (faceProblem σ a b a direction seed n t) (fuel + 1) 0 r k) :
    r.estimators.map (fun e => (e.base.means n)[0]?) = [some (.ok 0)] := by
  refine face_printed hn ht (fun e _ h hh => ?_) hr
  cases hd : direction.sample (Rng.ofSeed (seed + e)) with
  | error x =>
    exfalso
    unfold Problem.history at hh
    have h1 : (faceProblem σ a b a direction seed n t).source.sample
        ((faceProblem σ a b a direction seed n t).seed + e) = .error x := by
      unfold Source.sample
      change direction.sample (Rng.ofSeed (seed + e)) >>= _ = _
      rw [hd]
      rfl
    rw [h1] at hh
    cases hh
  | ok dg =>
    obtain ⟨q, h1, -, h2⟩ := face_history (n := n) (t := t) (fuel := fuel) hσ hab
      (d := dg.1) (g := dg.2) hd
    rw [h1] at hh
    rw [← Except.ok.inj hh]
    have hno : ¬ Crossed (lowFace a) q := by
      rintro ⟨s, h3, h4, h5⟩
      rcases h2 with ⟨h2, -⟩ | ⟨-, h2, h6⟩
      · rw [h2] at h5
        rcases h5 with h5 | h5 <;> cases h5
      · rw [h6] at h3
        rw [← Option.some.inj h3] at h4
        exact one_ne_zero (h4 : (1 : ℕ) = 0)
    simp [historyScore, hno]

/-- A neutron that starts inside, nearer to the lower face than its first flight is long, leaves
through it. -/
theorem near_history {σ a b x : ℝ} (hσ : 0 < σ) (hax : a < x) (hxb : x < b) {seed n t fuel e : ℕ}
    (hnear : x - a < firstFlight σ seed e) :
    ∃ q, (faceProblem σ a b x (.constant ⟨-1, 0, 0⟩) seed n t).history (fuel + 1) e = .ok [q] ∧
      Crossed (lowFace a) q ∧ oneBin.getIndex q.direction q.energy.toReal = .ok 0 := by
  set p := (Particle.ofBorn ⟨⟨x, 0, 0⟩, ⟨-1, 0, 0⟩, .group 1, .neutron,
    Rng.next (Rng.ofSeed (seed + e)), none⟩).setPerturbations [] with hp
  have hin : InCell (faceCell σ a b) p.position := face_in.2 ⟨hax.le, hxb⟩
  have hlow : (lowFace a).shape.distance p.position p.direction = ((x - a : ℝ) : WithTop ℝ) := by
    change (Surface.planeX a).distance ⟨x, 0, 0⟩ ⟨-1, 0, 0⟩ = _
    have : (a - x) / -1 = x - a := by ring
    simp only [Surface.distance, Surface.planeXDistance, Point.dot, mul_one, mul_zero, add_zero]
    rw [this, if_pos (show x - a > 0 by linarith)]
  have hhigh : (highFace b).shape.distance p.position p.direction = ⊤ := by
    change (Surface.planeX b).distance ⟨x, 0, 0⟩ ⟨-1, 0, 0⟩ = _
    simp only [Surface.distance, Surface.planeXDistance, Point.dot]
    norm_num
    linarith
  have hns : (faceCell σ a b).nearestSurface p.position p.direction =
      .ok (lowFace a, ((x - a : ℝ) : WithTop ℝ)) := by
    simp only [Cell.nearestSurface, faceCell, Cell.nearestFrom]
    rw [hlow, hhigh, if_neg (by simp), hlow]
  have h1 := absorbing_leak_run (p := p) (c := faceCell σ a b) (σ := σ)
    (senses := [(lowFace a, false), (highFace b, true)])
    (t := x - a) (s := lowFace a) fuel rfl (by intro e he; cases he) rfl rfl hin hns
    (by
      unfold Rng.exponentialOf
      rw [if_neg hσ.ne']
      exact WithTop.coe_le_coe.2 hnear.le)
    (by
      rw [face_in]
      rintro ⟨h, -⟩
      change a ≤ x + (x - a + 10 / 2 ^ 52) * -1 at h
      have : (0 : ℝ) < 10 / 2 ^ 52 := by positivity
      linarith)
  exact ⟨_, face_history_ok (direction := .constant ⟨-1, 0, 0⟩) rfl h1 rfl,
    ⟨lowFace a, rfl, rfl, Or.inr rfl⟩, rfl⟩

/-- **C96 is violated**: the result jumps.  For every seed and number of histories, a beam that
starts a little inside the slab and flies out prints one, and starting on the face itself it prints
zero. -/
theorem C96_jump_violated {σ a b : ℝ} (hσ : 0 < σ) (hab : a < b) (seed fuel : ℕ) {n t : ℕ}
    (hn : 1 ≤ n) (ht : 1 ≤ t) :
    (∃ r k, SolveResult (faceProblem σ a b a (.constant ⟨-1, 0, 0⟩) seed n t) (fuel + 1) 0 r k ∧
      r.estimators.map (fun e => (e.base.means n)[0]?) = [some (.ok 0)]) ∧
    ∃ ε, 0 < ε ∧ ∀ x, a < x → x < a + ε →
      ∃ r k, SolveResult (faceProblem σ a b x (.constant ⟨-1, 0, 0⟩) seed n t) (fuel + 1) 0 r k ∧
        r.estimators.map (fun e => (e.base.means n)[0]?) = [some (.ok 1)] := by
  constructor
  · obtain ⟨r, k, h⟩ := C32_result_exists (fuel := fuel + 1)
      (faceProblem_fresh σ a b a (.constant ⟨-1, 0, 0⟩) seed n t) (by
        intro e _
        obtain ⟨q, h1, -, h2⟩ := face_history (n := n) (t := t) (fuel := fuel)
          (direction := .constant ⟨-1, 0, 0⟩) (seed := seed) (e := e) hσ hab rfl
        refine ⟨[q], h1, fun p hp => ⟨?_, ?_, ?_⟩⟩
        · intro e' he' _
          rw [List.mem_singleton.1 he']
          exact ⟨0, rfl⟩
        · intro e' he' q' hq'
          rw [List.mem_singleton.1 he'] at hq'
          cases hq'
        · intro e' he' q' hq'
          rw [List.mem_singleton.1 he'] at hq'
          cases hq')
    exact ⟨r, k, h, C96_prints_zero_violated hσ hab _ hn ht h⟩
  · obtain ⟨ε, hε, hmin⟩ : ∃ ε, 0 < ε ∧ ∀ e < n, ε ≤ firstFlight σ seed e := by
      clear hn ht
      induction n with
      | zero => exact ⟨1, one_pos, fun e he => absurd he (Nat.not_lt_zero _)⟩
      | succ n ih =>
        obtain ⟨ε, h1, h2⟩ := ih
        refine ⟨min ε (firstFlight σ seed n), lt_min h1 (exponential_pos hσ (Rng.valid_ofSeed _)), ?_⟩
        intro e he
        rcases Nat.lt_succ_iff_lt_or_eq.1 he with h | rfl
        · exact (min_le_left _ _).trans (h2 e h)
        · exact min_le_right _ _
    refine ⟨min ε (b - a), lt_min hε (by linarith), fun x h1 h2 => ?_⟩
    have h3 : x - a < ε := by
      have := min_le_left ε (b - a)
      linarith
    have h4 : x < b := by
      have := min_le_right ε (b - a)
      linarith
    have hh : ∀ e < n, ∃ q, (faceProblem σ a b x (.constant ⟨-1, 0, 0⟩) seed n t).history
        (fuel + 1) e = .ok [q] ∧ Crossed (lowFace a) q ∧
        oneBin.getIndex q.direction q.energy.toReal = .ok 0 :=
      fun e he => near_history hσ h1 h4 (h3.trans_le (hmin e he))
    obtain ⟨r, k, h⟩ := C32_result_exists (fuel := fuel + 1)
      (faceProblem_fresh σ a b x (.constant ⟨-1, 0, 0⟩) seed n t) (by
        intro e he
        obtain ⟨q, h1, h2, h3⟩ := hh e he
        refine ⟨[q], h1, fun p hp => ⟨?_, ?_, ?_⟩⟩
        · intro e' he' _
          rw [List.mem_singleton.1 he']
          exact ⟨0, rfl⟩
        · intro e' he' q' hq'
          rw [List.mem_singleton.1 he'] at hq'
          cases hq'
        · intro e' he' q' hq'
          rw [List.mem_singleton.1 he'] at hq'
          cases hq')
    refine ⟨r, k, h, face_printed hn ht (fun e he hist hhist => ?_) h⟩
    obtain ⟨q, k1, k2, k3⟩ := hh e he
    rw [k1] at hhist
    rw [← Except.ok.inj hhist]
    simp [historyScore, k2, k3]

/-- Instances: a slab between 0 and 10 with a beam out of it; an isotropic source has directions as
well. -/
example : (∃ r k, SolveResult (faceProblem 1 0 10 0 (.constant ⟨-1, 0, 0⟩) 1 1000 8) 1 0 r k) ∧
    (∃ d g, DirectionDist.sample (.constant ⟨-1, 0, 0⟩) (Rng.ofSeed (1 + 5)) = .ok (d, g) ∧ d.x < 0) ∧
    ∃ d g, DirectionDist.sample .isotropic (Rng.ofSeed (1 + 5)) = .ok (d, g) := by
  obtain ⟨⟨r, k, h, -⟩, -⟩ := C96_jump_violated (σ := 1) (a := 0) (b := 10) (n := 1000) (t := 8)
    one_pos (by norm_num) 1 0 (by norm_num) (by norm_num)
  exact ⟨⟨r, k, h⟩, ⟨_, _, rfl, by norm_num⟩, _, _, rfl⟩

/-- **C96 is violated**: with the source on the upper face every history dereferences a null
pointer, whatever the directions. -/
theorem C96_upper_face_violated {σ a b : ℝ} {direction : DirectionDist}
    {seed n t fuel e : ℕ} {d : Direction} {g : ℕ}
    (hd : direction.sample (Rng.ofSeed (seed + e)) = .ok (d, g)) :
    (faceProblem σ a b b direction seed n t).history (fuel + 1) e = .error .ub := by
  set p := (Particle.ofBorn ⟨⟨b, 0, 0⟩, d, .group 1, .neutron, Rng.next g, none⟩).setPerturbations []
    with hp
  have hrun : transport .surfaceTracking (fuel + 1)
      (absorbingWorld [(lowFace a, false), (highFace b, true)] σ) p = .error .ub := by
    refine C55_void_start_violated (c := ⟨"out", [], none, .constant 300⟩) _ _ ?_ rfl ?_
    · refine ⟨[faceCell σ a b], [], rfl, by simp [InCell], ?_⟩
      intro c hc
      rw [List.mem_singleton.1 hc, face_in]
      exact fun h => lt_irrefl _ h.2
    · have : p.event = .birth := rfl
      simp [Ended, this]
  unfold Problem.history
  have h1 : (faceProblem σ a b b direction seed n t).source.sample
      ((faceProblem σ a b b direction seed n t).seed + e) =
      .ok ⟨⟨b, 0, 0⟩, d, .group 1, .neutron, Rng.next g, none⟩ := by
    unfold Source.sample
    change direction.sample (Rng.ofSeed (seed + e)) >>= _ = _
    rw [hd]
    rfl
  rw [h1]
  simp only [bind, Except.bind]
  have hpb := processBank_concat (run := transport .surfaceTracking (fuel + 1)
      (absorbingWorld [(lowFace a, false), (highFace b, true)] σ))
    (qs := []) fuel [] (Particle.ofBorn ⟨⟨b, 0, 0⟩, d, .group 1, .neutron, Rng.next g, none⟩)
  rw [← hp, hrun] at hpb
  have hb : processBank (transport (faceProblem σ a b b direction seed n t).method (fuel + 1)
      (faceProblem σ a b b direction seed n t).world)
      (faceProblem σ a b b direction seed n t).perturbations (fuel + 1)
      [Particle.ofBorn ⟨⟨b, 0, 0⟩, d, .group 1, .neutron, Rng.next g, none⟩] = _ := hpb
  rw [hb]
  rfl

end Minimc.Props
