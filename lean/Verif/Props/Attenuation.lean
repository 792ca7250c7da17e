import Verif.Props.Absorber
import Verif.Props.DeltaTracking
import Verif.Spec.Attenuation

/-! # Property C70: attenuation along a straight way -/

namespace Minimc.Props

open Classical Spec MeasureTheory

/-- One step of a neutron of a group: it crosses the nearest surface if the sampled flight reaches it,
and collides otherwise. -/
theorem group_step_reach {G : ℕ} {nodes : Nuclide → List MgNode} {w : World}
    (hw : WellPosed G nodes w) {p : Particle} {g : ℕ} (ht : p.type = .neutron) (hg : InGroup p g)
    (h1 : 1 ≤ g) (h2 : g ≤ G) (hr : Rng.Valid p.rng) {c : Cell} (hc : FirstCell w p.position c)
    (hpc : p.cell = some c) {m : Material} (hm : c.material = some m) {t : ℝ}
    (hn : NearestAhead c p.position p.direction t) (method : Method) (fuel : ℕ) :
    ∃ p', transportStep method fuel w p = .ok p' ∧
      (ReachesSurface method t (-Real.log (1 - (Rng.canonical p.rng).1) / macroscopic G nodes g m) →
        CrossedSurface p' ∧ p'.position = along p.position p.direction (t + 10 / 2 ^ 52) ∧
        (∃ c', FirstCell w p'.position c' ∧ p'.cell = some c' ∧
          (c'.material = none ↔ p'.event = .leak)) ∧
        p'.direction = p.direction ∧ p'.energy = p.energy ∧ p'.type = p.type ∧
        p'.rng = (Rng.canonical p.rng).2 ∧
        ∃ s, p'.currentSurface = some s ∧ Bounds s c ∧
          s.shape.distance p.position p.direction = (t : WithTop ℝ)) ∧
      (¬ ReachesSurface method t
          (-Real.log (1 - (Rng.canonical p.rng).1) / macroscopic G nodes g m) →
        ¬ CrossedSurface p') := by
  have hcw : c ∈ w.cells := by
    obtain ⟨l, r, hlr, -⟩ := hc
    rw [hlr]; simp
  have hin : InMaterial G w p := ⟨⟨ht, ⟨g, hg, h1, h2⟩, hr⟩, c, hcw, hpc, by rw [hm]; simp⟩
  obtain ⟨p', h, -, -, -, hev⟩ := group_step_event hw hin method fuel
  obtain ⟨-, -, hden⟩ := group_density hw hcw hm hpc ht hg h1 h2 method
  have hpos := mul_pos (hw.density c hcw m hm) (group_shares hw hcw hm h1 h2)
  have hmac : m.numberDensity * (shares m fun n => specTotal G (nodes n) g).sum =
    macroscopic G nodes g m := rfl
  rw [hmac] at hpos
  set f := -Real.log (1 - (Rng.canonical p.rng).1) / macroscopic G nodes g m with hf
  set p₁ : Particle := { p with rng := (Rng.canonical p.rng).2 } with hp₁
  have hfl : sampleFlight method p = .ok ((f : WithTop ℝ), p₁) := by
    have hgc : p.getCell = .ok c := Particle.getCell_ok.2 hpc
    unfold sampleFlight
    rw [hgc]
    simp only [bind, Except.bind, hm, hden, hmac]
    unfold Rng.exponential Rng.exponentialOf
    rw [if_neg hpos.ne']
  obtain ⟨⟨s, ds⟩, hns⟩ := (C07_raises_iff_no_surfaces c p.position p.direction).2
    (hw.bounded c hcw (by rw [hm]; simp))
  obtain ⟨n1, n2, n3⟩ := nearest_ok hns
  have hds : ds = (t : WithTop ℝ) := by
    obtain ⟨⟨s', b', e'⟩, hmin⟩ := hn
    refine le_antisymm (e' ▸ n3 s' b') ?_
    rw [n1]
    exact hmin s n2
  subst hds
  have hcross : crossSurface method w p₁ s (t : WithTop ℝ) = .ok p' →
      CrossedSurface p' ∧ p'.position = along p.position p.direction (t + 10 / 2 ^ 52) ∧
        (∃ c', FirstCell w p'.position c' ∧ p'.cell = some c' ∧
          (c'.material = none ↔ p'.event = .leak)) ∧
        p'.direction = p.direction ∧ p'.energy = p.energy ∧ p'.type = p.type ∧
        p'.rng = (Rng.canonical p.rng).2 ∧
        ∃ s, p'.currentSurface = some s ∧ Bounds s c ∧
          s.shape.distance p.position p.direction = (t : WithTop ℝ) := by
    intro k
    obtain ⟨t', e0, e1, ⟨c', e2, e3, e4, e5⟩, e10, e6, e7, e8, -, e9⟩ := crossSurface_ok k
    rw [WithTop.coe_inj] at e0
    subst e0
    refine ⟨?_, e1, ⟨c', e2, e3, e4, fun hl => ?_⟩, e6, e7, e8, e9, s, e10, n2, n1.symm⟩
    · by_cases hcm : c'.material = none
      · exact .inr (e4 hcm)
      · exact .inl (e5 hcm)
    · by_contra hcm
      rw [e5 hcm] at hl
      cases hl
  have hcoll : ∀ q : Particle, collide method fuel q (f : WithTop ℝ) = .ok p' →
      ¬ CrossedSurface p' := by
    intro q k
    obtain ⟨_, _, _, _, _, hev, _⟩ := collide_ok k
    rcases hev with h | h | h <;> simp [CrossedSurface, h]
  refine ⟨p', h, ?_⟩
  have hgc : p₁.getCell = .ok c := Particle.getCell_ok.2 hpc
  have hns' : c.nearestSurface p₁.position p₁.direction = .ok (s, (t : WithTop ℝ)) := hns
  cases method
  · change surfaceStep fuel w p = .ok p' at h
    unfold surfaceStep at h
    rw [hfl] at h
    simp only [bind, Except.bind, hgc, hns', WithTop.coe_lt_coe] at h
    unfold ReachesSurface
    constructor
    · intro hre
      rw [if_neg (not_lt.2 hre)] at h
      exact hcross h
    · intro hre
      rw [if_pos (not_le.1 hre)] at h
      exact hcoll _ h
  · change deltaStep fuel w p = .ok p' at h
    unfold deltaStep at h
    rw [hfl] at h
    simp only [bind, Except.bind, hgc, hns', WithTop.coe_lt_coe] at h
    unfold ReachesSurface
    constructor
    · intro hre
      rw [if_pos hre] at h
      exact hcross h
    · intro hre
      rw [if_neg hre] at h
      cases ha : acceptance p₁ with
      | error e => rw [ha] at h; cases h
      | ok a =>
        rw [ha] at h
        dsimp only at h
        split_ifs at h with hb
        · exact hcoll _ h
        · split at h
          · cases h
          · cases h
            exact absurd rfl hev

theorem firstCell_unique {w : World} {x : Point} {c c' : Cell} (h : FirstCell w x c)
    (h' : FirstCell w x c') : c = c' := by
  have a := findCellContaining_ok.2 h
  rw [findCellContaining_ok.2 h'] at a
  exact (Except.ok.inj a).symm

/-- The numbers drawn after the first. -/
theorem drawn_succ (g : ℕ) : (fun n => drawn g (n + 1)) = drawn (Rng.canonical g).2 := by
  funext n
  unfold drawn
  have : (Rng.canonical g).2 = Rng.next^[2] g := rfl
  rw [this, ← Function.iterate_add_apply]
  rfl

theorem drawn_zero (g : ℕ) : drawn g 0 = (Rng.canonical g).1 := rfl

/-- **C70** A neutron passes all parts of a straight way without collision exactly if the flights made
of the numbers it draws, one for each part, reach the ends; then it is at the end of the way. -/
theorem C70_uncollided {G : ℕ} {nodes : Nuclide → List MgNode} {w : World}
    (hw : WellPosed G nodes w) {g : ℕ} (h1 : 1 ≤ g) (h2 : g ≤ G) (method : Method) (fuel : ℕ)
    {d : Direction} {x y : Point} {rs : List Slice} (hroute : Route G nodes w g d x rs y) :
    ∀ {n : ℕ} {p last : Particle} {scored : List Particle}, p.type = .neutron → InGroup p g →
      Rng.Valid p.rng → p.position = x → p.direction = d →
      (∃ c, FirstCell w x c ∧ p.cell = some c) → ¬ Ended p →
      transportLoop method fuel w n p = .ok (last, scored) →
      (Clears method rs (drawn p.rng) ↔
        rs.length ≤ scored.length ∧ ∀ q ∈ scored.take rs.length, CrossedSurface q) ∧
      (Clears method rs (drawn p.rng) → ∀ q, (p :: scored)[rs.length]? = some q →
        q.position = y ∧ q.direction = d ∧ q.energy = p.energy ∧
          (rs ≠ [] → ∃ c, FirstCell w y c ∧ (q.event = .leak ↔ c.material = none)) ∧
          ∀ r, rs.getLast? = some r → ∃ s, q.currentSurface = some s ∧ EndsAt r d s) := by
  induction hroute with
  | arrived =>
    intro n p last scored ht hg hr hx hd hc hend h
    refine ⟨by simp [Clears], fun _ q hq => ?_⟩
    simp only [List.length_nil, List.getElem?_cons_zero, Option.some.injEq] at hq
    subst hq
    exact ⟨hx, hd, rfl, fun h => absurd rfl h, by simp⟩
  | @slice x y c m t rest hc hm hn hroute ih =>
    intro n p last scored ht hg hr hx hd hcell hend h
    obtain ⟨c', hc', hpc⟩ := hcell
    obtain rfl : c' = c := firstCell_unique hc' hc
    subst hx hd
    obtain ⟨p', hs, hyes, hno⟩ := group_step_reach hw ht hg h1 h2 hr hc hpc hm hn method fuel
    cases n with
    | zero =>
      unfold transportLoop at h
      rw [if_pos ((alive_iff p).2 hend)] at h
      cases h
    | succ n =>
      unfold transportLoop at h
      rw [if_pos ((alive_iff p).2 hend), hs] at h
      simp only [bind, Except.bind] at h
      cases hl : transportLoop method fuel w n p' with
      | error e => rw [hl] at h; cases h
      | ok r =>
        obtain ⟨last', scored'⟩ := r
        rw [hl] at h
        cases h
        simp only [Clears, drawn_zero, drawn_succ, List.length_cons, List.take_succ_cons,
          List.mem_cons, forall_eq_or_imp, Nat.add_le_add_iff_right, List.getElem?_cons_succ]
        by_cases hre : ReachesSurface method t
            (-Real.log (1 - (Rng.canonical p.rng).1) / macroscopic G nodes g m)
        · obtain ⟨k1, k2, ⟨c'', k3, k4, k5⟩, k6, k7, k8, k9, s, k10, k11, k12⟩ := hyes hre
          simp only [hre, k1, true_and]
          cases hroute with
          | arrived =>
            refine ⟨by simp [Clears], fun _ q hq => ?_⟩
            simp only [List.length_nil, List.getElem?_cons_zero, Option.some.injEq] at hq
            subst hq
            refine ⟨k2, k6, k7, fun _ => ⟨c'', k2 ▸ k3, k5.symm⟩, fun r hr => ⟨s, k10, ?_⟩⟩
            simp only [List.getLast?_singleton, Option.some.injEq] at hr
            subst hr
            exact ⟨s, k11, k12, rfl⟩
          | slice j1 j2 j3 j4 =>
            rename_i c2 m2 t2 rest2
            have hc2 : c'' = c2 := firstCell_unique k3 (k2 ▸ j1)
            have hcr : p'.event = .surfaceCross := by
              rcases k1 with k | k
              · exact k
              · have := k5.2 k
                rw [hc2, j2] at this
                cases this
            have hg' : InGroup p' g := by
              unfold InGroup at hg ⊢
              rw [k7]; exact hg
            have := ih (n := n) (p := p') (last := last') (scored := scored') (k8.trans ht) hg'
              (k9 ▸ Rng.valid_canonical hr) k2 k6 ⟨c'', k2 ▸ k3, k4⟩ (by simp [Ended, hcr]) hl
            rw [k9, k7] at this
            refine ⟨this.1, fun hcl q hq => ?_⟩
            obtain ⟨i1, i2, i3, i4, i5⟩ := this.2 hcl q hq
            refine ⟨i1, i2, i3, fun _ => i4 (by simp), fun r hr => i5 r ?_⟩
            rwa [List.getLast?_cons_cons] at hr
        · have hnot := hno hre
          constructor
          · constructor
            · rintro ⟨h, -⟩; exact absurd h hre
            · rintro ⟨-, h, -⟩; exact absurd h hnot
          · rintro ⟨h, -⟩; exact absurd h hre

/-! ### Probabilities -/

theorem measurableSet_reaches (method : Method) (r : Slice) :
    MeasurableSet {u : ℝ | ReachesSurface method r.length (-Real.log (1 - u) / r.rate)} := by
  have hm : Measurable fun u : ℝ => -Real.log (1 - u) / r.rate := by fun_prop
  cases method
  · exact measurableSet_le measurable_const hm
  · exact measurableSet_lt measurable_const hm

theorem measurableSet_clears (method : Method) : ∀ rs : List Slice,
    MeasurableSet {us : ℕ → ℝ | Clears method rs us}
  | [] => by simp [Clears]
  | r :: rs => by
    have h1 : MeasurableSet {us : ℕ → ℝ |
        ReachesSurface method r.length (-Real.log (1 - us 0) / r.rate)} :=
      measurable_pi_apply (X := fun _ : ℕ => ℝ) 0 (measurableSet_reaches method r)
    have h2 : MeasurableSet {us : ℕ → ℝ | Clears method rs fun n => us (n + 1)} :=
      (measurable_pi_iff.2 fun n => measurable_pi_apply (n + 1) :
        Measurable fun (us : ℕ → ℝ) n => us (n + 1)) (measurableSet_clears method rs)
    exact h1.inter h2

/-- A flight reaches the end of a part of the way with the probability of exponential attenuation. -/
theorem uniform_reaches (method : Method) {r : Slice} (h : 0 < r.rate) (hl : 0 ≤ r.length) :
    uniform {u | ReachesSurface method r.length (-Real.log (1 - u) / r.rate)} =
      ENNReal.ofReal (Real.exp (-(r.rate * r.length))) := by
  have he : Real.exp (-(r.rate * r.length)) ≤ 1 := Real.exp_le_one_iff.2 (by nlinarith)
  have hp := Real.exp_pos (-(r.rate * r.length))
  have hiff : ∀ u < 1, (r.length ≤ -Real.log (1 - u) / r.rate ↔
      1 - Real.exp (-(r.rate * r.length)) ≤ u) := by
    intro u hu
    rw [le_div_iff₀ h, le_neg, Real.log_le_iff_le_exp (by linarith), mul_comm r.length]
    constructor <;> intro h <;> linarith
  have hiff' : ∀ u < 1, (r.length < -Real.log (1 - u) / r.rate ↔
      1 - Real.exp (-(r.rate * r.length)) < u) := by
    intro u hu
    rw [lt_div_iff₀ h, lt_neg, Real.log_lt_iff_lt_exp (by linarith), mul_comm r.length]
    constructor <;> intro h <;> linarith
  unfold uniform
  rw [Measure.restrict_apply (measurableSet_reaches method r)]
  cases method
  · have : {u | ReachesSurface .surfaceTracking r.length (-Real.log (1 - u) / r.rate)} ∩ Set.Ico 0 1 =
        Set.Ico (1 - Real.exp (-(r.rate * r.length))) 1 := by
      ext u
      simp only [ReachesSurface, Set.mem_inter_iff, Set.mem_ofPred_eq, Set.mem_Ico]
      constructor
      · rintro ⟨k1, k2, k3⟩; exact ⟨(hiff u k3).1 k1, k3⟩
      · rintro ⟨k1, k2⟩; exact ⟨(hiff u k2).2 k1, by linarith, k2⟩
    rw [this, Real.volume_Ico]
    congr 1
    ring
  · have : {u | ReachesSurface .cellDeltaTracking r.length (-Real.log (1 - u) / r.rate)} ∩
        Set.Ico 0 1 = Set.Ioo (1 - Real.exp (-(r.rate * r.length))) 1 := by
      ext u
      simp only [ReachesSurface, Set.mem_inter_iff, Set.mem_ofPred_eq, Set.mem_Ico, Set.mem_Ioo]
      constructor
      · rintro ⟨k1, k2, k3⟩; exact ⟨(hiff' u k3).1 k1, k3⟩
      · rintro ⟨k1, k2⟩; exact ⟨(hiff' u k2).2 k1, by linarith, k2⟩
    rw [this, Real.volume_Ioo]
    congr 1
    ring

theorem uniforms_clears (method : Method) : ∀ {rs : List Slice},
    (∀ r ∈ rs, 0 < r.rate ∧ 0 ≤ r.length) →
    uniforms {us | Clears method rs us} = ENNReal.ofReal (Real.exp (-opticalDepth rs))
  | [], _ => by simp [Clears, opticalDepth]
  | r :: rs, h => by
    have hset : consSeq ⁻¹' {us | Clears method (r :: rs) us} =
        {u | ReachesSurface method r.length (-Real.log (1 - u) / r.rate)} ×ˢ
          {us | Clears method rs us} := by
      ext ⟨u, us⟩
      rfl
    rw [← uniforms_cons, Measure.map_apply measurable_consSeq (measurableSet_clears method _), hset,
      Measure.prod_prod, uniform_reaches method (h r (by simp)).1 (h r (by simp)).2,
      uniforms_clears method fun r' hr' => h r' (by simp [hr']), ← ENNReal.ofReal_mul (Real.exp_pos _).le,
      ← Real.exp_add]
    congr 2
    simp only [opticalDepth, List.map_cons, List.sum_cons]
    ring

theorem route_positive {G : ℕ} {nodes : Nuclide → List MgNode} {w : World}
    (hw : WellPosed G nodes w) {g : ℕ} (h1 : 1 ≤ g) (h2 : g ≤ G) {d : Direction} (hd : UnitVec d)
    {x y : Point} {rs : List Slice} (h : Route G nodes w g d x rs y) :
    ∀ r ∈ rs, 0 < r.rate ∧ 0 < r.length := by
  induction h with
  | arrived => simp
  | slice hc hm hn _ ih =>
    intro r hr
    rcases List.mem_cons.1 hr with rfl | hr
    · obtain ⟨l, k, hlk, -⟩ := hc
      have hcw := hlk ▸ List.mem_append_right l (List.mem_cons_self (l := k))
      refine ⟨mul_pos (hw.density _ hcw _ hm) (group_shares hw hcw hm h1 h2), ?_⟩
      obtain ⟨⟨s, -, hs⟩, -⟩ := hn
      exact (firstCrossing_surface s.shape _ d hd).pos _ hs
    · exact ih r hr

/-- **C70** The probability of passing a straight way without collision, if the numbers drawn are
independent, is the exponential of minus the optical depth, with either method. -/
theorem C70_attenuation {G : ℕ} {nodes : Nuclide → List MgNode} {w : World}
    (hw : WellPosed G nodes w) {g : ℕ} (h1 : 1 ≤ g) (h2 : g ≤ G) {d : Direction} (hd : UnitVec d)
    {x y : Point} {rs : List Slice} (h : Route G nodes w g d x rs y) (method : Method) :
    uniforms {us | Clears method rs us} = ENNReal.ofReal (Real.exp (-opticalDepth rs)) :=
  uniforms_clears method fun r hr =>
    ⟨(route_positive hw h1 h2 hd h r hr).1, (route_positive hw h1 h2 hd h r hr).2.le⟩

theorem route_take {G : ℕ} {nodes : Nuclide → List MgNode} {w : World} {g : ℕ} {d : Direction}
    {x y : Point} {rs : List Slice} (h : Route G nodes w g d x rs y) : ∀ k, k < rs.length →
    ∃ z c, Route G nodes w g d x (rs.take k) z ∧ FirstCell w z c ∧ c.material ≠ none := by
  induction h with
  | arrived => intro k hk; simp at hk
  | @slice x y c m t rest hc hm hn _ ih =>
    intro k hk
    cases k with
    | zero => exact ⟨x, c, .arrived, hc, by simp [hm]⟩
    | succ k =>
      obtain ⟨z, c', h1, h2, h3⟩ := ih k (by simpa using hk)
      exact ⟨z, c', .slice hc hm hn h1, h2, h3⟩

theorem straight_last {o : Point} {d : Direction} {t : ℝ} {qs : List Particle}
    (h : Straight o d t qs) : ∃ init last, qs = init ++ [last] ∧
      (last.event = .capture ∨ last.event = .leak) ∧ ∀ q ∈ init, q.event = .surfaceCross := by
  induction h with
  | capture _ _ h => exact ⟨[], _, rfl, .inl h, by simp⟩
  | leak _ _ h => exact ⟨[], _, rfl, .inr h, by simp⟩
  | cross _ _ h _ ih =>
    obtain ⟨init, last, rfl, h1, h2⟩ := ih
    refine ⟨_ :: init, last, rfl, h1, ?_⟩
    intro q hq
    rcases List.mem_cons.1 hq with rfl | hq
    · exact h
    · exact h2 q hq

/-- **C70** In an absorber a history ends with a leak exactly if the numbers drawn by the source
particle let it pass the way from the source to a place without material; otherwise it ends with a
capture. -/
theorem C70_leak {G : ℕ} {nodes : Nuclide → List MgNode} {P : Problem}
    (hw : WellPosed G nodes P.world) (ha : Absorbing G nodes P.world) {R : ℝ} (hR : 0 ≤ R)
    (hb : MaterialWithin R P.world) (hs : GroupSource G P.world P.source)
    (hd : Configured P.source.direction) {fuel : ℕ} (hf : 2 * R < fuel * (10 / 2 ^ 52)) (e : ℕ)
    {g : ℕ} (hg : P.source.energy = .group g) {b : Born}
    (hsam : P.source.sample (P.seed + e) = .ok b) {rs : List Slice} {y : Point}
    (hroute : Route G nodes P.world g b.direction P.source.position rs y) {c : Cell}
    (hy : FirstCell P.world y c) (hc : c.material = none) :
    ∃ states last, P.history fuel e = .ok states ∧ states.getLast? = some last ∧
      (last.event = .leak ↔ Clears P.method rs (drawn (Rng.ofSeed b.seed))) ∧
      (last.event = .capture ↔ ¬ Clears P.method rs (drawn (Rng.ofSeed b.seed))) := by
  obtain ⟨b', p, last, states, k1, k2, k3, k4, k5, k6, k7, k8, k9, k10, k11, -⟩ :=
    absorb_history hw ha hR hb hs hd hf e
  rw [hsam] at k1
  cases k1
  obtain ⟨g', j1, j2, j3⟩ := hs.group
  rw [hg] at j1
  cases j1
  have hin : InGroup p g := k6.trans hg
  obtain ⟨init, q, rfl, hev, hinit⟩ := straight_last k11
  have hmain : ∀ {rs' : List Slice} {z : Point}, Route G nodes P.world g b.direction
      P.source.position rs' z → _ := fun hr => C70_uncollided hw j2 j3 P.method fuel hr k7 hin
        (k8 ▸ Rng.valid_ofSeed _) k4 k5 k10 k9 k3
  rw [k8] at hmain
  have hne : rs ≠ [] := by
    rintro rfl
    cases hroute
    obtain ⟨c', f1, f2⟩ := hs.place
    exact f2 (firstCell_unique f1 hy ▸ hc)
  have hlen : 1 ≤ rs.length := List.length_pos_iff.2 hne
  have key : q.event = .leak ↔ Clears P.method rs (drawn (Rng.ofSeed b.seed)) := by
    obtain ⟨u1, u2⟩ := hmain hroute
    constructor
    · intro hl
      have hall : ∀ q' ∈ init ++ [q], CrossedSurface q' := by
        intro q' hq'
        rcases List.mem_append.1 hq' with h | h
        · exact .inl (hinit _ h)
        · obtain rfl := List.mem_singleton.1 h
          exact .inr hl
      refine u1.2 ⟨?_, fun q' hq' => hall q' (List.mem_of_mem_take hq')⟩
      by_contra hlt
      obtain ⟨z, c', f1, f2, f3⟩ := route_take hroute _ (not_le.1 hlt)
      have hlt' : (rs.take (init ++ [q]).length).length = (init ++ [q]).length := by
        rw [List.length_take]; omega
      obtain ⟨v1, v2⟩ := hmain f1
      rw [hlt'] at v1 v2
      obtain ⟨-, -, -, v3, -⟩ := v2 (v1.2 ⟨le_rfl, fun q' hq' => hall q' (List.mem_of_mem_take hq')⟩) q
        (by simp)
      obtain ⟨c'', f4, f5⟩ := v3 (by
        intro h0
        rw [h0] at hlt'
        simp at hlt')
      exact f3 (firstCell_unique f2 f4 ▸ f5.1 hl)
    · intro hcl
      obtain ⟨u3, -⟩ := u1.1 hcl
      obtain ⟨n, hn⟩ : ∃ n, rs.length = n + 1 := ⟨rs.length - 1, by omega⟩
      have hlt : n < (init ++ [q]).length := by omega
      obtain ⟨-, -, -, v3, -⟩ := u2 hcl (init ++ [q])[n] (by
        rw [hn, List.getElem?_cons_succ, List.getElem?_eq_getElem hlt])
      obtain ⟨c'', f4, f5⟩ := v3 hne
      have hleak := f5.2 (firstCell_unique hy f4 ▸ hc)
      rcases List.mem_append.1 (List.getElem_mem hlt) with h | h
      · rw [hinit _ h] at hleak
        cases hleak
      · rw [← List.mem_singleton.1 h]
        exact hleak
  refine ⟨_, q, k2, by simp, key, ?_⟩
  rw [← key]
  rcases hev with h | h <;> simp [h]

/-! ### The optical depth as an integral -/

theorem rateAt_eq {G : ℕ} {nodes : Nuclide → List MgNode} {w : World} {g : ℕ} {x : Point} {c : Cell}
    {m : Material} (hc : FirstCell w x c) (hm : c.material = some m) :
    rateAt G nodes w g x = macroscopic G nodes g m := by
  have h : ∃ c m, FirstCell w x c ∧ c.material = some m := ⟨c, m, hc, hm⟩
  unfold rateAt
  rw [dif_pos h]
  have h2 := h.choose_spec.choose_spec
  have h3 : h.choose.material = some m := (firstCell_unique h2.1 hc) ▸ hm
  rw [Option.some.inj (h2.2.symm.trans h3)]

theorem rateAt_le {G : ℕ} {nodes : Nuclide → List MgNode} {w : World} {g : ℕ} {M : ℝ} (hM : 0 ≤ M)
    (hle : ∀ c ∈ w.cells, ∀ m, c.material = some m → macroscopic G nodes g m ≤ M) (x : Point) :
    rateAt G nodes w g x ≤ M := by
  by_cases h : ∃ c m, FirstCell w x c ∧ c.material = some m
  · obtain ⟨c, m, hc, hm⟩ := h
    rw [rateAt_eq hc hm]
    obtain ⟨l, r, hlr, -⟩ := hc
    exact hle c (by rw [hlr]; simp) m hm
  · unfold rateAt
    rw [dif_neg h]
    exact hM

theorem lintegral_Ico_shift (f : ℝ → ENNReal) (a b : ℝ) :
    ∫⁻ s in Set.Ico a (a + b), f s = ∫⁻ s in Set.Ico 0 b, f (a + s) := by
  rw [← lintegral_indicator measurableSet_Ico, ← lintegral_indicator measurableSet_Ico,
    ← lintegral_add_left_eq_self _ a]
  congr 1
  funext s
  by_cases h : s ∈ Set.Ico 0 b
  · rw [Set.indicator_of_mem h, Set.indicator_of_mem]
    obtain ⟨h1, h2⟩ := h
    exact ⟨by linarith, by linarith⟩
  · rw [Set.indicator_of_notMem h, Set.indicator_of_notMem]
    rintro ⟨h1, h2⟩
    exact h ⟨by linarith, by linarith⟩

theorem lintegral_Ico_split (f : ℝ → ENNReal) {a b c : ℝ} (h1 : a ≤ b) (h2 : b ≤ c) :
    ∫⁻ s in Set.Ico a c, f s = (∫⁻ s in Set.Ico a b, f s) + ∫⁻ s in Set.Ico b c, f s := by
  rw [← Set.Ico_union_Ico_eq_Ico h1 h2, lintegral_union measurableSet_Ico]
  exact Set.disjoint_left.2 fun s hs hs' => absurd hs.2 (not_lt.2 hs'.1)

/-- **C70** The optical depth is the integral of the collisions per unit length along the way, except
for what the short steps taken beyond each surface contribute. -/
theorem C70_line_integral {G : ℕ} {nodes : Nuclide → List MgNode} {w : World}
    (hw : WellPosed G nodes w) (hsep : Separated w)
    (hconf : ∀ c ∈ w.cells, ∀ s, Bounds s c → Conforming s.shape) {g : ℕ} (h1 : 1 ≤ g) (h2 : g ≤ G)
    {d : Direction} (hd : UnitVec d) {M : ℝ} (hM : 0 ≤ M)
    (hle : ∀ c ∈ w.cells, ∀ m, c.material = some m → macroscopic G nodes g m ≤ M)
    {x y : Point} {rs : List Slice} (h : Route G nodes w g d x rs y)
    (hoff : ∀ r ∈ rs, ∀ s, Bounds s r.cell → ¬ OnSurface s.shape r.start) :
    y = along x d (wayLength rs) ∧
      ENNReal.ofReal (opticalDepth rs) ≤
        (∫⁻ s in Set.Ico 0 (wayLength rs), ENNReal.ofReal (rateAt G nodes w g (along x d s))) ∧
      (∫⁻ s in Set.Ico 0 (wayLength rs), ENNReal.ofReal (rateAt G nodes w g (along x d s))) ≤
        ENNReal.ofReal (opticalDepth rs + rs.length * (10 / 2 ^ 52 * M)) := by
  induction h with
  | arrived => simp [wayLength, opticalDepth, along]
  | @slice x y c m t rest hc hm hn hroute ih =>
    obtain ⟨i1, i2, i3⟩ := ih fun r hr => hoff r (by simp [hr])
    have hpos := route_positive hw h1 h2 hd (.slice hc hm hn hroute)
    obtain ⟨hrate, ht⟩ := hpos _ List.mem_cons_self
    dsimp only at hrate ht
    have hdep : 0 ≤ opticalDepth rest := List.sum_nonneg fun z hz => by
      obtain ⟨r, hr, rfl⟩ := List.mem_map.1 hz
      have := hpos r (by simp [hr])
      exact (mul_pos this.1 this.2).le
    have hway : 0 ≤ wayLength rest := List.sum_nonneg fun z hz => by
      obtain ⟨r, hr, rfl⟩ := List.mem_map.1 hz
      have := (hpos r (by simp [hr])).2
      positivity
    have hcw : c ∈ w.cells := by
      obtain ⟨l, r, hlr, -⟩ := hc
      rw [hlr]; simp
    set f : ℝ → ENNReal := fun s => ENNReal.ofReal (rateAt G nodes w g (along x d s)) with hf
    have hε : (0 : ℝ) < 10 / 2 ^ 52 := by positivity
    have e1 : opticalDepth (⟨c, x, macroscopic G nodes g m, t⟩ :: rest) =
        macroscopic G nodes g m * t + opticalDepth rest := by simp [opticalDepth]
    have e2 : wayLength (⟨c, x, macroscopic G nodes g m, t⟩ :: rest) =
        (t + 10 / 2 ^ 52) + wayLength rest := by simp [wayLength]
    have e3 : ∫⁻ s in Set.Ico 0 (wayLength (⟨c, x, macroscopic G nodes g m, t⟩ :: rest)), f s =
        (∫⁻ s in Set.Ico 0 t, f s) + (∫⁻ s in Set.Ico t (t + 10 / 2 ^ 52), f s) +
        ∫⁻ s in Set.Ico 0 (wayLength rest), ENNReal.ofReal
          (rateAt G nodes w g (along (along x d (t + 10 / 2 ^ 52)) d s)) := by
      rw [e2, lintegral_Ico_split f (b := t + 10 / 2 ^ 52) (by positivity) (by linarith),
        lintegral_Ico_split f (b := t) ht.le (by linarith), lintegral_Ico_shift f (t + 10 / 2 ^ 52)]
      simp only [hf, along_again]
    have e4 : ∫⁻ s in Set.Ico 0 t, f s = ENNReal.ofReal (macroscopic G nodes g m * t) := by
      have : Set.EqOn f (fun _ => ENNReal.ofReal (macroscopic G nodes g m)) (Set.Ico 0 t) := by
        intro s hs
        have hin : InCell c (along x d s) := by
          obtain ⟨l, r, -, hin, -⟩ := id hc
          intro e he
          have hb : Bounds e.1 c := ⟨e.2, he⟩
          rw [C06_side_constant_before_partial _ (hconf c hcw _ hb) x d hd
            (hoff _ List.mem_cons_self _ hb) s hs.1
            (lt_of_lt_of_le (WithTop.coe_lt_coe.2 hs.2) (hn.2 _ hb))]
          exact hin e he
        simp only [hf]
        rw [rateAt_eq (hsep _ c hcw (by simp [hm]) hin) hm]
      rw [setLIntegral_congr_fun measurableSet_Ico this, setLIntegral_const, Real.volume_Ico,
        ← ENNReal.ofReal_mul hrate.le, sub_zero]
    have e5 : ∫⁻ s in Set.Ico t (t + 10 / 2 ^ 52), f s ≤ ENNReal.ofReal (10 / 2 ^ 52 * M) := by
      calc _ ≤ ∫⁻ _ in Set.Ico t (t + 10 / 2 ^ 52), ENNReal.ofReal M :=
            lintegral_mono fun s => ENNReal.ofReal_le_ofReal (rateAt_le hM hle _)
        _ = _ := by
            rw [setLIntegral_const, Real.volume_Ico, ← ENNReal.ofReal_mul hM]
            congr 1
            ring
    refine ⟨by rw [i1, e2, along_again], ?_, ?_⟩
    · rw [e1, e3, e4, ENNReal.ofReal_add (mul_pos hrate ht).le hdep]
      gcongr
      exact le_self_add
    · rw [e1, e3, e4]
      calc _ ≤ ENNReal.ofReal (macroscopic G nodes g m * t) + ENNReal.ofReal (10 / 2 ^ 52 * M) +
            ENNReal.ofReal (opticalDepth rest + rest.length * (10 / 2 ^ 52 * M)) := by gcongr
        _ = _ := by
            rw [← ENNReal.ofReal_add (mul_pos hrate ht).le (by positivity),
              ← ENNReal.ofReal_add (add_nonneg (mul_pos hrate ht).le (by positivity)) (by positivity)]
            congr 1
            push_cast [List.length_cons]
            ring

/-! ### Instance: a ball in a shell -/

/-- A sphere about the origin. -/
noncomputable def ball (id : ℕ) (r : ℝ) : SurfaceObj := ⟨id, "s", .sphere ⟨0, 0, 0⟩ r⟩

noncomputable def innerCell : Cell := ⟨"in", [(ball 1 1, true)], some (absorbing 1), .constant 300⟩

noncomputable def shellCell : Cell :=
  ⟨"shell", [(ball 1 1, false), (ball 2 2, true)], some (absorbing 1), .constant 300⟩

noncomputable def outerCell : Cell := ⟨"out", [(ball 2 2, false)], none, .constant 300⟩

/-- A beam from the centre of an absorbing ball in an absorbing shell. -/
noncomputable def shellProblem (method : Method) : Problem :=
  { slabProblem 1000 8 with
    world := ⟨[ball 1 1, ball 2 2], [absorber 7 "a" 1], [absorbing 1], .constant 300,
      [innerCell, shellCell, outerCell]⟩
    method := method
    source := ⟨⟨0, 0, 0⟩, .constant ⟨1, 0, 0⟩, .group 1, .neutron⟩ }

theorem ball_contains (i : ℕ) (r : ℝ) (x : Point) : (ball i r).shape.contains x = true ↔
    x.x ^ 2 + x.y ^ 2 + x.z ^ 2 < r ^ 2 := by
  rw [show (ball i r).shape = .sphere ⟨0, 0, 0⟩ r from rfl, C06_contains_partial _ (by trivial)]
  simp only [Inside, surfaceValue]
  constructor <;> intro h <;> nlinarith

theorem ball_ahead (i : ℕ) {r a : ℝ} (h0 : 0 ≤ a) (h1 : a < r) :
    (ball i r).shape.distance ⟨a, 0, 0⟩ ⟨1, 0, 0⟩ = ((r - a : ℝ) : WithTop ℝ) := by
  have hd : UnitVec (⟨1, 0, 0⟩ : Direction) := by norm_num [UnitVec]
  obtain ⟨t, ht, hle⟩ := C04_no_missed_crossing (ball i r).shape ⟨a, 0, 0⟩ ⟨1, 0, 0⟩ ((r - a) / 2)
    (r - a + 1) hd (by linarith) (by linarith) (by
      simp only [ball, Inside, surfaceValue, along]
      intro h
      have := h.1 (by nlinarith)
      nlinarith)
  obtain ⟨t0, ton, -⟩ := C04_distance_first_crossing _ _ _ t hd ht
  rw [ht]
  simp only [ball, OnSurface, surfaceValue, along] at ton
  have : (a + t - r) * (a + t + r) = 0 := by nlinarith
  rcases mul_eq_zero.1 this with h | h
  · congr 1
    linarith
  · linarith

theorem ball_behind (i : ℕ) {r a : ℝ} (h0 : 0 < r) (h1 : r < a) :
    (ball i r).shape.distance ⟨a, 0, 0⟩ ⟨1, 0, 0⟩ = ⊤ := by
  have hd : UnitVec (⟨1, 0, 0⟩ : Direction) := by norm_num [UnitVec]
  by_contra hne
  obtain ⟨t, ht⟩ := WithTop.ne_top_iff_exists.1 hne
  obtain ⟨t0, ton, -⟩ := C04_distance_first_crossing _ _ _ t hd ht.symm
  simp only [ball, OnSurface, surfaceValue, along] at ton
  nlinarith

/-- In the example a point belongs to the first cell that contains it, and to no other. -/
theorem shell_cells (method : Method) (x : Point) :
    (x.x ^ 2 + x.y ^ 2 + x.z ^ 2 < 1 → FirstCell (shellProblem method).world x innerCell) ∧
    (1 ≤ x.x ^ 2 + x.y ^ 2 + x.z ^ 2 → x.x ^ 2 + x.y ^ 2 + x.z ^ 2 < 4 →
      FirstCell (shellProblem method).world x shellCell) ∧
    (4 ≤ x.x ^ 2 + x.y ^ 2 + x.z ^ 2 → FirstCell (shellProblem method).world x outerCell) := by
  have b1 := ball_contains 1 1 x
  have b2 := ball_contains 2 2 x
  norm_num at b1 b2
  refine ⟨fun h => ⟨[], [shellCell, outerCell], rfl, ?_, by simp⟩,
    fun h h' => ⟨[innerCell], [outerCell], rfl, ?_, ?_⟩,
    fun h => ⟨[innerCell, shellCell], [], rfl, ?_, ?_⟩⟩
  · simp [InCell, innerCell, b1, h]
  · simp [InCell, shellCell, ← Bool.not_eq_true, b1, b2, h, h']
  · simp [InCell, innerCell, ← Bool.not_eq_true, b1, h]
  · simp [InCell, outerCell, ← Bool.not_eq_true, b2, h]
  · intro c hc hin
    simp only [List.mem_cons, List.not_mem_nil, or_false] at hc
    rcases hc with rfl | rfl
    · have := b1.1 (hin (ball 1 1, true) (by simp [innerCell]))
      linarith
    · have := b2.1 (hin (ball 2 2, true) (by simp [shellCell]))
      linarith

theorem shell_wellPosed (method : Method) :
    WellPosed 1 (fun _ => [.capture [1]]) (shellProblem method).world := by
  have hcm : ∀ c ∈ (shellProblem method).world.cells, ∀ m, c.material = some m →
      m = absorbing 1 ∧ c.surfaceSenses ≠ [] := by
    intro c hc m hm
    simp only [shellProblem, List.mem_cons, List.not_mem_nil, or_false] at hc
    rcases hc with rfl | rfl | rfl
    · exact ⟨by simpa [innerCell] using hm.symm, by simp [innerCell]⟩
    · exact ⟨by simpa [shellCell] using hm.symm, by simp [shellCell]⟩
    · cases hm
  refine ⟨?_, ?_, ?_, ?_, ?_⟩
  · intro x
    obtain ⟨h1, h2, h3⟩ := shell_cells method x
    have key : ∃ c, FirstCell (shellProblem method).world x c := by
      rcases lt_or_ge (x.x ^ 2 + x.y ^ 2 + x.z ^ 2) 1 with h | h
      · exact ⟨_, h1 h⟩
      · rcases lt_or_ge (x.x ^ 2 + x.y ^ 2 + x.z ^ 2) 4 with h' | h'
        · exact ⟨_, h2 h h'⟩
        · exact ⟨_, h3 h'⟩
    obtain ⟨c, l, r, e, hin, -⟩ := key
    exact ⟨c, by rw [e]; simp, hin⟩
  · intro c hc hm
    obtain ⟨m, hm⟩ := Option.ne_none_iff_exists'.1 hm
    exact (hcm c hc m hm).2
  · intro c hc m hm
    rw [(hcm c hc m hm).1]; norm_num [absorbing]
  · intro c hc m hm e he
    rw [(hcm c hc m hm).1] at he
    simp only [absorbing, List.mem_singleton] at he
    subst he
    exact ⟨one_pos, absorber_data rfl _ _⟩
  · intro c hc m hm g h1 h2
    rw [(hcm c hc m hm).1]
    refine ⟨(absorber 7 "a" 1, 1), by simp [absorbing], ?_⟩
    obtain rfl : g = 1 := by omega
    change (0 : ℝ) < 1 + 0 + 0
    norm_num

theorem macroscopic_absorbing : macroscopic 1 (fun _ => [.capture [1]]) 1 (absorbing 1) = 1 := by
  have : specTotal 1 [.capture [1]] 1 = 1 := by
    change (1 : ℝ) + 0 + 0 = 1
    norm_num
  simp [macroscopic, absorbing, this]

/-- The way of the beam: through the ball and through the shell. -/
noncomputable def shellWay : List Slice :=
  [⟨innerCell, ⟨0, 0, 0⟩, 1, 1⟩, ⟨shellCell, ⟨1 + 10 / 2 ^ 52, 0, 0⟩, 1, 1 - 10 / 2 ^ 52⟩]

theorem shell_route (method : Method) :
    Route 1 (fun _ => [.capture [1]]) (shellProblem method).world 1 ⟨1, 0, 0⟩ ⟨0, 0, 0⟩ shellWay
      ⟨2 + 10 / 2 ^ 52, 0, 0⟩ := by
  have e1 : along ⟨0, 0, 0⟩ ⟨1, 0, 0⟩ (1 + 10 / 2 ^ 52) = ⟨1 + 10 / 2 ^ 52, 0, 0⟩ := by
    ext <;> norm_num [along]
  have e2 : along ⟨1 + 10 / 2 ^ 52, 0, 0⟩ ⟨1, 0, 0⟩ (1 - 10 / 2 ^ 52 + 10 / 2 ^ 52) =
      ⟨2 + 10 / 2 ^ 52, 0, 0⟩ := by
    ext <;> norm_num [along]
  have second : Route 1 (fun _ => [.capture [1]]) (shellProblem method).world 1 ⟨1, 0, 0⟩
      (along ⟨0, 0, 0⟩ ⟨1, 0, 0⟩ (1 + 10 / 2 ^ 52)) [⟨shellCell, ⟨1 + 10 / 2 ^ 52, 0, 0⟩,
        macroscopic 1 (fun _ => [.capture [1]]) 1 (absorbing 1), 1 - 10 / 2 ^ 52⟩] ⟨2 + 10 / 2 ^ 52, 0, 0⟩ := by
    rw [e1]
    refine .slice (c := shellCell) (m := absorbing 1) (t := 1 - 10 / 2 ^ 52)
      ((shell_cells method _).2.1 (by norm_num) (by norm_num)) rfl
      ⟨⟨ball 2 2, ⟨true, by simp [shellCell]⟩, ?_⟩, ?_⟩ (e2 ▸ .arrived)
    · rw [ball_ahead 2 (by norm_num) (by norm_num)]
      norm_num
    · rintro s ⟨b, hs⟩
      simp only [shellCell, List.mem_cons, List.not_mem_nil, or_false, Prod.mk.injEq] at hs
      rcases hs with ⟨rfl, -⟩ | ⟨rfl, -⟩
      · rw [ball_behind 1 one_pos (by norm_num)]
        exact le_top
      · rw [ball_ahead 2 (by norm_num) (by norm_num)]
        norm_num
  have first := Route.slice (c := innerCell) (m := absorbing 1) (t := 1)
    ((shell_cells method ⟨0, 0, 0⟩).1 (by norm_num)) rfl
    ⟨⟨ball 1 1, ⟨true, by simp [innerCell]⟩, by rw [ball_ahead 1 le_rfl one_pos, sub_zero]⟩, by
      rintro s ⟨b, hs⟩
      simp only [innerCell, List.mem_singleton, Prod.mk.injEq] at hs
      rw [hs.1, ball_ahead 1 le_rfl one_pos, sub_zero]⟩ second
  rw [macroscopic_absorbing] at first
  exact first

/-- Instance of the hypotheses of C70: with either method, each history of the beam leaks exactly if
both of its flights are long enough, and the probability of that is `exp (-2)`, but for the short
step between ball and shell. -/
example (method : Method) (e : ℕ) : ∃ b states last,
    (shellProblem method).source.sample (1 + e) = .ok b ∧
    (shellProblem method).history (2 ^ 52) e = .ok states ∧ states.getLast? = some last ∧
    (last.event = .leak ↔ Clears method shellWay (drawn (Rng.ofSeed b.seed))) ∧
    uniforms {us | Clears method shellWay us} =
      ENNReal.ofReal (Real.exp (-(2 - 10 / 2 ^ 52))) := by
  have hd : Configured (shellProblem method).source.direction := by
    norm_num [shellProblem, Configured, UnitVec]
  obtain ⟨b, h1, -⟩ := C51_source_particle (shellProblem method).source hd (1 + e)
  have hbd : b.direction = ⟨1, 0, 0⟩ := by
    cases h1
    rfl
  obtain ⟨states, last, h2, h3, h4, -⟩ := C70_leak (P := shellProblem method) (G := 1)
    (shell_wellPosed method) (by
      intro c _ m _ e _ g h1 h2
      simp [specXS, nodeXS]) (R := 2) (by norm_num) (by
      intro x c hc hm
      by_contra hlt
      exact hm (firstCell_unique hc ((shell_cells method x).2.2 (by linarith)) ▸ rfl))
    ⟨rfl, ⟨1, rfl, le_rfl, le_rfl⟩, innerCell, (shell_cells method _).1 (by norm_num [shellProblem]),
      by simp [innerCell]⟩ hd (fuel := 2 ^ 52) (by norm_num) e rfl h1
    (rs := shellWay) (y := ⟨2 + 10 / 2 ^ 52, 0, 0⟩) (hbd ▸ shell_route method)
    (c := outerCell) ((shell_cells method _).2.2 (by norm_num)) rfl
  refine ⟨b, states, last, h1, h2, h3, h4, ?_⟩
  rw [C70_attenuation (shell_wellPosed method) le_rfl le_rfl (by norm_num [UnitVec])
    (shell_route method)]
  congr 2
  norm_num [opticalDepth, shellWay]

/-- Instance of the hypotheses of `C70_line_integral`. -/
example (method : Method) : ENNReal.ofReal (2 - 10 / 2 ^ 52) ≤
    ∫⁻ s in Set.Ico 0 (wayLength shellWay), ENNReal.ofReal
      (rateAt 1 (fun _ => [.capture [1]]) (shellProblem method).world 1
        (along ⟨0, 0, 0⟩ ⟨1, 0, 0⟩ s)) := by
  have hsh : ∀ c ∈ (shellProblem method).world.cells, ∀ s, Bounds s c → ∃ r, (r = 1 ∨ r = 2) ∧
      s.shape = .sphere ⟨0, 0, 0⟩ r := by
    rintro c hc s ⟨b, hs⟩
    simp only [shellProblem, List.mem_cons, List.not_mem_nil, or_false] at hc
    rcases hc with rfl | rfl | rfl
    · simp only [innerCell, List.mem_singleton, Prod.mk.injEq] at hs
      exact ⟨1, .inl rfl, by rw [hs.1]; rfl⟩
    · simp only [shellCell, List.mem_cons, List.not_mem_nil, or_false, Prod.mk.injEq] at hs
      rcases hs with ⟨rfl, -⟩ | ⟨rfl, -⟩
      · exact ⟨1, .inl rfl, rfl⟩
      · exact ⟨2, .inr rfl, rfl⟩
    · simp only [outerCell, List.mem_singleton, Prod.mk.injEq] at hs
      exact ⟨2, .inr rfl, by rw [hs.1]; rfl⟩
  have h := (C70_line_integral (shell_wellPosed method) (by
    intro x c hc hm hin
    have b1 := ball_contains 1 1 x
    have b2 := ball_contains 2 2 x
    norm_num at b1 b2
    simp only [shellProblem, List.mem_cons, List.not_mem_nil, or_false] at hc
    rcases hc with rfl | rfl | rfl
    · exact (shell_cells method x).1 (b1.1 (hin (ball 1 1, true) (by simp [innerCell])))
    · refine (shell_cells method x).2.1 ?_ (b2.1 (hin (ball 2 2, true) (by simp [shellCell])))
      by_contra hlt
      have := hin (ball 1 1, false) (by simp [shellCell])
      rw [b1.2 (not_le.1 hlt)] at this
      cases this
    · exact absurd rfl hm) (by
    intro c hc s hs
    obtain ⟨r, -, hr⟩ := hsh c hc s hs
    rw [hr]
    trivial) le_rfl le_rfl (by norm_num [UnitVec]) zero_le_one (by
    intro c hc m hm
    simp only [shellProblem, List.mem_cons, List.not_mem_nil, or_false] at hc
    rcases hc with rfl | rfl | rfl
    · rw [← Option.some.inj hm, macroscopic_absorbing]
    · rw [← Option.some.inj hm, macroscopic_absorbing]
    · cases hm) (shell_route method) (by
    intro r hr s hs
    simp only [shellWay, List.mem_cons, List.not_mem_nil, or_false] at hr
    rcases hr with rfl | rfl
    · obtain ⟨r, hr, h⟩ := hsh innerCell (by simp [shellProblem]) s hs
      rw [h]
      rcases hr with rfl | rfl <;> norm_num [OnSurface, surfaceValue]
    · obtain ⟨r, hr, h⟩ := hsh shellCell (by simp [shellProblem]) s hs
      rw [h]
      rcases hr with rfl | rfl <;> norm_num [OnSurface, surfaceValue])).2.1
  refine le_trans (le_of_eq ?_) h
  congr 1
  norm_num [opticalDepth, shellWay]

end Minimc.Props
