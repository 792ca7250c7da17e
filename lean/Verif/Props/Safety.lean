import Verif.Props.Transport
import Verif.Props.Multigroup

/-! # Property C55: transport stays clear of undefined behaviour -/

namespace Minimc.Props

open Classical Spec Multigroup

/-- A neutron in a cell with material. -/
structure InMaterial (G : ℕ) (w : World) (p : Particle) : Prop where
  neutron : GroupNeutron G p
  cell : ∃ c ∈ w.cells, p.cell = some c ∧ c.material ≠ none

theorem group_total {G : ℕ} {n : Nuclide} {nodes : List MgNode} (h : HasGroupData G n nodes)
    {p : Particle} {g : ℕ} (ht : p.type = .neutron) (hg : InGroup p g) (h1 : 1 ≤ g) (h2 : g ≤ G) :
    n.getTotal p = .ok (specTotal G nodes g) ∧ n.getMajorant p = .ok (specTotal G nodes g) := by
  obtain ⟨m, hm, hc, _, _⟩ := h
  have e := getTotal_eq hc hg h1 h2
  constructor
  · unfold Nuclide.getTotal Nuclide.xsAt
    rw [ht, hm]
    simp only [bind, Except.bind, Interaction.getTotal, e]
    rfl
  · unfold Nuclide.getMajorant Nuclide.xsAt
    rw [ht, hm]
    simp only [bind, Except.bind, Interaction.getMajorant, getMajorant, e]
    rfl

theorem specTotal_nonneg {G : ℕ} {nodes : List MgNode} (h : NonnegNodes nodes) (g : ℕ) :
    0 ≤ specTotal G nodes g :=
  add_nonneg (add_nonneg (specXS_nonneg h _ g) (specXS_nonneg h _ g)) (specXS_nonneg h _ g)

theorem group_shares {G : ℕ} {nodes : Nuclide → List MgNode} {w : World} (hw : WellPosed G nodes w)
    {c : Cell} (hc : c ∈ w.cells) {m : Material} (hm : c.material = some m) {g : ℕ} (h1 : 1 ≤ g)
    (h2 : g ≤ G) : 0 < (shares m (fun n => specTotal G (nodes n) g)).sum := by
  obtain ⟨e, he, hpos⟩ := hw.reacts c hc m hm g h1 h2
  have hnn : ∀ x ∈ shares m (fun n => specTotal G (nodes n) g), 0 ≤ x := by
    intro x hx
    obtain ⟨e', he', rfl⟩ := List.mem_map.1 hx
    obtain ⟨f1, _, _, _, f2, _⟩ := hw.data c hc m hm e' he'
    exact mul_nonneg f1.le (specTotal_nonneg f2 g)
  have hmem : e.2 * specTotal G (nodes e.1) g ∈ shares m (fun n => specTotal G (nodes n) g) :=
    List.mem_map.2 ⟨e, he, rfl⟩
  have := List.single_le_sum hnn _ hmem
  have h3 := mul_pos (hw.data c hc m hm e he).1 hpos
  linarith

theorem group_density {G : ℕ} {nodes : Nuclide → List MgNode} {w : World} (hw : WellPosed G nodes w)
    {c : Cell} (hc : c ∈ w.cells) {m : Material} (hm : c.material = some m) {p : Particle} {g : ℕ}
    (hp : p.cell = some c) (ht : p.type = .neutron) (hg : InGroup p g) (h1 : 1 ≤ g) (h2 : g ≤ G)
    (method : Method) :
    m.getMicroscopicTotal p = .ok (shares m (fun n => specTotal G (nodes n) g)).sum ∧
    m.getMicroscopicMajorant p = .ok (shares m (fun n => specTotal G (nodes n) g)).sum ∧
    collisionDensity method p = .ok (shares m (fun n => specTotal G (nodes n) g)).sum := by
  have a := (C23_weighted_mean m p (fun n => specTotal G (nodes n) g)).1
    (fun e he => (group_total (hw.data c hc m hm e he).2 ht hg h1 h2).1)
  have b := (C23_weighted_mean m p (fun n => specTotal G (nodes n) g)).2
    (fun e he => (group_total (hw.data c hc m hm e he).2 ht hg h1 h2).2)
  refine ⟨a, b, ?_⟩
  unfold collisionDensity Particle.getCell
  rw [hp]
  simp only [bind, Except.bind, hm]
  cases method
  · simp only [a]; rfl
  · simp only [b]; rfl

theorem effects_ok {method : Method} {p : Particle} {c : Cell} {m : Material} {x : ℝ}
    (hp : p.cell = some c) (hm : c.material = some m) (hd : collisionDensity method p = .ok x)
    (hx : x ≠ 0) (t : ℝ) (l : List (Perturbation × ℝ)) :
    ∃ r, streamEffects method p t l = .ok r := by
  induction l with
  | nil => exact ⟨_, rfl⟩
  | cons a l ih =>
    obtain ⟨r, hr⟩ := ih
    have : ∃ y, a.1.stream method p t = .ok y := by
      unfold Perturbation.stream Particle.getCell
      rw [hp]
      simp only [bind, Except.bind, hm, hd]
      split_ifs
      · exact ⟨_, rfl⟩
      · exact ⟨_, rfl⟩
    obtain ⟨y, hy⟩ := this
    refine ⟨(a.1, a.2 + y) :: r, ?_⟩
    rcases a with ⟨q, z⟩
    unfold streamEffects
    rw [hy]
    simp only [bind, Except.bind, hr]

/-- The particle is in some group. -/
def Grouped (p : Particle) : Prop := ∃ g, InGroup p g

/-- What a multigroup interaction banks are neutrons in one of the groups, and the particle itself
remains in a group. -/
theorem interact_banks {G : ℕ} {nodes : List MgNode} {m : Multigroup}
    (h : create G nodes = .ok m) (hn : NonnegNodes nodes) {p p' : Particle} {g : ℕ}
    (hp : InGroup p g) (h1 : 1 ≤ g) (h2 : g ≤ G) (hr : Rng.Valid p.rng)
    (hpos : 0 < specTotal G nodes g)
    (hdata : 0 < specXS G nodes .fission g →
      ∃ nubar chi, findNubar nodes = some nubar ∧ findChi nodes = some chi)
    (hi : m.interact p = .ok p') :
    Grouped p' ∧ (BanksInGroups G p → BanksInGroups G p') := by
  obtain ⟨⟨i, hsel, -⟩, c0, c1, c2⟩ := C19_reaction h hn hp h1 h2 hr hpos
  have hv := Rng.valid_canonical hr
  have hp' : InGroup { p with rng := (Rng.canonical p.rng).2 } g := hp
  have hlen : i < 3 := hsel.1
  rcases (by omega : i = 0 ∨ i = 1 ∨ i = 2) with rfl | rfl | rfl
  · have := c0 hsel
    rw [hi] at this
    cases this
    exact ⟨⟨g, hp⟩, id⟩
  · obtain ⟨flat, hf, hcol⟩ := C20_reached_with_positive_column hsel
    obtain ⟨g', _, _, hs⟩ := scatter_spec h hn hf hp' h1 h2 hv hcol
    have := c1 hsel
    rw [hi, hs] at this
    cases this
    exact ⟨⟨g', rfl⟩, id⟩
  · obtain ⟨w, hw, hwpos⟩ := Selected.pos hsel
    simp only [weights, List.getElem?_cons_succ, List.getElem?_cons_zero,
      Option.some.injEq] at hw
    obtain ⟨nubar, chi, hnu, hchi⟩ := hdata (by rw [hw]; exact hwpos)
    obtain ⟨hf, hnn1, hnn2⟩ := fission_loop h hn hnu hchi hp' h1 h2 hv
    have hi' := c2 hsel
    rw [hi] at hi'
    by_cases hz : colSum G chi g = 0
    · rw [bankLoop_zero (length_normCol G chi g) (normCol_nonneg hnn2 g)
        (by rw [normCol_eq, if_pos hz]; exact hz) _ _ (Rng.valid_iterate hv 2)] at hf
      have := hi'.trans hf
      cases this
      exact ⟨⟨g, hp⟩, id⟩
    · obtain ⟨gs, _, hgs, hb'⟩ := bankLoop_spec (length_normCol G chi g) (normCol_nonneg hnn2 g)
        (sum_normCol hz) ⌊entry1 nubar g + (Rng.canonical (Rng.canonical p.rng).2).1⌋₊
        { p with event := .fission, rng := Rng.next^[2] (Rng.canonical p.rng).2 }
        (Rng.valid_iterate hv 2)
      rw [hb'] at hf
      have := hi'.trans hf
      cases this
      refine ⟨⟨g, hp⟩, fun hb b hbm => ?_⟩
      rcases List.mem_append.1 hbm with hbm | hbm
      · exact hb b hbm
      · obtain ⟨k, hk, rfl⟩ := List.mem_mapIdx.1 hbm
        obtain ⟨g1, g2⟩ := hgs k _ (List.getElem?_eq_getElem hk)
        have g3 := g2.1
        rw [length_normCol] at g3
        exact ⟨rfl, gs[k], rfl, g1, by omega⟩

/-- An interaction with a nuclide that has a positive total succeeds and leaves a neutron in one of
the groups. -/
theorem group_interact {G : ℕ} {n : Nuclide} {nodes : List MgNode} (h : HasGroupData G n nodes)
    {p : Particle} {g : ℕ} (ht : p.type = .neutron) (hg : InGroup p g) (h1 : 1 ≤ g) (h2 : g ≤ G)
    (hr : Rng.Valid p.rng) (hpos : 0 < specTotal G nodes g) (fuel : ℕ) :
    ∃ p', n.interact fuel p = .ok p' ∧ p'.cell = p.cell ∧
      (¬ Ended p' → GroupNeutron G p') ∧
      Grouped p' ∧ (BanksInGroups G p → BanksInGroups G p') := by
  obtain ⟨m, hm, hc, hn, hdata⟩ := h
  have key : n.interact fuel p = noexcept (m.interact p) := by
    unfold Nuclide.interact Nuclide.xsAt
    rw [ht, hm]
    rfl
  obtain ⟨p', hp', e0, e1, e2, e3⟩ := C19_succeeds hc hn hg h1 h2 hr hpos (hdata g)
  have hok : n.interact fuel p = .ok p' := by rw [key, hp']; rfl
  have hcell := (Nuclide.interact_keeps hok).1.cell
  refine ⟨p', hok, hcell, fun hend => ?_, interact_banks hc hn hg h1 h2 hr hpos (hdata g) hp'⟩
  have hs : p'.event = .scatter := by
    rcases e3 with e | e | e
    · exact absurd (Or.inl e) hend
    · exact e
    · exact absurd (Or.inr (Or.inl e)) hend
  have hsel := e1.1 hs
  obtain ⟨flat, hf, hcol⟩ := C20_reached_with_positive_column hsel
  obtain ⟨_, _, hsc, _⟩ := C19_reaction hc hn hg h1 h2 hr hpos
  obtain ⟨g', d, hs', g1, g2, _⟩ := C20_scatter hc hn hf
    (p := { p with rng := (Rng.canonical p.rng).2 }) hg h1 h2 (Rng.valid_canonical hr) hcol
  have := hsc hsel
  rw [hp', hs'] at this
  simp only [Except.ok.injEq] at this
  rw [this]
  exact ⟨ht, ⟨g', rfl, g1, g2⟩, Rng.valid_iterate (Rng.valid_canonical hr) 6⟩

theorem group_collide {G : ℕ} {nodes : Nuclide → List MgNode} {w : World} (hw : WellPosed G nodes w)
    {p : Particle} (hp : InMaterial G w p) (method : Method) (fuel : ℕ) (t : ℝ) :
    ∃ p', collide method fuel p (t : WithTop ℝ) = .ok p' ∧ (¬ Ended p' → InMaterial G w p') ∧
      Grouped p' ∧ (BanksInGroups G p → BanksInGroups G p') := by
  obtain ⟨⟨ht, ⟨g, hg, h1, h2⟩, hr⟩, c, hc, hpc, hm'⟩ := hp
  obtain ⟨m, hm⟩ := Option.ne_none_iff_exists'.1 hm'
  have hpos := group_shares hw hc hm h1 h2
  obtain ⟨_, _, hd⟩ := group_density hw hc hm hpc ht hg h1 h2 method
  obtain ⟨eff, heff⟩ := effects_ok hpc hm hd hpos.ne' t p.indirectEffects
  have hs : p.stream method (t : WithTop ℝ) = .ok { p with
      indirectEffects := eff
      position := along p.position p.direction t } := by
    change (streamEffects method p t p.indirectEffects >>= fun effects => Except.ok _) = _
    rw [heff]
    simp only [bind, Except.bind, smul_eq_along]
  set p₁ : Particle := { p with
      indirectEffects := eff
      position := along p.position p.direction t } with hp₁
  obtain ⟨i, hi, _, hi0, hsel⟩ := C24_selects (p := p₁) (σ := fun n => specTotal G (nodes n) g) hpc hm
    (fun e he => (group_total (p := p₁) (hw.data c hc m hm e he).2 ht hg h1 h2).1)
    (fun e he => by
      obtain ⟨f1, _, _, _, f2, _⟩ := hw.data c hc m hm e he
      exact mul_nonneg f1.le (specTotal_nonneg f2 g)) hr hpos
  obtain ⟨f1, f2⟩ := hw.data c hc m hm _ (List.getElem_mem hi)
  obtain ⟨p', hp', hcell, hinv, hbank⟩ := group_interact f2 (p := { p₁ with rng := (Rng.canonical p₁.rng).2 })
    ht hg h1 h2 (Rng.valid_canonical hr) (by
      by_contra hcon
      have := mul_nonpos_of_nonneg_of_nonpos f1.le (not_lt.1 hcon)
      linarith) fuel
  refine ⟨p', ?_, fun hend => ⟨hinv hend, c, hc, by rw [hcell]; exact hpc, hm'⟩, hbank⟩
  unfold collide
  rw [hs]
  simp only [bind, Except.bind, hsel, hp']

theorem group_step_event {G : ℕ} {nodes : Nuclide → List MgNode} {w : World} (hw : WellPosed G nodes w)
    {p : Particle} (hp : InMaterial G w p) (method : Method) (fuel : ℕ) :
    ∃ p', transportStep method fuel w p = .ok p' ∧ (¬ Ended p' → InMaterial G w p') ∧
      Grouped p' ∧ (BanksInGroups G p → BanksInGroups G p') ∧ p'.event ≠ .virtualCollision := by
  have hp0 := hp
  obtain ⟨⟨ht, ⟨g, hg, h1, h2⟩, hr⟩, c, hc, hpc, hm'⟩ := hp
  obtain ⟨m, hm⟩ := Option.ne_none_iff_exists'.1 hm'
  have hpos := group_shares hw hc hm h1 h2
  obtain ⟨_, _, hd⟩ := group_density hw hc hm hpc ht hg h1 h2 method
  have hrate := mul_pos (hw.density c hc m hm) hpos
  set S := (shares m (fun n => specTotal G (nodes n) g)).sum with hS
  obtain ⟨dc, hdc⟩ : ∃ dc : ℝ, (Rng.exponential (m.numberDensity * S) p.rng).1 = (dc : WithTop ℝ) := by
    unfold Rng.exponential Rng.exponentialOf
    rw [if_neg hrate.ne']
    exact ⟨_, rfl⟩
  set p₁ : Particle := { p with rng := (Rng.canonical p.rng).2 } with hp₁
  have hfl : sampleFlight method p = .ok ((dc : WithTop ℝ), p₁) := by
    have hgc : p.getCell = .ok c := Particle.getCell_ok.2 hpc
    unfold sampleFlight
    rw [hgc]
    simp only [bind, Except.bind, hm, hd]
    rw [← hdc]
    rfl
  have hp₁m : InMaterial G w p₁ :=
    ⟨⟨ht, ⟨g, hg, h1, h2⟩, Rng.valid_canonical hr⟩, c, hc, hpc, hm'⟩
  obtain ⟨⟨s, ds⟩, hns⟩ := (C07_raises_iff_no_surfaces c p.position p.direction).2
    (hw.bounded c hc hm')
  -- the crossing branch, when the surface is at a finite distance
  have hcross : ds ≤ (dc : WithTop ℝ) → ∃ p', crossSurface method w p₁ s ds = .ok p' ∧
      (¬ Ended p' → InMaterial G w p') ∧
      Grouped p' ∧ (BanksInGroups G p → BanksInGroups G p') ∧ p'.event ≠ .virtualCollision := by
    intro hle
    obtain ⟨t, rfl⟩ : ∃ t : ℝ, ds = (t : WithTop ℝ) := by
      induction ds using WithTop.recTopCoe with
      | top => exact absurd hle (not_le.2 (WithTop.coe_lt_top _))
      | coe t => exact ⟨t, rfl⟩
    obtain ⟨_, _, hd'⟩ := group_density hw hc hm (p := p₁) hpc ht hg h1 h2 method
    obtain ⟨eff, heff⟩ := effects_ok (p := p₁) hpc hm hd' hpos.ne' (t + nudge) p.indirectEffects
    have hs : p₁.stream method ((t : WithTop ℝ) + (nudge : WithTop ℝ)) = .ok { p₁ with
        indirectEffects := eff
        position := along p.position p.direction (t + nudge) } := by
      change (streamEffects method p₁ (t + nudge) p.indirectEffects >>= fun effects =>
        Except.ok _) = _
      rw [heff]
      simp only [bind, Except.bind, smul_eq_along]
      rfl
    obtain ⟨c', hfind⟩ : ∃ c', w.findCellContaining
        (along p.position p.direction (t + nudge)) = .ok c' := by
      obtain ⟨c', hc', hin⟩ := hw.covered (along p.position p.direction (t + nudge))
      rcases hf : w.findCellContaining (along p.position p.direction (t + nudge)) with e | c''
      · exfalso
        have he : e = .runtimeError := by
          unfold World.findCellContaining at hf
          split at hf <;> simp_all
        subst he
        obtain ⟨e, he, hne⟩ := (C08_raises_partial _ _).1 hf c' hc'
        exact hne (hin e he)
      · exact ⟨c'', rfl⟩
    obtain ⟨l, r, hlr, _, _⟩ := findCellContaining_ok.1 hfind
    refine ⟨{ p₁ with
        indirectEffects := eff
        position := along p.position p.direction (t + nudge)
        cell := some c'
        currentSurface := some s
        event := if c'.material.isSome then .surfaceCross else .leak }, ?_, ?_, ⟨g, hg⟩, id,
        by dsimp only; split_ifs <;> simp⟩
    · unfold crossSurface
      rw [hs]
      simp only [bind, Except.bind, Particle.locate, hfind, Particle.getCell]
    · intro hend
      refine ⟨⟨ht, ⟨g, hg, h1, h2⟩, Rng.valid_canonical hr⟩, c', by rw [hlr]; simp, rfl, ?_⟩
      intro hnone
      exact hend (by simp [Ended, hnone])
  have hcol : ∀ {p : Particle} (_ : InMaterial G w p) (method : Method) (t : ℝ),
      ∃ p', collide method fuel p (t : WithTop ℝ) = .ok p' ∧ (¬ Ended p' → InMaterial G w p') ∧
        Grouped p' ∧ (BanksInGroups G p → BanksInGroups G p') ∧ p'.event ≠ .virtualCollision := by
    intro p hp method t
    obtain ⟨p', k1, k2, k3, k4⟩ := group_collide hw hp method fuel t
    obtain ⟨_, _, _, _, _, hev, _⟩ := collide_ok k1
    exact ⟨p', k1, k2, k3, k4, by rcases hev with h | h | h <;> simp [h]⟩
  cases method
  · change ∃ p', surfaceStep fuel w p = .ok p' ∧ _
    unfold surfaceStep
    rw [hfl]
    have hgc : p₁.getCell = .ok c := Particle.getCell_ok.2 hpc
    have hns' : c.nearestSurface p₁.position p₁.direction = .ok (s, ds) := hns
    simp only [bind, Except.bind, hgc, hns']
    by_cases hlt : (dc : WithTop ℝ) < ds
    · rw [if_pos hlt]
      exact hcol hp₁m _ dc
    · rw [if_neg hlt]
      exact hcross (not_lt.1 hlt)
  · change ∃ p', deltaStep fuel w p = .ok p' ∧ _
    unfold deltaStep
    rw [hfl]
    have hgc : p₁.getCell = .ok c := Particle.getCell_ok.2 hpc
    have hns' : c.nearestSurface p₁.position p₁.direction = .ok (s, ds) := hns
    simp only [bind, Except.bind, hgc, hns']
    by_cases hlt : ds < (dc : WithTop ℝ)
    · rw [if_pos hlt]
      exact hcross hlt.le
    · rw [if_neg hlt]
      obtain ⟨ha, hb, _⟩ := group_density hw hc hm (p := p₁) hpc ht hg h1 h2 .cellDeltaTracking
      have hacc : acceptance p₁ = .ok (S / S) := by
        unfold acceptance
        rw [hgc]
        simp only [bind, Except.bind, hm, ha, hb]
        rw [if_neg hpos.ne']
      rw [hacc]
      have hyes : Rng.bernoulli (S / S) p₁.rng = (true, (Rng.canonical p₁.rng).2) := by
        unfold Rng.bernoulli
        rw [div_self hpos.ne']
        simpa using Rng.canonical_lt_one (Rng.valid_canonical hr)
      simp only [hyes, if_true]
      exact hcol (p := { p with rng := (Rng.canonical (Rng.canonical p.rng).2).2 })
        ⟨⟨ht, ⟨g, hg, h1, h2⟩, Rng.valid_canonical (Rng.valid_canonical hr)⟩, c, hc, hpc, hm'⟩ _ dc

theorem group_step {G : ℕ} {nodes : Nuclide → List MgNode} {w : World} (hw : WellPosed G nodes w)
    {p : Particle} (hp : InMaterial G w p) (method : Method) (fuel : ℕ) :
    ∃ p', transportStep method fuel w p = .ok p' ∧ (¬ Ended p' → InMaterial G w p') ∧
      Grouped p' ∧ (BanksInGroups G p → BanksInGroups G p') := by
  obtain ⟨p', h1, h2, h3, h4, -⟩ := group_step_event hw hp method fuel
  exact ⟨p', h1, h2, h3, h4⟩

theorem group_loop {G : ℕ} {nodes : Nuclide → List MgNode} {w : World} (hw : WellPosed G nodes w)
    (method : Method) (fuel n : ℕ) (p : Particle) (hp : ¬ Ended p → InMaterial G w p) :
    (∃ r, transportLoop method fuel w n p = .ok r ∧ (∀ q ∈ r.2, Grouped q) ∧
      (BanksInGroups G p → BanksInGroups G r.1)) ∨
      transportLoop method fuel w n p = .error .fuel := by
  induction n generalizing p with
  | zero =>
    unfold transportLoop
    split_ifs
    · exact Or.inr rfl
    · exact Or.inl ⟨_, rfl, by simp, id⟩
  | succ n ih =>
    unfold transportLoop
    by_cases ha : p.isAlive = true
    · rw [if_pos ha]
      obtain ⟨p', hs, hinv, hgr, hbank⟩ := group_step hw (hp ((alive_iff p).1 ha)) method fuel
      rw [hs]
      simp only [bind, Except.bind]
      rcases ih p' hinv with ⟨r, hr, hg, hb⟩ | hr
      · rw [hr]
        refine Or.inl ⟨_, rfl, ?_, fun h => hb (hbank h)⟩
        intro q hq
        rcases List.mem_cons.1 hq with rfl | hq
        · exact hgr
        · exact hg q hq
      · rw [hr]; exact Or.inr rfl
    · rw [if_neg ha]
      exact Or.inl ⟨_, rfl, by simp, id⟩

/-- In a well posed multigroup problem, a neutron that starts in a cell with material is
transported without any error, for as many steps as one cares to look: the only other outcome is
that the step counter of the model runs out.  What it banks are neutrons in one of the groups.
What is missing for the full property are starts
elsewhere, which do go wrong (`C55_void_start_violated`, `C55_outside_start_violated`), and
continuous energy. -/
theorem C55_multigroup_safe_partial {G : ℕ} {nodes : Nuclide → List MgNode} {w : World}
    (hw : WellPosed G nodes w) {p : Particle} (hp : GroupNeutron G p) {c : Cell}
    (hc : FirstCell w p.position c) (hm : c.material ≠ none) (method : Method) (fuel : ℕ) :
    (∃ r, transport method fuel w p = .ok r ∧ (∀ q ∈ r.2, Grouped q) ∧
      (BanksInGroups G p → BanksInGroups G r.1)) ∨
      transport method fuel w p = .error .fuel := by
  have hloc : p.locate w = .ok { p with cell := some c } := locate_ok.2 ⟨c, hc, rfl⟩
  obtain ⟨l, r, hlr, _, _⟩ := hc
  have := group_loop hw method fuel fuel { p with cell := some c }
    (fun _ => ⟨⟨hp.type, hp.group, hp.rng⟩, c, by rw [hlr]; simp, rfl, hm⟩)
  unfold transport
  rw [hloc]
  simp only [bind, Except.bind]
  rcases this with ⟨r, hr, hg, hb⟩ | hr
  · rw [hr]; exact Or.inl ⟨_, rfl, hg, hb⟩
  · rw [hr]; exact Or.inr rfl

/-- The nuclide with the example data of two groups. -/
noncomputable def exampleNuclide : Nuclide where
  id := 1
  name := "u"
  xs := fun _ => some (.multigroup exampleNodes_ok.choose)

/-- A slab of it, surrounded by void. -/
noncomputable def fissileSlab : World where
  cells := [⟨"in", slabWalls, some ⟨"m", [(exampleNuclide, 1)], 1⟩, .constant 300⟩,
    ⟨"out", [], none, .constant 300⟩]
  surfaces := [plane1, plane3]
  nuclides := [exampleNuclide]
  materials := [⟨"m", [(exampleNuclide, 1)], 1⟩]
  temperature := .constant 300

/-- Instance: the fissile slab is well posed and its middle is in the material. -/
example : WellPosed 2 (fun _ => exampleNodes) fissileSlab ∧
    FirstCell fissileSlab ⟨2, 0, 0⟩
      ⟨"in", slabWalls, some ⟨"m", [(exampleNuclide, 1)], 1⟩, .constant 300⟩ := by
  have hcm : ∀ c ∈ fissileSlab.cells, ∀ m, c.material = some m →
      m = ⟨"m", [(exampleNuclide, 1)], 1⟩ := by
    intro c hc m hm
    simp only [fissileSlab, List.mem_cons, List.not_mem_nil, or_false] at hc
    rcases hc with rfl | rfl
    · simpa using hm.symm
    · cases hm
  refine ⟨⟨?_, ?_, ?_, ?_, ?_⟩, ⟨[], [⟨"out", [], none, .constant 300⟩], rfl, ?_, by simp⟩⟩
  · intro x
    exact ⟨⟨"out", [], none, .constant 300⟩, by simp [fissileSlab], by simp [InCell]⟩
  · intro c hc hm
    simp only [fissileSlab, List.mem_cons, List.not_mem_nil, or_false] at hc
    rcases hc with rfl | rfl
    · simp [slabWalls]
    · simp at hm
  · intro c hc m hm
    rw [hcm c hc m hm]; norm_num
  · intro c hc m hm e he
    rw [hcm c hc m hm] at he
    simp only [List.mem_singleton] at he
    subst he
    refine ⟨by norm_num, exampleNodes_ok.choose, rfl, exampleNodes_ok.choose_spec,
      exampleNodes_nonneg, fun g _ => ⟨_, _, rfl, rfl⟩⟩
  · intro c hc m hm g h1 h2
    rw [hcm c hc m hm]
    refine ⟨(exampleNuclide, 1), by simp, ?_⟩
    rcases (by omega : g = 1 ∨ g = 2) with rfl | rfl
    · change (0 : ℝ) < 1 + colSum 2 [1, 0, 1, 2] 1 + 3
      norm_num [colSum, entry2, List.range']
    · change (0 : ℝ) < 0 + colSum 2 [1, 0, 1, 2] 2 + 0
      norm_num [colSum, entry2, List.range']
  · intro s hs
    simp only [slabWalls, List.mem_cons, List.not_mem_nil, or_false] at hs
    rcases hs with rfl | rfl
    · change (Surface.planeX 1).contains ⟨2, 0, 0⟩ = false
      rw [← Bool.not_eq_true, planeXContains_iff]; norm_num [Inside, surfaceValue]
    · change (Surface.planeX 3).contains ⟨2, 0, 0⟩ = true
      rw [planeXContains_iff]; norm_num [Inside, surfaceValue]

end Minimc.Props
