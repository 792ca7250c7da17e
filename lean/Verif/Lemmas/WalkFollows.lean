import Verif.Lemmas.WalkLimit

/-! # The program plays the game -/

namespace Minimc

open Classical Spec Props
open scoped ENNReal

theorem foldr_min_eq {l r : List (WithTop ℝ)} {t : WithTop ℝ} (h : ∀ a ∈ l ++ t :: r, t ≤ a) :
    (l ++ t :: r).foldr min ⊤ = t := by
  have h1 : ∀ k : List (WithTop ℝ), (∀ a ∈ k, t ≤ a) → t ≤ k.foldr min ⊤ := by
    intro k
    induction k with
    | nil => simp
    | cons a k ih =>
      intro hk
      exact le_min (hk a (by simp)) (ih fun b hb => hk b (by simp [hb]))
  refine le_antisymm ?_ (h1 _ h)
  clear h
  induction l with
  | nil => exact min_le_left _ _
  | cons a l ih => exact (min_le_right _ _).trans ih

/-- The nearest surface found by the program is the one faced. -/
theorem faced_of_nearest {c : Cell} {x : Point} {d : Direction} {s : SurfaceObj} {t : WithTop ℝ}
    (h : c.nearestSurface x d = .ok (s, t)) : ahead c x d = t ∧ faced c x d = some s := by
  obtain ⟨h1, h2, l, b, r, h3, h4⟩ := C07_nearest h
  have ha : ahead c x d = t := by
    unfold ahead
    rw [h3, List.map_append, List.map_cons]
    dsimp only
    rw [← h1]
    refine foldr_min_eq fun a ha => ?_
    rw [h1, ← List.map_cons (f := fun e : SurfaceObj × Bool => e.1.shape.distance x d) (a := (s, b)),
      ← List.map_append, ← h3] at ha
    obtain ⟨e, he, rfl⟩ := List.mem_map.1 ha
    exact h2 e he
  refine ⟨ha, ?_⟩
  unfold faced
  rw [ha, h3, List.find?_append]
  have hl : (l.find? fun e => decide (e.1.shape.distance x d = t)) = none := by
    rw [List.find?_eq_none]
    intro e he
    simpa using (h4 e he).ne'
  rw [hl]
  simp [h1]

theorem cellAt_of_first {w : World} {x : Point} {c : Cell} (h : FirstCell w x c) :
    cellAt w x = some c := by
  obtain ⟨l, r, hlr, h2, h1⟩ := h
  unfold cellAt
  rw [hlr, List.find?_append]
  have hl : (l.find? fun c => decide (InCell c x)) = none := by
    rw [List.find?_eq_none]
    intro e he
    simpa using h1 e he
  rw [hl]
  simp [h2]

theorem byWeight_eq {ws : List ℝ} {u : ℝ} {i : ℕ} (hi : ∀ j, Selected ws (u * ws.sum) j ↔ j = i)
    (F : ℕ → ℝ≥0∞) : byWeight ws u F = F i := by
  unfold byWeight
  have hl := ((hi i).2 rfl).1
  simp only [hi]
  rw [Finset.sum_eq_single_of_mem i (Finset.mem_range.2 hl)]
  · simp
  · intro j _ hj
    simp [hj]

theorem drawn_shift (r j : ℕ) : (fun k => drawn r (k + j)) = drawn (Rng.next^[2 * j] r) := by
  funext k
  unfold drawn
  rw [← Function.iterate_add_apply, Nat.mul_add]

theorem isotropic_eq (r : ℕ) : (Direction.isotropic r).1 =
    directionFrom (Rng.canonical r).1 (Rng.canonical (Rng.next^[2] r)).1 :=
  (C02_random_direction_formula r).1

theorem findScatter_table {nodes : List MgNode} {flat : List ℝ}
    (h : Multigroup.findScatter nodes = some flat) : scatterTable nodes = flat := by
  unfold scatterTable
  induction nodes with
  | nil => cases h
  | cons n l ih =>
    cases n with
    | capture xs => simpa using ih h
    | scatter f =>
      cases h
      rfl
    | fission a b xs => simpa using ih h

/-- A collision in the program is one in the game. -/
theorem collide_walk {G : ℕ} {nodes : Nuclide → List MgNode} {w : World} (hw : WellPosed G nodes w)
    {p : Particle} {g : ℕ} (ht : p.type = .neutron) (hg : InGroup p g) (h1 : 1 ≤ g) (h2 : g ≤ G)
    (hr : Rng.Valid p.rng) {c : Cell} (hc : c ∈ w.cells) (hpc : p.cell = some c) {m : Material}
    (hm : c.material = some m) (method : Method) (fuel : ℕ) (t : ℝ) :
    ∃ p', collide method fuel p (t : WithTop ℝ) = .ok p' ∧
      p'.position = along p.position p.direction t ∧ p'.cell = some c ∧ ¬ CrossedSurface p' ∧
      (NoFission G nodes w → p'.secondaries = p.secondaries) ∧
      ((Ended p' ∧ ∀ next, afterCollision G nodes m g next (drawn p.rng) = 0) ∨
        ∃ g', InGroup p' g' ∧ 1 ≤ g' ∧ g' ≤ G ∧ p'.type = .neutron ∧ Rng.Valid p'.rng ∧ ¬ Ended p' ∧
          ∀ next, afterCollision G nodes m g next (drawn p.rng) =
            next p'.direction g' (drawn p'.rng)) := by
  have hpos := group_shares hw hc hm h1 h2
  obtain ⟨_, _, hd⟩ := group_density hw hc hm hpc ht hg h1 h2 method
  obtain ⟨eff, heff⟩ := effects_ok hpc hm hd hpos.ne' t p.indirectEffects
  have hs : p.stream method (t : WithTop ℝ) = .ok { p with
      indirectEffects := eff
      position := along p.position p.direction t } := by
    change (streamEffects method p t p.indirectEffects >>= fun effects => Except.ok _) = _
    rw [heff]
    simp only [bind, Except.bind, smul_eq_along]
  set p₁ : Particle := { p with
      indirectEffects := eff
      position := along p.position p.direction t } with hp₁
  obtain ⟨i, hi, hiff, hi0, hsel⟩ := C24_selects (p := p₁) (σ := fun n => specTotal G (nodes n) g) hpc hm
    (fun e he => (group_total (p := p₁) (hw.data c hc m hm e he).2 ht hg h1 h2).1)
    (fun e he => by
      obtain ⟨f1, _, _, _, f2, _⟩ := hw.data c hc m hm e he
      exact mul_nonneg f1.le (specTotal_nonneg f2 g)) hr hpos
  obtain ⟨f1, f2⟩ := hw.data c hc m hm _ (List.getElem_mem hi)
  have hσ : 0 < specTotal G (nodes m.afracs[i].1) g := by
    by_contra hcon
    have := mul_nonpos_of_nonneg_of_nonpos f1.le (not_lt.1 hcon)
    linarith
  set p₂ : Particle := { p₁ with rng := (Rng.canonical p₁.rng).2 } with hp₂
  have hr₂ : Rng.Valid p₂.rng := Rng.valid_canonical hr
  obtain ⟨M, hM, hcr, hn, hdata⟩ := f2
  have hcol : ∀ p', M.interact p₂ = .ok p' → collide method fuel p (t : WithTop ℝ) = .ok p' := by
    intro p' hp'
    have key : m.afracs[i].1.interact fuel p₂ = noexcept (M.interact p₂) := by
      unfold Nuclide.interact Nuclide.xsAt
      rw [show p₂.type = .neutron from ht, hM]
      rfl
    unfold collide
    rw [hs]
    simp only [bind, Except.bind, hsel]
    change m.afracs[i].1.interact fuel p₂ = _
    rw [key, hp']
    rfl
  obtain ⟨⟨r, hrs, hru⟩, hca, hsc, -⟩ := C19_reaction hcr hn (p := p₂) hg h1 h2 hr₂ hσ
  obtain ⟨p', hp', -, e1, -, e3⟩ := C19_succeeds hcr hn (p := p₂) hg h1 h2 hr₂ hσ (hdata g)
  have hco := hcol p' hp'
  obtain ⟨t', ht', k1, k2, -, k3, -⟩ := collide_ok hco
  rw [WithTop.coe_inj] at ht'
  subst ht'
  refine ⟨p', hco, k1, by rw [k2, hpc], by rcases k3 with h | h | h <;> simp [CrossedSurface, h],
    fun hf => ?_, ?_⟩
  · have hlen : r < 3 := hrs.1
    have hne : r ≠ 2 := by
      rintro rfl
      obtain ⟨_, a1, a2⟩ := hrs
      have h0 : specXS G (nodes m.afracs[i].1) .fission g = 0 :=
        hf c hc m hm _ (List.getElem_mem hi) g h1 h2
      simp [weights, h0] at a1 a2
      linarith
    have hr01 : r = 0 ∨ r = 1 := by omega
    rcases hr01 with rfl | rfl
    · have := hca hrs
      rw [hp'] at this
      cases this
      rfl
    · obtain ⟨flat, hfl, hcs⟩ := C20_reached_with_positive_column hrs
      obtain ⟨g', d, hs', -⟩ := C20_scatter hcr hn hfl
        (p := { p₂ with rng := (Rng.canonical p₂.rng).2 }) hg h1 h2 (Rng.valid_canonical hr₂) hcs
      have hpe := hsc hrs
      rw [hp', hs'] at hpe
      cases hpe
      rfl
  have hw3 : (weights G (nodes m.afracs[i].1) g).sum = specTotal G (nodes m.afracs[i].1) g := by
    simp [weights, specTotal, add_assoc]
  have huse : ∀ next, afterCollision G nodes m g next (drawn p.rng) =
      if r = 1 then
        byWeight (colEntries G (scatterTable (nodes m.afracs[i].1)) g) (drawn p.rng 2) fun j =>
          next (directionFrom (drawn p.rng 3) (drawn p.rng 4)) (j + 1) fun k => drawn p.rng (k + 5)
      else 0 := by
    intro next
    unfold afterCollision
    refine (byWeight_eq (i := i) hiff _).trans ?_
    rw [List.getElem?_eq_getElem hi, Option.elim_some]
    refine byWeight_eq (ws := weights G (nodes m.afracs[i].1) g) (fun j => ?_) _
    rw [hw3]
    exact ⟨fun h => hru j h, fun h => h ▸ hrs⟩
  by_cases hr1 : r = 1
  · subst hr1
    right
    obtain ⟨flat, hf, hcs⟩ := C20_reached_with_positive_column hrs
    obtain ⟨g', d, hs', g1, g2, -, hsel', hdir, -⟩ := C20_scatter hcr hn hf
      (p := { p₂ with rng := (Rng.canonical p₂.rng).2 }) hg h1 h2 (Rng.valid_canonical hr₂) hcs
    have hpe := hsc hrs
    rw [hp', hs'] at hpe
    simp only [Except.ok.injEq] at hpe
    have hv : Rng.Valid p'.rng := by
      rw [hpe]
      exact Rng.valid_iterate (Rng.valid_canonical hr₂) 6
    refine ⟨g', by rw [hpe]; rfl, g1, g2, by rw [hpe]; exact ht, hv, by rw [hpe]; simp [Ended],
      fun next => ?_⟩
    rw [huse, if_pos rfl, findScatter_table hf]
    have hnn : ∀ x ∈ colEntries G flat g, 0 ≤ x := by
      refine colEntries_nonneg ?_ G g
      rw [← findScatter_table hf]
      exact scatterTable_nonneg hn
    change Selected (colEntries G flat g) (drawn p.rng 2 * (colEntries G flat g).sum) (g' - 1) at hsel'
    rw [byWeight_eq (i := g' - 1) fun j => ⟨fun h => Selected.unique hnn h hsel', fun h => h ▸ hsel'⟩,
      Nat.sub_add_cancel g1, drawn_shift]
    have e1 : p'.direction = directionFrom (drawn p.rng 3) (drawn p.rng 4) := by
      rw [hpe]
      dsimp only
      rw [hdir, isotropic_eq]
      rfl
    have e2 : p'.rng = Rng.next^[2 * 5] p.rng := by
      rw [hpe]
      rfl
    rw [e1, e2]
  · left
    have hne : p'.event ≠ .scatter := fun h => hr1 (hru 1 (e1.1 h)).symm
    refine ⟨?_, fun next => by rw [huse, if_neg hr1]⟩
    rcases e3 with h | h | h
    · exact .inl h
    · exact absurd h hne
    · exact .inr (.inl h)

/-- A step of the program is a round of the game. -/
theorem step_walk {G : ℕ} {nodes : Nuclide → List MgNode} {w : World} (hw : WellPosed G nodes w)
    {p : Particle} {g : ℕ} (ht : p.type = .neutron) (hg : InGroup p g) (h1 : 1 ≤ g) (h2 : g ≤ G)
    (hr : Rng.Valid p.rng) {c : Cell} (hc : c ∈ w.cells) (hpc : p.cell = some c) {m : Material}
    (hm : c.material = some m) (method : Method) (fuel : ℕ) :
    ∃ p', transportStep method fuel w p = .ok p' ∧
      (NoFission G nodes w → p'.secondaries = p.secondaries) ∧
      ((Ended p' ∧ ∀ hit n, walkScore G nodes w method hit (n + 1) c p.position p.direction g
          (drawn p.rng) = scoreOf hit p') ∨
        ¬ Ended p' ∧ ∃ c' g' m', p'.type = .neutron ∧ InGroup p' g' ∧ 1 ≤ g' ∧ g' ≤ G ∧
          Rng.Valid p'.rng ∧ c' ∈ w.cells ∧ p'.cell = some c' ∧ c'.material = some m' ∧
          ∀ hit n, walkScore G nodes w method hit (n + 1) c p.position p.direction g (drawn p.rng) =
            scoreOf hit p' + walkScore G nodes w method hit n c' p'.position p'.direction g'
              (drawn p'.rng)) := by
  have hin : InMaterial G w p := ⟨⟨ht, ⟨g, hg, h1, h2⟩, hr⟩, c, hc, hpc, by rw [hm]; simp⟩
  obtain ⟨p', h, -, -, -, hev⟩ := group_step_event hw hin method fuel
  refine ⟨p', h, ?_⟩
  obtain ⟨-, -, hden⟩ := group_density hw hc hm hpc ht hg h1 h2 method
  have hpos := mul_pos (hw.density c hc m hm) (group_shares hw hc hm h1 h2)
  have hmac : m.numberDensity * (shares m fun n => specTotal G (nodes n) g).sum =
    macroscopic G nodes g m := rfl
  rw [hmac] at hpos
  set f := -Real.log (1 - (Rng.canonical p.rng).1) / macroscopic G nodes g m with hf
  set p₁ : Particle := { p with rng := (Rng.canonical p.rng).2 } with hp₁
  have hfl : sampleFlight method p = .ok ((f : WithTop ℝ), p₁) := by
    have hgc : p.getCell = .ok c := Particle.getCell_ok.2 hpc
    unfold sampleFlight
    rw [hgc]
    simp only [bind, Except.bind, hm, hden, hmac]
    unfold Rng.exponential Rng.exponentialOf
    rw [if_neg hpos.ne']
  obtain ⟨⟨s, ds⟩, hns⟩ := (C07_raises_iff_no_surfaces c p.position p.direction).2
    (hw.bounded c hc (by rw [hm]; simp))
  obtain ⟨ha, hface⟩ := faced_of_nearest hns
  -- the two outcomes
  have hcross : FliesTo method (ahead c p.position p.direction) f →
      crossSurface method w p₁ s ds = .ok p' →
      (NoFission G nodes w → p'.secondaries = p.secondaries) ∧
      ((Ended p' ∧ ∀ hit n, walkScore G nodes w method hit (n + 1) c p.position p.direction g
          (drawn p.rng) = scoreOf hit p') ∨
        ¬ Ended p' ∧ ∃ c' g' m', p'.type = .neutron ∧ InGroup p' g' ∧ 1 ≤ g' ∧ g' ≤ G ∧
          Rng.Valid p'.rng ∧ c' ∈ w.cells ∧ p'.cell = some c' ∧ c'.material = some m' ∧
          ∀ hit n, walkScore G nodes w method hit (n + 1) c p.position p.direction g (drawn p.rng) =
            scoreOf hit p' + walkScore G nodes w method hit n c' p'.position p'.direction g'
              (drawn p'.rng)) := by
    intro hfly k
    obtain ⟨t, e0, e1, ⟨c', e2, e3, e4, e5⟩, e10, e6, e7, e8, e11, e9⟩ := crossSurface_ok k
    have hb : beyond c p.position p.direction = p'.position := by
      unfold beyond
      rw [ha, e0, e1]
      rfl
    have hgp : InGroup p' g := by
      unfold InGroup at hg ⊢
      rw [e7]
      exact hg
    have hcs : CrossedSurface p' := by
      by_cases hcm : c'.material = none
      · exact .inr (e4 hcm)
      · exact .inl (e5 hcm)
    have hsc : ∀ hit, scoreOf hit p' = hit s p'.direction g := by
      intro hit
      unfold scoreOf
      rw [if_pos hcs, e10]
      unfold InGroup at hgp
      simp [hgp]
    have hwalk : ∀ hit n, walkScore G nodes w method hit (n + 1) c p.position p.direction g
        (drawn p.rng) = scoreOf hit p' +
          walkScore G nodes w method hit n c' p'.position p'.direction g (drawn p'.rng) := by
      intro hit n
      rw [walkScore_succ hm, drawn_zero, if_pos hfly]
      unfold crossed
      rw [hface, Option.elim_some, hb, cellAt_of_first e2, Option.elim_some, hsc, e6, drawn_succ, e9]
    have hcw : c' ∈ w.cells := by
      obtain ⟨l, r, hlr, -⟩ := e2
      rw [hlr]
      simp
    refine ⟨fun _ => e11, ?_⟩
    cases hcm : c'.material with
    | none =>
      left
      refine ⟨.inr (.inr (e4 hcm)), fun hit n => ?_⟩
      rw [hwalk, walkScore_none hcm, add_zero]
    | some m' =>
      right
      have hev := e5 (by rw [hcm]; simp)
      refine ⟨by simp [Ended, hev], c', g, m', by rw [e8]; exact ht, hgp, h1, h2, ?_, hcw, e3, hcm, hwalk⟩
      rw [e9]
      exact Rng.valid_canonical hr
  have hcoll : ∀ q : Particle, q.type = p.type → q.energy = p.energy → q.cell = p.cell →
      q.position = p.position → q.direction = p.direction →
      q.rng = Rng.next^[2 * drawnBefore method] p.rng →
      ¬ FliesTo method (ahead c p.position p.direction) f →
      q.secondaries = p.secondaries → collide method fuel q (f : WithTop ℝ) = .ok p' →
      (NoFission G nodes w → p'.secondaries = p.secondaries) ∧
      ((Ended p' ∧ ∀ hit n, walkScore G nodes w method hit (n + 1) c p.position p.direction g
          (drawn p.rng) = scoreOf hit p') ∨
        ¬ Ended p' ∧ ∃ c' g' m', p'.type = .neutron ∧ InGroup p' g' ∧ 1 ≤ g' ∧ g' ≤ G ∧
          Rng.Valid p'.rng ∧ c' ∈ w.cells ∧ p'.cell = some c' ∧ c'.material = some m' ∧
          ∀ hit n, walkScore G nodes w method hit (n + 1) c p.position p.direction g (drawn p.rng) =
            scoreOf hit p' + walkScore G nodes w method hit n c' p'.position p'.direction g'
              (drawn p'.rng)) := by
    intro q q1 q2 q3 q4 q5 q6 hfly q7 k
    have hgq : InGroup q g := by
      unfold InGroup at hg ⊢
      rw [q2]
      exact hg
    obtain ⟨p'', k1, k2, k3, k4, k6, k5⟩ := collide_walk hw (q1.trans ht) hgq h1 h2
      (by rw [q6]; exact Rng.valid_iterate hr _) hc (q3.trans hpc) hm method fuel f
    rw [k] at k1
    cases k1
    have hwalk : ∀ hit n, walkScore G nodes w method hit (n + 1) c p.position p.direction g
        (drawn p.rng) = afterCollision G nodes m g
          (walkScore G nodes w method hit n c p'.position) (drawn q.rng) := by
      intro hit n
      rw [walkScore_succ hm, drawn_zero, if_neg hfly, drawn_shift, q6, k2, q4, q5]
    have hsc : ∀ hit, scoreOf hit p' = 0 := fun hit => if_neg k4
    refine ⟨fun hf => (k6 hf).trans q7, ?_⟩
    rcases k5 with ⟨e1, e2⟩ | ⟨g', e1, e2, e3, e4, e5, e6, e7⟩
    · left
      exact ⟨e1, fun hit n => by rw [hwalk, e2, hsc]⟩
    · right
      exact ⟨e6, c, g', m, e4, e1, e2, e3, e5, hc, k3, hm, fun hit n => by rw [hwalk, e7, hsc, zero_add]⟩
  have hgc : p₁.getCell = .ok c := Particle.getCell_ok.2 hpc
  have hns' : c.nearestSurface p₁.position p₁.direction = .ok (s, ds) := hns
  cases method
  · change surfaceStep fuel w p = .ok p' at h
    unfold surfaceStep at h
    rw [hfl] at h
    simp only [bind, Except.bind, hgc, hns'] at h
    split_ifs at h with hlt
    · refine hcoll p₁ rfl rfl rfl rfl rfl rfl ?_ rfl h
      rw [ha]
      exact not_le.2 hlt
    · refine hcross ?_ h
      rw [ha]
      exact not_lt.1 hlt
  · change deltaStep fuel w p = .ok p' at h
    unfold deltaStep at h
    rw [hfl] at h
    simp only [bind, Except.bind, hgc, hns'] at h
    split_ifs at h with hlt
    · refine hcross ?_ h
      rw [ha]
      exact hlt
    · cases hacc : acceptance p₁ with
      | error e => rw [hacc] at h; cases h
      | ok a =>
        rw [hacc] at h
        dsimp only at h
        split_ifs at h with hb
        · refine hcoll _ ?_ ?_ ?_ ?_ ?_ ?_ ?_ ?_ h
          · rfl
          · rfl
          · rfl
          · rfl
          · rfl
          · rfl
          · rw [ha]
            exact hlt
          · rfl
        · split at h
          · cases h
          · cases h
            exact absurd rfl hev

/-- What the states of a neutron score in its first rounds is the score of the game played with the
numbers that it draws. -/
theorem loop_walk {G : ℕ} {nodes : Nuclide → List MgNode} {w : World} (hw : WellPosed G nodes w)
    {method : Method} {fuel k : ℕ} {p last : Particle} {scored : List Particle}
    (h : transportLoop method fuel w k p = .ok (last, scored)) {g : ℕ} (ht : p.type = .neutron)
    (hg : InGroup p g) (h1 : 1 ≤ g) (h2 : g ≤ G) (hr : Rng.Valid p.rng) (hp : ¬ Ended p) {c : Cell}
    (hc : c ∈ w.cells) (hpc : p.cell = some c) {m : Material} (hm : c.material = some m)
    (hit : SurfaceObj → Direction → ℕ → ℝ≥0∞) (n : ℕ) :
    walkScore G nodes w method hit n c p.position p.direction g (drawn p.rng) =
      ((scored.take n).map (scoreOf hit)).sum := by
  induction k generalizing p scored g c m n with
  | zero =>
    unfold transportLoop at h
    rw [if_pos ((alive_iff p).2 hp)] at h
    cases h
  | succ k ih =>
    obtain ⟨p', hs, -, hcase⟩ := step_walk hw ht hg h1 h2 hr hc hpc hm method fuel
    unfold transportLoop at h
    rw [if_pos ((alive_iff p).2 hp), hs] at h
    simp only [bind, Except.bind] at h
    cases hl : transportLoop method fuel w k p' with
    | error e => rw [hl] at h; cases h
    | ok r =>
      obtain ⟨last', scored'⟩ := r
      rw [hl] at h
      simp only [Except.ok.injEq, Prod.mk.injEq] at h
      obtain ⟨rfl, rfl⟩ := h
      cases n with
      | zero => simp [walkScore]
      | succ n =>
        rw [List.take_succ_cons, List.map_cons, List.sum_cons]
        rcases hcase with ⟨he, hwk⟩ | ⟨he, c', g', m', t1, t2, t3, t4, t5, t6, t7, t8, hwk⟩
        · rw [hwk]
          have hnil : scored' = [] := by
            have hna : ¬ p'.isAlive = true := fun hal => (alive_iff p').1 hal he
            cases k with
            | zero => rw [transportLoop, if_neg hna] at hl; cases hl; rfl
            | succ k => rw [transportLoop, if_neg hna] at hl; cases hl; rfl
          rw [hnil]
          simp
        · rw [hwk, ih hl t1 t2 t3 t4 t5 he t6 t7 t8]

/-- Without fission a neutron leaves no secondaries. -/
theorem loop_secondaries {G : ℕ} {nodes : Nuclide → List MgNode} {w : World} (hw : WellPosed G nodes w)
    (hf : NoFission G nodes w)
    {method : Method} {fuel k : ℕ} {p last : Particle} {scored : List Particle}
    (h : transportLoop method fuel w k p = .ok (last, scored)) {g : ℕ} (ht : p.type = .neutron)
    (hg : InGroup p g) (h1 : 1 ≤ g) (h2 : g ≤ G) (hr : Rng.Valid p.rng) (hp : ¬ Ended p) {c : Cell}
    (hc : c ∈ w.cells) (hpc : p.cell = some c) {m : Material} (hm : c.material = some m) :
    last.secondaries = p.secondaries := by
  induction k generalizing p scored g c m with
  | zero =>
    unfold transportLoop at h
    rw [if_pos ((alive_iff p).2 hp)] at h
    cases h
  | succ k ih =>
    obtain ⟨p', hs, hsec, hcase⟩ := step_walk hw ht hg h1 h2 hr hc hpc hm method fuel
    unfold transportLoop at h
    rw [if_pos ((alive_iff p).2 hp), hs] at h
    simp only [bind, Except.bind] at h
    cases hl : transportLoop method fuel w k p' with
    | error e => rw [hl] at h; cases h
    | ok r =>
      obtain ⟨last', scored'⟩ := r
      rw [hl] at h
      simp only [Except.ok.injEq, Prod.mk.injEq] at h
      obtain ⟨rfl, rfl⟩ := h
      rw [← hsec hf]
      rcases hcase with ⟨he, -⟩ | ⟨he, c', g', m', t1, t2, t3, t4, t5, t6, t7, t8, -⟩
      · have hna : ¬ p'.isAlive = true := fun hal => (alive_iff p').1 hal he
        cases k with
        | zero => rw [transportLoop, if_neg hna] at hl; cases hl; rfl
        | succ k => rw [transportLoop, if_neg hna] at hl; cases hl; rfl
      · exact ih hl t1 t2 t3 t4 t5 he t6 t7 t8

end Minimc
