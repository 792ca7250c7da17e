import Verif.Lemmas.ChainLimit
import Verif.Lemmas.WalkFollows

/-! # The program plays the game with fission -/

namespace Minimc

open Classical Spec Props
open scoped ENNReal

theorem generator_rest (k r : ℕ) : generator.rest^[k] r = Rng.next^[2 * k] r := by
  induction k generalizing r with
  | zero => rfl
  | succ k ih =>
    rw [Function.iterate_succ_apply, ih, Nat.mul_add, Function.iterate_add_apply]
    rfl

theorem generator_numbers (r k : ℕ) : generator.numbers r k = drawn r k := by
  unfold Supply.numbers
  rw [generator_rest]
  rfl

theorem findNubar_table {nodes : List MgNode} {t : List ℝ}
    (h : Multigroup.findNubar nodes = some t) : nubarTable nodes = t := by
  unfold nubarTable
  induction nodes with
  | nil => cases h
  | cons n l ih =>
    cases n with
    | capture xs => simpa using ih h
    | scatter f => simpa using ih h
    | fission a b xs =>
      simp only [Multigroup.findNubar] at h
      subst h
      rfl

theorem findChi_table {nodes : List MgNode} {t : List ℝ}
    (h : Multigroup.findChi nodes = some t) : chiTable nodes = t := by
  unfold chiTable
  induction nodes with
  | nil => cases h
  | cons n l ih =>
    cases n with
    | capture xs => simpa using ih h
    | scatter f => simpa using ih h
    | fission a b xs =>
      simp only [Multigroup.findChi] at h
      subst h
      rfl

/-- The group of an energy. -/
def groupOf : Energy → ℕ
  | .group g => g
  | _ => 0

/-- What a new particle scores if `start` is what a new neutron scores. -/
noncomputable def bornScore (start : Direction → ℕ → ℕ → ℝ≥0∞) (b : Born) : ℝ≥0∞ :=
  start b.direction (groupOf b.energy) (Rng.ofSeed b.seed)

/-- New neutrons at a place. -/
def BornAt (G : ℕ) (x : Point) (b : Born) : Prop :=
  b.position = x ∧ b.type = .neutron ∧ ∃ g, b.energy = .group g ∧ 1 ≤ g ∧ g ≤ G

theorem byWeight_zero {ws : List ℝ} (hnn : ∀ x ∈ ws, 0 ≤ x) (hs : ws.sum = 0) (u : ℝ)
    (F : ℕ → ℝ≥0∞) : byWeight ws u F = 0 := by
  unfold byWeight
  refine Finset.sum_eq_zero fun i _ => ?_
  rw [if_neg]
  rintro ⟨-, -, h⟩
  have h1 := List.sum_take_add_sum_drop ws (i + 1)
  have h2 : 0 ≤ (ws.drop (i + 1)).sum :=
    List.sum_nonneg fun x hx => hnn x (List.mem_of_mem_drop hx)
  rw [hs, mul_zero] at h
  linarith

theorem births_zero {σ : Type} {S : Supply σ} {ws : List ℝ} (hnn : ∀ x ∈ ws, 0 ≤ x) (hs : ws.sum = 0)
    (start : Direction → ℕ → σ → ℝ≥0∞) (k : ℕ) (s : σ) : births S ws start k s = 0 := by
  cases k with
  | zero => rfl
  | succ k => exact byWeight_zero hnn hs _ _

/-- The loop that banks neutrons banks those of the game. -/
theorem bankLoop_births {G : ℕ} {chi : List ℝ} {g : ℕ} (hnn : ∀ x ∈ chi, 0 ≤ x) (k : ℕ) (p : Particle)
    (hr : Rng.Valid p.rng) :
    ∃ p' new, Multigroup.bankLoop G (Multigroup.normCol G chi g) k p = .ok p' ∧
      p'.secondaries = p.secondaries ++ new ∧ (∀ b ∈ new, BornAt G p.position b) ∧
      ∀ start, births generator (colEntries G chi g) start k p.rng = (new.map (bornScore start)).sum := by
  by_cases hz : colSum G chi g = 0
  · refine ⟨_, [], Multigroup.bankLoop_zero (Multigroup.length_normCol G chi g)
      (Multigroup.normCol_nonneg hnn g) (by rw [Multigroup.normCol_eq, if_pos hz]; exact hz) k p hr,
      by simp, by simp, fun start => ?_⟩
    rw [births_zero (colEntries_nonneg hnn G g) hz]
    simp
  have hpos : 0 < colSum G chi g :=
    lt_of_le_of_ne (List.sum_nonneg (colEntries_nonneg hnn G g)) (Ne.symm hz)
  induction k generalizing p with
  | zero => exact ⟨p, [], rfl, by simp, by simp, fun start => by simp [births]⟩
  | succ k ih =>
    have hu0 := (Rng.canonical_pos hr).le
    obtain ⟨g', hg'⟩ := Multigroup.selectGroup_exists (Multigroup.length_normCol G chi g)
      (Multigroup.normCol_nonneg hnn g) hu0
      (by rw [Multigroup.sum_normCol hz]; exact Rng.canonical_lt_one hr)
    obtain ⟨g1, hsel⟩ := (Multigroup.selectGroup_iff (Multigroup.length_normCol G chi g)
      (Multigroup.normCol_nonneg hnn g) hu0 g').1 hg'
    have hsel' : Selected (colEntries G chi g)
        ((Rng.canonical p.rng).1 * (colEntries G chi g).sum) (g' - 1) :=
      (Multigroup.selected_normCol hpos _ _).1 hsel
    have g2 : g' ≤ G := by
      have := hsel.1
      rw [Multigroup.length_normCol] at this
      omega
    obtain ⟨p', new, e1, e2, e3, e4⟩ := ih { p with
      rng := Rng.next^[7] p.rng
      secondaries := p.secondaries ++ [Multigroup.bornAt p p.rng g'] } (Rng.valid_iterate hr 7)
    refine ⟨p', Multigroup.bornAt p p.rng g' :: new, ?_, ?_, ?_, fun start => ?_⟩
    · rw [Multigroup.bankLoop_succ hg', e1]
    · rw [e2]
      simp
    · intro b hb
      rcases List.mem_cons.1 hb with rfl | hb
      · exact ⟨rfl, rfl, g', rfl, g1, g2⟩
      · exact e3 b hb
    · rw [births, List.map_cons, List.sum_cons, ← e4]
      refine (byWeight_eq (i := g' - 1) (fun j => ⟨fun h =>
        Selected.unique (colEntries_nonneg hnn G g) h hsel', fun h => h ▸ hsel'⟩) _).trans ?_
      rw [Nat.sub_add_cancel g1, generator_numbers, generator_numbers]
      have hd : directionFrom (drawn p.rng 1) (drawn p.rng 2) =
          (Direction.isotropic (Rng.next^[2] p.rng)).1 := by
        rw [isotropic_eq]
        rfl
      rw [hd]
      rfl

/-- A collision in the program is one in the game. -/
theorem collide_chain {G : ℕ} {nodes : Nuclide → List MgNode} {w : World} (hw : WellPosed G nodes w)
    {p : Particle} {g : ℕ} (ht : p.type = .neutron) (hg : InGroup p g) (h1 : 1 ≤ g) (h2 : g ≤ G)
    (hr : Rng.Valid p.rng) {c : Cell} (hc : c ∈ w.cells) (hpc : p.cell = some c) {m : Material}
    (hm : c.material = some m) (method : Method) (fuel : ℕ) (t : ℝ) :
    ∃ p', collide method fuel p (t : WithTop ℝ) = .ok p' ∧
      p'.position = along p.position p.direction t ∧ p'.cell = some c ∧ ¬ CrossedSurface p' ∧
      ((Ended p' ∧ ∃ new, p'.secondaries = p.secondaries ++ new ∧ (∀ b ∈ new, BornAt G p'.position b) ∧
          ∀ next start, afterEvent generator G nodes m g next start p.rng =
            (new.map (bornScore start)).sum) ∨
        p'.secondaries = p.secondaries ∧ ∃ g', InGroup p' g' ∧ 1 ≤ g' ∧ g' ≤ G ∧ p'.type = .neutron ∧
          Rng.Valid p'.rng ∧ ¬ Ended p' ∧
          ∀ next start, afterEvent generator G nodes m g next start p.rng =
            next p'.direction g' p'.rng) := by
  have hpos := group_shares hw hc hm h1 h2
  obtain ⟨_, _, hd⟩ := group_density hw hc hm hpc ht hg h1 h2 method
  obtain ⟨eff, heff⟩ := effects_ok hpc hm hd hpos.ne' t p.indirectEffects
  have hs : p.stream method (t : WithTop ℝ) = .ok { p with
      indirectEffects := eff
      position := along p.position p.direction t } := by
    change (streamEffects method p t p.indirectEffects >>= fun effects => Except.ok _) = _
    rw [heff]
    simp only [bind, Except.bind, smul_eq_along]
  set p₁ : Particle := { p with
      indirectEffects := eff
      position := along p.position p.direction t } with hp₁
  obtain ⟨i, hi, hiff, hi0, hsel⟩ := C24_selects (p := p₁) (σ := fun n => specTotal G (nodes n) g) hpc hm
    (fun e he => (group_total (p := p₁) (hw.data c hc m hm e he).2 ht hg h1 h2).1)
    (fun e he => by
      obtain ⟨f1, _, _, _, f2, _⟩ := hw.data c hc m hm e he
      exact mul_nonneg f1.le (specTotal_nonneg f2 g)) hr hpos
  obtain ⟨f1, f2⟩ := hw.data c hc m hm _ (List.getElem_mem hi)
  have hσ : 0 < specTotal G (nodes m.afracs[i].1) g := by
    by_contra hcon
    have := mul_nonpos_of_nonneg_of_nonpos f1.le (not_lt.1 hcon)
    linarith
  set p₂ : Particle := { p₁ with rng := (Rng.canonical p₁.rng).2 } with hp₂
  have hr₂ : Rng.Valid p₂.rng := Rng.valid_canonical hr
  obtain ⟨M, hM, hcr, hn, hdata⟩ := f2
  have hcol : ∀ p', M.interact p₂ = .ok p' → collide method fuel p (t : WithTop ℝ) = .ok p' := by
    intro p' hp'
    have key : m.afracs[i].1.interact fuel p₂ = noexcept (M.interact p₂) := by
      unfold Nuclide.interact Nuclide.xsAt
      rw [show p₂.type = .neutron from ht, hM]
      rfl
    unfold collide
    rw [hs]
    simp only [bind, Except.bind, hsel]
    change m.afracs[i].1.interact fuel p₂ = _
    rw [key, hp']
    rfl
  obtain ⟨⟨r, hrs, hru⟩, hca, hsc, hfi⟩ := C19_reaction hcr hn (p := p₂) hg h1 h2 hr₂ hσ
  obtain ⟨p', hp', e0, e1, e2, e3⟩ := C19_succeeds hcr hn (p := p₂) hg h1 h2 hr₂ hσ (hdata g)
  have hco := hcol p' hp'
  obtain ⟨t', ht', k1, k2, -, k3, -⟩ := collide_ok hco
  rw [WithTop.coe_inj] at ht'
  subst ht'
  refine ⟨p', hco, k1, by rw [k2, hpc], by rcases k3 with h | h | h <;> simp [CrossedSurface, h], ?_⟩
  have hw3 : (weights G (nodes m.afracs[i].1) g).sum = specTotal G (nodes m.afracs[i].1) g := by
    simp [weights, specTotal, add_assoc]
  have huse : ∀ next start, afterEvent generator G nodes m g next start p.rng =
      if r = 1 then
        byWeight (colEntries G (scatterTable (nodes m.afracs[i].1)) g) (drawn p.rng 2) fun j =>
          next (directionFrom (drawn p.rng 3) (drawn p.rng 4)) (j + 1) (Rng.next^[10] p.rng)
      else if r = 2 then
        births generator (colEntries G (chiTable (nodes m.afracs[i].1)) g) start
          ⌊entry1 (nubarTable (nodes m.afracs[i].1)) g + drawn p.rng 2⌋₊ (Rng.next^[6] p.rng)
      else 0 := by
    intro next start
    unfold afterEvent
    simp only [generator_numbers, generator_rest]
    refine (byWeight_eq (i := i) hiff _).trans ?_
    rw [List.getElem?_eq_getElem hi, Option.elim_some]
    refine byWeight_eq (ws := weights G (nodes m.afracs[i].1) g) (fun j => ?_) _
    rw [hw3]
    exact ⟨fun h => hru j h, fun h => h ▸ hrs⟩
  have hlen : r < 3 := hrs.1
  have hcases : r = 0 ∨ r = 1 ∨ r = 2 := by omega
  rcases hcases with rfl | rfl | rfl
  · left
    have hpe := hca hrs
    rw [hp'] at hpe
    simp only [Except.ok.injEq] at hpe
    refine ⟨.inl (e0.2 hrs), [], by rw [hpe]; simp [hp₂, hp₁], by simp, fun next start => ?_⟩
    rw [huse]
    simp
  · right
    obtain ⟨flat, hf, hcs⟩ := C20_reached_with_positive_column hrs
    obtain ⟨g', d, hs', g1, g2, -, hsel', hdir, -⟩ := C20_scatter hcr hn hf
      (p := { p₂ with rng := (Rng.canonical p₂.rng).2 }) hg h1 h2 (Rng.valid_canonical hr₂) hcs
    have hpe := hsc hrs
    rw [hp', hs'] at hpe
    simp only [Except.ok.injEq] at hpe
    have hv : Rng.Valid p'.rng := by
      rw [hpe]
      exact Rng.valid_iterate (Rng.valid_canonical hr₂) 6
    refine ⟨by rw [hpe], g', by rw [hpe]; rfl, g1, g2, by rw [hpe]; exact ht, hv,
      by rw [hpe]; simp [Ended], fun next start => ?_⟩
    rw [huse, if_pos rfl, findScatter_table hf]
    have hnn : ∀ x ∈ colEntries G flat g, 0 ≤ x := by
      refine colEntries_nonneg ?_ G g
      rw [← findScatter_table hf]
      exact scatterTable_nonneg hn
    change Selected (colEntries G flat g) (drawn p.rng 2 * (colEntries G flat g).sum) (g' - 1) at hsel'
    rw [byWeight_eq (i := g' - 1) fun j => ⟨fun h => Selected.unique hnn h hsel', fun h => h ▸ hsel'⟩,
      Nat.sub_add_cancel g1]
    have e1 : p'.direction = directionFrom (drawn p.rng 3) (drawn p.rng 4) := by
      rw [hpe]
      dsimp only
      rw [hdir, isotropic_eq]
      rfl
    have e2 : p'.rng = Rng.next^[10] p.rng := by
      rw [hpe]
      rfl
    rw [e1, e2]
  · left
    refine ⟨.inr (.inl (e2.2 hrs)), ?_⟩
    obtain ⟨x, hx, hxpos⟩ := Selected.pos hrs
    simp only [weights, List.getElem?_cons_succ, List.getElem?_cons_zero, Option.some.injEq] at hx
    obtain ⟨nubar, chi, hnu, hchi⟩ := hdata g (by rw [hx]; exact hxpos)
    obtain ⟨hf, -, hnn⟩ := Multigroup.fission_loop hcr hn hnu hchi
      (p := { p₂ with rng := (Rng.canonical p₂.rng).2 }) hg h1 h2 (Rng.valid_canonical hr₂)
    obtain ⟨p'', new, b1, b2, b3, b4⟩ := bankLoop_births (G := G) (g := g) hnn
      ⌊entry1 nubar g + (Rng.canonical (Rng.canonical p₂.rng).2).1⌋₊
      { p₂ with event := .fission, rng := Rng.next^[2] (Rng.canonical p₂.rng).2 }
      (Rng.valid_iterate (Rng.valid_canonical hr₂) 2)
    have hpe := hfi hrs
    rw [hp', hf] at hpe
    have hpe' : p' = p'' := by
      have := (noexcept_eq_ok.1 hpe.symm)
      exact Except.ok.inj (this.symm.trans b1)
    subst hpe'
    refine ⟨new, b2, fun b hb => ?_, fun next start => ?_⟩
    · rw [k1]
      exact b3 b hb
    · rw [huse, if_neg (by decide), if_pos rfl, findNubar_table hnu, findChi_table hchi, ← b4]
      rfl

/-- A step of the program is a round. -/
theorem step_round {G : ℕ} {nodes : Nuclide → List MgNode} {w : World} (hw : WellPosed G nodes w)
    {p : Particle} {g : ℕ} (ht : p.type = .neutron) (hg : InGroup p g) (h1 : 1 ≤ g) (h2 : g ≤ G)
    (hr : Rng.Valid p.rng) {c : Cell} (hc : c ∈ w.cells) (hpc : p.cell = some c) {m : Material}
    (hm : c.material = some m) (method : Method) (fuel : ℕ) :
    ∃ p', transportStep method fuel w p = .ok p' ∧
      ((Ended p' ∧ ∃ new, p'.secondaries = p.secondaries ++ new ∧ (∀ b ∈ new, BornAt G p'.position b) ∧
          (∀ hit next, Vanishes next →
            oneRound generator G nodes w method hit next c p.position p.direction g p.rng =
              scoreOf hit p' + (new.map (bornScore (startAt w next p'.position))).sum) ∧
          (CrossedSurface p' ∧ new = [] ∨ ¬ CrossedSurface p' ∧
            p'.position = along p.position p.direction
              (-Real.log (1 - (Rng.canonical p.rng).1) / macroscopic G nodes g m) ∧
            ∀ next start, afterEvent generator G nodes m g next start
              (Rng.next^[2 * drawnBefore method] p.rng) = (new.map (bornScore start)).sum)) ∨
        ¬ Ended p' ∧ p'.secondaries = p.secondaries ∧ ∃ c' g' m', p'.type = .neutron ∧ InGroup p' g' ∧
          1 ≤ g' ∧ g' ≤ G ∧ Rng.Valid p'.rng ∧ c' ∈ w.cells ∧ p'.cell = some c' ∧ c'.material = some m' ∧
          (∀ hit next, oneRound generator G nodes w method hit next c p.position p.direction g p.rng =
            scoreOf hit p' + next c' p'.position p'.direction g' p'.rng) ∧
          (CrossedSurface p' ∨ ∀ next start, afterEvent generator G nodes m g next start
            (Rng.next^[2 * drawnBefore method] p.rng) = next p'.direction g' p'.rng)) := by
  have hin : InMaterial G w p := ⟨⟨ht, ⟨g, hg, h1, h2⟩, hr⟩, c, hc, hpc, by rw [hm]; simp⟩
  obtain ⟨p', h, -, -, -, hev⟩ := group_step_event hw hin method fuel
  refine ⟨p', h, ?_⟩
  obtain ⟨-, -, hden⟩ := group_density hw hc hm hpc ht hg h1 h2 method
  have hpos := mul_pos (hw.density c hc m hm) (group_shares hw hc hm h1 h2)
  have hmac : m.numberDensity * (shares m fun n => specTotal G (nodes n) g).sum =
    macroscopic G nodes g m := rfl
  rw [hmac] at hpos
  set f := -Real.log (1 - (Rng.canonical p.rng).1) / macroscopic G nodes g m with hf
  have hnum : -Real.log (1 - generator.number p.rng) / macroscopic G nodes g m = f := rfl
  set p₁ : Particle := { p with rng := (Rng.canonical p.rng).2 } with hp₁
  have hfl : sampleFlight method p = .ok ((f : WithTop ℝ), p₁) := by
    have hgc : p.getCell = .ok c := Particle.getCell_ok.2 hpc
    unfold sampleFlight
    rw [hgc]
    simp only [bind, Except.bind, hm, hden, hmac]
    unfold Rng.exponential Rng.exponentialOf
    rw [if_neg hpos.ne']
  obtain ⟨⟨s, ds⟩, hns⟩ := (C07_raises_iff_no_surfaces c p.position p.direction).2
    (hw.bounded c hc (by rw [hm]; simp))
  obtain ⟨ha, hface⟩ := faced_of_nearest hns
  set Goal : Prop := ((Ended p' ∧ ∃ new, p'.secondaries = p.secondaries ++ new ∧
          (∀ b ∈ new, BornAt G p'.position b) ∧
          (∀ hit next, Vanishes next →
            oneRound generator G nodes w method hit next c p.position p.direction g p.rng =
              scoreOf hit p' + (new.map (bornScore (startAt w next p'.position))).sum) ∧
          (CrossedSurface p' ∧ new = [] ∨ ¬ CrossedSurface p' ∧
            p'.position = along p.position p.direction
              (-Real.log (1 - (Rng.canonical p.rng).1) / macroscopic G nodes g m) ∧
            ∀ next start, afterEvent generator G nodes m g next start
              (Rng.next^[2 * drawnBefore method] p.rng) = (new.map (bornScore start)).sum)) ∨
        ¬ Ended p' ∧ p'.secondaries = p.secondaries ∧ ∃ c' g' m', p'.type = .neutron ∧ InGroup p' g' ∧
          1 ≤ g' ∧ g' ≤ G ∧ Rng.Valid p'.rng ∧ c' ∈ w.cells ∧ p'.cell = some c' ∧ c'.material = some m' ∧
          (∀ hit next, oneRound generator G nodes w method hit next c p.position p.direction g p.rng =
            scoreOf hit p' + next c' p'.position p'.direction g' p'.rng) ∧
          (CrossedSurface p' ∨ ∀ next start, afterEvent generator G nodes m g next start
            (Rng.next^[2 * drawnBefore method] p.rng) = next p'.direction g' p'.rng)) with hGoal
  -- the two outcomes
  have hcross : FliesTo method (ahead c p.position p.direction) f →
      crossSurface method w p₁ s ds = .ok p' → Goal := by
    intro hfly k
    obtain ⟨t, e0, e1, ⟨c', e2, e3, e4, e5⟩, e10, e6, e7, e8, e11, e9⟩ := crossSurface_ok k
    have hb : beyond c p.position p.direction = p'.position := by
      unfold beyond
      rw [ha, e0, e1]
      rfl
    have hgp : InGroup p' g := by
      unfold InGroup at hg ⊢
      rw [e7]
      exact hg
    have hcs : CrossedSurface p' := by
      by_cases hcm : c'.material = none
      · exact .inr (e4 hcm)
      · exact .inl (e5 hcm)
    have hsc : ∀ hit, scoreOf hit p' = hit s p'.direction g := by
      intro hit
      unfold scoreOf
      rw [if_pos hcs, e10]
      unfold InGroup at hgp
      simp [hgp]
    have hwalk : ∀ hit next, oneRound generator G nodes w method hit next c p.position p.direction g
        p.rng = scoreOf hit p' + next c' p'.position p'.direction g p'.rng := by
      intro hit next
      rw [oneRound_some hm, hnum, if_pos hfly]
      unfold crossed
      rw [hface, Option.elim_some, hb, cellAt_of_first e2, Option.elim_some, hsc, e6, e9]
      rfl
    have hcw : c' ∈ w.cells := by
      obtain ⟨l, r, hlr, -⟩ := e2
      rw [hlr]
      simp
    cases hcm : c'.material with
    | none =>
      left
      refine ⟨.inr (.inr (e4 hcm)), [], by rw [e11]; simp [hp₁], by simp, fun hit next hv => ?_,
        .inl ⟨hcs, rfl⟩⟩
      rw [hwalk, hv _ _ _ _ _ hcm]
      simp
    | some m' =>
      right
      have hev := e5 (by rw [hcm]; simp)
      refine ⟨by simp [Ended, hev], e11, c', g, m', by rw [e8]; exact ht, hgp, h1, h2, ?_, hcw, e3, hcm,
        hwalk, .inl hcs⟩
      rw [e9]
      exact Rng.valid_canonical hr
  have hcoll : ∀ q : Particle, q.type = p.type → q.energy = p.energy → q.cell = p.cell →
      q.position = p.position → q.direction = p.direction →
      q.rng = Rng.next^[2 * drawnBefore method] p.rng →
      ¬ FliesTo method (ahead c p.position p.direction) f →
      q.secondaries = p.secondaries → collide method fuel q (f : WithTop ℝ) = .ok p' → Goal := by
    intro q q1 q2 q3 q4 q5 q6 hfly q7 k
    have hgq : InGroup q g := by
      unfold InGroup at hg ⊢
      rw [q2]
      exact hg
    obtain ⟨p'', k1, k2, k3, k4, k5⟩ := collide_chain hw (q1.trans ht) hgq h1 h2
      (by rw [q6]; exact Rng.valid_iterate hr _) hc (q3.trans hpc) hm method fuel f
    rw [k] at k1
    cases k1
    have hwalk : ∀ hit next, oneRound generator G nodes w method hit next c p.position p.direction g
        p.rng = afterEvent generator G nodes m g (next c p'.position) (startAt w next p'.position)
          q.rng := by
      intro hit next
      rw [oneRound_some hm, hnum, if_neg hfly, generator_rest, q6, k2, q4, q5]
    have hsc : ∀ hit, scoreOf hit p' = 0 := fun hit => if_neg k4
    rcases k5 with ⟨e1, new, e2, e3, e4⟩ | ⟨e0, g', e1, e2, e3, e4, e5, e6, e7⟩
    · left
      exact ⟨e1, new, by rw [e2, q7], e3, fun hit next _ => by rw [hwalk, e4, hsc, zero_add],
        .inr ⟨k4, by rw [k2, q4, q5], fun next start => by rw [← q6, e4]⟩⟩
    · right
      exact ⟨e6, e0.trans q7, c, g', m, e4, e1, e2, e3, e5, hc, k3, hm,
        fun hit next => by rw [hwalk, e7, hsc, zero_add], .inr fun next start => by rw [← q6, e7]⟩
  have hgc : p₁.getCell = .ok c := Particle.getCell_ok.2 hpc
  have hns' : c.nearestSurface p₁.position p₁.direction = .ok (s, ds) := hns
  cases method
  · change surfaceStep fuel w p = .ok p' at h
    unfold surfaceStep at h
    rw [hfl] at h
    simp only [bind, Except.bind, hgc, hns'] at h
    split_ifs at h with hlt
    · refine hcoll p₁ rfl rfl rfl rfl rfl rfl ?_ rfl h
      rw [ha]
      exact not_le.2 hlt
    · refine hcross ?_ h
      rw [ha]
      exact not_lt.1 hlt
  · change deltaStep fuel w p = .ok p' at h
    unfold deltaStep at h
    rw [hfl] at h
    simp only [bind, Except.bind, hgc, hns'] at h
    split_ifs at h with hlt
    · refine hcross ?_ h
      rw [ha]
      exact hlt
    · cases hacc : acceptance p₁ with
      | error e => rw [hacc] at h; cases h
      | ok a =>
        rw [hacc] at h
        dsimp only at h
        split_ifs at h with hb
        · refine hcoll _ ?_ ?_ ?_ ?_ ?_ ?_ ?_ ?_ h
          · rfl
          · rfl
          · rfl
          · rfl
          · rfl
          · rfl
          · rw [ha]
            exact hlt
          · rfl
        · split at h
          · cases h
          · cases h
            exact absurd rfl hev

/-- A step of the program is a round of the game. -/
theorem step_chain {G : ℕ} {nodes : Nuclide → List MgNode} {w : World} (hw : WellPosed G nodes w)
    {p : Particle} {g : ℕ} (ht : p.type = .neutron) (hg : InGroup p g) (h1 : 1 ≤ g) (h2 : g ≤ G)
    (hr : Rng.Valid p.rng) {c : Cell} (hc : c ∈ w.cells) (hpc : p.cell = some c) {m : Material}
    (hm : c.material = some m) (method : Method) (fuel : ℕ) :
    ∃ p', transportStep method fuel w p = .ok p' ∧
      ((Ended p' ∧ ∃ new, p'.secondaries = p.secondaries ++ new ∧ (∀ b ∈ new, BornAt G p'.position b) ∧
          (∀ hit n, chainScore generator G nodes w method hit (n + 1) c p.position p.direction g p.rng =
            scoreOf hit p' +
              (new.map (bornScore (fresh generator G nodes w method hit n p'.position))).sum) ∧
          (CrossedSurface p' ∧ new = [] ∨ ¬ CrossedSurface p' ∧
            p'.position = along p.position p.direction
              (-Real.log (1 - (Rng.canonical p.rng).1) / macroscopic G nodes g m) ∧
            ∀ next start, afterEvent generator G nodes m g next start
              (Rng.next^[2 * drawnBefore method] p.rng) = (new.map (bornScore start)).sum)) ∨
        ¬ Ended p' ∧ p'.secondaries = p.secondaries ∧ ∃ c' g' m', p'.type = .neutron ∧ InGroup p' g' ∧
          1 ≤ g' ∧ g' ≤ G ∧ Rng.Valid p'.rng ∧ c' ∈ w.cells ∧ p'.cell = some c' ∧ c'.material = some m' ∧
          (∀ hit n, chainScore generator G nodes w method hit (n + 1) c p.position p.direction g p.rng =
            scoreOf hit p' + chainScore generator G nodes w method hit n c' p'.position p'.direction g'
              p'.rng) ∧
          (CrossedSurface p' ∨ ∀ next start, afterEvent generator G nodes m g next start
            (Rng.next^[2 * drawnBefore method] p.rng) = next p'.direction g' p'.rng)) := by
  obtain ⟨p', h, hcase⟩ := step_round hw ht hg h1 h2 hr hc hpc hm method fuel
  refine ⟨p', h, ?_⟩
  rcases hcase with ⟨he, new, b1, b2, b3, b4⟩ |
    ⟨he, b1, c', g', m', t1, t2, t3, t4, t5, t6, t7, t8, hwk, b4⟩
  · exact .inl ⟨he, new, b1, b2, fun hit n => b3 hit _ fun _ _ _ _ s hm => chainScore_none hm s, b4⟩
  · exact .inr ⟨he, b1, c', g', m', t1, t2, t3, t4, t5, t6, t7, t8, fun hit n => hwk hit _, b4⟩

/-- What a particle of the bank scores. -/
noncomputable def partScore (G : ℕ) (nodes : Nuclide → List MgNode) (w : World) (method : Method)
    (hit : SurfaceObj → Direction → ℕ → ℝ≥0∞) (n : ℕ) (p : Particle) : ℝ≥0∞ :=
  fresh generator G nodes w method hit n p.position p.direction (groupOf p.energy) p.rng

/-- What the states of a neutron score, together with what the neutrons score that it has made. -/
theorem loop_chain {G : ℕ} {nodes : Nuclide → List MgNode} {w : World} (hw : WellPosed G nodes w)
    {method : Method} {fuel k : ℕ} {p last : Particle} {scored : List Particle}
    (h : transportLoop method fuel w k p = .ok (last, scored)) {g : ℕ} (ht : p.type = .neutron)
    (hg : InGroup p g) (h1 : 1 ≤ g) (h2 : g ≤ G) (hr : Rng.Valid p.rng) (hp : ¬ Ended p) {c : Cell}
    (hc : c ∈ w.cells) (hpc : p.cell = some c) {m : Material} (hm : c.material = some m) :
    ∃ new, last.secondaries = p.secondaries ++ new ∧
      (∀ b ∈ new, b.type = .neutron ∧ ∃ g, b.energy = .group g ∧ 1 ≤ g ∧ g ≤ G) ∧
      ∀ hit n, chainScore generator G nodes w method hit (n + scored.length) c p.position p.direction g
          p.rng = (scored.map (scoreOf hit)).sum +
            (new.map fun b => partScore G nodes w method hit n (Particle.ofBorn b)).sum := by
  induction k generalizing p scored g c m with
  | zero =>
    unfold transportLoop at h
    rw [if_pos ((alive_iff p).2 hp)] at h
    cases h
  | succ k ih =>
    obtain ⟨p', hs, hcase⟩ := step_chain hw ht hg h1 h2 hr hc hpc hm method fuel
    unfold transportLoop at h
    rw [if_pos ((alive_iff p).2 hp), hs] at h
    simp only [bind, Except.bind] at h
    cases hl : transportLoop method fuel w k p' with
    | error e => rw [hl] at h; cases h
    | ok r =>
      obtain ⟨last', scored'⟩ := r
      rw [hl] at h
      simp only [Except.ok.injEq, Prod.mk.injEq] at h
      obtain ⟨rfl, rfl⟩ := h
      rcases hcase with ⟨he, new, b1, b2, b3, -⟩ |
        ⟨he, b1, c', g', m', t1, t2, t3, t4, t5, t6, t7, t8, hwk, -⟩
      · have hnil : last' = p' ∧ scored' = [] := by
          have hna : ¬ p'.isAlive = true := fun hal => (alive_iff p').1 hal he
          cases k with
          | zero => rw [transportLoop, if_neg hna] at hl; cases hl; exact ⟨rfl, rfl⟩
          | succ k => rw [transportLoop, if_neg hna] at hl; cases hl; exact ⟨rfl, rfl⟩
        obtain ⟨rfl, rfl⟩ := hnil
        refine ⟨new, b1, fun b hb => (b2 b hb).2, fun hit n => ?_⟩
        rw [List.length_singleton, b3, List.map_singleton, List.sum_singleton]
        congr 2
        refine List.map_congr_left fun b hb => ?_
        unfold bornScore partScore Particle.ofBorn
        dsimp only
        rw [(b2 b hb).1]
      · obtain ⟨new, a1, a2, a3⟩ := ih hl t1 t2 t3 t4 t5 he t6 t7 t8
        refine ⟨new, by rw [a1, b1], a2, fun hit n => ?_⟩
        rw [List.length_cons, ← Nat.add_assoc, hwk, a3, List.map_cons, List.sum_cons, add_assoc]

/-- A neutron that is ready to be transported. -/
structure Ready (G : ℕ) (p : Particle) : Prop where
  type : p.type = .neutron
  group : ∃ g, p.energy = .group g ∧ 1 ≤ g ∧ g ≤ G
  rng : Rng.Valid p.rng
  alive : ¬ Ended p
  empty : p.secondaries = []

theorem ready_ofBorn {G : ℕ} {b : Born} (h1 : b.type = .neutron)
    (h2 : ∃ g, b.energy = .group g ∧ 1 ≤ g ∧ g ≤ G) : Ready G (Particle.ofBorn b) :=
  ⟨h1, h2, Rng.valid_ofSeed b.seed, by simp [Ended, Particle.ofBorn], rfl⟩

/-- Transport of a neutron of the bank. -/
theorem transport_chain {G : ℕ} {nodes : Nuclide → List MgNode} {w : World} (hw : WellPosed G nodes w)
    {method : Method} {fuel : ℕ} {p last : Particle} {scored : List Particle}
    (h : transport method fuel w p = .ok (last, scored)) (hp : Ready G p) :
    ∃ new, last.secondaries = new ∧
      (∀ b ∈ new, b.type = .neutron ∧ ∃ g, b.energy = .group g ∧ 1 ≤ g ∧ g ≤ G) ∧
      (∀ q ∈ scored, ∃ g, q.energy = .group g) ∧
      ∀ hit n, partScore G nodes w method hit (n + scored.length) p = (scored.map (scoreOf hit)).sum +
            (new.map fun b => partScore G nodes w method hit n (Particle.ofBorn b)).sum := by
  obtain ⟨ht, ⟨g, hg, h1, h2⟩, hr, ha, hs⟩ := hp
  have hl := noexcept_eq_ok.1 h
  rw [res_bind_ok] at hl
  obtain ⟨p', hp', hl⟩ := hl
  obtain ⟨c, hc, rfl⟩ := locate_ok.1 hp'
  have hcw : c ∈ w.cells := (FirstCell.mem hc).1
  have ha' : ({ p with cell := some c } : Particle).isAlive = true := (alive_iff _).2 ha
  cases hm : c.material with
  | none =>
    exfalso
    cases fuel with
    | zero =>
      unfold transportLoop at hl
      rw [if_pos ha'] at hl
      cases hl
    | succ k =>
      unfold transportLoop at hl
      rw [if_pos ha'] at hl
      have hfl : sampleFlight method { p with cell := some c } = .error .ub := by
        unfold sampleFlight Particle.getCell
        simp only [bind, Except.bind, hm]
      have hst : transportStep method (k + 1) w { p with cell := some c } = .error .ub := by
        cases method
        · change surfaceStep _ _ _ = _
          unfold surfaceStep
          rw [hfl]
          rfl
        · change deltaStep _ _ _ = _
          unfold deltaStep
          rw [hfl]
          rfl
      rw [hst] at hl
      cases hl
  | some m =>
    obtain ⟨new, e1, e2, e3⟩ := loop_chain hw (p := { p with cell := some c }) hl ht hg h1 h2 hr ha hcw
      rfl hm
    refine ⟨new, ?_, e2, ?_, fun hit n => ?_⟩
    · rw [e1]
      change p.secondaries ++ new = new
      rw [hs, List.nil_append]
    · rcases group_loop hw method fuel fuel { p with cell := some c } fun _ =>
        ⟨⟨ht, ⟨g, hg, h1, h2⟩, hr⟩, c, hcw, rfl, by rw [hm]; simp⟩ with ⟨r, r1, r2, -⟩ | r1
      · rw [hl] at r1
        cases r1
        exact r2
      · rw [hl] at r1
        cases r1
    · rw [← e3]
      unfold partScore fresh
      rw [cellAt_of_first hc, hg]
      rfl

/-- What all states score that come of a bank is what its particles score in sufficiently many
rounds. -/
theorem bank_chain {G : ℕ} {nodes : Nuclide → List MgNode} {w : World} (hw : WellPosed G nodes w)
    {method : Method} {fuel : ℕ} {qs : List Perturbation}
    (hit : SurfaceObj → Direction → ℕ → ℝ≥0∞) (k : ℕ) {bank : Bank}
    {log : List (Particle × List Particle)}
    (h : processBank (transport method fuel w) qs k bank = .ok log) (hb : ∀ p ∈ bank, Ready G p) :
    (∀ q ∈ log.flatMap Prod.snd, ∃ g, q.energy = .group g) ∧
    ∃ N, (∀ n ≥ N, (bank.map (partScore G nodes w method hit n)).sum =
        ((log.flatMap Prod.snd).map (scoreOf hit)).sum) ∧
      ∀ p ∈ bank, ∀ n ≥ N, partScore G nodes w method hit n p = partScore G nodes w method hit N p := by
  induction k generalizing bank log with
  | zero =>
    rcases List.eq_nil_or_concat' bank with rfl | ⟨front, p, rfl⟩
    · rw [processBank_nil] at h
      cases h
      exact ⟨by simp, 0, by simp, by simp⟩
    · rw [processBank_zero] at h
      cases h
  | succ k ih =>
    rcases List.eq_nil_or_concat' bank with rfl | ⟨front, p, rfl⟩
    · rw [processBank_nil] at h
      cases h
      exact ⟨by simp, 0, by simp, by simp⟩
    · rw [processBank_concat, res_bind_ok] at h
      obtain ⟨⟨last, scored⟩, hrun, h⟩ := h
      simp only [res_bind_ok] at h
      obtain ⟨rest, hrest, h⟩ := h
      simp only [Except.ok.injEq] at h
      subst h
      have hp : Ready G p := hb p (by simp)
      have hp' : Ready G (p.setPerturbations qs) := ⟨hp.1, hp.2, hp.3, hp.4, hp.5⟩
      obtain ⟨new, e1, e2, e3, e4⟩ := transport_chain hw hrun hp'
      rw [e1] at hrest
      obtain ⟨i0, N, i1, i2⟩ := ih hrest (by
        intro q hq
        rcases List.mem_append.1 hq with hq | hq
        · obtain ⟨b, hbn, rfl⟩ := List.mem_map.1 hq
          exact ready_ofBorn (e2 b hbn).1 (e2 b hbn).2
        · exact hb q (by simp [hq]))
      refine ⟨?_, ?_⟩
      · intro q hq
        rw [List.flatMap_cons] at hq
        rcases List.mem_append.1 hq with hq | hq
        · exact e3 q hq
        · exact i0 q hq
      have hscore : ∀ n ≥ N, partScore G nodes w method hit (n + scored.length) p =
          (scored.map (scoreOf hit)).sum +
            (new.map fun b => partScore G nodes w method hit N (Particle.ofBorn b)).sum := by
        intro n hn
        refine (e4 hit n).trans ?_
        congr 2
        refine List.map_congr_left fun b hbn => ?_
        exact i2 _ (List.mem_append_left _ (List.mem_map.2 ⟨b, hbn, rfl⟩)) n hn
      have hconst : ∀ n ≥ N + scored.length, partScore G nodes w method hit n p =
          partScore G nodes w method hit (N + scored.length) p := by
        intro n hn
        obtain ⟨j, rfl⟩ := Nat.exists_eq_add_of_le hn
        rw [Nat.add_right_comm, hscore _ (Nat.le_add_right _ _), hscore _ le_rfl]
      refine ⟨N + scored.length, fun n hn => ?_, ?_⟩
      · rw [List.map_append, List.sum_append, List.map_singleton, List.sum_singleton, hconst n hn,
          hscore N le_rfl, List.flatMap_cons, List.map_append, List.sum_append, ← i1 N le_rfl,
          List.map_append, List.sum_append, List.map_map]
        have hfront : (front.map (partScore G nodes w method hit n)) =
            front.map (partScore G nodes w method hit N) :=
          List.map_congr_left fun q hq => i2 q (List.mem_append_right _ hq) n (by omega)
        rw [hfront]
        change _ + (_ + List.sum (new.map _)) = _ + (List.sum (new.map _) + _)
        rw [add_left_comm, add_comm (List.sum (front.map _))]
        rfl
      · intro q hq n hn
        rcases List.mem_append.1 hq with hq | hq
        · have hm := i2 q (List.mem_append_right _ hq)
          rw [hm n (by omega), hm (N + scored.length) (by omega)]
        · rw [List.mem_singleton] at hq
          subst hq
          exact hconst n hn

end Minimc
