import Verif.Lemmas.Subcritical

/-! # The program makes the flights of the game -/

namespace Minimc

open Classical Spec Set Props
open scoped ENNReal

/-- All flights of a neutron and its descendants. -/
noncomputable def allFlights (G : ℕ) (nodes : Nuclide → List MgNode) (w : World) (method : Method)
    (c : Cell) (x : Point) (d : Direction) (g : ℕ) (s : ℕ) : ℝ≥0∞ :=
  ⨆ n, flightsMade generator G nodes w method n c x d g s

/-- All flights of a particle of the bank and its descendants. -/
noncomputable def partFlights (G : ℕ) (nodes : Nuclide → List MgNode) (w : World) (method : Method)
    (p : Particle) : ℝ≥0∞ :=
  startAt w (allFlights G nodes w method) p.position p.direction (groupOf p.energy) p.rng

variable {G : ℕ} {nodes : Nuclide → List MgNode} {w : World} {method : Method}

theorem sum_iSup {α : Type} (l : List α) {f : ℕ → α → ℝ≥0∞} (hf : ∀ a, Monotone fun n => f n a) :
    (l.map fun a => ⨆ n, f n a).sum = ⨆ n, (l.map (f n)).sum := by
  induction l with
  | nil => simp
  | cons a l ih =>
    simp only [List.map_cons, List.sum_cons]
    rw [ih, ENNReal.iSup_add_iSup_of_monotone (hf a)]
    intro m n h
    exact List.sum_le_sum fun b _ => hf b h

theorem startAt_iSup {next : ℕ → Cell → Point → Direction → ℕ → ℕ → ℝ≥0∞} (x : Point) (d : Direction)
    (g s : ℕ) : startAt w (fun c x d g s => ⨆ n, next n c x d g s) x d g s =
      ⨆ n, startAt w (next n) x d g s := by
  unfold startAt
  cases cellAt w x <;> simp

theorem monotone_startAt (x : Point) (d : Direction) (g s : ℕ) :
    Monotone fun n => startAt w (flightsMade generator G nodes w method n) x d g s := by
  unfold startAt
  cases cellAt w x with
  | none => exact monotone_const
  | some c => exact flightsMade_monotone c x d g s

theorem flightsMade_none {σ : Type} {S : Supply σ} (n : ℕ) {c : Cell} (hm : c.material = none) (x : Point)
    (d : Direction) (g : ℕ) (s : σ) : flightsMade S G nodes w method n c x d g s = 0 := by
  cases n with
  | zero => rfl
  | succ n =>
    unfold flightsMade oneRound
    simp [hm]

theorem iSup_one_add {f : ℕ → ℝ≥0∞} : ⨆ n, (1 + f n) = 1 + ⨆ n, f n := by
  rw [ENNReal.add_iSup]

theorem flightsMade_some {σ : Type} {S : Supply σ} (n : ℕ) {c : Cell} {m : Material}
    (hm : c.material = some m) (x : Point) (d : Direction) (g : ℕ) (s : σ) :
    flightsMade S G nodes w method (n + 1) c x d g s = 1 +
      oneRound S G nodes w method (fun _ _ _ => 0) (flightsMade S G nodes w method n) c x d g s := by
  rw [flightsMade, if_neg (by rw [hm]; exact Option.some_ne_none m)]

/-- A step of the program is a flight. -/
theorem step_flights (hw : WellPosed G nodes w)
    {p : Particle} {g : ℕ} (ht : p.type = .neutron) (hg : InGroup p g) (h1 : 1 ≤ g) (h2 : g ≤ G)
    (hr : Rng.Valid p.rng) {c : Cell} (hc : c ∈ w.cells) (hpc : p.cell = some c) {m : Material}
    (hm : c.material = some m) (method : Method) (fuel : ℕ) :
    ∃ p', transportStep method fuel w p = .ok p' ∧
      ((Ended p' ∧ ∃ new, p'.secondaries = p.secondaries ++ new ∧ (∀ b ∈ new, BornAt G p'.position b) ∧
          allFlights G nodes w method c p.position p.direction g p.rng =
            1 + (new.map fun b => partFlights G nodes w method (Particle.ofBorn b)).sum) ∨
        ¬ Ended p' ∧ p'.secondaries = p.secondaries ∧ ∃ c' g' m', p'.type = .neutron ∧ InGroup p' g' ∧
          1 ≤ g' ∧ g' ≤ G ∧ Rng.Valid p'.rng ∧ c' ∈ w.cells ∧ p'.cell = some c' ∧ c'.material = some m' ∧
          allFlights G nodes w method c p.position p.direction g p.rng =
            1 + allFlights G nodes w method c' p'.position p'.direction g' p'.rng) := by
  have hzero : ∀ p, scoreOf (fun _ _ _ => 0) p = 0 := by
    intro p
    unfold scoreOf
    split_ifs
    · cases p.currentSurface with
      | none => rfl
      | some s => cases p.energy <;> rfl
    · rfl
  obtain ⟨p', h, hcase⟩ := step_round hw ht hg h1 h2 hr hc hpc hm method fuel
  refine ⟨p', h, ?_⟩
  have hsucc : allFlights G nodes w method c p.position p.direction g p.rng =
      1 + ⨆ n, oneRound generator G nodes w method (fun _ _ _ => 0)
        (flightsMade generator G nodes w method n) c p.position p.direction g p.rng := by
    unfold allFlights
    rw [← (flightsMade_monotone c p.position p.direction g p.rng).iSup_nat_add 1, ← iSup_one_add]
    exact iSup_congr fun n => flightsMade_some n hm _ _ _ _
  rcases hcase with ⟨he, new, b1, b2, b3, -⟩ |
    ⟨he, b1, c', g', m', t1, t2, t3, t4, t5, t6, t7, t8, hwk, -⟩
  · refine .inl ⟨he, new, b1, b2, ?_⟩
    rw [hsucc]
    congr 1
    have e : ∀ n, oneRound generator G nodes w method (fun _ _ _ => 0)
        (flightsMade generator G nodes w method n) c p.position p.direction g p.rng =
        (new.map (bornScore (startAt w (flightsMade generator G nodes w method n) p'.position))).sum := by
      intro n
      rw [b3 _ _ fun c x d g s hm => flightsMade_none n hm x d g s, hzero, zero_add]
    simp only [e]
    rw [← sum_iSup new (f := fun n => bornScore
      (startAt w (flightsMade generator G nodes w method n) p'.position))]
    · congr 1
      refine List.map_congr_left fun b hb => ?_
      unfold bornScore partFlights allFlights Particle.ofBorn
      dsimp only
      rw [(b2 b hb).1, startAt_iSup]
    · intro b
      exact monotone_startAt _ _ _ _
  · refine .inr ⟨he, b1, c', g', m', t1, t2, t3, t4, t5, t6, t7, t8, ?_⟩
    rw [hsucc]
    congr 1
    exact iSup_congr fun n => by rw [hwk, hzero, zero_add]

/-- The loop of a neutron makes its flights, and the rest are those of the neutrons that it makes. -/
theorem loop_flights (hw : WellPosed G nodes w) (method : Method) (fuel k : ℕ) {p : Particle} {g : ℕ}
    (ht : p.type = .neutron) (hg : InGroup p g) (h1 : 1 ≤ g) (h2 : g ≤ G) (hr : Rng.Valid p.rng)
    (hp : ¬ Ended p) {c : Cell} (hc : c ∈ w.cells) (hpc : p.cell = some c) {m : Material}
    (hm : c.material = some m) :
    (transportLoop method fuel w k p = .error .fuel ∧
      (k : ℝ≥0∞) < allFlights G nodes w method c p.position p.direction g p.rng) ∨
    ∃ last scored new, transportLoop method fuel w k p = .ok (last, scored) ∧ scored ≠ [] ∧
      last.secondaries = p.secondaries ++ new ∧
      (∀ b ∈ new, b.type = .neutron ∧ ∃ g, b.energy = .group g ∧ 1 ≤ g ∧ g ≤ G) ∧
      allFlights G nodes w method c p.position p.direction g p.rng = (scored.length : ℝ≥0∞) +
        (new.map fun b => partFlights G nodes w method (Particle.ofBorn b)).sum := by
  obtain ⟨p', hs, hcase⟩ := step_flights hw ht hg h1 h2 hr hc hpc hm method fuel
  induction k generalizing p p' g c m with
  | zero =>
    left
    rw [transportLoop, if_pos ((alive_iff p).2 hp)]
    refine ⟨rfl, ?_⟩
    rcases hcase with ⟨-, new, -, -, e⟩ | ⟨-, -, c', g', m', -, -, -, -, -, -, -, -, e⟩
    · rw [e]
      simp
    · rw [e]
      simp
  | succ k ih =>
    rw [transportLoop, if_pos ((alive_iff p).2 hp), hs]
    simp only [bind, Except.bind]
    rcases hcase with ⟨he, new, b1, b2, b3⟩ |
      ⟨he, b1, c', g', m', t1, t2, t3, t4, t5, t6, t7, t8, hwk⟩
    · right
      have hna : ¬ p'.isAlive = true := fun hal => (alive_iff p').1 hal he
      have hl : transportLoop method fuel w k p' = .ok (p', []) := by
        cases k <;> rw [transportLoop, if_neg hna]
      rw [hl]
      refine ⟨p', [p'], new, rfl, by simp, b1, fun b hb => (b2 b hb).2, ?_⟩
      rw [b3]
      simp
    · obtain ⟨p'', hs', hcase'⟩ := step_flights hw t1 t2 t3 t4 t5 t6 t7 t8 method fuel
      rcases ih t1 t2 t3 t4 t5 he t6 t7 t8 p'' hs' hcase' with ⟨e1, e2⟩ |
        ⟨last, scored, new, e1, -, e3, e4, e5⟩
      · left
        rw [e1]
        refine ⟨rfl, ?_⟩
        rw [hwk, Nat.cast_succ, add_comm]
        exact ENNReal.add_lt_add_left ENNReal.one_ne_top e2
      · right
        rw [e1]
        refine ⟨last, p' :: scored, new, rfl, by simp, by rw [e3, b1], e4, ?_⟩
        rw [hwk, e5, List.length_cons, Nat.cast_succ]
        ring

/-- Transport of a particle of the bank: it fails, or runs out of fuel, or makes its flights. -/
theorem transport_flights (hw : WellPosed G nodes w) (method : Method) (fuel : ℕ) {p : Particle}
    (hp : Ready G p) :
    (∃ e, e ≠ Err.fuel ∧ transport method fuel w p = .error e) ∨
    (transport method fuel w p = .error .fuel ∧ (fuel : ℝ≥0∞) < partFlights G nodes w method p) ∨
    (transport method fuel w p = .error .fuel ∧ fuel = 0) ∨
    ∃ last scored, transport method fuel w p = .ok (last, scored) ∧ scored ≠ [] ∧
      (∀ b ∈ last.secondaries, b.type = .neutron ∧ ∃ g, b.energy = .group g ∧ 1 ≤ g ∧ g ≤ G) ∧
      partFlights G nodes w method p = (scored.length : ℝ≥0∞) +
        (last.secondaries.map fun b => partFlights G nodes w method (Particle.ofBorn b)).sum := by
  obtain ⟨ht, ⟨g, hg, h1, h2⟩, hr, ha, hs⟩ := hp
  obtain ⟨c, hcw, hin⟩ := hw.covered p.position
  cases hloc : p.locate w with
  | error e =>
    left
    have hf : ∃ e', w.findCellContaining p.position = .error e' ∧ e' = e := by
      unfold Particle.locate at hloc
      cases hfc : w.findCellContaining p.position with
      | error e' =>
        rw [hfc] at hloc
        simp only [bind, Except.bind] at hloc
        cases hloc
        exact ⟨e, rfl, rfl⟩
      | ok c =>
        rw [hfc] at hloc
        cases hloc
    obtain ⟨e', hf, rfl⟩ := hf
    have hrt : e' = .runtimeError := by
      unfold World.findCellContaining at hf
      split at hf
      · cases hf
      · cases hf
        rfl
    subst hrt
    refine ⟨.terminate, by simp, ?_⟩
    unfold transport
    rw [hloc]
    rfl
  | ok p₁ =>
    obtain ⟨c, hc, rfl⟩ := locate_ok.1 hloc
    have hcw : c ∈ w.cells := (FirstCell.mem hc).1
    have ha' : ({ p with cell := some c } : Particle).isAlive = true := (alive_iff _).2 ha
    have htr : transport method fuel w p =
        noexcept (transportLoop method fuel w fuel { p with cell := some c }) := by
      unfold transport
      rw [hloc]
      rfl
    rw [htr]
    cases hm : c.material with
    | none =>
      cases fuel with
      | zero =>
        right; right; left
        unfold transportLoop
        rw [if_pos ha']
        exact ⟨rfl, rfl⟩
      | succ k =>
        left
        refine ⟨.ub, by simp, ?_⟩
        unfold transportLoop
        rw [if_pos ha']
        have hfl : sampleFlight method { p with cell := some c } = .error .ub := by
          unfold sampleFlight Particle.getCell
          simp only [bind, Except.bind, hm]
        have hst : transportStep method (k + 1) w { p with cell := some c } = .error .ub := by
          cases method
          · change surfaceStep _ _ _ = _
            unfold surfaceStep
            rw [hfl]
            rfl
          · change deltaStep _ _ _ = _
            unfold deltaStep
            rw [hfl]
            rfl
        rw [hst]
        rfl
    | some m =>
      have hpart : partFlights G nodes w method p =
          allFlights G nodes w method c p.position p.direction g p.rng := by
        unfold partFlights startAt
        rw [cellAt_of_first hc, hg]
        rfl
      rcases loop_flights hw method fuel fuel (p := { p with cell := some c }) ht hg h1 h2 hr ha hcw rfl hm
        with ⟨e1, e2⟩ | ⟨last, scored, new, e1, e2, e3, e4, e5⟩
      · right; left
        rw [e1, hpart]
        exact ⟨rfl, e2⟩
      · right; right; right
        have hnew : last.secondaries = new := by
          rw [e3]
          change p.secondaries ++ new = new
          rw [hs, List.nil_append]
        rw [e1]
        refine ⟨last, scored, rfl, e2, by rw [hnew]; exact e4, ?_⟩
        rw [hpart, hnew]
        exact e5

/-- If the bank is worked off, the states that are scored are the flights. -/
theorem bank_flights (hw : WellPosed G nodes w) {fuel : ℕ} {qs : List Perturbation} (k : ℕ) {bank : Bank}
    {log : List (Particle × List Particle)}
    (h : processBank (transport method fuel w) qs k bank = .ok log) (hb : ∀ p ∈ bank, Ready G p) :
    (bank.map (partFlights G nodes w method)).sum = ((log.flatMap Prod.snd).length : ℝ≥0∞) := by
  induction k generalizing bank log with
  | zero =>
    rcases List.eq_nil_or_concat' bank with rfl | ⟨front, p, rfl⟩
    · rw [processBank_nil] at h
      cases h
      simp
    · rw [processBank_zero] at h
      cases h
  | succ k ih =>
    rcases List.eq_nil_or_concat' bank with rfl | ⟨front, p, rfl⟩
    · rw [processBank_nil] at h
      cases h
      simp
    · rw [processBank_concat, res_bind_ok] at h
      obtain ⟨⟨last, scored⟩, hrun, h⟩ := h
      simp only [res_bind_ok] at h
      obtain ⟨rest, hrest, h⟩ := h
      simp only [Except.ok.injEq] at h
      subst h
      have hp : Ready G p := hb p (by simp)
      have hp' : Ready G (p.setPerturbations qs) := ⟨hp.1, hp.2, hp.3, hp.4, hp.5⟩
      have hpart : partFlights G nodes w method (p.setPerturbations qs) =
        partFlights G nodes w method p := rfl
      rcases transport_flights hw method fuel hp' with ⟨e, -, e1⟩ | ⟨e1, -⟩ | ⟨e1, -⟩ |
        ⟨last', scored', e1, -, e3, e4⟩
      · rw [hrun] at e1; cases e1
      · rw [hrun] at e1; cases e1
      · rw [hrun] at e1; cases e1
      rw [hrun] at e1
      cases e1
      have := ih hrest (by
        intro q hq
        rcases List.mem_append.1 hq with hq | hq
        · obtain ⟨b, hbn, rfl⟩ := List.mem_map.1 hq
          exact ready_ofBorn (e3 b hbn).1 (e3 b hbn).2
        · exact hb q (by simp [hq]))
      rw [List.map_append, List.sum_append, List.map_map] at this
      rw [List.flatMap_cons, List.length_append, Nat.cast_add, ← this, List.map_append, List.sum_append,
        List.map_singleton, List.sum_singleton, ← hpart, e4]
      change _ + (_ + List.sum (last.secondaries.map _)) = _ + (List.sum (last.secondaries.map _) + _)
      rw [add_left_comm, add_comm (List.sum (front.map _))]
      rfl

/-- A bank with a limited number of flights is worked off in so many rounds. -/
theorem bank_ends (hw : WellPosed G nodes w) {qs : List Perturbation} (N : ℕ) {fuel k : ℕ} {bank : Bank}
    (hN : (bank.map (partFlights G nodes w method)).sum ≤ N) (hfuel : N < fuel) (hk : N < k)
    (hb : ∀ p ∈ bank, Ready G p) :
    processBank (transport method fuel w) qs k bank ≠ .error .fuel := by
  induction N generalizing bank k with
  | zero =>
    rcases List.eq_nil_or_concat' bank with rfl | ⟨front, p, rfl⟩
    · rw [processBank_nil]
      simp
    obtain ⟨k, rfl⟩ : ∃ j, k = j + 1 := ⟨k - 1, by omega⟩
    rw [processBank_concat]
    have hp : Ready G p := hb p (by simp)
    have hp' : Ready G (p.setPerturbations qs) := ⟨hp.1, hp.2, hp.3, hp.4, hp.5⟩
    have hpart : partFlights G nodes w method (p.setPerturbations qs) =
        partFlights G nodes w method p := rfl
    have h0 : partFlights G nodes w method p ≤ 0 := by
      rw [List.map_append, List.sum_append, List.map_singleton, List.sum_singleton] at hN
      exact le_add_self.trans (hN.trans (by simp))
    rcases transport_flights hw method fuel hp' with ⟨e, e0, e1⟩ | ⟨-, e1⟩ | ⟨-, e1⟩ |
        ⟨last', scored', e1, e2, e3, e4⟩
    · rw [e1]
      simpa [bind, Except.bind] using e0
    · rw [hpart] at e1
      exact absurd (e1.trans_le h0) (by simp)
    · omega
    · rw [hpart] at e4
      rw [e4] at h0
      have h1 := le_self_add.trans h0
      have : scored'.length = 0 := by
        have h2 : ((scored'.length : ℕ) : ℝ≥0∞) ≤ ((0 : ℕ) : ℝ≥0∞) := by simpa using h1
        exact Nat.le_zero.1 (Nat.cast_le.1 h2)
      exact absurd (List.length_eq_zero_iff.1 this) e2
  | succ N ih =>
    rcases List.eq_nil_or_concat' bank with rfl | ⟨front, p, rfl⟩
    · rw [processBank_nil]
      simp
    obtain ⟨k, rfl⟩ : ∃ j, k = j + 1 := ⟨k - 1, by omega⟩
    rw [processBank_concat]
    have hp : Ready G p := hb p (by simp)
    have hp' : Ready G (p.setPerturbations qs) := ⟨hp.1, hp.2, hp.3, hp.4, hp.5⟩
    have hpart : partFlights G nodes w method (p.setPerturbations qs) =
        partFlights G nodes w method p := rfl
    rw [List.map_append, List.sum_append, List.map_singleton, List.sum_singleton] at hN
    have h0 : partFlights G nodes w method p ≤ (N + 1 : ℕ) := le_add_self.trans hN
    rcases transport_flights hw method fuel hp' with ⟨e, e0, e1⟩ | ⟨-, e1⟩ | ⟨-, e1⟩ |
        ⟨last', scored', e1, e2, e3, e4⟩
    · rw [e1]
      simpa [bind, Except.bind] using e0
    · rw [hpart] at e1
      have : ((fuel : ℕ) : ℝ≥0∞) < ((N + 1 : ℕ) : ℝ≥0∞) := e1.trans_le h0
      have := Nat.cast_lt.1 this
      omega
    · omega
    · rw [e1]
      simp only [bind, Except.bind]
      have hrest := ih (k := k)
        (bank := Bank.append front (last'.secondaries.map Particle.ofBorn)) (by
          have hlen : (1 : ℝ≥0∞) ≤ scored'.length := by
            have : 1 ≤ scored'.length := List.length_pos_iff.2 e2
            exact_mod_cast this
          rw [hpart] at e4
          rw [e4, Nat.cast_succ] at hN
          have hmap : ((Bank.append front (last'.secondaries.map Particle.ofBorn)).map
              (partFlights G nodes w method)).sum =
              (front.map (partFlights G nodes w method)).sum + (last'.secondaries.map fun b =>
                partFlights G nodes w method (Particle.ofBorn b)).sum := by
            unfold Bank.append
            rw [List.map_append, List.sum_append, List.map_map, add_comm]
            rfl
          rw [hmap]
          refine (ENNReal.add_le_add_iff_right ENNReal.one_ne_top).1 (le_trans ?_ hN)
          rw [add_assoc]
          refine add_le_add le_rfl ?_
          rw [add_comm]
          exact add_le_add hlen le_rfl) (by omega) (by omega) (by
        intro q hq
        rcases List.mem_append.1 hq with hq | hq
        · obtain ⟨b, hbn, rfl⟩ := List.mem_map.1 hq
          exact ready_ofBorn (e3 b hbn).1 (e3 b hbn).2
        · exact hb q (by simp [hq]))
      intro herr
      apply hrest
      split at herr
      · next heq =>
        cases herr
        exact heq
      · cases herr

end Minimc
