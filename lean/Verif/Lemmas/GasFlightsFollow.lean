import Verif.Lemmas.GasSubcritical
import Verif.Lemmas.GasFollows
import Verif.Lemmas.FlightsFollow

/-! # The program makes the flights of the game in a gas -/

namespace Minimc

open Classical Spec Set Props
open scoped ENNReal

/-- All flights of a neutron and its descendants. -/
noncomputable def allGasFlights (data : Nuclide → Continuous) (w : World) (method : Method)
    (c : Cell) (x : Point) (d : Direction) (e : ℝ) (s : ℕ) : ℝ≥0∞ :=
  ⨆ n, gasFlights generator sideAxis upAxis data w method n c x d e s

/-- All flights of a particle of the bank and its descendants. -/
noncomputable def partGasFlights (data : Nuclide → Continuous) (w : World) (method : Method)
    (p : Particle) : ℝ≥0∞ :=
  freshIn w (allGasFlights data w method) p.position p.direction (energyOf p.energy) p.rng

variable {data : Nuclide → Continuous} {w : World} {method : Method}

theorem freshIn_iSup {next : ℕ → Cell → Point → Direction → ℝ → ℕ → ℝ≥0∞} (x : Point) (d : Direction)
    (e : ℝ) (s : ℕ) : freshIn w (fun c x d e s => ⨆ n, next n c x d e s) x d e s =
      ⨆ n, freshIn w (next n) x d e s := by
  unfold freshIn
  cases cellAt w x <;> simp

theorem monotone_freshIn (x : Point) (d : Direction) (e : ℝ) (s : ℕ) :
    Monotone fun n => freshIn w (gasFlights generator sideAxis upAxis data w method n) x d e s := by
  unfold freshIn
  cases cellAt w x with
  | none => exact monotone_const
  | some c => exact gasFlights_monotone c x d e s

/-- A step of the program is a flight. -/
theorem step_gasFlights (hw : GasWorld data w) {p p' : Particle} {e : ℝ}
    (hn : EnergyNeutron p) (he : p.energy = .continuous e) {c : Cell} (hc : c ∈ w.cells)
    (hpc : p.cell = some c) {m : Material} (hm : c.material = some m) {fuel : ℕ}
    (h : transportStep method fuel w p = .ok p') :
    (Ended p' ∧ ∃ new, p'.secondaries = p.secondaries ++ new ∧ (∀ b ∈ new, BornMoving b) ∧
        allGasFlights data w method c p.position p.direction e p.rng =
          1 + (new.map fun b => partGasFlights data w method (Particle.ofBorn b)).sum) ∨
      ¬ Ended p' ∧ p'.secondaries = p.secondaries ∧ EnergyNeutron p' ∧ ∃ c' e' m',
        p'.energy = .continuous e' ∧ c' ∈ w.cells ∧ p'.cell = some c' ∧ c'.material = some m' ∧
        allGasFlights data w method c p.position p.direction e p.rng =
          1 + allGasFlights data w method c' p'.position p'.direction e' p'.rng := by
  have hzero : ∀ p, energyScoreOf (fun _ _ _ => 0) p = 0 := by
    intro p
    unfold energyScoreOf
    split_ifs
    · cases p.currentSurface with
      | none => rfl
      | some s => cases p.energy <;> rfl
    · rfl
  have hsucc : allGasFlights data w method c p.position p.direction e p.rng =
      1 + ⨆ n, gasRound generator sideAxis upAxis data w method (fun _ _ _ => 0)
        (gasFlights generator sideAxis upAxis data w method n) c p.position p.direction e p.rng := by
    unfold allGasFlights
    rw [← (gasFlights_monotone c p.position p.direction e p.rng).iSup_nat_add 1, ← iSup_one_add]
    exact iSup_congr fun n => gasFlights_some n hm _ _ _ _
  rcases step_gasRound hw hn he hc hpc hm h with ⟨hend, b0, new, b1, b2, b3⟩ |
    ⟨hend, b1, t1, c', e', m', t2, t3, t4, t5, hwk⟩
  · obtain ⟨-, ⟨e1, he1, he0⟩, -, -⟩ := hn
    rw [he] at he1
    cases he1
    refine .inl ⟨hend, new, b1,
      fun b hb => ⟨(b2 b hb).2.1, (b2 b hb).2.2.2, e, (b2 b hb).2.2.1, he0⟩, ?_⟩
    rw [hsucc]
    congr 1
    have e : ∀ n, gasRound generator sideAxis upAxis data w method (fun _ _ _ => 0)
        (gasFlights generator sideAxis upAxis data w method n) c p.position p.direction e p.rng =
        (new.map (gasBornScore (freshIn w (gasFlights generator sideAxis upAxis data w method n)
          p'.position) e)).sum := by
      intro n
      rw [b3 _ _ fun c x d e s hm => gasFlights_none n hm x d e s, hzero, zero_add]
    simp only [e]
    rw [← sum_iSup new (f := fun n => gasBornScore
      (freshIn w (gasFlights generator sideAxis upAxis data w method n) p'.position) _)]
    · congr 1
      refine List.map_congr_left fun b hb => ?_
      unfold gasBornScore partGasFlights allGasFlights Particle.ofBorn
      dsimp only
      rw [(b2 b hb).1, (b2 b hb).2.2.1, freshIn_iSup]
      rfl
    · intro b
      exact monotone_freshIn _ _ _ _
  · refine .inr ⟨hend, b1, t1, c', e', m', t2, t3, t4, t5, ?_⟩
    rw [hsucc]
    congr 1
    exact iSup_congr fun n => by rw [hwk, hzero, zero_add]

/-- The loop of a neutron makes its flights, and the rest are those of the neutrons that it makes. -/
theorem loop_gasFlights (hw : GasWorld data w) {fuel k : ℕ} {p last : Particle} {scored : List Particle}
    (h : transportLoop method fuel w k p = .ok (last, scored)) {e : ℝ} (hn : EnergyNeutron p)
    (he : p.energy = .continuous e) (hp : ¬ Ended p) {c : Cell} (hc : c ∈ w.cells) (hpc : p.cell = some c)
    {m : Material} (hm : c.material = some m) :
    ∃ new, last.secondaries = p.secondaries ++ new ∧ (∀ b ∈ new, BornMoving b) ∧
      allGasFlights data w method c p.position p.direction e p.rng = (scored.length : ℝ≥0∞) +
        (new.map fun b => partGasFlights data w method (Particle.ofBorn b)).sum := by
  induction k generalizing p scored e c m with
  | zero =>
    unfold transportLoop at h
    rw [if_pos ((alive_iff p).2 hp)] at h
    cases h
  | succ k ih =>
    unfold transportLoop at h
    rw [if_pos ((alive_iff p).2 hp)] at h
    simp only [bind, Except.bind] at h
    cases hs : transportStep method fuel w p with
    | error e => rw [hs] at h; cases h
    | ok p' =>
      rw [hs] at h
      dsimp only at h
      have hcase := step_gasFlights hw hn he hc hpc hm hs
      cases hl : transportLoop method fuel w k p' with
      | error e => rw [hl] at h; cases h
      | ok r =>
        obtain ⟨last', scored'⟩ := r
        rw [hl] at h
        simp only [Except.ok.injEq, Prod.mk.injEq] at h
        obtain ⟨rfl, rfl⟩ := h
        rcases hcase with ⟨hend, new, b1, b2, b3⟩ | ⟨hend, b1, t1, c', e', m', t2, t3, t4, t5, hwk⟩
        · have hnil : last' = p' ∧ scored' = [] := by
            have hna : ¬ p'.isAlive = true := fun hal => (alive_iff p').1 hal hend
            cases k with
            | zero => rw [transportLoop, if_neg hna] at hl; cases hl; exact ⟨rfl, rfl⟩
            | succ k => rw [transportLoop, if_neg hna] at hl; cases hl; exact ⟨rfl, rfl⟩
          obtain ⟨rfl, rfl⟩ := hnil
          refine ⟨new, b1, b2, ?_⟩
          rw [b3]
          simp
        · obtain ⟨new, a1, a2, a3⟩ := ih hl t1 t2 hend t3 t4 t5
          refine ⟨new, by rw [a1, b1], a2, ?_⟩
          rw [hwk, a3, List.length_cons, Nat.cast_succ]
          ring

/-- Transport of a neutron of the bank. -/
theorem transport_gasFlights (hw : GasWorld data w) {fuel : ℕ} {p last : Particle}
    {scored : List Particle} (h : transport method fuel w p = .ok (last, scored)) (hp : GasReady p) :
    (∀ b ∈ last.secondaries, BornMoving b) ∧
      partGasFlights data w method p = (scored.length : ℝ≥0∞) +
        (last.secondaries.map fun b => partGasFlights data w method (Particle.ofBorn b)).sum := by
  obtain ⟨hn, ha, hs⟩ := hp
  obtain ⟨hty, ⟨e, he, he0⟩, hr, hu⟩ := hn
  have hl := noexcept_eq_ok.1 h
  rw [res_bind_ok] at hl
  obtain ⟨p', hp', hl⟩ := hl
  obtain ⟨c, hc, rfl⟩ := locate_ok.1 hp'
  have hcw : c ∈ w.cells := (FirstCell.mem hc).1
  have ha' : ({ p with cell := some c } : Particle).isAlive = true := (alive_iff _).2 ha
  cases hm : c.material with
  | none =>
    exfalso
    cases fuel with
    | zero =>
      unfold transportLoop at hl
      rw [if_pos ha'] at hl
      cases hl
    | succ k =>
      unfold transportLoop at hl
      rw [if_pos ha'] at hl
      have hfl : sampleFlight method { p with cell := some c } = .error .ub := by
        unfold sampleFlight Particle.getCell
        simp only [bind, Except.bind, hm]
      have hst : transportStep method (k + 1) w { p with cell := some c } = .error .ub := by
        cases method
        · change surfaceStep _ _ _ = _
          unfold surfaceStep
          rw [hfl]
          rfl
        · change deltaStep _ _ _ = _
          unfold deltaStep
          rw [hfl]
          rfl
      rw [hst] at hl
      cases hl
  | some m =>
    obtain ⟨new, e1, e2, e3⟩ := loop_gasFlights hw (p := { p with cell := some c }) hl
      ⟨hty, ⟨e, he, he0⟩, hr, hu⟩ he ha hcw rfl hm
    have hnew : last.secondaries = new := by
      rw [e1]
      change p.secondaries ++ new = new
      rw [hs, List.nil_append]
    rw [hnew]
    refine ⟨e2, ?_⟩
    rw [← e3]
    unfold partGasFlights freshIn
    rw [cellAt_of_first hc, he]
    rfl

/-- If the bank is worked off, the states that are scored are the flights. -/
theorem bank_gasFlights (hw : GasWorld data w) {fuel : ℕ} {qs : List Perturbation} (k : ℕ) {bank : Bank}
    {log : List (Particle × List Particle)}
    (h : processBank (transport method fuel w) qs k bank = .ok log) (hb : ∀ p ∈ bank, GasReady p) :
    (bank.map (partGasFlights data w method)).sum = ((log.flatMap Prod.snd).length : ℝ≥0∞) := by
  induction k generalizing bank log with
  | zero =>
    rcases List.eq_nil_or_concat' bank with rfl | ⟨front, p, rfl⟩
    · rw [processBank_nil] at h
      cases h
      simp
    · rw [processBank_zero] at h
      cases h
  | succ k ih =>
    rcases List.eq_nil_or_concat' bank with rfl | ⟨front, p, rfl⟩
    · rw [processBank_nil] at h
      cases h
      simp
    · rw [processBank_concat, res_bind_ok] at h
      obtain ⟨⟨last, scored⟩, hrun, h⟩ := h
      simp only [res_bind_ok] at h
      obtain ⟨rest, hrest, h⟩ := h
      simp only [Except.ok.injEq] at h
      subst h
      have hp : GasReady p := hb p (by simp)
      have hp' : GasReady (p.setPerturbations qs) :=
        ⟨⟨hp.1.1, hp.1.2, hp.1.3, hp.1.4⟩, hp.2, hp.3⟩
      have hpart : partGasFlights data w method (p.setPerturbations qs) =
        partGasFlights data w method p := rfl
      obtain ⟨e3, e4⟩ := transport_gasFlights hw hrun hp'
      have := ih hrest (by
        intro q hq
        rcases List.mem_append.1 hq with hq | hq
        · obtain ⟨b, hbn, rfl⟩ := List.mem_map.1 hq
          exact gasReady_ofBorn (e3 b hbn)
        · exact hb q (by simp [hq]))
      rw [List.map_append, List.sum_append, List.map_map] at this
      rw [List.flatMap_cons, List.length_append, Nat.cast_add, ← this, List.map_append, List.sum_append,
        List.map_singleton, List.sum_singleton, ← hpart, e4]
      change _ + (_ + List.sum (last.secondaries.map _)) = _ + (List.sum (last.secondaries.map _) + _)
      rw [add_left_comm, add_comm (List.sum (front.map _))]
      rfl

end Minimc
