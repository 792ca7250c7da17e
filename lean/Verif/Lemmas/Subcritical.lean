import Verif.Lemmas.FlightsMean
import Verif.Props.Chain

/-! # Problems in which neutrons die out -/

namespace Minimc

open Classical MeasureTheory Spec Set
open scoped ENNReal

variable {σ : Type} {S : Supply σ} {G : ℕ} {nodes : Nuclide → List MgNode} {w : World} {method : Method}
  {hit : SurfaceObj → Direction → ℕ → ℝ≥0∞}

/-! ### A round is linear -/

theorem byWeight_linear (ws : List ℝ) (u : ℝ) (F F' : ℕ → ℝ≥0∞) (B : ℝ≥0∞) :
    byWeight ws u (fun i => F i + B * F' i) = byWeight ws u F + B * byWeight ws u F' := by
  unfold byWeight
  rw [Finset.mul_sum, ← Finset.sum_add_distrib]
  refine Finset.sum_congr rfl fun i _ => ?_
  split_ifs <;> simp

theorem births_linear (ws : List ℝ) (start start' : Direction → ℕ → σ → ℝ≥0∞) (B : ℝ≥0∞) (k : ℕ) (s : σ) :
    births S ws (fun d g s => start d g s + B * start' d g s) k s =
      births S ws start k s + B * births S ws start' k s := by
  induction k generalizing s with
  | zero => simp [births]
  | succ k ih =>
    unfold births
    rw [← byWeight_linear]
    congr 1
    funext j
    rw [ih]
    ring

theorem afterEvent_linear (m : Material) (g : ℕ) (next next' start start' : Direction → ℕ → σ → ℝ≥0∞)
    (B : ℝ≥0∞) (s : σ) :
    afterEvent S G nodes m g (fun d g s => next d g s + B * next' d g s)
        (fun d g s => start d g s + B * start' d g s) s =
      afterEvent S G nodes m g next start s + B * afterEvent S G nodes m g next' start' s := by
  unfold afterEvent
  rw [← byWeight_linear]
  congr 1
  funext i
  cases m.afracs[i]? with
  | none => simp
  | some e =>
    simp only [Option.elim_some]
    rw [← byWeight_linear]
    congr 1
    funext r
    split_ifs
    · rw [← byWeight_linear]
    · rw [births_linear]
    · simp

theorem oneRound_linear (next next' : Cell → Point → Direction → ℕ → σ → ℝ≥0∞) (B : ℝ≥0∞) (c : Cell)
    (x : Point) (d : Direction) (g : ℕ) (s : σ) :
    oneRound S G nodes w method hit (fun c x d g s => next c x d g s + B * next' c x d g s) c x d g s =
      oneRound S G nodes w method hit next c x d g s +
        B * oneRound S G nodes w method (fun _ _ _ => 0) next' c x d g s := by
  cases hm : c.material with
  | none =>
    unfold oneRound
    simp [hm]
  | some m =>
    rw [oneRound_some hm, oneRound_some hm, oneRound_some hm]
    split_ifs
    · unfold crossed
      cases faced c x d with
      | none => simp
      | some f =>
        cases cellAt w (beyond c x d) with
        | none => simp
        | some c' =>
          simp only [Option.elim_some, zero_add]
          ring
    · rw [← afterEvent_linear]
      congr 1
      funext d' g' s'
      unfold startAt
      cases cellAt w (along x d (-Real.log (1 - S.number s) / macroscopic G nodes g m)) with
      | none => simp
      | some c' => rfl

theorem births_nothing (ws : List ℝ) (k : ℕ) (s : σ) : births S ws (fun _ _ _ => 0) k s = 0 := by
  induction k generalizing s with
  | zero => rfl
  | succ k ih =>
    unfold births
    simp [ih, byWeight]

theorem oneRound_zero (c : Cell) (x : Point) (d : Direction) (g : ℕ) (s : σ) :
    oneRound S G nodes w method (fun _ _ _ => 0) (fun _ _ _ _ _ => 0) c x d g s = 0 := by
  cases hm : c.material with
  | none =>
    unfold oneRound
    simp [hm]
  | some m =>
    rw [oneRound_some hm]
    have hs : ∀ y, startAt w (fun (_ : Cell) (_ : Point) (_ : Direction) (_ : ℕ) (_ : σ) => (0 : ℝ≥0∞)) y =
        fun _ _ _ => 0 := by
      intro y
      funext d g s
      unfold startAt
      cases cellAt w y <;> rfl
    split_ifs
    · unfold crossed
      cases faced c x d with
      | none => rfl
      | some f => cases cellAt w (beyond c x d) <;> simp
    · rw [hs]
      unfold afterEvent
      simp only [births_nothing]
      unfold byWeight
      refine Finset.sum_eq_zero fun i _ => ?_
      have : (m.afracs[i]?.elim (0 : ℝ≥0∞) fun _ => 0) = 0 := by cases m.afracs[i]? <;> rfl
      simp [this]

theorem oneRound_mono {next next' : Cell → Point → Direction → ℕ → σ → ℝ≥0∞}
    (h : ∀ c x d g s, next c x d g s ≤ next' c x d g s) (c : Cell) (x : Point) (d : Direction) (g : ℕ)
    (s : σ) : oneRound S G nodes w method hit next c x d g s ≤
      oneRound S G nodes w method hit next' c x d g s := by
  cases hm : c.material with
  | none =>
    unfold oneRound
    simp [hm]
  | some m =>
    rw [oneRound_some hm, oneRound_some hm]
    split_ifs
    · exact crossed_mono fun c _ x => h c x d g _
    · refine afterEvent_mono (fun d g s => h c _ d g s) (fun d' g' s' => ?_) _
      unfold startAt
      cases cellAt w (along x d (-Real.log (1 - S.number s) / macroscopic G nodes g m)) with
      | none => exact le_rfl
      | some c' => exact h c' _ d' g' s'

/-! ### Flights and neutrons -/

theorem flightsMade_succ (n : ℕ) (c : Cell) (x : Point) (d : Direction) (g : ℕ) (s : σ) :
    flightsMade S G nodes w method (n + 1) c x d g s =
      flightsMade S G nodes w method n c x d g s + stillFlying S G nodes w method n c x d g s := by
  induction n generalizing c x d g s with
  | zero =>
    have h0 : flightsMade S G nodes w method 0 = fun _ _ _ _ _ => 0 := by
      funext c x d g s
      rfl
    change (if c.material = none then 0 else 1) + oneRound S G nodes w method (fun _ _ _ => 0)
      (flightsMade S G nodes w method 0) c x d g s = 0 + if c.material = none then 0 else 1
    rw [h0, oneRound_zero, add_zero, zero_add]
  | succ n ih =>
    have : flightsMade S G nodes w method (n + 1) = fun c x d g s =>
        flightsMade S G nodes w method n c x d g s + 1 * stillFlying S G nodes w method n c x d g s := by
      funext c x d g s
      rw [ih, one_mul]
    have e : oneRound S G nodes w method (fun _ _ _ => 0) (flightsMade S G nodes w method (n + 1)) c x d g s =
        oneRound S G nodes w method (fun _ _ _ => 0) (flightsMade S G nodes w method n) c x d g s +
          stillFlying S G nodes w method (n + 1) c x d g s := by
      rw [this, oneRound_linear, one_mul]
      rfl
    rw [flightsMade, e, ← add_assoc]
    rfl

theorem flightsMade_monotone (c : Cell) (x : Point) (d : Direction) (g : ℕ) (s : σ) :
    Monotone fun n => flightsMade S G nodes w method n c x d g s :=
  monotone_nat_of_le_succ fun n => by
    rw [flightsMade_succ]
    exact le_self_add

theorem flightsMade_eq (n : ℕ) (c : Cell) (x : Point) (d : Direction) (g : ℕ) (s : σ) :
    flightsMade S G nodes w method n c x d g s =
      ∑ i ∈ Finset.range n, stillFlying S G nodes w method i c x d g s := by
  induction n with
  | zero => rfl
  | succ n ih => rw [flightsMade_succ, ih, Finset.sum_range_succ]

/-- A crossing costs a flight. -/
theorem chainScore_le_flights {H : ℝ≥0∞} (hH : ∀ s d g, hit s d g ≤ H) (n : ℕ) (c : Cell) (x : Point)
    (d : Direction) (g : ℕ) (s : σ) : chainScore S G nodes w method hit n c x d g s ≤
      H * flightsMade S G nodes w method n c x d g s := by
  induction n generalizing c x d g s with
  | zero => exact zero_le
  | succ n ih =>
    rw [chainScore, flightsMade]
    refine (oneRound_mono (next' := fun c x d g s =>
      0 + H * flightsMade S G nodes w method n c x d g s) (fun c x d g s => by
        rw [zero_add]; exact ih c x d g s) c x d g s).trans ?_
    rw [oneRound_linear, mul_add]
    refine add_le_add ?_ le_rfl
    cases hm : c.material with
    | none =>
      unfold oneRound
      simp [hm]
    | some m =>
      have h0 := oneRound_zero (S := S) (G := G) (nodes := nodes) (w := w) (method := method) c x d g s
      rw [oneRound_some hm] at h0 ⊢
      rw [if_neg (Option.some_ne_none m), mul_one]
      split_ifs at h0 ⊢
      · unfold crossed
        cases faced c x d with
        | none => simp
        | some f =>
          cases cellAt w (beyond c x d) with
          | none => simp
          | some c' => simpa using hH f d g
      · rw [h0]
        exact zero_le

/-! ### One flight -/

/-- If collisions leave at most `k` neutrons on average, a flight takes the mean to at most `k` times the
largest value or to the value beyond the surface. -/
theorem flight_le (hw : WellPosed G nodes w) {k : ℝ} (hk0 : 0 ≤ k) (hk : AtMost k G nodes w)
    {E : Cell → Point → Direction → ℕ → ℝ≥0∞} {a b : ℝ≥0∞}
    (ha : ∀ c ∈ w.cells, ∀ x d g, UnitVec d → 1 ≤ g → g ≤ G → E c x d g ≤ a) {c : Cell} (hc : c ∈ w.cells)
    {x : Point} {d : Direction} {g : ℕ} (h1 : 1 ≤ g) (h2 : g ≤ G)
    (hb : ahead c x d ≠ ⊤ → crossed w hit E c x d g ≤ b) :
    transported G nodes w hit E c x d g + bred G nodes w E c x d g ≤
      max (ENNReal.ofReal k * a) b := by
  cases hm : c.material with
  | none => simp [transported, bred, hm]
  | some m =>
    have hpos : 0 < macroscopic G nodes g m :=
      mul_pos (hw.density c hc m hm) (Props.group_shares hw hc hm h1 h2)
    have hden := (hw.density c hc m hm).le
    have hfr : ∀ e ∈ m.afracs, 0 ≤ e.2 := fun e he => (hw.data c hc m hm e he).1.le
    have hN : ∀ e ∈ m.afracs, NonnegNodes (nodes e.1) := fun e he => by
      obtain ⟨_, _, _, _, hN, _⟩ := hw.data c hc m hm e he
      exact hN
    rw [transported_some hm, bred_some hm]
    have hone := lintegral_round c .surfaceTracking hpos (t := ahead c x d) (fun _ h => ahead_pos h) 1 fun _ => 1
    have hl : ∫⁻ u, (if FliesTo .surfaceTracking (ahead c x d) (-Real.log (1 - u) / macroscopic G nodes g m) then
        (1 : ℝ≥0∞) else 1) ∂uniform = 1 := by
      simp
    rw [hl] at hone
    simp only [mul_one] at hone
    rw [← mul_one (max _ _), hone, add_right_comm, mul_add]
    refine add_le_add ?_ ?_
    · have hrates : ∑ g' ∈ Finset.Icc 1 G, ENNReal.ofReal (transferRate G nodes m g g') +
          ∑ g' ∈ Finset.Icc 1 G, ENNReal.ofReal (fissionRate G nodes m g g') ≤
            ENNReal.ofReal k * ENNReal.ofReal (macroscopic G nodes g m) := by
        rw [← Finset.sum_add_distrib, Finset.sum_congr rfl fun g' _ =>
          (ENNReal.ofReal_add (transferRate_nonneg hden hfr hN g g')
            (Props.fissionRate_nonneg hden hfr hN g g')).symm,
          ← ENNReal.ofReal_sum_of_nonneg fun g' _ =>
            add_nonneg (transferRate_nonneg hden hfr hN g g') (Props.fissionRate_nonneg hden hfr hN g g'),
          ← ENNReal.ofReal_mul hk0]
        exact ENNReal.ofReal_le_ofReal (hk c hc m hm g h1 h2)
      have e1 : ∀ s, emission G nodes m g (E c (along x d s)) ≤
          (∑ g' ∈ Finset.Icc 1 G, ENNReal.ofReal (transferRate G nodes m g g')) * a := by
        intro s
        unfold emission
        rw [Finset.sum_mul]
        refine Finset.sum_le_sum fun g' hg => ?_
        rw [Finset.mem_Icc] at hg
        exact mul_le_mul_right (sphereMean_le fun d' hd' => ha c hc _ d' g' hd' hg.1 hg.2) _
      have e2 : ∀ s, fissionEmission G nodes w m g E (along x d s) ≤
          (∑ g' ∈ Finset.Icc 1 G, ENNReal.ofReal (fissionRate G nodes m g g')) * a := by
        intro s
        unfold fissionEmission
        rw [Finset.sum_mul]
        refine Finset.sum_le_sum fun g' hg => ?_
        rw [Finset.mem_Icc] at hg
        refine mul_le_mul_right (sphereMean_le fun d' hd' => ?_) _
        cases hcl : cellAt w (along x d s) with
        | none => exact zero_le
        | some c' => exact ha c' (cellAt_mem hcl) _ d' g' hd' hg.1 hg.2
      have hmeas : Measurable fun s : ℝ => ENNReal.ofReal (Real.exp (-(macroscopic G nodes g m * s))) := by
        fun_prop
      have hmeas' : Measurable fun s : ℝ => ENNReal.ofReal (macroscopic G nodes g m *
          Real.exp (-(macroscopic G nodes g m * s))) := by
        fun_prop
      rw [← lintegral_const_mul _ hmeas']
      refine (add_le_add (lintegral_mono fun s => mul_le_mul_right (e1 s) _)
        (lintegral_mono fun s => mul_le_mul_right (e2 s) _)).trans ?_
      rw [← lintegral_add_left (hmeas.mul_const _)]
      refine lintegral_mono fun s => ?_
      dsimp only
      rw [← mul_add, ← add_mul, ENNReal.ofReal_mul hpos.le]
      calc _ ≤ ENNReal.ofReal (Real.exp (-(macroscopic G nodes g m * s))) *
            (ENNReal.ofReal k * ENNReal.ofReal (macroscopic G nodes g m) * a) :=
            mul_le_mul_right (mul_le_mul_left hrates _) _
        _ = ENNReal.ofReal k * a * (ENNReal.ofReal (macroscopic G nodes g m) *
            ENNReal.ofReal (Real.exp (-(macroscopic G nodes g m * s)))) := by ring
        _ ≤ _ := mul_le_mul_left (le_max_left _ _) _
    · split_ifs with ht
      · simp
      · rw [mul_comm]
        exact mul_le_mul_left ((hb ht).trans (le_max_right _ _)) _

/-! ### Means -/

theorem measurable_flightsMade (n : ℕ) (c : Cell) (g : ℕ) :
    Measurable fun q : Point × Direction × (ℕ → ℝ) =>
      flightsMade endless G nodes w method n c q.1 q.2.1 g q.2.2 := by
  induction n generalizing c g with
  | zero => exact measurable_const
  | succ n ih => exact measurable_const.add (measurable_oneRound (fun _ _ => measurable_const) ih c g)

theorem measurable_stillFlying (n : ℕ) (c : Cell) (g : ℕ) :
    Measurable fun q : Point × Direction × (ℕ → ℝ) =>
      stillFlying endless G nodes w method n c q.1 q.2.1 g q.2.2 := by
  induction n generalizing c g with
  | zero => exact measurable_const
  | succ n ih => exact measurable_oneRound (fun _ _ => measurable_const) ih c g

theorem measurable_flightsMade_us (n : ℕ) (c : Cell) (x : Point) (d : Direction) (g : ℕ) :
    Measurable fun us => flightsMade endless G nodes w method n c x d g us :=
  (measurable_flightsMade n c g).comp (measurable_const.prodMk (measurable_const.prodMk measurable_id))

theorem measurable_stillFlying_us (n : ℕ) (c : Cell) (x : Point) (d : Direction) (g : ℕ) :
    Measurable fun us => stillFlying endless G nodes w method n c x d g us :=
  (measurable_stillFlying n c g).comp (measurable_const.prodMk (measurable_const.prodMk measurable_id))

theorem lintegral_flightsMade_succ (hw : WellPosed G nodes w) (method : Method) (n : ℕ) {c : Cell}
    (hc : c ∈ w.cells) (x : Point) (d : Direction) {g : ℕ} (h1 : 1 ≤ g) (h2 : g ≤ G) :
    ∫⁻ us, flightsMade endless G nodes w method (n + 1) c x d g us ∂uniforms =
      (if c.material = none then 0 else 1) +
        (transported G nodes w (fun _ _ _ => 0)
            (fun c x d g => ∫⁻ us, flightsMade endless G nodes w method n c x d g us ∂uniforms) c x d g +
          bred G nodes w
            (fun c x d g => ∫⁻ us, flightsMade endless G nodes w method n c x d g us ∂uniforms) c x d g) := by
  have e : ∀ us, flightsMade endless G nodes w method (n + 1) c x d g us =
      (if c.material = none then 0 else 1) + oneRound endless G nodes w method (fun _ _ _ => 0)
        (flightsMade endless G nodes w method n) c x d g us := fun _ => rfl
  simp only [e]
  rw [lintegral_add_left measurable_const, lintegral_const, measure_univ, mul_one,
    lintegral_oneRound hw method (fun c g => measurable_flightsMade n c g) hc x d h1 h2]

/-- The mean number of flights is at most the number of crossings ahead, and a constant. -/
theorem lintegral_flightsMade_le (hw : WellPosed G nodes w) {k : ℝ} (hk0 : 0 ≤ k) (hk1 : k < 1)
    (hk : AtMost k G nodes w) (method : Method) (n : ℕ) {c : Cell} (hc : c ∈ w.cells) (x : Point)
    {d : Direction} (hd : UnitVec d) {g : ℕ} (h1 : 1 ≤ g) (h2 : g ≤ G) :
    ∫⁻ us, flightsMade endless G nodes w method n c x d g us ∂uniforms ≤
      (crossingsAhead w x d : ℝ≥0∞) + 1 + ENNReal.ofReal (k * (crossable w + 1) / (1 - k)) := by
  induction n generalizing c x d g with
  | zero => simp [flightsMade]
  | succ n ih =>
    rw [lintegral_flightsMade_succ hw method n hc x d h1 h2]
    set C := ENNReal.ofReal (k * (crossable w + 1) / (1 - k)) with hC
    have hsub : 0 < 1 - k := by linarith
    have hkC : ENNReal.ofReal k * ((crossable w : ℝ≥0∞) + 1 + C) ≤ C := by
      have hcast : ((crossable w : ℝ≥0∞) + 1) = ENNReal.ofReal (crossable w + 1) := by
        rw [ENNReal.ofReal_add (Nat.cast_nonneg _) zero_le_one, ENNReal.ofReal_natCast, ENNReal.ofReal_one]
      have hc0 : (0 : ℝ) ≤ crossable w + 1 := by positivity
      rw [hcast, hC, ← ENNReal.ofReal_add hc0 (div_nonneg (mul_nonneg hk0 hc0) hsub.le),
        ← ENNReal.ofReal_mul hk0]
      refine ENNReal.ofReal_le_ofReal (le_of_eq ?_)
      field_simp
      ring
    have hflight := flight_le (hit := fun _ _ _ => 0) hw hk0 hk
      (E := fun c x d g => ∫⁻ us, flightsMade endless G nodes w method n c x d g us ∂uniforms)
      (a := (crossable w : ℝ≥0∞) + 1 + C) (b := (crossingsAhead w x d : ℝ≥0∞) + C)
      (fun c hc x d g hd h1 h2 => (ih hc x hd h1 h2).trans (by
        gcongr
        exact crossingsAhead_le w x d))
      hc h1 h2 (x := x) (d := d) fun ht => by
        unfold crossed
        cases faced c x d with
        | none => simp
        | some f =>
          cases hcl : cellAt w (beyond c x d) with
          | none => simp
          | some c' =>
            simp only [Option.elim_some, zero_add]
            refine (ih (cellAt_mem hcl) _ hd h1 h2).trans ?_
            gcongr
            exact_mod_cast crossingsAhead_beyond hc hd ht
    calc _ ≤ 1 + max (ENNReal.ofReal k * ((crossable w : ℝ≥0∞) + 1 + C))
          ((crossingsAhead w x d : ℝ≥0∞) + C) := by
          refine add_le_add ?_ hflight
          split_ifs <;> simp
      _ ≤ 1 + ((crossingsAhead w x d : ℝ≥0∞) + C) := by
          gcongr
          exact max_le (hkC.trans le_add_self) le_rfl
      _ = _ := by ring

/-- The bound in closed form. -/
theorem bound_eq {k : ℝ} (hk0 : 0 ≤ k) (hk1 : k < 1) (K : ℕ) :
    (K : ℝ≥0∞) + 1 + ENNReal.ofReal (k * (K + 1) / (1 - k)) = ENNReal.ofReal ((K + 1) / (1 - k)) := by
  have hsub : 0 < 1 - k := by linarith
  have hc0 : (0 : ℝ) ≤ K + 1 := by positivity
  have hcast : ((K : ℝ≥0∞) + 1) = ENNReal.ofReal (K + 1) := by
    rw [ENNReal.ofReal_add (Nat.cast_nonneg _) zero_le_one, ENNReal.ofReal_natCast, ENNReal.ofReal_one]
  rw [hcast, ← ENNReal.ofReal_add hc0 (div_nonneg (mul_nonneg hk0 hc0) hsub.le)]
  congr 1
  field_simp
  ring

theorem meanFlights_eq (c : Cell) (x : Point) (d : Direction) (g : ℕ) :
    meanFlights G nodes w method c x d g =
      ⨆ n, ∫⁻ us, flightsMade endless G nodes w method n c x d g us ∂uniforms := by
  unfold meanFlights
  refine lintegral_iSup (fun n => measurable_flightsMade_us n c x d g) ?_
  exact fun a b h us => flightsMade_monotone c x d g us h

end Minimc
