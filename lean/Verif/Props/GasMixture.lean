import Verif.Lemmas.GasMixture
import Verif.Props.GasTransport
import Verif.Props.Mixture

/-!
# Properties: how the data of gases are written down (C104)

In a problem with gases and continuous energies the values of the tables count, not their entries.  If points
are added to tables that change no value, if a nuclide is divided into several ones with the same data, if
fractions are multiplied by a factor and the density is divided by it, or if names are others, then the same
seed gives the same results.
-/

namespace Minimc.Props

open Classical Spec MeasureTheory ProbabilityTheory
open scoped ENNReal

/-! ### Tables with the same values -/

theorem tabled_tail (p q : ℝ × ℝ) {l l' : List (ℝ × ℝ)} {e : ℝ}
    (h : tabled (q :: l) e = tabled (q :: l') e) : tabled (p :: q :: l) e = tabled (p :: q :: l') e := by
  change (if e ≤ p.1 then p.2 else if e ≤ q.1 then line p q e else tabled (q :: l) e) =
    if e ≤ p.1 then p.2 else if e ≤ q.1 then line p q e else tabled (q :: l') e
  rw [h]

theorem tabled_refined (l r : List (ℝ × ℝ)) {a b : ℝ × ℝ} {x : ℝ} (h1 : a.1 < x) (h2 : x < b.1) (e : ℝ) :
    tabled (l ++ a :: (x, line a b x) :: b :: r) e = tabled (l ++ a :: b :: r) e := by
  induction l with
  | nil =>
    have hab : b.1 - a.1 ≠ 0 := by linarith
    have hax : x - a.1 ≠ 0 := by linarith
    have hxb : b.1 - x ≠ 0 := by linarith
    simp only [List.nil_append, tabled]
    by_cases ha : e ≤ a.1
    · rw [if_pos ha, if_pos ha]
    · rw [if_neg ha, if_neg ha]
      by_cases hx : e ≤ x
      · rw [if_pos hx, if_pos (hx.trans h2.le)]
        unfold line
        dsimp only
        field_simp
        ring
      · rw [if_neg hx, if_neg hx]
        by_cases hb : e ≤ b.1
        · rw [if_pos hb, if_pos hb]
          unfold line
          dsimp only
          field_simp
          ring
        · rw [if_neg hb, if_neg hb]
  | cons p l ih =>
    cases l with
    | nil => exact tabled_tail p a ih
    | cons q l => exact tabled_tail p q ih

/-- **C104** A point on the straight line between two neighbours in a table changes no value of the table. -/
theorem C104_point_between (l r : ContinuousMap) {a b : ℝ × ℝ} {x : ℝ} (hs : Sorted (l ++ a :: b :: r))
    (h1 : a.1 < x) (h2 : x < b.1) :
    Sorted (l ++ a :: (x, line a b x) :: b :: r) ∧
      ∀ e, ContinuousMap.at' (l ++ a :: (x, line a b x) :: b :: r) e = ContinuousMap.at' (l ++ a :: b :: r) e := by
  have hs' : Sorted (l ++ a :: (x, line a b x) :: b :: r) := by
    unfold Sorted at hs ⊢
    rw [List.pairwise_append] at hs ⊢
    obtain ⟨p1, p2, p3⟩ := hs
    rw [List.pairwise_cons, List.pairwise_cons] at p2
    obtain ⟨p4, p5, p6⟩ := p2
    refine ⟨p1, List.pairwise_cons.2 ⟨?_, List.pairwise_cons.2 ⟨?_, List.pairwise_cons.2 ⟨p5, p6⟩⟩⟩, ?_⟩
    · intro q hq
      rcases List.mem_cons.1 hq with rfl | hq
      · exact h1
      · exact p4 q hq
    · intro q hq
      rcases List.mem_cons.1 hq with rfl | hq
      · exact h2
      · exact h2.trans (p5 q hq)
    · intro p hp q hq
      rcases List.mem_cons.1 hq with rfl | hq
      · exact p3 p hp _ (by simp)
      · rcases List.mem_cons.1 hq with rfl | hq
        · exact (p3 p hp a (by simp)).trans h1
        · exact p3 p hp q (List.mem_cons_of_mem _ hq)
  refine ⟨hs', fun e => ?_⟩
  rw [at_tabled hs' (by simp), at_tabled hs (by simp), tabled_refined l r h1 h2]

theorem tabled_before (r : List (ℝ × ℝ)) {a : ℝ × ℝ} {x : ℝ} (h : x < a.1) (e : ℝ) :
    tabled ((x, a.2) :: a :: r) e = tabled (a :: r) e := by
  have hline : line (x, a.2) a e = a.2 := by
    unfold line
    have : a.1 - x ≠ 0 := by linarith
    dsimp only
    field_simp
    ring
  rw [tabled, hline]
  dsimp only
  by_cases hx : e ≤ a.1
  · have : tabled (a :: r) e = a.2 := by
      cases r with
      | nil => rfl
      | cons b r => rw [tabled, if_pos hx]
    rw [this, if_pos hx, ite_self]
  · rw [if_neg hx, if_neg (fun k => hx (k.trans h.le))]

theorem tabled_after (l : List (ℝ × ℝ)) {a : ℝ × ℝ} {x : ℝ} (h : a.1 < x) (e : ℝ) :
    tabled (l ++ [a, (x, a.2)]) e = tabled (l ++ [a]) e := by
  induction l with
  | nil =>
    have hline : line a (x, a.2) e = a.2 := by
      unfold line
      have : x - a.1 ≠ 0 := by linarith
      dsimp only
      field_simp
      ring
    simp only [List.nil_append, tabled, hline, ite_self]
  | cons p l ih =>
    cases l with
    | nil => exact tabled_tail p a ih
    | cons q l => exact tabled_tail p q ih

/-- **C104** A point before the first one or after the last one with the same value changes no value of the
table. -/
theorem C104_point_outside (l r : ContinuousMap) {a : ℝ × ℝ} :
    (Sorted (a :: r) → ∀ x < a.1, Sorted ((x, a.2) :: a :: r) ∧
      ∀ e, ContinuousMap.at' ((x, a.2) :: a :: r) e = ContinuousMap.at' (a :: r) e) ∧
    (Sorted (l ++ [a]) → ∀ x, a.1 < x → Sorted (l ++ [a, (x, a.2)]) ∧
      ∀ e, ContinuousMap.at' (l ++ [a, (x, a.2)]) e = ContinuousMap.at' (l ++ [a]) e) := by
  constructor
  · intro hs x hx
    have hs' : Sorted ((x, a.2) :: a :: r) := by
      refine List.pairwise_cons.2 ⟨fun q hq => ?_, hs⟩
      rcases List.mem_cons.1 hq with rfl | hq
      · exact hx
      · exact hx.trans ((List.pairwise_cons.1 hs).1 q hq)
    refine ⟨hs', fun e => ?_⟩
    rw [at_tabled hs' (by simp), at_tabled hs (by simp), tabled_before r hx]
  · intro hs x hx
    have hs' : Sorted (l ++ [a, (x, a.2)]) := by
      unfold Sorted at hs ⊢
      rw [List.pairwise_append] at hs ⊢
      obtain ⟨p1, p2, p3⟩ := hs
      refine ⟨p1, by simp [hx], fun p hp q hq => ?_⟩
      rcases List.mem_cons.1 hq with rfl | hq
      · exact p3 p hp _ (by simp)
      · rw [List.mem_singleton.1 hq]
        exact (p3 p hp a (by simp)).trans hx
    refine ⟨hs', fun e => ?_⟩
    rw [at_tabled hs' (by simp), at_tabled hs (by simp), tabled_after l hx]

/-- Tables with the same values at all positive energies. -/
def SameTable (l l' : ContinuousMap) : Prop := ∀ e, 0 < e → l'.at' e = l.at' e

theorem sameTable_tabled {l l' : ContinuousMap} (hs : Sorted l) (hs' : Sorted l') (hne : l ≠ [])
    (hne' : l' ≠ []) (h : SameTable l l') {e : ℝ} (he : 0 < e) : tabled l' e = tabled l e := by
  have := h e he
  rw [at_tabled hs hne, at_tabled hs' hne'] at this
  exact Except.ok.inj this

/-- **C104** Reactions whose tables have the same values do the same.  The temperature of the evaluation
only counts for scattering, and only if it is not at least as high as that of the gas, up to one percent. -/
theorem C104_reactions {t : ℝ} {ev ev' : ContinuousEvaluation} (hs : Sorted ev.xs) (hs' : Sorted ev'.xs)
    (hne : ev.xs ≠ []) (hne' : ev'.xs ≠ []) (h : SameTable ev.xs ev'.xs) :
    SameReaction t (.capture ev) (.capture ev') ∧
    (∀ tsl tsl' A, ev'.temperature = ev.temperature ∨ (t < 1.01 * ev.temperature ∧ t < 1.01 * ev'.temperature) →
      SameReaction t (.scatter ev tsl A) (.scatter ev' tsl' A)) ∧
    ∀ l l', Sorted l → Sorted l' → l ≠ [] → l' ≠ [] → SameTable l l' →
      SameReaction t (.fission ev (some l)) (.fission ev' (some l')) := by
  have key : ∀ e, 0 < e → tabled ev'.xs e = tabled ev.xs e := fun e he => sameTable_tabled hs hs' hne hne' h he
  refine ⟨⟨key, trivial⟩, fun tsl tsl' A ht => ⟨fun e he => ?_, rfl⟩,
    fun l l' k1 k2 k3 k4 k5 => ⟨key, fun e he => ?_⟩⟩
  · simp only [reactionXS]
    rw [key e he]
    rcases ht with ht | ⟨h1, h2⟩
    · rw [ht]
    · rw [if_neg fun k => absurd k.1 (not_le.2 h2), if_neg fun k => absurd k.1 (not_le.2 h1)]
  · simp only [yieldAt, Option.elim_some]
    exact sameTable_tabled k1 k2 k3 k4 k5 he

/-! ### The same results -/

variable {data data' : Nuclide → Continuous}

theorem sameGas_firstCell {w w' : World} (h : SameGases data data' w w') {x : Point} {c c' : Cell}
    (hc : FirstCell w x c) (hc' : FirstCell w' x c') : SameGasCell data data' c c' := by
  rcases sameGas_cellAt h x with ⟨h1, -⟩ | ⟨a, a', h1, h2, ha⟩
  · rw [cellAt_of_first hc] at h1
    cases h1
  · rw [cellAt_of_first hc] at h1
    rw [cellAt_of_first hc'] at h2
    cases h1
    cases h2
    exact ha

theorem sameGas_source {w w' : World} (h : SameGases data data' w w') {s : Source}
    (hs : EnergySource w s) : EnergySource w' s := by
  refine ⟨hs.type, hs.energy, ?_⟩
  obtain ⟨c, hc, hm⟩ := hs.place
  rcases sameGas_cellAt h s.position with ⟨h1, -⟩ | ⟨a, a', h1, h2, ha⟩
  · rw [cellAt_of_first hc] at h1
    cases h1
  · rw [cellAt_of_first hc] at h1
    cases h1
    unfold cellAt at h2
    obtain ⟨hin, l, r, e, hl⟩ := List.find?_eq_some_iff_append.1 h2
    refine ⟨a', ⟨l, r, e, by simpa using hin, fun b hb => by simpa using hl b hb⟩, fun hn => hm ?_⟩
    rcases ha.matter.material with ⟨k, -⟩ | ⟨m, m', _, k, _⟩
    · exact k
    · rw [hn] at k
      cases k

/-- **C104** If the gases are the same and only written down in another way, a history crosses every surface
as often as before, in every bin. -/
theorem C104_history {P P' : Problem} (hP : SameTask P P') (hw : GasWorld data P.world)
    (hw' : GasWorld data' P'.world) (h : SameGases data data' P.world P'.world)
    (hs : EnergySource P.world P.source) (hd : Configured P.source.direction) {fuel fuel' e : ℕ}
    {states states' : List Particle} (hh : P.history fuel e = .ok states)
    (hh' : P'.history fuel' e = .ok states') (surface : SurfaceObj) (bins : ParticleBins) (i : ℕ) :
    crossings surface bins states' i = crossings surface bins states i := by
  obtain ⟨ax, bx, -, hist⟩ := C81_history
  have hs' : EnergySource P'.world P'.source := hP.source ▸ sameGas_source h hs
  obtain ⟨b, c, g, h1, h2, h3, h4⟩ := hist hw hs hd hh surface bins i
  obtain ⟨b', c', g', h1', h2', h3', h4'⟩ := hist hw' hs' (hP.source ▸ hd) hh' surface bins i
  obtain ⟨g₀, hg, hg0⟩ := hs.energy
  rw [hg] at h3
  cases h3
  rw [hP.source] at h1' h2' h3' h4'
  rw [hP.seed, h1] at h1'
  cases h1'
  rw [hg] at h3'
  cases h3'
  have hcc := sameGas_firstCell h h2 h2'
  have key : (crossings surface bins states' i : ℝ≥0∞) = crossings surface bins states i := by
    rw [h4, h4', hP.method]
    exact iSup_congr fun n => divided_gasScore generator hw h P.method _ n
      (cellAt_mem (cellAt_of_first h2)) hcc _ _ hg0 _
  exact_mod_cast key

/-- **C104** If the gases are the same and only written down in another way, whatever the names, the numbers
of threads and the schedules, then runs with the same seed print the same means and standard deviations. -/
theorem C104_result {P P' : Problem} (hP : SameTask P P') (hw : GasWorld data P.world)
    (hw' : GasWorld data' P'.world) (h : SameGases data data' P.world P'.world)
    (hs : EnergySource P.world P.source) (hd : Configured P.source.direction) (hinit : FreshSet P.init)
    (ht : 1 ≤ P.threads) (ht' : 1 ≤ P'.threads) (hb : 1 ≤ P.batchsize) {fuel fuel' elapsed elapsed' : ℕ}
    {r r' : EstimatorSet} (hr : SolveResult P fuel 0 r elapsed) (hr' : SolveResult P' fuel' 0 r' elapsed') :
    List.Forall₂ (fun o o' : Estimator => o'.base.name = o.base.name ∧
      o'.base.means P.batchsize = o.base.means P.batchsize ∧
      o'.base.stdDevs P.batchsize = o.base.stdDevs P.batchsize) r.estimators r'.estimators :=
  printed_alike hP (fun hh hh' surface bins i => C104_history hP hw hw' h hs hd hh hh' surface bins i) hinit
    ht ht' hb hr hr'

end Minimc.Props
