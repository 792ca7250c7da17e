import Verif.Lemmas.GasAlike
import Verif.Lemmas.Mixture
import Verif.Spec.GasMixture

/-! # The same gases, written in another way -/

namespace Minimc

open Classical Spec MeasureTheory
open scoped ENNReal

variable {σ : Type} {S : Supply σ} {a b : Direction → Direction} {data data' : Nuclide → Continuous}
  {t e : ℝ} {d : Direction}

/-! ### Reactions -/

theorem gasScattered_congr {next next' : Direction → ℝ → σ → ℝ≥0∞}
    (h : ∀ d e s, 0 < e → next d e s = next' d e s) (A β : ℝ) (d : Direction) (speed : ℝ) (n : ℕ) (s : σ) :
    gasScattered S a b A β d speed next n s = gasScattered S a b A β d speed next' n s := by
  induction n generalizing s with
  | zero => rfl
  | succ n ih =>
    rw [gasScattered, gasScattered]
    generalize proposal (β * speed) (S.numbers s) = q
    obtain ⟨x, μ, k⟩ := q
    dsimp only
    rw [ih]
    have hz : 0 ≤ (departure a b A neutronMass d speed (x / β) μ
        (S.numbers (S.rest^[k + 1] s))).2 := by
      unfold departure
      have : 0 < neutronMass := Props.neutronMass_pos
      have hn : ∀ v : Point, 0 ≤ normSq v := fun v => by
        unfold normSq
        positivity
      exact div_nonneg (mul_nonneg this.le (hn _)) (by norm_num)
    split_ifs with h1 h2
    · rfl
    · exact h _ _ _ (lt_of_le_of_ne hz (Ne.symm h2))
    · rfl

theorem gasBirths_congr {start start' : Direction → σ → ℝ≥0∞} (h : ∀ d s, start d s = start' d s)
    (k : ℕ) (s : σ) : gasBirths S start k s = gasBirths S start' k s := by
  have : start = start' := funext fun d => funext fun s => h d s
  rw [this]

theorem equal_afterReaction {r r' : ContinuousReaction} (h : SameReaction t r r') (he : 0 < e)
    {next next' start start' : Direction → ℝ → σ → ℝ≥0∞}
    (hn : ∀ d e s, 0 < e → next' d e s = next d e s) (hst : ∀ d e s, 0 < e → start' d e s = start d e s)
    (s : σ) :
    afterReaction S a b t d e next' start' s r' = afterReaction S a b t d e next start s r := by
  obtain ⟨-, h⟩ := h
  cases r <;> cases r' <;> simp only at h
  · rfl
  · subst h
    simp only [afterReaction]
    exact iSup_congr fun n => gasScattered_congr hn _ _ _ _ n s
  · simp only [afterReaction]
    rw [h e he]
    exact gasBirths_congr (fun d s => hst d e s he) _ _

theorem same_reactions {l l' : List ContinuousReaction} (h : List.Forall₂ (SameReaction t) l l')
    (he : 0 < e) : l'.map (reactionXS t e) = l.map (reactionXS t e) := by
  induction h with
  | nil => rfl
  | cons hr _ ih => rw [List.map_cons, List.map_cons, ih, hr.1 e he]

theorem same_nuclideXS {x x' : Continuous} (h : SameData t x x') (he : 0 < e) :
    nuclideXS x' t e = nuclideXS x t e := by
  unfold nuclideXS
  rw [same_reactions h he]

/-- What happens after a nuclide with the given data is chosen. -/
noncomputable def gasOn (S : Supply σ) (a b : Direction → Direction) (x : Continuous) (t : ℝ) (d : Direction)
    (e : ℝ) (next start : Direction → ℝ → σ → ℝ≥0∞) (s : σ) : ℝ≥0∞ :=
  byWeight (x.reactions.map (reactionXS t e)) (S.numbers s 1) fun j =>
    x.reactions[j]?.elim 0 (afterReaction S a b t d e next start (S.rest^[2] s))

theorem afterGas_gasOn (m : Material) (next start : Direction → ℝ → σ → ℝ≥0∞) (s : σ) :
    afterGas S a b data m t d e next start s =
      byWeight (m.afracs.map fun x => x.2 * nuclideXS (data x.1) t e) (S.numbers s 0) fun i =>
        m.afracs[i]?.elim 0 fun x => gasOn S a b (data x.1) t d e next start s := rfl

theorem same_gasOn {x x' : Continuous} (h : SameData t x x') (he : 0 < e)
    {next next' start start' : Direction → ℝ → σ → ℝ≥0∞}
    (hn : ∀ d e s, 0 < e → next' d e s = next d e s) (hst : ∀ d e s, 0 < e → start' d e s = start d e s)
    (s : σ) : gasOn S a b x' t d e next' start' s = gasOn S a b x t d e next start s := by
  have key : ∀ {l l' : List ContinuousReaction}, List.Forall₂ (SameReaction t) l l' → ∀ θ,
      picked (reactionXS t e) (afterReaction S a b t d e next' start' (S.rest^[2] s)) l' θ =
        picked (reactionXS t e) (afterReaction S a b t d e next start (S.rest^[2] s)) l θ := by
    intro l l' h
    induction h with
    | nil => exact fun _ => rfl
    | cons hr _ ih =>
      intro θ
      rw [picked, picked, ih, hr.1 e he, equal_afterReaction hr he hn hst]
  unfold gasOn
  rw [byWeight_picked, byWeight_picked, same_reactions h he]
  exact key h _

/-! ### Nuclides that are divided -/

theorem dividedAtoms_sum {factor : ℝ} {l l' : List (Nuclide × ℝ)}
    (h : DividedAtoms t data data' factor l l') (he : 0 < e) :
    (l'.map fun x => x.2 * nuclideXS (data' x.1) t e).sum =
      factor * (l.map fun x => x.2 * nuclideXS (data x.1) t e).sum := by
  induction h with
  | nil => simp
  | @cons x parts l l' hp hs _ ih =>
    have e1 : parts.map (fun p => p.2 * nuclideXS (data' p.1) t e) =
        (parts.map Prod.snd).map fun y => y * nuclideXS (data x.1) t e := by
      rw [List.map_map]
      refine List.map_congr_left fun p hp' => ?_
      simp only [Function.comp, same_nuclideXS (hp p hp').2 he]
    rw [List.map_append, List.sum_append, ih, e1, List.sum_map_mul_right, List.map_id', hs,
      List.map_cons, List.sum_cons]
    ring

theorem dividedAtoms_picked {factor : ℝ} (hk : 0 < factor) {l l' : List (Nuclide × ℝ)}
    (h : DividedAtoms t data data' factor l l') (he : 0 < e)
    (hx : ∀ x ∈ l, 0 ≤ nuclideXS (data x.1) t e)
    {next next' start start' : Direction → ℝ → σ → ℝ≥0∞}
    (hn : ∀ d e s, 0 < e → next' d e s = next d e s) (hst : ∀ d e s, 0 < e → start' d e s = start d e s)
    (s : σ) (θ : ℝ) :
    picked (fun x => x.2 * nuclideXS (data' x.1) t e)
        (fun x => gasOn S a b (data' x.1) t d e next' start' s) l' (factor * θ) =
      picked (fun x => x.2 * nuclideXS (data x.1) t e)
        (fun x => gasOn S a b (data x.1) t d e next start s) l θ := by
  induction h generalizing θ with
  | nil => rfl
  | @cons x parts l l' hp hs hl ih =>
    have h0 := hx x (by simp)
    have e1 : (parts.map (fun p => p.2 * nuclideXS (data' p.1) t e)).sum =
        factor * (x.2 * nuclideXS (data x.1) t e) := by
      have := dividedAtoms_sum (DividedAtoms.cons hp hs DividedAtoms.nil) he
      simpa using this
    rw [picked_parts (v := gasOn S a b (data x.1) t d e next start s) l' (fun p hp' => ?_)
      (fun p hp' => same_gasOn (hp p hp').2 he hn hst s), e1, ← mul_sub,
      ih (fun q hq => hx q (by simp [hq])), picked]
    · congr 1
      simp only [mul_nonneg_iff_of_pos_left hk, mul_lt_mul_iff_right₀ hk]
    · rw [same_nuclideXS (hp p hp').2 he]
      exact mul_nonneg (hp p hp').1 h0

theorem divided_collisionRate {m m' : Material} (h : DividedGas t data data' m m') (he : 0 < e) :
    collisionRate data' m' t e = collisionRate data m t e := by
  obtain ⟨k, -, h1, h2⟩ := h
  unfold collisionRate
  rw [dividedAtoms_sum h2 he, ← mul_assoc, h1]

theorem divided_afterGas {m m' : Material} (h : DividedGas t data data' m m') (he : 0 < e)
    (hx : ∀ x ∈ m.afracs, 0 ≤ nuclideXS (data x.1) t e)
    {next next' start start' : Direction → ℝ → σ → ℝ≥0∞}
    (hn : ∀ d e s, 0 < e → next' d e s = next d e s) (hst : ∀ d e s, 0 < e → start' d e s = start d e s)
    (s : σ) :
    afterGas S a b data' m' t d e next' start' s = afterGas S a b data m t d e next start s := by
  obtain ⟨k, hk, -, h2⟩ := h
  have e1 := byWeight_picked (fun x : Nuclide × ℝ => x.2 * nuclideXS (data x.1) t e)
    (fun x => gasOn S a b (data x.1) t d e next start s) m.afracs (S.numbers s 0)
  have e2 := byWeight_picked (fun x : Nuclide × ℝ => x.2 * nuclideXS (data' x.1) t e)
    (fun x => gasOn S a b (data' x.1) t d e next' start' s) m'.afracs (S.numbers s 0)
  rw [afterGas_gasOn, afterGas_gasOn, e1, e2, dividedAtoms_sum h2 he, mul_left_comm]
  exact dividedAtoms_picked hk h2 he hx hn hst s _

/-! ### Cells -/

theorem sameGas_cellAt {w w' : World} (h : SameGases data data' w w') (x : Point) :
    (cellAt w x = none ∧ cellAt w' x = none) ∨
      ∃ c c', cellAt w x = some c ∧ cellAt w' x = some c' ∧ SameGasCell data data' c c' := by
  unfold cellAt
  unfold SameGases at h
  generalize w.cells = l at h ⊢
  generalize w'.cells = l' at h ⊢
  induction h with
  | nil => exact Or.inl ⟨rfl, rfl⟩
  | @cons c c' l l' hc _ ih =>
    by_cases hx : InCell c x
    · have hx' := (alike_inCell hc.matter x).2 hx
      exact Or.inr ⟨c, c', by simp [hx], by simp [hx'], hc⟩
    · have hx' : ¬ InCell c' x := fun k => hx ((alike_inCell hc.matter x).1 k)
      simpa [List.find?_cons, hx, hx'] using ih

/-- A neutron and its descendants, with the same numbers. -/
theorem divided_gasScore (S : Supply σ) {w w' : World} (hw : GasWorld data w)
    (h : SameGases data data' w w') (method : Method) (hit : SurfaceObj → Direction → ℝ → ℝ≥0∞) (n : ℕ)
    {c c' : Cell} (hc : c ∈ w.cells) (hcc : SameGasCell data data' c c') (x : Point) (d : Direction)
    (he : 0 < e) (s : σ) :
    gasScore S a b data' w' method hit n c' x d e s = gasScore S a b data w method hit n c x d e s := by
  induction n generalizing c c' x d e s with
  | zero => simp only [gasScore]
  | succ n ih =>
    rcases hcc.matter.material with ⟨h1, h2⟩ | ⟨m, m', h1, h2, hm⟩
    · rw [gasScore_none h1, gasScore_none h2]
    · have ht := hcc.temperature (by rw [h1]; exact Option.some_ne_none m)
      rw [gasScore_succ h1, gasScore_succ h2, ht, alike_ahead hcc.matter, divided_collisionRate hm he]
      split_ifs
      · unfold gasCrossed
        rw [alike_faced hcc.matter, alike_beyond hcc.matter]
        cases faced c x d with
        | none => simp only [Option.elim_none]
        | some f =>
          rcases sameGas_cellAt h (beyond c x d) with ⟨k1, k2⟩ | ⟨q, q', k1, k2, hq⟩
          · simp only [k1, k2, Option.elim_none, Option.elim_some]
          · simp only [k1, k2, Option.elim_some]
            rw [ih (cellAt_mem k1) hq _ _ he]
      · refine divided_afterGas hm he (fun y hy => (hw.nuclideXS_ge hc h1 hy he).1) ?_ ?_ _
        · exact fun d' e' s' he' => ih hc hcc _ d' he' s'
        · intro d' e' s' he'
          generalize along x d (-Real.log (1 - S.number s) / collisionRate data m (heat c) e) = y
          rcases sameGas_cellAt h y with ⟨k1, k2⟩ | ⟨q, q', k1, k2, hq⟩
          · simp only [k1, k2, Option.elim_none]
          · simp only [k1, k2, Option.elim_some]
            exact ih (cellAt_mem k1) hq y d' he' s'

end Minimc
