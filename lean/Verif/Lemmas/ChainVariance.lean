import Verif.Lemmas.ChainSquare
import Verif.Props.Chain

/-! # Chains of neutrons: a bound for the mean square of the score -/

namespace Minimc

open Classical MeasureTheory Spec Set
open scoped ENNReal

section

variable {G : ℕ} {nodes : Nuclide → List MgNode} {w : World} {method : Method}
  {hit : SurfaceObj → Direction → ℕ → ℝ≥0∞}

attribute [local irreducible] fresh chainScore

/-- The mean square in one more round. -/
theorem chainSquare_succ (hw : WellPosed G nodes w) (hh : ∀ s g, Measurable fun d => hit s d g)
    (n : ℕ) {c : Cell} (hc : c ∈ w.cells) {m : Material} (hm : c.material = some m) (x : Point)
    (d : Direction) {g : ℕ} (h1 : 1 ≤ g) (h2 : g ≤ G) :
    chainSquare G nodes w method hit (n + 1) c x d g =
      (∫⁻ s in {s : ℝ | 0 < s ∧ (s : WithTop ℝ) < ahead c x d},
        ENNReal.ofReal (macroscopic G nodes g m * Real.exp (-(macroscopic G nodes g m * s))) *
          ∫⁻ us, landed G nodes w method hit n c (along x d s) m g us ^ 2 ∂uniforms) +
      if ahead c x d = ⊤ then 0 else
        ENNReal.ofReal (Real.exp (-(macroscopic G nodes g m * (ahead c x d).untopD 0))) *
          ∫⁻ us, crossed w hit (fun c x d g => chainScore endless G nodes w method hit n c x d g us)
            c x d g ^ 2 ∂uniforms := by
  have hM : 0 < macroscopic G nodes g m :=
    mul_pos (hw.density c hc m hm) (Props.group_shares hw hc hm h1 h2)
  have mA := measurable_crossed (w := w) (hit := hit) (c := c) (x := x) (d := d) (g := g)
    (E := fun us c x d g => chainScore endless G nodes w method hit n c x d g us)
    fun c x => measurable_chainScore_us G nodes w method hh n c x d g
  have mB := measurable_landed G nodes w method hh n c x d m g
  have hl : Measurable fun q : ℝ × (ℕ → ℝ) => -Real.log (1 - q.1) / macroscopic G nodes g m := by
    fun_prop
  have hF := (@Measurable.ite _ _ _ _ _ _ _ (fun _ => propDecidable _)
    (measurableSet_reaches' method (t := fun _ => ahead c x d) measurable_const hl)
    (mA.comp measurable_snd)
    (mB.comp (f := fun q : ℝ × (ℕ → ℝ) => (-Real.log (1 - q.1) / macroscopic G nodes g m, q.2))
      (hl.prodMk measurable_snd))).pow_const 2
  have e1 : ∀ u : ℝ, ∫⁻ us,
        (if FliesTo method (ahead c x d) (-Real.log (1 - u) / macroscopic G nodes g m) then
          crossed w hit (fun c x d g => chainScore endless G nodes w method hit n c x d g us) c x d g
        else landed G nodes w method hit n c
          (along x d (-Real.log (1 - u) / macroscopic G nodes g m)) m g us) ^ 2 ∂uniforms =
      if FliesTo method (ahead c x d) (-Real.log (1 - u) / macroscopic G nodes g m) then
        ∫⁻ us, crossed w hit (fun c x d g => chainScore endless G nodes w method hit n c x d g us)
          c x d g ^ 2 ∂uniforms
      else (fun y => ∫⁻ us, landed G nodes w method hit n c (along x d y) m g us ^ 2 ∂uniforms)
        (-Real.log (1 - u) / macroscopic G nodes g m) := by
    intro u
    split_ifs <;> rfl
  have e2 := lintegral_first (F := fun (u : ℝ) (us : ℕ → ℝ) =>
        (if FliesTo method (ahead c x d) (-Real.log (1 - u) / macroscopic G nodes g m) then
          crossed w hit (fun c x d g => chainScore endless G nodes w method hit n c x d g us) c x d g
        else landed G nodes w method hit n c
          (along x d (-Real.log (1 - u) / macroscopic G nodes g m)) m g us) ^ 2) hF
  refine (lintegral_congr fun us => by rw [chainScore_landed hm us]).trans
    (e2.trans ((lintegral_congr e1).trans ?_))
  exact lintegral_round c method hM (t := ahead c x d) (fun r hr => ahead_pos hr) _
    fun y => ∫⁻ us, landed G nodes w method hit n c (along x d y) m g us ^ 2 ∂uniforms

theorem sphereMean_mono' {F F' : Direction → ℝ≥0∞} (h : ∀ d, UnitVec d → F d ≤ F' d) :
    sphereMean F ≤ sphereMean F' := by
  unfold sphereMean
  refine mul_le_mul_right (setLIntegral_mono' measurableSet_Ioo fun z hz => lintegral_mono fun φ => ?_) _
  refine h _ ?_
  have h0 : 0 ≤ 1 - z ^ 2 := by nlinarith [hz.1, hz.2]
  unfold UnitVec
  simp only
  rw [mul_pow, mul_pow, Real.sq_sqrt h0]
  linear_combination (1 - z ^ 2) * Real.cos_sq_add_sin_sq φ

/-- A bound for the mean square of the score of a chain. -/
theorem chainSquare_le (hw : WellPosed G nodes w) (hh : ∀ s g, Measurable fun d => hit s d g)
    (hone : ∀ s d g, hit s d g ≤ 1) {S : Cell → Point → Prop}
    (hstay : ∀ c ∈ w.cells, c.material ≠ none → ∀ x d (s : ℝ), S c x → UnitVec d → 0 < s →
      (s : WithTop ℝ) < ahead c x d → S c (along x d s) ∧
        ∀ c', cellAt w (along x d s) = some c' → S c' (along x d s))
    (hnext : ∀ c ∈ w.cells, c.material ≠ none → ∀ x d, S c x → UnitVec d → ahead c x d ≠ ⊤ → ∀ s c',
      faced c x d = some s → cellAt w (beyond c x d) = some c' → S c' (beyond c x d))
    {M N K : ℝ≥0∞} (hMtop : M ≠ ⊤)
    (hM : ∀ c ∈ w.cells, ∀ x d, S c x → UnitVec d → ∀ g, 1 ≤ g → g ≤ G →
      meanChain G nodes w method hit c x d g ≤ M)
    (hN : ∀ c ∈ w.cells, ∀ m, c.material = some m → ∀ e ∈ m.afracs, ∀ g, 1 ≤ g → g ≤ G →
      ENNReal.ofReal (entry1 (nubarTable (nodes e.1)) g) ≤ N)
    (hK : ∀ c ∈ w.cells, ∀ m, c.material = some m → ∀ g, 1 ≤ g → g ≤ G →
      (∑ g' ∈ Finset.Icc 1 G, ENNReal.ofReal (transferRate G nodes m g g')) * K +
        (∑ g' ∈ Finset.Icc 1 G, ENNReal.ofReal (fissionRate G nodes m g g')) * (K + N * M ^ 2) ≤
        ENNReal.ofReal (macroscopic G nodes g m) * K)
    (n : ℕ) {c : Cell} (hc : c ∈ w.cells) {x : Point} (hx : S c x) {d : Direction} (hd : UnitVec d)
    {g : ℕ} (h1 : 1 ≤ g) (h2 : g ≤ G) :
    chainSquare G nodes w method hit n c x d g ≤
      (1 + 2 * M) * meanChain G nodes w method hit c x d g + K := by
  have hM' : ∀ n, ∀ c ∈ w.cells, ∀ x d, S c x → UnitVec d → ∀ g, 1 ≤ g → g ≤ G →
      chainMean G nodes w method hit n c x d g ≤ M := fun n c hc x d hx hd g h1 h2 =>
    (le_iSup (fun n => chainMean G nodes w method hit n c x d g) n).trans
      ((meanChain_eq hh c x d g).ge.trans (hM c hc x d hx hd g h1 h2))
  induction n generalizing c x d g with
  | zero =>
    unfold chainSquare
    simp [chainScore]
  | succ n ih =>
    cases hm : c.material with
    | none =>
      unfold chainSquare
      simp [chainScore_none hm]
    | some m =>
      have hmn : c.material ≠ none := by rw [hm]; simp
      have hpos : 0 < macroscopic G nodes g m :=
        mul_pos (hw.density c hc m hm) (Props.group_shares hw hc hm h1 h2)
      set E := meanChain G nodes w method hit with hE
      have mE : ∀ c' g', Measurable fun q : Point × Direction => E c' q.1 q.2 g' := by
        intro c' g'
        have : (fun q : Point × Direction => E c' q.1 q.2 g') = fun q =>
            ⨆ n, chainMean G nodes w method hit n c' q.1 q.2 g' := by
          funext q
          exact meanChain_eq hh c' q.1 q.2 g'
        rw [this]
        exact Measurable.iSup fun n => measurable_chainMean hh n c' g'
      have hone' := lintegral_round c method hpos (t := ahead c x d) (fun _ h => ahead_pos h) 1 fun _ => 1
      have hl : ∫⁻ u, (if FliesTo method (ahead c x d) (-Real.log (1 - u) / macroscopic G nodes g m) then
          (1 : ℝ≥0∞) else 1) ∂uniform = 1 := by
        simp
      rw [hl] at hone'
      simp only [mul_one] at hone'
      rw [chainSquare_succ hw hh n hc hm x d h1 h2, hE, Props.C78_equation hw method hh hc x d h1 h2,
        ← hE, transported_some hm, bred_some hm]
      set Q : ℝ → ℝ≥0∞ := fun s => emission G nodes m g (E c (along x d s)) +
        fissionEmission G nodes w m g E (along x d s) with hQ
      -- a collision on the way
      have hcoll : ∀ s ∈ {s : ℝ | 0 < s ∧ (s : WithTop ℝ) < ahead c x d},
          ENNReal.ofReal (macroscopic G nodes g m * Real.exp (-(macroscopic G nodes g m * s))) *
            ∫⁻ us, landed G nodes w method hit n c (along x d s) m g us ^ 2 ∂uniforms ≤
          (1 + 2 * M) * (ENNReal.ofReal (Real.exp (-(macroscopic G nodes g m * s))) * Q s) +
            K * ENNReal.ofReal (macroscopic G nodes g m * Real.exp (-(macroscopic G nodes g m * s))) := by
        intro s hs
        obtain ⟨s1, s2⟩ := hstay c hc hmn x d s hx hd hs.1 hs.2
        have hle := lintegral_landed_sq (method := method) hw hh n hc hm (along x d s) h1 h2 (M := M)
          (N := N) (fun c' hcl d' hd' g' k1 k2 => hM' n c' (cellAt_mem hcl) _ d' (s2 c' hcl) hd' g' k1 k2)
          (fun e he => hN c hc m hm e he g h1 h2)
        have b1 : emission G nodes m g (chainSquare G nodes w method hit n c (along x d s)) ≤
            (1 + 2 * M) * emission G nodes m g (E c (along x d s)) +
              (∑ g' ∈ Finset.Icc 1 G, ENNReal.ofReal (transferRate G nodes m g g')) * K := by
          unfold emission
          rw [Finset.mul_sum, Finset.sum_mul, ← Finset.sum_add_distrib]
          refine Finset.sum_le_sum fun g' hg' => ?_
          obtain ⟨k1, k2⟩ := Finset.mem_Icc.1 hg'
          have me : Measurable fun d' => E c (along x d s) d' g' :=
            (mE c g').comp (measurable_const.prodMk measurable_id)
          rw [mul_left_comm, ← mul_add, ← sphereMean_const_mul me, ← sphereMean_const K,
            ← sphereMean_add (me.const_mul _) measurable_const]
          exact mul_le_mul_right (sphereMean_mono' fun d' hd' => ih hc s1 hd' k1 k2) _
        have b2 : fissionEmission G nodes w m g (chainSquare G nodes w method hit n) (along x d s) ≤
            (1 + 2 * M) * fissionEmission G nodes w m g E (along x d s) +
              (∑ g' ∈ Finset.Icc 1 G, ENNReal.ofReal (fissionRate G nodes m g g')) * K := by
          unfold fissionEmission
          rw [Finset.mul_sum, Finset.sum_mul, ← Finset.sum_add_distrib]
          refine Finset.sum_le_sum fun g' hg' => ?_
          obtain ⟨k1, k2⟩ := Finset.mem_Icc.1 hg'
          rw [mul_left_comm, ← mul_add]
          refine mul_le_mul_right ?_ _
          cases hcl : cellAt w (along x d s) with
          | none =>
            have : sphereMean (fun _ : Direction => (0 : ℝ≥0∞)) = 0 := sphereMean_const 0
            simp [this]
          | some c' =>
            simp only [Option.elim_some]
            have me : Measurable fun d' => E c' (along x d s) d' g' :=
              (mE c' g').comp (measurable_const.prodMk measurable_id)
            rw [← sphereMean_const_mul me, ← sphereMean_const K,
              ← sphereMean_add (me.const_mul _) measurable_const]
            exact sphereMean_mono' fun d' hd' => ih (cellAt_mem hcl) (s2 c' hcl) hd' k1 k2
        have b3 := hK c hc m hm g h1 h2
        rw [mul_comm (macroscopic G nodes g m), ENNReal.ofReal_mul (Real.exp_pos _).le, mul_assoc,
          mul_left_comm (1 + 2 * M), mul_left_comm K, ← mul_add]
        refine mul_le_mul_right (hle.trans ?_) _
        calc _ ≤ ((1 + 2 * M) * emission G nodes m g (E c (along x d s)) +
                (∑ g' ∈ Finset.Icc 1 G, ENNReal.ofReal (transferRate G nodes m g g')) * K) +
              (((1 + 2 * M) * fissionEmission G nodes w m g E (along x d s) +
                (∑ g' ∈ Finset.Icc 1 G, ENNReal.ofReal (fissionRate G nodes m g g')) * K) +
                (∑ g' ∈ Finset.Icc 1 G, ENNReal.ofReal (fissionRate G nodes m g g')) * (N * M ^ 2)) :=
              add_le_add b1 (add_le_add b2 le_rfl)
          _ = (1 + 2 * M) * Q s +
              ((∑ g' ∈ Finset.Icc 1 G, ENNReal.ofReal (transferRate G nodes m g g')) * K +
                (∑ g' ∈ Finset.Icc 1 G, ENNReal.ofReal (fissionRate G nodes m g g')) *
                  (K + N * M ^ 2)) := by
              simp only [hQ]
              ring
          _ ≤ _ := by
              refine add_le_add le_rfl ?_
              rw [mul_comm K]
              exact b3
      -- a crossing
      have hcross : ahead c x d ≠ ⊤ →
          ∫⁻ us, crossed w hit (fun c x d g => chainScore endless G nodes w method hit n c x d g us)
            c x d g ^ 2 ∂uniforms ≤ (1 + 2 * M) * crossed w hit E c x d g + K := by
        intro ht
        unfold crossed
        cases hfc : faced c x d with
        | none => simp
        | some s =>
          cases hcl : cellAt w (beyond c x d) with
          | none => simp
          | some c' =>
            have hS' := hnext c hc hmn x d hx hd ht s c' hfc hcl
            have hc' := cellAt_mem hcl
            simp only [Option.elim_some]
            have mf := measurable_chainScore_us G nodes w method hh n c' (beyond c x d) d g
            have hsq : ∀ us, (hit s d g +
                chainScore endless G nodes w method hit n c' (beyond c x d) d g us) ^ 2 =
                hit s d g ^ 2 + (2 * hit s d g *
                  chainScore endless G nodes w method hit n c' (beyond c x d) d g us +
                chainScore endless G nodes w method hit n c' (beyond c x d) d g us ^ 2) := fun us => by ring
            simp only [hsq]
            rw [lintegral_add_left measurable_const, lintegral_add_left (mf.const_mul _),
              lintegral_const_mul _ mf, lintegral_const, measure_univ, mul_one]
            have c1 : hit s d g ^ 2 ≤ hit s d g := by
              rw [sq]
              exact (mul_le_mul_right (hone s d g) _).trans (mul_one _).le
            have c2 := hM' n c' hc' (beyond c x d) d hS' hd g h1 h2
            have c3 := ih hc' hS' hd h1 h2
            calc _ ≤ hit s d g + (2 * hit s d g * M +
                  ((1 + 2 * M) * E c' (beyond c x d) d g + K)) :=
                  add_le_add c1 (add_le_add (mul_le_mul_right c2 _) c3)
              _ = _ := by ring
      have mQ : Measurable fun s : ℝ => ENNReal.ofReal (macroscopic G nodes g m *
          Real.exp (-(macroscopic G nodes g m * s))) := by fun_prop
      have mEm : Measurable fun s => ENNReal.ofReal (Real.exp (-(macroscopic G nodes g m * s))) *
          emission G nodes m g (E c (along x d s)) :=
        Measurable.mul (by fun_prop) (measurable_emission (fun g' => mE c g') x d)
      have hint : (∫⁻ s in {s : ℝ | 0 < s ∧ (s : WithTop ℝ) < ahead c x d},
            ENNReal.ofReal (macroscopic G nodes g m * Real.exp (-(macroscopic G nodes g m * s))) *
              ∫⁻ us, landed G nodes w method hit n c (along x d s) m g us ^ 2 ∂uniforms) ≤
          (1 + 2 * M) * ((∫⁻ s in {s : ℝ | 0 < s ∧ (s : WithTop ℝ) < ahead c x d},
              ENNReal.ofReal (Real.exp (-(macroscopic G nodes g m * s))) *
                emission G nodes m g (E c (along x d s))) +
            ∫⁻ s in {s : ℝ | 0 < s ∧ (s : WithTop ℝ) < ahead c x d},
              ENNReal.ofReal (Real.exp (-(macroscopic G nodes g m * s))) *
                fissionEmission G nodes w m g E (along x d s)) +
          K * ∫⁻ s in {s : ℝ | 0 < s ∧ (s : WithTop ℝ) < ahead c x d},
            ENNReal.ofReal (macroscopic G nodes g m * Real.exp (-(macroscopic G nodes g m * s))) := by
        refine (setLIntegral_mono' (measurableSet_between _) hcoll).trans (le_of_eq ?_)
        rw [lintegral_add_right _ (mQ.const_mul K), lintegral_const_mul K mQ, ← lintegral_add_left mEm,
          lintegral_const_mul']
        · simp only [hQ, mul_add]
        · exact ENNReal.add_ne_top.2 ⟨ENNReal.one_ne_top, ENNReal.mul_ne_top (by simp) hMtop⟩
      refine (add_le_add hint (d := if ahead c x d = ⊤ then 0 else
        ENNReal.ofReal (Real.exp (-(macroscopic G nodes g m * (ahead c x d).untopD 0))) *
          ((1 + 2 * M) * crossed w hit E c x d g + K)) ?_).trans (le_of_eq ?_)
      · split_ifs with ht
        · exact le_rfl
        · exact mul_le_mul_right (hcross ht) _
      · have hK1 := congrArg (K * ·) hone'
        simp only [mul_one] at hK1
        conv_rhs => rw [hK1]
        split_ifs
        · ring
        · ring

end

end Minimc
