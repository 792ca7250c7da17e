import Verif.Spec.GasSubcritical
import Verif.Lemmas.Chain
import Verif.Lemmas.Leaving
import Verif.Lemmas.Table
import Mathlib.MeasureTheory.Integral.Prod

/-! # Chains of neutrons in gases: tables and measurability -/

namespace Minimc

open Classical MeasureTheory Spec Set
open scoped ENNReal

/-! ### Tables -/

/-- The table of the specification is that of the program. -/
theorem at_tabled {m : ContinuousMap} (hs : Sorted m) (hne : m ≠ []) (e : ℝ) :
    m.at' e = .ok (tabled m e) := by
  induction m with
  | nil => exact absurd rfl hne
  | cons a l ih =>
    cases l with
    | nil =>
      by_cases h : e < a.1
      · rw [ContinuousMap.at_below hs h]
        rfl
      · have := ContinuousMap.at_above (m := []) hs (not_lt.1 h)
        simpa [tabled] using this
    | cons b l =>
      have hs' : Sorted (b :: l) := (List.pairwise_cons.1 hs).2
      have hab : a.1 < b.1 := (List.pairwise_cons.1 hs).1 b (by simp)
      have hd : b.1 - a.1 ≠ 0 := by linarith
      rw [tabled]
      by_cases h1 : e < a.1
      · rw [ContinuousMap.at_below hs h1, if_pos h1.le]
      have h1' := not_lt.1 h1
      by_cases h2 : e < b.1
      · rw [ContinuousMap.at_between hs ⟨[], l, rfl⟩ h1' h2]
        congr 1
        split_ifs with h3 h4
        · have : e = a.1 := le_antisymm h3 h1'
          rw [this]
          ring
        · unfold line
          field_simp
          ring
        · linarith
      have h2' := not_lt.1 h2
      have e1 : ContinuousMap.at' (a :: b :: l) e = ContinuousMap.at' (b :: l) e := by
        unfold ContinuousMap.at'
        rw [List.takeWhile_cons, List.dropWhile_cons]
        simp only [decide_eq_true h1', if_true]
        rw [List.takeWhile_cons]
        simp only [decide_eq_true h2', if_true]
        rfl
      rw [e1, ih hs' (by simp), if_neg (by linarith)]
      by_cases h3 : e ≤ b.1
      · rw [if_pos h3]
        have : e = b.1 := le_antisymm h3 h2'
        congr 1
        cases l with
        | nil =>
          rw [this]
          unfold line tabled
          field_simp
          ring
        | cons c l =>
          rw [tabled, if_pos h3, this]
          unfold line
          field_simp
          ring
      · rw [if_neg h3]

theorem measurable_tabled : ∀ l : List (ℝ × ℝ), Measurable (tabled l)
  | [] => measurable_const
  | [a] => measurable_const
  | a :: b :: l => by
    have h := measurable_tabled (b :: l)
    have e : tabled (a :: b :: l) = fun e => if e ≤ a.1 then a.2 else if e ≤ b.1 then line a b e else
        tabled (b :: l) e := by
      funext e
      rw [tabled]
    rw [e]
    refine Measurable.ite measurableSet_Iic measurable_const (Measurable.ite measurableSet_Iic ?_ h)
    unfold line
    fun_prop

/-! ### Cross sections -/

theorem measurable_meanRelativeSpeed (β : ℝ) : Measurable (meanRelativeSpeed β) := by
  unfold meanRelativeSpeed
  simp only [intervalIntegral.integral_of_le (show (-1 : ℝ) ≤ 1 by norm_num)]
  have h1 : Measurable fun q : (ℝ × ℝ) × ℝ => relativeSpeed q.1.1 q.1.2 q.2 :=
    measurable_relativeSpeed (by fun_prop) (by fun_prop) (by fun_prop)
  have h2 : StronglyMeasurable fun q : ℝ × ℝ => ∫ μ in Ioc (-1 : ℝ) 1, relativeSpeed q.1 q.2 μ :=
    h1.stronglyMeasurable.integral_prod_right'
  have h3 : Measurable fun q : ℝ × ℝ =>
      maxwell β q.2 * ((∫ μ in Ioc (-1 : ℝ) 1, relativeSpeed q.1 q.2 μ) / 2) := by
    have := h2.measurable
    unfold maxwell
    fun_prop
  exact (h3.stronglyMeasurable.integral_prod_right' (ν := volume.restrict (Ioi (0 : ℝ)))).measurable

theorem measurable_speedOf (m : ℝ) : Measurable (speedOf m) := by
  unfold speedOf
  fun_prop

theorem measurable_meetingSpeed (A t : ℝ) : Measurable (meetingSpeed A t) := by
  unfold meetingSpeed
  split_ifs
  · exact measurable_speedOf _
  · exact (measurable_meanRelativeSpeed _).comp (measurable_speedOf _)

theorem measurable_reactionXS (t : ℝ) (r : ContinuousReaction) :
    Measurable fun e => reactionXS t e r := by
  cases r with
  | capture ev => exact measurable_tabled _
  | fission ev nu => exact measurable_tabled _
  | scatter ev tsl A =>
    refine Measurable.ite ?_ ?_ (measurable_tabled _)
    · exact (MeasurableSet.const _).inter ((MeasurableSet.const _).union measurableSet_Iio)
    · exact (measurable_tabled _).mul ((measurable_meetingSpeed A t).div (measurable_meetingSpeed A _))

theorem measurable_list_sum {β γ : Type*} [MeasurableSpace γ] [AddMonoid γ] [MeasurableAdd₂ γ]
    {α : Type*} [MeasurableSpace α] {f : β → α → γ} (hf : ∀ x, Measurable (f x)) (l : List β) :
    Measurable fun a => (l.map fun x => f x a).sum := by
  induction l with
  | nil => exact measurable_const
  | cons x l ih => exact (hf x).add ih

theorem measurable_nuclideXS (d : Continuous) (t : ℝ) : Measurable (nuclideXS d t) :=
  measurable_list_sum (f := fun r e => reactionXS t e r) (fun r => measurable_reactionXS t r) _

theorem measurable_collisionRate (data : Nuclide → Continuous) (m : Material) (t : ℝ) :
    Measurable (collisionRate data m t) :=
  measurable_const.mul (measurable_list_sum (f := fun (x : Nuclide × ℝ) e => x.2 * nuclideXS (data x.1) t e)
    (fun _ => measurable_const.mul (measurable_nuclideXS _ t)) _)

theorem measurable_yieldAt (nubar : Option ContinuousMap) : Measurable (yieldAt nubar) := by
  cases nubar with
  | none => exact measurable_const
  | some l => exact measurable_tabled l

variable {α : Type*} [MeasurableSpace α]

/-- A choice by weights that depend on something. -/
theorem measurable_byWeight_map {β : Type*} {f : β → α → ℝ} (hf : ∀ x, Measurable (f x)) (l : List β)
    {u : α → ℝ} (hu : Measurable u) {F : ℕ → α → ℝ≥0∞} (hF : ∀ i, Measurable (F i)) :
    Measurable fun z => byWeight (l.map fun x => f x z) (u z) fun i => F i z := by
  unfold byWeight
  simp only [List.length_map]
  refine Finset.measurable_fun_sum _ fun i _ => ?_
  have h : ∀ i, Measurable fun z => ((l.map fun x => f x z).take i).sum := by
    intro i
    simp only [← List.map_take]
    exact measurable_list_sum hf _
  refine Measurable.ite ?_ (hF i) measurable_const
  have hs : Measurable fun z => u z * (l.map fun x => f x z).sum :=
    hu.mul (measurable_list_sum hf l)
  unfold Selected
  simp only [List.length_map]
  exact (MeasurableSet.const _).inter ((measurableSet_le (h i) hs).inter (measurableSet_lt hs (h (i + 1))))

/-! ### Collisions -/

theorem endless_numbers' (us : ℕ → ℝ) : endless.numbers us = us := funext (endless_numbers us)

variable {a b : Direction → Direction}

/-- What a neutron scores that goes on after a collision with an atom. -/
noncomputable def goneOn (a b : Direction → Direction) (A β : ℝ) (d : Direction) (speed : ℝ)
    (next : Direction → ℝ → (ℕ → ℝ) → ℝ≥0∞) (z : ℝ × ℝ) (us : ℕ → ℝ) : ℝ≥0∞ :=
  if (departure a b A neutronMass d speed (z.1 / β) z.2 us).2 = 0 then 0 else
    next (departure a b A neutronMass d speed (z.1 / β) z.2 us).1
      (departure a b A neutronMass d speed (z.1 / β) z.2 us).2 fun k => us (k + 4)

theorem measurable_departure' (h : Frames a b) (A m : ℝ) {d : α → Direction} {v s μ : α → ℝ}
    {us : α → ℕ → ℝ} (hd : Measurable d) (hv : Measurable v) (hs : Measurable s) (hμ : Measurable μ)
    (hu : Measurable us) :
    Measurable fun q => departure a b A m (d q) (v q) (s q) (μ q) (us q) := by
  have ha := h.first
  have hb := h.second
  have h0 := measurable_at hu 0
  have h1 := measurable_at hu 1
  have h2 := measurable_at hu 2
  have h3 := measurable_at hu 3
  unfold departure
  fun_prop

attribute [local irreducible] departure

theorem measurable_goneOn (h : Frames a b) (A β : ℝ) {d : α → Direction} {v : α → ℝ}
    {next : α → Direction → ℝ → (ℕ → ℝ) → ℝ≥0∞}
    (hn : Measurable fun q : α × Direction × ℝ × (ℕ → ℝ) => next q.1 q.2.1 q.2.2.1 q.2.2.2)
    (hd : Measurable d) (hv : Measurable v) {z : α → ℝ × ℝ} (hz : Measurable z) {us : α → ℕ → ℝ}
    (hu : Measurable us) :
    Measurable fun q => goneOn a b A β (d q) (v q) (next q) (z q) (us q) := by
  unfold goneOn
  have h1 := measurable_departure' h A neutronMass hd hv (hz.fst.div_const β) hz.snd hu
  refine Measurable.ite (measurableSet_eq_fun h1.snd measurable_const) measurable_const ?_
  exact hn.comp (measurable_id.prodMk (h1.fst.prodMk (h1.snd.prodMk (measurable_shift hu 4))))

theorem gasScattered_succ (A β : ℝ) (d : Direction) (speed : ℝ)
    (next : Direction → ℝ → (ℕ → ℝ) → ℝ≥0∞) (n : ℕ) (us : ℕ → ℝ) :
    gasScattered endless a b A β d speed next (n + 1) us =
      passThen (β * speed) (goneOn a b A β d speed next)
        (gasScattered endless a b A β d speed next n) us := by
  rw [gasScattered]
  unfold passThen onePass goneOn
  simp only [endless_numbers', endless_rest]
  generalize proposal (β * speed) us = q
  obtain ⟨x, μ, k⟩ := q
  simp only
  split_ifs
  · rfl
  · congr 1
    funext j
    congr 1
    ring
  · rfl

theorem measurable_gasScattered (h : Frames a b) (A β : ℝ) {d : α → Direction} {v : α → ℝ}
    {next : α → Direction → ℝ → (ℕ → ℝ) → ℝ≥0∞}
    (hn : Measurable fun q : α × Direction × ℝ × (ℕ → ℝ) => next q.1 q.2.1 q.2.2.1 q.2.2.2)
    (hd : Measurable d) (hv : Measurable v) (n : ℕ) : ∀ {us : α → ℕ → ℝ}, Measurable us →
    Measurable fun q => gasScattered endless a b A β (d q) (v q) (next q) n (us q) := by
  induction n with
  | zero => exact fun _ => measurable_const
  | succ n ih =>
    intro us hu
    simp only [gasScattered_succ, passThen_eq]
    have e : ∀ q F R, onePass (β * v q) F R (us q) = _ := fun q F R => onePass_eq (β * v q) F R (us q)
    simp only [e]
    have h0 := measurable_at hu 0
    have h1 := measurable_at hu 1
    have h2 := measurable_at hu 2
    have h3 := measurable_at hu 3
    have h4 := measurable_at hu 4
    have h5 := measurable_at hu 5
    have s5 := ih (measurable_shift hu 5)
    have s6 := ih (measurable_shift hu 6)
    have f5 : ∀ {z : α → ℝ × ℝ}, Measurable z → Measurable fun q =>
        goneOn a b A β (d q) (v q) (next q) (z q) fun i => us q (i + 5) :=
      fun hz => measurable_goneOn h A β hn hd hv hz (measurable_shift hu 5)
    have f6 : ∀ {z : α → ℝ × ℝ}, Measurable z → Measurable fun q =>
        goneOn a b A β (d q) (v q) (next q) (z q) fun i => us q (i + 6) :=
      fun hz => measurable_goneOn h A β hn hd hv hz (measurable_shift hu 6)
    refine Measurable.ite (measurableSet_lt (by fun_prop) (by fun_prop)) ?_ ?_
    · refine Measurable.ite (measurableSet_lt (by fun_prop) (by fun_prop)) ?_ ?_
      · refine Measurable.ite (measurableSet_lt (by fun_prop) ?_) (f5 (by fun_prop)) s5
        exact (measurable_relativeSpeed (by fun_prop) (by fun_prop) (by fun_prop)).div (by fun_prop)
      · refine Measurable.ite (measurableSet_lt (by fun_prop) ?_) (f5 (by fun_prop)) s6
        exact (measurable_relativeSpeed (by fun_prop) (by fun_prop) (by fun_prop)).div (by fun_prop)
    · refine Measurable.ite (measurableSet_lt (by fun_prop) (by fun_prop)) ?_ ?_
      · refine Measurable.ite (measurableSet_lt (by fun_prop) ?_) (f6 (by fun_prop)) s5
        exact (measurable_relativeSpeed (by fun_prop) (by fun_prop) (by fun_prop)).div (by fun_prop)
      · refine Measurable.ite (measurableSet_lt (by fun_prop) ?_) (f6 (by fun_prop)) s6
        exact (measurable_relativeSpeed (by fun_prop) (by fun_prop) (by fun_prop)).div (by fun_prop)

theorem measurable_gasBirths {start : α → Direction → (ℕ → ℝ) → ℝ≥0∞}
    (hs : Measurable fun q : α × Direction × (ℕ → ℝ) => start q.1 q.2.1 q.2.2) (k : ℕ) :
    ∀ {us : α → ℕ → ℝ}, Measurable us → Measurable fun q => gasBirths endless (start q) k (us q) := by
  induction k with
  | zero => exact fun _ => measurable_const
  | succ k ih =>
    intro us hu
    simp only [gasBirths, endless_numbers, endless_rest]
    refine Measurable.add ?_ ?_
    · exact hs.comp (measurable_id.prodMk ((measurable_directionFrom (measurable_at hu 0)
        (measurable_at hu 1)).prodMk (measurePreserving_child.measurable.comp (measurable_shift hu 2))))
    · exact ih (measurePreserving_after.measurable.comp (measurable_shift hu 2))

theorem measurable_afterReaction (h : Frames a b) (t : ℝ) {d : α → Direction} {e : α → ℝ}
    {next start : α → Direction → ℝ → (ℕ → ℝ) → ℝ≥0∞}
    (hn : Measurable fun q : α × Direction × ℝ × (ℕ → ℝ) => next q.1 q.2.1 q.2.2.1 q.2.2.2)
    (hs : Measurable fun q : α × Direction × ℝ × (ℕ → ℝ) => start q.1 q.2.1 q.2.2.1 q.2.2.2)
    (hd : Measurable d) (he : Measurable e) {us : α → ℕ → ℝ} (hu : Measurable us)
    (r : ContinuousReaction) :
    Measurable fun q => afterReaction endless a b t (d q) (e q) (next q) (start q) (us q) r := by
  cases r with
  | capture ev => exact measurable_const
  | scatter ev tsl A =>
    exact Measurable.iSup fun n => measurable_gasScattered h A _ hn hd
      ((measurable_speedOf _).comp he) n hu
  | fission ev nubar =>
    have hN : Measurable fun q => ⌊yieldAt nubar (e q) + us q 0⌋₊ :=
      Nat.measurable_floor.comp (((measurable_yieldAt nubar).comp he).add (measurable_at hu 0))
    have hb : Measurable fun q : α × ℕ =>
        gasBirths endless (fun d' => start q.1 d' (e q.1)) q.2 fun k => us q.1 (k + 1) :=
      measurable_from_prod_countable_left fun k =>
        measurable_gasBirths (start := fun q d' us => start q d' (e q) us)
          (hs.comp (by fun_prop : Measurable fun q : α × Direction × (ℕ → ℝ) =>
            (q.1, q.2.1, e q.1, q.2.2))) k (measurable_shift hu 1)
    exact hb.comp (measurable_id.prodMk hN)

theorem measurable_afterGas (h : Frames a b) (data : Nuclide → Continuous) (m : Material) (t : ℝ)
    {d : α → Direction} {e : α → ℝ} {next start : α → Direction → ℝ → (ℕ → ℝ) → ℝ≥0∞}
    (hn : Measurable fun q : α × Direction × ℝ × (ℕ → ℝ) => next q.1 q.2.1 q.2.2.1 q.2.2.2)
    (hs : Measurable fun q : α × Direction × ℝ × (ℕ → ℝ) => start q.1 q.2.1 q.2.2.1 q.2.2.2)
    (hd : Measurable d) (he : Measurable e) {us : α → ℕ → ℝ} (hu : Measurable us) :
    Measurable fun q => afterGas endless a b data m t (d q) (e q) (next q) (start q) (us q) := by
  unfold afterGas
  simp only [endless_numbers, endless_rest]
  refine measurable_byWeight_map (f := fun (x : Nuclide × ℝ) q => x.2 * nuclideXS (data x.1) t (e q))
    (fun x => ((measurable_nuclideXS _ t).comp he).const_mul _) _ (measurable_at hu 0) fun i => ?_
  cases m.afracs[i]? with
  | none => exact measurable_const
  | some x =>
    refine measurable_byWeight_map (f := fun r q => reactionXS t (e q) r)
      (fun r => (measurable_reactionXS t r).comp he) _ (measurable_at hu 1) fun j => ?_
    cases (data x.1).reactions[j]? with
    | none => exact measurable_const
    | some r => exact measurable_afterReaction h t hn hs hd he (measurable_shift hu 2) r

/-! ### The game -/

/-- What is expected of a neutron that crosses the nearest surface. -/
noncomputable def gasCrossed (w : World) (hit : SurfaceObj → Direction → ℝ → ℝ≥0∞)
    (E : Cell → Point → Direction → ℝ → ℝ≥0∞) (c : Cell) (x : Point) (d : Direction) (e : ℝ) : ℝ≥0∞ :=
  (faced c x d).elim 0 fun s => (cellAt w (beyond c x d)).elim 0 fun c' =>
    hit s d e + E c' (beyond c x d) d e

theorem gasScore_succ {σ : Type} {S : Supply σ} {data : Nuclide → Continuous} {w : World}
    {method : Method} {hit : SurfaceObj → Direction → ℝ → ℝ≥0∞} {n : ℕ} {c : Cell} {x : Point}
    {d : Direction} {e : ℝ} {m : Material} (hm : c.material = some m) (s : σ) :
    gasScore S a b data w method hit (n + 1) c x d e s =
      if FliesTo method (ahead c x d) (-Real.log (1 - S.number s) / collisionRate data m (heat c) e) then
        gasCrossed w hit (fun c x d e => gasScore S a b data w method hit n c x d e (S.rest s)) c x d e
      else
        afterGas S a b data m (heat c) d e
          (gasScore S a b data w method hit n c
            (along x d (-Real.log (1 - S.number s) / collisionRate data m (heat c) e)))
          (fun d' e' s' =>
            (cellAt w (along x d (-Real.log (1 - S.number s) / collisionRate data m (heat c) e))).elim 0
              fun c' => gasScore S a b data w method hit n c'
                (along x d (-Real.log (1 - S.number s) / collisionRate data m (heat c) e)) d' e' s')
          (S.rest^[drawnBefore method] s) := by
  rw [gasScore, hm]
  rfl

theorem gasScore_none {σ : Type} {S : Supply σ} {data : Nuclide → Continuous} {w : World}
    {method : Method} {hit : SurfaceObj → Direction → ℝ → ℝ≥0∞} {n : ℕ} {c : Cell} {x : Point}
    {d : Direction} {e : ℝ} (hm : c.material = none) (s : σ) :
    gasScore S a b data w method hit n c x d e s = 0 := by
  cases n with
  | zero => rfl
  | succ n => rw [gasScore, hm]; rfl

/-! ### One round -/

section Round

variable {σ : Type} {S : Supply σ} {data : Nuclide → Continuous} {w : World} {method : Method}
  {hit : SurfaceObj → Direction → ℝ → ℝ≥0∞} {next : Cell → Point → Direction → ℝ → σ → ℝ≥0∞}

theorem gasRound_some {c : Cell} {x : Point} {d : Direction} {e : ℝ} {m : Material}
    (hm : c.material = some m) (s : σ) :
    gasRound S a b data w method hit next c x d e s =
      if FliesTo method (ahead c x d) (-Real.log (1 - S.number s) / collisionRate data m (heat c) e) then
        gasCrossed w hit (fun c x d e => next c x d e (S.rest s)) c x d e
      else
        afterGas S a b data m (heat c) d e
          (next c (along x d (-Real.log (1 - S.number s) / collisionRate data m (heat c) e)))
          (fun d' e' s' =>
            (cellAt w (along x d (-Real.log (1 - S.number s) / collisionRate data m (heat c) e))).elim 0
              fun c' => next c'
                (along x d (-Real.log (1 - S.number s) / collisionRate data m (heat c) e)) d' e' s')
          (S.rest^[drawnBefore method] s) := by
  rw [gasRound, hm]
  rfl

theorem gasRound_none {c : Cell} {x : Point} {d : Direction} {e : ℝ} (hm : c.material = none) (s : σ) :
    gasRound S a b data w method hit next c x d e s = 0 := by
  rw [gasRound, hm]
  rfl

/-- The game consists of rounds. -/
theorem gasScore_round (n : ℕ) (c : Cell) (x : Point) (d : Direction) (e : ℝ) (s : σ) :
    gasScore S a b data w method hit (n + 1) c x d e s =
      gasRound S a b data w method hit (gasScore S a b data w method hit n) c x d e s := by
  rw [gasScore, gasRound]

end Round

/-- A round depends measurably on everything. -/
theorem measurable_gasRound (h : Frames a b) (data : Nuclide → Continuous) (w : World) (method : Method)
    {hit : SurfaceObj → Direction → ℝ → ℝ≥0∞}
    (hh : ∀ s, Measurable fun q : Direction × ℝ => hit s q.1 q.2)
    {next : Cell → Point → Direction → ℝ → (ℕ → ℝ) → ℝ≥0∞}
    (hn : ∀ c, Measurable fun q : Point × Direction × ℝ × (ℕ → ℝ) => next c q.1 q.2.1 q.2.2.1 q.2.2.2)
    (c : Cell) :
    Measurable fun q : Point × Direction × ℝ × (ℕ → ℝ) =>
      gasRound endless a b data w method hit next c q.1 q.2.1 q.2.2.1 q.2.2.2 := by
  cases hm : c.material with
  | none =>
    simp only [gasRound_none hm]
    exact measurable_const
  | some m =>
    simp only [gasRound_some hm, endless_rest, endless_number]
    have hx : Measurable fun q : Point × Direction × ℝ × (ℕ → ℝ) => q.1 := measurable_fst
    have hd : Measurable fun q : Point × Direction × ℝ × (ℕ → ℝ) => q.2.1 := by fun_prop
    have he : Measurable fun q : Point × Direction × ℝ × (ℕ → ℝ) => q.2.2.1 := by fun_prop
    have hu : Measurable fun q : Point × Direction × ℝ × (ℕ → ℝ) => q.2.2.2 := by fun_prop
    have hf : Measurable fun q : Point × Direction × ℝ × (ℕ → ℝ) =>
        -Real.log (1 - q.2.2.2 0) / collisionRate data m (heat c) q.2.2.1 := by
      have := measurable_at hu 0
      have := (measurable_collisionRate data m (heat c)).comp he
      simp only [Function.comp_def] at this
      fun_prop
    have hb := measurable_beyond c hx hd
    have h1 : Measurable fun q : (Point × Direction × ℝ × (ℕ → ℝ)) × Direction × ℝ × (ℕ → ℝ) =>
        along q.1.1 q.1.2.1 (-Real.log (1 - q.1.2.2.2 0) / collisionRate data m (heat c) q.1.2.2.1) :=
      Measurable.along (by fun_prop) (by fun_prop) (hf.comp measurable_fst)
    refine Measurable.ite (measurableSet_reaches' method (measurable_ahead c hx hd) hf) ?_ ?_
    · refine measurable_faced c hx hd fun s => ?_
      refine measurable_cellAt w hb fun c' _ => ?_
      exact ((hh s).comp (hd.prodMk he)).add
        ((hn c').comp (hb.prodMk (hd.prodMk (he.prodMk (measurable_shift hu 1)))))
    · refine measurable_afterGas h data m (heat c) ?_ ?_ hd he
        (measurable_shift hu (drawnBefore method))
      · exact (hn c).comp (h1.prodMk measurable_snd)
      · exact measurable_cellAt w h1 fun c' _ => (hn c').comp (h1.prodMk measurable_snd)

/-- The score depends measurably on everything. -/
theorem measurable_gasScore (h : Frames a b) (data : Nuclide → Continuous) (w : World) (method : Method)
    {hit : SurfaceObj → Direction → ℝ → ℝ≥0∞}
    (hh : ∀ s, Measurable fun q : Direction × ℝ => hit s q.1 q.2) (n : ℕ) (c : Cell) :
    Measurable fun q : Point × Direction × ℝ × (ℕ → ℝ) =>
      gasScore endless a b data w method hit n c q.1 q.2.1 q.2.2.1 q.2.2.2 := by
  induction n generalizing c with
  | zero => exact measurable_const
  | succ n ih =>
    simp only [gasScore_round]
    exact measurable_gasRound h data w method hh ih c

end Minimc
