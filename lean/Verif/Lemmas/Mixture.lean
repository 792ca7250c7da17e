import Verif.Lemmas.TurnLaw
import Verif.Spec.Mixture

/-! # Problems with the same matter -/

namespace Minimc

open Classical Spec MeasureTheory
open scoped ENNReal

/-! ### Places -/

section alike

variable {Q : Material → Material → Prop} {c c' : Cell} {w w' : World}

theorem alike_inCell (h : CellsAlike Q c c') (x : Point) : InCell c' x ↔ InCell c x := by
  unfold InCell
  rw [h.shape]

theorem alike_ahead (h : CellsAlike Q c c') (x : Point) (d : Direction) : ahead c' x d = ahead c x d := by
  unfold ahead
  rw [h.shape]

theorem alike_faced (h : CellsAlike Q c c') (x : Point) (d : Direction) : faced c' x d = faced c x d := by
  unfold faced
  rw [h.shape, alike_ahead h]

theorem alike_beyond (h : CellsAlike Q c c') (x : Point) (d : Direction) :
    beyond c' x d = beyond c x d := by
  unfold beyond
  rw [alike_ahead h]

theorem alike_find (x : Point) {l l' : List Cell} (h : List.Forall₂ (CellsAlike Q) l l') :
    ((l.find? fun c => decide (InCell c x)) = none ∧ (l'.find? fun c => decide (InCell c x)) = none) ∨
      ∃ c c', (l.find? fun c => decide (InCell c x)) = some c ∧
        (l'.find? fun c => decide (InCell c x)) = some c' ∧ CellsAlike Q c c' := by
  induction h with
  | nil => exact Or.inl ⟨rfl, rfl⟩
  | @cons c c' l l' hc _ ih =>
    by_cases hx : InCell c x
    · have hx' := (alike_inCell hc x).2 hx
      exact Or.inr ⟨c, c', by simp [hx], by simp [hx'], hc⟩
    · have hx' : ¬ InCell c' x := fun k => hx ((alike_inCell hc x).1 k)
      simpa [List.find?_cons, hx, hx'] using ih

theorem alike_cellAt (h : WorldsAlike Q w w') (x : Point) :
    (cellAt w x = none ∧ cellAt w' x = none) ∨
      ∃ c c', cellAt w x = some c ∧ cellAt w' x = some c' ∧ CellsAlike Q c c' :=
  alike_find x h

end alike

/-! ### Events -/

/-- What happens after a nuclide with the given data is chosen. -/
noncomputable def eventOn {σ : Type} (S : Supply σ) (G : ℕ) (data : List MgNode) (g : ℕ)
    (next start : Direction → ℕ → σ → ℝ≥0∞) (s : σ) : ℝ≥0∞ :=
  byWeight [specXS G data .capture g, specXS G data .scatter g, specXS G data .fission g]
    (S.numbers s 0) fun r =>
      if r = 1 then
        byWeight (colEntries G (scatterTable data) g) (S.numbers s 1) fun j =>
          next (directionFrom (S.numbers s 2) (S.numbers s 3)) (j + 1) (S.rest^[4] s)
      else if r = 2 then
        births S (colEntries G (chiTable data) g) start
          ⌊entry1 (nubarTable data) g + S.numbers s 1⌋₊ (S.rest^[2] s)
      else 0

theorem afterEvent_eventOn {σ : Type} (S : Supply σ) (G : ℕ) (nodes : Nuclide → List MgNode)
    (m : Material) (g : ℕ) (next start : Direction → ℕ → σ → ℝ≥0∞) (s : σ) :
    afterEvent S G nodes m g next start s =
      byWeight (m.afracs.map fun e => e.2 * specTotal G (nodes e.1) g) (S.number s) fun i =>
        m.afracs[i]?.elim 0 fun e => eventOn S G (nodes e.1) g next start (S.rest s) := rfl

/-! ### Choices along a list -/

/-- The value of the item into whose piece `θ` falls. -/
noncomputable def picked {α : Type} (weight : α → ℝ) (value : α → ℝ≥0∞) : List α → ℝ → ℝ≥0∞
  | [], _ => 0
  | e :: l, θ => (if 0 ≤ θ ∧ θ < weight e then value e else 0) + picked weight value l (θ - weight e)

theorem selected_cons_zero (x θ : ℝ) (ws : List ℝ) : Selected (x :: ws) θ 0 ↔ 0 ≤ θ ∧ θ < x := by
  simp [Selected]

theorem selected_cons_succ (x θ : ℝ) (ws : List ℝ) (i : ℕ) :
    Selected (x :: ws) θ (i + 1) ↔ Selected ws (θ - x) i := by
  unfold Selected
  simp only [List.length_cons, List.take_succ_cons, List.sum_cons, add_lt_add_iff_right]
  constructor
  · rintro ⟨h1, h2, h3⟩
    exact ⟨h1, by linarith, by linarith⟩
  · rintro ⟨h1, h2, h3⟩
    exact ⟨h1, by linarith, by linarith⟩

theorem sum_selected {α : Type} (weight : α → ℝ) (value : α → ℝ≥0∞) (l : List α) (θ : ℝ) :
    (∑ i ∈ Finset.range (l.map weight).length,
      if Selected (l.map weight) θ i then l[i]?.elim 0 value else 0) = picked weight value l θ := by
  induction l generalizing θ with
  | nil => simp [picked]
  | cons e l ih =>
    rw [List.map_cons, List.length_cons, Finset.sum_range_succ', picked, ← ih (θ - weight e), add_comm]
    congr 1
    · simp only [selected_cons_zero, List.getElem?_cons_zero, Option.elim_some]
    · refine Finset.sum_congr rfl fun i _ => ?_
      simp only [selected_cons_succ, List.getElem?_cons_succ]

theorem byWeight_picked {α : Type} (weight : α → ℝ) (value : α → ℝ≥0∞) (l : List α) (u : ℝ) :
    (byWeight (l.map weight) u fun i => l[i]?.elim 0 value) =
      picked weight value l (u * (l.map weight).sum) :=
  sum_selected weight value l _

theorem picked_parts {α : Type} {weight : α → ℝ} {value : α → ℝ≥0∞} {v : ℝ≥0∞} {parts : List α}
    (l : List α) (hw : ∀ p ∈ parts, 0 ≤ weight p) (hv : ∀ p ∈ parts, value p = v) (θ : ℝ) :
    picked weight value (parts ++ l) θ =
      (if 0 ≤ θ ∧ θ < (parts.map weight).sum then v else 0) +
        picked weight value l (θ - (parts.map weight).sum) := by
  induction parts generalizing θ with
  | nil =>
    have : ¬ (0 ≤ θ ∧ θ < 0) := fun h => absurd h.2 (not_lt.2 h.1)
    simp [this]
  | cons p parts ih =>
    have h0 := hw p (by simp)
    have h1 : 0 ≤ (parts.map weight).sum := List.sum_nonneg fun x hx => by
      obtain ⟨q, hq, rfl⟩ := List.mem_map.1 hx
      exact hw q (by simp [hq])
    rw [List.cons_append, picked, ih (fun q hq => hw q (by simp [hq])) (fun q hq => hv q (by simp [hq])),
      List.map_cons, List.sum_cons, ← add_assoc, hv p (by simp), sub_sub]
    congr 1
    by_cases a : 0 ≤ θ ∧ θ < weight p
    · rw [if_pos a, if_neg (fun k => by linarith [k.1, a.2]), if_pos ⟨a.1, by linarith [a.2]⟩, add_zero]
    · rw [if_neg a, zero_add]
      by_cases b : 0 ≤ θ ∧ θ < weight p + (parts.map weight).sum
      · rw [if_pos b, if_pos]
        have : weight p ≤ θ := not_lt.1 fun k => a ⟨b.1, k⟩
        exact ⟨by linarith, by linarith [b.2]⟩
      · rw [if_neg b, if_neg]
        rintro ⟨k1, k2⟩
        exact b ⟨by linarith, by linarith⟩

/-! ### Nuclides that are divided -/

variable {G : ℕ} {nodes nodes' : Nuclide → List MgNode}

theorem divided_sum {factor : ℝ} {l l' : List (Nuclide × ℝ)} (h : Divided nodes nodes' factor l l')
    (t : List MgNode → ℝ) :
    (l'.map fun e => e.2 * t (nodes' e.1)).sum = factor * (l.map fun e => e.2 * t (nodes e.1)).sum := by
  induction h with
  | nil => simp
  | @cons e parts l l' hp hs _ ih =>
    have e1 : parts.map (fun p => p.2 * t (nodes' p.1)) =
        (parts.map Prod.snd).map fun x => x * t (nodes e.1) := by
      rw [List.map_map]
      refine List.map_congr_left fun p hp' => ?_
      simp only [Function.comp, (hp p hp').2]
    rw [List.map_append, List.sum_append, ih, e1, List.sum_map_mul_right, List.map_id', hs,
      List.map_cons, List.sum_cons]
    ring

theorem divided_picked {factor : ℝ} (hk : 0 < factor) {l l' : List (Nuclide × ℝ)}
    (h : Divided nodes nodes' factor l l') {t : List MgNode → ℝ} (ht : ∀ e ∈ l, 0 ≤ t (nodes e.1))
    (v : List MgNode → ℝ≥0∞) (θ : ℝ) :
    picked (fun e => e.2 * t (nodes' e.1)) (fun e => v (nodes' e.1)) l' (factor * θ) =
      picked (fun e => e.2 * t (nodes e.1)) (fun e => v (nodes e.1)) l θ := by
  induction h generalizing θ with
  | nil => rfl
  | @cons e parts l l' hp hs hl ih =>
    have h0 := ht e (by simp)
    have e1 : (parts.map (fun p => p.2 * t (nodes' p.1))).sum = factor * (e.2 * t (nodes e.1)) := by
      have := divided_sum (Divided.cons hp hs Divided.nil) t
      simpa using this
    rw [picked_parts (v := v (nodes e.1)) l' (fun p hp' => ?_) (fun p hp' => by rw [(hp p hp').2]), e1,
      ← mul_sub, ih (fun q hq => ht q (by simp [hq])), picked]
    · congr 1
      simp only [mul_nonneg_iff_of_pos_left hk, mul_lt_mul_iff_right₀ hk]
    · rw [(hp p hp').2]
      exact mul_nonneg (hp p hp').1 h0

theorem divided_macroscopic {m m' : Material} (h : DividedMaterial nodes nodes' m m') (g : ℕ) :
    macroscopic G nodes' g m' = macroscopic G nodes g m := by
  obtain ⟨k, -, h1, h2⟩ := h
  unfold macroscopic
  rw [divided_sum h2 fun data => specTotal G data g, ← mul_assoc, h1]

theorem divided_afterEvent {σ : Type} (S : Supply σ) {m m' : Material}
    (h : DividedMaterial nodes nodes' m m') (hN : ∀ e ∈ m.afracs, NonnegNodes (nodes e.1)) (g : ℕ)
    (next start : Direction → ℕ → σ → ℝ≥0∞) (s : σ) :
    afterEvent S G nodes' m' g next start s = afterEvent S G nodes m g next start s := by
  obtain ⟨k, hk, -, h2⟩ := h
  have e1 := byWeight_picked (fun e : Nuclide × ℝ => e.2 * specTotal G (nodes e.1) g)
    (fun e => eventOn S G (nodes e.1) g next start (S.rest s)) m.afracs (S.number s)
  have e2 := byWeight_picked (fun e : Nuclide × ℝ => e.2 * specTotal G (nodes' e.1) g)
    (fun e => eventOn S G (nodes' e.1) g next start (S.rest s)) m'.afracs (S.number s)
  rw [afterEvent_eventOn, afterEvent_eventOn]
  rw [e1, e2, divided_sum h2 fun data => specTotal G data g, mul_left_comm]
  exact divided_picked hk h2 (t := fun data => specTotal G data g)
    (fun e he => by
      have := fun r => specXS_nonneg' (hN e he) G r g
      exact add_nonneg (add_nonneg (this _) (this _)) (this _))
    (fun data => eventOn S G data g next start (S.rest s)) _

/-- A neutron and its descendants, with the same numbers. -/
theorem divided_chain {σ : Type} (S : Supply σ) {w w' : World} (hw : WellPosed G nodes w)
    (h : WorldsAlike (DividedMaterial nodes nodes') w w') (method : Method)
    (hit : SurfaceObj → Direction → ℕ → ℝ≥0∞) (n : ℕ) {c c' : Cell} (hc : c ∈ w.cells)
    (hcc : CellsAlike (DividedMaterial nodes nodes') c c') (x : Point) (d : Direction) (g : ℕ) (s : σ) :
    chainScore S G nodes' w' method hit n c' x d g s = chainScore S G nodes w method hit n c x d g s := by
  induction n generalizing c c' x d g s with
  | zero => rfl
  | succ n ih =>
    simp only [chainScore, oneRound]
    rcases hcc.material with ⟨h1, h2⟩ | ⟨m, m', h1, h2, hm⟩
    · simp only [h1, h2, Option.elim_none]
    · have hN : ∀ e ∈ m.afracs, NonnegNodes (nodes e.1) := fun e he => by
        obtain ⟨_, _, _, _, h, _⟩ := hw.data c hc m h1 e he
        exact h
      rw [h1, h2]
      simp only [Option.elim_some]
      rw [alike_ahead hcc, alike_faced hcc, alike_beyond hcc, divided_macroscopic hm,
        divided_afterEvent S hm hN]
      have hnew : ∀ y : Point, (fun (d' : Direction) (g' : ℕ) (s' : σ) =>
          (cellAt w' y).elim 0 fun c' => chainScore S G nodes' w' method hit n c' y d' g' s') =
          fun d' g' s' => (cellAt w y).elim 0 fun c' => chainScore S G nodes w method hit n c' y d' g' s' := by
        intro y
        funext d' g' s'
        rcases alike_cellAt h y with ⟨k1, k2⟩ | ⟨a, a', k1, k2, ha⟩
        · simp only [k1, k2, Option.elim_none]
        · simp only [k1, k2, Option.elim_some]
          exact ih (cellAt_mem k1) ha y d' g' s'
      have hnext : ∀ y : Point, chainScore S G nodes' w' method hit n c' y =
          chainScore S G nodes w method hit n c y := by
        intro y
        funext d' g' s'
        exact ih hc hcc y d' g' s'
      rw [hnew, hnext]
      split_ifs
      · cases faced c x d with
        | none => simp only [Option.elim_none]
        | some f =>
          simp only [Option.elim_some]
          rcases alike_cellAt h (beyond c x d) with ⟨k1, k2⟩ | ⟨a, a', k1, k2, ha⟩
          · simp only [k1, k2, Option.elim_none]
          · simp only [k1, k2, Option.elim_some]
            rw [ih (cellAt_mem k1) ha]
      · rfl

end Minimc
