import Verif.Lemmas.Mixture
import Verif.Spec.Units

/-! # Group data in other units -/

namespace Minimc

open Classical Spec MeasureTheory
open scoped ENNReal

theorem sum_map_scale (k : ℝ) (l : List ℝ) : (l.map (k * ·)).sum = k * l.sum := by
  induction l with
  | nil => simp
  | cons x l ih => rw [List.map_cons, List.sum_cons, List.sum_cons, ih, mul_add]

theorem selected_times {ws : List ℝ} {k θ : ℝ} (hk : 0 < k) (i : ℕ) :
    Selected (ws.map (k * ·)) (k * θ) i ↔ Selected ws θ i := by
  unfold Selected
  rw [List.length_map, ← List.map_take, ← List.map_take, sum_map_scale, sum_map_scale,
    mul_le_mul_iff_right₀ hk, mul_lt_mul_iff_right₀ hk]

theorem selected_weight {ws : List ℝ} {θ : ℝ} {i : ℕ} (h : Selected ws θ i) : ∃ x, ws[i]? = some x ∧ 0 < x := by
  obtain ⟨h1, h2, h3⟩ := h
  refine ⟨ws[i], List.getElem?_eq_getElem h1, ?_⟩
  rw [List.sum_take_succ ws i h1] at h3
  linarith

/-- Choices do not depend on the unit of the weights, nor on what would happen with items of no weight. -/
theorem byWeight_times {ws ws' : List ℝ} {k : ℝ} (hk : 0 < k) (hws : ws' = ws.map (k * ·)) (u : ℝ)
    {F F' : ℕ → ℝ≥0∞} (hF : ∀ i x, ws[i]? = some x → 0 < x → F' i = F i) :
    byWeight ws' u F' = byWeight ws u F := by
  subst hws
  unfold byWeight
  rw [List.length_map, sum_map_scale, mul_left_comm]
  refine Finset.sum_congr rfl fun i _ => ?_
  simp only [selected_times hk]
  split_ifs with h
  · obtain ⟨x, h1, h2⟩ := selected_weight h
    exact hF i x h1 h2
  · rfl

variable {G : ℕ} {nodes nodes' : Nuclide → List MgNode}

theorem colEntries_times {flat flat' : List ℝ} {k : ℝ} {g : ℕ}
    (h : ∀ g', 1 ≤ g' → g' ≤ G → entry2 G flat' g g' = k * entry2 G flat g g') :
    colEntries G flat' g = (colEntries G flat g).map (k * ·) := by
  unfold colEntries
  rw [List.map_map]
  refine List.map_congr_left fun g' hg' => ?_
  rw [List.mem_range'_1] at hg'
  exact h g' hg'.1 (by omega)

theorem colEntries_index {flat : List ℝ} {g j : ℕ} {x : ℝ} (h : (colEntries G flat g)[j]? = some x) : j < G := by
  have := (List.getElem?_eq_some_iff.1 h).1
  simpa [colEntries] using this

theorem births_times {σ : Type} (S : Supply σ) {flat flat' : List ℝ} {k : ℝ} (hk : 0 < k) {g : ℕ}
    (h : ∀ g', 1 ≤ g' → g' ≤ G → entry2 G flat' g g' = k * entry2 G flat g g')
    {start start' : Direction → ℕ → σ → ℝ≥0∞}
    (hs : ∀ d g' s, 1 ≤ g' → g' ≤ G → start' d g' s = start d g' s) (n : ℕ) (s : σ) :
    births S (colEntries G flat' g) start' n s = births S (colEntries G flat g) start n s := by
  induction n generalizing s with
  | zero => rfl
  | succ n ih =>
    unfold births
    refine byWeight_times hk (colEntries_times h) _ fun j x hx _ => ?_
    rw [hs _ _ _ (by omega) (colEntries_index hx), ih]

theorem restated_total {k : ℝ} {data data' : List MgNode} (h : Restated G k data data') {g : ℕ} (h1 : 1 ≤ g)
    (h2 : g ≤ G) : specTotal G data' g = k * specTotal G data g := by
  unfold specTotal
  rw [h.reaction _ g h1 h2, h.reaction _ g h1 h2, h.reaction _ g h1 h2]
  ring

theorem restated_eventOn {σ : Type} (S : Supply σ) {k : ℝ} (hk : 0 < k) {data data' : List MgNode}
    (h : Restated G k data data') {g : ℕ} (h1 : 1 ≤ g) (h2 : g ≤ G)
    {next next' start start' : Direction → ℕ → σ → ℝ≥0∞}
    (hn : ∀ d g' s, 1 ≤ g' → g' ≤ G → next' d g' s = next d g' s)
    (hs : ∀ d g' s, 1 ≤ g' → g' ≤ G → start' d g' s = start d g' s) (s : σ) :
    eventOn S G data' g next' start' s = eventOn S G data g next start s := by
  unfold eventOn
  refine byWeight_times hk (by simp [h.reaction _ g h1 h2]) _ fun r x hx hpos => ?_
  split_ifs with r1 r2
  · refine byWeight_times hk (colEntries_times fun g' k1 k2 => h.transfer g g' h1 h2 k1 k2) _
      fun j y hy _ => ?_
    exact hn _ _ _ (by omega) (colEntries_index hy)
  · subst r2
    have hf : 0 < specXS G data .fission g := by
      simp only [List.getElem?_cons_succ, List.getElem?_cons_zero, Option.some.injEq] at hx
      rwa [hx]
    obtain ⟨t, ht, hspec⟩ := h.spectrum g h1 h2 hf
    rw [h.yield g h1 h2 hf]
    exact births_times S ht hspec hs _ _
  · rfl

theorem restated_weights {factor : ℝ} {g : ℕ} (h1 : 1 ≤ g) (h2 : g ≤ G) {l l' : List (Nuclide × ℝ)}
    (h : List.Forall₂ (fun e e' : Nuclide × ℝ => ∃ k, 0 < k ∧ Restated G k (nodes e.1) (nodes' e'.1) ∧
      e'.2 * k = factor * e.2) l l') :
    l'.map (fun e => e.2 * specTotal G (nodes' e.1) g) =
      (l.map fun e => e.2 * specTotal G (nodes e.1) g).map (factor * ·) := by
  induction h with
  | nil => rfl
  | cons he _ ih =>
    obtain ⟨k, -, hr, hk⟩ := he
    simp only [List.map_cons]
    rw [ih, restated_total hr h1 h2, ← mul_assoc, hk, mul_assoc]

theorem restated_macroscopic {m m' : Material} (h : RestatedMaterial G nodes nodes' m m') {g : ℕ} (h1 : 1 ≤ g)
    (h2 : g ≤ G) : macroscopic G nodes' g m' = macroscopic G nodes g m := by
  obtain ⟨k, -, hd, hf⟩ := h
  unfold macroscopic
  rw [restated_weights h1 h2 hf, sum_map_scale, ← mul_assoc, hd]

theorem restated_afterEvent {σ : Type} (S : Supply σ) {m m' : Material}
    (h : RestatedMaterial G nodes nodes' m m') {g : ℕ} (h1 : 1 ≤ g) (h2 : g ≤ G)
    {next next' start start' : Direction → ℕ → σ → ℝ≥0∞}
    (hn : ∀ d g' s, 1 ≤ g' → g' ≤ G → next' d g' s = next d g' s)
    (hs : ∀ d g' s, 1 ≤ g' → g' ≤ G → start' d g' s = start d g' s) (s : σ) :
    afterEvent S G nodes' m' g next' start' s = afterEvent S G nodes m g next start s := by
  obtain ⟨k, hk, -, hf⟩ := h
  rw [afterEvent_eventOn, afterEvent_eventOn]
  refine byWeight_times hk (restated_weights h1 h2 hf) _ fun i x hx _ => ?_
  have hi : i < m.afracs.length := by simpa using (List.getElem?_eq_some_iff.1 hx).1
  have hi' : i < m'.afracs.length := hf.length_eq ▸ hi
  rw [List.getElem?_eq_getElem hi, List.getElem?_eq_getElem hi', Option.elim_some, Option.elim_some]
  obtain ⟨c, hc, hr, -⟩ := (List.forall₂_iff_get.1 hf).2 i hi hi'
  exact restated_eventOn S hc hr h1 h2 hn hs _

/-- A neutron and its descendants, with the same numbers. -/
theorem restated_chain {σ : Type} (S : Supply σ) {w w' : World}
    (h : WorldsAlike (RestatedMaterial G nodes nodes') w w') (method : Method)
    (hit : SurfaceObj → Direction → ℕ → ℝ≥0∞) (n : ℕ) {c c' : Cell}
    (hcc : CellsAlike (RestatedMaterial G nodes nodes') c c') (x : Point) (d : Direction) {g : ℕ} (h1 : 1 ≤ g)
    (h2 : g ≤ G) (s : σ) :
    chainScore S G nodes' w' method hit n c' x d g s = chainScore S G nodes w method hit n c x d g s := by
  induction n generalizing c c' x d g s with
  | zero => rfl
  | succ n ih =>
    simp only [chainScore, oneRound]
    rcases hcc.material with ⟨k1, k2⟩ | ⟨m, m', k1, k2, hm⟩
    · simp only [k1, k2, Option.elim_none]
    · rw [k1, k2]
      simp only [Option.elim_some]
      rw [alike_ahead hcc, alike_faced hcc, alike_beyond hcc, restated_macroscopic hm h1 h2]
      rw [restated_afterEvent S hm h1 h2 (fun d' g' s' a1 a2 => ih hcc _ d' a1 a2 s') fun d' g' s' a1 a2 => ?_]
      · split_ifs
        · cases faced c x d with
          | none => simp only [Option.elim_none]
          | some f =>
            simp only [Option.elim_some]
            rcases alike_cellAt h (beyond c x d) with ⟨k1, k2⟩ | ⟨a, a', k1, k2, ha⟩
            · simp only [k1, k2, Option.elim_none]
            · simp only [k1, k2, Option.elim_some]
              rw [ih ha _ _ h1 h2]
        · rfl
      · rcases alike_cellAt h (along x d (-Real.log (1 - S.number s) / macroscopic G nodes g m)) with
          ⟨k1, k2⟩ | ⟨a, a', k1, k2, ha⟩
        · simp only [k1, k2, Option.elim_none]
        · simp only [k1, k2, Option.elim_some]
          exact ih ha _ d' a1 a2 s'

end Minimc
