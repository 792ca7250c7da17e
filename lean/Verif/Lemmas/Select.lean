import Verif.Model.Particle
import Verif.Spec.Select

/-! # Lemmas on the selection loop -/

namespace Minimc

open Spec

theorem take_sum_mono {ws : List ℝ} (hnn : ∀ w ∈ ws, 0 ≤ w) {i j : ℕ} (h : i ≤ j) :
    (ws.take i).sum ≤ (ws.take j).sum := by
  have e : ws.take j = ws.take i ++ (ws.take j).drop i := by
    conv_lhs => rw [← List.take_append_drop i (ws.take j), List.take_take, min_eq_left h]
  rw [e, List.sum_append]
  have : 0 ≤ ((ws.take j).drop i).sum := by
    apply List.sum_nonneg
    intro x hx
    exact hnn x (List.mem_of_mem_take (List.mem_of_mem_drop hx))
  linarith

theorem Selected.unique {ws : List ℝ} (hnn : ∀ w ∈ ws, 0 ≤ w) {θ : ℝ} {i j : ℕ}
    (hi : Selected ws θ i) (hj : Selected ws θ j) : i = j := by
  rcases lt_trichotomy i j with h | h | h
  · have := take_sum_mono hnn (show i + 1 ≤ j by omega)
    linarith [hi.2.2, hj.2.1]
  · exact h
  · have := take_sum_mono hnn (show j + 1 ≤ i by omega)
    linarith [hj.2.2, hi.2.1]

theorem Selected.exists {ws : List ℝ} {θ : ℝ} (h0 : 0 ≤ θ) (h1 : θ < ws.sum) :
    ∃ i, Selected ws θ i := by
  classical
  have hex : ∃ k, θ < (ws.take k).sum := ⟨ws.length, by simpa using h1⟩
  have hpos : Nat.find hex ≠ 0 := by
    intro h
    have := Nat.find_spec hex
    rw [h] at this
    simp at this
    linarith
  obtain ⟨k, hk⟩ := Nat.exists_eq_succ_of_ne_zero hpos
  have hspec := Nat.find_spec hex
  have hmin := Nat.find_min hex (m := k) (by omega)
  rw [hk] at hspec
  push Not at hmin
  refine ⟨k, ?_, hmin, hspec⟩
  by_contra hlen
  push Not at hlen
  rw [List.take_of_length_le (by omega)] at hspec
  rw [List.take_of_length_le hlen] at hmin
  linarith

theorem Selected.pos {ws : List ℝ} {θ : ℝ} {i : ℕ} (h : Selected ws θ i) :
    ∃ w, ws[i]? = some w ∧ 0 < w := by
  obtain ⟨hl, h1, h2⟩ := h
  refine ⟨ws[i], by simp [hl], ?_⟩
  rw [List.take_add_one, List.sum_append] at h2
  simp [hl] at h2
  linarith

variable {α : Type _} {f : α → Res ℝ} {w : α → ℝ}

theorem selectLoop_of_selected {θ : ℝ} :
    ∀ {xs : List α} {acc : ℝ} (_ : ∀ x ∈ xs, f x = .ok (w x)) (_ : ∀ x ∈ xs, 0 ≤ w x) {i : ℕ}
      (_ : Selected (xs.map w) (θ - acc) i), selectLoop f θ acc xs = .ok (xs[i]?)
  | [], _, _, _, i, h => by simpa using h.1
  | x :: xs, acc, hf, hnn, i, h => by
    rw [selectLoop, hf x (by simp)]
    simp only [bind, Except.bind]
    rcases i with _ | i
    · have := h.2.2
      simp at this
      rw [if_pos (by linarith)]
      simp
    · have hle : w x ≤ θ - acc := by
        have := h.2.1
        simp only [List.map_cons, List.take_succ_cons, List.sum_cons] at this
        have h0 : 0 ≤ ((xs.map w).take i).sum := by
          apply List.sum_nonneg
          intro y hy
          obtain ⟨z, hz, rfl⟩ := List.mem_map.1 (List.mem_of_mem_take hy)
          exact hnn z (by simp [hz])
        linarith
      rw [if_neg (by linarith)]
      rw [selectLoop_of_selected (fun y hy => hf y (by simp [hy]))
        (fun y hy => hnn y (by simp [hy])) (i := i)]
      · simp
      · obtain ⟨h1, h2, h3⟩ := h
        simp only [List.map_cons, List.take_succ_cons, List.sum_cons, List.length_cons] at h1 h2 h3
        exact ⟨by omega, by linarith, by linarith⟩

theorem selectLoop_none {θ : ℝ} :
    ∀ {xs : List α} {acc : ℝ} (_ : ∀ x ∈ xs, f x = .ok (w x)) (_ : ∀ x ∈ xs, 0 ≤ w x)
      (_ : (xs.map w).sum ≤ θ - acc), selectLoop f θ acc xs = .ok none
  | [], _, _, _, _ => rfl
  | x :: xs, acc, hf, hnn, h => by
    rw [selectLoop, hf x (by simp)]
    simp only [bind, Except.bind]
    simp only [List.map_cons, List.sum_cons] at h
    have h0 : 0 ≤ (xs.map w).sum := by
      apply List.sum_nonneg
      intro y hy
      obtain ⟨z, hz, rfl⟩ := List.mem_map.1 hy
      exact hnn z (by simp [hz])
    rw [if_neg (by linarith)]
    exact selectLoop_none (fun y hy => hf y (by simp [hy])) (fun y hy => hnn y (by simp [hy]))
      (by linarith)

/-- With distinct items, item `i` is returned exactly when the threshold falls into its
piece. -/
theorem selectLoop_eq_some_iff {xs : List α} {θ : ℝ} (hf : ∀ x ∈ xs, f x = .ok (w x))
    (hnn : ∀ x ∈ xs, 0 ≤ w x) (hθ : 0 ≤ θ) (hnd : xs.Nodup) {i : ℕ} (hi : i < xs.length) :
    selectLoop f θ 0 xs = .ok (some xs[i]) ↔ Selected (xs.map w) θ i := by
  constructor
  · intro h
    by_cases hs : θ < (xs.map w).sum
    · obtain ⟨j, hj⟩ := Selected.exists hθ hs
      have hjl : j < xs.length := by simpa using hj.1
      have := selectLoop_of_selected (acc := 0) (θ := θ) hf hnn (by simpa using hj)
      rw [h] at this
      simp only [Except.ok.injEq] at this
      rw [List.getElem?_eq_getElem hjl] at this
      have hij : i = j := (hnd.getElem_inj_iff).1 (Option.some.inj this)
      exact hij ▸ hj
    · rw [selectLoop_none hf hnn (by simpa using hs)] at h
      simp at h
  · intro h
    rw [selectLoop_of_selected (acc := 0) hf hnn (by simpa using h)]
    simp [hi]

/-- Every threshold below the sum of the weights selects an item of positive weight. -/
theorem selectLoop_exists {xs : List α} {θ : ℝ} (hf : ∀ x ∈ xs, f x = .ok (w x))
    (hnn : ∀ x ∈ xs, 0 ≤ w x) (h0 : 0 ≤ θ) (h1 : θ < (xs.map w).sum) :
    ∃ x ∈ xs, selectLoop f θ 0 xs = .ok (some x) ∧ 0 < w x := by
  obtain ⟨i, hi⟩ := Selected.exists h0 h1
  have hil : i < xs.length := by simpa using hi.1
  refine ⟨xs[i], List.getElem_mem hil, ?_, ?_⟩
  · rw [selectLoop_of_selected (acc := 0) hf hnn (by simpa using hi)]
    simp [hil]
  · obtain ⟨v, hv, hpos⟩ := Selected.pos hi
    simp [hil] at hv
    rw [hv]; exact hpos

theorem prob_selected {ws : List ℝ} (hnn : ∀ w ∈ ws, 0 ≤ w) (hpos : 0 < ws.sum) {i : ℕ}
    (hi : i < ws.length) :
    prob {u | Selected ws (u * ws.sum) i} = ENNReal.ofReal (ws[i] / ws.sum) := by
  have hset : {u | Selected ws (u * ws.sum) i} ∩ Set.Ico 0 1
      = Set.Ico ((ws.take i).sum / ws.sum) ((ws.take (i + 1)).sum / ws.sum) := by
    ext u
    simp only [Set.mem_inter_iff, Set.mem_ofPred_eq, Set.mem_Ico, Selected]
    have e0 : 0 ≤ (ws.take i).sum := by
      simpa using take_sum_mono hnn (show 0 ≤ i by omega)
    have e1 : (ws.take (i + 1)).sum ≤ ws.sum := by
      have := take_sum_mono hnn (show i + 1 ≤ ws.length by omega)
      rwa [List.take_length] at this
    constructor
    · rintro ⟨⟨_, h1, h2⟩, _⟩
      exact ⟨(div_le_iff₀ hpos).2 h1, (lt_div_iff₀ hpos).2 h2⟩
    · rintro ⟨h1, h2⟩
      rw [div_le_iff₀ hpos] at h1
      rw [lt_div_iff₀ hpos] at h2
      refine ⟨⟨hi, h1, h2⟩, ?_, ?_⟩
      · by_contra hu
        push Not at hu
        nlinarith
      · by_contra hu
        push Not at hu
        nlinarith
  rw [prob, hset, Real.volume_Ico]
  congr 1
  rw [List.take_add_one, List.sum_append]
  simp only [List.getElem?_eq_getElem hi, Option.toList_some, List.sum_cons, List.sum_nil, add_zero]
  rw [← sub_div]
  congr 1
  ring

theorem sumLoop_ok :
    ∀ {xs : List α} {acc : ℝ} (_ : ∀ x ∈ xs, f x = .ok (w x)),
      sumLoop f acc xs = .ok (acc + (xs.map w).sum)
  | [], acc, _ => by simp [sumLoop]
  | x :: xs, acc, hf => by
    rw [sumLoop, hf x (by simp)]
    simp only [bind, Except.bind]
    rw [sumLoop_ok (fun y hy => hf y (by simp [hy]))]
    simp [add_assoc]

end Minimc
