import Verif.Model.Search

/-! # Lemmas about bisection -/

namespace Minimc

theorem upperBound_zero (after : ℕ → Bool) (first : ℕ) : upperBound after first 0 = first := by
  rw [upperBound]
  simp

theorem upperBound_pos (after : ℕ → Bool) (first : ℕ) {len : ℕ} (h : len ≠ 0) :
    upperBound after first len = if after (first + len / 2) then upperBound after first (len / 2)
      else upperBound after (first + len / 2 + 1) (len - len / 2 - 1) := by
  rw [upperBound, if_neg h]

/-- The result is in the range, the value belongs before the entry found and not before the one
preceding it. -/
theorem upperBound_spec (after : ℕ → Bool) : ∀ (len first : ℕ),
    first ≤ upperBound after first len ∧ upperBound after first len ≤ first + len ∧
    (upperBound after first len < first + len → after (upperBound after first len) = true) ∧
    (first < upperBound after first len → after (upperBound after first len - 1) = false) := by
  intro len
  induction len using Nat.strong_induction_on with
  | _ len ih =>
    intro first
    rcases Nat.eq_zero_or_pos len with rfl | hpos
    · rw [upperBound_zero]
      exact ⟨le_rfl, by omega, fun h => by omega, fun h => by omega⟩
    · rw [upperBound_pos after first (by omega)]
      split_ifs with h
      · obtain ⟨h1, h2, h3, h4⟩ := ih (len / 2) (by omega) first
        refine ⟨h1, by omega, fun _ => ?_, h4⟩
        rcases h2.lt_or_eq with h5 | h5
        · exact h3 h5
        · rw [h5]; exact h
      · obtain ⟨h1, h2, h3, h4⟩ := ih (len - len / 2 - 1) (by omega) (first + len / 2 + 1)
        refine ⟨by omega, by omega, fun h5 => h3 (by omega), fun _ => ?_⟩
        rcases h1.lt_or_eq with h5 | h5
        · exact h4 h5
        · rw [← h5]
          simpa using h

/-- Bisection finds the only place where an ordered range changes. -/
theorem upperBound_eq {after : ℕ → Bool} {first len k : ℕ} (h0 : first ≤ k) (hk : k ≤ first + len)
    (h1 : ∀ i, first ≤ i → i < k → after i = false)
    (h2 : ∀ i, k ≤ i → i < first + len → after i = true) : upperBound after first len = k := by
  obtain ⟨a1, a2, a3, a4⟩ := upperBound_spec after len first
  by_contra hne
  rcases Nat.lt_or_gt_of_ne hne with h | h
  · have := h1 _ a1 h
    rw [a3 (by omega)] at this
    cases this
  · have := h2 (upperBound after first len - 1) (by omega) (by omega)
    rw [a4 (by omega)] at this
    cases this

theorem getD_of_lt {α : Type} {l : List α} {i : ℕ} (d : α) (h : i < l.length) : l.getD i d = l[i] := by
  simp [List.getD, h]

theorem upperIdx_le_length (l : List ℝ) (x : ℝ) : upperIdx l x ≤ l.length := by
  have := (upperBound_spec (fun i => decide (x < l.getD i 0)) l.length 0).2.1
  unfold upperIdx
  omega

theorem upperIdx_nil (x : ℝ) : upperIdx [] x = 0 := by
  unfold upperIdx
  rw [List.length_nil, upperBound_zero]

/-- The upper index is determined by what is before it and from it on. -/
theorem upperIdx_eq {l : List ℝ} {x : ℝ} {n : ℕ} (hn : n ≤ l.length)
    (h1 : ∀ i a, i < n → l[i]? = some a → a ≤ x) (h2 : ∀ i a, n ≤ i → l[i]? = some a → x < a) :
    upperIdx l x = n := by
  refine upperBound_eq (Nat.zero_le _) (by omega) ?_ ?_
  · intro i _ hi
    have := h1 i l[i] hi (List.getElem?_eq_getElem (by omega))
    rw [getD_of_lt 0 (by omega)]
    exact decide_eq_false (not_lt.2 this)
  · intro i hi hl
    have := h2 i l[i] hi (List.getElem?_eq_getElem (by omega))
    rw [getD_of_lt 0 (by omega)]
    exact decide_eq_true this

theorem upperIdx_after {l : List ℝ} {x a : ℝ} (ha : l[upperIdx l x]? = some a) : x < a := by
  obtain ⟨hl, hg⟩ := List.getElem?_eq_some_iff.1 ha
  have := (upperBound_spec (fun i => decide (x < l.getD i 0)) l.length 0).2.2.1
    (by unfold upperIdx at hl; omega)
  have h2 := of_decide_eq_true this
  have e : upperBound (fun i => decide (x < l.getD i 0)) 0 l.length = upperIdx l x := rfl
  rw [e, getD_of_lt 0 hl, hg] at h2
  exact h2

/-- The entry before the one found is not above. -/
theorem upperIdx_pred {l : List ℝ} {x a : ℝ} {i : ℕ} (h : i + 1 = upperIdx l x)
    (ha : l[i]? = some a) : a ≤ x := by
  obtain ⟨hl, hg⟩ := List.getElem?_eq_some_iff.1 ha
  have := (upperBound_spec (fun i => decide (x < l.getD i 0)) l.length 0).2.2.2
    (by unfold upperIdx at h; omega)
  have e : upperBound (fun i => decide (x < l.getD i 0)) 0 l.length = upperIdx l x := rfl
  have h2 := of_decide_eq_false this
  rw [e, ← h, Nat.add_sub_cancel, getD_of_lt 0 hl, hg] at h2
  exact not_lt.1 h2

/-- In an increasing list, so are all before it. -/
theorem upperIdx_before {l : List ℝ} (hs : l.Pairwise (· < ·)) {x : ℝ} {i : ℕ} {a : ℝ}
    (h : i < upperIdx l x) (ha : l[i]? = some a) : a ≤ x := by
  have hle := upperIdx_le_length l x
  obtain ⟨hl, hg⟩ := List.getElem?_eq_some_iff.1 ha
  set j := upperIdx l x - 1 with hj
  have hjl : j < l.length := by omega
  have hp := upperIdx_pred (l := l) (x := x) (i := j) (by omega) (List.getElem?_eq_getElem hjl)
  rcases (show i ≤ j by omega).eq_or_lt with rfl | hij
  · rw [← hg]; exact hp
  · have := (List.pairwise_iff_getElem.1 hs) i j hl hjl hij
    rw [hg] at this
    linarith

theorem upperIdxNat_le_length (l : List ℕ) (x : ℕ) : upperIdxNat l x ≤ l.length := by
  have := (upperBound_spec (fun i => decide (x < l.getD i 0)) l.length 0).2.1
  unfold upperIdxNat
  omega

theorem upperIdxNat_after {l : List ℕ} {x a : ℕ} (ha : l[upperIdxNat l x]? = some a) : x < a := by
  obtain ⟨hl, hg⟩ := List.getElem?_eq_some_iff.1 ha
  have := (upperBound_spec (fun i => decide (x < l.getD i 0)) l.length 0).2.2.1
    (by unfold upperIdxNat at hl; omega)
  have h2 := of_decide_eq_true this
  have e : upperBound (fun i => decide (x < l.getD i 0)) 0 l.length = upperIdxNat l x := rfl
  rw [e, getD_of_lt 0 hl, hg] at h2
  exact h2

theorem upperIdxNat_pred {l : List ℕ} {x a i : ℕ} (h : i + 1 = upperIdxNat l x)
    (ha : l[i]? = some a) : a ≤ x := by
  obtain ⟨hl, hg⟩ := List.getElem?_eq_some_iff.1 ha
  have := (upperBound_spec (fun i => decide (x < l.getD i 0)) l.length 0).2.2.2
    (by unfold upperIdxNat at h; omega)
  have e : upperBound (fun i => decide (x < l.getD i 0)) 0 l.length = upperIdxNat l x := rfl
  have h2 := of_decide_eq_false this
  rw [e, ← h, Nat.add_sub_cancel, getD_of_lt 0 hl, hg] at h2
  exact not_lt.1 h2

end Minimc
