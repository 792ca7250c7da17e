import Verif.Lemmas.Search
import Verif.Spec.Bins
import Mathlib.Data.List.Chain
import Mathlib.Data.List.Pairwise

/-! # Lemmas about bins -/

namespace Minimc

open Classical Spec

theorem countP_range_lt (n k : ℕ) (p : ℕ → Bool) (h : ∀ i, p i = true ↔ i < k) (hk : k ≤ n) :
    (List.range n).countP p = k := by
  induction n generalizing k with
  | zero => simp; omega
  | succ n ih =>
    rw [List.range_succ, List.countP_append]
    by_cases hkn : k = n + 1
    · have h' : (List.range n).countP p = n := by
        rw [List.countP_eq_length.2, List.length_range]
        intro a ha; rw [h]; have := List.mem_range.1 ha; omega
      have : p n = true := by rw [h]; omega
      simp [h', this]; omega
    · have : p n = false := by
        rw [Bool.eq_false_iff]; intro hc; rw [h] at hc; omega
      rw [ih k h (by omega)]; simp [this]

/-- The count of equally spaced boundaries not above `v` is the computed index. -/
theorem spaceIndex_eq_count {bins : ℕ} {lo hi v : ℝ} (hb : 1 ≤ bins) (h : lo < hi)
    (p : ℕ → Bool)
    (hp : ∀ i, p i = true ↔ lo + (i : ℝ) * ((hi - lo) / (bins : ℝ)) ≤ v) :
    Bins.spaceIndex (bins + 2) lo hi ((hi - lo) / (bins : ℝ)) v
      = (List.range (bins + 1)).countP p := by
  have hbpos : (0 : ℝ) < bins := by exact_mod_cast hb
  have hw : 0 < (hi - lo) / (bins : ℝ) := div_pos (by linarith) hbpos
  unfold Bins.spaceIndex
  split_ifs with h1 h2
  · symm
    rw [List.countP_eq_zero]
    intro i _ hi'
    rw [hp] at hi'
    have : 0 ≤ (i : ℝ) * ((hi - lo) / (bins : ℝ)) := by positivity
    linarith
  · have : (List.range (bins + 1)).countP p = bins + 1 := by
      rw [List.countP_eq_length.2, List.length_range]
      intro i hi'
      rw [hp]
      have hi'' : (i : ℝ) ≤ bins := by
        have := List.mem_range.1 hi'
        exact_mod_cast Nat.lt_succ_iff.1 this
      have : (i : ℝ) * ((hi - lo) / (bins : ℝ)) ≤ bins * ((hi - lo) / (bins : ℝ)) :=
        mul_le_mul_of_nonneg_right hi'' hw.le
      have h3 : (bins : ℝ) * ((hi - lo) / (bins : ℝ)) = hi - lo := by field_simp
      linarith
    rw [this]; omega
  · push Not at h1 h2
    set w := (hi - lo) / (bins : ℝ) with hwdef
    have hx0 : 0 ≤ (v - lo) / w := div_nonneg (by linarith) hw.le
    have hwb : w * bins = hi - lo := by rw [hwdef]; field_simp
    have hx1 : (v - lo) / w < bins := by
      rw [div_lt_iff₀ hw]; linarith [mul_comm w bins]
    symm
    rw [countP_range_lt (bins + 1) ⌊(v - lo) / w + 1⌋₊]
    · intro i
      rw [hp, Nat.floor_add_one hx0, Nat.lt_succ_iff, Nat.le_floor_iff hx0, le_div_iff₀ hw]
      constructor <;> intro h <;> linarith
    · rw [Nat.floor_add_one hx0]
      have : ⌊(v - lo) / w⌋₊ < bins := (Nat.floor_lt hx0).2 hx1
      omega

theorem createLinspace_ok {bins : ℕ} {min max : ℝ} {b : Bins}
    (h : Bins.createLinspace bins min max = .ok b) :
    min < max ∧ b = .linspace (bins + 2) min max ((max - min) / (bins : ℝ)) := by
  unfold Bins.createLinspace at h
  split_ifs at h with h1
  · simp only [Nat.add_sub_cancel] at h
    injection h with h
    exact ⟨not_le.1 h1, h.symm⟩

theorem createLogspace_ok {bins : ℕ} {base min max : ℝ} {b : Bins}
    (h : Bins.createLogspace bins base min max = .ok b) :
    min < max ∧ b = .logspace (bins + 2) base min max ((max - min) / (bins : ℝ)) := by
  unfold Bins.createLogspace at h
  split_ifs at h with h1
  · simp only [Nat.add_sub_cancel] at h
    injection h with h
    exact ⟨not_le.1 h1, h.symm⟩

theorem boundariesIncreasing_some (p : ℝ) (bs : List ℝ) :
    Bins.boundariesIncreasing (some p) bs = true ↔ (p :: bs).IsChain (· < ·) := by
  induction bs generalizing p with
  | nil => simp [Bins.boundariesIncreasing]
  | cons b bs ih =>
    rw [Bins.boundariesIncreasing, List.isChain_cons_cons]
    split_ifs with h
    · simp [not_lt.2 h]
    · rw [ih]; simp [not_le.1 h]

theorem boundariesIncreasing_none (bs : List ℝ) :
    Bins.boundariesIncreasing none bs = true ↔ bs.Pairwise (· < ·) := by
  cases bs with
  | nil => simp [Bins.boundariesIncreasing]
  | cons b bs =>
    rw [Bins.boundariesIncreasing, boundariesIncreasing_some, List.isChain_iff_pairwise]

theorem createBoundaries_ok {bs : List ℝ} {b : Bins} (h : Bins.createBoundaries bs = .ok b) :
    bs.Pairwise (· < ·) ∧ b = .boundaries bs := by
  unfold Bins.createBoundaries at h
  split_ifs at h with h1
  · injection h with h
    exact ⟨(boundariesIncreasing_none bs).1 h1, h.symm⟩

/-- In an increasing list, bisection counts the entries that are not above. -/
theorem upperIdx_eq_count {bs : List ℝ} (h : bs.Pairwise (· < ·)) (v : ℝ) :
    upperIdx bs v = countNotAbove bs v := by
  have hlt : ∀ {i j : ℕ} {a b : ℝ}, i ≤ j → bs[i]? = some a → bs[j]? = some b → a ≤ b := by
    intro i j a b hij ha hb
    obtain ⟨h1, rfl⟩ := List.getElem?_eq_some_iff.1 ha
    obtain ⟨h2, rfl⟩ := List.getElem?_eq_some_iff.1 hb
    rcases hij.eq_or_lt with rfl | hij
    · exact le_rfl
    · exact ((List.pairwise_iff_getElem.1 h) i j h1 h2 hij).le
  set n := upperIdx bs v with hn
  have hle : n ≤ bs.length := upperIdx_le_length bs v
  unfold countNotAbove
  conv_rhs => rw [← List.take_append_drop n bs]
  rw [List.countP_append]
  have e1 : (bs.take n).countP (fun b => decide (b ≤ v)) = n := by
    have : (bs.take n).length = n := by rw [List.length_take]; omega
    conv_rhs => rw [← this]
    rw [List.countP_eq_length]
    intro a ha
    obtain ⟨i, hi⟩ := List.mem_iff_getElem?.1 ha
    rw [List.getElem?_take] at hi
    split_ifs at hi with hin
    exact decide_eq_true (upperIdx_before h hin hi)
  have e2 : (bs.drop n).countP (fun b => decide (b ≤ v)) = 0 := by
    rw [List.countP_eq_zero]
    intro a ha
    obtain ⟨i, hi⟩ := List.mem_iff_getElem?.1 ha
    rw [List.getElem?_drop] at hi
    have hl : n < bs.length := by
      have := (List.getElem?_eq_some_iff.1 hi).1
      omega
    have h1 : bs[n]? = some bs[n] := List.getElem?_eq_getElem hl
    have h2 : v < bs[n] := upperIdx_after (x := v) h1
    have h3 := hlt (Nat.le_add_right n i) h1 hi
    simp only [decide_eq_true_eq, not_le]
    exact h2.trans_le h3
  rw [e1, e2, add_zero]

theorem spaceIndex_lt {bins : ℕ} {lo hi v : ℝ} (hb : 1 ≤ bins) (h : lo < hi) :
    Bins.spaceIndex (bins + 2) lo hi ((hi - lo) / (bins : ℝ)) v < bins + 2 := by
  rw [spaceIndex_eq_count hb h
    (fun i => decide (lo + (i : ℝ) * ((hi - lo) / (bins : ℝ)) ≤ v)) (by simp)]
  have := List.countP_le_length (p := fun i : ℕ =>
    decide (lo + (i : ℝ) * ((hi - lo) / (bins : ℝ)) ≤ v)) (l := List.range (bins + 1))
  rw [List.length_range] at this
  omega

/-- The index of a created bin structure is below its size whenever there is an index. -/
theorem getIndex_lt_size {b : Bins} (hb : Created b) {v : ℝ} {i : ℕ}
    (h : b.getIndex v = .ok i) : i < b.size := by
  cases hb with
  | none => simp [Bins.getIndex] at h; simp [Bins.size]; omega
  | linspace hn hc =>
    obtain ⟨hlt, rfl⟩ := createLinspace_ok hc
    simp only [Bins.getIndex, Except.ok.injEq] at h
    subst h
    exact spaceIndex_lt hn hlt
  | logspace hn hc =>
    obtain ⟨hlt, rfl⟩ := createLogspace_ok hc
    simp only [Bins.getIndex] at h
    split at h <;> simp only [Except.ok.injEq, reduceCtorEq] at h <;> subst h <;>
      simp only [Bins.size]
    · omega
    · omega
    · exact spaceIndex_lt hn hlt
  | boundaries hc =>
    obtain ⟨_, rfl⟩ := createBoundaries_ok hc
    simp only [Bins.getIndex, Except.ok.injEq] at h
    subst h
    simp only [Bins.size]
    exact Nat.lt_succ_of_le (upperIdx_le_length _ _)

end Minimc
