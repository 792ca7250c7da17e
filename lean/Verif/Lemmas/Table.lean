import Verif.Spec.Table

/-! # Lemmas about tables -/

namespace Minimc

open Classical Spec

namespace ContinuousMap

/-- Splitting a sorted table at a key. -/
theorem at_split {l r : ContinuousMap} {k : ℝ}
    (hl : ∀ e ∈ l, e.1 ≤ k) (hr : ∀ e ∈ r, k < e.1) :
    (l ++ r).takeWhile (fun e => decide (e.1 ≤ k)) = l ∧
    (l ++ r).dropWhile (fun e => decide (e.1 ≤ k)) = r := by
  induction l with
  | nil =>
    cases r with
    | nil => simp
    | cons a r =>
      have := hr a (by simp)
      simp [not_le.2 this]
  | cons a l ih =>
    have ha := hl a (by simp)
    obtain ⟨h1, h2⟩ := ih (fun e he => hl e (by simp [he]))
    simp [ha, h1, h2]

theorem at_of_split {l r : ContinuousMap} {k : ℝ}
    (hl : ∀ e ∈ l, e.1 ≤ k) (hr : ∀ e ∈ r, k < e.1) :
    at' (l ++ r) k = match l.getLast?, r.head? with
      | some (_, v), none => .ok v
      | none, some (_, v) => .ok v
      | some (kLo, vLo), some (kHi, vHi) => .ok (vLo + (vHi - vLo) / (kHi - kLo) * (k - kLo))
      | none, none => .error .ub := by
  obtain ⟨h1, h2⟩ := at_split hl hr
  unfold at'
  rw [h1, h2]
  rcases l.getLast? with _ | ⟨_, _⟩ <;> rcases r.head? with _ | ⟨_, _⟩ <;> rfl

theorem sorted_append_cons {l r : ContinuousMap} {a : ℝ × ℝ} (h : Sorted (l ++ a :: r)) :
    (∀ e ∈ l, e.1 < a.1) ∧ (∀ e ∈ r, a.1 < e.1) := by
  unfold Sorted at h
  rw [List.pairwise_append, List.pairwise_cons] at h
  exact ⟨fun e he => h.2.2 e he a (by simp), h.2.1.1⟩

/-- Value strictly below the next key, at or above the lower key. -/
theorem at_between {m : ContinuousMap} (hs : Sorted m) {a b : ℝ × ℝ} (hab : Adjacent m a b)
    {k : ℝ} (h1 : a.1 ≤ k) (h2 : k < b.1) :
    at' m k = .ok (a.2 + (b.2 - a.2) / (b.1 - a.1) * (k - a.1)) := by
  obtain ⟨l, r, rfl⟩ := hab
  have hA := sorted_append_cons hs
  have hB := sorted_append_cons (l := l ++ [a]) (a := b) (r := r) (by simpa using hs)
  have e : l ++ a :: b :: r = (l ++ [a]) ++ (b :: r) := by simp
  rw [e, at_of_split]
  · simp
  · intro x hx
    rcases List.mem_append.1 hx with hx | hx
    · exact (hA.1 x hx).le.trans h1
    · rw [List.mem_singleton.1 hx]; exact h1
  · intro x hx
    rcases List.mem_cons.1 hx with rfl | hx
    · exact h2
    · exact h2.trans (hB.2 x hx)

theorem at_below {a : ℝ × ℝ} {m : ContinuousMap} (hs : Sorted (a :: m)) {k : ℝ}
    (h : k < a.1) : at' (a :: m) k = .ok a.2 := by
  have := at_of_split (l := []) (r := a :: m) (k := k) (by simp) (by
    intro e he
    rcases List.mem_cons.1 he with rfl | he
    · exact h
    · exact h.trans ((sorted_append_cons (l := []) hs).2 e he))
  simpa using this

theorem at_above {a : ℝ × ℝ} {m : ContinuousMap} (hs : Sorted (m ++ [a])) {k : ℝ}
    (h : a.1 ≤ k) : at' (m ++ [a]) k = .ok a.2 := by
  have := at_of_split (l := m ++ [a]) (r := []) (k := k) (by
    intro e he
    rcases List.mem_append.1 he with he | he
    · exact ((sorted_append_cons hs).1 e he).le.trans h
    · rw [List.mem_singleton.1 he]; exact h) (by simp)
  simpa using this

theorem at_mem {m : ContinuousMap} (hs : Sorted m) {k v : ℝ} (h : (k, v) ∈ m) :
    at' m k = .ok v := by
  obtain ⟨l, r, rfl⟩ := List.append_of_mem h
  cases r with
  | nil => exact at_above (a := (k, v)) hs le_rfl
  | cons b r =>
    have hb := (sorted_append_cons hs).2 b (by simp)
    rw [at_between hs ⟨l, r, rfl⟩ le_rfl hb]
    simp

/-- Exhaustive position of a key with respect to a non-empty sorted table. -/
theorem position (m : ContinuousMap) (hs : Sorted m) (hne : m ≠ []) (k : ℝ) :
    (∃ a t, m = a :: t ∧ k < a.1) ∨ (∃ a t, m = t ++ [a] ∧ a.1 ≤ k) ∨
      (∃ a b, Adjacent m a b ∧ a.1 ≤ k ∧ k < b.1) := by
  induction m with
  | nil => exact absurd rfl hne
  | cons a t ih =>
    by_cases h : k < a.1
    · exact Or.inl ⟨a, t, rfl, h⟩
    · push Not at h
      cases t with
      | nil => exact Or.inr (Or.inl ⟨a, [], rfl, h⟩)
      | cons b t =>
        by_cases hb : k < b.1
        · exact Or.inr (Or.inr ⟨a, b, ⟨[], t, rfl⟩, h, hb⟩)
        · have hs' : Sorted (b :: t) := (List.pairwise_cons.1 hs).2
          rcases ih hs' (by simp) with ⟨c, u, hc, hlt⟩ | ⟨c, u, hc, hle⟩ | ⟨c, d, ⟨l, r, hl⟩, h1, h2⟩
          · injection hc with h1 h2; subst h1; exact absurd hlt hb
          · exact Or.inr (Or.inl ⟨c, a :: u, by rw [hc]; rfl, hle⟩)
          · exact Or.inr (Or.inr ⟨c, d, ⟨a :: l, r, by rw [hl]; rfl⟩, h1, h2⟩)

theorem mem_set {m : ContinuousMap} {k v : ℝ} {e : ℝ × ℝ} (h : e ∈ set k v m) :
    e = (k, v) ∨ e ∈ m := by
  induction m with
  | nil => simpa [set] using h
  | cons a m ih =>
    obtain ⟨k', v'⟩ := a
    unfold set at h
    split_ifs at h
    · rcases List.mem_cons.1 h with h | h
      · exact Or.inl h
      · exact Or.inr h
    · rcases List.mem_cons.1 h with h | h
      · exact Or.inl h
      · exact Or.inr (by simp [h])
    · rcases List.mem_cons.1 h with h | h
      · exact Or.inr (by simp [h])
      · rcases ih h with h | h
        · exact Or.inl h
        · exact Or.inr (by simp [h])

theorem sorted_set {m : ContinuousMap} (hs : Sorted m) (k v : ℝ) : Sorted (set k v m) := by
  induction m with
  | nil => simp [set, Sorted]
  | cons a m ih =>
    obtain ⟨k', v'⟩ := a
    unfold Sorted at hs
    rw [List.pairwise_cons] at hs
    unfold set
    split_ifs with h1 h2
    · unfold Sorted
      rw [List.pairwise_cons, List.pairwise_cons]
      refine ⟨?_, hs⟩
      intro e he
      rcases List.mem_cons.1 he with rfl | he
      · exact h1
      · exact h1.trans (hs.1 e he)
    · subst h2
      unfold Sorted
      rw [List.pairwise_cons]
      exact hs
    · unfold Sorted
      rw [List.pairwise_cons]
      refine ⟨?_, ih hs.2⟩
      intro e he
      rcases mem_set he with rfl | he
      · exact lt_of_le_of_ne (not_lt.1 h1) (Ne.symm h2)
      · exact hs.1 e he

theorem mem_set_self (m : ContinuousMap) (k v : ℝ) : (k, v) ∈ set k v m := by
  induction m with
  | nil => simp [set]
  | cons a m ih =>
    obtain ⟨k', v'⟩ := a
    unfold set
    split_ifs <;> simp [ih]

theorem mem_set_of_ne {m : ContinuousMap} {k v : ℝ} {e : ℝ × ℝ} (he : e ∈ m) (hk : e.1 ≠ k) :
    e ∈ set k v m := by
  induction m with
  | nil => simp at he
  | cons a m ih =>
    obtain ⟨k', v'⟩ := a
    unfold set
    rcases List.mem_cons.1 he with rfl | he
    · split_ifs with h1 h2
      · simp
      · exact absurd h2.symm hk
      · simp
    · split_ifs with h1 h2
      · simp [he]
      · simp [he]
      · simp [ih he]

/-- Appending a key above all others. -/
theorem set_append {m : ContinuousMap} {k v : ℝ} (h : ∀ e ∈ m, e.1 < k) :
    set k v m = m ++ [(k, v)] := by
  induction m with
  | nil => rfl
  | cons a m ih =>
    obtain ⟨k', v'⟩ := a
    have ha : k' < k := h (k', v') (by simp)
    unfold set
    rw [if_neg (not_lt.2 ha.le), if_neg ha.ne', ih (fun e he => h e (by simp [he]))]
    rfl

end ContinuousMap

namespace DataSet

theorem length_partialProductsFrom (acc : ℕ) (l : List ℕ) :
    (partialProductsFrom acc l).length = l.length := by
  induction l generalizing acc with
  | nil => rfl
  | cons b l ih => simp [partialProductsFrom, ih]

theorem getElem?_partialProductsFrom (acc : ℕ) (l : List ℕ) (j : ℕ) (h : j < l.length) :
    (partialProductsFrom acc l)[j]? = some (acc * (l.take (j + 1)).prod) := by
  induction l generalizing acc j with
  | nil => simp at h
  | cons b l ih =>
    cases j with
    | zero => simp [partialProductsFrom]
    | succ j =>
      simp only [List.length_cons] at h
      simp only [partialProductsFrom, List.getElem?_cons_succ, List.take_succ_cons,
        List.prod_cons]
      rw [ih (acc * b) j (by omega), mul_assoc]

theorem length_partialProducts (l : List ℕ) : (partialProducts l).length = l.length := by
  cases l with
  | nil => rfl
  | cons a l => simp [partialProducts, length_partialProductsFrom]

theorem getElem?_partialProducts (l : List ℕ) (j : ℕ) (h : j < l.length) :
    (partialProducts l)[j]? = some ((l.take (j + 1)).prod) := by
  cases l with
  | nil => simp at h
  | cons a l =>
    cases j with
    | zero => simp [partialProducts]
    | succ j =>
      simp only [List.length_cons] at h
      simp only [partialProducts, List.getElem?_cons_succ]
      rw [getElem?_partialProductsFrom a l j (by omega)]
      simp

/-- The stride of a level is the product of the lengths of the later axes. -/
theorem strides_getElem? (ds : DataSet) (j : ℕ) (h : j < ds.axes.length) :
    ds.strides[j]? = some (((ds.axes.drop (j + 1)).map List.length).prod) := by
  unfold strides
  set T := (ds.axes.tail.map List.length) ++ [1] with hT
  have hlen : T.length = ds.axes.length := by
    simp [hT]; omega
  rw [List.getElem?_reverse (by rw [length_partialProducts, List.length_reverse]; omega),
    length_partialProducts, List.length_reverse,
    getElem?_partialProducts _ _ (by rw [List.length_reverse]; omega)]
  congr 1
  rw [show T.length - 1 - j + 1 = T.length - j by omega, List.take_reverse, List.prod_reverse,
    show T.length - (T.length - j) = j by omega, hT, List.drop_append_of_le_length (by
      simp; omega), List.prod_append]
  simp [List.map_drop, List.drop_drop, ← List.drop_one, add_comm]

end DataSet
end Minimc
