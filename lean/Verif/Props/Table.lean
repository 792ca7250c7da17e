import Verif.Lemmas.Table

/-! # Properties C14 and C15: interpolated tables and data sets -/

namespace Minimc.Props

open Classical Spec

/-! ## C14 -/

/-- A stored value is returned at its grid point. -/
theorem C14_grid_point {m : ContinuousMap} (hs : Sorted m) {k v : ℝ} (h : (k, v) ∈ m) :
    m.at' k = .ok v :=
  ContinuousMap.at_mem hs h

/-- Between two neighbouring grid points (ends included) the result is on the straight line
through them. -/
theorem C14_between {m : ContinuousMap} (hs : Sorted m) {a b : ℝ × ℝ} (hab : Adjacent m a b)
    {k : ℝ} (h1 : a.1 ≤ k) (h2 : k ≤ b.1) : m.at' k = .ok (line a b k) := by
  have hlt : a.1 < b.1 := by
    obtain ⟨l, r, rfl⟩ := hab
    exact (ContinuousMap.sorted_append_cons hs).2 b (by simp)
  have hne : b.1 - a.1 ≠ 0 := by linarith
  rcases h2.lt_or_eq with h2 | h2
  · rw [ContinuousMap.at_between hs hab h1 h2, line]
    congr 1
    field_simp
    ring
  · have hm : (b.1, b.2) ∈ m := by obtain ⟨l, r, rfl⟩ := hab; simp
    rw [h2, ContinuousMap.at_mem hs hm, line]
    congr 1
    field_simp
    ring

/-- Below the first key the first value is returned, above the last key the last value. -/
theorem C14_outside {m : ContinuousMap} (hs : Sorted m) (hne : m ≠ []) (k : ℝ) :
    (k < (m.head hne).1 → m.at' k = .ok (m.head hne).2) ∧
      ((m.getLast hne).1 < k → m.at' k = .ok (m.getLast hne).2) := by
  constructor
  · intro h
    cases m with
    | nil => exact absurd rfl hne
    | cons a m => exact ContinuousMap.at_below hs h
  · intro h
    have e := List.dropLast_append_getLast hne
    have hs' : Sorted (m.dropLast ++ [m.getLast hne]) := by rw [e]; exact hs
    have := ContinuousMap.at_above hs' h.le
    rwa [e] at this

/-- The result never leaves the range of two stored values, which are equal outside the range
of keys and neighbours of the key inside. -/
theorem C14_range {m : ContinuousMap} (hs : Sorted m) (hne : m ≠ []) (k : ℝ) :
    ∃ v, m.at' k = .ok v ∧ ∃ a ∈ m, ∃ b ∈ m, min a.2 b.2 ≤ v ∧ v ≤ max a.2 b.2 ∧
      (a = b ∨ (Adjacent m a b ∧ a.1 ≤ k ∧ k < b.1)) := by
  rcases ContinuousMap.position m hs hne k with ⟨a, t, rfl, h⟩ | ⟨a, t, rfl, h⟩ |
    ⟨a, b, hab, h1, h2⟩
  · exact ⟨a.2, ContinuousMap.at_below hs h, a, by simp, a, by simp, by simp, by simp, Or.inl rfl⟩
  · exact ⟨a.2, ContinuousMap.at_above hs h, a, by simp, a, by simp, by simp, by simp, Or.inl rfl⟩
  · have ha : a ∈ m := by obtain ⟨l, r, rfl⟩ := hab; simp
    have hb : b ∈ m := by obtain ⟨l, r, rfl⟩ := hab; simp
    refine ⟨line a b k, C14_between hs hab h1 h2.le, a, ha, b, hb, ?_, ?_,
      Or.inr ⟨hab, h1, h2⟩⟩
    · have hd : 0 < b.1 - a.1 := by linarith
      rw [line, le_div_iff₀ hd]
      have e1 : min a.2 b.2 * (b.1 - k) ≤ a.2 * (b.1 - k) :=
        mul_le_mul_of_nonneg_right (min_le_left _ _) (by linarith)
      have e2 : min a.2 b.2 * (k - a.1) ≤ b.2 * (k - a.1) :=
        mul_le_mul_of_nonneg_right (min_le_right _ _) (by linarith)
      have e3 : min a.2 b.2 * (b.1 - a.1)
        = min a.2 b.2 * (b.1 - k) + min a.2 b.2 * (k - a.1) := by ring
      linarith
    · have hd : 0 < b.1 - a.1 := by linarith
      rw [line, div_le_iff₀ hd]
      have e1 : a.2 * (b.1 - k) ≤ max a.2 b.2 * (b.1 - k) :=
        mul_le_mul_of_nonneg_right (le_max_left _ _) (by linarith)
      have e2 : b.2 * (k - a.1) ≤ max a.2 b.2 * (k - a.1) :=
        mul_le_mul_of_nonneg_right (le_max_right _ _) (by linarith)
      have e3 : max a.2 b.2 * (b.1 - a.1)
        = max a.2 b.2 * (b.1 - k) + max a.2 b.2 * (k - a.1) := by ring
      linarith

/-- A lookup fails (undefined behaviour) exactly for an empty table. -/
theorem C14_empty_undefined {m : ContinuousMap} (hs : Sorted m) (k : ℝ) :
    m.at' k = .error .ub ↔ m = [] := by
  constructor
  · intro h
    by_contra hne
    obtain ⟨v, hv, _⟩ := C14_range hs hne k
    rw [hv] at h
    exact absurd h (by simp)
  · rintro rfl; rfl

/-- Storing an entry keeps the keys increasing and the entry is then found; other keys keep
their entries. -/
theorem C14_store {m : ContinuousMap} (hs : Sorted m) (k v : ℝ) :
    Sorted (m.set k v) ∧ (m.set k v).at' k = .ok v ∧
      ∀ e ∈ m, e.1 ≠ k → (m.set k v).at' e.1 = .ok e.2 :=
  ⟨ContinuousMap.sorted_set hs k v,
    ContinuousMap.at_mem (ContinuousMap.sorted_set hs k v) (ContinuousMap.mem_set_self m k v),
    fun _ he hk => ContinuousMap.at_mem (ContinuousMap.sorted_set hs k v)
      (ContinuousMap.mem_set_of_ne he hk)⟩

/-- Instance: a three-point table. -/
example : Sorted [(1, 10), (2, 20), (4, 0)] ∧ Adjacent [(1, 10), (2, 20), (4, 0)] (2, 20) (4, 0) ∧
    line (2, 20) (4, 0) 3 = 10 := by
  refine ⟨?_, ⟨[(1, 10)], [], rfl⟩, ?_⟩
  · norm_num [Sorted]
  · norm_num [line]

/-! ## C15 -/

theorem vecAt_eq_ok {α : Type _} {l : List α} {i : ℕ} {a : α} (h : l[i]? = some a) :
    vecAt l i = .ok a := by simp [vecAt, h]

theorem vecAt_eq_error {α : Type _} {l : List α} {i : ℕ} (h : l.length ≤ i) :
    vecAt l i = .error .outOfRange := by simp [vecAt, List.getElem?_eq_none h]

/-- General form of the addressing scheme, at any level of the recursion. -/
theorem atFromBase_eq (ds : DataSet) (base : ℕ) (done rest : List (List ℝ)) (idx : List ℕ)
    (hax : ds.axes = done ++ rest) (hlen : idx.length = rest.length) (hne : idx ≠ []) :
    (InRange (rest.map List.length) idx →
      ds.atFromBase base done.length idx
        = vecAt ds.values (base + offset (rest.map List.length) idx)) ∧
    (¬ InRange (rest.map List.length) idx →
      ds.atFromBase base done.length idx = .error .outOfRange) := by
  induction idx generalizing base done rest with
  | nil => exact absurd rfl hne
  | cons i idx ih =>
    cases rest with
    | nil => simp at hlen
    | cons ax rest =>
      simp only [List.length_cons, Nat.add_right_cancel_iff] at hlen
      have hget : ds.axes[done.length]? = some ax := by rw [hax]; simp
      have hIR : InRange ((ax :: rest).map List.length) (i :: idx) ↔
          i < ax.length ∧ InRange (rest.map List.length) idx := by
        simp [InRange]
      rw [hIR]
      cases idx with
      | nil =>
        have : rest = [] := by
          cases rest with
          | nil => rfl
          | cons _ _ => simp at hlen
        subst this
        simp only [DataSet.atFromBase, vecAt_eq_ok hget, bind, Except.bind, InRange, List.map_nil,
          List.forall₂_nil_right_iff, and_true]
        constructor
        · intro h; rw [if_neg (by omega)]; simp [offset]
        · intro h; rw [if_pos (by omega)]
      | cons i' idx =>
        have hstr : ds.strides[done.length]? = some ((rest.map List.length).prod) := by
          rw [DataSet.strides_getElem? ds done.length (by rw [hax]; simp)]
          rw [hax]; simp
        simp only [DataSet.atFromBase, vecAt_eq_ok hget, vecAt_eq_ok hstr, bind, Except.bind]
        have IH := ih (base + i * (rest.map List.length).prod) (done ++ [ax]) rest
          (by rw [hax]; simp) hlen (by simp)
        rw [List.length_append, List.length_singleton] at IH
        constructor
        · rintro ⟨h1, h2⟩
          rw [if_neg (by omega), IH.1 h2]
          congr 1
          simp [offset]; ring
        · intro h
          split_ifs with h1
          · rfl
          · exact IH.2 (fun h2 => h ⟨by omega, h2⟩)

/-- Every in-range index tuple reads the entry at its row-major offset. -/
theorem C15_row_major (ds : DataSet) (idx : List ℕ) (hne : idx ≠ [])
    (h : InRange (ds.axes.map List.length) idx)
    (hv : ds.values.length = (ds.axes.map List.length).prod) :
    ∃ v, ds.values[offset (ds.axes.map List.length) idx]? = some v ∧ ds.at' idx = .ok v := by
  have hlen : idx.length = ds.axes.length := by
    have := List.Forall₂.length_eq h; simpa using this.symm
  have hlt : offset (ds.axes.map List.length) idx < (ds.axes.map List.length).prod := by
    clear hv hne hlen
    generalize ds.axes.map List.length = shape at h ⊢
    induction h with
    | nil => simp [offset]
    | @cons n i shape idx hi _ ih =>
      simp only [offset, List.prod_cons]
      have : (i + 1) * shape.prod ≤ n * shape.prod := Nat.mul_le_mul_right _ hi
      have e : (i + 1) * shape.prod = i * shape.prod + shape.prod := by ring
      omega
  have := (atFromBase_eq ds 0 [] ds.axes idx rfl hlen hne).1 h
  rw [Nat.zero_add] at this
  rw [← hv] at hlt
  refine ⟨ds.values[_]'hlt, List.getElem?_eq_getElem hlt, ?_⟩
  unfold DataSet.at'
  rw [List.length_nil] at this
  rw [this]
  exact vecAt_eq_ok (List.getElem?_eq_getElem hlt)

/-- Distinct in-range index tuples have distinct offsets. -/
theorem C15_offsets_distinct (shape : List ℕ) (i j : List ℕ) (hi : InRange shape i)
    (hj : InRange shape j) (h : offset shape i = offset shape j) : i = j := by
  have bound : ∀ {s idx : List ℕ}, InRange s idx → offset s idx < s.prod := by
    intro s idx h
    induction h with
    | nil => simp [offset]
    | @cons n i shape idx hi _ ih =>
      simp only [offset, List.prod_cons]
      have : (i + 1) * shape.prod ≤ n * shape.prod := Nat.mul_le_mul_right _ hi
      have e : (i + 1) * shape.prod = i * shape.prod + shape.prod := by ring
      omega
  induction hi generalizing j with
  | nil => cases hj; rfl
  | @cons n a shape as ha has ih =>
    cases hj with
    | @cons _ b _ bs hb hbs =>
      simp only [offset] at h
      have b1 := bound has
      have b2 := bound hbs
      have hpos : 0 < shape.prod := by omega
      have hab : a = b := by
        have := congrArg (· / shape.prod) h
        rwa [mul_comm a, mul_comm b, Nat.mul_add_div hpos, Nat.mul_add_div hpos,
          Nat.div_eq_of_lt b1, Nat.div_eq_of_lt b2, add_zero, add_zero] at this
      subst hab
      rw [ih bs hbs (by omega)]

/-- With all values present, an exception is raised exactly when some index is out of range. -/
theorem C15_out_of_range_iff (ds : DataSet) (idx : List ℕ) (hne : idx ≠ [])
    (hlen : idx.length = ds.axes.length)
    (hv : ds.values.length = (ds.axes.map List.length).prod) :
    ds.at' idx = .error .outOfRange ↔ ¬ InRange (ds.axes.map List.length) idx := by
  constructor
  · intro h hr
    obtain ⟨v, _, hv'⟩ := C15_row_major ds idx hne hr hv
    rw [hv'] at h
    exact absurd h (by simp)
  · exact (atFromBase_eq ds 0 [] ds.axes idx rfl hlen hne).2

/-- With too few values, an in-range index raises exactly when its entry is missing. -/
theorem C15_missing_values (ds : DataSet) (idx : List ℕ) (hne : idx ≠ [])
    (h : InRange (ds.axes.map List.length) idx) :
    ds.at' idx = .error .outOfRange ↔
      ds.values.length ≤ offset (ds.axes.map List.length) idx := by
  have hlen : idx.length = ds.axes.length := by
    have := List.Forall₂.length_eq h; simpa using this.symm
  have := (atFromBase_eq ds 0 [] ds.axes idx rfl hlen hne).1 h
  rw [Nat.zero_add, List.length_nil] at this
  unfold DataSet.at'
  rw [this]
  constructor
  · intro h
    by_contra hc
    push Not at hc
    rw [vecAt_eq_ok (List.getElem?_eq_getElem hc)] at h
    exact absurd h (by simp)
  · exact vecAt_eq_error

/-- Instance: a 2 by 3 data set. -/
example : InRange [2, 3] [1, 2] ∧ offset [2, 3] [1, 2] = 5 ∧
    (DataSet.mk [[0, 1], [0, 1, 2]] [0, 1, 2, 3, 4, 5]).at' [1, 2] = .ok 5 := by
  refine ⟨by simp [InRange], rfl, ?_⟩
  obtain ⟨v, h1, h2⟩ := C15_row_major ⟨[[0, 1], [0, 1, 2]], [0, 1, 2, 3, 4, 5]⟩ [1, 2]
    (by simp) (by simp [InRange]) (by simp)
  rw [h2]
  simp [offset] at h1
  rw [h1]

/-- A one-dimensional data set with increasing keys becomes the table of its (key, value)
pairs. -/
theorem C15_to_table (keys values : List ℝ) (hk : keys.Pairwise (· < ·))
    (hlen : values.length = keys.length) :
    (DataSet.mk [keys] values).toContinuousMap = .ok (keys.zip values) := by
  set ds : DataSet := ⟨[keys], values⟩ with hds
  have hat : ∀ i (h : i < keys.length), ds.at' [i] = .ok (values[i]'(by omega)) := by
    intro i h
    obtain ⟨v, h1, h2⟩ := C15_row_major ds [i] (by simp) (by simp [InRange, hds, h])
      (by simp [hds, hlen])
    rw [h2]
    simp [offset, hds] at h1
    rw [List.getElem?_eq_getElem (by omega)] at h1
    injection h1 with h1
    rw [h1]
  have loop : ∀ (rest : List ℝ) (i : ℕ), keys.drop i = rest → i ≤ keys.length →
      ds.toMapLoop i rest ((keys.zip values).take i) = .ok (keys.zip values) := by
    intro rest
    induction rest with
    | nil =>
      intro i hd hi
      have : keys.length ≤ i := by
        have := congrArg List.length hd
        simp at this; omega
      simp only [DataSet.toMapLoop]
      rw [List.take_of_length_le (by simp; omega)]
    | cons k rest ih =>
      intro i hd hi
      have hlt : i < keys.length := by
        have := congrArg List.length hd
        simp at this; omega
      have hki : keys[i] = k := by
        have := List.getElem_cons_drop (h := hlt)
        rw [hd] at this
        injection this
      simp only [DataSet.toMapLoop, hat i hlt, bind, Except.bind]
      rw [ContinuousMap.set_append]
      · have : (keys.zip values).take i ++ [(k, values[i]'(by omega))]
            = (keys.zip values).take (i + 1) := by
          rw [List.take_add_one, List.getElem?_eq_getElem (by simp; omega)]
          simp [hki]
        rw [this]
        apply ih
        · rw [← List.drop_drop, hd]; simp
        · omega
      · intro e he
        obtain ⟨j, hj, rfl⟩ := List.mem_iff_getElem.1 he
        simp only [List.length_take, List.length_zip] at hj
        simp only [List.getElem_take, List.getElem_zip]
        rw [← hki]
        exact List.pairwise_iff_getElem.1 hk j i (by omega) hlt (by omega)
  have := loop keys 0 (by simp) (by omega)
  simp only [DataSet.toContinuousMap]
  rw [vecAt_eq_ok (show ds.axes[0]? = some keys by rw [hds]; rfl)]
  simpa [bind, Except.bind] using this

example : ([1, 2, 5] : List ℝ).Pairwise (· < ·) ∧ ([7, 8, 9] : List ℝ).length = 3 := by norm_num

end Minimc.Props
