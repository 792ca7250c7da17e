import Verif.Lemmas.RoundedRng
import Verif.Lemmas.Select

/-! # Lemmas on rounded sums and selections -/

namespace Minimc

open Spec

/-- `x` and `y` differ by at most `k` roundings. -/
def Near (k : ℕ) (x y : ℝ) : Prop :=
  x * (1 - 1 / 2 ^ 53) ^ k ≤ y ∧ y * (1 - 1 / 2 ^ 53) ^ k ≤ x

namespace Near

theorem fac_pos (k : ℕ) : (0 : ℝ) < (1 - 1 / 2 ^ 53) ^ k := pow_pos (by norm_num) k

theorem fac_le_one (k : ℕ) : (1 - 1 / 2 ^ 53 : ℝ) ^ k ≤ 1 :=
  pow_le_one₀ (by norm_num) (by norm_num)

theorem fac_ge (k : ℕ) : 1 - (k : ℝ) / 2 ^ 53 ≤ (1 - 1 / 2 ^ 53 : ℝ) ^ k := by
  have := one_add_mul_le_pow (a := -(1 / 2 ^ 53 : ℝ)) (by norm_num) k
  rw [← sub_eq_add_neg] at this
  refine le_trans (le_of_eq ?_) this
  ring

variable {j k : ℕ} {x x' y y' z : ℝ}

theorem refl (x : ℝ) : Near 0 x x := by constructor <;> simp

theorem symm (h : Near k x y) : Near k y x := ⟨h.2, h.1⟩

theorem trans (h : Near j x y) (h' : Near k y z) : Near (j + k) x z := by
  constructor
  · calc x * _ = x * (1 - 1 / 2 ^ 53) ^ j * (1 - 1 / 2 ^ 53) ^ k := by rw [pow_add]; ring
      _ ≤ y * (1 - 1 / 2 ^ 53) ^ k := mul_le_mul_of_nonneg_right h.1 (fac_pos k).le
      _ ≤ z := h'.1
  · calc z * _ = z * (1 - 1 / 2 ^ 53) ^ k * (1 - 1 / 2 ^ 53) ^ j := by rw [pow_add]; ring
      _ ≤ y * (1 - 1 / 2 ^ 53) ^ j := mul_le_mul_of_nonneg_right h'.2 (fac_pos j).le
      _ ≤ x := h.2

theorem mono (h : Near j x y) (hjk : j ≤ k) (hx : 0 ≤ x) (hy : 0 ≤ y) : Near k x y := by
  have hp : (1 - 1 / 2 ^ 53 : ℝ) ^ k ≤ (1 - 1 / 2 ^ 53 : ℝ) ^ j :=
    pow_le_pow_of_le_one (by norm_num) (by norm_num) hjk
  exact ⟨(mul_le_mul_of_nonneg_left hp hx).trans h.1, (mul_le_mul_of_nonneg_left hp hy).trans h.2⟩

theorem add (h : Near k x y) (h' : Near k x' y') : Near k (x + x') (y + y') := by
  constructor
  · have := add_le_add h.1 h'.1
    rwa [← add_mul] at this
  · have := add_le_add h.2 h'.2
    rwa [← add_mul] at this

theorem mul (h : Near j x y) (h' : Near k x' y') (hx : 0 ≤ x) (hx' : 0 ≤ x') (hy : 0 ≤ y)
    (hy' : 0 ≤ y') : Near (j + k) (x * x') (y * y') := by
  constructor
  · calc x * x' * _ = (x * (1 - 1 / 2 ^ 53) ^ j) * (x' * (1 - 1 / 2 ^ 53) ^ k) := by
          rw [pow_add]; ring
      _ ≤ y * y' := mul_le_mul h.1 h'.1 (mul_nonneg hx' (fac_pos k).le) hy
  · calc y * y' * _ = (y * (1 - 1 / 2 ^ 53) ^ j) * (y' * (1 - 1 / 2 ^ 53) ^ k) := by
          rw [pow_add]; ring
      _ ≤ x * x' := mul_le_mul h.2 h'.2 (mul_nonneg hy' (fac_pos k).le) hx

theorem inv (h : Near k x y) (hx : 0 < x) (hy : 0 < y) : Near k x⁻¹ y⁻¹ := by
  constructor
  · rw [← div_eq_inv_mul, div_le_iff₀ hx, ← div_eq_inv_mul, le_div_iff₀ hy, mul_comm]
    exact h.2
  · rw [← div_eq_inv_mul, div_le_iff₀ hy, ← div_eq_inv_mul, le_div_iff₀ hx, mul_comm]
    exact h.1

theorem div (h : Near j x y) (h' : Near k x' y') (hx : 0 ≤ x) (hx' : 0 < x') (hy : 0 ≤ y)
    (hy' : 0 < y') : Near (j + k) (x / x') (y / y') := by
  rw [div_eq_mul_inv, div_eq_mul_inv]
  exact h.mul (h'.inv hx' hy') hx (by positivity) hy (by positivity)

theorem pos (h : Near k x y) (hx : 0 < x) : 0 < y :=
  lt_of_lt_of_le (mul_pos hx (fac_pos k)) h.1

theorem nonneg (h : Near k x y) (hx : 0 ≤ x) : 0 ≤ y :=
  le_trans (mul_nonneg hx (fac_pos k).le) h.1

end Near

theorem Nearest.near {rnd : ℝ → ℝ} (h : Nearest rnd) {x : ℝ} (hx : 0 ≤ x) : Near 1 x (rnd x) := by
  refine ⟨by rw [pow_one]; exact h.ge_of_nonneg hx, ?_⟩
  have := h.le_of_nonneg hx
  rw [pow_one]
  have h2 : (0 : ℝ) ≤ 1 - 1 / 2 ^ 53 := by norm_num
  have h3 : (1 + 1 / 2 ^ 53 : ℝ) * (1 - 1 / 2 ^ 53) ≤ 1 := by norm_num
  nlinarith

namespace Rounded

variable {rnd : ℝ → ℝ}

theorem canonical_near (h : Nearest rnd) {g : ℕ} (hg : Rng.Valid g) :
    Near 6 (Rng.canonical g).1 (canonical rnd g).1 := by
  have h0 := Rng.canonical_pos hg
  obtain ⟨h1, h2⟩ := abs_le.1 (canonical_err h hg).1
  have hf : (1 - 1 / 2 ^ 53 : ℝ) ^ 6 ≤ 1 - 5 / 2 ^ 53 := by norm_num
  constructor
  · nlinarith
  · calc (canonical rnd g).1 * (1 - 1 / 2 ^ 53) ^ 6
        ≤ ((Rng.canonical g).1 * (1 + 5 / 2 ^ 53)) * (1 - 5 / 2 ^ 53) :=
          mul_le_mul (by linarith) hf (Near.fac_pos 6).le (by positivity)
      _ = (Rng.canonical g).1 * ((1 + 5 / 2 ^ 53) * (1 - 5 / 2 ^ 53)) := by ring
      _ ≤ _ := mul_le_of_le_one_right h0.le (by norm_num)

/-- Adding up numbers one after another. -/
noncomputable def running (rnd : ℝ → ℝ) (acc : ℝ) (vs : List ℝ) : ℝ :=
  vs.foldl (fun a b => rnd (a + b)) acc

theorem running_isDouble (h : Nearest rnd) : ∀ {vs : List ℝ} {acc : ℝ}, IsDouble acc →
    IsDouble (running rnd acc vs)
  | [], _, ha => ha
  | _ :: vs, _, _ => running_isDouble h (vs := vs) (h.isDouble _)

theorem running_near (h : Nearest rnd) {k : ℕ} : ∀ {ws vs : List ℝ} {A acc : ℝ} {j : ℕ}
    (_ : List.Forall₂ (Near k) ws vs) (_ : ∀ w ∈ ws, 0 ≤ w) (_ : 0 ≤ A) (_ : k ≤ j)
    (_ : Near j A acc), Near (j + ws.length) (A + ws.sum) (running rnd acc vs)
  | [], [], A, acc, j, _, _, _, _, hA => by simpa [running] using hA
  | w :: ws, v :: vs, A, acc, j, h2, hnn, hA0, hkj, hA => by
    obtain ⟨hwv, hrest⟩ := List.forall₂_cons.1 h2
    have hw := hnn w (by simp)
    have hv := hwv.nonneg hw
    have ha := hA.nonneg hA0
    have hadd := hA.add (hwv.mono hkj hw hv)
    have hr := hadd.trans (h.near (x := acc + v) (by linarith))
    have := running_near h (A := A + w) (acc := rnd (acc + v)) (j := j + 1) hrest
      (fun w' hw' => hnn w' (by simp [hw'])) (by linarith) (by omega) hr
    simp only [List.length_cons, List.sum_cons, running, List.foldl_cons] at this ⊢
    rw [show j + (ws.length + 1) = j + 1 + ws.length by ring, ← add_assoc]
    exact this

theorem running_zero_near (h : Nearest rnd) {k : ℕ} {ws vs : List ℝ}
    (h2 : List.Forall₂ (Near k) ws vs) (hnn : ∀ w ∈ ws, 0 ≤ w) :
    Near (k + ws.length) ws.sum (running rnd 0 vs) := by
  have := running_near h (A := 0) (acc := 0) (j := k) h2 hnn le_rfl le_rfl (by constructor <;> simp)
  simpa using this

variable {α : Type _} {f : α → Res ℝ} {v : α → ℝ}

theorem sumLoop_ok : ∀ {xs : List α} {acc : ℝ} (_ : ∀ x ∈ xs, f x = .ok (v x)),
    sumLoop rnd f acc xs = .ok (running rnd acc (xs.map v))
  | [], acc, _ => rfl
  | x :: xs, acc, hf => by
    rw [sumLoop, hf x (by simp)]
    simp only [bind, Except.bind]
    rw [sumLoop_ok (fun y hy => hf y (by simp [hy]))]
    simp [running]

/-- The loop takes the first item whose running sum exceeds the threshold. -/
theorem selectLoop_spec {θ : ℝ} : ∀ {xs : List α} {acc : ℝ} (_ : ∀ x ∈ xs, f x = .ok (v x))
    (_ : acc ≤ θ) (_ : θ < running rnd acc (xs.map v)),
    ∃ i, ∃ hi : i < xs.length, selectLoop rnd f θ acc xs = .ok (some xs[i]) ∧
      running rnd acc ((xs.map v).take i) ≤ θ ∧
      θ < rnd (running rnd acc ((xs.map v).take i) + v xs[i]) ∧
      rnd (running rnd acc ((xs.map v).take i) + v xs[i]) = running rnd acc ((xs.map v).take (i + 1))
  | [], acc, _, h1, h2 => by simp [running] at h2; linarith
  | x :: xs, acc, hf, h1, h2 => by
    rw [selectLoop, hf x (by simp)]
    simp only [bind, Except.bind]
    by_cases hc : rnd (acc + v x) > θ
    · rw [if_pos hc]
      exact ⟨0, by simp, by simp, by simpa [running] using h1, by simpa [running] using hc,
        by simp [running]⟩
    · rw [if_neg hc]
      obtain ⟨i, hi, h3, h4, h5, h6⟩ := selectLoop_spec (θ := θ) (acc := rnd (acc + v x)) (xs := xs)
        (fun y hy => hf y (by simp [hy])) (by linarith) (by simpa [running] using h2)
      refine ⟨i + 1, by simpa using hi, by simpa using h3, by simpa [running] using h4,
        by simpa [running] using h5, by simpa [running] using h6⟩

/-- What is known about the selected item: positive weight, and the random number is in its piece
or close to it. -/
theorem selectLoop_near (h : Nearest rnd) {θ t : ℝ} {k j : ℕ} {w : α → ℝ} {xs : List α}
    (hf : ∀ x ∈ xs, f x = .ok (v x)) (hw : ∀ x ∈ xs, 0 ≤ w x)
    (hwv : ∀ x ∈ xs, Near k (w x) (v x)) (h0 : 0 ≤ θ)
    (hθ : θ < running rnd 0 (xs.map v)) (ht : Near j t θ) (ht0 : 0 ≤ t)
    (ht1 : t ≤ (xs.map w).sum) :
    ∃ i, ∃ hi : i < xs.length, selectLoop rnd f θ 0 xs = .ok (some xs[i]) ∧ 0 < w xs[i] ∧
      NearlySelected (xs.map w) t (((j + k + xs.length : ℕ) : ℝ) / 2 ^ 53 * (xs.map w).sum) i := by
  obtain ⟨i, hi, h1, h2, h3, h4⟩ := selectLoop_spec hf h0 hθ
  have hnn : ∀ u ∈ xs.map w, 0 ≤ u := by
    intro u hu
    obtain ⟨x, hx, rfl⟩ := List.mem_map.1 hu
    exact hw x hx
  have hall : List.Forall₂ (Near k) (xs.map w) (xs.map v) := by
    rw [List.forall₂_map_left_iff, List.forall₂_map_right_iff]
    clear h1 h2 h3 h4 hi hθ ht1 hnn
    induction xs with
    | nil => exact List.Forall₂.nil
    | cons x xs ih =>
      exact List.Forall₂.cons (hwv x (by simp)) (ih (fun y hy => hf y (by simp [hy]))
        (fun y hy => hw y (by simp [hy])) (fun y hy => hwv y (by simp [hy])))
  have hn (n : ℕ) (hn : n ≤ xs.length) : Near (k + xs.length) ((xs.map w).take n).sum
      (running rnd 0 ((xs.map v).take n)) := by
    have hnn' : ∀ u ∈ (xs.map w).take n, 0 ≤ u := fun u hu => hnn u (List.mem_of_mem_take hu)
    have := running_zero_near h (List.forall₂_take n hall) hnn'
    have hs : 0 ≤ ((xs.map w).take n).sum := List.sum_nonneg hnn'
    refine this.mono ?_ hs (this.nonneg hs)
    simp only [List.length_take, List.length_map]
    omega
  have hsum : ∀ n ≤ xs.length, ((xs.map w).take n).sum ≤ (xs.map w).sum := by
    intro n hn'
    have := take_sum_mono hnn (i := n) (j := xs.length) hn'
    rwa [List.take_of_length_le (i := xs.length) (by simp)] at this
  have hge : ∀ s, 0 ≤ s → s ≤ (xs.map w).sum → ∀ n : ℕ,
      s - (n : ℝ) / 2 ^ 53 * (xs.map w).sum ≤ s * (1 - 1 / 2 ^ 53) ^ n := by
    intro s hs hs' n
    have h5 := mul_le_mul_of_nonneg_left (Near.fac_ge n) hs
    have h6 : (n : ℝ) / 2 ^ 53 * s ≤ (n : ℝ) / 2 ^ 53 * (xs.map w).sum := by gcongr
    nlinarith
  refine ⟨i, hi, h1, ?_, by simpa using hi, ?_, ?_⟩
  · have hv : 0 < v xs[i] := by
      by_contra hle
      push Not at hle
      have hd := running_isDouble h (vs := (xs.map v).take i) IsDouble.zero
      have := h.mono (show running rnd 0 ((xs.map v).take i) + v xs[i] ≤
        running rnd 0 ((xs.map v).take i) by linarith)
      rw [h.self hd] at this
      linarith
    exact (hwv _ (List.getElem_mem hi)).symm.pos hv
  · have h5 := hn i (by omega)
    have hs0 : 0 ≤ ((xs.map w).take i).sum := by
      simpa using take_sum_mono hnn (i := 0) (j := i) (by omega)
    have h6 := hge _ hs0 (hsum i (by omega)) (j + k + xs.length)
    have h7 : ((xs.map w).take i).sum * (1 - 1 / 2 ^ 53) ^ (j + k + xs.length) ≤ t := by
      calc _ = ((xs.map w).take i).sum * (1 - 1 / 2 ^ 53) ^ (k + xs.length)
            * (1 - 1 / 2 ^ 53) ^ j := by rw [mul_assoc, ← pow_add]; ring_nf
        _ ≤ running rnd 0 ((xs.map v).take i) * (1 - 1 / 2 ^ 53) ^ j :=
          mul_le_mul_of_nonneg_right h5.1 (Near.fac_pos j).le
        _ ≤ θ * (1 - 1 / 2 ^ 53) ^ j := mul_le_mul_of_nonneg_right h2 (Near.fac_pos j).le
        _ ≤ t := ht.2
    linarith
  · have h5 := hn (i + 1) (by omega)
    rw [h4] at h3
    have h6 := hge t ht0 ht1 (j + k + xs.length)
    have h7 : t * (1 - 1 / 2 ^ 53) ^ (j + k + xs.length) < ((xs.map w).take (i + 1)).sum := by
      calc _ = t * (1 - 1 / 2 ^ 53) ^ j * (1 - 1 / 2 ^ 53) ^ (k + xs.length) := by
            rw [mul_assoc, ← pow_add]; ring_nf
        _ ≤ θ * (1 - 1 / 2 ^ 53) ^ (k + xs.length) :=
          mul_le_mul_of_nonneg_right ht.1 (Near.fac_pos _).le
        _ < running rnd 0 ((xs.map v).take (i + 1)) * (1 - 1 / 2 ^ 53) ^ (k + xs.length) :=
          mul_lt_mul_of_pos_right h3 (Near.fac_pos _)
        _ ≤ _ := h5.2
    linarith

/-- Away from the ends of the pieces the choice is the one made without rounding. -/
theorem NearlySelected.eq {ws : List ℝ} (hnn : ∀ w ∈ ws, 0 ≤ w) {θ δ : ℝ} {i j : ℕ}
    (hi : NearlySelected ws θ δ i) (h1 : (ws.take j).sum + δ ≤ θ)
    (h2 : θ + δ < (ws.take (j + 1)).sum) : i = j := by
  rcases lt_trichotomy i j with h | h | h
  · have := take_sum_mono hnn (show i + 1 ≤ j by omega)
    linarith [hi.2.2]
  · exact h
  · have := take_sum_mono hnn (show j + 1 ≤ i by omega)
    linarith [hi.2.1]

/-- A product with a uniform number stays below its factor. -/
theorem rnd_mul_lt (h : Nearest rnd) {t u : ℝ} (ht : 0 < t) (hu0 : 0 ≤ u)
    (hu : u < 1 - 1 / 2 ^ 32) : rnd (t * u) < t := by
  have h1 := h.le_of_nonneg (mul_nonneg ht.le hu0)
  have h2 : (1 - 1 / 2 ^ 32 : ℝ) * (1 + 1 / 2 ^ 53) < 1 := by norm_num
  have h3 : t * u * (1 + 1 / 2 ^ 53) ≤ t * ((1 - 1 / 2 ^ 32) * (1 + 1 / 2 ^ 53)) := by
    rw [mul_assoc]; gcongr
  have h4 : t * ((1 - 1 / 2 ^ 32) * (1 + 1 / 2 ^ 53)) < t := by nlinarith
  linarith

end Rounded
end Minimc
