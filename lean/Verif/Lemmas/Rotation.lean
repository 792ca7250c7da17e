import Mathlib.Data.Finset.Card
import Mathlib.Data.Nat.GCD.Basic
import Mathlib.Data.Nat.ModEq
import Mathlib.Order.Interval.Finset.Nat
import Mathlib.Tactic.Linarith
import Mathlib.Tactic.Ring
import Mathlib.Algebra.Order.Ring.Nat

/-! # Counting the steps of a rotation that end in an arc

If `a / m` is close to the fraction `p / q`, then `q` steps of length `a` around a circle of
length `m` visit each `q`-th of the circle about once. -/

namespace Minimc

/-- The part in which step `i` ends is the one expected for the fraction, or the next one. -/
theorem part_step {m a p q r G i : ℕ} (hm : 0 < m) (hq : 0 < q) (h : a * q = p * m + r)
    (hr : r * q < m) (hi : i < q) :
    ∃ β ≤ 1, q * ((G + a * i) % m) / m = (q * G / m + p * i + β) % q := by
  refine ⟨(q * G % m + r * i) / m, ?_, ?_⟩
  · have h1 : q * G % m < m := Nat.mod_lt _ hm
    have h2 : r * i ≤ r * q := Nat.mul_le_mul_left _ hi.le
    exact Nat.lt_succ_iff.1 ((Nat.div_lt_iff_lt_mul hm).2 (by omega))
  · have e : q * (G + a * i) / m = q * G / m + p * i + (q * G % m + r * i) / m := by
      have e1 : q * (G + a * i) = (q * G % m + r * i) + m * (q * G / m + p * i) := by
        have := Nat.mod_add_div (q * G) m
        calc q * (G + a * i) = q * G + a * q * i := by ring
          _ = (q * G % m + m * (q * G / m)) + (p * m + r) * i := by rw [this, h]
          _ = _ := by ring
      rw [e1, Nat.add_mul_div_left _ _ hm, Nat.add_comm]
    rw [← e]
    set x := G + a * i
    have e2 : q * x / m = q * (x % m) / m + q * (x / m) := by
      conv_lhs => rw [← Nat.mod_add_div x m]
      have h1 : q * (x % m + m * (x / m)) = q * (x % m) + m * (q * (x / m)) := by ring
      rw [h1, Nat.add_mul_div_left _ _ hm]
    have e3 : q * (x % m) / m < q := by
      rw [Nat.div_lt_iff_lt_mul hm]
      exact Nat.mul_lt_mul_of_pos_left (Nat.mod_lt _ hm) hq
    rw [e2, Nat.add_mul_mod_self_left]
    exact (Nat.mod_eq_of_lt e3).symm

/-- The parts expected for the fraction are all different. -/
theorem parts_image {p q u : ℕ} (hq : 0 < q) (hc : Nat.Coprime q p) :
    Set.InjOn (fun i => (u + p * i) % q) (Finset.range q : Set ℕ) ∧
    (Finset.range q).image (fun i => (u + p * i) % q) = Finset.range q := by
  have inj : Set.InjOn (fun i => (u + p * i) % q) (Finset.range q : Set ℕ) := by
    intro i hi j hj hij
    have h1 : p * i ≡ p * j [MOD q] := Nat.ModEq.add_left_cancel' u hij
    have h2 := Nat.ModEq.cancel_left_of_coprime hc h1
    have h3 : i % q = j % q := h2
    rwa [Nat.mod_eq_of_lt (Finset.mem_range.1 hi), Nat.mod_eq_of_lt (Finset.mem_range.1 hj)] at h3
  refine ⟨inj, ?_⟩
  apply Finset.eq_of_subset_of_card_le
  · intro x hx
    obtain ⟨i, _, rfl⟩ := Finset.mem_image.1 hx
    exact Finset.mem_range.2 (Nat.mod_lt _ hq)
  · rw [Finset.card_image_of_injOn inj]

theorem parts_count {p q u : ℕ} (hq : 0 < q) (hc : Nat.Coprime q p) (Q : ℕ → Prop)
    [DecidablePred Q] :
    ((Finset.range q).filter (fun i => Q ((u + p * i) % q))).card =
      ((Finset.range q).filter Q).card := by
  obtain ⟨inj, him⟩ := parts_image (u := u) hq hc
  conv_rhs => rw [← him, Finset.filter_image]
  rw [Finset.card_image_of_injOn]
  exact inj.mono (by intro i hi; exact Finset.mem_of_mem_filter i hi)

/-- Of `q` steps about as many end at `c` or above as the length of that part of the circle
suggests. -/
theorem rotation_count {m a p q r c : ℕ} (G : ℕ) (hm : 0 < m) (hq : 0 < q) (h : a * q = p * m + r)
    (hr : r * q < m) (hc : Nat.Coprime q p) :
    ((Finset.range q).filter (fun i => c ≤ (G + a * i) % m)).card ≤ q - q * c / m + 1 ∧
    q - q * c / m ≤ ((Finset.range q).filter (fun i => c ≤ (G + a * i) % m)).card + 2 := by
  set K := q * c / m with hK
  set u := q * G / m with hu
  constructor
  · calc ((Finset.range q).filter (fun i => c ≤ (G + a * i) % m)).card
        ≤ ((Finset.range q).filter (fun i => K ≤ (u + p * i) % q + 1)).card := by
          apply Finset.card_le_card
          intro i hi
          obtain ⟨h1, h2⟩ := Finset.mem_filter.1 hi
          refine Finset.mem_filter.2 ⟨h1, ?_⟩
          obtain ⟨β, hβ, e⟩ := part_step (G := G) hm hq h hr (Finset.mem_range.1 h1)
          have h3 : K ≤ q * ((G + a * i) % m) / m :=
            Nat.div_le_div_right (Nat.mul_le_mul_left _ h2)
          rw [e, ← hu] at h3
          refine h3.trans ?_
          rw [Nat.add_mod]
          refine (Nat.mod_le _ _).trans ?_
          have := Nat.mod_le β q
          omega
      _ = ((Finset.range q).filter (fun j => K ≤ j + 1)).card :=
          parts_count hq hc (fun j => K ≤ j + 1)
      _ ≤ (Finset.Ico (K - 1) q).card := by
          apply Finset.card_le_card
          intro j hj
          obtain ⟨h1, h2⟩ := Finset.mem_filter.1 hj
          have := Finset.mem_range.1 h1
          exact Finset.mem_Ico.2 ⟨by omega, this⟩
      _ ≤ q - K + 1 := by rw [Nat.card_Ico]; omega
  · have hlow : (Finset.Ico (K + 1) (q - 1)).card ≤
        ((Finset.range q).filter (fun i => c ≤ (G + a * i) % m)).card := by
      calc (Finset.Ico (K + 1) (q - 1)).card
          ≤ ((Finset.range q).filter (fun j => K + 1 ≤ j ∧ j + 1 < q)).card := by
            apply Finset.card_le_card
            intro j hj
            obtain ⟨h1, h2⟩ := Finset.mem_Ico.1 hj
            exact Finset.mem_filter.2 ⟨Finset.mem_range.2 (by omega), h1, by omega⟩
        _ = ((Finset.range q).filter (fun i => K + 1 ≤ (u + p * i) % q ∧
              (u + p * i) % q + 1 < q)).card :=
            (parts_count hq hc (fun j => K + 1 ≤ j ∧ j + 1 < q)).symm
        _ ≤ _ := by
            apply Finset.card_le_card
            intro i hi
            obtain ⟨h1, h2, h3⟩ := Finset.mem_filter.1 hi
            refine Finset.mem_filter.2 ⟨h1, ?_⟩
            obtain ⟨β, hβ, e⟩ := part_step (G := G) hm hq h hr (Finset.mem_range.1 h1)
            rw [← hu] at e
            have h4 : (u + p * i + β) % q = (u + p * i) % q + β := by
              rw [← Nat.mod_add_mod, Nat.mod_eq_of_lt (by omega)]
            rw [h4] at e
            by_contra hlt
            have h5 : q * ((G + a * i) % m) / m ≤ q * c / m :=
              Nat.div_le_div_right (Nat.mul_le_mul_left _ (by omega))
            omega
    rw [Nat.card_Ico] at hlow
    omega

end Minimc
