import Verif.Lemmas.RoundedCrossing
import Verif.Lemmas.RoundedSphere

/-! # Cylinders in double precision -/

namespace Minimc
namespace Rounded

variable {rnd : ℝ → ℝ}

/-- Inside: the two solutions have different signs and the positive one is found. -/
theorem general_inside (h : Nearest rnd) {a b c : ℝ} (ha : IsDouble a) (ha0 : 0 < a) (hc : IsDouble c)
    (hneg : c < 0) : ∃ t T : ℝ, solveQuadratic rnd a b c = (t : WithTop ℝ) ∧ 0 < t ∧ 0 < T ∧
      a * T ^ 2 + b * T + c = 0 ∧ Near 5 T t := by
  have four : rnd (4 * a) = 4 * a := scale_four h ha
  have two : rnd (2 * a) = 2 * a := scale_two h ha
  have ha2 : 0 < 2 * a := by linarith
  have hbb := mul_self_nonneg b
  have hac : 4 * a * c < 0 := mul_neg_of_pos_of_neg (by linarith) hneg
  have d0 : 0 < rnd (b * b) - rnd (4 * a * c) := by linarith [h.nonneg hbb, h.neg hac]
  have n1 : Near 1 (b * b - 4 * a * c) (rnd (b * b) - rnd (4 * a * c)) := by
    have := (h.near hbb).add (neg_near h hac.le)
    simpa [sub_eq_add_neg] using this
  have n2 : Near 2 (b * b - 4 * a * c) (rnd (rnd (b * b) - rnd (4 * a * c))) := n1.trans (h.near d0.le)
  have dpos := h.pos d0
  have D0 : 0 < b * b - 4 * a * c := by linarith
  have n3 : Near 3 (Real.sqrt (b * b - 4 * a * c))
      (rnd (Real.sqrt (rnd (rnd (b * b) - rnd (4 * a * c))))) :=
    (sqrt_near' n2 D0.le dpos.le).trans (h.near (Real.sqrt_nonneg _))
  set s := Real.sqrt (b * b - 4 * a * c) with hs
  have hs2 : s ^ 2 = b * b - 4 * a * c := Real.sq_sqrt D0.le
  have hspos : 0 < s := Real.sqrt_pos.2 D0
  set r := rnd (Real.sqrt (rnd (rnd (b * b) - rnd (4 * a * c)))) with hr
  have hrpos : 0 < r := n3.pos hspos
  unfold solveQuadratic
  rw [four, two, scale_two h hc]
  dsimp only
  rw [if_neg (not_le.2 dpos), ← hr]
  by_cases hb : b > 0
  · rw [if_pos hb, if_pos hb]
    have hm : -b - r < 0 := by linarith
    have hm' := h.neg hm
    have l0 : ¬ rnd (rnd (-b - r) / (2 * a)) > 0 := by
      have := h.neg (div_neg_of_neg_of_pos hm' ha2)
      linarith
    have g0 : 0 < 2 * c / rnd (-b - r) := div_pos_of_neg_of_neg (by linarith) hm'
    rw [if_neg l0, if_pos (h.pos g0)]
    refine ⟨_, (-(2 * c)) / (b + s), rfl, h.pos g0, div_pos (by linarith) (by linarith), ?_, ?_⟩
    · have : b + s ≠ 0 := by positivity
      have e : a * (-(2 * c) / (b + s)) ^ 2 + b * (-(2 * c) / (b + s)) + c =
          c * (s ^ 2 - (b * b - 4 * a * c)) / (b + s) ^ 2 := by
        field_simp
        ring
      rw [e, hs2, sub_self, mul_zero, zero_div]
    · have nb : Near 3 (b + s) (b + r) :=
        ((Near.refl b).mono (by norm_num : 0 ≤ 3) hb.le hb.le).add n3
      have nn : Near 1 (b + r) (-rnd (-b - r)) := by
        have := neg_near h hm.le
        rwa [show -(-b - r) = b + r by ring] at this
      have nd := nb.trans nn
      have nq : Near 4 (-(2 * c) / (b + s)) (-(2 * c) / (-rnd (-b - r))) := by
        have := (Near.refl (-(2 * c))).div nd (by linarith) (by linarith) (by linarith)
          (by linarith)
        simpa using this
      rw [neg_div_neg_eq] at nq
      exact nq.trans (h.near g0.le)
  · rw [if_neg hb, if_neg hb]
    push Not at hb
    have hm : 0 < -b + r := by linarith
    have hm' := h.pos hm
    have l0 : ¬ rnd (2 * c / rnd (-b + r)) > 0 := by
      have := h.neg (div_neg_of_neg_of_pos (by linarith : 2 * c < 0) hm')
      linarith
    have g0 : 0 < rnd (-b + r) / (2 * a) := by positivity
    rw [if_neg l0, if_pos (h.pos g0)]
    refine ⟨_, (-b + s) / (2 * a), rfl, h.pos g0, div_pos (by linarith) ha2, ?_, ?_⟩
    · have e : a * ((-b + s) / (2 * a)) ^ 2 + b * ((-b + s) / (2 * a)) + c =
          (s ^ 2 - (b * b - 4 * a * c)) / (4 * a) := by
        field_simp
        ring
      rw [e, hs2, sub_self, zero_div]
    have nb : Near 3 (-b + s) (-b + r) :=
      ((Near.refl (-b)).mono (by norm_num : 0 ≤ 3) (by linarith) (by linarith)).add n3
    have nd : Near 4 _ _ := nb.trans (h.near hm.le)
    have nq : Near 4 ((-b + s) / (2 * a)) (rnd (-b + r) / (2 * a)) := by
      have := nd.div (Near.refl (2 * a)) (by linarith) ha2 hm'.le ha2
      simpa using this
    exact nq.trans (h.near g0.le)

/-- Outside: the solution that is found is one of an equation with slightly different coefficients. -/
theorem general_outside (h : Nearest rnd) {a b c t : ℝ} (ha : IsDouble a) (ha0 : 0 < a) (hc : IsDouble c)
    (hpos : 0 < c) (ht : solveQuadratic rnd a b c = (t : WithTop ℝ)) :
    0 < t ∧ ∃ T : ℝ, 0 < T ∧ |a * T ^ 2 + b * T + c| ≤ 32 / 10 * eps * c ∧ Near 5 T t ∧
      2 * a * T + b ≤ 32 / 10 * eps * |b| := by
  have he := eps_pos
  have hsm := eps_le
  have hq := eps_sq
  have ha2 : 0 < 2 * a := by linarith
  have hac : 0 < 4 * a * c := by positivity
  have hbb := mul_self_nonneg b
  have e1 := h.err_eps (b * b)
  rw [abs_of_nonneg hbb] at e1
  obtain ⟨e1l, e1u⟩ := abs_le.1 e1
  have e2 := h.err_eps (4 * a * c)
  rw [abs_of_pos hac] at e2
  obtain ⟨e2l, e2u⟩ := abs_le.1 e2
  unfold solveQuadratic at ht
  rw [scale_four h ha, scale_two h ha, scale_two h hc] at ht
  dsimp only at ht
  set D := rnd (rnd (b * b) - rnd (4 * a * c)) with hD
  by_cases hd : D ≤ 0
  · rw [if_pos hd] at ht
    cases ht
  rw [if_neg hd] at ht
  push Not at hd
  have hpre : 0 < rnd (b * b) - rnd (4 * a * c) := by
    by_contra hcon
    push Not at hcon
    linarith [h.nonpos hcon]
  have e3 := h.err_eps (rnd (b * b) - rnd (4 * a * c))
  rw [← hD, abs_of_pos hpre] at e3
  set s := Real.sqrt D with hs
  have hs2 : s ^ 2 = D := Real.sq_sqrt hd.le
  have hspos : 0 < s := Real.sqrt_pos.2 hd
  have n3 := h.near hspos.le
  have hr := h.pos hspos
  set r := rnd s
  by_cases hb : b > 0
  · exfalso
    have hm' := h.neg (show -b - r < 0 by linarith)
    rw [if_pos hb, if_pos hb, if_neg, if_neg] at ht
    · cases ht
    · have := h.neg (div_neg_of_pos_of_neg (by linarith : 0 < 2 * c) hm')
      linarith
    · have := h.neg (div_neg_of_neg_of_pos hm' ha2)
      linarith
  · rw [if_neg hb, if_neg hb] at ht
    push Not at hb
    have hm : 0 < -b + r := by linarith
    have hm' := h.pos hm
    have g0 : 0 < 2 * c / rnd (-b + r) := by positivity
    have hP : 0 < -b + s := by linarith
    rw [if_pos (h.pos g0)] at ht
    have ht' : rnd (2 * c / rnd (-b + r)) = t := by exact_mod_cast ht
    rw [← ht']
    have hle : 4 * a * c ≤ 101 / 100 * (b * b) := by
      have k1 : 4 * a * c * (1 - eps) < b * b * (1 + eps) := by linarith
      have k2 := mul_le_mul_of_nonneg_right hsm hbb
      have k3 := mul_le_mul_of_nonneg_right hsm hac.le
      linarith
    have hδ : |D - (b * b - 4 * a * c)| ≤ 32 / 10 * eps * (b * b) := by
      have t0 : D - (b * b - 4 * a * c) = (D - (rnd (b * b) - rnd (4 * a * c))) +
        ((rnd (b * b) - b * b) - (rnd (4 * a * c) - 4 * a * c)) := by ring
      rw [t0]
      have t1 := abs_add_le (D - (rnd (b * b) - rnd (4 * a * c)))
        ((rnd (b * b) - b * b) - (rnd (4 * a * c) - 4 * a * c))
      have t1' := abs_sub (rnd (b * b) - b * b) (rnd (4 * a * c) - 4 * a * c)
      have t2 : rnd (b * b) - rnd (4 * a * c) ≤ (1 + eps) * (b * b) := by
        linarith [h.nonneg hac.le]
      have t3 := mul_le_mul_of_nonneg_left t2 he.le
      have t4 := mul_le_mul_of_nonneg_right hq hbb
      have t5 := mul_nonneg he.le hbb
      have t6 := mul_le_mul_of_nonneg_left hle he.le
      linarith
    refine ⟨h.pos g0, 2 * c / (-b + s), by positivity, ?_, ?_, ?_⟩
    · have hid : a * (2 * c / (-b + s)) ^ 2 + b * (2 * c / (-b + s)) + c =
          c * ((D - (b * b - 4 * a * c)) / (-b + s) ^ 2) := by
        rw [← hs2]
        field_simp
        ring
      have hPb : b * b ≤ (-b + s) ^ 2 := by nlinarith
      rw [hid, abs_mul, abs_of_pos hpos, abs_div, abs_of_pos (by positivity : 0 < (-b + s) ^ 2),
        mul_comm]
      refine mul_le_mul_of_nonneg_right ?_ hpos.le
      rw [div_le_iff₀ (by positivity)]
      refine hδ.trans ?_
      exact mul_le_mul_of_nonneg_left hPb (by positivity)
    · have nb : Near 1 (-b + s) (-b + r) :=
        ((Near.refl (-b)).mono (by norm_num : 0 ≤ 1) (by linarith) (by linarith)).add n3
      have nd : Near 2 _ _ := nb.trans (h.near hm.le)
      have nq : Near 2 (2 * c / (-b + s)) (2 * c / rnd (-b + r)) := by
        have := (Near.refl (2 * c)).div nd (by linarith) hP (by linarith) hm'
        simpa using this
      exact (nq.trans (h.near g0.le)).mono (by norm_num) (by positivity) (h.pos g0).le
    · have hid : 2 * a * (2 * c / (-b + s)) + b = -s + (D - (b * b - 4 * a * c)) / (-b + s) := by
        rw [← hs2]
        field_simp
        ring
      rw [hid, abs_of_nonpos hb]
      have k1 : (D - (b * b - 4 * a * c)) / (-b + s) ≤ 32 / 10 * eps * (b * b) / (-b + s) :=
        div_le_div_of_nonneg_right (abs_le.1 hδ).2 hP.le
      have k2 : 32 / 10 * eps * (b * b) / (-b + s) ≤ 32 / 10 * eps * -b := by
        rw [div_le_iff₀ hP]
        have : 0 ≤ 32 / 10 * eps * (-b * s) := by
          have := mul_nonneg (by linarith : 0 ≤ -b) hspos.le
          positivity
        linarith
      linarith

/-- On the surface: only the far side is seen. -/
theorem general_on (h : Nearest rnd) {a b t : ℝ} (ha : IsDouble a) (ha0 : 0 < a)
    (ht : solveQuadratic rnd a b 0 = (t : WithTop ℝ)) :
    0 < t ∧ ∃ T : ℝ, 0 < T ∧ a * T ^ 2 + b * T + 0 = 0 ∧ Near 5 T t := by
  have ha2 : 0 < 2 * a := by linarith
  unfold solveQuadratic at ht
  rw [scale_four h ha, scale_two h ha, mul_zero, mul_zero, h.zero, sub_zero, h.self (h.isDouble _)] at ht
  dsimp only at ht
  rw [zero_div, zero_div, h.zero] at ht
  rcases lt_trichotomy b 0 with hb | hb | hb
  · have hbb : 0 < b * b := mul_pos_of_neg_of_neg hb hb
    have hD := h.pos hbb
    have hs := Real.sqrt_pos.2 hD
    have hr := h.pos hs
    have n1 := sqrt_near' (h.near hbb.le) hbb.le hD.le
    rw [show Real.sqrt (b * b) = -b by rw [Real.sqrt_mul_self_eq_abs, abs_of_neg hb]] at n1
    have n2 : Near 2 (-b) (rnd (Real.sqrt (rnd (b * b)))) := n1.trans (h.near hs.le)
    rw [if_neg (not_le.2 hD), if_neg (by linarith : ¬ b > 0), if_neg (by linarith : ¬ b > 0),
      if_neg (lt_irrefl _)] at ht
    set r := rnd (Real.sqrt (rnd (b * b)))
    have n3 : Near 2 (-b + -b) (-b + r) :=
      ((Near.refl (-b)).mono (by norm_num : 0 ≤ 2) (by linarith) (by linarith)).add n2
    have hm : 0 < -b + r := by linarith
    have n4 : Near 3 (-b + -b) (rnd (-b + r)) := n3.trans (h.near hm.le)
    have hm' := h.pos hm
    have g0 : 0 < rnd (-b + r) / (2 * a) := by positivity
    have n5 : Near 3 (-b / a) (rnd (-b + r) / (2 * a)) := by
      have := n4.div (Near.refl (2 * a)) (by linarith) ha2 hm'.le ha2
      rwa [show (-b + -b) / (2 * a) = -b / a by field_simp; ring] at this
    rw [if_pos (h.pos g0)] at ht
    have ht' : rnd (rnd (-b + r) / (2 * a)) = t := by exact_mod_cast ht
    rw [← ht']
    have hT : 0 < -b / a := div_pos (by linarith) ha0
    refine ⟨h.pos g0, -b / a, hT, ?_, (n5.trans (h.near g0.le)).mono (by norm_num) hT.le (h.pos g0).le⟩
    field_simp
    ring
  · rw [hb, mul_zero, h.zero, if_pos le_rfl] at ht
    cases ht
  · exfalso
    have hD := h.pos (mul_pos hb hb)
    have hr := h.pos (Real.sqrt_pos.2 hD)
    rw [if_neg (not_le.2 hD), if_pos hb, if_pos hb, if_neg, if_neg (lt_irrefl _)] at ht
    · cases ht
    · have hm' := h.neg (show -b - rnd (Real.sqrt (rnd (b * b))) < 0 by linarith)
      have := h.neg (div_neg_of_neg_of_pos hm' ha2)
      linarith

/-- A distance that is found nearly solves the equation. -/
theorem general_found (h : Nearest rnd) {a b c t : ℝ} (ha : IsDouble a) (ha0 : 0 < a) (hc : IsDouble c)
    (ht : solveQuadratic rnd a b c = (t : WithTop ℝ)) :
    0 < t ∧ ∃ T : ℝ, 0 < T ∧ |a * T ^ 2 + b * T + c| ≤ 32 / 10 * eps * |c| ∧ Near 5 T t := by
  have he := eps_pos
  rcases lt_trichotomy c 0 with hneg | hzero | hpos
  · obtain ⟨t', T, h1, h2, h3, h4, h5⟩ := general_inside h (b := b) ha ha0 hc hneg
    have e : t' = t := by
      rw [h1] at ht
      exact_mod_cast ht
    subst e
    refine ⟨h2, T, h3, ?_, h5⟩
    rw [h4, abs_zero]
    positivity
  · rw [hzero] at ht ⊢
    obtain ⟨h1, T, h2, h3, h4⟩ := general_on h ha ha0 ht
    refine ⟨h1, T, h2, ?_, h4⟩
    rw [h3, abs_zero, mul_zero]
  · rw [abs_of_pos hpos]
    obtain ⟨h1, T, h2, h3, h4, -⟩ := general_outside h ha ha0 hc hpos ht
    exact ⟨h1, T, h2, h3, h4⟩

/-- If no distance is found the equation has no solution ahead, or nearly so. -/
theorem general_missed (h : Nearest rnd) {a b c s : ℝ} (ha : IsDouble a) (ha0 : 0 < a) (hc : IsDouble c)
    (ht : solveQuadratic rnd a b c = ⊤) (hs0 : 0 ≤ s) : -(3 * eps * |c|) ≤ a * s ^ 2 + b * s + c := by
  have he := eps_pos
  have hsm := eps_le
  rcases lt_or_ge c 0 with hneg | hc0
  · obtain ⟨t, T, h1, -⟩ := general_inside h (b := b) ha ha0 hc hneg
    rw [h1] at ht
    cases ht
  rw [abs_of_nonneg hc0]
  have as0 : 0 ≤ a * s ^ 2 := by positivity
  rcases lt_or_ge b 0 with hb | hb
  · have hbb : 0 < b * b := mul_pos_of_neg_of_neg hb hb
    have ha2 : 0 < 2 * a := by linarith
    have hac : 0 ≤ 4 * a * c := by positivity
    have hD : rnd (rnd (b * b) - rnd (4 * a * c)) ≤ 0 := by
      by_contra hcon
      push Not at hcon
      unfold solveQuadratic at ht
      rw [scale_four h ha, scale_two h ha, scale_two h hc] at ht
      dsimp only at ht
      rw [if_neg (not_le.2 hcon), if_neg (by linarith : ¬ b > 0), if_neg (by linarith : ¬ b > 0)] at ht
      have hr := h.pos (Real.sqrt_pos.2 hcon)
      have hm' := h.pos (by linarith : 0 < -b + rnd (Real.sqrt (rnd (rnd (b * b) - rnd (4 * a * c)))))
      split_ifs at ht with h1 h2
      · cases ht
      · cases ht
      · exact h2 (h.pos (div_pos hm' ha2))
    have hpre : rnd (b * b) - rnd (4 * a * c) ≤ 0 := by
      by_contra hcon
      push Not at hcon
      linarith [h.pos hcon]
    have e1 := h.err_eps (b * b)
    rw [abs_of_pos hbb] at e1
    have e2 := h.err_eps (4 * a * c)
    rw [abs_of_nonneg hac] at e2
    have k : b * b * (1 - eps) ≤ 4 * a * c * (1 + eps) := by linarith [(abs_le.1 e1).1, (abs_le.1 e2).2]
    have k' : b * b ≤ 4 * a * c * (1 + 3 * eps) := by
      by_contra hcon
      push Not at hcon
      have k1 : 4 * a * c * (1 + 3 * eps) * (1 - eps) ≤ b * b * (1 - eps) :=
        mul_le_mul_of_nonneg_right hcon.le (by linarith)
      have k2 : 0 ≤ 4 * a * c * (eps * (1 - 3 * eps)) :=
        mul_nonneg hac (mul_nonneg he.le (by linarith))
      have k3 : 4 * a * c * (eps * (1 - 3 * eps)) = 0 := by linarith
      have k4 : 4 * a * c = 0 := by
        rcases mul_eq_zero.1 k3 with h0 | h0
        · exact h0
        · exfalso
          have : 0 < eps * (1 - 3 * eps) := mul_pos he (by linarith)
          linarith
      rw [k4, zero_mul] at k
      have : 0 < b * b * (1 - eps) := mul_pos hbb (by linarith)
      linarith
    have id : 4 * a * (a * s ^ 2 + b * s + c) = (2 * a * s + b) ^ 2 - (b * b - 4 * a * c) := by ring
    have k5 : 4 * a * -(3 * eps * c) ≤ 4 * a * (a * s ^ 2 + b * s + c) := by
      rw [id]
      linarith [sq_nonneg (2 * a * s + b)]
    exact le_of_mul_le_mul_left k5 (by linarith)
  · have : 0 ≤ b * s := mul_nonneg hb hs0
    have : 0 ≤ 3 * eps * c := by positivity
    linarith

/-- The square of the distance from the axis. -/
theorem axis_err (h : Nearest rnd) {p : Point} (hx : IsDouble p.x) :
    |rnd (dot rnd p p - rnd (dot rnd p ⟨1, 0, 0⟩ * dot rnd p ⟨1, 0, 0⟩)) - (p.y ^ 2 + p.z ^ 2)| ≤
      52 / 10 * eps * p.dot p := by
  have he := eps_pos
  have hs := eps_le
  have hq := eps_sq
  rw [dot_axis h hx]
  have h1 := dot_err h p p
  rw [← sq (len p), len_sq] at h1
  have h2 := h.err_eps (p.x * p.x)
  rw [abs_of_nonneg (mul_self_nonneg p.x)] at h2
  have hN : p.dot p = p.x * p.x + (p.y ^ 2 + p.z ^ 2) := by
    unfold Point.dot
    ring
  have y0 := sq_nonneg p.y
  have z0 := sq_nonneg p.z
  have x0 := mul_self_nonneg p.x
  have N0 := Point.dot_self_nonneg p
  set N := p.dot p
  set O := dot rnd p p
  set X := rnd (p.x * p.x)
  set q := p.y ^ 2 + p.z ^ 2 with hqd
  have hxN : p.x * p.x ≤ N := by linarith
  have h3 := mul_le_mul_of_nonneg_left hxN he.le
  have eN := mul_nonneg he.le N0
  have eN' := mul_le_mul_of_nonneg_right hs N0
  have eeN := mul_le_mul_of_nonneg_right hq N0
  have a1 : |(O - X) - q| ≤ 41 / 10 * (eps * N) := by
    rw [abs_le] at h1 h2 ⊢
    constructor <;> linarith [h1.1, h1.2, h2.1, h2.2]
  have a2 : |O - X| ≤ 101 / 100 * N := by
    rw [abs_le] at a1 ⊢
    constructor <;> linarith [a1.1, a1.2]
  have h4 := h.err_eps (O - X)
  have h5 := mul_le_mul_of_nonneg_left a2 he.le
  rw [abs_le] at a1 h4 ⊢
  constructor <;> linarith [a1.1, a1.2, h4.1, h4.2]

/-- The coefficients of the equation for a cylinder. -/
theorem cylinder_coeffs (h : Nearest rnd) {p : Point} {d : Direction} {R : ℝ} (hx : IsDouble p.x)
    (hdx : IsDouble d.x) (hd : |d.dot d - 1| ≤ 32 * eps) :
    |rnd (1 - rnd (dot rnd d ⟨1, 0, 0⟩ * dot rnd d ⟨1, 0, 0⟩)) - (1 - d.x ^ 2)| ≤ 22 / 10 * eps ∧
    |rnd (2 * rnd (dot rnd p d - rnd (dot rnd p ⟨1, 0, 0⟩ * dot rnd d ⟨1, 0, 0⟩))) -
      2 * (p.y * d.y + p.z * d.z)| ≤ 11 * eps * len p ∧
    |rnd (rnd (dot rnd p p - rnd (dot rnd p ⟨1, 0, 0⟩ * dot rnd p ⟨1, 0, 0⟩)) - rnd (R * R)) -
      (p.y ^ 2 + p.z ^ 2 - R ^ 2)| ≤ 7 * eps * (p.dot p + R ^ 2) := by
  have he := eps_pos
  have hs := eps_le
  have hq := eps_sq
  have hA := axis_err h hx
  rw [dot_axis h hx] at hA ⊢
  rw [dot_axis h hdx]
  have D := abs_le.1 (len_near hd)
  have D2 : len d ≤ 101 / 100 := by linarith [D.2]
  have d0 := len_nonneg d
  have hdd : d.dot d = d.x * d.x + (d.y ^ 2 + d.z ^ 2) := by
    unfold Point.dot
    ring
  have hx1 : d.x * d.x ≤ 101 / 100 := by
    linarith [(abs_le.1 hd).2, sq_nonneg d.y, sq_nonneg d.z]
  refine ⟨?_, ?_, ?_⟩
  · have h1 := h.err_eps (d.x * d.x)
    rw [abs_of_nonneg (mul_self_nonneg d.x)] at h1
    have h2 := mul_le_mul_of_nonneg_left hx1 he.le
    have h3 := h.err_eps (1 - rnd (d.x * d.x))
    have x0 := mul_self_nonneg d.x
    have h4 : |1 - rnd (d.x * d.x)| ≤ 101 / 100 := by
      rw [abs_le] at h1 ⊢
      constructor <;> linarith [h1.1, h1.2]
    have h5 := mul_le_mul_of_nonneg_left h4 he.le
    rw [sq]
    rw [abs_le] at h1 h3 ⊢
    constructor <;> linarith [h1.1, h1.2, h3.1, h3.2]
  · rw [scale_two h (h.isDouble _)]
    set L := len p
    have L0 : 0 ≤ L := len_nonneg p
    have h1 := dot_err h p d
    have hm := abs_dot_le p d
    have hLd : len p * len d ≤ 101 / 100 * L := by
      have := mul_le_mul_of_nonneg_left D2 L0
      linarith
    have h2 := h.err_eps (p.x * d.x)
    have hpd : p.dot d = p.x * d.x + (p.y * d.y + p.z * d.z) := by
      unfold Point.dot
      ring
    have n1 := abs_nonneg (p.x * d.x)
    have n2 := abs_nonneg (p.y * d.y)
    have n3 := abs_nonneg (p.z * d.z)
    have hM : |p.y * d.y + p.z * d.z| ≤ 101 / 100 * L := (abs_add_le _ _).trans (by linarith)
    have hX : |p.x * d.x| ≤ 101 / 100 * L := by linarith
    rw [hpd] at h1
    set m := p.y * d.y + p.z * d.z
    set O := dot rnd p d
    set X := rnd (p.x * d.x)
    have k1 := mul_le_mul_of_nonneg_left hX he.le
    have k2 := mul_le_mul_of_nonneg_left hLd (by positivity : 0 ≤ 31 / 10 * eps)
    have eL := mul_nonneg he.le L0
    have eL' := mul_le_mul_of_nonneg_right hs L0
    have a1 : |(O - X) - m| ≤ 42 / 10 * (eps * L) := by
      rw [abs_le] at h1 h2 ⊢
      constructor <;> linarith [h1.1, h1.2, h2.1, h2.2]
    have a2 : |O - X| ≤ 102 / 100 * L := by
      rw [abs_le] at a1 hM ⊢
      constructor <;> linarith [a1.1, a1.2, hM.1, hM.2]
    have h4 := h.err_eps (O - X)
    have h5 := mul_le_mul_of_nonneg_left a2 he.le
    rw [abs_le] at a1 h4 ⊢
    constructor <;> linarith [a1.1, a1.2, h4.1, h4.2]
  · set S := rnd (dot rnd p p - rnd (p.x * p.x))
    have h1 := h.err_eps (R * R)
    rw [abs_of_nonneg (mul_self_nonneg R)] at h1
    have R0 := mul_self_nonneg R
    have N0 := Point.dot_self_nonneg p
    have hN : p.dot p = p.x * p.x + (p.y ^ 2 + p.z ^ 2) := by
      unfold Point.dot
      ring
    have x0 := mul_self_nonneg p.x
    have y0 := sq_nonneg p.y
    have z0 := sq_nonneg p.z
    rw [sq R]
    set N := p.dot p
    set q := p.y ^ 2 + p.z ^ 2
    have eN := mul_nonneg he.le N0
    have eN' := mul_le_mul_of_nonneg_right hs N0
    have eR := mul_nonneg he.le R0
    have eR' := mul_le_mul_of_nonneg_right hs R0
    have a2 : |S - rnd (R * R)| ≤ 101 / 100 * (N + R * R) := by
      rw [abs_le] at hA h1 ⊢
      constructor <;> linarith [hA.1, hA.2, h1.1, h1.2]
    have h4 := h.err_eps (S - rnd (R * R))
    have h5 := mul_le_mul_of_nonneg_left a2 he.le
    rw [abs_le] at hA h1 h4 ⊢
    constructor <;> linarith [hA.1, hA.2, h1.1, h1.2, h4.1, h4.2]

/-- A flight that is not along the axis has a coefficient that is not zero. -/
theorem across_pos (h : Nearest rnd) {d : Direction} (hdx : IsDouble d.x) (h1 : |d.x| < 1) :
    0 < rnd (1 - rnd (dot rnd d ⟨1, 0, 0⟩ * dot rnd d ⟨1, 0, 0⟩)) := by
  rw [dot_axis h hdx]
  apply h.pos
  have hle : d.x * d.x ≤ |d.x| := by
    rw [← abs_mul_abs_self]
    exact mul_le_of_le_one_left (abs_nonneg _) h1.le
  have habs : IsDouble |d.x| := by
    rcases abs_cases d.x with ⟨e, -⟩ | ⟨e, -⟩ <;> rw [e]
    · exact hdx
    · exact hdx.neg
  have := h.mono hle
  rw [h.self habs] at this
  linarith

/-- How far from the axis a found distance leads. -/
theorem cylinder_solution {y z dy dz m e a b c q L R N T t : ℝ} (hm : m = y * dy + z * dz)
    (he' : e = dy ^ 2 + dz ^ 2) (hqd : q = y ^ 2 + z ^ 2) (hN : N = L ^ 2) (hL : 0 ≤ L)
    (hea : |e - a| ≤ 35 * eps) (hb : |b - 2 * m| ≤ 11 * eps * L)
    (hc : |c - (q - R ^ 2)| ≤ 7 * eps * (N + R ^ 2)) (hq0 : 0 ≤ q) (hqN : q ≤ N) (hm0 : |m| ≤ 101 / 100 * L)
    (he0 : 0 ≤ e) (he1 : e ≤ 101 / 100) (hT : 0 < T) (hres : |a * T ^ 2 + b * T + c| ≤ 32 / 10 * eps * |c|)
    (ht : Near 5 T t) :
    |(y + t * dy) ^ 2 + (z + t * dz) ^ 2 - R ^ 2| ≤ 64 * eps * (t ^ 2 + N + R ^ 2) := by
  have hep := eps_pos
  have hs := eps_le
  have ht0 := ht.pos hT
  have herr := near_err ht hT.le le_rfl
  have herr' := near_err ht.symm ht0.le le_rfl
  push_cast at herr herr'
  have R0 := sq_nonneg R
  have hN0 : 0 ≤ N := by rw [hN]; positivity
  have eN := mul_nonneg hep.le (add_nonneg hN0 R0)
  have eN' := mul_le_mul_of_nonneg_right hs (add_nonneg hN0 R0)
  have hcb : |c| ≤ 101 / 100 * (N + R ^ 2) := by
    rw [abs_le] at hc ⊢
    constructor <;> linarith [hc.1, hc.2]
  have hres' : |a * T ^ 2 + b * T + c| ≤ 33 / 10 * (eps * (N + R ^ 2)) := by
    have := mul_le_mul_of_nonneg_left hcb (by positivity : 0 ≤ 32 / 10 * eps)
    linarith
  have hTt : T ≤ 1001 / 1000 * t := by
    have := mul_le_mul_of_nonneg_right hs ht0.le
    linarith [(abs_le.1 herr').2]
  have htT : t ≤ 1001 / 1000 * T := by
    have := mul_le_mul_of_nonneg_right hs hT.le
    linarith [(abs_le.1 herr).2]
  have hTT : T ^ 2 ≤ 1003 / 1000 * t ^ 2 := by nlinarith
  have hLT : L * T ≤ 1001 / 1000 * (L * t) := by
    have := mul_le_mul_of_nonneg_left hTt hL
    linarith
  have hLt : 2 * (L * t) ≤ N + t ^ 2 := by
    rw [hN]
    nlinarith [sq_nonneg (L - t)]
  have b1 : |(e - a) * T ^ 2| ≤ 35 * eps * T ^ 2 := by
    rw [abs_mul, abs_of_nonneg (sq_nonneg T)]
    exact mul_le_mul_of_nonneg_right hea (sq_nonneg T)
  have b2 : |(b - 2 * m) * T| ≤ 11 * eps * L * T := by
    rw [abs_mul, abs_of_pos hT]
    exact mul_le_mul_of_nonneg_right hb hT.le
  have b3 : |(t - T) * (2 * m + (t + T) * e)| ≤ (5 + 1 / 10) * eps * T * (202 / 100 * L + 203 / 100 * T) := by
    rw [abs_mul]
    refine mul_le_mul herr ?_ (abs_nonneg _) (by positivity)
    have k : (t + T) * e ≤ 2001 / 1000 * T * (101 / 100) := mul_le_mul (by linarith) he1 he0 (by linarith)
    have k0 : 0 ≤ (t + T) * e := mul_nonneg (by linarith) he0
    rw [abs_le] at hm0 ⊢
    constructor <;> linarith [hm0.1, hm0.2]
  have id : (y + t * dy) ^ 2 + (z + t * dz) ^ 2 - R ^ 2 = (a * T ^ 2 + b * T + c) + (e - a) * T ^ 2 -
      (b - 2 * m) * T - (c - (q - R ^ 2)) + (t - T) * (2 * m + (t + T) * e) := by
    rw [hm, he', hqd]
    ring
  have f1 := mul_le_mul_of_nonneg_left hTT hep.le
  have f2 := mul_le_mul_of_nonneg_left hLT hep.le
  have f3 := mul_le_mul_of_nonneg_left hLt hep.le
  have f4 := mul_nonneg hep.le hN0
  have f5 := mul_nonneg hep.le R0
  have f6 := mul_nonneg hep.le (sq_nonneg t)
  rw [id]
  rw [abs_le] at hres' b1 b2 b3 hc ⊢
  constructor <;> linarith [hres'.1, hres'.2, b1.1, b1.2, b2.1, b2.2, b3.1, b3.2, hc.1, hc.2]

/-- How near to the axis a flight comes where the equation is not less than a bound. -/
theorem cylinder_above {y z dy dz m e a b c q L R N s B : ℝ} (hm : m = y * dy + z * dz)
    (he' : e = dy ^ 2 + dz ^ 2) (hqd : q = y ^ 2 + z ^ 2) (hN : N = L ^ 2)
    (hea : |e - a| ≤ 35 * eps) (hb : |b - 2 * m| ≤ 11 * eps * L)
    (hc : |c - (q - R ^ 2)| ≤ 7 * eps * (N + R ^ 2)) (hs0 : 0 ≤ s)
    (hres : -B ≤ a * s ^ 2 + b * s + c) :
    R ^ 2 - 41 * eps * (s ^ 2 + N + R ^ 2) - B ≤ (y + s * dy) ^ 2 + (z + s * dz) ^ 2 := by
  have hep := eps_pos
  have b1 : |(e - a) * s ^ 2| ≤ 35 * eps * s ^ 2 := by
    rw [abs_mul, abs_of_nonneg (sq_nonneg s)]
    exact mul_le_mul_of_nonneg_right hea (sq_nonneg s)
  have b2 : |(b - 2 * m) * s| ≤ 11 * eps * L * s := by
    rw [abs_mul, abs_of_nonneg hs0]
    exact mul_le_mul_of_nonneg_right hb hs0
  have hLt : 2 * (L * s) ≤ N + s ^ 2 := by
    rw [hN]
    nlinarith [sq_nonneg (L - s)]
  have f3 := mul_le_mul_of_nonneg_left hLt hep.le
  have hN0 : 0 ≤ N := by rw [hN]; positivity
  have f4 := mul_nonneg hep.le hN0
  have f5 := mul_nonneg hep.le (sq_nonneg R)
  have f6 := mul_nonneg hep.le (sq_nonneg s)
  have id : (y + s * dy) ^ 2 + (z + s * dz) ^ 2 = R ^ 2 + (a * s ^ 2 + b * s + c) + (e - a) * s ^ 2 -
      (b - 2 * m) * s - (c - (q - R ^ 2)) := by
    rw [hm, he', hqd]
    ring
  rw [id]
  rw [abs_le] at b1 b2 hc
  linarith [b1.1, b2.2, hc.2]

end Rounded
end Minimc
