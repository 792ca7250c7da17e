import Verif.Lemmas.RoundedDirection

/-! # Rounding errors of distances to spheres -/

namespace Minimc

theorem Nearest.neg {rnd : ℝ → ℝ} (h : Nearest rnd) {x : ℝ} (hx : x < 0) : rnd x < 0 := by
  have h1 := (abs_le.1 (h.err_eps x)).2
  rw [abs_of_neg hx] at h1
  have h2 := eps_le
  nlinarith

namespace Rounded

variable {rnd : ℝ → ℝ}

theorem abs_dot_le (a b : Point) :
    |a.x * b.x| + |a.y * b.y| + |a.z * b.z| ≤ len a * len b := by
  have := dot_le_len ⟨|a.x|, |a.y|, |a.z|⟩ ⟨|b.x|, |b.y|, |b.z|⟩
  have e1 : ∀ p : Point, len ⟨|p.x|, |p.y|, |p.z|⟩ = len p := by
    intro p
    simp [len, Point.dot]
  rw [e1 a, e1 b] at this
  refine le_trans (le_of_eq ?_) ((le_abs_self _).trans this)
  simp only [Point.dot, abs_mul]

theorem dot_err (h : Nearest rnd) (a b : Point) :
    |dot rnd a b - a.dot b| ≤ 31 / 10 * eps * (len a * len b) := by
  have he := eps_pos
  have hq := eps_sq
  have hs := eps_le
  unfold dot Point.dot
  have hS := abs_dot_le a b
  set P := a.x * b.x
  set Q := a.y * b.y
  set R := a.z * b.z
  have p1 := h.err_eps P
  have q1 := h.err_eps Q
  have r1 := h.err_eps R
  have p2 := h.abs_le_eps P
  have q2 := h.abs_le_eps Q
  have r2 := h.abs_le_eps R
  set p := rnd P
  set q := rnd Q
  set r := rnd R
  have s1 := h.err_eps (p + q)
  have s2 := h.abs_le_eps (p + q)
  set s := rnd (p + q)
  have t1 := h.err_eps (s + r)
  have m1 : |p + q| ≤ (1 + eps) * (|P| + |Q|) := by
    have := abs_add_le p q
    linarith
  have m2 : |s| ≤ (1 + 3 * eps) * (|P| + |Q|) := by
    have := mul_le_mul_of_nonneg_left m1 (by linarith : 0 ≤ 1 + eps)
    have h0 : 0 ≤ |P| + |Q| := by positivity
    have := mul_le_mul_of_nonneg_right hq h0
    have := mul_nonneg he.le h0
    linarith
  have m3 : |s + r| ≤ (1 + 3 * eps) * (|P| + |Q| + |R|) := by
    have := abs_add_le s r
    have := mul_nonneg he.le (abs_nonneg R)
    linarith
  have key : |rnd (s + r) - (P + Q + R)| ≤ 31 / 10 * eps * (|P| + |Q| + |R|) := by
    have e1 : rnd (s + r) - (P + Q + R) = (rnd (s + r) - (s + r)) + ((s - (p + q)) +
        ((p - P) + ((q - Q) + (r - R)))) := by ring
    rw [e1]
    have a1 := abs_add_le (rnd (s + r) - (s + r)) ((s - (p + q)) + ((p - P) + ((q - Q) + (r - R))))
    have a2 := abs_add_le (s - (p + q)) ((p - P) + ((q - Q) + (r - R)))
    have a3 := abs_add_le (p - P) ((q - Q) + (r - R))
    have a4 := abs_add_le (q - Q) (r - R)
    have n3 := mul_le_mul_of_nonneg_left m3 he.le
    have n1 := mul_le_mul_of_nonneg_left m1 he.le
    have h0 : 0 ≤ |P| + |Q| := by positivity
    have h1 : 0 ≤ |P| + |Q| + |R| := by positivity
    have k1 := mul_le_mul_of_nonneg_right hq h0
    have k2 := mul_le_mul_of_nonneg_right hq h1
    have k3 := mul_nonneg he.le h0
    have k4 := mul_nonneg he.le h1
    have k5 := mul_nonneg he.le (abs_nonneg R)
    linarith
  refine key.trans ?_
  exact mul_le_mul_of_nonneg_left hS (by positivity)

/-! ### Quadratic equations -/

theorem near_err {k : ℕ} {x y : ℝ} (h : Near k x y) (hx : 0 ≤ x) (hk : k ≤ 5) :
    |y - x| ≤ (k + 1 / 10) * eps * x := by
  have hy := h.nonneg hx
  have f : 1 - (k : ℝ) * eps ≤ (1 - 1 / 2 ^ 53 : ℝ) ^ k := by
    have := Near.fac_ge k
    unfold eps
    rwa [mul_one_div]
  have he := eps_pos
  have hs := eps_le
  have hk' : (k : ℝ) ≤ 5 := by exact_mod_cast hk
  have hk0 : (0 : ℝ) ≤ k := Nat.cast_nonneg k
  have h1 : x * (1 - k * eps) ≤ y := (mul_le_mul_of_nonneg_left f hx).trans h.1
  have h2 : y * (1 - k * eps) ≤ x := (mul_le_mul_of_nonneg_left f hy).trans h.2
  have g : 1 ≤ (1 - k * eps) * (1 + (k + 1 / 10) * eps) := by
    have : (1 - k * eps) * (1 + (k + 1 / 10) * eps) =
        1 + eps * (1 / 10 - k * (k + 1 / 10) * eps) := by ring
    rw [this]
    have : k * (k + 1 / 10) * eps ≤ 1 / 10 := by
      have : (k : ℝ) * (k + 1 / 10) ≤ 30 := by nlinarith
      nlinarith
    nlinarith
  have g2 : y ≤ x * (1 + (k + 1 / 10) * eps) := by
    calc y = y * 1 := by ring
      _ ≤ y * ((1 - k * eps) * (1 + (k + 1 / 10) * eps)) := mul_le_mul_of_nonneg_left g hy
      _ = y * (1 - k * eps) * (1 + (k + 1 / 10) * eps) := by ring
      _ ≤ _ := mul_le_mul_of_nonneg_right h2 (by positivity)
  rw [abs_le]
  constructor
  · nlinarith [mul_nonneg he.le hx]
  · linarith

theorem sqrt_near' {k : ℕ} {x y : ℝ} (hxy : Near k x y) (hx : 0 ≤ x) (hy : 0 ≤ y) :
    Near k (Real.sqrt x) (Real.sqrt y) := by
  have key : ∀ {a b : ℝ}, 0 ≤ a → a * (1 - 1 / 2 ^ 53) ^ k ≤ b →
      Real.sqrt a * (1 - 1 / 2 ^ 53) ^ k ≤ Real.sqrt b := by
    intro a b ha hab
    refine Real.le_sqrt_of_sq_le ?_
    rw [mul_pow, Real.sq_sqrt ha]
    refine le_trans (mul_le_mul_of_nonneg_left ?_ ha) hab
    have h1 := Near.fac_le_one k
    have h0 := Near.fac_pos k
    nlinarith
  exact ⟨key hx hxy.1, key hy hxy.2⟩

theorem scale_two (h : Nearest rnd) {x : ℝ} (hx : IsDouble x) : rnd (2 * x) = 2 * x := by
  have := hx.scale 1
  rw [zpow_one, mul_comm] at this
  exact h.self this

theorem scale_four (h : Nearest rnd) {x : ℝ} (hx : IsDouble x) : rnd (4 * x) = 4 * x := by
  have := hx.scale 2
  rw [show (2 : ℝ) ^ (2 : ℤ) = 4 by norm_num, mul_comm] at this
  exact h.self this

/-- Inside: the two solutions have different signs and the positive one is found. -/
theorem quadratic_inside (h : Nearest rnd) {b c : ℝ} (hc : IsDouble c)
    (hneg : c < 0) : ∃ t T : ℝ, solveQuadratic rnd 1 b c = (t : WithTop ℝ) ∧ 0 < t ∧ 0 < T ∧
      T ^ 2 + b * T + c = 0 ∧ Near 5 T t := by
  have four : rnd (4 * 1) = 4 := by rw [scale_four h IsDouble.one, mul_one]
  have two : rnd (2 * 1) = 2 := by rw [scale_two h IsDouble.one, mul_one]
  have hbb := mul_self_nonneg b
  have d0 : 0 < rnd (b * b) - 4 * c := by linarith [h.nonneg hbb]
  have n1 : Near 1 (b * b - 4 * c) (rnd (b * b) - 4 * c) := by
    have := (h.near hbb).add ((Near.refl (-(4 * c))).mono (by norm_num : 0 ≤ 1) (by linarith)
      (by linarith))
    simpa [sub_eq_add_neg] using this
  have n2 : Near 2 (b * b - 4 * c) (rnd (rnd (b * b) - 4 * c)) := n1.trans (h.near d0.le)
  have dpos := h.pos d0
  have D0 : 0 < b * b - 4 * c := by linarith
  have n3 : Near 3 (Real.sqrt (b * b - 4 * c))
      (rnd (Real.sqrt (rnd (rnd (b * b) - 4 * c)))) :=
    (sqrt_near' n2 D0.le dpos.le).trans (h.near (Real.sqrt_nonneg _))
  set s := Real.sqrt (b * b - 4 * c) with hs
  have hs2 : s ^ 2 = b * b - 4 * c := Real.sq_sqrt D0.le
  have hspos : 0 < s := Real.sqrt_pos.2 D0
  set r := rnd (Real.sqrt (rnd (rnd (b * b) - 4 * c))) with hr
  have hrpos : 0 < r := n3.pos hspos
  unfold solveQuadratic
  rw [four, two, scale_four h hc, scale_two h hc]
  dsimp only
  rw [if_neg (not_le.2 dpos), ← hr]
  by_cases hb : b > 0
  · rw [if_pos hb, if_pos hb]
    have hm : -b - r < 0 := by linarith
    have hm' := h.neg hm
    have l0 : ¬ rnd (rnd (-b - r) / 2) > 0 := by
      have := h.neg (div_neg_of_neg_of_pos hm' two_pos)
      linarith
    have g0 : 0 < 2 * c / rnd (-b - r) := div_pos_of_neg_of_neg (by linarith) hm'
    rw [if_neg l0, if_pos (h.pos g0)]
    refine ⟨_, (-(2 * c)) / (b + s), rfl, h.pos g0, div_pos (by linarith) (by linarith), ?_, ?_⟩
    · have : b + s ≠ 0 := by positivity
      field_simp
      nlinarith [hs2]
    · have nb : Near 3 (b + s) (b + r) :=
        ((Near.refl b).mono (by norm_num : 0 ≤ 3) hb.le hb.le).add n3
      have nn : Near 1 (b + r) (-rnd (-b - r)) := by
        have e := abs_le.1 (h.err (-b - r))
        rw [abs_of_neg hm] at e
        constructor
        · rw [pow_one]
          linarith [e.2]
        · rw [pow_one]
          have : (0:ℝ) ≤ 1 - 1 / 2 ^ 53 := by norm_num
          have k : -rnd (-b - r) ≤ (b + r) * (1 + 1 / 2 ^ 53) := by linarith [e.1]
          have k2 := mul_le_mul_of_nonneg_right k this
          have k3 : (b + r) * (1 + 1 / 2 ^ 53) * (1 - 1 / 2 ^ 53) ≤ b + r := by
            have : (1 + 1 / 2 ^ 53 : ℝ) * (1 - 1 / 2 ^ 53) ≤ 1 := by norm_num
            rw [mul_assoc]
            exact mul_le_of_le_one_right (by linarith) this
          linarith
      have nd := nb.trans nn
      have nq : Near 4 (-(2 * c) / (b + s)) (-(2 * c) / (-rnd (-b - r))) := by
        have := (Near.refl (-(2 * c))).div nd (by linarith) (by linarith) (by linarith)
          (by linarith)
        simpa using this
      rw [neg_div_neg_eq] at nq
      exact nq.trans (h.near g0.le)
  · rw [if_neg hb, if_neg hb]
    push Not at hb
    have hm : 0 < -b + r := by linarith
    have hm' := h.pos hm
    have l0 : ¬ rnd (2 * c / rnd (-b + r)) > 0 := by
      have := h.neg (div_neg_of_neg_of_pos (by linarith : 2 * c < 0) hm')
      linarith
    have g0 : 0 < rnd (-b + r) / 2 := by positivity
    rw [if_neg l0, if_pos (h.pos g0)]
    refine ⟨_, (-b + s) / 2, rfl, h.pos g0, by linarith, by nlinarith [hs2], ?_⟩
    have nb : Near 3 (-b + s) (-b + r) :=
      ((Near.refl (-b)).mono (by norm_num : 0 ≤ 3) (by linarith) (by linarith)).add n3
    have nd : Near 4 _ _ := nb.trans (h.near hm.le)
    have nq : Near 4 ((-b + s) / 2) (rnd (-b + r) / 2) := by
      have := nd.div (Near.refl (2 : ℝ)) (by linarith) two_pos hm'.le two_pos
      simpa using this
    exact nq.trans (h.near g0.le)

/-- Outside: either the discriminant is too small or the ray leads away, or the smaller solution is
found. -/
theorem quadratic_outside (h : Nearest rnd) {b c : ℝ} (hc : IsDouble c) (hpos : 0 < c) :
    (0 ≤ b → solveQuadratic rnd 1 b c = ⊤) ∧
    (b < 0 → (solveQuadratic rnd 1 b c = ⊤ ∧ b ^ 2 * (1 - eps) ≤ 4 * c) ∨
      ∃ t T : ℝ, solveQuadratic rnd 1 b c = (t : WithTop ℝ) ∧ 0 < t ∧ 0 < T ∧
        T ≤ -b / 2 * (1 + eps) ∧ |T ^ 2 + b * T + c| ≤ 21 / 10 * eps * c ∧ Near 5 T t) := by
  have he := eps_pos
  have hsm := eps_le
  have hq := eps_sq
  have four : rnd (4 * 1) = 4 := by rw [scale_four h IsDouble.one, mul_one]
  have two : rnd (2 * 1) = 2 := by rw [scale_two h IsDouble.one, mul_one]
  have hbb := mul_self_nonneg b
  have e1 := h.err_eps (b * b)
  rw [abs_of_nonneg hbb] at e1
  obtain ⟨e1l, e1u⟩ := abs_le.1 e1
  unfold solveQuadratic
  rw [four, two, scale_four h hc, scale_two h hc]
  dsimp only
  set D := rnd (rnd (b * b) - 4 * c) with hD
  constructor
  · intro hb
    by_cases hd : D ≤ 0
    · rw [if_pos hd]
    rw [if_neg hd]
    push Not at hd
    have hr := h.pos (Real.sqrt_pos.2 hd)
    set r := rnd (Real.sqrt D)
    have hb' : b > 0 := by
      rcases hb.lt_or_eq with hb | hb
      · exact hb
      · exfalso
        have : rnd (b * b) - 4 * c < 0 := by
          rw [← hb, mul_zero, h.zero]
          linarith
        linarith [h.neg this]
    have hm' := h.neg (show -b - r < 0 by linarith)
    rw [if_pos hb', if_pos hb', if_neg, if_neg]
    · have := h.neg (div_neg_of_pos_of_neg (by linarith : 0 < 2 * c) hm')
      linarith
    · have := h.neg (div_neg_of_neg_of_pos hm' two_pos)
      linarith
  · intro hb
    by_cases hd : D ≤ 0
    · left
      rw [if_pos hd]
      refine ⟨rfl, ?_⟩
      by_contra hcon
      push Not at hcon
      have : 0 < rnd (b * b) - 4 * c := by
        rw [sq] at hcon
        linarith
      linarith [h.pos this]
    right
    push Not at hd
    rw [if_neg (not_le.2 hd), if_neg (by linarith : ¬ b > 0)]
    have hpre : 0 < rnd (b * b) - 4 * c := by
      by_contra hcon
      push Not at hcon
      linarith [h.nonpos hcon]
    have e2 := h.err_eps (rnd (b * b) - 4 * c)
    rw [← hD, abs_of_pos hpre] at e2
    set s := Real.sqrt D with hs
    have hs2 : s ^ 2 = D := Real.sq_sqrt hd.le
    have hspos : 0 < s := Real.sqrt_pos.2 hd
    have n3 := h.near hspos.le
    have hr := h.pos hspos
    set r := rnd s
    have hm : 0 < -b + r := by linarith
    have hm' := h.pos hm
    have g0 : 0 < 2 * c / rnd (-b + r) := by positivity
    have hP : 0 < -b + s := by linarith
    rw [if_pos (h.pos g0)]
    refine ⟨_, 2 * c / (-b + s), rfl, h.pos g0, by positivity, ?_, ?_, ?_⟩
    · rw [div_le_iff₀ hP]
      have t1 : 4 * c ≤ (1 + eps) * (b * b) := by linarith
      have t2 : 0 ≤ (1 + eps) * (-b * s) :=
        mul_nonneg (by linarith) (mul_nonneg (by linarith) hspos.le)
      linarith
    · have hid : (2 * c / (-b + s)) ^ 2 + b * (2 * c / (-b + s)) + c =
          c * ((D - (b * b - 4 * c)) / (-b + s) ^ 2) := by
        rw [← hs2]
        field_simp
        ring
      have hδ : |D - (b * b - 4 * c)| ≤ 21 / 10 * eps * (b * b) := by
        have t1 := abs_sub_le D (rnd (b * b) - 4 * c) (b * b - 4 * c)
        rw [show rnd (b * b) - 4 * c - (b * b - 4 * c) = rnd (b * b) - b * b by ring] at t1
        have t2 : rnd (b * b) - 4 * c ≤ (1 + eps) * (b * b) := by linarith
        have t3 := mul_le_mul_of_nonneg_left t2 he.le
        have t4 := mul_le_mul_of_nonneg_right hq hbb
        have t5 := mul_nonneg he.le hbb
        linarith
      have hPb : b * b ≤ (-b + s) ^ 2 := by nlinarith
      rw [hid, abs_mul, abs_of_pos hpos, abs_div, abs_of_pos (by positivity : 0 < (-b + s) ^ 2),
        mul_comm]
      refine mul_le_mul_of_nonneg_right ?_ hpos.le
      rw [div_le_iff₀ (by positivity)]
      refine hδ.trans ?_
      exact mul_le_mul_of_nonneg_left hPb (by positivity)
    · have nb : Near 1 (-b + s) (-b + r) :=
        ((Near.refl (-b)).mono (by norm_num : 0 ≤ 1) (by linarith) (by linarith)).add n3
      have nd : Near 2 _ _ := nb.trans (h.near hm.le)
      have nq : Near 2 (2 * c / (-b + s)) (2 * c / rnd (-b + r)) := by
        have := (Near.refl (2 * c)).div nd (by linarith) hP (by linarith) hm'
        simpa using this
      exact (nq.trans (h.near g0.le)).mono (by norm_num) (by positivity) (h.pos g0).le

/-- On the sphere: only the far side is seen. -/
theorem quadratic_on (h : Nearest rnd) {b : ℝ} :
    (0 ≤ b → solveQuadratic rnd 1 b 0 = ⊤) ∧
    (b < 0 → ∃ t : ℝ, solveQuadratic rnd 1 b 0 = (t : WithTop ℝ) ∧ 0 < t ∧ Near 5 (-b) t) := by
  have four : rnd (4 * 1) = 4 := by rw [scale_four h IsDouble.one, mul_one]
  have two : rnd (2 * 1) = 2 := by rw [scale_two h IsDouble.one, mul_one]
  unfold solveQuadratic
  rw [four, two, mul_zero, mul_zero, h.zero, sub_zero, h.self (h.isDouble _)]
  dsimp only
  rw [zero_div, zero_div, h.zero]
  constructor
  · intro hb
    rcases hb.lt_or_eq with hb | hb
    · have hD := h.pos (mul_pos hb hb)
      have hr := h.pos (Real.sqrt_pos.2 hD)
      rw [if_neg (not_le.2 hD), if_pos hb, if_pos hb, if_neg, if_neg (lt_irrefl _)]
      have hm' := h.neg (show -b - rnd (Real.sqrt (rnd (b * b))) < 0 by linarith)
      have := h.neg (div_neg_of_neg_of_pos hm' two_pos)
      linarith
    · rw [← hb, mul_zero, h.zero, if_pos le_rfl]
  · intro hb
    have hbb : 0 < b * b := mul_pos_of_neg_of_neg hb hb
    have hD := h.pos hbb
    have hs := Real.sqrt_pos.2 hD
    have hr := h.pos hs
    have n1 := sqrt_near' (h.near hbb.le) hbb.le hD.le
    rw [show Real.sqrt (b * b) = -b by rw [Real.sqrt_mul_self_eq_abs, abs_of_neg hb]] at n1
    have n2 : Near 2 (-b) (rnd (Real.sqrt (rnd (b * b)))) := n1.trans (h.near hs.le)
    rw [if_neg (not_le.2 hD), if_neg (by linarith : ¬ b > 0), if_neg (by linarith : ¬ b > 0),
      if_neg (lt_irrefl _)]
    set r := rnd (Real.sqrt (rnd (b * b)))
    have n3 : Near 2 (-b + -b) (-b + r) :=
      ((Near.refl (-b)).mono (by norm_num : 0 ≤ 2) (by linarith) (by linarith)).add n2
    have hm : 0 < -b + r := by linarith
    have n4 : Near 3 (-b + -b) (rnd (-b + r)) := n3.trans (h.near hm.le)
    have hm' := h.pos hm
    have g0 : 0 < rnd (-b + r) / 2 := by positivity
    have n5 : Near 3 (-b) (rnd (-b + r) / 2) := by
      have := n4.div (Near.refl 2) (by linarith) two_pos hm'.le two_pos
      rwa [show (-b + -b) / 2 = -b by ring] at this
    rw [if_pos (h.pos g0)]
    exact ⟨_, rfl, h.pos g0, (n5.trans (h.near g0.le)).mono (by norm_num) (by linarith)
      (h.pos g0).le⟩

/-! ### Spheres -/

theorem sub_spec (h : Nearest rnd) (a b : Point) :
    ∃ e, sub rnd a b = a - b + e ∧ len e ≤ eps * len (a - b) := by
  refine ⟨⟨rnd (a.x - b.x) - (a.x - b.x), rnd (a.y - b.y) - (a.y - b.y),
    rnd (a.z - b.z) - (a.z - b.z)⟩, ?_, ?_⟩
  · ext <;> simp [sub]
  · exact len_le_of_components eps_pos.le (h.err_eps _) (h.err_eps _) (h.err_eps _)

/-- The coefficients of the quadratic equation. -/
theorem sphere_coeffs (h : Nearest rnd) {center p : Point} {d : Direction} {R L : ℝ}
    (hd : |d.dot d - 1| ≤ 32 * eps) (hx : len (p - center) ≤ 101 / 100 * L) (hL : 0 < L)
    (hR0 : 0 ≤ R) (hR : R ≤ 101 / 100 * L) :
    |rnd (2 * dot rnd (sub rnd p center) d) - 2 * (p - center).dot d| ≤ 9 * eps * L ∧
    |rnd (dot rnd (sub rnd p center) (sub rnd p center) - rnd (R * R)) -
      ((p - center).dot (p - center) - R ^ 2)| ≤ 9 * eps * L ^ 2 := by
  have he := eps_pos
  have hs := eps_le
  have hq := eps_sq
  have D := abs_le.1 (len_near hd)
  have D2 : len d ≤ 101 / 100 := by linarith [D.2]
  have d0 := len_nonneg d
  obtain ⟨e, hoc, hel⟩ := sub_spec h p center
  rw [hoc]
  set x := p - center
  have x0 := len_nonneg x
  have e0 := len_nonneg e
  have heL : len e ≤ 101 / 100 * (eps * L) := by
    have := mul_le_mul_of_nonneg_left hx he.le
    linarith
  have eL : eps * L ≤ L / 10 ^ 15 := by
    have := mul_le_mul_of_nonneg_right hs hL.le
    linarith
  have eL0 : 0 < eps * L := by positivity
  have hol : len (x + e) ≤ 102 / 100 * L := by
    have := len_add_le x e
    linarith
  have o0 := len_nonneg (x + e)
  constructor
  · have h1 := dot_err h (x + e) d
    rw [show rnd (2 * dot rnd (x + e) d) = 2 * dot rnd (x + e) d from
      scale_two h (h.isDouble _)]
    have h2 : len (x + e) * len d ≤ 102 / 100 * L * (101 / 100) :=
      mul_le_mul hol D2 d0 (by positivity)
    have h3 := mul_le_mul_of_nonneg_left h2 (by positivity : 0 ≤ 31 / 10 * eps)
    have h4 : |e.dot d| ≤ 101 / 100 * (eps * L) * (101 / 100) :=
      (dot_le_len e d).trans (mul_le_mul heL D2 d0 (by positivity))
    have h5 : (x + e).dot d = x.dot d + e.dot d := dot_add_left x e d
    rw [h5] at h1
    have h6 : |2 * dot rnd (x + e) d - 2 * x.dot d| ≤
        2 * (|dot rnd (x + e) d - (x.dot d + e.dot d)| + |e.dot d|) := by
      rw [← mul_sub, abs_mul, abs_two]
      refine mul_le_mul_of_nonneg_left ?_ (by norm_num)
      have := abs_add_le (dot rnd (x + e) d - (x.dot d + e.dot d)) (e.dot d)
      rwa [show dot rnd (x + e) d - (x.dot d + e.dot d) + e.dot d =
        dot rnd (x + e) d - x.dot d by ring] at this
    linarith
  · have h1 := dot_err h (x + e) (x + e)
    have h2 : len (x + e) * len (x + e) ≤ 102 / 100 * L * (102 / 100 * L) :=
      mul_le_mul hol hol o0 (by positivity)
    have h3 := mul_le_mul_of_nonneg_left h2 (by positivity : 0 ≤ 31 / 10 * eps)
    have h4 : |x.dot e| ≤ 101 / 100 * L * (101 / 100 * (eps * L)) :=
      (dot_le_len x e).trans (mul_le_mul hx heL e0 (by positivity))
    have h5 : |e.dot e| ≤ 101 / 100 * (eps * L) * (101 / 100 * (eps * L)) :=
      (dot_le_len e e).trans (mul_le_mul heL heL e0 (by positivity))
    have h6 : (x + e).dot (x + e) = x.dot x + 2 * x.dot e + e.dot e := by
      rw [dot_add_left, dot_add_right, dot_add_right, dot_comm' e x]
      ring
    rw [h6] at h1
    have h7 := h.err_eps (R * R)
    have hRR : R * R ≤ 101 / 100 * L * (101 / 100 * L) := mul_le_mul hR hR hR0 (by positivity)
    have hRR0 : 0 ≤ R * R := mul_self_nonneg R
    rw [abs_of_nonneg hRR0] at h7
    have h8 := mul_le_mul_of_nonneg_left hRR he.le
    have hxx : x.dot x ≤ 101 / 100 * L * (101 / 100 * L) := by
      rw [← len_sq, sq]
      exact mul_le_mul hx hx x0 (by positivity)
    have hxx0 := Point.dot_self_nonneg x
    have h9 := h.err_eps (dot rnd (x + e) (x + e) - rnd (R * R))
    set O := dot rnd (x + e) (x + e)
    set Q := rnd (R * R)
    have LL : 0 < eps * L * L := by positivity
    have sm : eps * L * (eps * L) ≤ eps * L * L / 10 ^ 15 := by
      have := mul_le_mul_of_nonneg_left eL eL0.le
      linarith
    have a1 : |O - x.dot x| ≤ 53 / 10 * (eps * L * L) := by
      rw [abs_le] at h1 h4 h5 ⊢
      constructor <;> linarith [h1.1, h1.2, h4.1, h4.2, h5.1, h5.2]
    have a2 : |Q - R * R| ≤ 103 / 100 * (eps * L * L) := by linarith
    have a3 : |O - Q| ≤ 103 / 100 * (L * L) := by
      have l1 : eps * L * L ≤ L * L / 10 ^ 15 := by
        have := mul_le_mul_of_nonneg_right eL hL.le
        linarith
      have l2 : 0 < L * L := by positivity
      rw [abs_le] at a1 a2 ⊢
      constructor <;> linarith [a1.1, a1.2, a2.1, a2.2]
    have a4 := mul_le_mul_of_nonneg_left a3 he.le
    have a5 : rnd (O - Q) - (x.dot x - R ^ 2) =
        (rnd (O - Q) - (O - Q)) + ((O - x.dot x) - (Q - R * R)) := by ring
    rw [a5]
    have b1 := abs_add_le (rnd (O - Q) - (O - Q)) ((O - x.dot x) - (Q - R * R))
    have b2 := abs_sub (O - x.dot x) (Q - R * R)
    have : 9 * eps * L ^ 2 = 9 * (eps * L * L) := by ring
    linarith

/-- How far from the sphere the ray is at a solution of the quadratic equation. -/
theorem sphere_solution {x : Point} {d : Direction} {R L B C T : ℝ}
    (hd : |d.dot d - 1| ≤ 32 * eps) (hx : len x ≤ 101 / 100 * L) (hL : 0 < L) (hR0 : 0 < R)
    (hR : R ≤ 101 / 100 * L) (hB : |B - 2 * x.dot d| ≤ 9 * eps * L)
    (hC : |C - (x.dot x - R ^ 2)| ≤ 9 * eps * L ^ 2) (hT : 0 < T) (hT5 : T ≤ 5 * L)
    (hTq : |T ^ 2 + B * T + C| ≤ 3 * eps * L ^ 2) :
    T ≤ 204 / 100 * L ∧ |len (x + d.smul T) - R| ≤ 165 * eps * (L ^ 2 / R) := by
  have he := eps_pos
  have hs := eps_le
  have D := abs_le.1 (len_near hd)
  have D1 : 999 / 1000 ≤ len d := by linarith [D.1]
  have key : ∀ k : ℝ, 0 ≤ k → k ≤ 5 → T ≤ k * L →
      |(x + d.smul T).dot (x + d.smul T) - R ^ 2| ≤ (12 + 9 * k + 32 * k ^ 2) * (eps * L ^ 2) := by
    intro k hk hk5 hTk
    have e1 : (x + d.smul T).dot (x + d.smul T) - R ^ 2 =
        (T ^ 2 + B * T + C) + (-(C - (x.dot x - R ^ 2)) + (-(T * (B - 2 * x.dot d)) +
          T ^ 2 * (d.dot d - 1))) := by
      rw [dot_add_left, dot_add_right, dot_add_right, dot_smul_left, dot_smul_left, dot_smul_right,
        dot_smul_right, dot_comm' d x]
      ring
    rw [e1]
    have a1 := abs_add_le (T ^ 2 + B * T + C) (-(C - (x.dot x - R ^ 2)) +
      (-(T * (B - 2 * x.dot d)) + T ^ 2 * (d.dot d - 1)))
    have a2 := abs_add_le (-(C - (x.dot x - R ^ 2)))
      (-(T * (B - 2 * x.dot d)) + T ^ 2 * (d.dot d - 1))
    have a3 := abs_add_le (-(T * (B - 2 * x.dot d))) (T ^ 2 * (d.dot d - 1))
    rw [abs_neg] at a2 a3
    rw [abs_mul, abs_of_pos hT, abs_mul, abs_of_pos (by positivity : 0 < T ^ 2)] at a3
    have b1 : T * |B - 2 * x.dot d| ≤ k * L * (9 * eps * L) :=
      mul_le_mul hTk hB (abs_nonneg _) (by positivity)
    have b2 : T ^ 2 * |d.dot d - 1| ≤ (k * L) ^ 2 * (32 * eps) :=
      mul_le_mul (pow_le_pow_left₀ hT.le hTk 2) hd (abs_nonneg _) (by positivity)
    have c : (12 + 9 * k + 32 * k ^ 2) * (eps * L ^ 2) = 3 * eps * L ^ 2 + (9 * eps * L ^ 2 +
        (k * L * (9 * eps * L) + (k * L) ^ 2 * (32 * eps))) := by ring
    rw [c]
    linarith
  have L2 : 0 < L ^ 2 := by positivity
  have hT2 : T ≤ 204 / 100 * L := by
    have h1 := (abs_le.1 (key 5 (by norm_num) le_rfl hT5)).2
    have h2 : eps * L ^ 2 ≤ L ^ 2 / 10 ^ 15 := by
      have := mul_le_mul_of_nonneg_right hs L2.le
      linarith
    have h3 : R ^ 2 ≤ (101 / 100 * L) ^ 2 := pow_le_pow_left₀ hR0.le hR 2
    have h4 : len (x + d.smul T) ≤ 102 / 100 * L := by
      refine abs_le_of_sq_le_sq' ?_ (by positivity) |>.2
      rw [len_sq]
      norm_num at h1
      linarith
    have h5 := len_add_le (x + d.smul T) (x.smul (-1))
    have e1 : x + d.smul T + x.smul (-1) = d.smul T := by
      ext <;> simp
    rw [e1, len_smul, len_smul, abs_neg, abs_one, one_mul, abs_of_pos hT] at h5
    nlinarith
  refine ⟨hT2, ?_⟩
  have h1 := key (204 / 100) (by norm_num) (by norm_num) hT2
  rw [← len_sq] at h1
  have y0 := len_nonneg (x + d.smul T)
  set y := len (x + d.smul T)
  rw [show y ^ 2 - R ^ 2 = (y - R) * (y + R) by ring, abs_mul,
    abs_of_pos (by linarith : 0 < y + R)] at h1
  have h2 : |y - R| * R ≤ |y - R| * (y + R) :=
    mul_le_mul_of_nonneg_left (by linarith) (abs_nonneg _)
  rw [show 165 * eps * (L ^ 2 / R) = 165 * (eps * L ^ 2) / R by ring, le_div_iff₀ hR0]
  have : 0 < eps * L ^ 2 := by positivity
  norm_num at h1
  linarith

/-- The point reached by streaming to a solution. -/
theorem sphere_reached (h : Nearest rnd) {center p : Point} {d : Direction} {R L T t : ℝ}
    (hd : |d.dot d - 1| ≤ 32 * eps) (hx : len (p - center) ≤ 101 / 100 * L) (hL : 0 < L)
    (hR0 : 0 < R) (hR : R ≤ 101 / 100 * L) (hT : 0 < T) (hT2 : T ≤ 204 / 100 * L)
    (hy : |len (p - center + d.smul T) - R| ≤ 165 * eps * (L ^ 2 / R)) (ht : Near 5 T t) :
    |len (add rnd p (smul rnd d t) - center) - R| ≤ (192 * (L ^ 2 / R) + len center) * eps := by
  have he := eps_pos
  have hs := eps_le
  have D := abs_le.1 (len_near hd)
  have D2 : len d ≤ 1001 / 1000 := by linarith [D.2]
  have d0 := len_nonneg d
  have c0 := len_nonneg center
  have eL0 : 0 < eps * L := by positivity
  have eL : eps * L ≤ L / 10 ^ 15 := by
    have := mul_le_mul_of_nonneg_right hs hL.le
    linarith
  have htT := near_err ht hT.le le_rfl
  norm_num at htT
  have htT' : |t - T| ≤ 105 / 10 * (eps * L) := by
    have := mul_le_mul_of_nonneg_left hT2 he.le
    linarith
  have ht0 := ht.pos hT
  have htb : t ≤ 205 / 100 * L := by
    have := (abs_le.1 htT').2
    linarith
  obtain ⟨e₁, h1, l1⟩ := smul_spec h d t
  obtain ⟨e₂, h2, l2⟩ := add_spec h p (smul rnd d t)
  rw [abs_of_pos ht0] at l1
  have td : t * len d ≤ 206 / 100 * L := by nlinarith
  have l1' : len e₁ ≤ 206 / 100 * (eps * L) := by
    have := mul_le_mul_of_nonneg_left td he.le
    linarith
  have hp : len p ≤ len center + 101 / 100 * L := by
    have := len_add_le center (p - center)
    rw [show center + (p - center) = p by ext <;> simp] at this
    linarith
  have l2' : len e₂ ≤ eps * len center + 32 / 10 * (eps * L) := by
    have a1 := len_add_le p (smul rnd d t)
    have a2 := len_add_le (d.smul t) e₁
    rw [← h1, len_smul, abs_of_pos ht0] at a2
    have a3 : len (p + smul rnd d t) ≤ len center + 31 / 10 * L := by linarith
    have := mul_le_mul_of_nonneg_left a3 he.le
    linarith
  have hq : add rnd p (smul rnd d t) - center =
      (p - center + d.smul T) + (d.smul (t - T) + (e₁ + e₂)) := by
    rw [h2, h1]
    ext <;> simp <;> ring
  have lE : len (d.smul (t - T) + (e₁ + e₂)) ≤ eps * len center + 17 * (eps * L) := by
    have a1 := len_add_le (d.smul (t - T)) (e₁ + e₂)
    have a2 := len_add_le e₁ e₂
    rw [len_smul] at a1
    have : |t - T| * len d ≤ 105 / 10 * (eps * L) * (1001 / 1000) :=
      mul_le_mul htT' D2 d0 (by positivity)
    linarith
  have hLR : L ≤ 102 / 100 * (L ^ 2 / R) := by
    rw [show 102 / 100 * (L ^ 2 / R) = 102 / 100 * L ^ 2 / R by ring, le_div_iff₀ hR0]
    nlinarith
  have hLR' := mul_le_mul_of_nonneg_left hLR he.le
  rw [hq]
  set y := p - center + d.smul T
  set E := d.smul (t - T) + (e₁ + e₂)
  have b1 := len_add_le y E
  have b2 := len_add_le (y + E) (E.smul (-1))
  rw [show y + E + E.smul (-1) = y by ext <;> simp, len_smul, abs_neg, abs_one, one_mul] at b2
  have pos : 0 < L ^ 2 / R := by positivity
  have pos' := mul_pos he pos
  rw [abs_le] at hy ⊢
  constructor <;> linarith [hy.1, hy.2]

/-- The square of the distance of a point of the ray from the centre. -/
theorem sphere_along (x : Point) (d : Direction) (B C s : ℝ) :
    (x + d.smul s).dot (x + d.smul s) = (s ^ 2 + B * s + C) + (x.dot x - C) -
      s * (B - 2 * x.dot d) + s ^ 2 * (d.dot d - 1) := by
  rw [dot_add_left, dot_add_right, dot_add_right, dot_smul_left, dot_smul_left, dot_smul_right,
    dot_smul_right, dot_comm' d x]
  ring

/-- Nothing of the sphere is overlooked on the way to the smaller solution. -/
theorem sphere_before {x : Point} {d : Direction} {R L B C T t s : ℝ}
    (hd : |d.dot d - 1| ≤ 32 * eps) (hx : len x ≤ L) (hL : 0 < L)
    (hB : |B - 2 * x.dot d| ≤ 9 * eps * L)
    (hC : |C - (x.dot x - R ^ 2)| ≤ 9 * eps * L ^ 2) (hT : 0 < T)
    (hT2 : T ≤ -B / 2 * (1 + eps))
    (hTq : |T ^ 2 + B * T + C| ≤ 21 / 10 * eps * C) (ht : Near 5 T t) (hs0 : 0 ≤ s) (hs : s ≤ t) :
    R ^ 2 - 96 * eps * L ^ 2 ≤ (x + d.smul s).dot (x + d.smul s) := by
  have he := eps_pos
  have hsm := eps_le
  have D := abs_le.1 (len_near hd)
  have D2 : len d ≤ 1001 / 1000 := by linarith [D.2]
  have d0 := len_nonneg d
  have x0 := len_nonneg x
  have eL0 : 0 < eps * L := by positivity
  have eL : eps * L ≤ L / 10 ^ 15 := by
    have := mul_le_mul_of_nonneg_right hsm hL.le
    linarith
  have xd : |x.dot d| ≤ 1001 / 1000 * L := by
    refine (dot_le_len x d).trans ?_
    have := mul_le_mul hx D2 d0 hL.le
    linarith
  have hBL : -B ≤ 201 / 100 * L := by
    have := (abs_le.1 hB).1
    have := (abs_le.1 xd).1
    linarith
  have hTL : T ≤ 102 / 100 * L := by
    have : -B / 2 * (1 + eps) ≤ 201 / 100 * L / 2 * (1 + 1 / 10 ^ 15) :=
      mul_le_mul (by linarith) (by linarith) (by linarith) (by positivity)
    linarith
  have htT := near_err ht hT.le le_rfl
  norm_num at htT
  have htT' : |t - T| ≤ 53 / 10 * (eps * L) := by
    have := mul_le_mul_of_nonneg_left hTL he.le
    linarith
  have hsT : s - T ≤ 53 / 10 * (eps * L) := by linarith [(abs_le.1 htT').2]
  have hsL : s ≤ 103 / 100 * L := by linarith
  have L2 : 0 < eps * L ^ 2 := by positivity
  have eL2 : eps * L ^ 2 ≤ L ^ 2 / 10 ^ 15 := by
    have := mul_le_mul_of_nonneg_right hsm (sq_nonneg L)
    linarith
  have hCL : C ≤ 101 / 100 * L ^ 2 := by
    have h1 := (abs_le.1 hC).2
    have h2 : x.dot x ≤ L ^ 2 := by
      rw [← len_sq]
      exact pow_le_pow_left₀ x0 hx 2
    have := sq_nonneg R
    have := sq_nonneg L
    linarith
  have q : -(20 * (eps * L ^ 2)) ≤ s ^ 2 + B * s + C := by
    have e1 : s ^ 2 + B * s + C = (T ^ 2 + B * T + C) + (s - T) * (s + T + B) := by ring
    have h1 : -(22 / 10 * (eps * L ^ 2)) ≤ T ^ 2 + B * T + C := by
      have h1 := (abs_le.1 hTq).1
      have h2 := mul_le_mul_of_nonneg_left hCL he.le
      linarith
    have h2 : -(12 * (eps * L ^ 2)) ≤ (s - T) * (s + T + B) := by
      rcases le_or_gt s T with hle | hgt
      · have h3 : s + T + B ≤ eps * (201 / 100 * L) := by
          have := mul_le_mul_of_nonneg_left hBL he.le
          linarith
        have h4 : (T - s) * (s + T + B) ≤ (T - s) * (eps * (201 / 100 * L)) :=
          mul_le_mul_of_nonneg_left h3 (by linarith)
        have h5 : (T - s) * (eps * (201 / 100 * L)) ≤ 102 / 100 * L * (eps * (201 / 100 * L)) :=
          mul_le_mul_of_nonneg_right (by linarith) (by positivity)
        have h6 : 102 / 100 * L * (eps * (201 / 100 * L)) = 20502 / 10000 * (eps * L ^ 2) := by ring
        linarith
      · have h3 : -(201 / 100 * L) ≤ s + T + B := by linarith
        have h4 : (s - T) * -(201 / 100 * L) ≤ (s - T) * (s + T + B) :=
          mul_le_mul_of_nonneg_left h3 (by linarith)
        have h5 : (s - T) * (201 / 100 * L) ≤ 53 / 10 * (eps * L) * (201 / 100 * L) :=
          mul_le_mul_of_nonneg_right hsT (by positivity)
        have h6 : 53 / 10 * (eps * L) * (201 / 100 * L) = 10653 / 1000 * (eps * L ^ 2) := by ring
        linarith
    linarith
  rw [sphere_along x d B C s]
  have a1 : s * (B - 2 * x.dot d) ≤ 103 / 100 * L * (9 * eps * L) :=
    (mul_le_mul_of_nonneg_left (le_abs_self _) hs0).trans
      (mul_le_mul hsL hB (abs_nonneg _) (by positivity))
  have a2 : -((103 / 100 * L) ^ 2 * (32 * eps)) ≤ s ^ 2 * (d.dot d - 1) := by
    have h1 := mul_le_mul (pow_le_pow_left₀ hs0 hsL 2) hd (abs_nonneg _) (by positivity)
    have h2 := mul_le_mul_of_nonneg_left (neg_abs_le (d.dot d - 1)) (sq_nonneg s)
    linarith
  have a3 := (abs_le.1 hC).2
  have b1 : 103 / 100 * L * (9 * eps * L) = 927 / 100 * (eps * L ^ 2) := by ring
  have b2 : (103 / 100 * L) ^ 2 * (32 * eps) = 339488 / 10000 * (eps * L ^ 2) := by ring
  rw [b1] at a1
  rw [b2] at a2
  linarith

/-- Inside, the way to the solution stays inside. -/
theorem sphere_within {x : Point} {d : Direction} {R L B C T t s : ℝ}
    (hd : |d.dot d - 1| ≤ 32 * eps) (hx : len x ≤ L) (hL : 0 < L)
    (hB : |B - 2 * x.dot d| ≤ 9 * eps * L)
    (hC : |C - (x.dot x - R ^ 2)| ≤ 9 * eps * L ^ 2) (hT : 0 < T) (hTL : T ≤ 204 / 100 * L)
    (hC0 : C ≤ 0) (hTq : T ^ 2 + B * T + C = 0) (ht : Near 5 T t) (hs0 : 0 ≤ s) (hs : s ≤ t) :
    (x + d.smul s).dot (x + d.smul s) ≤ R ^ 2 + 256 * eps * L ^ 2 := by
  have he := eps_pos
  have hsm := eps_le
  have D := abs_le.1 (len_near hd)
  have D2 : len d ≤ 1001 / 1000 := by linarith [D.2]
  have d0 := len_nonneg d
  have x0 := len_nonneg x
  have eL0 : 0 < eps * L := by positivity
  have eL : eps * L ≤ L / 10 ^ 15 := by
    have := mul_le_mul_of_nonneg_right hsm hL.le
    linarith
  have xd : |x.dot d| ≤ 1001 / 1000 * L := by
    refine (dot_le_len x d).trans ?_
    have := mul_le_mul hx D2 d0 hL.le
    linarith
  have hBL : B ≤ 201 / 100 * L := by
    have := (abs_le.1 hB).2
    have := (abs_le.1 xd).2
    linarith
  have htT := near_err ht hT.le le_rfl
  norm_num at htT
  have htT' : |t - T| ≤ 105 / 10 * (eps * L) := by
    have := mul_le_mul_of_nonneg_left hTL he.le
    linarith
  have hsT : s - T ≤ 105 / 10 * (eps * L) := by linarith [(abs_le.1 htT').2]
  have hsL : s ≤ 205 / 100 * L := by linarith
  have L2 : 0 < eps * L ^ 2 := by positivity
  have q : s ^ 2 + B * s + C ≤ 66 * (eps * L ^ 2) := by
    have e1 : s ^ 2 + B * s + C = (T ^ 2 + B * T + C) + (s - T) * (s + T + B) := by ring
    rw [e1, hTq, zero_add]
    have h0 : 0 ≤ T + B := by
      by_contra hcon
      push Not at hcon
      have := mul_pos_of_neg_of_neg (by linarith : -T < 0) hcon
      linarith
    rcases le_or_gt s T with hle | hgt
    · have : (s - T) * (s + T + B) ≤ 0 :=
        mul_nonpos_of_nonpos_of_nonneg (by linarith) (by linarith)
      linarith
    · have h3 : s + T + B ≤ 61 / 10 * L := by linarith
      have h4 : (s - T) * (s + T + B) ≤ 105 / 10 * (eps * L) * (61 / 10 * L) :=
        mul_le_mul hsT h3 (by linarith) (by positivity)
      have h6 : 105 / 10 * (eps * L) * (61 / 10 * L) = 6405 / 100 * (eps * L ^ 2) := by ring
      linarith
  rw [sphere_along x d B C s]
  have a1 : -(205 / 100 * L * (9 * eps * L)) ≤ s * (B - 2 * x.dot d) := by
    have h1 := mul_le_mul hsL hB (abs_nonneg _) (by positivity)
    have h2 := mul_le_mul_of_nonneg_left (neg_abs_le (B - 2 * x.dot d)) hs0
    linarith
  have a2 : s ^ 2 * (d.dot d - 1) ≤ (205 / 100 * L) ^ 2 * (32 * eps) :=
    (mul_le_mul_of_nonneg_left (le_abs_self _) (sq_nonneg s)).trans
      (mul_le_mul (pow_le_pow_left₀ hs0 hsL 2) hd (abs_nonneg _) (by positivity))
  have a3 := (abs_le.1 hC).1
  have b1 : 205 / 100 * L * (9 * eps * L) = 1845 / 100 * (eps * L ^ 2) := by ring
  have b2 : (205 / 100 * L) ^ 2 * (32 * eps) = 13448 / 100 * (eps * L ^ 2) := by ring
  rw [b1] at a1
  rw [b2] at a2
  linarith

/-- A sphere that is not seen is not entered. -/
theorem sphere_missed {x : Point} {d : Direction} {R L B C s : ℝ}
    (hd : |d.dot d - 1| ≤ 32 * eps) (hx : len x ≤ L) (hL : 0 < L)
    (hB : |B - 2 * x.dot d| ≤ 9 * eps * L)
    (hC : |C - (x.dot x - R ^ 2)| ≤ 9 * eps * L ^ 2) (hC0 : 0 ≤ C)
    (hm : 0 ≤ B ∨ B ^ 2 * (1 - eps) ≤ 4 * C) (hs0 : 0 ≤ s) :
    R ^ 2 - 96 * eps * L ^ 2 ≤ (x + d.smul s).dot (x + d.smul s) := by
  have he := eps_pos
  have hsm := eps_le
  have hq := eps_sq
  have D := abs_le.1 (len_near hd)
  have D2 : len d ≤ 1001 / 1000 := by linarith [D.2]
  have d0 := len_nonneg d
  have x0 := len_nonneg x
  have eL0 : 0 < eps * L := by positivity
  have L2 : 0 < eps * L ^ 2 := by positivity
  have Lp : 0 < L ^ 2 := by positivity
  have eL : eps * L ≤ L / 10 ^ 15 := by
    have := mul_le_mul_of_nonneg_right hsm hL.le
    linarith
  have eeL : eps * eps * L ^ 2 ≤ eps * L ^ 2 / 10 ^ 15 := by
    have := mul_le_mul_of_nonneg_right hq Lp.le
    linarith
  have hdd : 1 - 32 * eps ≤ d.dot d := by linarith [(abs_le.1 hd).1]
  have e1 : (x + d.smul s).dot (x + d.smul s) = x.dot x + 2 * s * x.dot d + s ^ 2 * d.dot d := by
    rw [dot_add_left, dot_add_right, dot_add_right, dot_smul_left, dot_smul_left, dot_smul_right,
      dot_smul_right, dot_comm' d x]
    ring
  have a3 := (abs_le.1 hC).2
  have h1 : s ^ 2 * (1 - 32 * eps) ≤ s ^ 2 * d.dot d :=
    mul_le_mul_of_nonneg_left hdd (sq_nonneg s)
  rw [e1]
  rcases hm with hm | hm
  · have h2 : -(45 / 10 * (eps * L)) ≤ x.dot d := by linarith [(abs_le.1 hB).2]
    have h3 := mul_le_mul_of_nonneg_left h2 hs0
    have h4 := mul_nonneg (by linarith : (0 : ℝ) ≤ 1 / 2 - 32 * eps) (sq_nonneg s)
    have h5 := sq_nonneg (s - 9 * (eps * L))
    have h6 : (9 * (eps * L)) ^ 2 = 81 * (eps * eps * L ^ 2) := by ring
    linarith
  · have xd : |x.dot d| ≤ 1001 / 1000 * L := by
      refine (dot_le_len x d).trans ?_
      have := mul_le_mul hx D2 d0 hL.le
      linarith
    set k := x.dot d
    have hk2 : k ^ 2 ≤ 1003 / 1000 * L ^ 2 := by
      have := pow_le_pow_left₀ (abs_nonneg k) xd 2
      rw [sq_abs] at this
      linarith
    have hBk : 4 * k ^ 2 ≤ B ^ 2 + 37 * (eps * L ^ 2) := by
      have h2 : B ^ 2 = 4 * k ^ 2 + 4 * k * (B - 2 * k) + (B - 2 * k) ^ 2 := by ring
      have h3 : -(1001 / 1000 * L * (9 * eps * L)) ≤ k * (B - 2 * k) := by
        have := mul_le_mul xd hB (abs_nonneg _) (by positivity)
        rw [← abs_mul] at this
        linarith [neg_abs_le (k * (B - 2 * k))]
      have h4 := sq_nonneg (B - 2 * k)
      have h5 : 1001 / 1000 * L * (9 * eps * L) = 9009 / 1000 * (eps * L ^ 2) := by ring
      linarith
    have hB2 : B ^ 2 ≤ 41 / 10 * L ^ 2 := by
      have h2 : |B| ≤ 2003 / 1000 * L := by
        have := abs_sub_abs_le_abs_sub B (2 * k)
        rw [abs_mul, abs_two] at this
        linarith
      have := pow_le_pow_left₀ (abs_nonneg B) h2 2
      rw [sq_abs] at this
      linarith
    have h2 := mul_le_mul_of_nonneg_left hB2 he.le
    have h3 : k ^ 2 ≤ C + 11 * (eps * L ^ 2) := by linarith
    have h5 := sq_nonneg (s * (1 - 32 * eps) + k)
    have h6 : s ^ 2 * (1 - 32 * eps) + 2 * s * k ≥ -(k ^ 2 * (1 + 33 * eps)) := by
      have p1 : 0 < 1 - 32 * eps := by linarith
      have p2 : 1 ≤ (1 - 32 * eps) * (1 + 33 * eps) := by linarith
      have p3 := mul_le_mul_of_nonneg_left p2 (sq_nonneg k)
      have p4 : 0 ≤ (1 - 32 * eps) * (s ^ 2 * (1 - 32 * eps) + 2 * s * k + k ^ 2 * (1 + 33 * eps)) := by
        have : (1 - 32 * eps) * (s ^ 2 * (1 - 32 * eps) + 2 * s * k + k ^ 2 * (1 + 33 * eps)) =
          (s * (1 - 32 * eps) + k) ^ 2 + (k ^ 2 * ((1 - 32 * eps) * (1 + 33 * eps)) - k ^ 2 * 1) := by
          ring
        rw [this]
        linarith
      have p5 := nonneg_of_mul_nonneg_right p4 p1
      linarith
    have h7 := mul_le_mul_of_nonneg_left hk2 he.le
    linarith

end Rounded
end Minimc
