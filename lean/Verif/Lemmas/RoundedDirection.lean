import Verif.Model.RoundedDirection
import Verif.Lemmas.RoundedSelect
import Verif.Lemmas.Point

/-! # Rounding errors of vectors -/

namespace Minimc

/-! ### Length of vectors -/

/-- Euclidean length. -/
noncomputable def len (p : Point) : ℝ := Real.sqrt (p.dot p)

theorem len_nonneg (p : Point) : 0 ≤ len p := Real.sqrt_nonneg _

theorem len_sq (p : Point) : len p ^ 2 = p.dot p := Real.sq_sqrt (Point.dot_self_nonneg p)

theorem dot_le_len (a b : Point) : |a.dot b| ≤ len a * len b := by
  refine abs_le_of_sq_le_sq ?_ (mul_nonneg (len_nonneg a) (len_nonneg b))
  rw [mul_pow, len_sq, len_sq]
  unfold Point.dot
  nlinarith [sq_nonneg (a.x * b.y - a.y * b.x), sq_nonneg (a.y * b.z - a.z * b.y),
    sq_nonneg (a.z * b.x - a.x * b.z)]

theorem dot_add_left (a b c : Point) : (a + b).dot c = a.dot c + b.dot c := by
  simp only [Point.dot, Point.add_x, Point.add_y, Point.add_z]
  ring

theorem dot_comm' (a b : Point) : a.dot b = b.dot a := by
  unfold Point.dot
  ring

theorem dot_add_right (a b c : Point) : c.dot (a + b) = c.dot a + c.dot b := by
  rw [dot_comm', dot_add_left, dot_comm' a, dot_comm' b]

theorem dot_smul_left (a b : Point) (s : ℝ) : (a.smul s).dot b = a.dot b * s := by
  simp only [Point.dot, Point.smul_x, Point.smul_y, Point.smul_z]
  ring

theorem dot_smul_right (a b : Point) (s : ℝ) : a.dot (b.smul s) = a.dot b * s := by
  rw [dot_comm', dot_smul_left, dot_comm']

theorem len_add_le (a b : Point) : len (a + b) ≤ len a + len b := by
  refine abs_le_of_sq_le_sq' ?_ (add_nonneg (len_nonneg a) (len_nonneg b)) |>.2
  rw [len_sq, dot_add_left, dot_add_right, dot_add_right, add_sq, len_sq, len_sq, dot_comm' b a]
  have := (abs_le.1 (dot_le_len a b)).2
  linarith

theorem len_smul (a : Point) (s : ℝ) : len (a.smul s) = |s| * len a := by
  unfold len
  rw [dot_smul_left, dot_smul_right, mul_assoc, mul_comm, Real.sqrt_mul (mul_self_nonneg s),
    Real.sqrt_mul_self_eq_abs]

theorem len_pos {p : Point} (h : p ≠ ⟨0, 0, 0⟩) : 0 < len p :=
  Real.sqrt_pos.2 (lt_of_le_of_ne (Point.dot_self_nonneg p)
    fun e => h ((Point.dot_self_eq_zero_iff p).1 e.symm))

theorem ne_of_len_pos {p : Point} (h : 0 < len p) : p ≠ ⟨0, 0, 0⟩ := by
  rintro rfl
  simp [len, Point.dot] at h

/-- A vector whose components are small compared with those of another. -/
theorem len_le_of_components {e a : Point} {k : ℝ} (hk : 0 ≤ k) (hx : |e.x| ≤ k * |a.x|)
    (hy : |e.y| ≤ k * |a.y|) (hz : |e.z| ≤ k * |a.z|) : len e ≤ k * len a := by
  have key : ∀ {r s : ℝ}, |r| ≤ k * |s| → r * r ≤ k ^ 2 * (s * s) := by
    intro r s h
    have := mul_self_le_mul_self (abs_nonneg r) h
    rw [abs_mul_abs_self] at this
    calc r * r ≤ k * |s| * (k * |s|) := this
      _ = k ^ 2 * (|s| * |s|) := by ring
      _ = _ := by rw [abs_mul_abs_self]
  rw [show k * len a = Real.sqrt (k ^ 2 * a.dot a) by
    rw [Real.sqrt_mul (sq_nonneg k), Real.sqrt_sq hk]; rfl]
  refine Real.sqrt_le_sqrt ?_
  have h1 := key hx
  have h2 := key hy
  have h3 := key hz
  unfold Point.dot
  linarith

theorem len_cross_le (a b : Point) : len (a.cross b) ≤ len a * len b := by
  unfold len
  rw [← Real.sqrt_mul (Point.dot_self_nonneg a)]
  refine Real.sqrt_le_sqrt ?_
  unfold Point.dot Point.cross
  dsimp only
  nlinarith [sq_nonneg (a.x * b.x + a.y * b.y + a.z * b.z)]

/-- The vector product of orthogonal vectors. -/
theorem len_cross_eq {a b : Point} (h : a.dot b = 0) : len (a.cross b) = len a * len b := by
  unfold len
  rw [← Real.sqrt_mul (Point.dot_self_nonneg a)]
  congr 1
  have : (a.cross b).dot (a.cross b) = a.dot a * b.dot b - a.dot b ^ 2 := by
    unfold Point.dot Point.cross
    dsimp only
    ring
  rw [this, h]
  ring

/-- Directions of vectors that are close to each other. -/
theorem unit_close {a e : Point} (ha : 0 < len a) (hae : 0 < len (a + e)) :
    ∃ f, (a + e).smul (1 / len (a + e)) = a.smul (1 / len a) + f ∧ len f ≤ 2 * len e / len a := by
  refine ⟨e.smul (1 / len a) + (a + e).smul (1 / len (a + e) - 1 / len a), ?_, ?_⟩
  · ext <;> simp only [Point.add_x, Point.add_y, Point.add_z, Point.smul_x, Point.smul_y,
      Point.smul_z] <;> ring
  · refine (len_add_le _ _).trans ?_
    rw [len_smul, len_smul]
    have h1 : |1 / len a| = 1 / len a := abs_of_pos (by positivity)
    have h2 : |1 / len (a + e) - 1 / len a| * len (a + e) ≤ len e / len a := by
      have h3 : 1 / len (a + e) - 1 / len a = (len a - len (a + e)) / (len a * len (a + e)) := by
        field_simp
      have h4 : |len a - len (a + e)| ≤ len e := by
        rw [abs_le]
        constructor
        · have := len_add_le a e
          linarith
        · have := len_add_le (a + e) (e.smul (-1))
          have e1 : a + e + e.smul (-1) = a := by
            ext <;> simp
          rw [e1, len_smul] at this
          simp at this
          linarith
      rw [h3, abs_div, abs_of_pos (mul_pos ha hae), div_mul_eq_mul_div,
        div_le_div_iff₀ (mul_pos ha hae) ha]
      nlinarith [mul_nonneg ha.le hae.le]
    rw [h1]
    calc 1 / len a * len e + |1 / len (a + e) - 1 / len a| * len (a + e)
        ≤ len e / len a + len e / len a := by
          refine add_le_add (le_of_eq (by ring)) h2
      _ = _ := by ring

/-! ### Rounding -/

/-- Half of the distance from 1 to the next double. -/
noncomputable def eps : ℝ := 1 / 2 ^ 53

theorem eps_pos : 0 < eps := by unfold eps; positivity

theorem eps_le : eps ≤ 1 / 10 ^ 15 := by unfold eps; norm_num

theorem eps_sq : eps * eps ≤ eps / 10 ^ 15 := by
  have := mul_le_mul_of_nonneg_left eps_le eps_pos.le
  linarith

theorem Nearest.err_eps {rnd : ℝ → ℝ} (h : Nearest rnd) (x : ℝ) : |rnd x - x| ≤ eps * |x| := by
  have := h.err x
  unfold eps
  rwa [one_div_mul_eq_div]

theorem Nearest.abs_le_eps {rnd : ℝ → ℝ} (h : Nearest rnd) (x : ℝ) :
    |rnd x| ≤ (1 + eps) * |x| := by
  have h1 := h.err_eps x
  have h2 := abs_sub_abs_le_abs_sub (rnd x) x
  linarith

namespace Rounded

variable {rnd : ℝ → ℝ}

theorem dot_near (h : Nearest rnd) (p : Point) : Near 3 (p.dot p) (dot rnd p p) := by
  have hx := mul_self_nonneg p.x
  have hy := mul_self_nonneg p.y
  have hz := mul_self_nonneg p.z
  have h1 := (h.near hx).add (h.near hy)
  have s1 : 0 ≤ rnd (p.x * p.x) + rnd (p.y * p.y) := add_nonneg (h.nonneg hx) (h.nonneg hy)
  have h2 : Near 2 _ _ := h1.trans (h.near s1)
  have h3 := h2.add ((h.near hz).mono (by norm_num : 1 ≤ 2) hz (h.nonneg hz))
  exact h3.trans (h.near (add_nonneg (h.nonneg s1) (h.nonneg hz)))

theorem sqrt_near {x y : ℝ} (hxy : Near 3 x y) (hx : 0 ≤ x) (hy : 0 ≤ y) :
    Near 2 (Real.sqrt x) (Real.sqrt y) := by
  have key : ∀ {a b : ℝ}, 0 ≤ a → a * (1 - 1 / 2 ^ 53) ^ 3 ≤ b →
      Real.sqrt a * (1 - 1 / 2 ^ 53) ^ 2 ≤ Real.sqrt b := by
    intro a b ha hab
    refine Real.le_sqrt_of_sq_le ?_
    rw [mul_pow, Real.sq_sqrt ha]
    refine le_trans (mul_le_mul_of_nonneg_left ?_ ha) hab
    norm_num
  exact ⟨key hx hxy.1, key hy hxy.2⟩

/-- The length computed by `Normalize`. -/
theorem length_near (h : Nearest rnd) (p : Point) :
    Near 3 (len p) (rnd (Real.sqrt (dot rnd p p))) := by
  have h1 := dot_near h p
  have h0 := Point.dot_self_nonneg p
  exact (sqrt_near h1 h0 (h1.nonneg h0)).trans (h.near (Real.sqrt_nonneg _))

theorem ratio_near {l r : ℝ} (hl : 0 < l) (h : Near 3 l r) : |l / r - 1| ≤ 7 / 2 * eps := by
  have hr := h.pos hl
  have f : (1 - 1 / 2 ^ 53 : ℝ) ^ 3 * (1 + 7 / 2 * eps) ≥ 1 := by unfold eps; norm_num
  have g : (1 - 1 / 2 ^ 53 : ℝ) ^ 3 ≥ 1 - 7 / 2 * eps := by unfold eps; norm_num
  have he := eps_pos
  rw [abs_le]
  constructor
  · have : 1 - 7 / 2 * eps ≤ l / r := by
      rw [le_div_iff₀ hr]
      refine le_trans ?_ h.2
      rw [mul_comm]
      exact mul_le_mul_of_nonneg_left g hr.le
    linarith
  · have : l / r ≤ 1 + 7 / 2 * eps := by
      rw [div_le_iff₀ hr]
      calc l = l * 1 := by ring
        _ ≤ l * ((1 - 1 / 2 ^ 53 : ℝ) ^ 3 * (1 + 7 / 2 * eps)) :=
            mul_le_mul_of_nonneg_left f hl.le
        _ = (1 + 7 / 2 * eps) * (l * (1 - 1 / 2 ^ 53) ^ 3) := by ring
        _ ≤ _ := mul_le_mul_of_nonneg_left h.1 (by positivity)
    linarith

theorem quotient_err (h : Nearest rnd) {l r : ℝ} (hl : 0 < l) (hn : Near 3 l r) (t : ℝ) :
    |rnd (t / r) - t * (1 / l)| ≤ 5 * eps * |t * (1 / l)| := by
  have hr := hn.pos hl
  have h1 := ratio_near hl hn
  have e1 : t / r = t * (1 / l) * (l / r) := by field_simp
  have h2 := h.err_eps (t / r)
  set w := t * (1 / l)
  set q := l / r
  rw [e1] at h2 ⊢
  have h3 : |w * q - w| = |w| * |q - 1| := by rw [← abs_mul]; congr 1; ring
  have h4 : |w * q| ≤ |w| * (1 + 7 / 2 * eps) := by
    rw [abs_mul]
    refine mul_le_mul_of_nonneg_left ?_ (abs_nonneg w)
    have := abs_sub_abs_le_abs_sub q 1
    rw [abs_one] at this
    linarith
  have h5 := abs_sub_le (rnd (w * q)) (w * q) w
  have h6 := mul_le_mul_of_nonneg_left h1 (abs_nonneg w)
  have h7 := mul_le_mul_of_nonneg_left h4 eps_pos.le
  have h8 := mul_le_mul_of_nonneg_left eps_sq (abs_nonneg w)
  have h9 := mul_nonneg (abs_nonneg w) eps_pos.le
  linarith

theorem len_unit {p : Point} (h : 0 < len p) : len (p.smul (1 / len p)) = 1 := by
  rw [len_smul, abs_of_pos (by positivity), one_div_mul_cancel h.ne']

/-- `Normalize` of a vector other than zero. -/
theorem normalize_spec (h : Nearest rnd) {p : Point} (hp : 0 < len p) :
    ∃ q e, normalize rnd p = .ok q ∧ q = p.smul (1 / len p) + e ∧ len e ≤ 5 * eps := by
  have hn := length_near h p
  have hd : dot rnd p p ≠ 0 := by
    have : 0 < p.dot p := by
      rw [← len_sq]
      positivity
    exact ((dot_near h p).pos this).ne'
  set r := rnd (Real.sqrt (dot rnd p p)) with hr
  refine ⟨⟨rnd (p.x / r), rnd (p.y / r), rnd (p.z / r)⟩,
    ⟨rnd (p.x / r) - p.x * (1 / len p), rnd (p.y / r) - p.y * (1 / len p),
      rnd (p.z / r) - p.z * (1 / len p)⟩, ?_, ?_, ?_⟩
  · unfold normalize
    rw [if_neg hd]
  · ext <;> simp
  · have := len_le_of_components (e := ⟨rnd (p.x / r) - p.x * (1 / len p),
      rnd (p.y / r) - p.y * (1 / len p), rnd (p.z / r) - p.z * (1 / len p)⟩)
      (a := p.smul (1 / len p)) (k := 5 * eps) (by have := eps_pos; positivity)
      (quotient_err h hp hn _) (quotient_err h hp hn _) (quotient_err h hp hn _)
    rwa [len_unit hp, mul_one] at this

theorem smul_spec (h : Nearest rnd) (p : Point) (s : ℝ) :
    ∃ e, smul rnd p s = p.smul s + e ∧ len e ≤ eps * (|s| * len p) := by
  refine ⟨⟨rnd (p.x * s) - p.x * s, rnd (p.y * s) - p.y * s, rnd (p.z * s) - p.z * s⟩, ?_, ?_⟩
  · ext <;> simp [smul]
  · rw [← len_smul]
    exact len_le_of_components eps_pos.le (h.err_eps _) (h.err_eps _) (h.err_eps _)

theorem add_spec (h : Nearest rnd) (a b : Point) :
    ∃ e, add rnd a b = a + b + e ∧ len e ≤ eps * len (a + b) := by
  refine ⟨⟨rnd (a.x + b.x) - (a.x + b.x), rnd (a.y + b.y) - (a.y + b.y),
    rnd (a.z + b.z) - (a.z + b.z)⟩, ?_, ?_⟩
  · ext <;> simp [add]
  · exact len_le_of_components eps_pos.le (h.err_eps _) (h.err_eps _) (h.err_eps _)

theorem minor_err (h : Nearest rnd) (a b c d : ℝ) :
    (rnd (rnd (a * b) - rnd (c * d)) - (a * b - c * d)) ^ 2 ≤
      9 / 2 * eps ^ 2 * ((a ^ 2 + c ^ 2) * (b ^ 2 + d ^ 2)) := by
  have h1 := h.err_eps (a * b)
  have h2 := h.err_eps (c * d)
  have h3 := h.err_eps (rnd (a * b) - rnd (c * d))
  have h4 := h.abs_le_eps (a * b)
  have h5 := h.abs_le_eps (c * d)
  set P := rnd (a * b)
  set Q := rnd (c * d)
  have h6 : |P - Q| ≤ (1 + eps) * (|a * b| + |c * d|) := by
    have := abs_sub P Q
    linarith
  have h7 : |rnd (P - Q) - (a * b - c * d)| ≤ 21 / 10 * eps * (|a * b| + |c * d|) := by
    have e1 : rnd (P - Q) - (a * b - c * d) =
        (rnd (P - Q) - (P - Q)) + ((P - a * b) - (Q - c * d)) := by ring
    rw [e1]
    have t1 := abs_add_le (rnd (P - Q) - (P - Q)) ((P - a * b) - (Q - c * d))
    have t2 := abs_sub (P - a * b) (Q - c * d)
    have t3 := mul_le_mul_of_nonneg_left h6 eps_pos.le
    have t4 : 0 ≤ |a * b| + |c * d| := by positivity
    have t5 := mul_le_mul_of_nonneg_right eps_sq t4
    have t6 := mul_nonneg eps_pos.le t4
    linarith
  have h8 : (|a * b| + |c * d|) ^ 2 ≤ (a ^ 2 + c ^ 2) * (b ^ 2 + d ^ 2) := by
    rw [abs_mul, abs_mul, ← sq_abs a, ← sq_abs b, ← sq_abs c, ← sq_abs d]
    nlinarith [sq_nonneg (|a| * |d| - |c| * |b|)]
  have h9 := pow_le_pow_left₀ (abs_nonneg _) h7 2
  rw [sq_abs, mul_pow, mul_pow] at h9
  refine h9.trans ?_
  have t7 : 0 ≤ eps ^ 2 * (|a * b| + |c * d|) ^ 2 := by positivity
  have t8 := mul_le_mul_of_nonneg_left h8 (sq_nonneg eps)
  nlinarith

theorem cross_spec (h : Nearest rnd) (a b : Point) :
    ∃ e, cross rnd a b = a.cross b + e ∧ len e ≤ 3 * eps * (len a * len b) := by
  refine ⟨⟨rnd (rnd (a.y * b.z) - rnd (a.z * b.y)) - (a.y * b.z - a.z * b.y),
    rnd (rnd (a.z * b.x) - rnd (a.x * b.z)) - (a.z * b.x - a.x * b.z),
    rnd (rnd (a.x * b.y) - rnd (a.y * b.x)) - (a.x * b.y - a.y * b.x)⟩, ?_, ?_⟩
  · ext <;> simp [cross, Point.cross]
  · have h1 := minor_err h a.y b.z a.z b.y
    have h2 := minor_err h a.z b.x a.x b.z
    have h3 := minor_err h a.x b.y a.y b.x
    have he := eps_pos
    have ha := len_nonneg a
    have hb := len_nonneg b
    refine abs_le_of_sq_le_sq' ?_ (by positivity) |>.2
    rw [len_sq, mul_pow, mul_pow, mul_pow, len_sq, len_sq]
    have e1 : (3 : ℝ) ^ 2 * eps ^ 2 * (a.dot a * b.dot b) -
        9 / 2 * eps ^ 2 * ((a.y ^ 2 + a.z ^ 2) * (b.z ^ 2 + b.y ^ 2) +
          (a.z ^ 2 + a.x ^ 2) * (b.x ^ 2 + b.z ^ 2) + (a.x ^ 2 + a.y ^ 2) * (b.y ^ 2 + b.x ^ 2)) =
        9 / 2 * eps ^ 2 * (a.x ^ 2 * (b.y ^ 2 + b.z ^ 2) + a.y ^ 2 * (b.x ^ 2 + b.z ^ 2) +
          a.z ^ 2 * (b.x ^ 2 + b.y ^ 2)) := by
      unfold Point.dot
      ring
    have e2 : 0 ≤ 9 / 2 * eps ^ 2 * (a.x ^ 2 * (b.y ^ 2 + b.z ^ 2) +
        a.y ^ 2 * (b.x ^ 2 + b.z ^ 2) + a.z ^ 2 * (b.x ^ 2 + b.y ^ 2)) := by positivity
    simp only [Point.dot, ← sq] at h1 h2 h3 e1 ⊢
    linarith

/-! ### Sines -/

theorem sineOf_spec (h : Nearest rnd) {mu : ℝ} (hmu : |mu| ≤ 1) :
    ∃ s, sineOf rnd mu = .ok s ∧ 0 ≤ s ∧ s ≤ 1 ∧ |s ^ 2 - (1 - mu ^ 2)| ≤ 5 * eps := by
  have he := eps_pos
  have h0 : 0 ≤ mu * mu := mul_self_nonneg mu
  have h1 : mu * mu ≤ 1 := by
    have := mul_self_le_mul_self (abs_nonneg mu) hmu
    rwa [abs_mul_abs_self, one_mul] at this
  have hr0 : 0 ≤ rnd (mu * mu) := h.nonneg h0
  have hr1 : rnd (mu * mu) ≤ 1 := by
    have := h.mono h1
    rwa [h.one] at this
  have e1 := h.err_eps (mu * mu)
  have e2 := h.err_eps (1 - rnd (mu * mu))
  set m := rnd (mu * mu)
  have ht0 : 0 ≤ rnd (1 - m) := h.nonneg (by linarith)
  have ht1 : rnd (1 - m) ≤ 1 := by
    have := h.mono (show 1 - m ≤ 1 by linarith)
    rwa [h.one] at this
  rw [abs_of_nonneg h0] at e1
  rw [abs_of_nonneg (by linarith : 0 ≤ 1 - m)] at e2
  set t := rnd (1 - m) with ht
  have hq0 := Real.sqrt_nonneg t
  have hq1 : Real.sqrt t ≤ 1 := Real.sqrt_le_one.2 ht1
  have hq2 := Real.sq_sqrt ht0
  have e3 := h.err_eps (Real.sqrt t)
  rw [abs_of_nonneg hq0] at e3
  have hs0 := h.nonneg hq0
  have hs1 : rnd (Real.sqrt t) ≤ 1 := by
    have := h.mono hq1
    rwa [h.one] at this
  refine ⟨rnd (Real.sqrt t), ?_, hs0, hs1, ?_⟩
  · unfold sineOf
    rw [if_neg (not_lt.2 ht0)]
  set q := Real.sqrt t
  set s := rnd q
  have e4 : |s ^ 2 - q ^ 2| ≤ 2 * eps := by
    have : s ^ 2 - q ^ 2 = (s - q) * (s + q) := by ring
    rw [this, abs_mul, abs_of_nonneg (by linarith : 0 ≤ s + q)]
    calc |s - q| * (s + q) ≤ eps * q * 2 :=
          mul_le_mul e3 (by linarith) (by linarith) (by positivity)
      _ ≤ eps * 1 * 2 := by gcongr
      _ = 2 * eps := by ring
  rw [hq2] at e4
  have m1 : eps * (mu * mu) ≤ eps * 1 := mul_le_mul_of_nonneg_left h1 he.le
  have m2 : eps * (1 - m) ≤ eps * 1 := mul_le_mul_of_nonneg_left (by linarith) he.le
  rw [abs_le] at *
  constructor <;> nlinarith [e1.1, e1.2, e2.1, e2.2, e4.1, e4.2]

/-- A sine or cosine of the library times a number of at most 1. -/
theorem factor_err (h : Nearest rnd) {s c c' : ℝ} (h0 : 0 ≤ s) (h1 : s ≤ 1) (hc : |c| ≤ 1)
    (hcc : |c' - c| ≤ 2 * eps) : |rnd (s * c') - s * c| ≤ 4 * eps := by
  have he := eps_pos
  have h2 := h.err_eps (s * c')
  have h3 : |c'| ≤ 1 + 2 * eps := by
    have := abs_sub_abs_le_abs_sub c' c
    linarith
  have h4 : |s * c'| ≤ 1 + 2 * eps := by
    rw [abs_mul, abs_of_nonneg h0]
    calc s * |c'| ≤ 1 * |c'| := mul_le_mul_of_nonneg_right h1 (abs_nonneg _)
      _ ≤ _ := by linarith
  have h5 : |s * c' - s * c| ≤ 2 * eps := by
    rw [← mul_sub, abs_mul, abs_of_nonneg h0]
    calc s * |c' - c| ≤ 1 * |c' - c| := mul_le_mul_of_nonneg_right h1 (abs_nonneg _)
      _ ≤ _ := by linarith
  have h6 := abs_sub_le (rnd (s * c')) (s * c') (s * c)
  have h7 := mul_le_mul_of_nonneg_left h4 he.le
  have h8 := eps_sq
  linarith

/-! ### The rotation -/

theorem len_near {d : Point} {k : ℝ} (h : |d.dot d - 1| ≤ k) : |len d - 1| ≤ k := by
  rw [← len_sq] at h
  have h0 := len_nonneg d
  have e : len d ^ 2 - 1 = (len d - 1) * (len d + 1) := by ring
  rw [e, abs_mul, abs_of_nonneg (by linarith : 0 ≤ len d + 1)] at h
  nlinarith [abs_nonneg (len d - 1)]

/-- The axis taken is not too close to the direction. -/
theorem aux_len (h : Nearest rnd) {d : Direction} (hd : |d.dot d - 1| ≤ 32 * eps) :
    2 / 5 ≤ len (d.cross (auxAxis rnd d)) ∧ len (auxAxis rnd d) = 1 := by
  have he := eps_le
  have hp := eps_pos
  have ht := h.err_eps Direction.onAxisTolerance
  have hv : Direction.onAxisTolerance = 9 / 10 := by
    unfold Direction.onAxisTolerance
    norm_num
  rw [hv, abs_of_pos (by norm_num : (0 : ℝ) < 9 / 10), abs_le] at ht
  obtain ⟨d1, d2⟩ := abs_le.1 hd
  unfold auxAxis
  rw [hv]
  set t := rnd (9 / 10)
  have t1 : 89 / 100 ≤ t := by linarith [ht.1]
  have t2 : t ≤ 91 / 100 := by linarith [ht.2]
  split
  · rename_i hc
    refine ⟨Real.le_sqrt_of_sq_le ?_, by simp [len, Point.dot]⟩
    unfold Point.dot at d1 ⊢
    unfold Point.cross
    dsimp only
    nlinarith [hc.1, hc.2]
  · rename_i hc
    refine ⟨Real.le_sqrt_of_sq_le ?_, by simp [len, Point.dot]⟩
    have : (89 / 100) ^ 2 ≤ d.x * d.x := by
      rw [not_and_or, not_le, not_lt] at hc
      rcases hc with hc | hc <;> nlinarith
    unfold Point.dot
    unfold Point.cross
    dsimp only
    nlinarith [mul_self_nonneg d.z]

/-- Normalising a vector known up to an error. -/
theorem normalize_close (h : Nearest rnd) {a e : Point} {k : ℝ} (ha : 0 < len a)
    (hk : 2 * len e / len a ≤ k) (hsmall : len e < len a) :
    ∃ q g, normalize rnd (a + e) = .ok q ∧ q = a.smul (1 / len a) + g ∧ len g ≤ k + 5 * eps := by
  have hae : 0 < len (a + e) := by
    have := len_add_le (a + e) (e.smul (-1))
    have e1 : a + e + e.smul (-1) = a := by
      ext <;> simp
    rw [e1, len_smul, abs_neg, abs_one, one_mul] at this
    linarith
  obtain ⟨q, f, hq, hqf, hf⟩ := normalize_spec h hae
  obtain ⟨g, hg, hg'⟩ := unit_close ha hae
  refine ⟨q, g + f, hq, ?_, ?_⟩
  · rw [hqf, hg]
    ext <;> simp [add_assoc]
  · have := len_add_le g f
    linarith

theorem cross_add (a b c : Point) : a.cross (b + c) = a.cross b + a.cross c := by
  ext <;> simp [Point.cross] <;> ring

theorem dot_cross_left (a b : Point) : a.dot (a.cross b) = 0 := by
  unfold Point.dot Point.cross
  dsimp only
  ring

theorem dot_cross_right (a b : Point) : b.dot (a.cross b) = 0 := by
  unfold Point.dot Point.cross
  dsimp only
  ring

/-- The two axes of `Direction(d, mu, phi)`: perpendicular to `d` and to each other up to rounding
errors. -/
theorem axes_spec (h : Nearest rnd) {d : Direction} (hd : |d.dot d - 1| ≤ 32 * eps) :
    ∃ U V w z g₁ g₂, normalize rnd (cross rnd d (auxAxis rnd d)) = .ok U ∧
      normalize rnd (cross rnd d U) = .ok V ∧ U = w + g₁ ∧ V = z + g₂ ∧
      w = (d.cross (auxAxis rnd d)).smul (1 / len (d.cross (auxAxis rnd d))) ∧
      z = (d.cross w).smul (1 / len (d.cross w)) ∧
      len w = 1 ∧ len z = 1 ∧ d.dot w = 0 ∧ d.dot z = 0 ∧ w.dot z = 0 ∧
      len g₁ ≤ 21 * eps ∧ len g₂ ≤ 54 * eps := by
  have he := eps_pos
  have hs := eps_le
  obtain ⟨D1, D2⟩ := abs_le.1 (len_near hd)
  have hD : 0 < len d := by linarith
  obtain ⟨ha, hax⟩ := aux_len h hd
  set A := auxAxis rnd d
  obtain ⟨e₁, he₁, hl₁⟩ := cross_spec h d A
  rw [hax, mul_one] at hl₁
  have hW : 0 < len (d.cross A) := by linarith
  have b₁ : len e₁ ≤ 31 / 10 * eps := by
    refine hl₁.trans ?_
    nlinarith
  have hk₁ : 2 * len e₁ / len (d.cross A) ≤ 16 * eps := by
    rw [div_le_iff₀ hW]
    nlinarith
  obtain ⟨U, g₁, hU, hUg, hg₁⟩ := normalize_close h hW hk₁ (by linarith)
  have hw1 := len_unit hW
  have hdw : d.dot ((d.cross A).smul (1 / len (d.cross A))) = 0 := by
    rw [dot_smul_right, dot_cross_left, zero_mul]
  set w := (d.cross A).smul (1 / len (d.cross A)) with hw
  have hzl : len (d.cross w) = len d := by rw [len_cross_eq hdw, hw1, mul_one]
  obtain ⟨e₃, he₃, hl₃⟩ := cross_spec h d U
  have hU1 : len U ≤ 1 + 21 * eps := by
    have := len_add_le w g₁
    rw [← hUg, hw1] at this
    linarith
  have b₃ : len e₃ ≤ 31 / 10 * eps := by
    refine hl₃.trans ?_
    have : len d * len U ≤ (1 + 32 * eps) * (1 + 21 * eps) :=
      mul_le_mul (by linarith) hU1 (len_nonneg _) (by linarith)
    have h3 : (1 + 32 * eps) * (1 + 21 * eps) ≤ 31 / 30 := by nlinarith
    calc 3 * eps * (len d * len U) ≤ 3 * eps * (31 / 30) := by gcongr; linarith
      _ = _ := by ring
  have b₄ : len (d.cross g₁) ≤ 211 / 10 * eps := by
    refine (len_cross_le _ _).trans ?_
    calc len d * len g₁ ≤ (1 + 32 * eps) * (21 * eps) :=
          mul_le_mul (by linarith) (by linarith) (len_nonneg _) (by linarith)
      _ ≤ _ := by nlinarith [eps_sq]
  have e4 : cross rnd d U = d.cross w + (d.cross g₁ + e₃) := by
    rw [he₃, hUg, cross_add]
    ext <;> simp [add_assoc]
  have b₅ : len (d.cross g₁ + e₃) ≤ 242 / 10 * eps := by
    have := len_add_le (d.cross g₁) e₃
    linarith
  have hZ : 0 < len (d.cross w) := by rw [hzl]; exact hD
  have hk₂ : 2 * len (d.cross g₁ + e₃) / len (d.cross w) ≤ 49 * eps := by
    rw [div_le_iff₀ hZ, hzl]
    nlinarith
  obtain ⟨V, g₂, hV, hVg, hg₂⟩ := normalize_close h hZ hk₂ (by rw [hzl]; linarith)
  refine ⟨U, V, w, _, g₁, g₂, by rw [he₁]; exact hU, by rw [e4]; exact hV, hUg, hVg, rfl, rfl, hw1,
    len_unit hZ, hdw, ?_, ?_, by linarith, by linarith⟩
  · rw [dot_smul_right, dot_cross_left, zero_mul]
  · rw [dot_smul_right, dot_cross_right, zero_mul]

/-- One component of the new direction. -/
theorem component_spec (h : Nearest rnd) {U w g : Point} {K k b : ℝ} (hU : U = w + g)
    (hw : len w = 1) (hg : len g ≤ b * eps) (hb : b ≤ 54) (hK : |K - k| ≤ 4 * eps) (hk : |k| ≤ 1) :
    ∃ e, smul rnd U K = w.smul k + e ∧ len e ≤ (b + 6) * eps := by
  have he := eps_pos
  have hs := eps_le
  have hq := eps_sq
  obtain ⟨e, h1, h2⟩ := smul_spec h U K
  have hK1 : |K| ≤ 1 + 4 * eps := by
    have := abs_sub_abs_le_abs_sub K k
    linarith
  have hgb := len_nonneg g
  have hb0 : 0 ≤ b := by
    by_contra hc
    push Not at hc
    nlinarith
  have hU1 : len U ≤ 1 + b * eps := by
    have := len_add_le w g
    rw [← hU, hw] at this
    linarith
  refine ⟨w.smul (K - k) + (g.smul K + e), ?_, ?_⟩
  · rw [h1, hU]
    ext <;> simp <;> ring
  · have t1 := len_add_le (w.smul (K - k)) (g.smul K + e)
    have t2 := len_add_le (g.smul K) e
    rw [len_smul, hw, mul_one] at t1
    rw [len_smul] at t2
    have t3 : |K| * len g ≤ (1 + 4 * eps) * (b * eps) :=
      mul_le_mul hK1 hg hgb (by linarith)
    have t4 : |K| * len U ≤ (1 + 4 * eps) * (1 + b * eps) :=
      mul_le_mul hK1 hU1 (len_nonneg _) (by linarith)
    have t5 : b * eps ≤ 54 * eps := mul_le_mul_of_nonneg_right hb he.le
    have t6 : (1 + 4 * eps) * (1 + b * eps) ≤ 11 / 10 := by nlinarith
    have t7 := mul_le_mul_of_nonneg_left (t4.trans t6) he.le
    have t8 : 4 * eps * (b * eps) ≤ 1 / 10 * eps := by nlinarith
    nlinarith

/-- The exact combination of the three perpendicular vectors. -/
theorem combination_len {d w z : Point} {s mu phi : ℝ} (hd : |d.dot d - 1| ≤ 32 * eps)
    (hmu : |mu| ≤ 1) (hs : |s ^ 2 - (1 - mu ^ 2)| ≤ 5 * eps) (hw1 : len w = 1) (hz1 : len z = 1)
    (hdw : d.dot w = 0) (hdz : d.dot z = 0) (hwz : w.dot z = 0) :
    |len (w.smul (s * Real.cos phi) + z.smul (s * Real.sin phi) + d.smul mu) - 1| ≤ 37 * eps := by
  refine len_near ?_
  have hww : w.dot w = 1 := by rw [← len_sq, hw1, one_pow]
  have hzz : z.dot z = 1 := by rw [← len_sq, hz1, one_pow]
  have hRR : (w.smul (s * Real.cos phi) + z.smul (s * Real.sin phi) + d.smul mu).dot
      (w.smul (s * Real.cos phi) + z.smul (s * Real.sin phi) + d.smul mu) =
      s ^ 2 + mu ^ 2 * d.dot d := by
    simp only [dot_add_left, dot_add_right, dot_smul_left, dot_smul_right, hww, hzz, hwz, hdw,
      hdz, dot_comm' z w, dot_comm' w d, dot_comm' z d]
    linear_combination s ^ 2 * Real.cos_sq_add_sin_sq phi
  have hm2 : mu ^ 2 ≤ 1 := by rwa [sq_le_one_iff_abs_le_one]
  rw [hRR, show s ^ 2 + mu ^ 2 * d.dot d - 1 = (s ^ 2 - (1 - mu ^ 2)) + mu ^ 2 * (d.dot d - 1) by
    ring]
  refine (abs_add_le _ _).trans ?_
  rw [abs_mul, abs_of_nonneg (sq_nonneg mu)]
  have := mul_le_mul hm2 hd (abs_nonneg _) (by norm_num)
  linarith

/-- The direction made by `Direction(d, mu, phi)`. -/
theorem rotated_spec (h : Nearest rnd) {cosine sine : ℝ → ℝ} {d : Direction} {mu phi : ℝ}
    (hd : |d.dot d - 1| ≤ 32 * eps) (hmu : |mu| ≤ 1)
    (hc : |cosine phi - Real.cos phi| ≤ 2 * eps) (hs : |sine phi - Real.sin phi| ≤ 2 * eps) :
    ∃ q w z s E, rotated rnd cosine sine d mu phi = .ok q ∧
      w = (d.cross (auxAxis rnd d)).smul (1 / len (d.cross (auxAxis rnd d))) ∧
      z = (d.cross w).smul (1 / len (d.cross w)) ∧
      0 ≤ s ∧ |s ^ 2 - (1 - mu ^ 2)| ≤ 5 * eps ∧
      q = w.smul (s * Real.cos phi) + z.smul (s * Real.sin phi) + d.smul mu + E ∧
      len E ≤ 256 * eps ∧ d.dot w = 0 ∧ d.dot z = 0 := by
  have he := eps_pos
  have hsm := eps_le
  have hq := eps_sq
  obtain ⟨D1, D2⟩ := abs_le.1 (len_near hd)
  obtain ⟨U, V, w, z, g₁, g₂, hU, hV, hUg, hVg, hw, hz, hw1, hz1, hdw, hdz, hwz, hg₁, hg₂⟩ :=
    axes_spec h hd
  obtain ⟨s, hso, hs0, hs1, hs2⟩ := sineOf_spec h hmu
  have fc := factor_err h hs0 hs1 (Real.abs_cos_le_one phi) hc
  have fs := factor_err h hs0 hs1 (Real.abs_sin_le_one phi) hs
  have kc : |s * Real.cos phi| ≤ 1 := by
    rw [abs_mul, abs_of_nonneg hs0]
    exact mul_le_one₀ hs1 (abs_nonneg _) (Real.abs_cos_le_one phi)
  have ks : |s * Real.sin phi| ≤ 1 := by
    rw [abs_mul, abs_of_nonneg hs0]
    exact mul_le_one₀ hs1 (abs_nonneg _) (Real.abs_sin_le_one phi)
  obtain ⟨a₁, hA₁, la₁⟩ := component_spec h hUg hw1 hg₁ (by norm_num) fc kc
  obtain ⟨a₂, hA₂, la₂⟩ := component_spec h hVg hz1 hg₂ (by norm_num) fs ks
  obtain ⟨a₃, hA₃, la₃⟩ := smul_spec h d mu
  set X := smul rnd U (rnd (s * cosine phi)) with hX
  set Y := smul rnd V (rnd (s * sine phi)) with hY
  set Z := smul rnd d mu with hZ
  obtain ⟨a₄, hA₄, la₄⟩ := add_spec h X Y
  obtain ⟨a₅, hA₅, la₅⟩ := add_spec h (add rnd X Y) Z
  have lmu : |mu| * len d ≤ 1 + 32 * eps := by
    calc |mu| * len d ≤ 1 * len d := mul_le_mul_of_nonneg_right hmu (len_nonneg d)
      _ ≤ _ := by linarith
  have l₃ : len a₃ ≤ 11 / 10 * eps := by
    have := mul_le_mul_of_nonneg_left lmu he.le
    linarith
  have lX : len X ≤ 1 + 27 * eps := by
    have := len_add_le (w.smul (s * Real.cos phi)) a₁
    rw [← hA₁, len_smul, hw1] at this
    linarith
  have lY : len Y ≤ 1 + 60 * eps := by
    have := len_add_le (z.smul (s * Real.sin phi)) a₂
    rw [← hA₂, len_smul, hz1] at this
    linarith
  have lZ : len Z ≤ 1 + 34 * eps := by
    have := len_add_le (d.smul mu) a₃
    rw [← hA₃, len_smul] at this
    linarith
  have lXY : len (X + Y) ≤ 21 / 10 := by
    have := len_add_le X Y
    linarith
  have l₄ : len a₄ ≤ 21 / 10 * eps := by
    have := mul_le_mul_of_nonneg_left lXY he.le
    linarith
  have lS : len (add rnd X Y + Z) ≤ 32 / 10 := by
    have t1 := len_add_le (add rnd X Y) Z
    have t2 := len_add_le (X + Y) a₄
    rw [← hA₄] at t2
    linarith
  have l₅ : len a₅ ≤ 32 / 10 * eps := by
    have := mul_le_mul_of_nonneg_left lS he.le
    linarith
  set R := w.smul (s * Real.cos phi) + z.smul (s * Real.sin phi) + d.smul mu with hR
  have hr : add rnd (add rnd X Y) Z = R + (a₁ + (a₂ + (a₃ + (a₄ + a₅)))) := by
    rw [hA₅, hA₄, hA₁, hA₂, hA₃, hR]
    ext <;> simp <;> ring
  set E := a₁ + (a₂ + (a₃ + (a₄ + a₅))) with hE
  have lE : len E ≤ 95 * eps := by
    have t1 := len_add_le a₁ (a₂ + (a₃ + (a₄ + a₅)))
    have t2 := len_add_le a₂ (a₃ + (a₄ + a₅))
    have t3 := len_add_le a₃ (a₄ + a₅)
    have t4 := len_add_le a₄ a₅
    linarith
  have hR1 := combination_len (phi := phi) hd hmu hs2 hw1 hz1 hdw hdz hwz
  rw [← hR] at hR1
  obtain ⟨R1, R2⟩ := abs_le.1 hR1
  replace R1 : 1 - 37 * eps ≤ len R := by linarith
  have hRpos : 0 < len R := by linarith
  have hk : 2 * len E / len R ≤ 191 * eps := by
    rw [div_le_iff₀ hRpos]
    have := mul_le_mul_of_nonneg_left R1 (by linarith : 0 ≤ 191 * eps)
    linarith
  obtain ⟨q, g, hqn, hqg, hg⟩ := normalize_close h hRpos hk (by linarith)
  refine ⟨q, w, z, s, R.smul (1 / len R - 1) + g, ?_, hw, hz, hs0, hs2, ?_, ?_, hdw, hdz⟩
  · simp only [rotated, bind, Except.bind, hU, hV, hso]
    rw [← hX, ← hY, ← hZ, hr]
    exact hqn
  · rw [hqg, ← hR]
    clear_value R
    ext <;> simp only [Point.add_x, Point.add_y, Point.add_z, Point.smul_x, Point.smul_y,
      Point.smul_z] <;> ring
  · refine (len_add_le _ _).trans ?_
    rw [len_smul]
    have : |1 / len R - 1| * len R = |1 - len R| := by
      rw [← abs_of_pos hRpos, ← abs_mul, abs_of_pos hRpos]
      congr 1
      field_simp
    rw [this]
    have : |1 - len R| ≤ 37 * eps := by
      rw [abs_sub_comm]
      exact hR1
    linarith

theorem unit_err {q a g : Point} (ha : len a = 1) (hq : q = a + g) (hg : len g ≤ 5 * eps) :
    |q.dot q - 1| ≤ 32 * eps := by
  have he := eps_pos
  have hs := eps_sq
  have e1 : q.dot q - 1 = 2 * a.dot g + g.dot g := by
    have : a.dot a = 1 := by rw [← len_sq, ha, one_pow]
    rw [hq, dot_add_left, dot_add_right, dot_add_right, this, dot_comm' g a]
    ring
  have h1 := dot_le_len a g
  rw [ha, one_mul] at h1
  have h2 : g.dot g ≤ eps := by
    rw [← len_sq]
    nlinarith [len_nonneg g]
  have h3 := Point.dot_self_nonneg g
  obtain ⟨h4, h5⟩ := abs_le.1 h1
  rw [e1, abs_le]
  constructor <;> linarith

/-- Whatever `Normalize` makes has unit length up to rounding. -/
theorem normalize_unit (h : Nearest rnd) {p q : Point} (hq : normalize rnd p = .ok q) :
    |q.dot q - 1| ≤ 32 * eps := by
  have hp : 0 < len p := by
    refine len_pos ?_
    rintro rfl
    simp [normalize, dot, h.zero] at hq
  obtain ⟨q', e, h1, h2, h3⟩ := normalize_spec h hp
  cases Except.ok.inj (hq.symm.trans h1)
  exact unit_err (len_unit hp) h2 h3

theorem isotropicOf_spec (h : Nearest rnd) {cosine sine : ℝ → ℝ} {x phi : ℝ} (hx : |x| ≤ 1)
    (hc : |cosine phi - Real.cos phi| ≤ 2 * eps) (hs : |sine phi - Real.sin phi| ≤ 2 * eps) :
    ∃ d s, isotropicOf rnd cosine sine x phi = .ok d ∧ d.x = x ∧ 0 ≤ s ∧
      |s ^ 2 - (1 - x ^ 2)| ≤ 5 * eps ∧ |d.y - s * Real.cos phi| ≤ 4 * eps ∧
      |d.z - s * Real.sin phi| ≤ 4 * eps ∧ |d.dot d - 1| ≤ 32 * eps := by
  have he := eps_pos
  have hsm := eps_sq
  obtain ⟨s, hso, hs0, hs1, hs2⟩ := sineOf_spec h hx
  have fc := factor_err h hs0 hs1 (Real.abs_cos_le_one phi) hc
  have fs := factor_err h hs0 hs1 (Real.abs_sin_le_one phi) hs
  refine ⟨⟨x, rnd (s * cosine phi), rnd (s * sine phi)⟩, s, ?_, rfl, hs0, hs2, fc, fs, ?_⟩
  · simp only [isotropicOf, bind, Except.bind, hso]
  have sqe : ∀ {y k : ℝ}, |k| ≤ 1 → |y - k| ≤ 4 * eps → |y ^ 2 - k ^ 2| ≤ 9 * eps := by
    intro y k hk hy
    have h1 : |y + k| ≤ 2 + 4 * eps := by
      have t1 := abs_add_le (y - k) (2 * k)
      rw [abs_mul, abs_two, show y - k + 2 * k = y + k by ring] at t1
      linarith
    rw [show y ^ 2 - k ^ 2 = (y - k) * (y + k) by ring, abs_mul]
    have := mul_le_mul hy h1 (abs_nonneg _) (by linarith)
    linarith
  have kc : |s * Real.cos phi| ≤ 1 := by
    rw [abs_mul, abs_of_nonneg hs0]
    exact mul_le_one₀ hs1 (abs_nonneg _) (Real.abs_cos_le_one phi)
  have ks : |s * Real.sin phi| ≤ 1 := by
    rw [abs_mul, abs_of_nonneg hs0]
    exact mul_le_one₀ hs1 (abs_nonneg _) (Real.abs_sin_le_one phi)
  have h1 := sqe kc fc
  have h2 := sqe ks fs
  have e1 : (s * Real.cos phi) ^ 2 + (s * Real.sin phi) ^ 2 = s ^ 2 := by
    linear_combination s ^ 2 * Real.cos_sq_add_sin_sq phi
  obtain ⟨a1, a2⟩ := abs_le.1 h1
  obtain ⟨b1, b2⟩ := abs_le.1 h2
  obtain ⟨c1, c2⟩ := abs_le.1 hs2
  simp only [Point.dot, ← sq]
  rw [abs_le]
  constructor <;> linarith

/-- The cosine drawn is one. -/
theorem drawn_cosine (h : Nearest rnd) {g : ℕ} (hg : Rng.Valid g) :
    |(uniformReal rnd (-1) 1 g).1| ≤ 1 := by
  obtain ⟨h1, h2⟩ := canonical_mem h hg
  have two : rnd (1 - -1) = 2 := by
    rw [show (1 : ℝ) - -1 = ((2 : ℕ) : ℝ) by norm_num]
    exact h.self (IsDouble.nat (by norm_num))
  have d2 : rnd 2 = 2 := by
    have := two
    norm_num at this
    exact this
  unfold uniformReal
  dsimp only
  rw [two]
  set c := (canonical rnd g).1
  have c0 : 0 < c := lt_trans (by positivity) h1
  have c1 : c < 1 := h2.trans (by norm_num)
  have m0 : 0 ≤ rnd (c * 2) := h.nonneg (by linarith)
  have m1 : rnd (c * 2) ≤ 2 := by
    have := h.mono (show c * 2 ≤ 2 by linarith)
    rwa [d2] at this
  rw [abs_le]
  constructor
  · have := h.mono (show (-1 : ℝ) ≤ rnd (c * 2) + -1 by linarith)
    rwa [h.self IsDouble.one.neg] at this
  · have := h.mono (show rnd (c * 2) + -1 ≤ 1 by linarith)
    rwa [h.one] at this

/-- A number closer to a double than half of the distance to the next. -/
theorem nearest_eq (h : Nearest rnd) {x : ℝ} {n e : ℤ} (hn : |n| < 2 ^ 53)
    (hx : (2 : ℝ) ^ (e + 52) ≤ x) (hlt : |n * (2 : ℝ) ^ e - x| < (2 : ℝ) ^ e / 2) :
    rnd x = n * (2 : ℝ) ^ e := by
  have hp : (0 : ℝ) < (2 : ℝ) ^ e := by positivity
  have h1 := h.nearest x (n * (2 : ℝ) ^ e) ⟨n, e, hn, rfl⟩
  have h2 : (2 : ℝ) ^ (e + 52) ≤ rnd x := by
    have := h.mono hx
    rwa [h.self ⟨1, e + 52, by norm_num, by simp⟩] at this
  obtain ⟨k, hk⟩ := (h.isDouble x).multiple (k := e + 52) (h2.trans (le_abs_self _))
  rw [show e + 52 - 52 = e by ring] at hk
  rw [hk] at h1 ⊢
  have h3 : |(k : ℝ) * (2 : ℝ) ^ e - n * (2 : ℝ) ^ e| < (2 : ℝ) ^ e := by
    have := abs_sub_le ((k : ℝ) * (2 : ℝ) ^ e) x (n * (2 : ℝ) ^ e)
    rw [abs_sub_comm x] at this
    linarith
  rw [← sub_mul, abs_mul, abs_of_pos hp] at h3
  have h4 : |(k : ℝ) - n| < 1 := by
    by_contra hc
    push Not at hc
    nlinarith
  have h5 : |k - n| < 1 := by exact_mod_cast h4
  rw [show k = n by linarith [Int.abs_lt_one_iff.1 h5]]

/-- The square root of a negative number is taken for every cosine outside [-1, 1]. -/
theorem sineOf_nan (h : Nearest rnd) {mu : ℝ} (hd : IsDouble mu) (hmu : 1 < |mu|) :
    sineOf rnd mu = .error .nan := by
  obtain ⟨n, hn⟩ := hd.multiple (k := 0) (by simpa using hmu.le)
  have h1 : 1 + 1 / 2 ^ 52 ≤ |mu| := by
    rw [hn] at hmu ⊢
    rw [abs_mul, abs_of_pos (by positivity : (0 : ℝ) < (2 : ℝ) ^ ((0 : ℤ) - 52)),
      show (2 : ℝ) ^ ((0 : ℤ) - 52) = 1 / 2 ^ 52 by norm_num [zpow_neg]] at hmu ⊢
    rw [mul_one_div, one_lt_div (by positivity)] at hmu
    have : (2 : ℤ) ^ 52 < |n| := by exact_mod_cast hmu
    have : (2 : ℤ) ^ 52 + 1 ≤ |n| := this
    have : (2 : ℝ) ^ 52 + 1 ≤ |(n : ℝ)| := by exact_mod_cast this
    rw [mul_one_div, le_div_iff₀ (by positivity)]
    linarith
  have h2 : 1 + 1 / 2 ^ 52 ≤ mu * mu := by
    rw [← abs_mul_abs_self]
    nlinarith
  have hone : IsDouble (1 + 1 / 2 ^ 52) :=
    ⟨2 ^ 52 + 1, -52, by norm_num, by norm_num [zpow_neg]⟩
  have h3 := h.mono h2
  rw [h.self hone] at h3
  have h4 := h.mono (show 1 - rnd (mu * mu) ≤ -(1 / 2 ^ 52) by linarith)
  rw [h.self (show IsDouble (-(1 / 2 ^ 52)) from
    ⟨-1, -52, by norm_num, by norm_num [zpow_neg]⟩)] at h4
  have h5 : rnd (1 - rnd (mu * mu)) < 0 := lt_of_le_of_lt h4 (by norm_num)
  unfold sineOf
  rw [if_pos h5]

end Rounded
end Minimc
