import Verif.Spec.RoundedDirection
import Verif.Lemmas.RoundedDirection
import Verif.Props.RoundedRng

/-!
# C88: directions stay unit vectors in double precision

Every direction of a particle has unit length up to `2 ^ -48`, however often the particle has
scattered, because every constructor that turns a direction normalises its result.  A scattering by
a cosine in [-1, 1] always gives a direction, and the angle to the old one is right up to `2 ^ -44`.
The cosine handed over by scattering off a moving nucleus is a rounded scalar product and can exceed
1; the direction is then not a number.
-/

namespace Minimc
namespace Props

open Spec

theorem nearlyUnit_iff {d : Point} : NearlyUnit d ↔ |d.dot d - 1| ≤ 32 * eps := by
  unfold NearlyUnit Point.dot eps
  rw [show (32 : ℝ) * (1 / 2 ^ 53) = 1 / 2 ^ 48 by norm_num]
  simp only [sq]

theorem accurate_eps {cosine sine : ℝ → ℝ} (h : Accurate cosine sine) (x : ℝ) :
    |cosine x - Real.cos x| ≤ 2 * eps ∧ |sine x - Real.sin x| ≤ 2 * eps := by
  unfold eps
  rw [show (2 : ℝ) * (1 / 2 ^ 53) = 1 / 2 ^ 52 by norm_num]
  exact h x

theorem comp_le_len (p : Point) : |p.x| ≤ len p ∧ |p.y| ≤ len p ∧ |p.z| ≤ len p := by
  refine ⟨Real.abs_le_sqrt ?_, Real.abs_le_sqrt ?_, Real.abs_le_sqrt ?_⟩ <;> unfold Point.dot <;>
    nlinarith [sq_nonneg p.x, sq_nonneg p.y, sq_nonneg p.z]

/-- A vector other than zero gives a unit vector, each component of which is accurate to
`2 ^ -50`; the zero vector gives no direction. -/
theorem C88_normalize (rnd : ℝ → ℝ) (h : Nearest rnd) (p : Point) :
    (p ≠ ⟨0, 0, 0⟩ → ∃ q, Rounded.normalize rnd p = .ok q ∧ NearlyUnit q ∧
      |q.x - p.x / Real.sqrt (p.x ^ 2 + p.y ^ 2 + p.z ^ 2)| ≤ 1 / 2 ^ 50 ∧
      |q.y - p.y / Real.sqrt (p.x ^ 2 + p.y ^ 2 + p.z ^ 2)| ≤ 1 / 2 ^ 50 ∧
      |q.z - p.z / Real.sqrt (p.x ^ 2 + p.y ^ 2 + p.z ^ 2)| ≤ 1 / 2 ^ 50) ∧
    (p = ⟨0, 0, 0⟩ → Rounded.normalize rnd p = .error .nan) := by
  constructor
  · intro hp
    obtain ⟨q, e, h1, h2, h3⟩ := Rounded.normalize_spec h (len_pos hp)
    have hl : Real.sqrt (p.x ^ 2 + p.y ^ 2 + p.z ^ 2) = len p := by
      unfold len Point.dot
      simp only [sq]
    have h4 : len e ≤ 1 / 2 ^ 50 := h3.trans (by unfold eps; norm_num)
    obtain ⟨cx, cy, cz⟩ := comp_le_len e
    refine ⟨q, h1, nearlyUnit_iff.2 (Rounded.normalize_unit h h1), ?_, ?_, ?_⟩ <;>
      rw [hl, h2] <;> simp only [Point.add_x, Point.add_y, Point.add_z, Point.smul_x,
        Point.smul_y, Point.smul_z, mul_one_div, add_sub_cancel_left] <;> linarith
  · rintro rfl
    simp [Rounded.normalize, Rounded.dot, h.zero]

/-- A direction drawn at random: the generator advances four times, the first component is a cosine
and the length is 1. -/
theorem C88_isotropic (rnd cosine sine : ℝ → ℝ) (h : Nearest rnd) (hl : Accurate cosine sine)
    {g : ℕ} (hg : Rng.Valid g) :
    ∃ d, Rounded.isotropic rnd cosine sine g =
        .ok (d, Rng.next (Rng.next (Rng.next (Rng.next g)))) ∧ NearlyUnit d ∧ |d.x| ≤ 1 ∧
      |d.x - (2 * (Rng.canonical g).1 - 1)| ≤ 1 / 2 ^ 49 := by
  have hx := Rounded.drawn_cosine h hg
  set x := (Rounded.uniformReal rnd (-1) 1 g).1 with hxd
  set phi := (Rounded.uniformReal rnd 0 (rnd (2 * rnd Real.pi))
    (Rounded.uniformReal rnd (-1) 1 g).2).1 with hphi
  obtain ⟨d, s, h1, h2, -, -, -, -, h3⟩ :=
    Rounded.isotropicOf_spec (phi := phi) h hx (accurate_eps hl phi).1 (accurate_eps hl phi).2
  refine ⟨d, ?_, nearlyUnit_iff.2 h3, by rw [h2]; exact hx, ?_⟩
  · simp only [Rounded.isotropic, bind, Except.bind, ← hxd, ← hphi, h1]
    rfl
  rw [h2, hxd]
  unfold Rounded.uniformReal
  dsimp only
  have two : rnd (1 - -1) = 2 := by
    rw [show (1 : ℝ) - -1 = ((2 : ℕ) : ℝ) by norm_num]
    exact h.self (IsDouble.nat (by norm_num))
  rw [two]
  have c1 := (Rounded.canonical_err h hg).1
  obtain ⟨u0, u1⟩ := Rounded.canonical_mem h hg
  have r0 := Rng.canonical_pos hg
  have r1 : (Rng.canonical g).1 < 1 := by
    have := (Rng.canonical_bounds hg).2
    refine lt_of_le_of_lt this ?_
    norm_num
  set c := (Rounded.canonical rnd g).1
  set r := (Rng.canonical g).1
  have c2 : IsDouble (c * 2) := by
    have := ((Rounded.canonical_err h hg).2).scale 1
    simpa using this
  rw [h.self c2]
  have e1 := h.err (c * 2 + -1)
  have c0 : 0 < c := lt_trans (by positivity) u0
  have c3 : c < 1 := u1.trans (by norm_num)
  have b1 : |c * 2 + -1| ≤ 1 := by
    rw [abs_le]
    constructor <;> linarith
  have b2 : |c * 2 + -1| / 2 ^ 53 ≤ 1 / 2 ^ 53 := by gcongr
  have b3 : 5 / 2 ^ 53 * r ≤ 5 / 2 ^ 53 := by
    have : (0 : ℝ) < 5 / 2 ^ 53 := by positivity
    nlinarith
  rw [abs_le] at *
  have k1 : (1 : ℝ) / 2 ^ 49 = 16 / 2 ^ 53 := by norm_num
  have k2 : (1 : ℝ) / 2 ^ 53 = 1 / 2 ^ 53 * 1 := by norm_num
  rw [k1]
  constructor <;> nlinarith [e1.1, e1.2, c1.1, c1.2]

/-- Scattering by a cosine in [-1, 1].  There are two unit vectors, perpendicular to the direction
and to each other, about which the azimuth is measured.  For every cosine and azimuth there is a new
direction; it has unit length, the right angle to the old one and the right azimuth. -/
theorem C88_rotate (rnd cosine sine : ℝ → ℝ) (h : Nearest rnd) (hl : Accurate cosine sine)
    {d : Direction} (hd : NearlyUnit d) :
    ∃ u v : Point, u.dot u = 1 ∧ v.dot v = 1 ∧ d.dot u = 0 ∧ d.dot v = 0 ∧ u.dot v = 0 ∧
      0 < (d.cross u).dot v ∧
      ∀ mu phi, |mu| ≤ 1 → ∃ d' s, Rounded.rotated rnd cosine sine d mu phi = .ok d' ∧
        NearlyUnit d' ∧ |d.dot d' - mu| ≤ 1 / 2 ^ 44 ∧
        0 ≤ s ∧ |s ^ 2 - (1 - mu ^ 2)| ≤ 1 / 2 ^ 50 ∧
        |u.dot d' - s * Real.cos phi| ≤ 1 / 2 ^ 45 ∧ |v.dot d' - s * Real.sin phi| ≤ 1 / 2 ^ 45 := by
  have hd' := nearlyUnit_iff.1 hd
  have he := eps_pos
  have hsm := eps_le
  have hq := eps_sq
  obtain ⟨D1, D2⟩ := abs_le.1 (Rounded.len_near hd')
  obtain ⟨U, V, w, z, g₁, g₂, -, -, -, -, hw, hz, hw1, hz1, hdw, hdz, hwz, -, -⟩ :=
    Rounded.axes_spec h hd'
  have hww : w.dot w = 1 := by rw [← len_sq, hw1, one_pow]
  have hzz : z.dot z = 1 := by rw [← len_sq, hz1, one_pow]
  refine ⟨w, z, hww, hzz, hdw, hdz, hwz, ?_, ?_⟩
  · have hlw : 0 < len (d.cross w) := by
      rw [len_cross_eq hdw, hw1, mul_one]
      linarith
    rw [hz, dot_smul_right, ← len_sq]
    positivity
  intro mu phi hmu
  obtain ⟨q, w', z', s, E, hq1, hw', hz', hs0, hs2, hqE, hE, -, -⟩ :=
    Rounded.rotated_spec (phi := phi) h hd' hmu (accurate_eps hl phi).1 (accurate_eps hl phi).2
  have ew : w' = w := hw'.trans hw.symm
  subst ew
  have ez : z' = z := hz'.trans hz.symm
  subst ez
  have dE := dot_le_len d E
  have wE := dot_le_len w' E
  have zE := dot_le_len z' E
  rw [hw1, one_mul] at wE
  rw [hz1, one_mul] at zE
  refine ⟨q, s, hq1, ?_, ?_, hs0, hs2.trans (by unfold eps; norm_num), ?_, ?_⟩
  · rw [nearlyUnit_iff]
    have := hq1
    simp only [Rounded.rotated, bind, Except.bind] at this
    split at this
    · cases this
    split at this
    · cases this
    split at this
    · cases this
    exact Rounded.normalize_unit h this
  · have e1 : d.dot q - mu = mu * (d.dot d - 1) + d.dot E := by
      rw [hqE, dot_add_right, dot_add_right, dot_add_right, dot_smul_right, dot_smul_right,
        dot_smul_right, hdw, hdz]
      ring
    rw [e1]
    refine (abs_add_le _ _).trans ?_
    rw [abs_mul]
    have t1 := mul_le_mul hmu hd' (abs_nonneg _) (by norm_num)
    have t2 : len d * len E ≤ (1 + 32 * eps) * (256 * eps) :=
      mul_le_mul (by linarith) hE (len_nonneg _) (by linarith)
    have t3 : 300 * eps ≤ 1 / 2 ^ 44 := by unfold eps; norm_num
    linarith
  · have e1 : w'.dot q - s * Real.cos phi = w'.dot E := by
      rw [hqE, dot_add_right, dot_add_right, dot_add_right, dot_smul_right, dot_smul_right,
        dot_smul_right, hww, hwz, dot_comm' w' d, hdw]
      ring
    rw [e1]
    exact wE.trans (hE.trans (by unfold eps; norm_num))
  · have e1 : z'.dot q - s * Real.sin phi = z'.dot E := by
      rw [hqE, dot_add_right, dot_add_right, dot_add_right, dot_smul_right, dot_smul_right,
        dot_smul_right, hzz, dot_comm' z' w', hwz, dot_comm' z' d, hdz]
      ring
    rw [e1]
    exact zE.trans (hE.trans (by unfold eps; norm_num))

/-- After any number of scatterings the direction has unit length. -/
theorem C88_no_drift (rnd cosine sine : ℝ → ℝ) (h : Nearest rnd) (hl : Accurate cosine sine)
    {d : Direction} (hd : Flown rnd cosine sine d) : NearlyUnit d := by
  cases hd with
  | given hp => exact nearlyUnit_iff.2 (Rounded.normalize_unit h hp)
  | drawn hg hi =>
    obtain ⟨d', h1, h2, -⟩ := C88_isotropic rnd cosine sine h hl hg
    cases Except.ok.inj (hi.symm.trans h1)
    exact h2
  | scattered _ hr =>
    simp only [Rounded.rotated, bind, Except.bind] at hr
    split at hr
    · cases hr
    split at hr
    · cases hr
    split at hr
    · cases hr
    exact nearlyUnit_iff.2 (Rounded.normalize_unit h hr)

/-- A scattering gives no direction exactly when the cosine is outside [-1, 1], by however little. -/
theorem C88_not_a_number (rnd cosine sine : ℝ → ℝ) (h : Nearest rnd) (hl : Accurate cosine sine)
    {d : Direction} (hd : NearlyUnit d) {mu : ℝ} (hmu : IsDouble mu) (phi : ℝ) :
    Rounded.rotated rnd cosine sine d mu phi = .error .nan ↔ 1 < |mu| := by
  constructor
  · intro hr
    by_contra hc
    push Not at hc
    obtain ⟨u, v, -, -, -, -, -, -, hall⟩ := C88_rotate rnd cosine sine h hl hd
    obtain ⟨d', s, h1, -⟩ := hall mu phi hc
    rw [h1] at hr
    cases hr
  · intro hc
    obtain ⟨U, V, w, z, g₁, g₂, hU, hV, -⟩ := Rounded.axes_spec h (nearlyUnit_iff.1 hd)
    simp only [Rounded.rotated, bind, Except.bind, hU, hV, Rounded.sineOf_nan h hmu hc]

/-- The components of the direction (0, 3, 3). -/
theorem diagonal (rnd : ℝ → ℝ) (h : Nearest rnd) :
    Rounded.normalize rnd ⟨0, 3, 3⟩ =
      .ok ⟨0, 6369051672525773 / 2 ^ 53, 6369051672525773 / 2 ^ 53⟩ := by
  have n9 : rnd 9 = 9 := h.self (by simpa using IsDouble.nat (m := 9) (by norm_num))
  have n18 : rnd 18 = 18 := h.self (by simpa using IsDouble.nat (m := 18) (by norm_num))
  have hdot : Rounded.dot rnd ⟨0, 3, 3⟩ ⟨0, 3, 3⟩ = 18 := by
    unfold Rounded.dot
    norm_num [h.zero, n9, n18]
  have s2 : (4776788754394329 - 1 / 2) / 2 ^ 50 < Real.sqrt 18 :=
    Real.lt_sqrt_of_sq_lt (by norm_num)
  have s3 : Real.sqrt 18 < (4776788754394329 + 1 / 2) / 2 ^ 50 :=
    (Real.sqrt_lt' (by norm_num)).2 (by norm_num)
  have hr : rnd (Real.sqrt 18) = 4776788754394329 / 2 ^ 50 := by
    rw [Rounded.nearest_eq h (x := Real.sqrt 18) (n := 4776788754394329) (e := -50) (by norm_num)
      (by refine le_trans ?_ s2.le; norm_num [zpow_neg])
      (by
        rw [show (2 : ℝ) ^ (-50 : ℤ) = 1 / 2 ^ 50 by norm_num [zpow_neg], abs_lt]
        push_cast
        constructor <;> linarith)]
    norm_num [zpow_neg]
  have hq : rnd (3 / (4776788754394329 / 2 ^ 50)) = 6369051672525773 / 2 ^ 53 := by
    rw [Rounded.nearest_eq h (n := 6369051672525773) (e := -53) (by norm_num)
      (by norm_num [zpow_neg]) (by norm_num [zpow_neg, abs_lt])]
    norm_num [zpow_neg]
  unfold Rounded.normalize
  rw [hdot, if_neg (by norm_num)]
  dsimp only
  rw [hr, hq, zero_div, h.zero]

/-- A neutron flying along (0, 3, 3) that meets a moving nucleus and keeps its direction is turned
by a cosine of 1 + 2^-52: the new direction is not a number. -/
theorem C88_kept_violated (rnd cosine sine : ℝ → ℝ) (h : Nearest rnd)
    (hl : Accurate cosine sine) :
    ∃ d : Direction, Rounded.normalize rnd ⟨0, 3, 3⟩ = .ok d ∧
      Rounded.scatteringCosine rnd d ⟨0, 3, 3⟩ = .ok (1 + 1 / 2 ^ 52) ∧
      ∀ phi, Rounded.rotated rnd cosine sine d (1 + 1 / 2 ^ 52) phi = .error .nan := by
  have hd := diagonal rnd h
  refine ⟨_, hd, ?_, ?_⟩
  · have h1 : rnd (6369051672525773 / 2 ^ 53 * (6369051672525773 / 2 ^ 53)) =
        4503599627370497 / 2 ^ 53 := by
      rw [Rounded.nearest_eq h (n := 4503599627370497) (e := -53) (by norm_num)
        (by norm_num [zpow_neg]) (by norm_num [zpow_neg, abs_lt])]
      norm_num [zpow_neg]
    have h2 : rnd (4503599627370497 / 2 ^ 53) = 4503599627370497 / 2 ^ 53 :=
      h.self ⟨4503599627370497, -53, by norm_num, by norm_num [zpow_neg]⟩
    have h3 : rnd (1 + 1 / 2 ^ 52) = 1 + 1 / 2 ^ 52 :=
      h.self ⟨2 ^ 52 + 1, -52, by norm_num, by norm_num [zpow_neg]⟩
    simp only [Rounded.scatteringCosine, bind, Except.bind, hd, Rounded.dot]
    rw [h1, zero_mul, h.zero, zero_add, h2,
      show (4503599627370497 : ℝ) / 2 ^ 53 + 4503599627370497 / 2 ^ 53 = 1 + 1 / 2 ^ 52 by norm_num,
      h3]
  · intro phi
    refine (C88_not_a_number rnd cosine sine h hl (nearlyUnit_iff.2 (Rounded.normalize_unit h hd))
      ⟨2 ^ 52 + 1, -52, by norm_num, by norm_num [zpow_neg]⟩ phi).2 ?_
    rw [abs_of_pos (by positivity)]
    norm_num

/-- Without rounding these are the functions of the rest of the model. -/
theorem C88_exact (p : Point) (d : Direction) (mu phi x : ℝ) :
    Rounded.normalize id p = p.normalize ∧
    Rounded.rotated id Real.cos Real.sin d mu phi = Direction.rotated d mu phi ∧
    (|x| ≤ 1 → Rounded.isotropicOf id Real.cos Real.sin x phi =
      .ok (Direction.isotropicOf x phi)) ∧
    (∀ g, Rng.Valid g → Rounded.isotropic id Real.cos Real.sin g = .ok (Direction.isotropic g)) := by
  have hn : ∀ p, Rounded.normalize id p = p.normalize := fun p => rfl
  have hi : ∀ x phi, |x| ≤ 1 → Rounded.isotropicOf id Real.cos Real.sin x phi =
      .ok (Direction.isotropicOf x phi) := by
    intro x phi hx
    have : ¬ (1 - x * x < 0) := by
      have := mul_self_le_mul_self (abs_nonneg x) hx
      rw [abs_mul_abs_self] at this
      linarith
    simp only [Rounded.isotropicOf, Rounded.sineOf, id, bind, Except.bind, if_neg this]
    rfl
  refine ⟨hn p, ?_, hi x phi, ?_⟩
  · have ha : Rounded.auxAxis id d = Direction.auxAxis d := rfl
    have hc : ∀ a b, Rounded.cross id a b = Point.cross a b := fun _ _ => rfl
    simp only [Rounded.rotated, Direction.rotated, Direction.ofPoint, hn, ha, hc, bind,
      Except.bind, Rounded.sineOf, id]
    by_cases hm : 1 - mu * mu < 0
    · simp only [if_pos hm]
    · simp only [if_neg hm]
      rfl
  · intro g hg
    have e1 : Rounded.uniformReal id (-1) 1 g = Rng.uniformReal (-1) 1 g := by
      simp only [Rounded.uniformReal, Rng.uniformReal, id, C72_exact hg]
    have hg2 : Rng.Valid (Rng.uniformReal (-1) 1 g).2 := Rng.valid_next (Rng.valid_next hg)
    have e2 : ∀ b, Rounded.uniformReal id 0 b (Rng.uniformReal (-1) 1 g).2 =
        Rng.uniformReal 0 b (Rng.uniformReal (-1) 1 g).2 := by
      intro b
      generalize (Rng.uniformReal (-1) 1 g).2 = g' at hg2
      simp only [Rounded.uniformReal, Rng.uniformReal, id, C72_exact hg2]
    have hx : |(Rng.uniformReal (-1) 1 g).1| ≤ 1 := by
      have r0 := Rng.canonical_pos hg
      have r1 : (Rng.canonical g).1 < 1 := by
        have := (Rng.canonical_bounds hg).2
        refine lt_of_le_of_lt this ?_
        norm_num
      simp only [Rng.uniformReal]
      rw [abs_le]
      constructor <;> linarith
    simp only [Rounded.isotropic, bind, Except.bind, e1, id, e2, hi _ _ hx]
    rfl

/-- The hypotheses hold for IEEE rounding and exact cosines, a direction along an axis and the
seed 1; a particle that scatters twice, the second time straight back. -/
example : Nearest double ∧ Accurate Real.cos Real.sin ∧ NearlyUnit ⟨1, 0, 0⟩ ∧ Rng.Valid 1 ∧
    ∃ d, Flown double Real.cos Real.sin d ∧
      ∃ d', Rounded.rotated double Real.cos Real.sin d (-1) 2 = .ok d' ∧
        Flown double Real.cos Real.sin d' ∧ d ≠ d' := by
  have hacc : Accurate Real.cos Real.sin := fun x => by norm_num
  refine ⟨double_nearest, hacc, by norm_num [NearlyUnit],
    ⟨by norm_num, by norm_num [Rng.modulus]⟩, ?_⟩
  have f1 := Flown.given (cosine := Real.cos) (sine := Real.sin) (diagonal double double_nearest)
  have u1 := C88_no_drift _ _ _ double_nearest hacc f1
  obtain ⟨_, _, -, -, -, -, -, -, hall⟩ := C88_rotate _ _ _ double_nearest hacc u1
  obtain ⟨d, _, h1, -⟩ := hall (1 / 2) 1 (by norm_num [abs_le])
  have f2 := Flown.scattered f1 h1
  have u2 := C88_no_drift _ _ _ double_nearest hacc f2
  obtain ⟨_, _, -, -, -, -, -, -, hall⟩ := C88_rotate _ _ _ double_nearest hacc u2
  obtain ⟨d', _, h2, -, h3, -⟩ := hall (-1) 2 (by norm_num)
  refine ⟨d, f2, d', h2, Flown.scattered f2 h2, ?_⟩
  rintro rfl
  have := Point.dot_self_nonneg d
  have := (abs_le.1 h3).2
  norm_num at this
  linarith

end Props
end Minimc
