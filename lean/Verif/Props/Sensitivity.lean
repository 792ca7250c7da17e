import Verif.Lemmas.Likelihood
import Verif.Lemmas.Absorber
import Verif.Lemmas.PtrMap
import Verif.Props.Driver
import Verif.Props.Transport

/-! # Property C50: effects of perturbations -/

namespace Minimc.Props

open Classical Spec

/-- The particle is in material `m`, in which the perturbed nuclide has the fraction `f` and the
cross section `x`; the other nuclides contribute `rest` to the cross section of the material. -/
structure InMixture (p : Particle) (q : Perturbation) (m : Material) (f x rest : ℝ) : Prop where
  cell : ∃ c, p.cell = some c ∧ c.material = some m
  entries : ∃ (l r : List (Nuclide × ℝ)) (n : Nuclide) (σ : Nuclide → ℝ),
    m.afracs = l ++ (n, f) :: r ∧ n.id = q.nuclideId ∧
    (∀ e ∈ m.afracs, e.1.getTotal p = .ok (σ e.1)) ∧ σ n = x ∧
    ((l ++ r).map (fun e => e.2 * σ e.1)).sum = rest
  density : 0 < m.numberDensity
  positive : 0 < rest + f * x

theorem mixture_stream {p : Particle} {q : Perturbation} {m : Material} {f x rest : ℝ}
    (h : InMixture p q m f x rest) (d : ℝ) :
    q.stream .surfaceTracking p d = .ok (1 / (rest + f * x) - d) := by
  obtain ⟨c, hc, hm⟩ := h.cell
  obtain ⟨l, r, n, σ, ha, hid, hσ, hx, hrest⟩ := h.entries
  have htot := (C23_weighted_mean m p σ).1 hσ
  have hsum : (m.afracs.map (fun e => e.2 * σ e.1)).sum = rest + f * x := by
    rw [ha, ← hrest, ← hx]
    simp only [List.map_append, List.map_cons, List.sum_append, List.sum_cons]
    ring
  rw [hsum] at htot
  have hdens : collisionDensity .surfaceTracking p = .ok (rest + f * x) := by
    unfold collisionDensity
    rw [Particle.getCell_ok.2 hc]
    simp only [bind, Except.bind, hm]
    rw [htot]
    rfl
  have hany : m.afracs.any (fun e => e.1.id == q.nuclideId) = true := by
    rw [ha]
    simp [hid]
  unfold Perturbation.stream
  rw [Particle.getCell_ok.2 hc]
  simp only [bind, Except.bind, hm]
  rw [if_pos hany, hdens]
  simp only
  rw [if_neg h.positive.ne']
  rfl

/-- **C50** A flight through a material without the perturbed nuclide adds nothing. -/
theorem C50_other_material {p : Particle} {c : Cell} {m : Material} (q : Perturbation)
    (hc : p.cell = some c) (hm : c.material = some m)
    (hq : ∀ e ∈ m.afracs, e.1.id ≠ q.nuclideId) (method : Method) (d : ℝ) :
    q.stream method p d = .ok 0 := by
  unfold Perturbation.stream
  rw [Particle.getCell_ok.2 hc]
  simp only [bind, Except.bind, hm]
  rw [if_neg]
  · rfl
  · simpa using hq

/-- **C50** For a flight ending in a collision, what the code adds is the derivative of the
logarithm of the density exactly when fraction, number density and distance satisfy an
equation. -/
theorem C50_collision_iff {p : Particle} {q : Perturbation} {m : Material} {f x rest : ℝ}
    (h : InMixture p q m f x rest) (d : ℝ) :
    ∃ v, q.stream .surfaceTracking p d = .ok v ∧
      (HasDerivAt (fun y => Real.log (collisionPdf m.numberDensity (rest + f * y) d)) v x ↔
        (1 - f) / (rest + f * x) = (1 - m.numberDensity * f) * d) := by
  refine ⟨_, mixture_stream h d, ?_⟩
  have hd := hasDerivAt_log_pdf (d := d) h.density h.positive
  have hS := h.positive.ne'
  constructor
  · intro h'
    have := h'.unique hd
    rw [sub_div]
    linarith
  · intro h'
    rw [sub_div] at h'
    have : 1 / (rest + f * x) - d = f / (rest + f * x) - m.numberDensity * f * d := by linarith
    rw [this]
    exact hd

/-- **C50** In a material of only the perturbed nuclide and unit number density, what the code adds
for a flight ending in a collision is the derivative.  Missing from C50: other number densities and
mixtures, and flights that end at a surface, for all of which the code is wrong (below). -/
theorem C50_collision_partial {p : Particle} {q : Perturbation} {m : Material} {x : ℝ}
    (h : InMixture p q m 1 x 0) (hN : m.numberDensity = 1) (d : ℝ) :
    ∃ v, q.stream .surfaceTracking p d = .ok v ∧
      HasDerivAt (fun y => Real.log (collisionPdf m.numberDensity y d)) v x := by
  obtain ⟨v, hv, hiff⟩ := C50_collision_iff h d
  refine ⟨v, hv, ?_⟩
  have := hiff.2 (by rw [hN]; ring)
  simpa only [zero_add, one_mul] using this

/-- The code violates C50 in every material with another number density, for every flight of
positive length. -/
theorem C50_density_violated {p : Particle} {q : Perturbation} {m : Material} {x : ℝ}
    (h : InMixture p q m 1 x 0) (hN : m.numberDensity ≠ 1) {d : ℝ} (hd : 0 < d) :
    ∃ v, q.stream .surfaceTracking p d = .ok v ∧
      ¬ HasDerivAt (fun y => Real.log (collisionPdf m.numberDensity y d)) v x := by
  obtain ⟨v, hv, hiff⟩ := C50_collision_iff h d
  refine ⟨v, hv, ?_⟩
  simp only [zero_add, one_mul] at hiff
  rw [hiff, sub_self, zero_div, mul_one, eq_comm]
  exact mul_ne_zero (sub_ne_zero.2 (Ne.symm hN)) hd.ne'

/-- The code violates C50 for flights that end at a surface: even in a material of only the
perturbed nuclide with unit number density it adds the reciprocal of the cross section, which
belongs to collisions. -/
theorem C50_crossing_violated {p : Particle} {q : Perturbation} {m : Material} {x : ℝ}
    (h : InMixture p q m 1 x 0) (hN : m.numberDensity = 1) (d : ℝ) :
    ∃ v, q.stream .surfaceTracking p d = .ok v ∧
      HasDerivAt (fun y => Real.log (flightSurvival m.numberDensity y d)) (v - 1 / x) x ∧
      ¬ HasDerivAt (fun y => Real.log (flightSurvival m.numberDensity y d)) v x := by
  have hv := mixture_stream h d
  have hd := hasDerivAt_log_survival m.numberDensity 1 0 x d
  have hpos := h.positive
  simp only [zero_add, one_mul] at hv hd hpos
  rw [hN] at hd ⊢
  simp only [mul_one, one_mul] at hd
  refine ⟨_, hv, ?_, ?_⟩
  · have : 1 / x - d - 1 / x = -d := by ring
    rw [this]
    exact hd
  · intro h'
    have h1 := h'.unique hd
    have : 1 / x = 0 := by linarith
    exact (one_div_pos.2 hpos).ne' this

/-- **C50** In every step, each perturbation's effect grows by what that perturbation gives for the
distance flown in the step, which starts at the old position with another generator state;
collisions add nothing more.  At a surface the distance includes the nudge. -/
theorem C50_accumulates {method : Method} {fuel : ℕ} {w : World} {p p' : Particle}
    (h : transportStep method fuel w p = .ok p') : ∃ (t : ℝ) (g : ℕ),
      p'.position = along p.position p.direction t ∧
      List.Forall₂ (fun a b => ∃ v, a.1.stream method { p with rng := g } t = .ok v ∧
        b = (a.1, a.2 + v)) p.indirectEffects p'.indirectEffects := by
  rcases step_cases h with ⟨c, d, ds, p₁, s, hc, h1, h2, hd, h3⟩ |
    ⟨c, d, ds, p₁, p₂, s, hc, h1, h2, hd, _, hr, h3⟩ |
    ⟨c, d, ds, p₁, p₂, p₃, s, hm, hc, h1, h2, hd, hr, h3, h4⟩
  · obtain ⟨_, m, σ, _, _, _, _, rfl⟩ := sampleFlight_ok h1
    unfold crossSurface at h3
    simp only [res_bind_ok] at h3
    obtain ⟨q₁, g1, q₂, g2, c', g3, g4⟩ := h3
    obtain ⟨t, eff, ht, he, rfl⟩ := Particle.stream_ok g1
    obtain ⟨c₂, _, rfl⟩ := locate_ok.1 g2
    simp only [Except.ok.injEq] at g4
    refine ⟨t, (Rng.exponential (m.numberDensity * σ) p.rng).2, by rw [← g4], ?_⟩
    have := streamEffects_ok he
    rw [← g4]
    exact this
  · obtain ⟨_, _, _, _, _, _, _, rfl⟩ := sampleFlight_ok h1
    obtain ⟨r, _, rfl⟩ := hr
    unfold Minimc.collide at h3
    simp only [res_bind_ok] at h3
    obtain ⟨q₁, g1, ⟨n, q₂⟩, g2, g3⟩ := h3
    obtain ⟨t, eff, ht, he, rfl⟩ := Particle.stream_ok g1
    have hk := (Particle.sampleNuclide_rng g2).keeps.trans (Nuclide.interact_keeps g3).1
    refine ⟨t, r, hk.position, ?_⟩
    rw [hk.effects]
    exact streamEffects_ok he
  · obtain ⟨_, _, _, _, _, _, _, rfl⟩ := sampleFlight_ok h1
    obtain ⟨r, _, rfl⟩ := hr
    obtain ⟨t, eff, ht, he, rfl⟩ := Particle.stream_ok h3
    subst h4
    exact ⟨t, r, rfl, streamEffects_ok he⟩

theorem effects_mem {qs : List Perturbation} : ∀ (m : List (Perturbation × ℝ)),
    (∀ e ∈ m, e.2 = 0) → ∀ e ∈ qs.foldl (fun m q => emplaceByAddr Perturbation.id q 0 m) m,
      e.2 = 0 := by
  induction qs with
  | nil => intro m hm; exact hm
  | cons q qs ih =>
    intro m hm
    refine ih _ ?_
    intro e he
    rcases (emplaceByAddr_mem Perturbation.id q 0 m e).1 he with h | ⟨rfl, _⟩ | ⟨rfl, _⟩
    · exact hm e h
    · rfl
    · rfl

theorem effects_ids {qs : List Perturbation} : ∀ (m : List (Perturbation × ℝ)) (i : ℕ),
    i ∈ (qs.foldl (fun m q => emplaceByAddr Perturbation.id q 0 m) m).map (fun e => e.1.id) ↔
      i ∈ qs.map Perturbation.id ∨ i ∈ m.map (fun e => e.1.id) := by
  induction qs with
  | nil => intro m i; simp
  | cons q qs ih =>
    intro m i
    rw [List.foldl_cons, ih, emplaceByAddr_ids]
    simp only [List.map_cons, List.mem_cons]
    tauto

/-- **C50** Every transported particle begins with the effect zero for every perturbation. -/
theorem C50_starts_at_zero (p : Particle) {qs : List Perturbation} {q : Perturbation}
    (hq : q ∈ qs) : (p.setPerturbations qs).getIndirectEffect q = .ok 0 := by
  have hid : q.id ∈ (getIndirectEffects qs).map (fun e => e.1.id) :=
    (effects_ids [] q.id).2 (Or.inl (List.mem_map.2 ⟨q, hq, rfl⟩))
  unfold Particle.getIndirectEffect Particle.setPerturbations
  simp only
  rcases hf : (getIndirectEffects qs).find? (fun e => e.1.id == q.id) with _ | e
  · exfalso
    obtain ⟨e, he, hid'⟩ := List.mem_map.1 hid
    have := List.find?_eq_none.1 hf e he
    simp [hid'] at this
  · have h0 := effects_mem (qs := qs) [] (by simp) e (List.mem_of_find?_eq_some hf)
    rw [hf]
    simp only [h0]
    rfl

/-- **C50** In a history every particle begins at zero, whatever its parent had accumulated.  (The
probability of the history includes the flights of the parent, so that the effects of secondaries
are derivatives for their own flights only.) -/
theorem C50_restarts {run : Particle → Res (Particle × List Particle)}
    {qs : List Perturbation} {n : ℕ} {bank : Bank} {log : List (Particle × List Particle)}
    (h : processBank run qs n bank = .ok log) {q : Perturbation} (hq : q ∈ qs) :
    ∀ e ∈ log, e.1.getIndirectEffect q = .ok 0 := by
  induction n generalizing bank log with
  | zero =>
    rcases bank.eq_nil_or_concat' with rfl | ⟨b, p, rfl⟩
    · rw [processBank_nil] at h
      cases h
      simp
    · rw [processBank_zero] at h
      cases h
  | succ n ih =>
    rcases bank.eq_nil_or_concat' with rfl | ⟨b, p, rfl⟩
    · rw [processBank_nil] at h
      cases h
      simp
    · rw [processBank_concat] at h
      simp only [res_bind_ok] at h
      obtain ⟨⟨last, scored⟩, _, rest, hrest, h⟩ := h
      simp only [Except.ok.injEq] at h
      rw [← h]
      intro e he
      rcases List.mem_cons.1 he with rfl | he
      · exact C50_starts_at_zero p hq
      · exact ih hrest e he

/-- A perturbation of the absorber of the instances. -/
def absorberPerturbation : Perturbation := ⟨3, "q", 7⟩

/-- A neutron in the absorber with the given number density. -/
noncomputable def inAbsorber (N : ℝ) : Particle :=
  { groupOne ⟨0, 0, 0⟩ ⟨1, 0, 0⟩ 1 with
    cell := some ⟨"c", [], some ⟨"m", [(absorber 7 "a" 2, 1)], N⟩, .constant 300⟩ }

theorem inAbsorber_mixture {N : ℝ} (hN : 0 < N) :
    InMixture (inAbsorber N) absorberPerturbation ⟨"m", [(absorber 7 "a" 2, 1)], N⟩ 1 2 0 where
  cell := ⟨_, rfl, rfl⟩
  entries := ⟨[], [], absorber 7 "a" 2, fun _ => 2, rfl, rfl, by
    intro e he
    rw [List.mem_singleton.1 he]
    exact absorber_total _ _ _ rfl, rfl, by simp⟩
  density := hN
  positive := by norm_num

/-- Instance of `C50_collision_partial`: a flight of length 3. -/
example : HasDerivAt (fun y => Real.log (collisionPdf 1 y 3)) (1 / 2 - 3) 2 := by
  obtain ⟨v, hv, h⟩ := C50_collision_partial (inAbsorber_mixture one_pos) rfl 3
  rw [mixture_stream (inAbsorber_mixture one_pos)] at hv
  simp only [Except.ok.injEq, zero_add, one_mul] at hv
  rwa [← hv] at h

/-- Instance of `C50_density_violated` and `C50_crossing_violated`. -/
example : (∃ v, absorberPerturbation.stream .surfaceTracking (inAbsorber 4) 3 = .ok v ∧
      ¬ HasDerivAt (fun y => Real.log (collisionPdf 4 y 3)) v 2) ∧
    ∃ v, absorberPerturbation.stream .surfaceTracking (inAbsorber 1) 3 = .ok v ∧
      ¬ HasDerivAt (fun y => Real.log (flightSurvival 1 y 3)) v 2 := by
  refine ⟨C50_density_violated (inAbsorber_mixture (by norm_num)) (by norm_num) (by norm_num), ?_⟩
  obtain ⟨v, h1, _, h3⟩ := C50_crossing_violated (inAbsorber_mixture one_pos) rfl 3
  exact ⟨v, h1, h3⟩

/-- Instance of `C50_collision_iff`: in a half-and-half mixture with number density 1/2 the code is
right for flights of one length only. -/
example : ∃ v, absorberPerturbation.stream .surfaceTracking
      { inAbsorber 1 with cell := some ⟨"c", [], some ⟨"m", [(absorber 7 "a" 2, 1 / 2),
        (absorber 8 "b" 4, 1 / 2)], 1 / 2⟩, .constant 300⟩ } 5 = .ok v ∧
    (HasDerivAt (fun y => Real.log (collisionPdf (1 / 2) (2 + 1 / 2 * y) 5)) v 2 ↔
      (1 - 1 / 2) / (2 + 1 / 2 * 2) = (1 - 1 / 2 * (1 / 2)) * (5 : ℝ)) := by
  refine C50_collision_iff (m := ⟨"m", [(absorber 7 "a" 2, 1 / 2), (absorber 8 "b" 4, 1 / 2)],
    1 / 2⟩) ⟨⟨_, rfl, rfl⟩, ?_, by norm_num, by norm_num⟩ 5
  refine ⟨[], [(absorber 8 "b" 4, 1 / 2)], absorber 7 "a" 2,
    fun n => if n.id = 7 then 2 else 4, rfl, rfl, ?_, rfl, by norm_num [absorber]⟩
  intro e he
  simp only [List.mem_cons, List.not_mem_nil, or_false] at he
  rcases he with rfl | rfl
  · exact absorber_total _ _ _ rfl
  · exact absorber_total _ _ _ rfl

/-- Instance of `C50_accumulates`: whatever step the neutron takes, the effect grows by the value
for the distance flown. -/
example {fuel : ℕ} {w : World} {x : ℝ} {p' : Particle}
    (h : transportStep .surfaceTracking fuel w
      { inAbsorber 1 with indirectEffects := [(absorberPerturbation, x)] } = .ok p') :
    ∃ t, p'.position = ⟨t, 0, 0⟩ ∧
      p'.indirectEffects = [(absorberPerturbation, x + (1 / 2 - t))] := by
  obtain ⟨t, g, hp, he⟩ := C50_accumulates h
  refine ⟨t, ?_, ?_⟩
  · rw [hp]
    simp [along, inAbsorber, groupOne]
  · obtain ⟨b, _, ⟨v, hv, rfl⟩, hnil, hb⟩ := List.forall₂_cons_left_iff.1 he
    rw [hb, List.forall₂_nil_left_iff.1 hnil]
    have hm : InMixture { inAbsorber 1 with
        indirectEffects := [(absorberPerturbation, x)], rng := g } absorberPerturbation
        ⟨"m", [(absorber 7 "a" 2, 1)], 1⟩ 1 2 0 :=
      ⟨⟨_, rfl, rfl⟩, ⟨[], [], absorber 7 "a" 2, fun _ => 2, rfl, rfl, by
        intro e he
        rw [List.mem_singleton.1 he]
        exact absorber_total _ _ _ rfl, rfl, by simp⟩, one_pos, by norm_num⟩
    have := mixture_stream hm t
    simp only [zero_add, one_mul] at this
    have hv' := hv.symm.trans this
    simp only [Except.ok.injEq] at hv'
    rw [hv']

/-- Instance of `C50_starts_at_zero`. -/
example : ((inAbsorber 1).setPerturbations [⟨9, "r", 8⟩, absorberPerturbation]).getIndirectEffect
    absorberPerturbation = .ok 0 :=
  C50_starts_at_zero _ (by simp)

/-- Instance of `C50_restarts`: one particle, which accumulates an effect of seven while it is
transported. -/
example : ∃ log, processBank (fun p => .ok ({ p with
        indirectEffects := [(absorberPerturbation, 7)] }, [])) [absorberPerturbation] 1
      [inAbsorber 1] = .ok log ∧ log.length = 1 ∧
    ∀ e ∈ log, e.1.getIndirectEffect absorberPerturbation = .ok 0 := by
  have h : processBank (fun p => .ok ({ p with
        indirectEffects := [(absorberPerturbation, 7)] }, [])) [absorberPerturbation] 1
      ([] ++ [inAbsorber 1]) =
      .ok [((inAbsorber 1).setPerturbations [absorberPerturbation], [])] := by
    rw [processBank_concat]
    rfl
  exact ⟨_, h, rfl, C50_restarts h (by simp)⟩

/-- Instance of `C50_other_material`. -/
example : (⟨3, "q", 8⟩ : Perturbation).stream .cellDeltaTracking (inAbsorber 1) 3 = .ok 0 :=
  C50_other_material _ rfl rfl (by simp [absorber]) _ _

end Minimc.Props
