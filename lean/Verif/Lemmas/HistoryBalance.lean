import Verif.Spec.HistoryBalance
import Verif.Lemmas.Undefined
import Verif.Props.Driver

/-! # Lemmas: which events put particles into the bank -/

namespace Minimc

open Spec

theorem RngOnly.secondaries {p p' : Particle} (h : RngOnly p p') :
    p'.secondaries = p.secondaries := by
  obtain ⟨r, _, rfl⟩ := h; rfl

theorem Particle.scatter_secondaries {p p' : Particle} {mu : ℝ} {e : Energy}
    (h : p.scatter mu e = .ok p') : p'.secondaries = p.secondaries := by
  unfold Particle.scatter at h
  simp only [res_bind_ok, Except.ok.injEq] at h
  obtain ⟨d, _, rfl⟩ := h
  rfl

theorem ThermalScattering.scatter_secondaries {s : ThermalScattering} {p p' : Particle}
    (h : s.scatter p = .ok p') : p'.secondaries = p.secondaries := by
  unfold ThermalScattering.scatter at h
  simp only [res_bind_ok] at h
  obtain ⟨⟨_, _, p₁⟩, h1, h⟩ := h
  rw [Particle.scatter_secondaries h, (ThermalScattering.sampleOutgoing_rng h1).secondaries]

theorem FreeGas.interact_secondaries {fuel : ℕ} {awr : ℝ} {p p' : Particle}
    (h : FreeGas.interact fuel awr p = .ok p') : p'.secondaries = p.secondaries := by
  unfold FreeGas.interact at h
  simp only [res_bind_ok] at h
  obtain ⟨e, _, t, _, h⟩ := h
  split at h
  · cases h
  · simp only [res_bind_ok] at h
    obtain ⟨⟨s, mu, p₁⟩, h1, h⟩ := h
    have hr := (FreeGas.sampleTarget_rng h1).secondaries
    unfold FreeGas.collideWith at h
    simp only [res_bind_ok] at h
    obtain ⟨dT, _, v', _, d', _, h⟩ := h
    have h2 := Particle.scatter_secondaries h
    have h3 := ((RngOnly.sample p₁).trans ((RngOnly.sample _).trans (RngOnly.sample _))).secondaries
    rw [h2, ← hr]
    exact h3

/-- A collision that is not a fission puts nothing into the bank, and a fission needs a fission
reaction. -/
def Banks (i : Interaction) (p p' : Particle) : Prop :=
  (p'.event ≠ .fission → p'.secondaries = p.secondaries) ∧
    (p'.event = .fission → ListsFission i)

theorem Multigroup.interact_banks {m : Multigroup} {p p' : Particle}
    (h : m.interact p = .ok p') : Banks (.multigroup m) p p' := by
  unfold Multigroup.interact at h
  rw [noexcept_eq_ok] at h
  simp only [res_bind_ok] at h
  obtain ⟨_, _, o, ho, h⟩ := h
  rcases o with _ | ⟨r, l⟩
  · cases h
  · cases r
    · simp only [Except.ok.injEq] at h
      subst h
      exact ⟨fun _ => rfl, fun he => by cases he⟩
    · dsimp only at h
      unfold Multigroup.scatter at h
      rw [noexcept_eq_ok] at h
      simp only [res_bind_ok] at h
      obtain ⟨_, _, _, _, _, _, o, _, h⟩ := h
      rcases o with _ | g
      · cases h
      · simp only [Except.ok.injEq] at h
        subst h
        exact ⟨fun _ => rfl, fun he => by cases he⟩
    · dsimp only at h
      unfold Multigroup.fission at h
      rw [noexcept_eq_ok] at h
      simp only [res_bind_ok] at h
      obtain ⟨_, _, _, _, _, _, _, _, _, _, _, _, h⟩ := h
      obtain ⟨_, h2⟩ := Multigroup.bankLoop_keeps h
      exact ⟨fun he => absurd h2 he, fun _ => ⟨_, selectLoop_mem ho, rfl⟩⟩

theorem ContinuousReaction.interact_banks {fuel : ℕ} {r : ContinuousReaction} {p p' : Particle}
    (h : r.interact fuel p = .ok p') :
    (p'.event ≠ .fission → p'.secondaries = p.secondaries) ∧
      (p'.event = .fission → ∃ ev nubar, r = .fission ev nubar) := by
  unfold ContinuousReaction.interact at h
  rw [noexcept_eq_ok] at h
  rcases r with ev | ⟨ev, tsl, awr⟩ | ⟨ev, nubar⟩
  · simp only [Except.ok.injEq] at h
    subst h
    exact ⟨fun _ => rfl, fun he => by cases he⟩
  · dsimp only at h
    unfold ContinuousReaction.scatterInteract at h
    have key : ∀ {b : Prop}, p'.event = .scatter → p'.event = .fission → b := fun h1 h2 => by
      rw [h1] at h2; cases h2
    have hs0 : ({ p with event := .scatter } : Particle).secondaries = p.secondaries := rfl
    rcases tsl with _ | s
    · have h1 := FreeGas.interact_secondaries h
      have h2 := (FreeGas.interact_keeps h).2
      exact ⟨fun _ => h1.trans hs0, key h2⟩
    · simp only [res_bind_ok] at h
      obtain ⟨b, _, h⟩ := h
      split at h
      · have h1 := ThermalScattering.scatter_secondaries h
        have h2 := (ThermalScattering.scatter_keeps h).2
        exact ⟨fun _ => h1.trans hs0, key h2⟩
      · have h1 := FreeGas.interact_secondaries h
        have h2 := (FreeGas.interact_keeps h).2
        exact ⟨fun _ => h1.trans hs0, key h2⟩
  · dsimp only at h
    unfold ContinuousReaction.fissionInteract at h
    simp only [res_bind_ok, Except.ok.injEq] at h
    obtain ⟨_, _, _, _, _, _, _, _, rfl⟩ := h
    obtain ⟨_, h2⟩ := ContinuousReaction.bankLoop_keeps _ _
    exact ⟨fun he => absurd h2 he, fun _ => ⟨ev, nubar, rfl⟩⟩

theorem Continuous.interactLoop_banks {c : Continuous} {fuel : ℕ} : ∀ {n : ℕ} {p p' : Particle},
    c.interactLoop fuel n p = .ok p' → Banks (.continuous c) p p'
  | 0, _, _, h => by cases h
  | n + 1, p, p', h => by
    unfold Continuous.interactLoop at h
    simp only [res_bind_ok] at h
    obtain ⟨_, _, o, ho, h⟩ := h
    have hs := (RngOnly.sample p).secondaries
    rcases o with _ | r
    · obtain ⟨h1, h2⟩ := Continuous.interactLoop_banks h
      exact ⟨fun he => (h1 he).trans hs, h2⟩
    · obtain ⟨h1, h2⟩ := ContinuousReaction.interact_banks h
      refine ⟨fun he => (h1 he).trans hs, fun he => ?_⟩
      obtain ⟨ev, nubar, rfl⟩ := h2 he
      exact ⟨ev, nubar, selectLoop_mem ho⟩

theorem Nuclide.interact_banks {n : Nuclide} {fuel : ℕ} {p p' : Particle}
    (h : n.interact fuel p = .ok p') : ∃ i, n.xs p.type = some i ∧ Banks i p p' := by
  unfold Nuclide.interact at h
  rw [noexcept_eq_ok] at h
  simp only [res_bind_ok] at h
  obtain ⟨i, hi, h⟩ := h
  have hx : n.xs p.type = some i := by
    unfold Nuclide.xsAt at hi
    split at hi
    · cases hi; assumption
    · cases hi
  refine ⟨i, hx, ?_⟩
  rcases i with m | c
  · exact Multigroup.interact_banks h
  · unfold Interaction.interact Continuous.interact at h
    dsimp only at h
    rw [noexcept_eq_ok] at h
    exact Continuous.interactLoop_banks h

theorem sampleNuclide_mem {p p' : Particle} {n : Nuclide} (h : p.sampleNuclide = .ok (n, p')) :
    ∃ c m, p.cell = some c ∧ c.material = some m ∧ ∃ e ∈ m.afracs, e.1 = n := by
  unfold Particle.sampleNuclide Particle.materialOrUB at h
  rw [noexcept_eq_ok] at h
  simp only [res_bind_ok] at h
  obtain ⟨m, hm, x, _, o, ho, h⟩ := h
  rcases hc : p.cell with _ | c
  · rw [hc] at hm; cases hm
  · rw [hc] at hm
    dsimp only at hm
    rcases hm' : c.material with _ | m'
    · rw [hm'] at hm; cases hm
    · rw [hm'] at hm
      cases hm
      cases o with
      | none => cases h
      | some e =>
        simp only [Except.ok.injEq, Prod.mk.injEq] at h
        exact ⟨c, m, rfl, hm', e, selectLoop_mem ho, h.1⟩

/-- The same for a step of either transport method. -/
theorem step_banks {method : Method} {fuel : ℕ} {w : World} {p p' : Particle}
    (h : transportStep method fuel w p = .ok p') :
    (p'.event ≠ .fission → p'.secondaries = p.secondaries) ∧
      (p'.event = .fission → ∃ c m, p.cell = some c ∧ c.material = some m ∧ Fissile m) := by
  rcases step_cases h with ⟨c, d, ds, p₁, s, hc, h1, h2, hd, h3⟩ |
    ⟨c, d, ds, p₁, p₂, s, hc, h1, h2, hd, _, hr, h3⟩ |
    ⟨c, d, ds, p₁, p₂, p₃, s, hm, hc, h1, h2, hd, hr, h3, h4⟩
  · obtain ⟨_, _, _, _, _, _, _, rfl⟩ := sampleFlight_ok h1
    obtain ⟨t, rfl, f1, ⟨c', _, _, hl, hx⟩, f3, f4, f5, f6, f7, f8⟩ := crossSurface_ok h3
    refine ⟨fun _ => f7, fun he => ?_⟩
    by_cases hm : c'.material = none
    · rw [hl hm] at he; cases he
    · rw [hx hm] at he; cases he
  · obtain ⟨_, _, _, _, _, _, _, rfl⟩ := sampleFlight_ok h1
    obtain ⟨r, _, rfl⟩ := hr
    unfold Minimc.collide at h3
    simp only [res_bind_ok] at h3
    obtain ⟨q₁, g1, ⟨n, q₂⟩, g2, g3⟩ := h3
    obtain ⟨t, eff, rfl, _, rfl⟩ := Particle.stream_ok g1
    have hs := (Particle.sampleNuclide_rng g2).secondaries
    obtain ⟨c', m, hc', hm, e, he, rfl⟩ := sampleNuclide_mem g2
    obtain ⟨i, hi, b1, b2⟩ := Nuclide.interact_banks g3
    exact ⟨fun hne => (b1 hne).trans hs,
      fun hev => ⟨c', m, hc', hm, e, he, _, i, hi, b2 hev⟩⟩
  · obtain ⟨_, _, _, _, _, _, _, rfl⟩ := sampleFlight_ok h1
    obtain ⟨r, _, rfl⟩ := hr
    obtain ⟨t, eff, rfl, _, rfl⟩ := Particle.stream_ok h3
    subst h4
    exact ⟨fun _ => rfl, fun he => by cases he⟩

/-- Where a step leads is a cell of the world. -/
theorem step_cell_mem {method : Method} {w : World} {p p' : Particle} (h : Step method w p p')
    (hp : ∀ c, p.cell = some c → c ∈ w.cells) : ∀ c, p'.cell = some c → c ∈ w.cells := by
  intro c hc
  rcases h with ⟨s, hs⟩ | hs | ⟨_, hs⟩
  · obtain ⟨c', ⟨l, r, hl, _⟩, h2, _⟩ := hs.arrival
    rw [h2] at hc
    cases hc
    rw [hl]; simp
  · exact hp c (by rw [← hs.cell]; exact hc)
  · exact hp c (by rw [← hs.cell]; exact hc)

theorem life_banks {method : Method} {fuel : ℕ} {w : World} {p : Particle} {scored : List Particle}
    (h : Life (fun q q' => transportStep method fuel w q = .ok q') p scored)
    (h0 : p.secondaries = []) (hp : ∀ c, p.cell = some c → c ∈ w.cells) :
    ∀ q ∈ scored, (q.event ≠ .fission → q.secondaries = []) ∧
      (q.event = .fission → HasFissile w) := by
  induction h with
  | ended _ => simp
  | @step p p' rest h1 h2 h3 ih =>
    obtain ⟨b1, b2⟩ := step_banks h2
    have hfis : p'.event = .fission → HasFissile w := fun he => by
      obtain ⟨c, m, hc, hm, hf⟩ := b2 he
      exact ⟨c, hp c hc, m, hm, hf⟩
    intro q hq
    rcases List.mem_cons.1 hq with rfl | hq
    · exact ⟨fun he => (b1 he).trans h0, hfis⟩
    · cases h3 with
      | ended _ => cases hq
      | step h4 h5 h6 =>
        have hne : p'.event ≠ .fission := fun he => h4 (.inr (.inl he))
        exact ih ((b1 hne).trans h0) (step_cell_mem (step_spec h2) hp) q hq

/-- The life of a particle that has just been born: all states but the last are ones from which
it goes on, and only in a fission is anything in its bank. -/
theorem transport_banks {method : Method} {fuel : ℕ} {w : World} {p last : Particle}
    {scored : List Particle} (h : transport method fuel w p = .ok (last, scored))
    (h0 : p.secondaries = []) (hb : p.event = .birth) :
    (∃ before, scored = before ++ [last] ∧ ∀ q ∈ before, ¬ Ended q) ∧ Ended last ∧
      ∀ q ∈ scored, (q.event ≠ .fission → q.secondaries = []) ∧
        (q.event = .fission → HasFissile w) := by
  obtain ⟨hl, hx⟩ := Props.C29_ends_exactly h
  refine ⟨?_, hl, ?_⟩
  · rcases hx with ⟨_, he⟩ | ⟨before, h1, _, h2⟩
    · rcases he with he | he | he <;> rw [hb] at he <;> cases he
    · exact ⟨before, h1, h2⟩
  · obtain ⟨c, ⟨l, r, hc, _⟩, hlife, _⟩ := Props.transport_ok h
    refine life_banks hlife h0 (fun c' hc' => ?_)
    cases hc'
    rw [hc]; simp

theorem countEvent_append (ev : Event) (a b : List Particle) :
    countEvent ev (a ++ b) = countEvent ev a + countEvent ev b := by
  unfold countEvent; simp

theorem bornInFission_append (a b : List Particle) :
    bornInFission (a ++ b) = bornInFission a + bornInFission b := by
  unfold bornInFission; simp

theorem countEvent_zero {ev : Event} {a : List Particle} (h : ∀ q ∈ a, q.event ≠ ev) :
    countEvent ev a = 0 := by
  unfold countEvent
  rw [List.length_eq_zero_iff, List.filter_eq_nil_iff]
  intro q hq
  simpa using h q hq

theorem bornInFission_zero {a : List Particle} (h : ∀ q ∈ a, q.event ≠ .fission) :
    bornInFission a = 0 := by
  unfold bornInFission
  rw [List.filter_eq_nil_iff.2 (fun q hq => by simpa using h q hq)]
  rfl

theorem countEvent_perm {ev : Event} {a b : List Particle} (h : a.Perm b) :
    countEvent ev a = countEvent ev b :=
  (h.filter _).length_eq

theorem bornInFission_perm {a b : List Particle} (h : a.Perm b) :
    bornInFission a = bornInFission b :=
  ((h.filter _).map _).sum_eq

/-- How many of the states end a life. -/
def ends (states : List Particle) : ℕ :=
  countEvent .capture states + countEvent .leak states + countEvent .fission states

theorem ends_append (a b : List Particle) : ends (a ++ b) = ends a + ends b := by
  unfold ends
  simp only [countEvent_append]
  omega

theorem ends_single {q : Particle} (h : Ended q) : ends [q] = 1 := by
  unfold ends countEvent
  rcases h with h | h | h <;> simp [h]

theorem ends_zero {a : List Particle} (h : ∀ q ∈ a, ¬ Ended q) : ends a = 0 := by
  unfold ends
  rw [countEvent_zero (fun q hq he => h q hq (.inl he)),
    countEvent_zero (fun q hq he => h q hq (.inr (.inr he))),
    countEvent_zero (fun q hq he => h q hq (.inr (.inl he)))]

theorem forest_balance {P : Problem} {bank : List Particle} {l : List (Particle × List Particle)}
    (h : Forest (Props.TransportEnds P) (fun p => p.setPerturbations P.perturbations) bank l)
    (hb : ∀ p ∈ bank, p.secondaries = [] ∧ p.event = .birth) :
    ends (l.flatMap Prod.snd) = bank.length + bornInFission (l.flatMap Prod.snd) ∧
      ∀ q ∈ l.flatMap Prod.snd, (q.event ≠ .fission → q.secondaries = []) ∧
        (q.event = .fission → HasFissile P.world) := by
  induction h with
  | nil => exact ⟨rfl, by simp⟩
  | @cons p last scored siblings below beside hr h1 h2 ih1 ih2 =>
    obtain ⟨fuel, hr⟩ := hr
    obtain ⟨⟨before, hs, hn⟩, hl, hq⟩ := transport_banks hr (hb p (by simp)).1 (hb p (by simp)).2
    obtain ⟨a1, a2⟩ := ih1 (by
      intro q hq
      obtain ⟨b, _, rfl⟩ := List.mem_map.1 hq
      exact ⟨rfl, rfl⟩)
    obtain ⟨b1, b2⟩ := ih2 (fun q hq => hb q (by simp [hq]))
    have hlast : bornInFission [last] = last.secondaries.length := by
      unfold bornInFission
      by_cases he : last.event = .fission
      · simp [he]
      · have := (hq last (by rw [hs]; simp)).1 he
        simp [he, this]
    have hbef : bornInFission before = 0 :=
      bornInFission_zero (fun q hq he => hn q hq (.inr (.inl he)))
    simp only [List.flatMap_cons, List.flatMap_append, ends_append, bornInFission_append]
    refine ⟨?_, ?_⟩
    · rw [a1, b1, hs, ends_append, bornInFission_append, ends_zero hn, ends_single hl, hlast, hbef]
      simp only [List.length_map, List.length_cons]
      omega
    · intro q hq'
      rcases List.mem_append.1 hq' with h | h
      · exact hq q h
      · rcases List.mem_append.1 h with h | h
        · exact a2 q h
        · exact b2 q h

end Minimc
