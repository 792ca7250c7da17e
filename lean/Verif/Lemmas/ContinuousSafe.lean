import Verif.Lemmas.FreeGasSafe
import Verif.Props.Reactions
import Verif.Props.Safety
import Verif.Props.ThermalLaw
import Verif.Spec.ThermalRun

/-! # Interactions with sound continuous-energy data -/

namespace Minimc.Props

open Classical Spec

theorem soundReaction_thermal {r : ContinuousReaction} (h : SoundReaction r) :
    SoundThermalReaction r :=
  ⟨h.table, h.temperature, fun ev tsl awr hr => ⟨(h.scatter ev tsl awr hr).2, fun s hs => by
    rw [(h.scatter ev tsl awr hr).1] at hs; cases hs⟩, h.fission⟩

theorem mix_pos {w a b : ℝ} (h0 : 0 ≤ w) (h1 : w ≤ 1) (ha : 0 < a) (hb : 0 < b) : 0 < mix w a b := by
  unfold mix
  rcases h0.eq_or_lt with rfl | h
  · simpa using ha
  · have := mul_nonneg (sub_nonneg.2 h1) ha.le
    have := mul_pos h hb
    linarith

theorem weight_unit {lo hi x : ℝ} (h1 : lo ≤ x) (h2 : x < hi) :
    0 ≤ weight lo hi x ∧ weight lo hi x ≤ 1 := by
  unfold weight
  exact ⟨div_nonneg (by linarith) (by linarith), (div_le_one (by linarith)).2 (by linarith)⟩

/-- Thermal data has a positive total below its largest energy, at every temperature. -/
theorem scatterer_total {s : ThermalScattering} (h : SoundScatterer s) {e t : ℝ}
    (he : e < s.cutoffEnergy) : ∃ v, s.totalAt e t = .ok v ∧ 0 < v := by
  obtain ⟨es, ts, X, hX, hlast, hpos⟩ := h.total
  have hes := hX.1
  have hts := hX.2.1
  have hne : ts.length ≠ 0 := fun h => hX.2.2.1 (List.length_eq_zero_iff.1 h)
  have hul : upperIdx es e < es.length := by
    refine lt_of_le_of_ne (upperIdx_le_length _ _) fun hcon => ?_
    rw [List.getLast?_eq_getElem?] at hlast
    have hl := lt_of_getElem? hlast
    exact absurd (upperIdx_before hes (by omega) hlast) (not_le.2 he)
  have htl := upperIdx_le_length ts t
  have hhi : tempHi ts t < ts.length := by unfold tempHi; split_ifs <;> omega
  have hlo : tempLo ts t < ts.length := by unfold tempLo; split_ifs <;> omega
  set iLo := if upperIdx es e = 0 then upperIdx es e else upperIdx es e - 1 with hiLo
  have hil : iLo < es.length := by rw [hiLo]; split_ifs <;> omega
  refine ⟨_, ThermalScattering.totalAt_eq hX hul (List.getElem?_eq_getElem hil)
    (List.getElem?_eq_getElem hul) (List.getElem?_eq_getElem hlo) (List.getElem?_eq_getElem hhi), ?_⟩
  have hE : 0 ≤ (if upperIdx es e = 0 then 1 else weight es[iLo] es[upperIdx es e] e) ∧
      (if upperIdx es e = 0 then 1 else weight es[iLo] es[upperIdx es e] e) ≤ 1 := by
    split_ifs with h0
    · norm_num
    · refine weight_unit (upperIdx_before hes ?_ (List.getElem?_eq_getElem hil))
        (upperIdx_after (List.getElem?_eq_getElem hul))
      rw [hiLo, if_neg h0]
      omega
  have hT : 0 ≤ (if tempHi ts t = 0 then 1 else if upperIdx ts t = ts.length then 0
        else weight ts[tempLo ts t] ts[tempHi ts t] t) ∧
      (if tempHi ts t = 0 then 1 else if upperIdx ts t = ts.length then 0
        else weight ts[tempLo ts t] ts[tempHi ts t] t) ≤ 1 := by
    split_ifs with h0 h1
    · norm_num
    · norm_num
    · have e1 : tempHi ts t = upperIdx ts t := by unfold tempHi; rw [if_neg h1]
      refine weight_unit (upperIdx_before hts ?_ (List.getElem?_eq_getElem hlo))
        (upperIdx_after (l := ts) ?_)
      · unfold tempLo
        rw [if_neg h0, e1]
        omega
      · rw [← e1]
        exact List.getElem?_eq_getElem hhi
  exact mix_pos hT.1 hT.2 (mix_pos hE.1 hE.2 (hpos _ _ hil hlo) (hpos _ _ hul hlo))
    (mix_pos hE.1 hE.2 (hpos _ _ hil hhi) (hpos _ _ hul hhi))

/-- Cross section and majorant of a reaction are not below its table, or are those of thermal data
and positive. -/
theorem sound_reaction {p : Particle} {e t T v : ℝ} (hn : p.type = .neutron)
    (he : p.energy = .continuous e) (he0 : 0 < e)
    (ht : p.temperatureAt = .ok t) (hT : p.temperatureUpper = .ok T) (ht0 : 0 ≤ t) (hT0 : 0 ≤ T)
    {r : ContinuousReaction} (h : SoundThermalReaction r) (hv : r.evaluation.xs.at' e = .ok v)
    (hv0 : 0 ≤ v) :
    ∃ a b m, r.getCrossSection p = .ok a ∧ r.getMajorant p = .ok b ∧ r.modifiesTotal p = .ok m ∧
      0 ≤ a ∧ 0 ≤ b ∧ (m = false → v ≤ a ∧ v ≤ b) ∧ (m = true → 0 < a ∧ 0 < b) := by
  cases r with
  | capture ev =>
    refine ⟨v, v, false, ?_, ?_, rfl, hv0, hv0, fun _ => ⟨le_refl _, le_refl _⟩, by simp⟩ <;>
    · unfold ContinuousReaction.evaluation at hv
      first
      | unfold ContinuousReaction.getCrossSection
      | unfold ContinuousReaction.getMajorant
      unfold ContinuousReaction.tabulated
      rw [he]
      simp only [Energy.getContinuous, bind, Except.bind, hv, noexcept_ok]
  | fission ev nu =>
    refine ⟨v, v, false, ?_, ?_, rfl, hv0, hv0, fun _ => ⟨le_refl _, le_refl _⟩, by simp⟩ <;>
    · unfold ContinuousReaction.evaluation at hv
      first
      | unfold ContinuousReaction.getCrossSection
      | unfold ContinuousReaction.getMajorant
      unfold ContinuousReaction.tabulated
      rw [he]
      simp only [Energy.getContinuous, bind, Except.bind, hv, noexcept_ok]
  | scatter ev tsl awr =>
    obtain ⟨ha, hs⟩ := h.scatter ev tsl awr rfl
    have hev : 0 ≤ ev.temperature := h.temperature
    have e1 := scatterXSAt_eq he he0 ha ht0 hev hv
    have e2 := scatterXSAt_eq he he0 ha hT0 hev hv
    have l1 := table_le_scatterValue (p := p) he0 ha ht0 hev hv0
    have l2 := table_le_scatterValue (p := p) he0 ha hT0 hev hv0
    have hgas : ∀ m, m = false → ContinuousReaction.thermal tsl p = .ok m →
        ∃ a b m, ContinuousReaction.getCrossSection (.scatter ev tsl awr) p = .ok a ∧
          ContinuousReaction.getMajorant (.scatter ev tsl awr) p = .ok b ∧
          ContinuousReaction.modifiesTotal (.scatter ev tsl awr) p = .ok m ∧
          0 ≤ a ∧ 0 ≤ b ∧ (m = false → v ≤ a ∧ v ≤ b) ∧ (m = true → 0 < a ∧ 0 < b) := by
      rintro m rfl hm
      refine ⟨_, _, false, ?_, ?_, hm, hv0.trans l1, hv0.trans l2, fun _ => ⟨l1, l2⟩, by simp⟩
      · unfold ContinuousReaction.getCrossSection
        cases tsl with
        | none => simp only [ht, bind, Except.bind, e1, noexcept_ok]
        | some s =>
          have hm' : s.isValid p = .ok false := hm
          simp [ht, bind, Except.bind, e1, noexcept_ok, hm']
      · unfold ContinuousReaction.getMajorant
        cases tsl with
        | none => simp only [hT, bind, Except.bind, e2, noexcept_ok]
        | some s =>
          have hm' : s.isValid p = .ok false := hm
          simp [hT, bind, Except.bind, e2, noexcept_ok, hm']
    cases tsl with
    | none => exact hgas false rfl rfl
    | some s =>
      have hval : s.isValid p = .ok (decide (e < s.cutoffEnergy)) := by
        unfold ThermalScattering.isValid
        rw [he]
        simp [Energy.getContinuous, bind, Except.bind, hn, noexcept_ok]
      by_cases hc : e < s.cutoffEnergy
      · have hval' : s.isValid p = .ok true := by rw [hval]; simp [hc]
        obtain ⟨a, ha1, ha2⟩ := scatterer_total (hs s rfl) (t := t) hc
        obtain ⟨b, hb1, hb2⟩ := (hs s rfl).majorant e he0
        refine ⟨a, b, true, ?_, ?_, hval', ha2.le, hb2.le, by simp, fun _ => ⟨ha2, hb2⟩⟩
        · unfold ContinuousReaction.getCrossSection ThermalScattering.getTotal
          rw [he, ht]
          simp [bind, Except.bind, hval', ha1, Energy.getContinuous, noexcept_ok]
        · unfold ContinuousReaction.getMajorant ThermalScattering.getMajorant
          rw [he]
          simp [bind, Except.bind, hval', hb1, Energy.getContinuous, noexcept_ok]
      · exact hgas false rfl (by
          show s.isValid p = _
          rw [hval]; simp [hc])

/-- Total and majorant are positive where the table of the total is, and the total is not above the
sum of the cross sections. -/
theorem sound_total {p : Particle} {e t T : ℝ} (hn : p.type = .neutron)
    (he : p.energy = .continuous e) (he0 : 0 < e)
    (ht : p.temperatureAt = .ok t) (hT : p.temperatureUpper = .ok T) (ht0 : 0 ≤ t) (hT0 : 0 ≤ T)
    {d : Continuous} (h : SoundThermalData d) :
    ∃ (a : ContinuousReaction → ℝ) (S M σ : ℝ),
      (∀ r ∈ d.reactions, r.getCrossSection p = .ok (a r) ∧ 0 ≤ a r) ∧
      d.getTotal p = .ok S ∧ d.getMajorant p = .ok M ∧ d.total.xs.at' e = .ok σ ∧
      0 ≤ S ∧ 0 ≤ M ∧ (0 < σ → 0 < S ∧ 0 < M) ∧ S ≤ (d.reactions.map a).sum := by
  have hr : ∀ r, ∃ v a b m, r ∈ d.reactions → r.evaluation.xs.at' e = .ok v ∧ 0 ≤ v ∧
      r.getCrossSection p = .ok a ∧ r.getMajorant p = .ok b ∧ r.modifiesTotal p = .ok m ∧
      0 ≤ a ∧ 0 ≤ b ∧ (m = false → v ≤ a ∧ v ≤ b) ∧ (m = true → 0 < a ∧ 0 < b) := by
    intro r
    by_cases hr : r ∈ d.reactions
    · obtain ⟨v, hv, hv0⟩ := (h.reactions r hr).table e he0
      obtain ⟨a, b, m, h'⟩ := sound_reaction hn he he0 ht hT ht0 hT0 (h.reactions r hr) hv hv0
      exact ⟨v, a, b, m, fun _ => ⟨hv, hv0, h'⟩⟩
    · exact ⟨0, 0, 0, false, fun h' => absurd h' hr⟩
  choose v a b m hr using hr
  have hm := anyModifies_eq (p := p) (m := m) (rs := d.reactions)
    (fun r h => (hr r h).2.2.2.2.1)
  have hsa := sumLoop_ok (f := fun r => ContinuousReaction.getCrossSection r p) (w := a) (acc := 0)
    (xs := d.reactions) (fun r h => (hr r h).2.2.1)
  have hsb := sumLoop_ok (f := fun r => ContinuousReaction.getMajorant r p) (w := b) (acc := 0)
    (xs := d.reactions) (fun r h => (hr r h).2.2.2.1)
  rw [zero_add] at hsa hsb
  have nonneg : ∀ f : ContinuousReaction → ℝ, (∀ r ∈ d.reactions, 0 ≤ f r) →
      ∀ x ∈ d.reactions.map f, 0 ≤ x := by
    intro f hf x hx
    obtain ⟨r, h, rfl⟩ := List.mem_map.1 hx
    exact hf r h
  have ha0 : ∀ r ∈ d.reactions, 0 ≤ a r := fun r h => (hr r h).2.2.2.2.2.1
  have hb0 : ∀ r ∈ d.reactions, 0 ≤ b r := fun r h => (hr r h).2.2.2.2.2.2.1
  have hv0 : 0 ≤ (d.reactions.map v).sum :=
    List.sum_nonneg (nonneg v fun r h => (hr r h).2.1)
  have htot := h.total e he0 v (fun r h => (hr r h).1)
  have htab : ContinuousReaction.tabulated d.total p = .ok (d.reactions.map v).sum := by
    unfold ContinuousReaction.tabulated
    rw [he]
    exact htot
  have hSM : ∃ S M, d.getTotal p = .ok S ∧ d.getMajorant p = .ok M ∧ 0 ≤ S ∧ 0 ≤ M ∧
      (0 < (d.reactions.map v).sum → 0 < S ∧ 0 < M) ∧ S ≤ (d.reactions.map a).sum := by
    cases hany : d.reactions.any m
    · rw [hany] at hm
      have hf : ∀ r ∈ d.reactions, m r = false := by simpa using hany
      have hva : (d.reactions.map v).sum ≤ (d.reactions.map a).sum :=
        List.sum_le_sum (fun r h => ((hr r h).2.2.2.2.2.2.2.1 (hf r h)).1)
      have hvb : (d.reactions.map v).sum ≤ (d.reactions.map b).sum :=
        List.sum_le_sum (fun r h => ((hr r h).2.2.2.2.2.2.2.1 (hf r h)).2)
      have hS : ∃ S, d.getTotal p = .ok S ∧ (d.reactions.map v).sum ≤ S ∧
          S ≤ (d.reactions.map a).sum := by
        unfold Continuous.getTotal
        simp only [ht, bind, Except.bind, hm]
        rw [hsa, htab]
        cases d.total.isValid t
        · exact ⟨_, rfl, hva, le_refl _⟩
        · exact ⟨_, rfl, le_refl _, hva⟩
      have hM : ∃ M, d.getMajorant p = .ok M ∧ (d.reactions.map v).sum ≤ M := by
        unfold Continuous.getMajorant
        simp only [hT, bind, Except.bind, hm]
        rw [hsb, htab]
        cases d.total.isValid T
        · exact ⟨_, rfl, hvb⟩
        · exact ⟨_, rfl, le_refl _⟩
      obtain ⟨S, hS, hS1, hS2⟩ := hS
      obtain ⟨M, hM, hM1⟩ := hM
      exact ⟨S, M, hS, hM, hv0.trans hS1, hv0.trans hM1,
        fun h => ⟨h.trans_le hS1, h.trans_le hM1⟩, hS2⟩
    · rw [hany] at hm
      obtain ⟨r, hrm, hmr⟩ := List.any_eq_true.1 hany
      obtain ⟨p1, p2⟩ := (hr r hrm).2.2.2.2.2.2.2.2 hmr
      have q1 := List.single_le_sum (nonneg a ha0) _ (List.mem_map.2 ⟨r, hrm, rfl⟩)
      have q2 := List.single_le_sum (nonneg b hb0) _ (List.mem_map.2 ⟨r, hrm, rfl⟩)
      have p3 : 0 < (d.reactions.map a).sum := by linarith
      have p4 : 0 < (d.reactions.map b).sum := by linarith
      refine ⟨_, _, ?_, ?_, p3.le, p4.le, fun _ => ⟨p3, p4⟩, le_refl _⟩
      · unfold Continuous.getTotal
        simp only [ht, bind, Except.bind, hm, Bool.not_true, Bool.false_and]
        rw [hsa]
        rfl
      · unfold Continuous.getMajorant
        simp only [hT, bind, Except.bind, hm, Bool.not_true, Bool.false_and]
        rw [hsb]
        rfl
  obtain ⟨S, M, hS, hM, h1, h2, h3, h4⟩ := hSM
  exact ⟨a, S, M, _, fun r h => ⟨(hr r h).2.2.1, ha0 r h⟩, hS, hM, htot, h1, h2, h3, h4⟩

/-- Fission neutrons have the energy of the particle. -/
theorem bankLoop_energy : ∀ (n : ℕ) (p : Particle),
    (ContinuousReaction.bankLoop n p).energy = p.energy ∧
      ∀ b ∈ (ContinuousReaction.bankLoop n p).secondaries, b ∈ p.secondaries ∨ b.energy = p.energy
  | 0, p => ⟨rfl, fun b hb => Or.inl hb⟩
  | n + 1, p => by
    unfold ContinuousReaction.bankLoop
    obtain ⟨h1, h2⟩ := bankLoop_energy n
      ({ p with rng := (Direction.isotropic p.rng).2 }.bankSecondary
        (Direction.isotropic p.rng).1 p.energy)
    refine ⟨h1, fun b hb => ?_⟩
    rcases h2 b hb with h | h
    · rcases List.mem_append.1 h with h | h
      · exact Or.inl h
      · rw [List.mem_singleton.1 h]
        exact Or.inr rfl
    · exact Or.inr h

/-- The temperature where the particle is, is positive. -/
def Heated (p : Particle) : Prop := ∃ t, p.temperatureAt = .ok t ∧ 0 < t

theorem thermalEnd_imp {α β : Type} {r : Res α} {r' : Res β}
    {N N' : (ThermalScattering → Particle → Prop) → Prop} (h : ThermalEnd r N)
    (hr : ∀ e, (e = .terminate ∨ e = .nan) → r = .error e → r' = .error e)
    (hN : ∀ Q, N Q → N' Q) : ThermalEnd r' N' :=
  h.imp (fun h => ⟨hr _ (.inl rfl) h.1, hN _ h.2⟩)
    (Or.imp (fun h => ⟨hr _ (.inr rfl) h.1, hN _ h.2⟩) (hN _))

/-- The particle is scattered by thermal data to which it stands in the relation `Q`. -/
def MeetsThermal (Q : ThermalScattering → Particle → Prop) (r : ContinuousReaction) (p : Particle) :
    Prop :=
  ∃ ev s A e, r = .scatter ev (some s) A ∧ p.energy = .continuous e ∧ e < s.cutoffEnergy ∧
    Q s { p with event := .scatter }

/-- What a reaction does to a neutron. -/
theorem sound_react {fuel : ℕ} {r : ContinuousReaction} (h : SoundThermalReaction r) {p : Particle}
    {t : ℝ} (hp : EnergyNeutron p) (ht : p.temperatureAt = .ok t) (ht0 : 0 ≤ t) :
    (∃ p', r.interact fuel p = .ok p' ∧ Energetic p' ∧ (BanksEnergies p → BanksEnergies p')) ∨
    (Heated p ∧ r.interact fuel p = .error .fuel) ∨
    (r.interact fuel p = .error .nan ∧ ∃ ev tsl A, r = .scatter ev tsl A ∧
      StopsDead fuel A { p with event := .scatter }) ∨
    ThermalEnd (r.interact fuel p) (fun Q => MeetsThermal Q r p) := by
  obtain ⟨hty, ⟨e, he, he0⟩, hr, hu⟩ := hp
  cases r with
  | capture ev => exact Or.inl ⟨{ p with event := .capture }, rfl, ⟨e, he, he0⟩, id⟩
  | scatter ev tsl awr =>
    obtain ⟨ha, hs⟩ := h.scatter ev tsl awr rfl
    have hgas : ContinuousReaction.interact fuel (.scatter ev tsl awr) p =
        noexcept (FreeGas.interact fuel awr { p with event := .scatter }) →
        (∃ p', ContinuousReaction.interact fuel (.scatter ev tsl awr) p = .ok p' ∧ Energetic p' ∧
          (BanksEnergies p → BanksEnergies p')) ∨
        (Heated p ∧ ContinuousReaction.interact fuel (.scatter ev tsl awr) p = .error .fuel) ∨
        (ContinuousReaction.interact fuel (.scatter ev tsl awr) p = .error .nan ∧
          ∃ ev' tsl' A, ContinuousReaction.scatter ev tsl awr = .scatter ev' tsl' A ∧
          StopsDead fuel A { p with event := .scatter }) := by
      intro key
      rcases freeGas_cases (fuel := fuel) ha (p := { p with event := .scatter }) hr hu he he0 ht
        ht0 with ⟨p', e', h1, h2, h3⟩ | ⟨h1, h2⟩ | ⟨h1, h2⟩
      · refine Or.inl ⟨p', by rw [key, h1]; rfl, ⟨e', h2, h3⟩, fun hb => ?_⟩
        obtain ⟨_, _, _, _, _, _, _, _, _, _, _, _, _, _, _, _, _, d, g, hp'⟩ :=
          C43_scatter ha (p := { p with event := .scatter }) hr hu he h1
        rw [hp']
        exact hb
      · exact Or.inr (Or.inl ⟨⟨t, ht, h1⟩, by rw [key, h2]; rfl⟩)
      · exact Or.inr (Or.inr ⟨by rw [key, h2]; rfl, ev, tsl, awr, rfl, h1⟩)
    have hor : ∀ {a b c d : Prop}, (a ∨ b ∨ c) → a ∨ b ∨ c ∨ d := by tauto
    cases tsl with
    | none => exact hor (hgas rfl)
    | some s =>
      have hval : s.isValid { p with event := .scatter } = .ok (decide (e < s.cutoffEnergy)) := by
        unfold ThermalScattering.isValid
        have : ({ p with event := .scatter } : Particle).energy = .continuous e := he
        rw [this]
        simp [Energy.getContinuous, bind, Except.bind, hty, noexcept_ok]
      have hint : ContinuousReaction.interact fuel (.scatter ev (some s) awr) p =
          noexcept (if decide (e < s.cutoffEnergy) then s.scatter { p with event := .scatter }
            else FreeGas.interact fuel awr { p with event := .scatter }) := by
        unfold ContinuousReaction.interact ContinuousReaction.scatterInteract
        simp only [hval, bind, Except.bind]
      by_cases hc : e < s.cutoffEnergy
      · rw [if_pos (by simpa using hc)] at hint
        have hN : ∀ Q : ThermalScattering → Particle → Prop, Q s { p with event := .scatter } →
            MeetsThermal Q (.scatter ev (some s) awr) p :=
          fun Q hQ => ⟨ev, s, awr, e, rfl, he, hc, hQ⟩
        by_cases hsv : ∃ w x y, Served s e t w x y
        · obtain ⟨w, x, y, hsv⟩ := hsv
          have hsv0 := hsv
          obtain ⟨maj, xsT, xsS, xsE, bp, ap, L, M, k1, k2, k3, k4, k5, k6, k7, k8, k9⟩ := hsv
          rcases C84_outcome_partial k1 k2 k3 k4 k5 he0 k6 k7 k8 k9
            (p := { p with event := .scatter }) hr hu he ht with
            ⟨h1, h2⟩ | ⟨k, b, α, h1, h2, ⟨h3, h4⟩ | ⟨e', mu, d, h3, _, _, _, _, _, h4⟩⟩
          · refine Or.inr (Or.inr (Or.inr (Or.inl ⟨by rw [hint, h2]; rfl, hN _ ?_⟩)))
            exact ⟨e, t, w, x, y, he, ht, hsv0, h1⟩
          · refine Or.inr (Or.inr (Or.inr (Or.inr (Or.inl ⟨by rw [hint, h4]; rfl, hN _ ?_⟩))))
            exact ⟨e, t, w, x, y, k, he, ht, hsv0, h3 ▸ h1⟩
          · rw [h4, noexcept_ok] at hint
            exact Or.inl ⟨_, hint, ⟨e', rfl, h3⟩, fun hb => hb⟩
        · exact Or.inr (Or.inr (Or.inr (Or.inr (Or.inr (hN _ ⟨e, t, he, ht, hsv⟩)))))
      · rw [if_neg (by simpa using hc)] at hint
        exact hor (hgas hint)
  | fission ev nubar =>
    obtain ⟨m, rfl, hm⟩ := h.fission ev nubar rfl
    obtain ⟨y, hy, hy0⟩ := hm e he0
    left
    have hsz : toSize (y + (Rng.canonical p.rng).1) = .ok ⌊y + (Rng.canonical p.rng).1⌋₊ := by
      unfold toSize
      rw [if_neg]
      have := Rng.canonical_pos hr
      linarith
    have hok : ContinuousReaction.interact fuel (.fission ev (some m)) p =
        .ok (ContinuousReaction.bankLoop ⌊y + (Rng.canonical p.rng).1⌋₊
          { p with event := .fission, rng := (Rng.canonical p.rng).2 }) := by
      unfold ContinuousReaction.interact ContinuousReaction.fissionInteract Multigroup.optValue
      simp only [he, Energy.getContinuous, hy, Particle.sample, hsz, bind, Except.bind, noexcept_ok]
    refine ⟨_, hok, ?_, fun hb b hbm => ?_⟩
    · exact ⟨e, (bankLoop_energy _ _).1.trans he, he0⟩
    · obtain ⟨new, hn, hnew⟩ := (ContinuousReaction.interact_keeps hok).1.secondaries
      have hen := (bankLoop_energy _ _).2 b hbm
      rw [hn] at hbm
      rcases List.mem_append.1 hbm with hbm | hbm
      · exact hb b hbm
      · obtain ⟨_, _, b3, b4⟩ := hnew b hbm
        rcases hen with hen | hen
        · exact hb b hen
        · exact ⟨b3, b4 ⟨hr, hu⟩, e, hen.trans he, he0⟩

/-- An interaction with a nuclide that has a positive total. -/
theorem sound_interact {fuel : ℕ} {n : Nuclide} {d : Continuous}
    (hn : n.xs .neutron = some (.continuous d)) (hd : SoundThermalData d) {p : Particle} {t T S : ℝ}
    (hp : EnergyNeutron p) (ht : p.temperatureAt = .ok t) (hT : p.temperatureUpper = .ok T)
    (ht0 : 0 ≤ t) (hT0 : 0 ≤ T) (hS : n.getTotal p = .ok S) (hpos : 0 < S) :
    (∃ p', n.interact fuel p = .ok p' ∧ p'.cell = p.cell ∧
      (¬ Ended p' → EnergyNeutron p') ∧ Energetic p' ∧ (BanksEnergies p → BanksEnergies p')) ∨
    ((fuel = 0 ∨ Heated p) ∧ n.interact fuel p = .error .fuel) ∨
    (n.interact fuel p = .error .nan ∧ ∃ ev tsl A, .scatter ev tsl A ∈ d.reactions ∧
      StopsDead fuel A { p with rng := Rng.next^[2] p.rng, event := .scatter }) ∨
    ThermalEnd (n.interact fuel p) (fun Q => ∃ r ∈ d.reactions,
      MeetsThermal Q r { p with rng := Rng.next^[2] p.rng }) := by
  have hp0 := hp
  obtain ⟨hty, ⟨e, he, he0⟩, hr, hu⟩ := hp
  have key : n.interact fuel p = noexcept (noexcept (d.interactLoop fuel fuel p)) := by
    unfold Nuclide.interact Nuclide.xsAt
    rw [hty, hn]
    rfl
  rcases fuel with _ | fuel
  · exact Or.inr (Or.inl ⟨Or.inl rfl, by rw [key]; rfl⟩)
  obtain ⟨a, S', M, σ, ha, hS', _, _, _, _, _, hle⟩ := sound_total hty he he0 ht hT ht0 hT0 hd
  have hSS : S' = S := by
    have : n.getTotal p = .ok S' := by
      unfold Nuclide.getTotal Nuclide.xsAt
      rw [hty, hn]
      simp only [bind, Except.bind, Interaction.getTotal, hS', noexcept_ok]
    rw [hS] at this
    cases this
    rfl
  subst hSS
  have hu0 := Rng.canonical_pos hr
  have hu1 := Rng.canonical_lt_one hr
  obtain ⟨i, hi⟩ := Selected.exists (ws := d.reactions.map a) (θ := roundNumber p 0 * S')
    (mul_nonneg hu0.le hpos.le) (by
      have : roundNumber p 0 = (Rng.canonical p.rng).1 := rfl
      rw [this]
      nlinarith)
  obtain ⟨r, hri, _, hloop⟩ := C53_selects (c := d) (fuel := fuel + 1) (k := 0) (n := fuel + 1)
    (fun r h => (ha r h).1) (fun r h => (ha r h).2) hS' (by omega)
    (show SelectedInRound _ S' (roundNumber p) 0 i from ⟨fun j hj => absurd hj (by omega), hi⟩)
  have hmem : r ∈ d.reactions := List.mem_of_getElem? hri
  have hpa : EnergyNeutron (afterRound p 0) :=
    ⟨hty, ⟨e, he, he0⟩, Rng.valid_iterate hr _, hu⟩
  rcases sound_react (fuel := fuel + 1) (hd.reactions r hmem) hpa (t := t) ht ht0 with
    ⟨p', h1, h2, h3⟩ | ⟨h1, h2⟩ | ⟨h1, ev, tsl, A, rfl, h2⟩ | h1
  · have hok : n.interact (fuel + 1) p = .ok p' := by rw [key, hloop, h1]; rfl
    have hk := (Nuclide.interact_keeps hok).1
    refine Or.inl ⟨p', hok, hk.cell, fun _ => ?_, h2, h3⟩
    have hph := hk.physical ⟨hr, hu⟩
    exact ⟨hk.type.trans hty, h2, hph.rng, hph.direction⟩
  · exact Or.inr (Or.inl ⟨Or.inr h1, by rw [key, hloop, h2]; rfl⟩)
  · exact Or.inr (Or.inr (Or.inl ⟨by rw [key, hloop, h1]; rfl, ev, tsl, A, hmem, h2⟩))
  · refine Or.inr (Or.inr (Or.inr (thermalEnd_imp h1 ?_ fun Q hQ => ⟨r, hmem, hQ⟩)))
    rintro err (rfl | rfl) herr <;> rw [key, hloop, herr] <;> rfl

end Minimc.Props
