import Verif.Lemmas.PtrMap
import Verif.Lemmas.Select
import Verif.Lemmas.Rng

/-! # Lemmas about materials -/

namespace Minimc

open Spec

namespace Material

theorem collect_eq (all : List Nuclide) : ∀ (nodes : List (String × ℝ)) (m : List (Nuclide × ℝ)),
    collect all m nodes = resolveLoop Nuclide.id Nuclide.name some all m nodes
  | [], m => rfl
  | (x, y) :: nodes, m => by
    rw [collect, resolveLoop]
    generalize List.find? _ all = o
    rcases o with _ | k
    · rfl
    · exact collect_eq all nodes _

theorem sumAfrac_eq (m : List (Nuclide × ℝ)) : sumAfrac m = (m.map Prod.snd).sum := by
  rw [sumAfrac, List.sum_eq_foldl, List.foldl_map]

theorem sum_pos_of_pos {l : List ℝ} (h : ∀ x ∈ l, 0 < x) (hne : l ≠ []) : 0 < l.sum := by
  rcases l with _ | ⟨a, l⟩
  · exact absurd rfl hne
  · rw [List.sum_cons]
    have : 0 ≤ l.sum := List.sum_nonneg (fun x hx => (h x (List.mem_cons_of_mem _ hx)).le)
    linarith [h a List.mem_cons_self]

theorem collect_pos {all : List Nuclide} : ∀ {nodes : List (String × ℝ)} {m r : List (Nuclide × ℝ)},
    (∀ n ∈ nodes, 0 < n.2) → (∀ e ∈ m, 0 < e.2) → collect all m nodes = .ok r → ∀ e ∈ r, 0 < e.2
  | [], m, r, _, hm, h => by
    simp only [collect, Except.ok.injEq] at h
    exact h ▸ hm
  | (x, y) :: nodes, m, r, hn, hm, h => by
    rw [collect] at h
    split at h
    · refine collect_pos (fun n hn' => hn n (List.mem_cons_of_mem _ hn')) ?_ h
      intro e he
      rename_i n _
      rcases (emplaceByAddr_mem Nuclide.id n y m e).1 he with h' | ⟨h', -⟩ | ⟨h', -⟩
      · exact hm e h'
      · rw [h']; exact hn _ List.mem_cons_self
      · rw [h']; exact hn _ List.mem_cons_self
    · cases h

/-- With positive fractions the nuclides are assigned exactly when all of them are known. -/
theorem create_exists {name : String} {all : List Nuclide} {nodes : List (String × ℝ)} {aden : ℝ}
    (hpos : ∀ n ∈ nodes, 0 < n.2) :
    (∃ m, create name all nodes aden = .ok m) ↔ ∀ n ∈ nodes, n.1 ∈ all.map Nuclide.name := by
  have hc := resolveLoop_exists (addr := Nuclide.id) (nm := Nuclide.name) (val := some)
    (all := all) nodes ([] : List (Nuclide × ℝ))
  rw [← collect_eq] at hc
  simp only [Option.some.injEq, exists_eq', and_true] at hc
  rw [← hc, create, assignNuclides]
  simp only [bind, Except.bind]
  rcases hr : collect all [] nodes with e | r
  · simp
  · have hp := collect_pos hpos (by simp) hr
    have : ¬ (sumAfrac r = 0 ∧ r ≠ []) := by
      rintro ⟨h1, h2⟩
      rw [sumAfrac_eq] at h1
      have := sum_pos_of_pos (l := r.map Prod.snd) (by
        intro x hx
        obtain ⟨e, he, rfl⟩ := List.mem_map.1 hx
        exact hp e he) (by simpa using h2)
      linarith
    simp only [if_neg this]
    simp

theorem create_error {name : String} {all : List Nuclide} {nodes : List (String × ℝ)} {aden : ℝ}
    {e : Err} (hpos : ∀ n ∈ nodes, 0 < n.2) (h : create name all nodes aden = .error e) :
    e = .assertFail := by
  rw [create, assignNuclides] at h
  simp only [bind, Except.bind] at h
  rcases hr : collect all [] nodes with e | r
  · rw [hr] at h
    cases h
    rw [collect_eq] at hr
    exact resolveLoop_error _ _ _ hr
  · have hp := collect_pos hpos (by simp) hr
    have : ¬ (sumAfrac r = 0 ∧ r ≠ []) := by
      rintro ⟨h1, h2⟩
      rw [sumAfrac_eq] at h1
      have := sum_pos_of_pos (l := r.map Prod.snd) (by
        intro x hx
        obtain ⟨e, he, rfl⟩ := List.mem_map.1 hx
        exact hp e he) (by simpa using h2)
      linarith
    rw [hr] at h
    simp only [if_neg this] at h
    cases h

theorem create_name {name : String} {all : List Nuclide} {nodes : List (String × ℝ)} {aden : ℝ}
    {m : Material} (h : create name all nodes aden = .ok m) : m.name = name := by
  rw [create] at h
  simp only [bind, Except.bind] at h
  split at h
  · cases h
  · cases h; rfl

end Material

/-! ### What cross sections depend on -/

theorem ThermalScattering.isValid_congr (s : ThermalScattering) {p q : Particle}
    (ht : p.type = q.type) (he : p.energy = q.energy) : s.isValid p = s.isValid q := by
  rw [ThermalScattering.isValid, ThermalScattering.isValid, ht, he]

theorem ContinuousReaction.scatterXSAt_congr (ev : ContinuousEvaluation) (awr t : ℝ)
    {p q : Particle} (ht : p.type = q.type) (he : p.energy = q.energy) :
    ContinuousReaction.scatterXSAt ev awr p t = ContinuousReaction.scatterXSAt ev awr q t := by
  simp only [ContinuousReaction.scatterXSAt, ContinuousReaction.tabulated,
    isFreeGasScatteringValid, ht, he]

theorem ContinuousReaction.modifiesTotal_congr (r : ContinuousReaction) {p q : Particle}
    (ht : p.type = q.type) (he : p.energy = q.energy) : r.modifiesTotal p = r.modifiesTotal q := by
  rcases r with ev | ⟨ev, _ | s, awr⟩ | ⟨ev, nu⟩
  · rfl
  · rfl
  · exact s.isValid_congr ht he
  · rfl

theorem ContinuousReaction.getCrossSection_congr (r : ContinuousReaction) {p q : Particle}
    (ht : p.type = q.type) (he : p.energy = q.energy) (hT : p.temperatureAt = q.temperatureAt) :
    r.getCrossSection p = r.getCrossSection q := by
  rcases r with ev | ⟨ev, _ | s, awr⟩ | ⟨ev, nu⟩
  · simp only [ContinuousReaction.getCrossSection, ContinuousReaction.tabulated, he]
  · simp only [ContinuousReaction.getCrossSection, hT,
      ContinuousReaction.scatterXSAt_congr ev awr _ ht he]
  · simp only [ContinuousReaction.getCrossSection, hT, s.isValid_congr ht he,
      ContinuousReaction.scatterXSAt_congr ev awr _ ht he, ThermalScattering.getTotal, he]
  · simp only [ContinuousReaction.getCrossSection, ContinuousReaction.tabulated, he]

theorem ContinuousReaction.getMajorant_congr (r : ContinuousReaction) {p q : Particle}
    (ht : p.type = q.type) (he : p.energy = q.energy)
    (hT : p.temperatureUpper = q.temperatureUpper) : r.getMajorant p = r.getMajorant q := by
  rcases r with ev | ⟨ev, _ | s, awr⟩ | ⟨ev, nu⟩
  · simp only [ContinuousReaction.getMajorant, ContinuousReaction.tabulated, he]
  · simp only [ContinuousReaction.getMajorant, hT,
      ContinuousReaction.scatterXSAt_congr ev awr _ ht he]
  · simp only [ContinuousReaction.getMajorant, hT, s.isValid_congr ht he,
      ContinuousReaction.scatterXSAt_congr ev awr _ ht he, ThermalScattering.getMajorant, he]
  · simp only [ContinuousReaction.getMajorant, ContinuousReaction.tabulated, he]

theorem Continuous.anyModifies_congr {p q : Particle} (ht : p.type = q.type)
    (he : p.energy = q.energy) : ∀ rs : List ContinuousReaction,
      Continuous.anyModifies p rs = Continuous.anyModifies q rs
  | [] => rfl
  | r :: rs => by
    rw [Continuous.anyModifies, Continuous.anyModifies, r.modifiesTotal_congr ht he,
      Continuous.anyModifies_congr ht he rs]

/-- The total cross section of a nuclide depends on the type, energy and local temperature of the
particle only. -/
theorem Nuclide.getTotal_congr (n : Nuclide) {p q : Particle} (ht : p.type = q.type)
    (he : p.energy = q.energy) (hT : p.temperatureAt = q.temperatureAt) :
    n.getTotal p = n.getTotal q := by
  rw [Nuclide.getTotal, Nuclide.getTotal, Nuclide.xsAt, Nuclide.xsAt, ht]
  rcases n.xs q.type with _ | (m | c)
  · rfl
  · simp only [bind, Except.bind, Interaction.getTotal, Multigroup.getTotal, he]
  · simp only [bind, Except.bind, Interaction.getTotal]
    congr 1
    rw [Continuous.getTotal, Continuous.getTotal, hT, Continuous.anyModifies_congr ht he]
    have h1 : (fun r : ContinuousReaction => r.getCrossSection p) =
        fun r => r.getCrossSection q := funext fun r => r.getCrossSection_congr ht he hT
    rw [h1]
    simp only [ContinuousReaction.tabulated, he]

theorem Nuclide.getMajorant_congr (n : Nuclide) {p q : Particle} (ht : p.type = q.type)
    (he : p.energy = q.energy) (hT : p.temperatureUpper = q.temperatureUpper) :
    n.getMajorant p = n.getMajorant q := by
  rw [Nuclide.getMajorant, Nuclide.getMajorant, Nuclide.xsAt, Nuclide.xsAt, ht]
  rcases n.xs q.type with _ | (m | c)
  · rfl
  · simp only [bind, Except.bind, Interaction.getMajorant, Multigroup.getMajorant,
      Multigroup.getTotal, he]
  · simp only [bind, Except.bind, Interaction.getMajorant]
    congr 1
    rw [Continuous.getMajorant, Continuous.getMajorant, hT, Continuous.anyModifies_congr ht he]
    have h1 : (fun r : ContinuousReaction => r.getMajorant p) =
        fun r => r.getMajorant q := funext fun r => r.getMajorant_congr ht he hT
    rw [h1]
    simp only [ContinuousReaction.tabulated, he]

theorem Nuclide.getTotal_rng (n : Nuclide) (p : Particle) (g : ℕ) :
    n.getTotal { p with rng := g } = n.getTotal p :=
  n.getTotal_congr rfl rfl rfl

theorem Material.getMicroscopicTotal_congr (m : Material) {p q : Particle} (ht : p.type = q.type)
    (he : p.energy = q.energy) (hT : p.temperatureAt = q.temperatureAt) :
    m.getMicroscopicTotal p = m.getMicroscopicTotal q := by
  rw [Material.getMicroscopicTotal, Material.getMicroscopicTotal]
  have h1 : (fun e : Nuclide × ℝ => (do .ok (e.2 * (← e.1.getTotal p)) : Res ℝ)) =
      fun e => (do .ok (e.2 * (← e.1.getTotal q)) : Res ℝ) :=
    funext fun e => by rw [e.1.getTotal_congr ht he hT]
  rw [h1]

theorem Material.getMicroscopicMajorant_congr (m : Material) {p q : Particle}
    (ht : p.type = q.type) (he : p.energy = q.energy)
    (hT : p.temperatureUpper = q.temperatureUpper) :
    m.getMicroscopicMajorant p = m.getMicroscopicMajorant q := by
  rw [Material.getMicroscopicMajorant, Material.getMicroscopicMajorant]
  have h1 : (fun e : Nuclide × ℝ => (do .ok (e.2 * (← e.1.getMajorant p)) : Res ℝ)) =
      fun e => (do .ok (e.2 * (← e.1.getMajorant q)) : Res ℝ) :=
    funext fun e => by rw [e.1.getMajorant_congr ht he hT]
  rw [h1]

end Minimc
