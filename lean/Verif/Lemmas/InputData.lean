import Verif.Lemmas.Input

/-! # Lemmas about reading cross sections, bins and sources -/

namespace Minimc

open Spec Schema Xml

namespace Input

/-! ### Continuous-energy data -/

theorem openData_iff {env : Env} {n : Xml} {req opt : List String} (h : Attrs n req opt)
    {a : String} (ha : a ∈ req) (D : ℕ) (ds : DataSet) :
    openData env D (n.attrString a) = .ok ds ↔ FileOf env D n a ds := by
  have hv := attrs_value_iff h ha
  unfold openData FileOf
  by_cases he : n.attrString a = ""
  · rw [if_pos he]
    constructor
    · intro e; cases e
    · rintro ⟨v, h1, h2, -⟩
      rw [hv, he] at h1
      exact absurd h1.symm h2
  · rw [if_neg he]
    constructor
    · intro e
      split at e
      · cases e
      · rename_i d hd
        split at e
        · rename_i hl
          cases e
          exact ⟨_, (hv _).2 rfl, he, hd, hl⟩
        · cases e
    · rintro ⟨v, h1, -, h3, h4⟩
      rw [hv] at h1
      subst h1
      rw [h3]
      simp [h4]

theorem openData_null (env : Env) (D : ℕ) (a : String) :
    openData env D (null.attrString a) = .error .runtimeError := by
  have : null.attrString a = "" := rfl
  rw [this, openData, if_pos rfl]

theorem evaluation_iff {env : Env} {n : Xml} (h : Evaluation env n) (ev : ContinuousEvaluation) :
    evaluation env n = .ok ev ↔ EvaluationOf env n ev := by
  obtain ⟨ha, -, hv⟩ := h
  have ht := number_iff ha (a := "temperature") (by simp) (double_of_positive hv)
  unfold evaluation
  simp only [res_bind_ok, openData_iff ha (a := "file") (by simp)]
  constructor
  · rintro ⟨ds, h1, xs, h2, e⟩
    cases e
    exact ⟨⟨ds, h1, h2⟩, (ht _).2 rfl⟩
  · rintro ⟨⟨ds, h1, h2⟩, h3⟩
    rw [ht] at h3
    exact ⟨ds, h1, ev.xs, h2, by rw [h3]⟩

theorem partition_iff {env : Env} {n : Xml} {rows : String} (h : Attrs n ["CDF", "S", rows] [])
    (p : Partition) : partition env rows n = .ok p ↔ PartitionOf env rows n p := by
  unfold partition
  simp only [res_bind_ok, openData_iff h (a := "CDF") (by simp),
    openData_iff h (a := "S") (by simp), openData_iff h (a := rows) (by simp)]
  constructor
  · rintro ⟨a, ha, b, hb, c, hc, e⟩
    cases e
    exact ⟨ha, hb, hc⟩
  · rintro ⟨ha, hb, hc⟩
    exact ⟨_, ha, _, hb, _, hc, rfl⟩

theorem tsl_iff {env : Env} {awr : ℝ} {n : Xml} (h : Tsl env n) (t : ThermalScattering) :
    thermalScattering env awr n = .ok t ↔ TslOf env awr n t := by
  obtain ⟨h1, h2, h3, h4, h5, h6⟩ := h
  have hb := number_iff h2 (a := "beta_cutoff") (by simp) (double_of_positive h3)
  have ha := number_iff h2 (a := "alpha_cutoff") (by simp) (double_of_positive h4)
  unfold thermalScattering TslOf
  rw [noexcept_eq_ok]
  simp only [res_bind_ok, openData_iff h2 (a := "majorant") (by simp),
    openData_iff h2 (a := "total_T") (by simp), openData_iff h2 (a := "total_S") (by simp),
    openData_iff h2 (a := "total_E") (by simp),
    mapM_iff (fun d hd => partition_iff (env := env) (h5.2 d hd)),
    mapM_iff (fun d hd => partition_iff (env := env) (h6.2 d hd))]
  constructor
  · rintro ⟨m, hm, xt, hxt, xs, hxs, xe, hxe, bs, hbs, as, has, e⟩
    exact ⟨m, xt, xs, xe, _, bs, _, as, _, _, hm, hxt, hxs, hxe, allOf_child h1 (by simp), hbs,
      allOf_child h1 (by simp), has, (hb _).2 rfl, (ha _).2 rfl, e⟩
  · rintro ⟨m, xt, xs, xe, b, bs, a, as, bc, ac, hm, hxt, hxs, hxe, e1, hbs, e2, has, e3, e4, e⟩
    rw [allOf_child_iff h1 (by simp)] at e1 e2
    subst e1 e2
    rw [hb] at e3
    rw [ha] at e4
    subst e3 e4
    exact ⟨m, hm, xt, hxt, xs, hxs, xe, hxe, bs, hbs, as, has, e⟩

theorem toType_iff (s : String) (t : ParticleType) : toType s = .ok t ↔ s = typeName t := by
  unfold toType
  by_cases h1 : s = "neutron"
  · subst h1
    rw [if_pos rfl]
    cases t <;> simp [typeName]
  · rw [if_neg h1]
    by_cases h2 : s = "photon"
    · subst h2
      rw [if_pos rfl]
      cases t <;> simp [typeName]
    · rw [if_neg h2]
      cases t <;> simp [typeName, h1, h2]

theorem toType_ok {s : String} (h : ParticleName s) : ∃ t, s = typeName t ∧ toType s = .ok t := by
  rcases h with rfl | rfl
  · exact ⟨.neutron, rfl, rfl⟩
  · exact ⟨.photon, rfl, rfl⟩

theorem sab_iff {env : Env} {awr : ℝ} {particle : String} (hp : ParticleName particle) {n : Xml}
    (h1 : AllOf n ["xs"] ["tsl"]) (h2 : ∀ c ∈ n.children, c.name = "tsl" → Tsl env c)
    (o : Option ThermalScattering) :
    readPandasSAB env awr particle (n.child "tsl") = .ok o ↔
      ((¬ ∃ d, Child n "tsl" d) ∧ o = none) ∨
        ∃ d t, Child n "tsl" d ∧ particle = "neutron" ∧ TslOf env awr d t ∧ o = some t := by
  unfold readPandasSAB
  rcases child_cases h1.2.1 (s := "tsl") (by simp) with ⟨hc, hnull, hu⟩ | ⟨hno, hnull⟩
  · have htsl := h2 _ hc.1 hc.2
    rw [hnull]
    simp only [Bool.false_eq_true, if_false]
    rcases hp with rfl | rfl
    · simp only [toType, if_true, bind, Except.bind, ne_eq, not_true_eq_false, if_false]
      constructor
      · intro e
        split at e
        · cases e
        · rename_i t ht
          cases e
          exact .inr ⟨_, t, hc, trivial, (tsl_iff htsl t).1 ht, rfl⟩
      · rintro (⟨h, -⟩ | ⟨d, t, hd, -, ht, rfl⟩)
        · exact absurd ⟨_, hc⟩ h
        · have := hu d hd
          subst this
          rw [(tsl_iff htsl t).2 ht]
    · constructor
      · intro e
        simp [toType, bind, Except.bind] at e
      · rintro (⟨h, -⟩ | ⟨d, t, hd, h, -⟩)
        · exact absurd ⟨_, hc⟩ h
        · simp at h
  · rw [hnull]
    have : null.isNull = true := rfl
    rw [if_pos this]
    constructor
    · intro e
      cases e
      exact .inl ⟨hno, rfl⟩
    · rintro (⟨-, rfl⟩ | ⟨d, t, hd, -⟩)
      · rfl
      · exact absurd ⟨d, hd⟩ hno

theorem reaction_iff {env : Env} {awr : ℝ} {particle : String} (hp : ParticleName particle)
    {n : Xml} (h0 : n.name ∈ ["capture", "scatter", "fission"])
    (h : if n.name = "fission" then ContinuousFission env n
      else if n.name = "scatter" then ContinuousScatter env n else Evaluation env n)
    (r : ContinuousReaction) :
    continuousReaction env awr particle n = .ok r ↔ ReactionOf env awr particle n r := by
  simp only [List.mem_cons, List.not_mem_nil, or_false] at h0
  unfold continuousReaction toReaction
  rcases h0 with h0 | h0 | h0
  · rw [h0, if_neg (by simp), if_neg (by simp)] at h
    rw [h0, if_pos rfl]
    show (evaluation env n >>= fun x => .ok (.capture x)) = .ok r ↔ _
    rw [res_bind_ok]
    simp only [evaluation_iff h]
    constructor
    · rintro ⟨ev, hev, e⟩
      cases e
      exact .capture h0 hev
    · intro e
      cases e with
      | capture _ e2 => exact ⟨_, e2, rfl⟩
      | scatter e1 => rw [h0] at e1; simp at e1
      | thermal e1 => rw [h0] at e1; simp at e1
      | fission e1 => rw [h0] at e1; simp at e1
  · rw [h0, if_neg (by simp), if_pos rfl] at h
    obtain ⟨h1, h2, h3⟩ := h
    rw [h0, if_neg (by simp), if_pos rfl]
    show (evaluation env (n.child "xs") >>= fun ev =>
      readPandasSAB env awr particle (n.child "tsl") >>= fun tsl =>
        .ok (.scatter ev tsl awr)) = .ok r ↔ _
    simp only [res_bind_ok, evaluation_iff h2, sab_iff hp h1 h3]
    constructor
    · rintro ⟨ev, hev, o, ho, e⟩
      cases e
      rcases ho with ⟨hno, rfl⟩ | ⟨d, t, hd, hpn, ht, rfl⟩
      · exact .scatter h0 (allOf_child h1 (by simp)) hev hno
      · exact .thermal h0 (allOf_child h1 (by simp)) hev hd hpn ht
    · intro e
      cases e with
      | capture e1 => rw [h0] at e1; simp at e1
      | scatter _ e2 e3 e4 =>
        rw [allOf_child_iff h1 (by simp)] at e2
        subst e2
        exact ⟨_, e3, none, .inl ⟨e4, rfl⟩, rfl⟩
      | thermal _ e2 e3 e4 e5 e6 =>
        rw [allOf_child_iff h1 (by simp)] at e2
        subst e2
        exact ⟨_, e3, _, .inr ⟨_, _, e4, e5, e6, rfl⟩, rfl⟩
      | fission e1 => rw [h0] at e1; simp at e1
  · rw [h0, if_pos rfl] at h
    obtain ⟨h1, h2⟩ := h
    have hxs := h2 _ (allOf_child h1 (s := "xs") (by simp)).1
    have hnu := allOf_child h1 (s := "nubar") (by simp)
    have hnull : (n.child "nubar").isNull = false := by
      rcases hb : (n.child "nubar").isNull with _ | _
      · rfl
      · exact absurd ⟨_, hnu⟩ ((isNull_iff (by simp)).1 hb)
    rw [h0, if_neg (by simp), if_neg (by simp), if_pos rfl]
    show (evaluation env (n.child "xs") >>= fun ev =>
      nubarTable env (n.child "nubar") >>= fun nubar => .ok (.fission ev nubar)) = .ok r ↔ _
    unfold nubarTable
    rw [hnull]
    simp only [Bool.false_eq_true, if_false, res_bind_ok, evaluation_iff hxs,
      openData_iff (h2 _ hnu.1).1 (a := "file") (by simp)]
    constructor
    · rintro ⟨ev, hev, nu, ⟨ds, hds, xs, hx, e'⟩, e⟩
      cases e
      cases e'
      exact .fission h0 (allOf_child h1 (by simp)) hev hnu hds hx
    · intro e
      cases e with
      | capture e1 => rw [h0] at e1; simp at e1
      | scatter e1 => rw [h0] at e1; simp at e1
      | thermal e1 => rw [h0] at e1; simp at e1
      | fission _ e2 e3 e4 e5 e6 =>
        rw [allOf_child_iff h1 (by simp)] at e2 e4
        subst e2 e4
        exact ⟨_, e3, _, ⟨_, e5, _, e6, rfl⟩, rfl⟩

/-! ### Cross sections of a nuclide -/

theorem nuclides_path {env : Env} {root : Xml}
    (hroot : (root.children.map Xml.name).Nodup) (hex : Child root "nuclides" (root.child "nuclides"))
    (h : Nuclides env (root.child "nuclides")) (s : String) (k : Xml) :
    Reaches root ["nuclides", s] k ↔
      (root.child "nuclides").firstChild = k ∧ (root.child "nuclides").firstChild.name = s := by
  simp only [Reaches]
  constructor
  · rintro ⟨c, hc, d, hd, rfl⟩
    have := child_of hroot hc
    subst this
    exact (oneOf_child_iff h.1 _ _).1 hd
  · rintro ⟨rfl, h2⟩
    exact ⟨_, hex, _, (oneOf_child_iff h.1 _ _).2 ⟨rfl, h2⟩, rfl⟩

theorem interaction_iff {env : Env} {root : Xml} (hv : Valid env root) {n d : Xml}
    (hn : n ∈ (root.child "nuclides").firstChild.children) (hd : d ∈ n.children) (i : Interaction) :
    interaction env root n d = .ok i ↔ InteractionOf env root n d i := by
  have hroot := hv.elements.2.1
  have hex := allOf_child hv.elements (s := "nuclides") (by simp)
  have hpath := nuclides_path hroot hex hv.nuclides
  obtain ⟨h1, h2⟩ := hv.nuclides
  obtain ⟨hk, hname⟩ := oneOf_firstChild h1
  have hdata := h2 (root.child "nuclides").firstChild (by rw [hk]; simp)
  simp only [List.mem_cons, List.not_mem_nil, or_false] at hname
  unfold interaction
  rcases hname with hname | hname
  · rw [if_pos hname] at hdata
    obtain ⟨-, hg, hgv, hnuc⟩ := hdata
    obtain ⟨-, -, hre⟩ := hnuc n hn
    obtain ⟨hall, hnodes⟩ := hre d hd
    obtain ⟨G, hG, -, hGu, hGe⟩ := count_iff hg (a := "groups") (by simp) hgv
    have hmap := mapM_iff (f := mgNode env) (R := MgNodeOf env) (l := d.children) (fun c hc m =>
      mgNode_iff (by simpa using hall.2.2 c hc) (hnodes c hc) m)
    rw [if_pos hname]
    unfold multigroup
    simp only [res_bind_ok, hmap]
    have hcount : groupCount root = min G (2 ^ 32 - 1) := by
      unfold groupCount
      have : ((root.child "nuclides").child "multigroup") = (root.child "nuclides").firstChild := by
        refine child_of (oneOf_nodup h1) ((oneOf_child_iff h1 _ _).2 ⟨rfl, hname⟩)
      rw [this, hGe]
    rw [hcount]
    constructor
    · rintro ⟨m, ⟨nodes, hf, hm⟩, e⟩
      cases e
      exact .multigroup ((hpath _ _).2 ⟨rfl, hname⟩) hG hf hm
    · intro e
      cases e with
      | multigroup e1 e2 e3 e4 =>
        rw [hpath] at e1
        obtain ⟨rfl, -⟩ := e1
        rw [hGu _ e2] at e4
        exact ⟨_, ⟨_, e3, e4⟩, rfl⟩
      | continuous e1 =>
        rw [hpath, hname] at e1
        simp at e1
  · have hnm : ¬ (root.child "nuclides").firstChild.name = "multigroup" := by rw [hname]; simp
    rw [if_neg hnm] at hdata
    obtain ⟨-, hnuc⟩ := hdata
    obtain ⟨hat, hawr, hkids, hre⟩ := hnuc n hn
    obtain ⟨hall, hnodes⟩ := hre d hd
    have hpn : ParticleName d.name := by
      have := hkids.2.2 d hd
      simpa [ParticleName] using this
    have ha := number_iff hat (a := "awr") (by simp) (double_of_positive hawr)
    have hfil : d.children.filter (fun n => n.name != "total") =
        d.children.filter (fun c => c.name ≠ "total") := by
      apply List.filter_congr
      intro c _
      by_cases h : c.name = "total" <;> simp [h]
    have hmap : ∀ awr, ∀ rs, (d.children.filter (fun n => n.name != "total")).mapM
        (continuousReaction env awr d.name) = .ok rs ↔
        List.Forall₂ (ReactionOf env awr d.name) (d.children.filter (fun c => c.name ≠ "total"))
          rs := by
      intro awr
      rw [hfil]
      refine mapM_iff (fun c hc r => ?_)
      obtain ⟨hc1, hc2⟩ := List.mem_filter.1 hc
      have h3 : c.name ∈ ["capture", "scatter", "fission"] := by
        have := hall.2.2 c hc1
        have h4 : c.name ≠ "total" := by simpa using hc2
        simpa [h4] using this
      exact reaction_iff hpn h3 (hnodes c hc1) r
    have htot : ∀ ev, evaluation env (d.child "total") = .ok ev ↔
        ∃ t, Child d "total" t ∧ EvaluationOf env t ev := by
      intro ev
      rcases child_cases hall.2.1 (s := "total") (by simp) with ⟨hc, -, hu⟩ | ⟨hno, hnull⟩
      · have := hnodes _ hc.1
        rw [hc.2, if_neg (by simp), if_neg (by simp)] at this
        rw [evaluation_iff this]
        constructor
        · intro h; exact ⟨_, hc, h⟩
        · rintro ⟨t, ht, h⟩
          rw [hu t ht]
          exact h
      · rw [hnull]
        constructor
        · intro e
          unfold evaluation at e
          rw [openData_null] at e
          cases e
        · rintro ⟨t, ht, -⟩
          exact absurd ⟨t, ht⟩ hno
    rw [if_neg hnm, if_pos hname]
    unfold continuous
    simp only [res_bind_ok, hmap, htot]
    constructor
    · rintro ⟨c, ⟨rs, hrs, total, ⟨t, ht, hte⟩, e'⟩, e⟩
      cases e
      cases e'
      exact .continuous ((hpath _ _).2 ⟨rfl, hname⟩) ((ha _).2 rfl) hrs ht hte
    · intro e
      cases e with
      | multigroup e1 =>
        rw [hpath, hname] at e1
        simp at e1
      | continuous _ e2 e3 e4 e5 =>
        rw [ha] at e2
        subst e2
        exact ⟨_, ⟨_, e3, _, ⟨_, e4, e5⟩, rfl⟩, rfl⟩

theorem interactionsFrom_iff {env : Env} {root n : Xml} (hn : (n.children.map Xml.name).Nodup) :
    ∀ (names : List String), (∀ s ∈ names, ParticleName s) →
      ∀ (xs ys : ParticleType → Option Interaction),
        interactionsFrom env root n xs names = .ok ys ↔
          ∀ t, (typeName t ∈ names → ∃ d i, Child n (typeName t) d ∧
            interaction env root n d = .ok i ∧ ys t = some ((xs t).getD i)) ∧
            (typeName t ∉ names → ys t = xs t)
  | [], _, xs, ys => by
    rw [interactionsFrom]
    simp only [Except.ok.injEq, List.not_mem_nil, false_implies, not_false_eq_true, true_implies,
      true_and]
    constructor
    · rintro rfl t; rfl
    · intro h; funext t; exact (h t).symm
  | name :: names, hp, xs, ys => by
    obtain ⟨t₀, rfl, ht₀⟩ := toType_ok (hp name (by simp))
    have ih := interactionsFrom_iff (env := env) (root := root) hn names
      (fun s hs => hp s (by simp [hs]))
    have hinj : ∀ t, typeName t = typeName t₀ → t = t₀ := by
      intro t h
      cases t <;> cases t₀ <;> first | rfl | (simp [typeName] at h)
    rw [interactionsFrom]
    rcases child_cases hn (s := typeName t₀) (by cases t₀ <;> simp [typeName]) with
      ⟨hc, hnull, hu⟩ | ⟨hno, hnull⟩
    · rw [hnull]
      simp only [Bool.false_eq_true, if_false, ht₀, bind, Except.bind]
      rcases hi : interaction env root n (n.child (typeName t₀)) with e | i
      · simp only [reduceCtorEq, false_iff]
        intro h
        obtain ⟨d, i, hd, hdi, -⟩ := (h t₀).1 (by simp)
        rw [← hu d hd, hi] at hdi
        cases hdi
      · simp only
        rw [ih]
        constructor
        · intro h t
          by_cases ht : t = t₀
          · subst ht
            refine ⟨fun _ => ⟨_, i, hc, hi, ?_⟩, fun h => absurd (by simp) h⟩
            by_cases hmem : typeName t ∈ names
            · obtain ⟨d, i', -, -, hy⟩ := (h t).1 hmem
              simpa using hy
            · simpa using (h t).2 hmem
          · have hne : typeName t ≠ typeName t₀ := fun h => ht (hinj t h)
            obtain ⟨h1, h2⟩ := h t
            simp only [ht, if_false] at h1 h2
            refine ⟨fun hm => ?_, fun hm => ?_⟩
            · rcases List.mem_cons.1 hm with h | h
              · exact absurd h hne
              · exact h1 h
            · exact h2 (fun h => hm (List.mem_cons_of_mem _ h))
        · intro h t
          by_cases ht : t = t₀
          · subst ht
            obtain ⟨d, i', hd, hdi, hy⟩ := (h t).1 (by simp)
            rw [← hu d hd, hi] at hdi
            cases hdi
            refine ⟨fun _ => ⟨_, i, hc, hi, ?_⟩, fun _ => ?_⟩
            · simpa using hy
            · simpa using hy
          · have hne : typeName t ≠ typeName t₀ := fun h => ht (hinj t h)
            obtain ⟨h1, h2⟩ := h t
            simp only [ht, if_false]
            refine ⟨fun hm => h1 (List.mem_cons_of_mem _ hm), fun hm => h2 ?_⟩
            intro h
            rcases List.mem_cons.1 h with h | h
            · exact hne h
            · exact hm h
    · have : (n.child (typeName t₀)).isNull = true := by rw [hnull]; rfl
      rw [if_pos this]
      simp only [reduceCtorEq, false_iff]
      intro h
      obtain ⟨d, i, hd, -⟩ := (h t₀).1 (by simp)
      exact hno ⟨d, hd⟩

theorem general_child {root : Xml} {env : Env} (hv : Valid env root) {s : String}
    (hs : s ∈ ["particles", "histories", "threads", "chunksize"]) (n : Xml) :
    Reaches root ["general", s] n ↔ (root.child "general").child s = n := by
  have hex := allOf_child hv.elements (s := "general") (by simp)
  simp only [Reaches]
  constructor
  · rintro ⟨c, hc, d, hd, rfl⟩
    have := child_of hv.elements.2.1 hc
    subst this
    exact (allOf_child_iff hv.general.1 hs _).1 hd
  · rintro rfl
    exact ⟨_, hex, _, allOf_child hv.general.1 hs, rfl⟩

theorem particles_named {root : Xml} {env : Env} (hv : Valid env root) :
    ∀ s ∈ Text.words ((root.child "general").child "particles").text, ParticleName s := by
  have := allOf_child hv.general.1 (s := "particles") (by simp)
  have h := hv.general.2 _ this.1
  rw [this.2, if_pos rfl] at h
  exact h

theorem interactions_iff {env : Env} {root : Xml} (hv : Valid env root) {n : Xml}
    (hn : n ∈ (root.child "nuclides").firstChild.children)
    (xs : ParticleType → Option Interaction) :
    interactions env root n = .ok xs ↔ DataOf env root n xs := by
  have hlisted : ∀ t, Listed root t ↔
      typeName t ∈ Text.words ((root.child "general").child "particles").text := by
    intro t
    unfold Listed
    constructor
    · rintro ⟨m, ws, hm, hws, ht⟩
      rw [general_child hv (by simp)] at hm
      subst hm
      rw [Text.words_iff] at hws
      rw [hws]
      exact ht
    · intro h
      exact ⟨_, _, (general_child hv (by simp) _).2 rfl, (Text.words_iff _ _).2 rfl, h⟩
  have hnd : (n.children.map Xml.name).Nodup := by
    obtain ⟨h1, h2⟩ := hv.nuclides
    have := h2 (root.child "nuclides").firstChild (by rw [(oneOf_firstChild h1).1]; simp)
    split at this
    · exact (this.2.2.2 n hn).2.1.2.1
    · exact (this.2 n hn).2.2.1.2.1
  unfold interactions DataOf
  rw [interactionsFrom_iff hnd _ (particles_named hv)]
  refine forall_congr' fun t => ?_
  rw [hlisted]
  refine and_congr (imp_congr_right fun _ => ?_) Iff.rfl
  constructor
  · rintro ⟨d, i, hd, hi, hx⟩
    exact ⟨d, i, hd, (interaction_iff hv hn hd.1 i).1 hi, by simpa using hx⟩
  · rintro ⟨d, i, hd, hi, hx⟩
    exact ⟨d, i, hd, (interaction_iff hv hn hd.1 i).2 hi, by simpa using hx⟩

end Input
end Minimc
