import Verif.Lemmas.InputSource
import Verif.Lemmas.Placement
import Verif.Props.World
import Verif.Props.Estimators
import Verif.Props.Source

/-! # Lemmas about reading estimators, the document and the driver -/

namespace Minimc

open Spec Schema Xml

namespace Input

/-! ### Estimators -/

/-- What the schema says of an estimator. -/
structure IsEstimator (env : Env) (n : Xml) : Prop where
  name : n.name = "current"
  attrs : Attrs n ["name", "surface"] []
  children : AllOf n [] ["bins", "sensitivities"]
  bins : ∀ d ∈ n.children, d.name = "bins" → ParticleBinType env d
  sensitivities : ∀ d ∈ n.children, d.name = "sensitivities" →
    ∀ p ∈ d.children, Attrs p [] ["name"]

theorem create_ok_iff (d : Option Direction) (c e : Res Bins) (b : ParticleBins) :
    ParticleBins.create d c e = .ok b ↔
      b.direction = d ∧ c = .ok b.cosine ∧ e = .ok b.energy ∧ b.strides = (b.energy.size, 1) := by
  unfold ParticleBins.create
  rw [noexcept_eq_ok]
  simp only [res_bind_ok]
  constructor
  · rintro ⟨c', hc, e', he, h⟩
    cases h
    exact ⟨rfl, hc, he, rfl⟩
  · rintro ⟨h1, h2, h3, h4⟩
    refine ⟨_, h2, _, h3, ?_⟩
    obtain ⟨b1, b2, b3, b4⟩ := b
    simp only at h1 h4
    subst h1 h4
    rfl

theorem cosineDirection_iff {env : Env} {n : Xml} (h : ParticleBinType env n)
    (o : Option Direction) :
    cosineDirection env (n.child "cosine") = .ok o ↔
      ((¬ ∃ c, Child n "cosine" c) ∧ o = none) ∨
      ∃ c x y z d, Child n "cosine" c ∧ Number env c "u" x ∧ Number env c "v" y ∧
        Number env c "w" z ∧ Along x y z d ∧ o = some d := by
  rcases child_cases h.1.2.1 (s := "cosine") (by simp) with ⟨hc, hnn, hu⟩ | ⟨hno, hnull⟩
  · have hb := (h.2 _ hc.1).2
    rw [if_pos hc.2] at hb
    obtain ⟨h1, h2⟩ := hb
    have hx := number_iff h1 (a := "u") (by simp) (h2 _ (by simp))
    have hy := number_iff h1 (a := "v") (by simp) (h2 _ (by simp))
    have hz := number_iff h1 (a := "w") (by simp) (h2 _ (by simp))
    unfold cosineDirection Direction.ofXYZ
    rw [hnn]
    simp only [Bool.false_eq_true, if_false, res_bind_ok, normalize_iff]
    constructor
    · rintro ⟨d, hd, e⟩
      cases e
      exact .inr ⟨_, _, _, _, d, hc, (hx _).2 rfl, (hy _).2 rfl, (hz _).2 rfl, hd, rfl⟩
    · rintro (⟨hno, -⟩ | ⟨c, x, y, z, d, hc', e1, e2, e3, hd, rfl⟩)
      · exact absurd ⟨_, hc⟩ hno
      · rw [← hu c hc'] at e1 e2 e3
        rw [hx] at e1
        rw [hy] at e2
        rw [hz] at e3
        subst e1 e2 e3
        exact ⟨_, hd, rfl⟩
  · rw [hnull]
    have : cosineDirection env null = .ok none := rfl
    rw [this]
    constructor
    · intro e; cases e; exact .inl ⟨hno, rfl⟩
    · rintro (⟨-, rfl⟩ | ⟨c, x, y, z, d, hc', -⟩)
      · rfl
      · exact absurd ⟨_, hc'⟩ hno

theorem along_unique {x y z : ℝ} {d d' : Direction} (h : Along x y z d) (h' : Along x y z d') :
    d = d' := by
  have h1 := (normalize_iff ⟨x, y, z⟩ d).2 h
  rw [(normalize_iff ⟨x, y, z⟩ d').2 h'] at h1
  simpa using h1.symm

theorem particleBins_iff {env : Env} {n : Xml} (h : IsEstimator env n) (b : ParticleBins) :
    particleBins env (n.child "bins") = .ok b ↔ ParticleBinsOf env n b := by
  unfold particleBins
  simp only [res_bind_ok, create_ok_iff]
  rcases child_cases h.children.2.1 (s := "bins") (by simp) with ⟨hc, hnn, hu⟩ | ⟨hno, hnull⟩
  · have hb := h.bins _ hc.1 hc.2
    simp only [cosineDirection_iff hb, axis_iff hb (s := "cosine") (by simp),
      axis_iff hb (s := "energy") (by simp)]
    constructor
    · rintro ⟨o, ho, h1, h2, h3, h4⟩
      refine ⟨.inl ⟨_, hc, h2, h3⟩, ?_, h4⟩
      rw [h1]
      rcases ho with ⟨hno, rfl⟩ | ⟨c, x, y, z, d, hc', e1, e2, e3, hd, rfl⟩
      · refine .inl ⟨?_, rfl⟩
        rintro ⟨c, a, ha, c', hc', rfl⟩
        rw [← hu a ha] at hc'
        exact hno ⟨_, hc'⟩
      · exact .inr ⟨c, x, y, z, d, ⟨_, hc, c, hc', rfl⟩, e1, e2, e3, hd, rfl⟩
    · rintro ⟨h1, h2, h3⟩
      rcases h1 with ⟨c, hc', h4, h5⟩ | ⟨hno, -⟩
      · rw [← hu c hc'] at h4 h5
        refine ⟨b.direction, ?_, rfl, h4, h5, h3⟩
        rcases h2 with ⟨hno, e⟩ | ⟨c2, x, y, z, d, ⟨a, ha, c', hc2, rfl⟩, e1, e2, e3, e4, e⟩
        · refine .inl ⟨?_, e⟩
          rintro ⟨k, hk⟩
          exact hno ⟨k, _, hc, k, hk, rfl⟩
        · rw [← hu a ha] at hc2
          exact .inr ⟨_, x, y, z, d, hc2, e1, e2, e3, e4, e⟩
      · exact absurd ⟨_, hc⟩ hno
  · rw [hnull]
    have h1 : cosineDirection env (null.child "cosine") = .ok none := rfl
    have h2 : bins env (null.child "cosine").firstChild = .ok .none := rfl
    have h3 : bins env (null.child "energy").firstChild = .ok .none := rfl
    rw [h1, h2, h3]
    constructor
    · rintro ⟨o, ho, e1, e2, e3, e4⟩
      cases ho
      refine ⟨.inr ⟨hno, (Except.ok.inj e2).symm, (Except.ok.inj e3).symm⟩, .inl ⟨?_, e1⟩, e4⟩
      rintro ⟨c, a, ha, -⟩
      exact hno ⟨a, ha⟩
    · rintro ⟨g1, g2, g3⟩
      rcases g1 with ⟨c, hc, -⟩ | ⟨-, e1, e2⟩
      · exact absurd ⟨c, hc⟩ hno
      · rcases g2 with ⟨-, e⟩ | ⟨c, x, y, z, d, ⟨a, ha, -⟩, -⟩
        · exact ⟨none, rfl, e, by rw [e1], by rw [e2], g3⟩
        · exact absurd ⟨a, ha⟩ hno

theorem isEstimator {env : Env} {root : Xml} (hv : Valid env root) :
    ∀ n ∈ (root.child "estimators").children, IsEstimator env n := by
  intro n hn
  rcases child_cases hv.elements.2.1 (s := "estimators") (by simp) with ⟨hc, -⟩ | ⟨-, hnull⟩
  · obtain ⟨h1, -, h3⟩ := hv.estimators _ hc.1 hc.2
    obtain ⟨g1, g2, g3, g4⟩ := h3 n hn
    exact ⟨by simpa using h1.2 n hn, g1, g2, g3, fun d hd e => (g4 d hd e).2.2⟩
  · rw [hnull] at hn
    cases hn

theorem estimator_of {env : Env} {n : Xml} (h : IsEstimator env n) :
    EstimatorNodeOf env n (estimator env n) := by
  refine ⟨?_, attrs_value h.attrs (by simp), attrs_value h.attrs (by simp), particleBins_iff h, ?_⟩
  · unfold estimator
    simp [h.name]
  · refine ⟨_, (grandchildren h.children.2.1 _ _).2 rfl, map_forall₂ ?_⟩
    intro p hp
    rcases child_cases h.children.2.1 (s := "sensitivities") (by simp) with ⟨hc, -⟩ | ⟨-, hnull⟩
    · exact attrString_orEmpty (h.sensitivities _ hc.1 hc.2 p hp).2.1 _
    · rw [hnull] at hp
      cases hp

theorem perturbations_iff {env : Env} {root : Xml} (hv : Valid env root)
    (qs : List PerturbationNode) :
    (root.child "perturbations").children.mapM perturbation = .ok qs ↔
      List.Forall₂ PerturbationNodeOf (root.child "perturbations").children qs := by
  apply mapM_iff
  intro n hn q
  rcases child_cases hv.elements.2.1 (s := "perturbations") (by simp) with ⟨hc, -⟩ | ⟨-, hnull⟩
  · obtain ⟨h1, -, h3⟩ := hv.perturbations _ hc.1 hc.2
    have ha := h3 n hn
    have hk : n.name = "total" := by simpa using h1.2 n hn
    unfold perturbation
    rw [if_pos hk]
    constructor
    · intro e
      cases e
      exact ⟨attrs_value ha (by simp), attrs_value ha (by simp)⟩
    · rintro ⟨e1, e2⟩
      rw [attrs_value_iff ha (by simp)] at e1 e2
      rw [e1, e2]
  · rw [hnull] at hn
    cases hn

theorem perturbations_ok {env : Env} {root : Xml} (hv : Valid env root) :
    ∃ qs, (root.child "perturbations").children.mapM perturbation = .ok qs := by
  have : List.Forall₂ PerturbationNodeOf (root.child "perturbations").children
      ((root.child "perturbations").children.map
        (fun n => ⟨n.attrString "name", n.attrString "nuclide"⟩)) := by
    apply map_forall₂
    intro n hn
    rcases child_cases hv.elements.2.1 (s := "perturbations") (by simp) with ⟨hc, -⟩ | ⟨-, hnull⟩
    · have ha := (hv.perturbations _ hc.1 hc.2).2.2 n hn
      exact ⟨attrs_value ha (by simp), attrs_value ha (by simp)⟩
    · rw [hnull] at hn
      cases hn
  exact ⟨_, (perturbations_iff hv _).2 this⟩

/-! ### The world -/

/-- The document of a valid file can be read, and it is as the schema promises. -/
theorem document_ok {env : Env} {root : Xml} (hv : Valid env root) :
    ∃ doc, document env root = .ok doc ∧ DocumentOf env root doc ∧ WellFormed doc := by
  have hsurf : ∃ ss, (root.child "surfaces").children.mapM (surface env) = .ok ss := by
    obtain ⟨h1, -, h3⟩ := hv.surfaces
    have : ∀ (l : List Xml), (∀ c ∈ l, c.name ∈ ["sphere", "planex", "cylinderx"]) →
        ∃ ss, l.mapM (surface env) = .ok ss := by
      intro l hl
      induction l with
      | nil => exact ⟨[], rfl⟩
      | cons a l ih =>
        obtain ⟨s, hs⟩ := surface_ok (env := env) (hl a (by simp))
        obtain ⟨ss, hss⟩ := ih (fun c hc => hl c (by simp [hc]))
        refine ⟨s :: ss, ?_⟩
        rw [List.mapM_cons, hs, hss]
        rfl
    exact this _ h1.2
  obtain ⟨ss, hss⟩ := hsurf
  have htemp : ∃ t, temperature env (root.child "temperature") = .ok t ∧
      ∀ f, t = some f ↔ ∃ n, Child root "temperature" n ∧ FieldOf env n f := by
    unfold temperature
    rcases child_cases hv.elements.2.1 (s := "temperature") (by simp) with
      ⟨hc, hnn, hu⟩ | ⟨hno, hnull⟩
    · have hf := hv.temperature _ hc.1 hc.2
      obtain ⟨f, hf'⟩ := field_ok hf
      rw [hnn, if_neg (by simp), hf']
      refine ⟨some f, rfl, fun g => ?_⟩
      constructor
      · intro e
        cases e
        exact ⟨_, hc, (field_iff hf _).1 hf'⟩
      · rintro ⟨n, hn, h⟩
        rw [← hu n hn, ← field_iff hf, hf'] at h
        rw [Except.ok.inj h]
    · rw [hnull]
      refine ⟨none, rfl, fun f => ?_⟩
      simp only [reduceCtorEq, false_iff]
      rintro ⟨n, hn, -⟩
      exact hno ⟨n, hn⟩
  obtain ⟨t, ht, ht'⟩ := htemp
  have hmat : ∀ c ∈ (root.child "materials").children, _ := fun c hc =>
    material_of (hv.materials.2.2 c hc).1 (hv.materials.2.2 c hc).2.1 (hv.materials.2.2 c hc).2.2.2.2
  have hcell : ∀ c ∈ (root.child "cells").children, _ := fun c hc =>
    cell_of (hv.cells.1.2 c hc) (hv.cells.2.2 c hc).1 (hv.cells.2.2 c hc).2
  refine ⟨⟨ss, (root.child "materials").children.map (material env),
    (root.child "nuclides").firstChild.children.map (nuclide env root), t,
    (root.child "cells").children.map (cell env)⟩, ?_, ⟨?_, ?_, ?_, ?_, ht'⟩, ?_, ?_, ?_⟩
  · unfold document
    rw [hss, ht]
    rfl
  · exact ⟨_, allOf_child hv.elements (by simp),
      (mapM_iff (fun n hn s => surface_iff (hv.surfaces.2.2 n hn) s) _).1 hss⟩
  · exact ⟨_, allOf_child hv.elements (by simp), map_forall₂ fun c hc => (hmat c hc).1⟩
  · refine ⟨_, _, allOf_child hv.elements (by simp), (oneOf_firstChild hv.nuclides.1).1,
      map_forall₂ fun c hc => ⟨?_, interactions_iff hv hc⟩⟩
    obtain ⟨h1, h2⟩ := hv.nuclides
    obtain ⟨h3, h4⟩ := oneOf_firstChild h1
    have h5 := h2 (root.child "nuclides").firstChild (by rw [h3]; simp)
    split at h5
    · exact attrs_value (h5.2.2.2 c hc).1 (by simp)
    · exact attrs_value (h5.2 c hc).1 (by simp)
  · exact ⟨_, allOf_child hv.elements (by simp), map_forall₂ fun c hc => (hcell c hc).1⟩
  · intro c hc
    obtain ⟨x, hx, rfl⟩ := List.mem_map.1 hc
    exact (hcell x hx).2.1
  · intro c hc
    obtain ⟨x, hx, rfl⟩ := List.mem_map.1 hc
    exact (hcell x hx).2.2
  · intro c hc
    obtain ⟨x, hx, rfl⟩ := List.mem_map.1 hc
    exact (hmat x hx).2.2

/-! ### Numbers of the general section -/

theorem general_optional {root : Xml} {env : Env} (hv : Valid env root) {s : String}
    (hs : s ≠ "") :
    (Reaches root ["general", s] ((root.child "general").child s) ∧
        ((root.child "general").child s).isNull = false ∧
        ∀ n, Reaches root ["general", s] n → (root.child "general").child s = n) ∨
      (¬ ∃ n, Reaches root ["general", s] n) ∧ (root.child "general").child s = null := by
  have hg := allOf_child hv.elements (s := "general") (by simp)
  have hu := allOf_child_iff hv.elements (s := "general") (by simp)
  rcases child_cases hv.general.1.2.1 hs with ⟨hc, hnn, hu'⟩ | ⟨hno, hnull⟩
  · refine .inl ⟨⟨_, hg, _, hc, rfl⟩, hnn, ?_⟩
    rintro n ⟨a, ha, b, hb, rfl⟩
    rw [hu] at ha
    subst ha
    exact hu' _ hb
  · refine .inr ⟨?_, hnull⟩
    rintro ⟨n, a, ha, b, hb, rfl⟩
    rw [hu] at ha
    subst ha
    exact hno ⟨_, hb⟩

theorem general_count {root : Xml} {env : Env} (hv : Valid env root) {s : String}
    (hs : s ∈ ["histories", "threads"]) :
    ∃ v, 0 < v ∧ Denotes ((root.child "general").child s).text v := by
  have hs' : s ∈ ["particles", "histories", "threads", "chunksize"] := by
    simp only [List.mem_cons, List.not_mem_nil, or_false] at hs ⊢
    tauto
  have hc := allOf_child hv.general.1 hs'
  have h := hv.general.2 _ hc.1
  rw [hc.2, if_neg, if_neg] at h
  · obtain ⟨v, h1, h2⟩ := Text.positiveInteger_denotes h
    exact ⟨v, h2, h1⟩
  · rintro rfl; simp at hs
  · rintro rfl; simp at hs

theorem general_seed {root : Xml} {env : Env} (hv : Valid env root) :
    ∃ v, 0 < v ∧ ((∃ n, Reaches root ["general", "seed"] n ∧ Denotes n.text v) ∨
      (¬ ∃ n, Reaches root ["general", "seed"] n) ∧ v = 1) ∧
      seed (root.child "general") = if v < 2 ^ 31 then .ok v else .error .outOfRange := by
  unfold seed
  rcases general_optional hv (s := "seed") (by simp) with ⟨hr, hnn, -⟩ | ⟨hno, hnull⟩
  · obtain ⟨a, ha, b, hb, e⟩ := hr
    have hc : Child (root.child "general") "seed" ((root.child "general").child "seed") := by
      rw [allOf_child_iff hv.elements (by simp)] at ha
      subst ha
      rw [child_of hv.general.1.2.1 hb]
      exact hb
    have h := hv.general.2 _ hc.1
    rw [hc.2, if_neg (by simp), if_neg (by simp)] at h
    obtain ⟨v, h1, h2⟩ := Text.positiveInteger_denotes h
    refine ⟨v, h2, .inl ⟨_, ⟨a, ha, b, hb, e⟩, h1⟩, ?_⟩
    rw [hnn]
    exact Text.stoi_denotes h1
  · refine ⟨1, one_pos, .inr ⟨hno, rfl⟩, ?_⟩
    rw [hnull]
    have : null.isNull = true := rfl
    rw [this, if_pos rfl]
    have hd : Denotes "1" 1 := by
      refine ⟨[], [], ['1'], [], rfl, by simp, by simp, .inl rfl, by simp, ?_, ?_⟩
      · intro c hc
        simp only [List.mem_singleton] at hc
        subst hc
        decide
      · simp [digit]
    exact Text.stoi_denotes hd

theorem general_tracking {root : Xml} {env : Env} (hv : Valid env root) (w : World) :
    ((∃ n, Reaches root ["general", "tracking"] n ∧ n.text = "cell delta") ∧
      createMethod (tracking ((root.child "general").child "tracking").text) w =
        .ok .cellDeltaTracking) ∨
    ((¬ ∃ n, Reaches root ["general", "tracking"] n ∧ n.text = "cell delta") ∧
      createMethod (tracking ((root.child "general").child "tracking").text) w =
        if w.temperature.isConstant then .ok .surfaceTracking else .error .runtimeError) := by
  rcases general_optional hv (s := "tracking") (by simp) with ⟨hr, hnn, hu⟩ | ⟨hno, hnull⟩
  · obtain ⟨a, ha, b, hb, e⟩ := hr
    have hc : Child (root.child "general") "tracking" ((root.child "general").child "tracking") := by
      rw [allOf_child_iff hv.elements (by simp)] at ha
      subst ha
      rw [child_of hv.general.1.2.1 hb]
      exact hb
    have h := hv.general.2 _ hc.1
    rw [hc.2, if_neg (by simp), if_pos rfl] at h
    rcases h with h | h
    · refine .inr ⟨?_, ?_⟩
      · rintro ⟨n, hn, ht⟩
        rw [hu n hn] at h
        rw [h] at ht
        simp at ht
      · rw [h]
        rfl
    · refine .inl ⟨⟨_, ⟨a, ha, b, hb, e⟩, h⟩, ?_⟩
      rw [h]
      rfl
  · refine .inr ⟨?_, ?_⟩
    · rintro ⟨n, hn, -⟩
      exact hno ⟨n, hn⟩
    · rw [hnull]
      rfl

/-! ### The driver -/

/-- What the program reads of the parts. -/
structure Reads {env : Env} {root : Xml} (parts : Parts env root) : Prop where
  doc : document env root = .ok parts.doc
  wellFormed : WellFormed parts.doc
  perturbations : (root.child "perturbations").children.mapM perturbation = .ok parts.perturbations
  estimators : (root.child "estimators").children.map (estimator env) = parts.estimators
  histories : Text.stoi ((root.child "general").child "histories").text =
    (if parts.histories < 2 ^ 31 then .ok parts.histories else .error .outOfRange)
  seed : seed (root.child "general") =
    (if parts.seed < 2 ^ 31 then .ok parts.seed else .error .outOfRange)
  threads : Text.stoull ((root.child "general").child "threads").text =
    (if parts.threads < 2 ^ 64 then .ok parts.threads else .error .outOfRange)

/-- A valid file describes the parts of a driver. -/
theorem parts_exist {env : Env} {root : Xml} (hv : Valid env root) :
    ∃ parts : Parts env root, Reads parts := by
  obtain ⟨doc, hdoc, hdoc', hw⟩ := document_ok hv
  obtain ⟨qs, hqs⟩ := perturbations_ok hv
  obtain ⟨h, -, hh⟩ := general_count hv (s := "histories") (by simp)
  obtain ⟨t, -, ht⟩ := general_count hv (s := "threads") (by simp)
  obtain ⟨s, -, hs, hs'⟩ := general_seed hv
  refine ⟨⟨doc, qs, (root.child "estimators").children.map (estimator env), h, t, s, _, hdoc',
    ⟨_, (grandchildren hv.elements.2.1 _ _).2 rfl, (perturbations_iff hv _).1 hqs⟩,
    ⟨_, (grandchildren hv.elements.2.1 _ _).2 rfl,
      map_forall₂ fun n hn => estimator_of (isEstimator hv n hn)⟩,
    ⟨_, (general_child hv (by simp) _).2 rfl, hh⟩, ⟨_, (general_child hv (by simp) _).2 rfl, ht⟩,
    hs, Iff.rfl⟩, hdoc, hw, hqs, rfl, Text.stoi_denotes hh, hs', ?_⟩
  exact Text.stoull_start (Text.startsWith_of_denotes ht)

theorem configured_of {env : Env} {n : Xml} {d : DirectionDist} (h : DirectionOf env n d) :
    Props.Configured d := by
  cases h with
  | constant _ _ h => exact (Point.unitVec_iff _).2 h.1
  | isotropic => trivial
  | isotropicFlux _ _ h => exact (Point.unitVec_iff _).2 h.1

theorem sourceBank_ok {s : Source} (h : Props.Configured s.direction) (n : ℕ) :
    ∃ b, keigenSourceBank s n = .ok b := by
  have : ∀ l : List ℕ, ∃ born, l.mapM s.sample = .ok born := by
    intro l
    induction l with
    | nil => exact ⟨[], rfl⟩
    | cons a l ih =>
      obtain ⟨b, hb, -⟩ := Props.C51_source_particle s h a
      obtain ⟨bs, hbs⟩ := ih
      refine ⟨b :: bs, ?_⟩
      rw [List.mapM_cons, hb, hbs]
      rfl
  obtain ⟨born, hb⟩ := this (List.range' 1 n)
  refine ⟨born.map Particle.ofBorn, ?_⟩
  unfold keigenSourceBank
  rw [hb]
  rfl

theorem map_perturbation_names {w : World} {nodes : List PerturbationNode} {qs : List Perturbation}
    (h : List.Forall₂ (PerturbationOf w) nodes qs) :
    qs.map Perturbation.name = nodes.map PerturbationNode.name := by
  induction h with
  | nil => rfl
  | cons h _ ih => rw [List.map_cons, List.map_cons, ih, h.name]

/-- The driver is made if and only if the parts can be put together. -/
theorem driver_iff {env : Env} (hu : Unsigned env) {root : Xml} (hv : Valid env root)
    {addr : Addresses} (hs : Function.Injective addr.surface)
    (hn : Function.Injective addr.nuclide) {n : Xml} (ht : SourceType env n) {eigen : Prop}
    (he : SourceElement root eigen n)
    (hone : ∀ eigen' n', SourceElement root eigen' n' → n' = n) {parts : Parts env root}
    (hr : Reads parts) :
      ((∃ P, driver env addr root (source env root n) = .ok P) ↔ Buildable parts) ∧
      ∀ P, driver env addr root (source env root n) = .ok P → ProblemOf parts P := by
  obtain ⟨hdoc, hw, hqs, hes, hh, hseed, hthreads⟩ := hr
  have hlen : ((List.range parts.perturbations.length).map addr.perturbation).length =
      parts.perturbations.length := by simp
  have hdelta := parts.isDelta
  have key : ∀ P, driver env addr root (source env root n) = .ok P ↔
      ∃ w, WorldBuild.create parts.doc addr.surface addr.nuclide = .ok w ∧
      ∃ qs, createPerturbations w ((List.range parts.perturbations.length).map addr.perturbation)
        parts.perturbations = .ok qs ∧
      parts.histories < 2 ^ 31 ∧ parts.seed < 2 ^ 31 ∧
      ∃ init, createEstimatorSet w qs parts.estimators parts.histories = .ok init ∧
      parts.threads < 2 ^ 64 ∧
      ∃ m, ((parts.delta ∧ m = .cellDeltaTracking) ∨
        (¬ parts.delta ∧ w.temperature.isConstant = true ∧ m = .surfaceTracking)) ∧
      ∃ s, source env root n = .ok s ∧
      P = ⟨w, qs, parts.histories, parts.seed, init, parts.threads, m, s⟩ := by
    intro P
    unfold driver
    simp only [res_bind_ok, hdoc, hqs, hes, hh, hseed, hthreads]
    constructor
    · rintro ⟨doc, e1, w, hw', nodes, e2, qs, hqs', h, hh', sd, hsd, init, hi, th, hth, m, hm, s,
        hs', e⟩
      cases e1
      cases e2
      split at hh'
      case isFalse => cases hh'
      cases hh'
      split at hsd
      case isFalse => cases hsd
      cases hsd
      split at hth
      case isFalse => cases hth
      cases hth
      cases e
      refine ⟨w, hw', qs, hqs', ‹_›, ‹_›, init, hi, ‹_›, m, ?_, s, hs', rfl⟩
      rcases general_tracking hv w with ⟨h1, h2⟩ | ⟨h1, h2⟩
      · rw [h2] at hm
        exact .inl ⟨hdelta.2 h1, (Except.ok.inj hm).symm⟩
      · rw [h2] at hm
        split at hm
        · exact .inr ⟨fun h => h1 (hdelta.1 h), ‹_›, (Except.ok.inj hm).symm⟩
        · cases hm
    · rintro ⟨w, hw', qs, hqs', h1, h2, init, hi, h3, m, hm, s, hs', rfl⟩
      refine ⟨_, rfl, w, hw', _, rfl, qs, hqs', _, if_pos h1, _, if_pos h2, init, hi, _, if_pos h3,
        m, ?_, s, hs', rfl⟩
      rcases general_tracking hv w with ⟨g1, g2⟩ | ⟨g1, g2⟩
      · rcases hm with ⟨-, rfl⟩ | ⟨hm, -⟩
        · exact g2
        · exact absurd (hdelta.2 g1) hm
      · rcases hm with ⟨hm, -⟩ | ⟨-, hc, rfl⟩
        · exact absurd (hdelta.1 hm) g1
        · rw [g2, hc]
          rfl
  have htemp : ∀ w : World, WorldBuild.create parts.doc addr.surface addr.nuclide = .ok w →
      (w.temperature.isConstant = true ↔
        ∀ f, parts.doc.temperature = some f → f.isConstant = true) := by
    intro w hw'
    have := (Props.C48_cells hw hs hw').2.2.2
    rw [this]
    rcases parts.doc.temperature with _ | f
    · simp [ScalarField.isConstant]
    · simp
  have hnuc : ∀ w : World, WorldBuild.create parts.doc addr.surface addr.nuclide = .ok w →
      ∀ s, (∃ x ∈ w.nuclides, x.name = s) ↔
        ∃ xs, UsedNuclides parts.doc (usedMaterials parts.doc) xs ∧ s ∈ xs := by
    intro w hw' s
    obtain ⟨xs, h1, h2, -⟩ := Props.C48_nuclides hw'
    constructor
    · rintro ⟨x, hx, rfl⟩
      refine ⟨xs, h1, WorldBuild.mem_eraseDups.1 ?_⟩
      rw [← h2]
      exact List.mem_map_of_mem hx
    · rintro ⟨ys, h3, h4⟩
      rw [usedNuclides_unique h3 h1] at h4
      have := WorldBuild.mem_eraseDups.2 h4
      rw [← h2] at this
      obtain ⟨x, hx, e⟩ := List.mem_map.1 this
      exact ⟨x, hx, e⟩
  have hsur : ∀ w : World, WorldBuild.create parts.doc addr.surface addr.nuclide = .ok w →
      ∀ s, (∃ x ∈ w.surfaces, x.name = s) ↔ s ∈ usedSurfaces parts.doc := by
    intro w hw' s
    obtain ⟨h2, -⟩ := Props.C48_surfaces hw'
    rw [← WorldBuild.mem_eraseDups, ← h2, List.mem_map]
  refine ⟨⟨?_, ?_⟩, ?_⟩
  · rintro ⟨P, hP⟩
    obtain ⟨w, hw', qs, hqs', h1, h2, init, hi, h3, m, hm, s, hs', rfl⟩ := (key P).1 hP
    have hdef := (Props.C48_built_iff hw addr.surface addr.nuclide).1.1 ⟨w, hw'⟩
    obtain ⟨p1, p2⟩ := Props.C57_perturbations (w := w) hlen
    have hall : ∀ q ∈ parts.perturbations, ∃ x ∈ w.nuclides, x.name = q.nuclide := by
      by_contra hcon
      rw [p2 hcon] at hqs'
      cases hqs'
    obtain ⟨qs', e1, -, e2⟩ := p1 hall
    rw [hqs'] at e1
    cases e1
    have hnames := map_perturbation_names e2
    have hnode := (Props.C57_built_iff (parts.histories : ℝ)).1 ⟨init, hi⟩
    refine ⟨hdef, fun q hq => (hnuc w hw' _).1 (hall q hq),
      fun e he => (hsur w hw' _).1 (hnode e he).surface, ?_, fun e he => (hnode e he).bins, h1, h2,
      h3, ?_, ⟨eigen, n, s, he, (source_iff hu hv ht s).1 hs'⟩⟩
    · intro e he x hx
      obtain ⟨q, hq, rfl⟩ := (hnode e he).sensitivities x hx
      have : q.name ∈ parts.perturbations.map PerturbationNode.name := by
        rw [← hnames]
        exact List.mem_map_of_mem hq
      obtain ⟨q', hq', e'⟩ := List.mem_map.1 this
      exact ⟨q', hq', e'⟩
    · rcases hm with ⟨hd, -⟩ | ⟨-, hc, -⟩
      · exact .inl hd
      · exact .inr ((htemp w hw').1 hc)
  · intro hb
    obtain ⟨w, hw'⟩ := (Props.C48_built_iff hw addr.surface addr.nuclide).1.2 hb.defined
    obtain ⟨qs, hqs', -, e2⟩ := (Props.C57_perturbations (w := w) hlen).1
      (fun q hq => (hnuc w hw' _).2 (hb.nuclides q hq))
    have hnames := map_perturbation_names e2
    have hnode : ∀ e ∈ parts.estimators, NodeDefined w qs e := by
      intro e he
      refine ⟨?_, hb.bins e he, (hsur w hw' _).2 (hb.surfaces e he), ?_⟩
      · rw [← hes] at he
        obtain ⟨x, hx, rfl⟩ := List.mem_map.1 he
        exact (estimator_of (isEstimator hv x hx)).isCurrent
      · intro x hx
        obtain ⟨q, hq, rfl⟩ := hb.sensitivities e he x hx
        have : q.name ∈ qs.map Perturbation.name := by
          rw [hnames]
          exact List.mem_map_of_mem hq
        obtain ⟨q', hq', e'⟩ := List.mem_map.1 this
        exact ⟨q', hq', e'⟩
    obtain ⟨init, hi⟩ := (Props.C57_built_iff (parts.histories : ℝ)).2 hnode
    obtain ⟨eigen', n', s, he', hs'⟩ := hb.source
    rw [hone _ _ he'] at hs'
    by_cases hd : parts.delta
    · exact ⟨_, (key _).2 ⟨w, hw', qs, hqs', hb.histories, hb.seed, init, hi, hb.threads, _,
        .inl ⟨hd, rfl⟩, s, (source_iff hu hv ht s).2 hs', rfl⟩⟩
    · exact ⟨_, (key _).2 ⟨w, hw', qs, hqs', hb.histories, hb.seed, init, hi, hb.threads, _,
        .inr ⟨hd, (htemp w hw').2 (hb.tracking.resolve_left hd), rfl⟩, s,
        (source_iff hu hv ht s).2 hs', rfl⟩⟩
  · intro P hP
    obtain ⟨w, hw', qs, hqs', h1, h2, init, hi, h3, m, hm, s, hs', rfl⟩ := (key P).1 hP
    obtain ⟨p1, p2⟩ := Props.C57_perturbations (w := w) hlen
    have hall : ∀ q ∈ parts.perturbations, ∃ x ∈ w.nuclides, x.name = q.nuclide := by
      by_contra hcon
      rw [p2 hcon] at hqs'
      cases hqs'
    obtain ⟨qs', e1, -, e2⟩ := p1 hall
    rw [hqs'] at e1
    cases e1
    have hnode := (Props.C57_built_iff (parts.histories : ℝ)).1 ⟨init, hi⟩
    obtain ⟨init', hi', hwt, hest⟩ := Props.C57_set_as_described hnode (parts.histories : ℝ)
    rw [hi] at hi'
    cases hi'
    obtain ⟨hc1, -, -, hc4⟩ := Props.C48_cells hw hs hw'
    refine ⟨⟨Props.C48_surfaces hw', Props.C48_nuclides hw', Props.C48_materials hw hn hw', hc1, hc4⟩,
      e2, hest, hwt, rfl, rfl, rfl, ⟨?_, ?_⟩, ⟨eigen, n, he, (source_iff hu hv ht s).1 hs'⟩⟩
    · intro hd
      rcases hm with ⟨-, hm⟩ | ⟨hm, -⟩
      · exact hm
      · exact absurd hd hm
    · intro hd
      rcases hm with ⟨hm, -⟩ | ⟨-, -, hm⟩
      · exact absurd hm hd
      · exact hm

end Input
end Minimc
