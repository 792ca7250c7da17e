import Verif.Lemmas.InputData
import Verif.Lemmas.Point
import Verif.Lemmas.Bins

/-! # Lemmas about reading bins, estimators and sources -/

namespace Minimc

open Spec Schema Xml

namespace Input

/-! ### Directions -/

theorem normalize_iff (p : Point) (d : Direction) : p.normalize = .ok d ↔ Along p.x p.y p.z d := by
  constructor
  · intro h
    have hne : p ≠ ⟨0, 0, 0⟩ := by
      intro e
      have : p.dot p = 0 := (Point.dot_self_eq_zero_iff p).2 e
      unfold Point.normalize at h
      rw [if_pos this] at h
      cases h
    obtain ⟨d', hd', hu, k, hk, e⟩ := Point.normalize_ok hne
    rw [h] at hd'
    cases hd'
    have hu' : d.dot d = 1 := (Point.unitVec_iff d).1 hu
    refine ⟨?_, k, hk, ?_, ?_, ?_⟩
    · simpa [Point.dot] using hu'
    · rw [e]; simp [mul_comm]
    · rw [e]; simp [mul_comm]
    · rw [e]; simp [mul_comm]
  · rintro ⟨hu, t, ht, hx, hy, hz⟩
    have hpp : p.dot p = t * t := by
      have : p.dot p = p.x * p.x + p.y * p.y + p.z * p.z := rfl
      rw [this, hx, hy, hz]
      linear_combination (t * t) * hu
    have hne : p.dot p ≠ 0 := by rw [hpp]; positivity
    unfold Point.normalize
    rw [if_neg hne, hpp, Real.sqrt_mul_self ht.le]
    congr 1
    unfold Point.sdiv
    have : t ≠ 0 := ht.ne'
    ext
    · simp only [hx]; field_simp
    · simp only [hy]; field_simp
    · simp only [hz]; field_simp

theorem direction_iff {env : Env} {n : Xml} (h : DirectionType env n) (d : DirectionDist) :
    directionDist env n = .ok d ↔ DirectionOf env n d := by
  obtain ⟨h1, h2⟩ := h
  have hc := oneOf_child_iff h1
  obtain ⟨-, hname⟩ := oneOf_firstChild h1
  simp only [List.mem_cons, List.not_mem_nil, or_false] at hname
  unfold directionDist direction
  rcases hname with hk | hk | hk
  · have hp := point_iff (h2 (by rw [hk]; simp))
    rw [if_pos hk]
    simp only [res_bind_ok, normalize_iff]
    constructor
    · rintro ⟨d', hd', e⟩
      cases e
      exact .constant ((hc _ _).2 ⟨rfl, hk⟩) ((hp _).2 rfl) hd'
    · intro e
      cases e with
      | constant e1 e2 e3 =>
        rw [hc] at e1
        obtain ⟨rfl, -⟩ := e1
        rw [hp] at e2
        subst e2
        exact ⟨_, e3, rfl⟩
      | isotropic e1 => rw [hc, hk] at e1; simp at e1
      | isotropicFlux e1 => rw [hc, hk] at e1; simp at e1
  · rw [if_neg (by rw [hk]; simp), if_pos hk]
    constructor
    · intro e
      cases e
      exact .isotropic ((hc _ _).2 ⟨rfl, hk⟩)
    · intro e
      cases e with
      | constant e1 => rw [hc, hk] at e1; simp at e1
      | isotropic e1 => rfl
      | isotropicFlux e1 => rw [hc, hk] at e1; simp at e1
  · have hp := point_iff (h2 (by rw [hk]; simp))
    rw [if_neg (by rw [hk]; simp), if_neg (by rw [hk]; simp), if_pos hk]
    simp only [res_bind_ok, normalize_iff]
    constructor
    · rintro ⟨d', hd', e⟩
      cases e
      exact .isotropicFlux ((hc _ _).2 ⟨rfl, hk⟩) ((hp _).2 rfl) hd'
    · intro e
      cases e with
      | constant e1 => rw [hc, hk] at e1; simp at e1
      | isotropic e1 => rw [hc, hk] at e1; simp at e1
      | isotropicFlux e1 e2 e3 =>
        rw [hc] at e1
        obtain ⟨rfl, -⟩ := e1
        rw [hp] at e2
        subst e2
        exact ⟨_, e3, rfl⟩

/-! ### Source -/

theorem energy_iff {env : Env} (hu : Unsigned env) {root : Xml} (hv : Valid env root) {n : Xml}
    (h1 : OneOf n ["constant"]) (h2 : Attrs n.firstChild ["energy"] [])
    (h3 : Val n.firstChild "energy" (Positive env)) (e : Energy) :
    energyDist env root n = .ok e ↔ EnergyOf env root n e := by
  have hroot := hv.elements.2.1
  have hex := allOf_child hv.elements (s := "nuclides") (by simp)
  have hpath := nuclides_path hroot hex hv.nuclides
  obtain ⟨-, hkind⟩ := oneOf_firstChild hv.nuclides.1
  have hc := oneOf_child_iff h1
  have hk : n.firstChild.name = "constant" := by simpa using (oneOf_firstChild h1).2
  have ha := attrs_value_iff h2 (a := "energy") (by simp)
  have hnum := number_iff h2 (a := "energy") (by simp) (double_of_positive h3)
  have hval := (attr_iff h2.2.1 _ _).1 ((ha _).2 rfl)
  obtain ⟨x, hx, hpos⟩ := h3 _ hval
  unfold energyDist
  rw [if_pos hk]
  simp only [List.mem_cons, List.not_mem_nil, or_false] at hkind
  rcases hkind with hm | hm
  · rw [if_pos hm]
    simp only [res_bind_ok]
    constructor
    · rintro ⟨v, hs, e'⟩
      cases e'
      rcases Text.stoull_unsigned (hu _ x hx hpos) with ⟨w, hw⟩ | herr
      · rw [Text.stoull_start hw] at hs
        split at hs
        · rename_i hlt
          cases hs
          exact .group ((hpath _ _).2 ⟨rfl, hm⟩) ((hc _ _).2 ⟨rfl, hk⟩) ((ha _).2 rfl) hw hlt
        · cases hs
      · rw [herr] at hs
        cases hs
    · intro h
      cases h with
      | group e1 e2 e3 e4 e5 =>
        rw [hc] at e2
        obtain ⟨rfl, -⟩ := e2
        rw [ha] at e3
        subst e3
        exact ⟨_, by rw [Text.stoull_start e4, if_pos e5], rfl⟩
      | continuous e1 => rw [hpath, hm] at e1; simp at e1
  · rw [if_neg (by rw [hm]; simp), if_pos hm]
    unfold stod
    rw [hx]
    simp only [res_bind_ok]
    have hxx : attrReal env n.firstChild "energy" = x := by
      unfold attrReal
      rw [hval]
      simp only [hx, Option.getD_some]
    constructor
    · rintro ⟨y, hy, e'⟩
      cases e'
      cases hy
      exact .continuous ((hpath _ _).2 ⟨rfl, hm⟩) ((hc _ _).2 ⟨rfl, hk⟩) ((hnum _).2 hxx)
    · intro h
      cases h with
      | group e1 => rw [hpath, hm] at e1; simp at e1
      | continuous e1 e2 e3 =>
        rw [hc] at e2
        obtain ⟨rfl, -⟩ := e2
        rw [hnum, hxx] at e3
        subst e3
        exact ⟨_, rfl, rfl⟩

theorem typeDist_iff {n : Xml} (h1 : OneOf n ["constant"]) (h2 : Attrs n.firstChild [] ["type"])
    (t : ParticleType) :
    typeDist n = .ok t ↔ ∃ c, Child n "constant" c ∧ HasAttr c "type" (typeName t) := by
  have hc := oneOf_child_iff h1
  have hk : n.firstChild.name = "constant" := by simpa using (oneOf_firstChild h1).2
  unfold typeDist
  rw [if_pos hk, toType_iff]
  constructor
  · intro h
    refine ⟨_, (hc _ _).2 ⟨rfl, hk⟩, ?_⟩
    rw [← h]
    rcases attrString_orEmpty h2.2.1 "type" with h' | ⟨-, he⟩
    · exact h'
    · rw [he] at h
      cases t <;> simp [typeName] at h
  · rintro ⟨c, h3, h4⟩
    rw [hc] at h3
    obtain ⟨rfl, -⟩ := h3
    exact (attrString_orEmpty_iff h2.2.1 _ _).1 (.inl h4)

theorem source_iff {env : Env} (hu : Unsigned env) {root : Xml} (hv : Valid env root) {n : Xml}
    (h : SourceType env n) (src : Source) :
    source env root n = .ok src ↔ SourceOf env root n src := by
  obtain ⟨h1, h2, h3, h4, h5, h6, h7, h8, h9, -⟩ := h
  have hpos : ∀ p, positionDist env (n.child "position") = .ok p ↔
      ∃ c, Reaches n ["position", "constant"] c ∧ PointOf env c p := by
    intro p
    have hk : (n.child "position").firstChild.name = "constant" := by
      simpa using (oneOf_firstChild h2).2
    unfold positionDist
    rw [if_pos hk]
    simp only [Except.ok.injEq, Reaches]
    constructor
    · rintro rfl
      exact ⟨_, ⟨_, allOf_child h1 (by simp), _, (oneOf_child_iff h2 _ _).2 ⟨rfl, hk⟩, rfl⟩,
        (point_iff h3 _).2 rfl⟩
    · rintro ⟨c, ⟨a, ha, b, hb, rfl⟩, hp⟩
      rw [allOf_child_iff h1 (by simp)] at ha
      subst ha
      rw [oneOf_child_iff h2] at hb
      obtain ⟨rfl, -⟩ := hb
      exact (point_iff h3 _).1 hp
  unfold source
  simp only [res_bind_ok, hpos, direction_iff h4, energy_iff hu hv h5 h6 h7, typeDist_iff h8 h9]
  constructor
  · rintro ⟨p, hp, d, hd, e, he, t, ⟨c, ht, ht'⟩, e'⟩
    cases e'
    exact ⟨hp, ⟨_, allOf_child h1 (by simp), hd⟩, ⟨_, allOf_child h1 (by simp), he⟩,
      ⟨c, ⟨_, allOf_child h1 (by simp), c, ht, rfl⟩, ht'⟩⟩
  · rintro ⟨hp, ⟨a, ha, hd⟩, ⟨b, hb, he⟩, ⟨c, ⟨k, hk, c', hc, rfl⟩, ht⟩⟩
    rw [allOf_child_iff h1 (by simp)] at ha hb hk
    subst ha hb hk
    exact ⟨_, hp, _, hd, _, he, _, ⟨_, hc, ht⟩, rfl⟩

/-! ### Estimators -/

theorem bins_iff {env : Env} {n : Xml} (h : BinType env n) (b : Bins) :
    bins env n.firstChild = .ok b ↔ BinsOf env n b := by
  obtain ⟨h1, h2⟩ := h
  have hc := oneOf_child_iff h1
  obtain ⟨-, hname⟩ := oneOf_firstChild h1
  simp only [List.mem_cons, List.not_mem_nil, or_false] at hname
  unfold BinElement at h2
  unfold bins
  rcases hname with hk | hk | hk
  · rw [hk, if_neg (by simp), if_neg (by simp)] at h2
    obtain ⟨h3, h4, h5⟩ := h2
    obtain ⟨v, hv, -, hu, he⟩ := count_iff h3 (a := "bins") (by simp) h5
    have hmin := number_iff h3 (a := "min") (by simp) (h4 _ (by simp))
    have hmax := number_iff h3 (a := "max") (by simp) (h4 _ (by simp))
    rw [hk, if_neg (by simp), if_pos rfl, he]
    constructor
    · intro e
      exact .linspace ((hc _ _).2 ⟨rfl, hk⟩) hv ((hmin _).2 rfl) ((hmax _).2 rfl) e
    · intro e
      cases e with
      | linspace e1 e2 e3 e4 e5 =>
        rw [hc] at e1
        obtain ⟨rfl, -⟩ := e1
        rw [hmin] at e3
        rw [hmax] at e4
        rw [hu _ e2, ← e3, ← e4] at e5
        exact e5
      | logspace e1 => rw [hc, hk] at e1; simp at e1
      | boundaries e1 => rw [hc, hk] at e1; simp at e1
  · rw [hk, if_neg (by simp), if_pos rfl] at h2
    obtain ⟨h3, h4, h5⟩ := h2
    obtain ⟨v, hv, -, hu, he⟩ := count_iff h3 (a := "bins") (by simp) h5
    have hmin := number_iff h3 (a := "min") (by simp) (h4 _ (by simp))
    have hmax := number_iff h3 (a := "max") (by simp) (h4 _ (by simp))
    have hbase : ∀ x, (Number env n.firstChild "base" x ∨
        (¬ ∃ v, HasAttr n.firstChild "base" v) ∧ x = 10) ↔
        attrReal env n.firstChild "base" 10 = x := by
      intro x
      unfold attrReal Number
      rcases hb : n.firstChild.attr "base" with _ | s
      · simp only
        constructor
        · rintro (⟨u, hu', -⟩ | ⟨-, rfl⟩)
          · rw [attr_iff h3.2.1, hb] at hu'
            cases hu'
          · rfl
        · rintro rfl
          refine .inr ⟨?_, rfl⟩
          rintro ⟨u, hu'⟩
          rw [attr_iff h3.2.1, hb] at hu'
          cases hu'
      · obtain ⟨y, hy⟩ := h4 "base" (by simp) s hb
        simp only [hy, Option.getD_some]
        constructor
        · rintro (⟨u, hu', hx⟩ | ⟨hno, -⟩)
          · rw [attr_iff h3.2.1, hb] at hu'
            cases hu'
            rw [hy] at hx
            exact Option.some.inj hx
          · exact absurd ⟨s, (attr_iff h3.2.1 _ _).2 hb⟩ hno
        · rintro rfl
          exact .inl ⟨s, (attr_iff h3.2.1 _ _).2 hb, hy⟩
    rw [hk, if_neg (by simp), if_neg (by simp), if_pos rfl, he]
    constructor
    · intro e
      exact .logspace ((hc _ _).2 ⟨rfl, hk⟩) hv ((hmin _).2 rfl) ((hmax _).2 rfl)
        ((hbase _).2 rfl) e
    · intro e
      cases e with
      | linspace e1 => rw [hc, hk] at e1; simp at e1
      | logspace e1 e2 e3 e4 e5 e6 =>
        rw [hc] at e1
        obtain ⟨rfl, -⟩ := e1
        rw [hmin] at e3
        rw [hmax] at e4
        rw [hbase] at e5
        rw [hu _ e2, ← e3, ← e4, ← e5] at e6
        exact e6
      | boundaries e1 => rw [hc, hk] at e1; simp at e1
  · rw [hk, if_pos rfl] at h2
    have hx := Text.numbers_iff h2.2
    rw [hk, if_neg (by simp), if_neg (by simp), if_neg (by simp), if_pos rfl]
    constructor
    · intro e
      exact .boundaries ((hc _ _).2 ⟨rfl, hk⟩) ((hx _).2 rfl) e
    · intro e
      cases e with
      | linspace e1 => rw [hc, hk] at e1; simp at e1
      | logspace e1 => rw [hc, hk] at e1; simp at e1
      | boundaries e1 e2 e3 =>
        rw [hc] at e1
        obtain ⟨rfl, -⟩ := e1
        rw [hx] at e2
        rw [e2]
        exact e3

/-- The bins of one axis. -/
theorem axis_iff {env : Env} {n : Xml} (h : ParticleBinType env n) {s : String}
    (hs : s ∈ ["energy", "cosine"]) (b : Bins) :
    bins env (n.child s).firstChild = .ok b ↔ AxisOf env n s b := by
  have hne : s ≠ "" := by
    simp only [List.mem_cons, List.not_mem_nil, or_false] at hs
    rcases hs with rfl | rfl <;> simp
  unfold AxisOf
  rcases child_cases h.1.2.1 hne with ⟨hc, -, hu⟩ | ⟨hno, hnull⟩
  · rw [bins_iff (h.2 _ hc.1).1]
    constructor
    · intro e; exact .inl ⟨_, hc, e⟩
    · rintro (⟨c, hc', e⟩ | ⟨hno, -⟩)
      · rw [hu c hc']; exact e
      · exact absurd ⟨_, hc⟩ hno
  · rw [hnull]
    have : bins env null.firstChild = .ok .none := rfl
    rw [this]
    constructor
    · intro e; cases e; exact .inr ⟨hno, rfl⟩
    · rintro (⟨c, hc', -⟩ | ⟨-, rfl⟩)
      · exact absurd ⟨_, hc'⟩ hno
      · rfl

end Input
end Minimc
