import Verif.Lemmas.InputDriver

/-! # Lemmas about how reading the input fails -/

namespace Minimc

open Spec Schema Xml

theorem res_bind_error {α β : Type _} {x : Res α} {f : α → Res β} {e : Err} :
    (x >>= f) = .error e ↔ x = .error e ∨ ∃ a, x = .ok a ∧ f a = .error e := by
  rcases x with e' | a
  · simp [bind, Except.bind]
  · simp [bind, Except.bind]

theorem noexcept_eq_error {α : Type _} {x : Res α} {e : Err} (h : noexcept x = .error e) :
    (x = .error e ∧ e ≠ .runtimeError) ∨ e = .terminate ∧ ∃ e', x = .error e' := by
  rcases x with e' | a
  · cases e' <;> simp only [noexcept, Except.error.injEq] at h <;> subst h <;> simp
  · cases h

namespace Input

theorem normalize_error {p : Point} {e : Err} (h : p.normalize = .error e) :
    e = .nan ∧ p = ⟨0, 0, 0⟩ := by
  unfold Point.normalize at h
  split at h
  · cases h
    exact ⟨rfl, (Point.dot_self_eq_zero_iff p).1 ‹_›⟩
  · cases h

/-! ### Multigroup data -/

theorem oneDimensional_error {G : ℕ} {l : List ℝ} {e : Err}
    (h : Multigroup.oneDimensional G l = .error e) : e = .runtimeError := by
  unfold Multigroup.oneDimensional at h
  split at h
  · cases h; rfl
  · cases h

theorem twoDimensional_error {G : ℕ} {l : List ℝ} {e : Err}
    (h : Multigroup.twoDimensional G l = .error e) : e = .runtimeError := by
  by_cases hl : l.length = G * G
  · rw [Multigroup.twoDimensional_ok hl] at h
    cases h
  · unfold Multigroup.twoDimensional at h
    rw [if_pos hl] at h
    cases h
    rfl

theorem normalizedTwoDimensional_error {G : ℕ} {l : List ℝ} {e : Err}
    (h : Multigroup.normalizedTwoDimensional G l = .error e) : e = .runtimeError := by
  unfold Multigroup.normalizedTwoDimensional at h
  rw [res_bind_error] at h
  rcases h with h | ⟨_, _, h⟩
  · exact twoDimensional_error h
  · cases h

theorem optionally_error {α β : Type} {f : α → Res β}
    (hf : ∀ a e, f a = .error e → e = .runtimeError) {o : Option α} {e : Err}
    (h : Multigroup.optionally f o = .error e) : e = .runtimeError := by
  rcases o with _ | a
  · cases h
  · unfold Multigroup.optionally at h
    rw [res_bind_error] at h
    rcases h with h | ⟨_, _, h⟩
    · exact hf _ _ h
    · cases h

theorem reactionXS_error {G : ℕ} {n : MgNode} {e : Err}
    (h : Multigroup.reactionXS G n = .error e) : e = .runtimeError := by
  cases n with
  | capture xs =>
    unfold Multigroup.reactionXS at h
    rw [res_bind_error] at h
    rcases h with h | ⟨_, _, h⟩
    · exact oneDimensional_error h
    · cases h
  | scatter xs =>
    unfold Multigroup.reactionXS Multigroup.createScatterXS at h
    simp only [res_bind_error] at h
    rcases h with (h | ⟨_, _, h⟩) | ⟨_, _, h⟩
    · exact twoDimensional_error h
    · cases h
    · cases h
  | fission a b xs =>
    unfold Multigroup.reactionXS at h
    rw [res_bind_error] at h
    rcases h with h | ⟨_, _, h⟩
    · exact oneDimensional_error h
    · cases h

theorem createReactions_error {G : ℕ} : ∀ {nodes : List MgNode} {m : List (Reaction × List ℝ)}
    {e : Err}, Multigroup.createReactions G m nodes = .error e → e = .runtimeError
  | [], _, _, h => by cases h
  | n :: nodes, m, e, h => by
    unfold Multigroup.createReactions at h
    rw [res_bind_error] at h
    rcases h with h | ⟨⟨r, xs⟩, _, h⟩
    · exact reactionXS_error h
    · exact createReactions_error h

theorem create_error {G : ℕ} {nodes : List MgNode} {e : Err}
    (h : Multigroup.create G nodes = .error e) : e = .runtimeError := by
  unfold Multigroup.create at h
  simp only [res_bind_error] at h
  rcases h with h | ⟨_, _, h | ⟨_, _, h | ⟨_, _, h | ⟨_, _, h⟩⟩⟩⟩
  · exact optionally_error (fun _ _ => oneDimensional_error) h
  · exact optionally_error (fun _ _ => normalizedTwoDimensional_error) h
  · exact optionally_error (fun _ _ => normalizedTwoDimensional_error) h
  · exact createReactions_error h
  · cases h

theorem toReaction_error {s : String} {e : Err} (h : toReaction s = .error e) :
    e = .runtimeError := by
  unfold toReaction at h
  split at h
  · cases h
  · split at h
    · cases h
    · split at h
      · cases h
      · cases h; rfl

theorem multigroup_error {env : Env} {root n : Xml} {e : Err}
    (h : multigroup env root n = .error e) : e = .runtimeError := by
  unfold multigroup at h
  simp only [res_bind_error] at h
  rcases h with h | ⟨_, _, h⟩
  · obtain ⟨a, -, ha⟩ := mapM_error h
    unfold mgNode at ha
    rw [res_bind_error] at ha
    rcases ha with ha | ⟨r, _, ha⟩
    · exact toReaction_error ha
    · cases r <;> cases ha
  · exact create_error h

theorem interactionsFrom_error {env : Env} {root n : Xml}
    (hm : (root.child "nuclides").firstChild.name = "multigroup") {e : Err} :
    ∀ {names : List String} {xs : ParticleType → Option Interaction},
      (∀ s ∈ names, ParticleName s) →
      interactionsFrom env root n xs names = .error e → e = .runtimeError
  | [], _, _, h => by cases h
  | s :: names, xs, hs, h => by
    unfold interactionsFrom at h
    simp only at h
    split at h
    · cases h; rfl
    · simp only [res_bind_error] at h
      rcases h with h | ⟨t, -, h | ⟨i, -, h⟩⟩
      · obtain ⟨t, -, ht⟩ := toType_ok (hs s (by simp))
        rw [ht] at h
        cases h
      · unfold interaction at h
        simp only at h
        rw [if_pos hm, res_bind_error] at h
        rcases h with h | ⟨_, _, h⟩
        · exact multigroup_error h
        · cases h
      · exact interactionsFrom_error hm (fun s hs' => hs s (by simp [hs'])) h

/-! ### Estimators -/

theorem binsCreate_error {env : Env} {n : Xml} (h : BinType env n) {e : Err}
    (he : bins env n.firstChild = .error e) : e = .runtimeError := by
  obtain ⟨-, hname⟩ := oneOf_firstChild h.1
  simp only [List.mem_cons, List.not_mem_nil, or_false] at hname
  unfold bins at he
  rcases hname with hk | hk | hk
  · rw [hk, if_neg (by simp), if_pos rfl] at he
    unfold Bins.createLinspace at he
    split at he
    · cases he; rfl
    · cases he
  · rw [hk, if_neg (by simp), if_neg (by simp), if_pos rfl] at he
    unfold Bins.createLogspace at he
    split at he
    · cases he; rfl
    · cases he
  · rw [hk, if_neg (by simp), if_neg (by simp), if_neg (by simp), if_pos rfl] at he
    unfold Bins.createBoundaries at he
    split at he
    · cases he
    · cases he; rfl

theorem axisCreate_error {env : Env} {n : Xml} (h : ParticleBinType env n) {s : String}
    (hs : s ≠ "") {e : Err} (he : bins env (n.child s).firstChild = .error e) :
    e = .runtimeError := by
  rcases child_cases h.1.2.1 hs with ⟨hc, -, -⟩ | ⟨-, hnull⟩
  · exact binsCreate_error (h.2 _ hc.1).1 he
  · rw [hnull] at he
    cases he

theorem particleBins_error {env : Env} {n : Xml} (h : IsEstimator env n) {e : Err}
    (he : particleBins env (n.child "bins") = .error e) :
    e = .terminate ∨ e = .nan ∧ ∃ c, Reaches n ["bins", "cosine"] c ∧ Number env c "u" 0 ∧
      Number env c "v" 0 ∧ Number env c "w" 0 := by
  unfold particleBins at he
  rw [res_bind_error] at he
  rcases child_cases h.children.2.1 (s := "bins") (by simp) with ⟨hc, -, -⟩ | ⟨-, hnull⟩
  · have hb := h.bins _ hc.1 hc.2
    rcases he with he | ⟨d, -, he⟩
    · unfold cosineDirection at he
      split at he
      · cases he
      · rename_i hnn
        rw [res_bind_error] at he
        rcases he with he | ⟨_, _, he⟩
        · obtain ⟨rfl, h0⟩ := normalize_error he
          rcases child_cases hb.1.2.1 (s := "cosine") (by simp) with ⟨hc2, -, -⟩ | ⟨-, hnull⟩
          · have hat := (hb.2 _ hc2.1).2
            rw [if_pos hc2.2] at hat
            obtain ⟨g1, g2⟩ := hat
            simp only [Point.mk.injEq] at h0
            refine .inr ⟨rfl, _, ⟨_, hc, _, hc2, rfl⟩, ?_, ?_, ?_⟩
            · exact (number_iff g1 (by simp) (g2 _ (by simp)) _).2 h0.1
            · exact (number_iff g1 (by simp) (g2 _ (by simp)) _).2 h0.2.1
            · exact (number_iff g1 (by simp) (g2 _ (by simp)) _).2 h0.2.2
          · rw [hnull] at hnn
            exact absurd rfl hnn
        · cases he
    · unfold ParticleBins.create at he
      rcases noexcept_eq_error he with ⟨he, hne⟩ | ⟨rfl, -⟩
      · simp only [res_bind_error] at he
        rcases he with he | ⟨_, _, he | ⟨_, _, he⟩⟩
        · exact absurd (axisCreate_error hb (by simp) he) hne
        · exact absurd (axisCreate_error hb (by simp) he) hne
        · cases he
      · exact .inl rfl
  · rw [hnull] at he
    rcases he with he | ⟨d, -, he⟩
    · cases he
    · cases he

/-- How an estimator fails to be made. -/
theorem createEstimator_error {env : Env} {n : Xml} (h : IsEstimator env n) {w : World}
    {qs : List Perturbation} {e : Err} (he : createEstimator w qs (estimator env n) = .error e) :
    (e = .runtimeError ∧ ¬ ∃ s ∈ w.surfaces, s.name = (estimator env n).surface) ∨
    (e = .terminate ∧ ∃ s ∈ (estimator env n).sensitivities, ¬ ∃ q ∈ qs, q.name = s) ∨
    (e = .terminate ∧ ¬ ∃ b, (estimator env n).bins = .ok b) ∨
    (e = .nan ∧ ∃ c, Reaches n ["bins", "cosine"] c ∧ Number env c "u" 0 ∧
      Number env c "v" 0 ∧ Number env c "w" 0) := by
  unfold createEstimator at he
  rw [if_pos (estimator_of h).isCurrent] at he
  simp only [res_bind_error] at he
  rcases he with he | ⟨⟨base, ss⟩, -, he | ⟨_, _, he⟩⟩
  · unfold createEstimatorBase at he
    have hcause : ∀ e', ((estimator env n).bins >>= fun bins => do
        let ss ← createSensitivities (Scorable.fresh (estimator env n).name bins) qs
          (estimator env n).sensitivities
        (.ok (Scorable.fresh (estimator env n).name bins, ss) :
          Res (Scorable × List (Scorable × Perturbation)))) = .error e' →
        (estimator env n).bins = .error e' ∨
          (e' = .runtimeError ∧ ∃ s ∈ (estimator env n).sensitivities, ¬ ∃ q ∈ qs, q.name = s) := by
      intro e' h'
      simp only [res_bind_error] at h'
      rcases h' with h' | ⟨b, -, h' | ⟨_, _, h'⟩⟩
      · exact .inl h'
      · right
        by_cases hd : ∀ s ∈ (estimator env n).sensitivities, ∃ q ∈ qs, q.name = s
        · obtain ⟨r, hr, -⟩ := Props.createSensitivities_ok
            (base := Scorable.fresh (estimator env n).name b) hd
          rw [hr] at h'
          cases h'
        · rw [Props.createSensitivities_error hd] at h'
          cases h'
          push Not at hd
          obtain ⟨s, hs, hq⟩ := hd
          exact ⟨rfl, s, hs, by rintro ⟨q, h1, h2⟩; exact hq q h1 h2⟩
      · cases h'
    rcases noexcept_eq_error he with ⟨he, hne⟩ | ⟨rfl, e', he⟩
    · rcases hcause _ he with he | ⟨rfl, -⟩
      · rcases particleBins_error h he with rfl | ⟨rfl, hc⟩
        · exact .inr (.inr (.inl ⟨rfl, by rw [he]; simp⟩))
        · exact .inr (.inr (.inr ⟨rfl, hc⟩))
      · exact absurd rfl hne
    · rcases hcause _ he with he | ⟨-, hc⟩
      · exact .inr (.inr (.inl ⟨rfl, by rw [he]; simp⟩))
      · exact .inr (.inl ⟨rfl, hc⟩)
  · left
    by_cases hs : ∃ s ∈ w.surfaces, s.name = (estimator env n).surface
    · obtain ⟨s, hs'⟩ := (firstNamed_exists SurfaceObj.name w.surfaces _).2 hs
      rw [Props.findSurface_ok.2 hs'] at he
      cases he
    · rw [Props.findSurface_error hs] at he
      cases he
      exact ⟨rfl, hs⟩
  · cases he

/-! ### Source -/

theorem source_error {env : Env} (hu : Unsigned env) {root : Xml} (hv : Valid env root) {n : Xml}
    {eigen : Prop} (hel : SourceElement root eigen n)
    (h : SourceType env n) {e : Err} (he : source env root n = .error e) (parts : Parts env root) :
    Fails parts e := by
  have hroot := hv.elements.2.1
  have hex := allOf_child hv.elements (s := "nuclides") (by simp)
  have hpath := nuclides_path hroot hex hv.nuclides
  obtain ⟨-, hkind⟩ := oneOf_firstChild hv.nuclides.1
  obtain ⟨h1, h2, h3, h4, h5, h6, h7, h8, h9, h10⟩ := h
  unfold source at he
  simp only [res_bind_error] at he
  rcases he with he | ⟨_, -, he | ⟨_, -, he | ⟨_, -, he | ⟨_, -, he⟩⟩⟩⟩
  · have hk : (n.child "position").firstChild.name = "constant" := by
      simpa using (oneOf_firstChild h2).2
    unfold positionDist at he
    rw [if_pos hk] at he
    cases he
  · obtain ⟨g1, g2⟩ := h4
    obtain ⟨hch, hname⟩ := oneOf_firstChild g1
    simp only [List.mem_cons, List.not_mem_nil, or_false] at hname
    unfold directionDist direction at he
    have hzero : ∀ e, (point env (n.child "direction").firstChild).normalize = .error e →
        (n.child "direction").firstChild.name ≠ "isotropic" → Fails parts e := by
      intro e hp hne
      obtain ⟨rfl, hp0⟩ := normalize_error hp
      exact .direction hel (allOf_child h1 (by simp)) (by rw [hch]; simp)
        ((point_iff (g2 hne) _).2 hp0)
    rcases hname with hk | hk | hk
    · rw [if_pos hk, res_bind_error] at he
      rcases he with he | ⟨_, _, he⟩
      · exact hzero _ he (by rw [hk]; simp)
      · cases he
    · rw [if_neg (by rw [hk]; simp), if_pos hk] at he
      cases he
    · rw [if_neg (by rw [hk]; simp), if_neg (by rw [hk]; simp), if_pos hk, res_bind_error] at he
      rcases he with he | ⟨_, _, he⟩
      · exact hzero _ he (by rw [hk]; simp)
      · cases he
  · have hk : (n.child "energy").firstChild.name = "constant" := by
      simpa using (oneOf_firstChild h5).2
    have ha := attrs_value h6 (a := "energy") (by simp)
    have hval := (attr_iff h6.2.1 _ _).1 ha
    obtain ⟨x, hx, hpos⟩ := h7 _ hval
    have hr : Reaches n ["energy", "constant"] (n.child "energy").firstChild :=
      ⟨_, allOf_child h1 (by simp), _, (oneOf_child_iff h5 _ _).2 ⟨rfl, hk⟩, rfl⟩
    unfold energyDist at he
    rw [if_pos hk] at he
    simp only [List.mem_cons, List.not_mem_nil, or_false] at hkind
    rcases hkind with hm | hm
    · rw [if_pos hm, res_bind_error] at he
      rcases he with he | ⟨_, _, he⟩
      · by_cases hst : ∃ v, StartsWith ((n.child "energy").firstChild.attrString "energy") v
        · obtain ⟨v, hst⟩ := hst
          rw [Text.stoull_start hst] at he
          split at he
          · cases he
          · cases he
            exact .groupRange hel ((hpath _ _).2 ⟨rfl, hm⟩) hr ha hst (by omega)
        · rcases Text.stoull_unsigned (hu _ x hx hpos) with hw | herr
          · exact absurd hw hst
          · rw [herr] at he
            cases he
            exact .group hel ((hpath _ _).2 ⟨rfl, hm⟩) hr ha hst
      · cases he
    · rw [if_neg (by rw [hm]; simp), if_pos hm] at he
      unfold stod at he
      rw [hx] at he
      cases he
  · have hk : (n.child "particletype").firstChild.name = "constant" := by
      simpa using (oneOf_firstChild h8).2
    have hr : Reaches n ["particletype", "constant"] (n.child "particletype").firstChild :=
      ⟨_, allOf_child h1 (by simp), _, (oneOf_child_iff h8 _ _).2 ⟨rfl, hk⟩, rfl⟩
    unfold typeDist at he
    rw [if_pos hk] at he
    rcases attrString_orEmpty h9.2.1 "type" with ha | ⟨hno, hemp⟩
    · obtain ⟨t, -, ht⟩ := toType_ok (h10 _ ((attr_iff h9.2.1 _ _).1 ha))
      rw [ht] at he
      cases he
    · rw [hemp] at he
      cases he
      exact .type hel hr hno
  · cases he

/-! ### The driver -/

/-- How creating the driver fails. -/
theorem driver_fails {env : Env} (hu : Unsigned env) {root : Xml} (hv : Valid env root)
    {addr : Addresses} {n : Xml} (ht : SourceType env n) {eigen : Prop}
    (he : SourceElement root eigen n) {parts : Parts env root} (hr : Reads parts) :
      (∀ e, driver env addr root (source env root n) = .error e → Fails parts e) ∧
      ((∃ k, Reaches root ["nuclides", "multigroup"] k) →
        ∀ e, Unreadable parts.doc e → e = .runtimeError) := by
  obtain ⟨hdoc, hw, hqs, hes, hh, hseed, hthreads⟩ := hr
  refine ⟨?_, ?_⟩
  · intro e h
    have hlen : ((List.range parts.perturbations.length).map addr.perturbation).length =
        parts.perturbations.length := by simp
    unfold driver at h
    simp only [res_bind_error, hdoc, hqs, hes, hh, hseed, hthreads] at h
    rcases h with h | ⟨doc, e1, h | ⟨w, hw', h | ⟨nodes, e2, h | ⟨qs, hqs', h | ⟨_, e3, h |
      ⟨_, e4, h | ⟨init, hi, h | ⟨_, e5, h | ⟨m, hm, h | ⟨s, hs, h⟩⟩⟩⟩⟩⟩⟩⟩⟩⟩
    · cases h
    · cases e1
      obtain ⟨h1, h2 | h2⟩ := Props.C48_fails_only_if_undefined hw h
      · subst h2
        exact .undefined h1
      · exact .unreadable h2
    · cases h
    · cases e1
      cases e2
      obtain ⟨p1, p2⟩ := Props.C57_perturbations (w := w) hlen
      by_cases hall : ∀ q ∈ parts.perturbations, ∃ x ∈ w.nuclides, x.name = q.nuclide
      · obtain ⟨qs, e, -⟩ := p1 hall
        rw [e] at h
        cases h
      · rw [p2 hall] at h
        cases h
        push Not at hall
        obtain ⟨q, hq, hno⟩ := hall
        refine .nuclide hq ?_
        rintro ⟨xs, hx, hmem⟩
        obtain ⟨ys, h1, h2, -⟩ := Props.C48_nuclides hw'
        rw [usedNuclides_unique hx h1] at hmem
        have := WorldBuild.mem_eraseDups.2 hmem
        rw [← h2] at this
        obtain ⟨x, hx', e⟩ := List.mem_map.1 this
        exact hno x hx' e
    · split at h
      · cases h
      · cases h
        exact .histories (by omega)
    · split at h
      · cases h
      · cases h
        exact .seed (by omega)
    · cases e1
      cases e2
      split at e3
      case isFalse => cases e3
      cases e3
      unfold createEstimatorSet at h
      rw [res_bind_error] at h
      rcases h with h | ⟨_, _, h⟩
      · obtain ⟨x, hx, hxe⟩ := mapM_error h
        have hx' := hx
        rw [← hes] at hx'
        obtain ⟨k, hk, rfl⟩ := List.mem_map.1 hx'
        have hlink := hqs'
        obtain ⟨p1, p2⟩ := Props.C57_perturbations (w := w) hlen
        have hall : ∀ q ∈ parts.perturbations, ∃ x ∈ w.nuclides, x.name = q.nuclide := by
          by_contra hcon
          rw [p2 hcon] at hqs'
          cases hqs'
        obtain ⟨qs', e1, -, e2⟩ := p1 hall
        rw [hqs'] at e1
        cases e1
        have hnames := map_perturbation_names e2
        rcases createEstimator_error (isEstimator hv k hk) hxe with ⟨rfl, hs⟩ | ⟨rfl, s, hs, hq⟩ |
          ⟨rfl, hb⟩ | ⟨rfl, c, hc, hx, hy, hz⟩
        · refine .surface hx ?_
          intro hmem
          obtain ⟨h2, -⟩ := Props.C48_surfaces hw'
          rw [← WorldBuild.mem_eraseDups, ← h2, List.mem_map] at hmem
          exact hs hmem
        · refine .sensitivity hx hs ?_
          rintro ⟨q, hq', rfl⟩
          have : q.name ∈ qs.map Perturbation.name := by
            rw [hnames]
            exact List.mem_map_of_mem hq'
          obtain ⟨q', h1, h2⟩ := List.mem_map.1 this
          exact hq ⟨q', h1, h2⟩
        · exact .bins hx hb
        · exact .axis ((grandchildren hv.elements.2.1 _ _).2 rfl) hk hc hx hy hz
      · cases h
    · split at h
      · cases h
      · cases h
        exact .threads (by omega)
    · cases e1
      rcases general_tracking hv w with ⟨h1, h2⟩ | ⟨h1, h2⟩
      · rw [h2] at h
        cases h
      · rw [h2] at h
        split at h
        · cases h
        · rename_i hc
          cases h
          have htemp : w.temperature = parts.doc.temperature.getD (.constant 293.6) := by
            unfold WorldBuild.create at hw'
            simp only [res_bind_ok] at hw'
            obtain ⟨_, _, _, _, _, _, _, _, e⟩ := hw'
            cases e
            unfold WorldBuild.createTemperature WorldBuild.roomTemperature
            cases parts.doc.temperature <;> rfl
          rcases hf : parts.doc.temperature with _ | f
          · rw [htemp, hf] at hc
            exact absurd rfl hc
          · rw [htemp, hf] at hc
            exact .tracking (fun hd => h1 (parts.isDelta.1 hd)) hf (by simpa using hc)
    · exact source_error hu hv he ht h parts
    · cases h
  · rintro ⟨k, hk⟩ e ⟨c, -, -, m, -, x, -, node, hnode, herr⟩
    have hm := ((nuclides_path hv.elements.2.1 (allOf_child hv.elements (by simp)) hv.nuclides _ _).1
      hk).2
    have hmem := firstNamed_mem hnode
    have hnuc : parts.doc.nuclides =
        (root.child "nuclides").firstChild.children.map (nuclide env root) := by
      unfold document at hdoc
      simp only [res_bind_ok] at hdoc
      obtain ⟨_, _, _, _, e⟩ := hdoc
      rw [← Except.ok.inj e]
    rw [hnuc] at hmem
    obtain ⟨y, -, rfl⟩ := List.mem_map.1 hmem
    exact interactionsFrom_error hm (particles_named hv) herr

end Input
end Minimc
