import Verif.Props.Output
import Verif.Props.Accepted
import Verif.Lemmas.FilePath

/-! # C68: what the program does to files -/

namespace Minimc.Props

open Spec Input

variable {env : Env} {addr : Addresses} {parse : Chars → Option Xml} {fuel : ℕ} {fs fs' : Files}
  {args : List Chars} {exit : Exit}

theorem write_content {fs : Files} {path text p : Chars} (h : (fs.write path text).content p ≠ fs.content p) :
    p = path ∧ fs.writable p := by
  unfold Files.write at h
  split_ifs at h with hw
  · by_cases hp : p = path
    · exact ⟨hp, hp ▸ hw⟩
    · simp [hp] at h
  · exact absurd rfl h

theorem write_self {fs : Files} {path : Chars} (hw : fs.writable path) (text : Chars) :
    (fs.write path text).content path = some text := by
  unfold Files.write
  rw [if_pos hw]
  exact if_pos rfl

/-- **C68** A run changes at most one file: the one named like the input but with the extension
`.out`, and only if there is exactly one argument. -/
theorem C68_only_output (h : Main env addr parse fuel fs args exit fs') (p : Chars)
    (hp : fs'.content p ≠ fs.content p) :
    ∃ path, args = [path] ∧ p = FilePath.replaceExtension path ".out".toList ∧ fs.writable p := by
  cases h with
  | usage => exact absurd rfl hp
  | missing => exact absurd rfl hp
  | malformed => exact absurd rfl hp
  | rejected => exact absurd rfl hp
  | raised => exact ⟨_, rfl, write_content hp⟩
  | solved => exact ⟨_, rfl, write_content hp⟩

/-- **C68** The input file is kept unless its own extension is `.out`. -/
theorem C68_input_kept {path : Chars} (h : Main env addr parse fuel fs [path] exit fs')
    (hx : ¬ HasExtension path ".out".toList) : fs'.content path = fs.content path := by
  by_contra hp
  obtain ⟨path', h1, h2, -⟩ := C68_only_output h path hp
  cases h1
  exact hx (replaceExtension_self.1 h2.symm)

/-- **C68** Without exactly one argument, with an argument that names no file, or with a file that is
not well formed or that no driver is made of, the program is aborted and no file is touched. -/
theorem C68_no_effect (h : Main env addr parse fuel fs args exit fs')
    (hr : ∀ path text root, args = [path] → fs.content path = some text → parse text = some root →
      ∃ e, loadDriver env addr root = .error e) : exit = .aborted ∧ fs' = fs := by
  cases h with
  | usage => exact ⟨rfl, rfl⟩
  | missing => exact ⟨rfl, rfl⟩
  | malformed => exact ⟨rfl, rfl⟩
  | rejected => exact ⟨rfl, rfl⟩
  | raised h1 h2 h3 =>
    obtain ⟨e, he⟩ := hr _ _ _ rfl h1 h2
    rw [h3] at he
    cases he
  | solved h1 h2 h3 =>
    obtain ⟨e, he⟩ := hr _ _ _ rfl h1 h2
    rw [h3] at he
    cases he

/-- **C68** In all these cases there is such a run: the program does end. -/
theorem C68_reports (hr : ∀ path text root, args = [path] → fs.content path = some text →
      parse text = some root → ∃ e, loadDriver env addr root = .error e) :
    Main env addr parse fuel fs args .aborted fs := by
  rcases args with _ | ⟨path, _ | ⟨a, rest⟩⟩
  · exact .usage (by simp)
  · rcases h1 : fs.content path with _ | text
    · exact .missing h1
    · rcases h2 : parse text with _ | root
      · exact .malformed h1 h2
      · obtain ⟨e, he⟩ := hr path text root rfl h1 h2
        exact .rejected h1 h2 he
  · exact .usage (by simp)

/-- **C68** If the program is aborted although a driver was made then the output file is left
empty. -/
theorem C68_aborted_empty {path text : Chars} {root : Xml} {d : Created}
    (h : Main env addr parse fuel fs [path] .aborted fs') (h1 : fs.content path = some text)
    (h2 : parse text = some root) (h3 : loadDriver env addr root = .ok d)
    (hw : fs.writable (FilePath.replaceExtension path ".out".toList)) :
    fs'.content (FilePath.replaceExtension path ".out".toList) = some [] := by
  cases h with
  | usage h => simp at h
  | missing h => rw [h1] at h; cases h
  | malformed h h' => rw [h1] at h; cases h; rw [h2] at h'; cases h'
  | rejected h h' h'' =>
    rw [h1] at h; cases h; rw [h2] at h'; cases h'; rw [h3] at h''; cases h''
  | raised => exact write_self hw _

theorem histories_pos {root : Xml} (hv : Schema.Valid env root) (parts : Parts env root) :
    1 ≤ parts.histories := by
  obtain ⟨n, hn, hd⟩ := parts.areHistories
  obtain ⟨v, hv', hd'⟩ := general_count hv (s := "histories") (by simp)
  rw [general_child hv (by simp)] at hn
  subst hn
  rw [Text.denotes_unique hd hd']
  exact hv'

/-- The names in a result are those of the problem. -/
theorem printable_withTallies {s : EstimatorSet} (h : Printable s) (t : Tallies) :
    Printable (s.withTallies t) := by
  intro e he
  obtain ⟨e', he', rfl⟩ := List.mem_map.1 he
  refine ⟨(h e' he').1, fun q hq => ?_⟩
  obtain ⟨q', hq', rfl⟩ := List.mem_map.1 hq
  exact (h e' he').2 q' hq'

theorem no_newline_append {a b : String} (ha : '\n' ∉ a.toList) (hb : '\n' ∉ b.toList) :
    '\n' ∉ (a ++ "::" ++ b).toList ∧ a ++ "::" ++ b ≠ "" := by
  have h2 : "::".toList = [':', ':'] := rfl
  have h : (a ++ "::" ++ b).toList = a.toList ++ [':', ':'] ++ b.toList := by
    rw [String.toList_append, String.toList_append, h2]
  constructor
  · rw [h]
    simp only [List.mem_append, List.mem_cons, List.not_mem_nil, or_false, not_or]
    exact ⟨⟨ha, by decide, by decide⟩, hb⟩
  · intro h0
    rw [h0] at h
    simp at h

theorem printable_problem {root : Xml} {parts : Parts env root} {P : Problem}
    (hp : ProblemOf parts P) (h : OneLine P) : Printable P.init := by
  intro e he
  refine ⟨h.1 e he, fun s hs => ?_⟩
  obtain ⟨n, hof⟩ := forall₂_exists hp.estimators he
  obtain ⟨nm, hq⟩ := forall₂_exists hof.sensitivities hs
  have hn : n.name = e.base.name := hof.base.name.symm
  rw [hq.2.2.name, hn]
  have hmem : s.perturbation ∈ P.perturbations := by
    obtain ⟨l, r, e1, -, -⟩ := hq.1
    rw [e1]
    simp
  exact no_newline_append (h.1 e he) (h.2 _ hmem)

/-- From the items of a row to the values that they agree with. -/
theorem forall₂_get {α β : Type} {R : α → β → Prop} {l : List α} {l' : List β}
    (h : List.Forall₂ R l l') {i : ℕ} {a : α} (ha : l[i]? = some a) :
    ∃ b, l'[i]? = some b ∧ R a b := by
  induction h generalizing i with
  | nil => simp at ha
  | cons h1 h2 ih =>
    cases i with
    | zero =>
      simp only [List.getElem?_cons_zero, Option.some.injEq] at ha ⊢
      subst ha
      exact ⟨_, rfl, h1⟩
    | succ i =>
      rw [List.getElem?_cons_succ] at ha ⊢
      exact ih ha

theorem forall₂_combine {α β : Type} {R : α → α → Prop} {S T : α → β → Prop} {l : List α}
    {l' : List β} (h : List.Forall₂ R l l) (h' : List.Forall₂ S l l')
    (k : ∀ a b, a ∈ l → R a a → S a b → T a b) : List.Forall₂ T l l' := by
  induction h' with
  | nil => exact .nil
  | cons h1 h2 ih =>
    cases h with
    | cons g1 g2 =>
      exact .cons (k _ _ (by simp) g1 h1) (ih g2 (fun a b ha => k a b (by simp [ha])))

theorem forall₂_mem_right {α β : Type _} {R : α → β → Prop} {l : List α} {l' : List β}
    (h : List.Forall₂ R l l') {b : β} (hb : b ∈ l') : ∃ a ∈ l, R a b := by
  induction h with
  | nil => cases hb
  | cons h1 _ ih =>
    rcases List.mem_cons.1 hb with rfl | hb
    · exact ⟨_, by simp, h1⟩
    · obtain ⟨a, ha, h⟩ := ih hb
      exact ⟨a, by simp [ha], h⟩

theorem forall₂_imp_mem {α β : Type _} {R S : α → β → Prop} {l : List α} {l' : List β}
    (h : List.Forall₂ R l l') (k : ∀ a ∈ l, ∀ b, R a b → S a b) : List.Forall₂ S l l' := by
  induction h with
  | nil => exact .nil
  | cons h1 _ ih => exact .cons (k _ (by simp) _ h1) (ih (fun a ha => k a (by simp [ha])))

theorem tallied_of {hists : List (List Particle)} {bins : ParticleBins} {f : Particle → ℝ}
    {s : Minimc.Scorable} {w : ℝ} {r : ScoreReport} (hw : w ≠ 0) (ha : ScoresAgree s w r)
    (hl : s.scores.length = bins.size) (hl' : s.squareScores.length = bins.size)
    (hm : ∀ i < bins.size,
      (s.means w)[i]? = some (.ok (mean (hists.map (historyScore bins f · i)))) ∧
      (s.stdDevs w)[i]? = some (.ok (standardError (hists.map (historyScore bins f · i))))) :
    Tallied hists bins f r := by
  refine ⟨⟨ha.means.length_eq.symm.trans hl, ?_⟩, fun i hi => ?_, fun i hi => ?_⟩
  · rw [← ha.deviations.length_eq, List.length_zip, hl, hl', min_self]
  · have h1 := (hm i hi).1
    unfold Scorable.means at h1
    rw [List.getElem?_map] at h1
    obtain ⟨x, hx, hx'⟩ := Option.map_eq_some_iff.1 h1
    rw [if_neg hw] at hx'
    obtain ⟨b, hb, hab⟩ := forall₂_get ha.means hx
    rw [Except.ok.inj hx'] at hab
    cases hab with
    | number h => exact ⟨_, hb, h⟩
  · have h1 := (hm i hi).2
    unfold Scorable.stdDevs at h1
    rw [List.getElem?_zipWith] at h1
    have e1 : s.scores[i]? = some (s.scores[i]'(by omega)) := List.getElem?_eq_getElem _
    have e2 : s.squareScores[i]? = some (s.squareScores[i]'(by omega)) := List.getElem?_eq_getElem _
    rw [e1, e2] at h1
    simp only [Option.some.injEq] at h1
    obtain ⟨b, hb, hab⟩ := forall₂_get (i := i) ha.deviations
      (a := (s.scores[i]'(by omega), s.squareScores[i]'(by omega))) (by
        rw [List.getElem?_zip_eq_some]
        exact ⟨e1, e2⟩)
    unfold Scorable.stdDev at h1
    rw [if_neg hw, ← sq] at h1
    split_ifs at h1 with hneg
    · cases hab with
      | number h0 h =>
        rw [Except.ok.inj h1] at h
        exact ⟨_, hb, h⟩
      | nan h0 => exact absurd h0 hneg

/-- **C68** After a run of a fixed-source problem that ends with success and whose output file could
be opened, that file can be read: it gives the number of histories and, for every estimator of the
problem in order, its name, the boundaries of its bins and, in every bin, the mean of what the
histories score and its standard error, to seven digits, and the same for its sensitivities. -/
theorem C68_output {path text : Chars} {root : Xml} {P : Problem} (hu : Unsigned env)
    (hs : Function.Injective addr.surface) (hn : Function.Injective addr.nuclide)
    (h : Main env addr parse fuel fs [path] .success fs') (h1 : fs.content path = some text)
    (h2 : parse text = some root) (h3 : loadDriver env addr root = .ok (.fixedSource P))
    (hl : OneLine P) (hw : fs.writable (FilePath.replaceExtension path ".out".toList)) :
    ∃ hists : List (List Particle), hists.length = P.batchsize ∧
      (∀ e x, hists[e]? = some x → P.history fuel e = .ok x) ∧
      ∃ out rs, fs'.content (FilePath.replaceExtension path ".out".toList) = some out ∧
        readReport out = some ⟨P.batchsize, rs⟩ ∧
        List.Forall₂ (Reports hists) P.init.estimators rs := by
  cases h with
  | solved g1 g2 g3 g4 =>
    rw [h1] at g1; cases g1
    rw [h2] at g2; cases g2
    rw [h3] at g3; cases g3
    cases g4 with
    | fixedSource hsol =>
      rename_i r k
      obtain ⟨hists, hlen, hh, hr⟩ := C64_result hu hs hn h3 hsol
      refine ⟨hists, hlen, hh, outputText P.batchsize r, ?_⟩
      obtain ⟨hv, parts, hprob⟩ := problem_of hu hs hn h3
      have hb : 1 ≤ P.batchsize := by rw [hprob.batchsize]; exact histories_pos hv parts
      have hfresh := ((C64_fresh hu hs hn).1 h3).1
      have hne : hists ≠ [] := by
        rintro rfl
        simp at hlen
        omega
      choose c hc using contribution_exists hfresh.shaped.names hfresh.shaped.sensitivityNames
      have hr' := afterHistories_withTallies hfresh.bins hists 0 r c (fun x _ => hc x)
        (by rw [← hfresh.zero]; exact hr)
      have hprint : Printable r := by
        rw [hr']
        exact printable_withTallies (printable_problem hprob hl) _
      have hwt : r.totalWeight = hists.length := by
        rw [hr', hlen]
        change P.init.totalWeight = _
        rw [hprob.weight, hprob.batchsize]
      have hw0 : (hists.length : ℝ) ≠ 0 := by
        rw [hlen]
        exact_mod_cast (by omega : P.batchsize ≠ 0)
      obtain ⟨rs, r1, r2⟩ := C67_readable (by rw [hwt]; exact hw0) hprint P.batchsize
      refine ⟨rs, write_self hw _, r1, ?_⟩
      rw [hwt] at r2
      have hprinted := C35_printed hfresh.shaped hfresh.bins hfresh.zero hne hr
      have hes : r.estimators = P.init.estimators.map
          (fun e => e.withTallies ((0 + (hists.map c).sum) e.base.name)) := by
        rw [hr']
        rfl
      rw [hes] at hprinted r2
      rw [List.forall₂_map_right_iff] at hprinted
      rw [List.forall₂_map_left_iff] at r2
      refine forall₂_combine hprinted r2 (fun e er _ hp ha => ?_)
      obtain ⟨-, -, -, p2, p3⟩ := hp
      refine ⟨ha.scores.name, ha.cosines, ha.energies, tallied_of hw0 ha.scores ?_ ?_ p2, ?_⟩
      · simp [Estimator.withTallies, Scorable.withTally]
      · simp [Estimator.withTallies, Scorable.withTally]
      · have p4 := ha.sensitivities
        rw [Estimator.withTallies, List.forall₂_map_right_iff] at p3
        rw [Estimator.withTallies, List.forall₂_map_left_iff] at p4
        refine forall₂_combine p3 p4 (fun q qr _ hq hqa => ?_)
        refine ⟨hqa.name, tallied_of hw0 hqa ?_ ?_ hq.2⟩
        · simp [Scorable.withTally]
        · simp [Scorable.withTally]

theorem sevenDigits_zero {v : ℝ} (h : SevenDigits 0 v) : v = 0 := by
  unfold SevenDigits at h
  simp only [sub_zero, abs_zero, mul_zero, abs_nonpos_iff] at h
  exact h

/-- A score that is empty is reported as zeros. -/
theorem empty_report {name : String} {bins : ParticleBins} {s : Minimc.Scorable} {w : ℝ}
    {r : ScoreReport} (h : Empty name bins s) (ha : ScoresAgree s w r) :
    r.means = List.replicate bins.size (some 0) ∧
      r.deviations = List.replicate bins.size (some 0) := by
  have hl := h.length
  have hl' := h.squareLength
  rw [h.bins] at hl hl'
  constructor
  · refine List.eq_replicate_iff.2 ⟨ha.means.length_eq.symm.trans hl, fun v hv => ?_⟩
    obtain ⟨x, hx, hag⟩ := forall₂_mem_right ha.means hv
    rw [h.scores x hx, zero_div] at hag
    cases hag with
    | number h => rw [sevenDigits_zero h]
  · refine List.eq_replicate_iff.2 ⟨?_, fun v hv => ?_⟩
    · rw [← ha.deviations.length_eq, List.length_zip, hl, hl', min_self]
    · obtain ⟨⟨x, q⟩, hx, hag⟩ := forall₂_mem_right ha.deviations hv
      have h1 := h.scores x (List.of_mem_zip hx).1
      have h2 := h.squares q (List.of_mem_zip hx).2
      subst h1 h2
      cases hag with
      | number _ h =>
        simp only [ne_eq, OfNat.ofNat_ne_zero, not_false_eq_true, zero_pow, zero_div, sub_zero,
          Real.sqrt_zero] at h
        rw [sevenDigits_zero h]
      | nan h =>
        simp at h

/-- **C68** Of an eigenvalue problem nothing but zeros is reported: a run of it ends with success, and
the file gives a mean and a standard deviation of zero in every bin of every estimator and
sensitivity. -/
theorem C68_keigenvalue_violated {path text : Chars} {root : Xml} {P : Problem} {i j : ℕ}
    {bank : Bank} (hu : Unsigned env)
    (hs : Function.Injective addr.surface) (hn : Function.Injective addr.nuclide)
    (h1 : fs.content path = some text) (h2 : parse text = some root)
    (h3 : loadDriver env addr root = .ok (.keigenvalue P i j bank))
    (hl : OneLine P) (hw : fs.writable (FilePath.replaceExtension path ".out".toList)) :
    (∃ fs', Main env addr parse fuel fs [path] .success fs') ∧
    ∀ exit fs', Main env addr parse fuel fs [path] exit fs' → exit = .success ∧
      ∃ out rs, fs'.content (FilePath.replaceExtension path ".out".toList) = some out ∧
        readReport out = some ⟨P.batchsize, rs⟩ ∧
        List.Forall₂ (fun e r => r.name = e.base.name.toList ∧
          r.means = List.replicate e.base.bins.size (some 0) ∧
          r.deviations = List.replicate e.base.bins.size (some 0) ∧
          List.Forall₂ (fun q r => r.name = q.base.name.toList ∧
            r.means = List.replicate q.base.bins.size (some 0) ∧
            r.deviations = List.replicate q.base.bins.size (some 0)) e.sensitivities
            r.sensitivities) P.init.estimators rs := by
  have hv : Schema.Valid env root := by
    by_contra hv
    rw [C58_rejected hv] at h3
    cases h3
  obtain ⟨parts, hprob⟩ : ∃ parts : Parts env root, ProblemOf parts P := by
    obtain ⟨parts, -, h⟩ := C58_created_iff hu hv hs hn
    have := h _ h3
    cases this with
    | keigenvalue _ hp => exact ⟨parts, hp⟩
  refine ⟨⟨_, .solved h1 h2 h3 .keigenvalue⟩, fun exit fs' hmain => ?_⟩
  cases hmain with
  | usage h => simp at h
  | missing h => rw [h1] at h; cases h
  | malformed h h' => rw [h1] at h; cases h; rw [h2] at h'; cases h'
  | rejected h h' h'' =>
    rw [h1] at h; cases h; rw [h2] at h'; cases h'; rw [h3] at h''; cases h''
  | raised g1 g2 g3 => rw [h1] at g1; cases g1; rw [h2] at g2; cases g2; rw [h3] at g3; cases g3
  | solved g1 g2 g3 g4 =>
    rw [h1] at g1; cases g1; rw [h2] at g2; cases g2; rw [h3] at g3; cases g3
    cases g4
    refine ⟨rfl, outputText P.batchsize (keigenSolve P i), ?_⟩
    have hsol : keigenSolve P i = P.init := C49_solve_returns_nothing_violated P i
    rw [hsol]
    have hwt : P.init.totalWeight ≠ 0 := by
      rw [hprob.weight]
      have := histories_pos hv parts
      exact_mod_cast (by omega : parts.histories ≠ 0)
    obtain ⟨rs, r1, r2⟩ := C67_readable hwt (printable_problem hprob hl) P.batchsize
    refine ⟨rs, write_self hw _, r1, ?_⟩
    refine forall₂_imp_mem r2 (fun e he r ha => ?_)
    obtain ⟨node, hof⟩ := forall₂_exists hprob.estimators he
    obtain ⟨m1, m2⟩ := empty_report hof.base ha.scores
    refine ⟨ha.scores.name, m1, m2, forall₂_imp_mem ha.sensitivities (fun q hq r ha' => ?_)⟩
    obtain ⟨nm, hq'⟩ := forall₂_exists hof.sensitivities hq
    obtain ⟨m1, m2⟩ := empty_report hq'.2.2 ha'
    rw [← hq'.2.2.bins] at m1 m2
    exact ⟨ha'.name, m1, m2⟩

end Minimc.Props
