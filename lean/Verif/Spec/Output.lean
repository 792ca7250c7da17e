import Verif.Model.Output
import Verif.Spec.Score

/-! # Specification: how the output file is read

A reader of the output file, written without looking at the functions that print it. -/

namespace Minimc.Spec

/-- A decimal digit. -/
def IsDigit (c : Char) : Prop := '0' ≤ c ∧ c ≤ '9'

instance (c : Char) : Decidable (IsDigit c) := inferInstanceAs (Decidable (_ ∧ _))

/-- The number denoted by decimal digits. -/
def digitsValue (cs : List Char) : ℕ := cs.foldl (fun a c => 10 * a + (c.toNat - 48)) 0

/-- Reads an unsigned number. -/
def readNat (t : List Char) : Option ℕ :=
  if t ≠ [] ∧ ∀ c ∈ t, IsDigit c then some (digitsValue t) else none

/-- Reads an exponent: a sign and at least two digits. -/
def readExponent : List Char → Option ℤ
  | '+' :: t => if 2 ≤ t.length then (readNat t).map (fun n : ℕ => (n : ℤ)) else none
  | '-' :: t => if 2 ≤ t.length then (readNat t).map (fun n : ℕ => -(n : ℤ)) else none
  | _ => none

/-- Reads a number without sign in scientific notation: a digit, a point, six digits, the letter
`e`, an exponent. -/
noncomputable def readUnsigned : List Char → Option ℝ
  | a :: '.' :: b :: c :: d :: e :: f :: g :: 'e' :: t => do
    let n ← readNat [a, b, c, d, e, f, g]
    let k ← readExponent t
    some (n * (10 : ℝ) ^ (k - 6))
  | _ => none

/-- Reads a number in scientific notation. -/
noncomputable def readNumber : List Char → Option ℝ
  | '-' :: t => (readUnsigned t).map (fun x => -x)
  | t => readUnsigned t

/-- The lines of a text. -/
def linesOf (t : List Char) : List (List Char) := t.splitOn '\n'

/-- The items of a row, each followed by a comma and a space; `none` if there is no such number. -/
noncomputable def readRow (t : List Char) : List (Option ℝ) :=
  (t.splitOn ',').dropLast.map (fun x => readNumber (x.dropWhile (· == ' ')))

/-- What is printed of a sensitivity. -/
structure ScoreReport where
  name : List Char
  means : List (Option ℝ)
  deviations : List (Option ℝ)

/-- What is printed of an estimator; no boundaries for the word `none`. -/
structure EstimatorReport extends ScoreReport where
  cosines : List (Option ℝ)
  energies : List (Option ℝ)
  sensitivities : List ScoreReport

/-- What is printed of a result. -/
structure Report where
  histories : ℕ
  estimators : List EstimatorReport

/-- The line has an equals sign for each byte of the name and nothing else. -/
def Underlines (u name : List Char) : Prop :=
  u = List.replicate (String.ofList name).utf8ByteSize '='

/-- Reads the sensitivities of an estimator; returns the remaining lines. -/
noncomputable def readSensitivities : List (List Char) → Option (List ScoreReport × List (List Char))
  | [] :: rest => some ([], rest)
  | name :: u :: [] :: m :: mu :: ms :: [] :: d :: du :: ds :: [] :: [] :: rest =>
    open Classical in
    if Underlines u name ∧ m = "mean".toList ∧ mu = "----".toList ∧ d = "std dev".toList ∧
        du = "-------".toList then do
      let (ss, rest') ← readSensitivities rest
      some (⟨name, readRow ms, readRow ds⟩ :: ss, rest')
    else none
  | _ => none

/-- Reads at most `n` estimators. -/
noncomputable def readEstimators : ℕ → List (List Char) → Option (List EstimatorReport)
  | _, [[]] => some []
  | n + 1, [] :: name :: u :: [] :: c :: cu :: cs :: [] :: e :: eu :: es :: [] ::
      m :: mu :: ms :: [] :: d :: du :: ds :: [] :: rest =>
    open Classical in
    if Underlines u name ∧ c = "cosine".toList ∧ cu = "------".toList ∧ e = "energy".toList ∧
        eu = "------".toList ∧ m = "mean".toList ∧ mu = "----".toList ∧ d = "std dev".toList ∧
        du = "-------".toList then do
      let (ss, rest') ← readSensitivities rest
      let others ← readEstimators n rest'
      some (⟨⟨name, readRow ms, readRow ds⟩, readRow cs, readRow es, ss⟩ :: others)
    else none
  | _, _ => none

/-- Reads an output file: the number of histories, then the estimators. -/
noncomputable def readReport (t : List Char) : Option Report :=
  match linesOf t with
  | [] => none
  | l :: rest => do
    let n ← readNat l
    let es ← readEstimators rest.length rest
    some ⟨n, es⟩

/-- The number agrees with `x` to seven digits. -/
def SevenDigits (x v : ℝ) : Prop := |v - x| ≤ 5 / 10 ^ 7 * |x|

/-- The number that is read agrees with the one that was printed, and there is one exactly if that
was a number. -/
inductive Agrees : Res ℝ → Option ℝ → Prop where
  | number {x v : ℝ} : SevenDigits x v → Agrees (.ok x) (some v)
  | nan {e : Err} : Agrees (.error e) none

/-- The standard deviation that is read agrees with that of the mean of a score, of which the sum is
the first number and the sum of squares the second; there is none exactly if the variance would be
negative. -/
inductive DeviationAgrees (weight : ℝ) : ℝ × ℝ → Option ℝ → Prop where
  | number {x q v : ℝ} : 0 ≤ q - x ^ 2 / weight →
      SevenDigits (Real.sqrt (q - x ^ 2 / weight) / weight) v → DeviationAgrees weight (x, q) (some v)
  | nan {x q : ℝ} : q - x ^ 2 / weight < 0 → DeviationAgrees weight (x, q) none

/-- The report gives the name, means and standard deviations of the scores. -/
structure ScoresAgree (s : Scorable) (weight : ℝ) (r : ScoreReport) : Prop where
  name : r.name = s.name.toList
  means : List.Forall₂ (fun x => Agrees (.ok (x / weight))) s.scores r.means
  deviations : List.Forall₂ (DeviationAgrees weight) (s.scores.zip s.squareScores) r.deviations

/-- The report describes the estimator. -/
structure EstimatorAgrees (weight : ℝ) (e : Estimator) (r : EstimatorReport) : Prop where
  scores : ScoresAgree e.base weight r.toScoreReport
  cosines : List.Forall₂ (fun x => Agrees (.ok x)) e.base.bins.cosine.printed r.cosines
  energies : List.Forall₂ (fun x => Agrees (.ok x)) e.base.bins.energy.printed r.energies
  sensitivities : List.Forall₂ (fun (s : Sensitivity) => ScoresAgree s.base weight) e.sensitivities
    r.sensitivities

/-- The names can be told from the lines around them. -/
def Printable (set : EstimatorSet) : Prop :=
  ∀ e ∈ set.estimators, '\n' ∉ e.base.name.toList ∧
    ∀ s ∈ e.sensitivities, '\n' ∉ s.base.name.toList ∧ s.base.name ≠ ""

/-! ### Runs of the program -/

/-- The report has one mean and one standard deviation for each bin: the mean score of the histories
and its standard error, to seven digits. -/
structure Tallied (hists : List (List Particle)) (bins : ParticleBins) (f : Particle → ℝ)
    (r : ScoreReport) : Prop where
  size : r.means.length = bins.size ∧ r.deviations.length = bins.size
  means : ∀ i < bins.size, ∃ v, r.means[i]? = some (some v) ∧
    SevenDigits (mean (hists.map (historyScore bins f · i))) v
  deviations : ∀ i < bins.size, ∃ v, r.deviations[i]? = some (some v) ∧
    SevenDigits (standardError (hists.map (historyScore bins f · i))) v

/-- The report describes what the histories contribute to an estimator and its sensitivities. -/
structure Reports (hists : List (List Particle)) (e : Estimator) (r : EstimatorReport) : Prop where
  name : r.name = e.base.name.toList
  cosines : List.Forall₂ (fun x => Agrees (.ok x)) e.base.bins.cosine.printed r.cosines
  energies : List.Forall₂ (fun x => Agrees (.ok x)) e.base.bins.energy.printed r.energies
  tallied : Tallied hists e.base.bins (fun p => open Classical in if Crossed e.surface p then 1 else 0)
    r.toScoreReport
  sensitivities : List.Forall₂ (fun (q : Sensitivity) (r : ScoreReport) =>
    r.name = q.base.name.toList ∧
      Tallied hists q.base.bins (effectAtCrossing q.surface q.perturbation) r)
    e.sensitivities r.sensitivities

/-- The names of the estimators and of the perturbations are single lines. -/
def OneLine (P : Problem) : Prop :=
  (∀ e ∈ P.init.estimators, '\n' ∉ e.base.name.toList) ∧
    ∀ q ∈ P.perturbations, '\n' ∉ q.name.toList

/-- The file has the extension: its name, after the last slash, ends with it and has something before
it. -/
def HasExtension (path ext : List Char) : Prop :=
  ∃ dir name, path = dir ++ name ++ ext ∧ (dir = [] ∨ ∃ d, dir = d ++ ['/']) ∧ '/' ∉ name ∧
    name ≠ []

end Minimc.Spec
