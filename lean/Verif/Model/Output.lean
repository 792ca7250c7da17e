import Verif.Model.Driver
import Verif.Model.Schema
import Mathlib.Data.Int.Log

/-! # The output file and the program (to_string functions, minimc.cpp)

Text is a list of characters. -/

namespace Minimc

open Classical

/-- Text that is printed. -/
abbrev Chars := List Char

namespace Print

/-- A decimal digit. -/
def digit (n : ℕ) : Char := Char.ofNat (48 + n % 10)

/-- `operator<<` of an unsigned number (minimc.cpp:20), in decimal. -/
def decimal (n : ℕ) : Chars :=
  if n < 10 then [digit n] else decimal (n / 10) ++ [digit (n % 10)]

/-- Rounding of a non-negative number to the nearest integer, and to the even one of two equally
near: the rounding of `operator<<` (Scorable.cpp:56, 64; Bins.cpp:87, 128, 167). -/
noncomputable def roundEven (y : ℝ) : ℕ :=
  if y - ⌊y⌋₊ < 1 / 2 then ⌊y⌋₊
  else if 1 / 2 < y - ⌊y⌋₊ then ⌊y⌋₊ + 1
  else if ⌊y⌋₊ % 2 = 0 then ⌊y⌋₊ else ⌊y⌋₊ + 1

/-- Seven significant digits as an integer, and the exponent of the first, of a positive number
printed by `std::scientific` with the default precision (Scorable.cpp:54; Bins.cpp:87, 128,
167). -/
noncomputable def significand (x : ℝ) : ℕ × ℤ :=
  let e := Int.log 10 x
  let m := roundEven (x / (10 : ℝ) ^ (e - 6))
  if m = 10 ^ 7 then (10 ^ 6, e + 1) else (m, e)

/-- The exponent: a sign and at least two digits. -/
def exponent (e : ℤ) : Chars :=
  (if e < 0 then '-' else '+') ::
    if e.natAbs < 10 then '0' :: decimal e.natAbs else decimal e.natAbs

/-- The significand with a point after the first digit, `e` and the exponent. -/
def mantissa (m : ℕ) (e : ℤ) : Chars :=
  match decimal m with
  | [] => []
  | d :: ds => d :: '.' :: ds ++ 'e' :: exponent e

/-- A double printed by `std::scientific` (Scorable.cpp:54-67; Bins.cpp:84-90, 125-132, 164-170).
A zero is positive. -/
noncomputable def scientific (x : ℝ) : Chars :=
  if x = 0 then "0.000000e+00".toList
  else if x < 0 then '-' :: mantissa (significand (-x)).1 (significand (-x)).2
  else mantissa (significand x).1 (significand x).2

/-- A double that may be not a number (Scorable.cpp:56, 63); its sign is left out, and infinities,
which only a total weight of zero gives, are not told from it. -/
noncomputable def number : Res ℝ → Chars
  | .ok x => scientific x
  | .error _ => "nan".toList

/-- A row of values, each followed by a comma and a space (Scorable.cpp:55-57, 60-67;
Bins.cpp:86-88, 127-130, 166-168). -/
noncomputable def row (xs : List (Res ℝ)) : Chars := xs.flatMap (fun x => number x ++ ", ".toList)

end Print

/-- `Bins::to_string` (Bins.cpp:51, 84-90, 125-132, 164-170). -/
noncomputable def Bins.toText : Bins → Chars
  | .none => "none".toList
  | b => Print.row (b.printed.map .ok)

/-- `ParticleBins::to_string` (Bins.cpp:206-211). -/
noncomputable def ParticleBins.toText (b : ParticleBins) : Chars :=
  "cosine\n------\n".toList ++ b.cosine.toText ++ "\n\n".toList ++
    "energy\n------\n".toList ++ b.energy.toText ++ "\n\n".toList

/-- `Scorable::GetScoreAsString` (Scorable.cpp:51-70). -/
noncomputable def Scorable.scoreText (s : Scorable) (totalWeight : ℝ) : Chars :=
  "mean\n----\n".toList ++ Print.row (s.means totalWeight) ++ "\n\n".toList ++
    "std dev\n-------\n".toList ++ Print.row (s.stdDevs totalWeight) ++ "\n\n".toList

/-- A name and a line of equals signs, one for each byte of the name (Estimator.cpp:50;
Sensitivity.cpp:26). -/
def heading (name : String) : Chars :=
  name.toList ++ "\n".toList ++ List.replicate name.utf8ByteSize '=' ++ "\n\n".toList

/-- `Sensitivity::to_string` (Sensitivity.cpp:25-28). -/
noncomputable def Sensitivity.toText (s : Sensitivity) (totalWeight : ℝ) : Chars :=
  heading s.base.name ++ s.base.scoreText totalWeight ++ "\n".toList

/-- `Estimator::to_string` (Estimator.cpp:48-57). -/
noncomputable def Estimator.toText (e : Estimator) (totalWeight : ℝ) : Chars :=
  heading e.base.name ++ e.base.bins.toText ++ e.base.scoreText totalWeight ++
    e.sensitivities.flatMap (fun s => s.toText totalWeight)

/-- `EstimatorSet::to_string` (Estimator.cpp:207-213). -/
noncomputable def EstimatorSet.toText (s : EstimatorSet) : Chars :=
  s.estimators.flatMap (fun e => "\n".toList ++ e.toText s.totalWeight ++ "\n".toList)

/-- What `main` writes to the output file (minimc.cpp:20-21). -/
noncomputable def outputText (batchsize : ℕ) (s : EstimatorSet) : Chars :=
  Print.decimal batchsize ++ "\n".toList ++ s.toText

/-! ### The program -/

namespace FilePath

/-- The part of a path after the last slash: `path::filename` (minimc.cpp:18). -/
def filename (p : Chars) : Chars := (p.reverse.takeWhile (· != '/')).reverse

/-- `path::extension` (minimc.cpp:18): from the last dot of the file name, unless the name starts
with its only dot or is one of `.` and `..`. -/
def extension (p : Chars) : Chars :=
  let f := filename p
  let e := (f.reverse.takeWhile (· != '.')).reverse
  if f = "..".toList ∨ e.length + 1 ≥ f.length then [] else '.' :: e

/-- `path::replace_extension` (minimc.cpp:18) with an extension that starts with a dot. -/
def replaceExtension (p ext : Chars) : Chars := p.take (p.length - (extension p).length) ++ ext

end FilePath

/-- The file system: contents of files, and the files that the program may write. -/
structure Files where
  content : Chars → Option Chars
  writable : Chars → Prop

/-- Writing a file that has been opened: `std::ofstream` (minimc.cpp:18, 20-22).  If it could not be
opened then writing does nothing. -/
noncomputable def Files.write (fs : Files) (path text : Chars) : Files :=
  if fs.writable path then
    { fs with content := fun p => if p = path then some text else fs.content p }
  else fs

/-- How the program ends: `return 0` (minimc.cpp:25), or an exception that nothing catches, which
aborts it. -/
inductive Exit where
  | success
  | aborted
deriving DecidableEq

/-- `Driver::Solve` raises: the exception of a worker is raised again by `get`
(FixedSource.cpp:26-33), and termination takes the program along. -/
def SolveRaises (P : Problem) (fuel : ℕ) : Prop :=
  ∃ e < P.batchsize, ∃ err ∈ [Err.runtimeError, .outOfRange, .badVariant, .terminate, .assertFail],
    P.history fuel e = .error err

/-- What `Solve` of a driver may return (FixedSource.cpp:22-36, KEigenvalue.cpp:36-62). -/
inductive Solves (fuel : ℕ) : Input.Created → ℕ → EstimatorSet → Prop where
  | fixedSource {P : Problem} {r : EstimatorSet} {k : ℕ} : SolveResult P fuel 0 r k →
      Solves fuel (.fixedSource P) P.batchsize r
  | keigenvalue {P : Problem} {inactive active : ℕ} {bank : Bank} :
      Solves fuel (.keigenvalue P inactive active bank) P.batchsize (keigenSolve P inactive)

/-- Runs of the program (minimc.cpp:10-26) with the given arguments.  `parse` is the XML parser of
`Driver::Create`, which raises if there is no file with the given name or if it is malformed.  The
output file is opened, and so emptied, before `Solve` is called. -/
inductive Main (env : Env) (addr : Input.Addresses) (parse : Chars → Option Xml) (fuel : ℕ)
    (fs : Files) : List Chars → Exit → Files → Prop where
  | usage {args : List Chars} : args.length ≠ 1 → Main env addr parse fuel fs args .aborted fs
  | missing {path : Chars} : fs.content path = none →
      Main env addr parse fuel fs [path] .aborted fs
  | malformed {path text : Chars} : fs.content path = some text → parse text = none →
      Main env addr parse fuel fs [path] .aborted fs
  | rejected {path text : Chars} {root : Xml} {e : Err} : fs.content path = some text →
      parse text = some root → Input.loadDriver env addr root = .error e →
      Main env addr parse fuel fs [path] .aborted fs
  | raised {path text : Chars} {root : Xml} {P : Problem} : fs.content path = some text →
      parse text = some root → Input.loadDriver env addr root = .ok (.fixedSource P) →
      SolveRaises P fuel →
      Main env addr parse fuel fs [path] .aborted
        (fs.write (FilePath.replaceExtension path ".out".toList) [])
  | solved {path text : Chars} {root : Xml} {d : Input.Created} {n : ℕ} {r : EstimatorSet} :
      fs.content path = some text → parse text = some root →
      Input.loadDriver env addr root = .ok d → Solves fuel d n r →
      Main env addr parse fuel fs [path] .success
        (fs.write (FilePath.replaceExtension path ".out".toList) (outputText n r))

end Minimc
