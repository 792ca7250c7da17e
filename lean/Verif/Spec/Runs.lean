import Verif.Model.Driver

/-! # Specification of runs that differ in the seed and the number of histories -/

namespace Minimc.Spec

/-- The problem with a seed that is larger by `skip`, `n` histories and `threads` threads.  The
weight that scores are divided by is the number of histories, as in Driver.cpp:38-47. -/
def part (P : Problem) (skip n threads : ℕ) : Problem :=
  { P with
    seed := P.seed + skip
    batchsize := n
    threads := threads
    init := { P.init with totalWeight := n } }

end Minimc.Spec
