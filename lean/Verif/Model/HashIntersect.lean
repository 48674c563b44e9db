import Verif.Model.HashMult
import Verif.Model.Intersect

/-!
# The hash product followed by an intersection

Models `HashIntersect`, `/repo/benchmarks/TriCntAll.cpp` 244-251.
-/

namespace Verif.Model.HashIntersect

variable {V : Type}

/-- Schedules of a call: those of the product, the orders of the two loops of the intersection and the schedules of its prefix sum -/
structure Sched where
  prod : HashMult.Sched
  order1 : List Nat
  s1 : List Nat
  s2 : List Nat
  order2 : List Nat

/-- `HashIntersect`, TriCntAll.cpp:244-251. `n` is `numThreads`, `nd` the default team size, `dflt` is `NT()`. The assignment to `C` is
`Model.MatObj`. -/
def hashIntersect (sortf : List (Nat × V) → List (Nat × V)) (mul add : V → V → V) (A B M : CSR V) (dflt : V) (n nd : Nat) (sch : Sched) :
    Res (Option (CSR V)) := do
  let r ← HashMult.hashSpGEMM true sortf mul add A B dflt n nd sch.prod
  match r with
  | none => .ok none
  | some Ct => Intersect.intersect (fun _ rhs => rhs) Ct M dflt nd sch.order1 sch.s1 sch.s2 sch.order2

end Verif.Model.HashIntersect
