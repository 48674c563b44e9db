import Verif.Base

/-!
# Parallel regions

A parallel region of `n` threads between two barriers. Each thread has a local
state; one step of a thread reads shared memory and writes at most one shared
cell. A schedule is any list of thread numbers. Steps of finished threads (they
wait at the barrier) and of thread numbers that do not exist are skipped.
-/

namespace Verif.Model

variable {σ l : Type}

/-- Run the threads in the order given by the schedule. -/
def runs (n : Nat) (step : Nat → σ → l → Res (σ × l)) (fin : l → Bool) :
    List Nat → σ → (Nat → l) → Res (σ × (Nat → l))
  | [], g, ls => .ok (g, ls)
  | t :: ts, g, ls =>
    if t < n ∧ fin (ls t) = false then do
      let (g', l') ← step t g (ls t)
      runs n step fin ts g' (upd ls t l')
    else runs n step fin ts g ls

/-- Run a region up to its barrier. `none`: the schedule ends before all threads
have reached the barrier. -/
def phase (n : Nat) (step : Nat → σ → l → Res (σ × l)) (fin : l → Bool)
    (sched : List Nat) (g : σ) (ls : Nat → l) : Res (Option (σ × (Nat → l))) := do
  let (g', ls') ← runs n step fin sched g ls
  .ok (if (List.range n).all (fun t => fin (ls' t)) then some (g', ls') else none)

end Verif.Model
