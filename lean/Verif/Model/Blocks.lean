import Verif.Model.Threads

/-!
# Parallel regions in which every thread works on its own block of rows

The shape of the parallel regions of the older kernels (`/repo/hash_mult_hw.h`, `/repo/spa_mult.h`, `/repo/mask_hash_mult.h`):

```
#pragma omp parallel
{
    int tid = omp_get_thread_num();
    // create or fetch thread-local tables
    for (i = bin.rows_offset[tid]; i < bin.rows_offset[tid + 1]; ++i) { body }
}
```
One turn of the body is one step: besides the cells of row `i` it only touches thread-local tables and arrays that nobody
writes in the region.
-/

namespace Verif.Model

variable {σ α : Type}

/-- One step of thread `t`. The local state is `none` before the thread has started and then the tables, the next row and
the end of the block. -/
def blockStep (off : List Nat) (init : Nat → Nat → Nat → Res α) (row : Nat → σ → α → Res (σ × α)) (t : Nat) (g : σ) :
    Option (α × Nat × Nat) → Res (σ × Option (α × Nat × Nat))
  | none => do
    let lo ← rd off t
    let hi ← rd off (t + 1)
    let a ← init t lo hi
    .ok (g, some (a, lo, hi))
  | some (a, i, hi) => do
    let (g, a) ← row i g a
    .ok (g, some (a, i + 1, hi))

/-- The thread has left its loop. -/
def blockFin : Option (α × Nat × Nat) → Bool
  | none => false
  | some (_, i, hi) => decide (hi ≤ i)

/-- The whole region with `n` threads: the final shared state and the tables of the threads. -/
def blocks (n : Nat) (off : List Nat) (init : Nat → Nat → Nat → Res α) (row : Nat → σ → α → Res (σ × α))
    (sched : List Nat) (g : σ) : Res (Option (σ × List α)) := do
  let r ← phase n (blockStep off init row) blockFin sched g (fun _ => none)
  match r with
  | none => .ok none
  | some (g, ls) => .ok (some (g, (List.range n).filterMap fun t => (ls t).map (·.1)))

end Verif.Model
