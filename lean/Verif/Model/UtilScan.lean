import Verif.Model.Threads

/-!
# The prefix sum of `utility.h`

Models `/repo/utility.h` 170-213, `seq_scan` and `scan`. The arrays come from `my_malloc`, which fills them with
`T()`, so all cells are set.
-/

namespace Verif.Model.UtilScan

/-- `seq_scan`, utility.h:171-176. The source is read up to index `N - 2`. -/
def seqScan (inp : List Nat) (N : Nat) (out : List Nat) : Res (List Nat) := do
  let out ← wr out 0 0
  forRange 0 (N - 1) out fun i out => do
    let p ← rd out i
    let x ← rd inp i
    wr out (i + 1) (p + x)

/-- `start`, utility.h:193 -/
def start (N n t : Nat) : Nat := (N / n) * t

/-- `end`, utility.h:194 -/
def stop (N n t : Nat) : Nat := if t < n - 1 then start N n t + N / n else N

/-- Control of a thread before the barrier. -/
inductive Ctl1 where
  | first
  | at (i : Nat)
  | done
  deriving DecidableEq

/-- A thread before the barrier, utility.h:195-200: one step per written cell. The shared state is `out` and
`partial_sum`. `end - 1` with `end = 0` is an index outside the array. -/
def step1 (inp : List Nat) (N n t : Nat) (g : List Nat × List Nat) (c : Ctl1) : Res ((List Nat × List Nat) × Ctl1) :=
  match c with
  | .first => do
    let out ← wr g.1 (start N n t) 0
    .ok ((out, g.2), .at (start N n t))
  | .at i =>
    if stop N n t = 0 then .error .oob
    else if i < stop N n t - 1 then do
      let p ← rd g.1 i
      let x ← rd inp i
      let out ← wr g.1 (i + 1) (p + x)
      .ok ((out, g.2), .at (i + 1))
    else do
      let p ← rd g.1 (stop N n t - 1)
      let x ← rd inp (stop N n t - 1)
      let ps ← wr g.2 t (p + x)
      .ok ((g.1, ps), .done)
  | .done => .ok (g, .done)

/-- A thread after the barrier, utility.h:203-209: one step per cell; `i` is the next index. -/
def step2 (ps : List Nat) (t : Nat) (out : List Nat) (i : Nat) : Res (List Nat × Nat) := do
  let offset ← forRange 0 t 0 fun j s => do
    let x ← rd ps j
    .ok (s + x)
  let x ← rd out i
  let out ← wr out i (x + offset)
  .ok (out, i + 1)

/-- `scan`, utility.h:179-213, with a team of `n` threads and the schedules `s1`, `s2` of the two parts. A thread is
finished with the second part when its index has reached `end`; `offset` (utility.h:203-206) is read again in every
step, which makes no difference because `partial_sum` does not change any more. -/
def scan (inp : List Nat) (N : Nat) (out : List Nat) (n : Nat) (s1 s2 : List Nat) : Res (Option (List Nat)) :=
  if N < 2 ^ 17 then do
    let d ← seqScan inp N out
    .ok (some d)
  else do
    let r ← phase n (step1 inp N n) (· == .done) s1 (out, List.replicate n 0) (fun _ => .first)
    match r with
    | none => .ok none
    | some ((out, ps), _) => do
      let r ← phase n (fun t out (x : Nat × Nat) => do
          let (out, i) ← step2 ps t out x.1
          .ok (out, (i, x.2))) (fun x => decide (x.2 ≤ x.1)) s2 out
        (fun t => (start N n t, stop N n t))
      match r with
      | none => .ok none
      | some (out, _) => .ok (some out)

end Verif.Model.UtilScan
