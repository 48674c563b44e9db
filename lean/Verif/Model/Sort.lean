import Verif.Base

/-!
# Key/value merge sort: `utility.h` 215-267
-/

namespace Verif.KeySort

variable {ν : Type _}

/-- The four arrays `nnz_num`, `nnz_sorting`, `temp_num`, `temp_sorting`. -/
structure Arrs (ν : Type _) where
  num : List Nat
  srt : List ν
  tnum : List Nat
  tsrt : List ν
  deriving DecidableEq, Repr

/-- `utility.h` 230-233: the left run is copied in order. -/
def copyLeft (left mid : Nat) (s : Arrs ν) : Res (Arrs ν) :=
  forRange left (mid + 1) s (fun i s => do
    let tnum ← wr s.tnum i (← rd s.num i)
    let tsrt ← wr s.tsrt i (← rd s.srt i)
    .ok { s with tnum := tnum, tsrt := tsrt })

/-- `utility.h` 235-238: the right run is copied in reverse; `j` starts at `right`
and goes down while `i` goes up, so `j = right - (i - (mid + 1))`. -/
def copyRight (mid right : Nat) (s : Arrs ν) : Res (Arrs ν) :=
  forRange (mid + 1) (right + 1) s (fun i s => do
    let j := right - (i - (mid + 1))
    let tsrt ← wr s.tsrt i (← rd s.srt j)
    let tnum ← wr s.tnum i (← rd s.num j)
    .ok { s with tnum := tnum, tsrt := tsrt })

/-- `utility.h` 240-251: the merge loop; the state carries `i` and `j`. Decrementing
`j` below 0 counts as leaving the array. -/
def mergeLoop (left mid right : Nat) (s : Arrs ν) : Res (Arrs ν) := do
  let r ← forRange left (right + 1) (s, left, right) (fun k (s, i, j) => do
    let a ← rd s.tnum i
    let b ← rd s.tnum j
    if a ≤ b ∧ i ≤ mid then
      let num ← wr s.num k (← rd s.tnum i)
      let srt ← wr s.srt k (← rd s.tsrt i)
      .ok ({ s with num := num, srt := srt }, i + 1, j)
    else
      let num ← wr s.num k (← rd s.tnum j)
      let srt ← wr s.srt k (← rd s.tsrt j)
      if j = 0 then .error .oob else
      .ok ({ s with num := num, srt := srt }, i, j - 1))
  .ok r.1

/-- Models `utility.h` 215-252, `mergesort`. Index arithmetic does not overflow. -/
def mergesort (s : Arrs ν) (left right : Nat) : Res (Arrs ν) :=
  if left ≥ right then .ok s
  else
    let mid := (left + right) / 2
    (mergesort s left mid).bind fun s =>
    (mergesort s (mid + 1) right).bind fun s =>
    (copyLeft left mid s).bind fun s =>
    (copyRight mid right s).bind fun s =>
    mergeLoop left mid right s
termination_by right - left
decreasing_by all_goals omega

/-- Models `utility.h` 254-267, `cpu_sorting_key_value`; the temporary arrays have
length `N` and arbitrary contents `tk`, `tv`. For `N = 0` the call passes `-1` as
right end, which a signed index type makes an empty range; only `N ≥ 1` is modelled. -/
def cpuSort (key : List Nat) (value : List ν) (tk : List Nat) (tv : List ν) :
    Res (List Nat × List ν) := do
  let s ← mergesort ⟨key, value, tk, tv⟩ 0 (key.length - 1)
  .ok (s.num, s.srt)

end Verif.KeySort
