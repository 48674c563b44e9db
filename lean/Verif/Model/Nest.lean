import Verif.Csr

/-!
# The common loop nest of the row algorithms

```
for (IT j = A.rowptr[row]; j < A.rowptr[row + 1]; j++) {
    IT inner = A.colids[j];
    for (IT k = B.rowptr[inner]; k < B.rowptr[inner + 1]; k++) { body }
}
```
It appears in `/repo/spgemm-blocks/msa/MSAAlgorithm.h` lines 53-61, 112-121,
167-179, 215-227, 261-277, 313-329 and in
`/repo/spgemm-blocks/hash/MaskedHashAlgorithm.h` lines 52-58, 77-92, 141-147,
172-186. The loop bound is read once; in the code it is re-read but never changes.
-/

namespace Verif.Model

variable {V σ : Type _}

/-- Two-level loop over row `row` of `A` and the matching rows of `B`; `body` gets
the position `j` in `A`'s arrays and the position `k` in `B`'s arrays. -/
def nest (A B : CSR V) (row : Nat) (s : σ) (body : Nat → Nat → σ → Res σ) : Res σ := do
  let lo ← rd A.rowptr row
  let hi ← rd A.rowptr (row + 1)
  forRange lo hi s fun j s => do
    let inner ← rd A.colids j
    let klo ← rd B.rowptr inner
    let khi ← rd B.rowptr (inner + 1)
    forRange klo khi s fun k s => body j k s

/-- Loop over the mask row: `for (auto maskIt = &M.colids[M.rowptr[row]]; maskIt !=
&M.colids[M.rowptr[row + 1]]; maskIt++) body(*maskIt)`. Used with the same
files as `nest`. -/
def maskLoop (M : CSR V) (row : Nat) (s : σ) (body : Nat → σ → Res σ) : Res σ := do
  let lo ← rd M.rowptr row
  let hi ← rd M.rowptr (row + 1)
  forPtr lo hi s fun p s => do
    let c ← rd M.colids p
    body c s

end Verif.Model
