import Verif.Base

/-!
# Byte buffers: `spgemm-blocks/util.h`

A buffer is a list of bytes. Pointers into it are offsets from its start. `size_t`
has 64 bits; unsigned subtraction and addition wrap.
-/

namespace Verif.Mem

/-- `size_t` subtraction. -/
def sub64 (a b : Nat) : Nat := (a + 2 ^ 64 - b) % 2 ^ 64

/-- `size_t` addition. -/
def add64 (a b : Nat) : Nat := (a + b) % 2 ^ 64

/-- `memset(mem + off, 0xFF, n)` on the bytes of a buffer. -/
def memsetFF (mem : List Nat) (off n : Nat) : Res (List Nat) :=
  forRange off (off + n) mem (fun i m => wr m i 255)

/-- Models `spgemm-blocks/util.h` 43-47, `roundUp<div>`. -/
def roundUp (div num : Nat) : Nat :=
  let rem := num % div
  if rem ≠ 0 then add64 num (sub64 div rem) else num

/-- Models `spgemm-blocks/util.h` 49-52, `roundDown<div>`. -/
def roundDown (div num : Nat) : Nat := sub64 num (num % div)

/-- Result of `splitMemory`: the bytes after the call, the updated dirty size and
the offset of the clean objects. The dirty objects start at offset 0. -/
structure Split where
  mem : List Nat
  dirty : Nat
  clean : Nat
  deriving DecidableEq, Repr

/-- Models `spgemm-blocks/util.h` 54-82, `splitMemory`. `szD`, `szC` are
`sizeof(DirtyT)`, `sizeof(CleanT)`; `nD`, `nC` the numbers of objects. -/
def splitMemory (mem : List Nat) (memSize dirty szD nD szC nC : Nat) : Res Split := do
  let dirtyObjs := szD * nD
  let cleanObjs := szC * nC
  let memSize := roundDown szC memSize
  let used := roundUp szC (max dirty dirtyObjs)
  if used > memSize ∨ cleanObjs > sub64 memSize used then
    check (decide (dirty > dirtyObjs))
    let toClean := sub64 cleanObjs (sub64 memSize dirty)
    let toClean := add64 toClean (sub64 dirty toClean % szC)
    check (decide (dirty ≥ toClean))
    let mem ← memsetFF mem (dirty - toClean) toClean
    let used := sub64 dirty toClean
    let dirty := sub64 dirty toClean
    check (decide (dirtyObjs ≤ used))
    check (decide (used + cleanObjs ≤ memSize))
    .ok ⟨mem, dirty, used⟩
  else
    check (decide (dirtyObjs ≤ used))
    check (decide (used + cleanObjs ≤ memSize))
    .ok ⟨mem, dirty, used⟩

/-- Models `spgemm-blocks/util.h` 84-88, `getCleanMemory`: no dirty objects
(`sizeof(std::byte)` is 1). -/
def getCleanMemory (mem : List Nat) (memSize dirty szC nC : Nat) : Res Split :=
  splitMemory mem memSize dirty 1 0 szC nC

/-! ## Aligned allocation -/

/-- Stores a `size_t` (little endian) at offset `off` of a block. The store is
bytewise: alignment of the store is the subject of a separate statement. -/
def storeWord (blk : List Nat) (off v : Nat) : Res (List Nat) :=
  forRange 0 8 blk (fun k b => wr b (off + k) (v / 256 ^ k % 256))

/-- Loads an unsigned integer of `w` bytes (little endian) from offset `off`. -/
def load (w : Nat) (blk : List Nat) (off : Nat) : Res Nat :=
  forRange 0 w 0 (fun k acc => do
    let b ← rd blk (off + k)
    .ok (acc + b * 256 ^ k))

/-- Number of bytes `mallocAligned` asks `malloc` for
(`spgemm-blocks/util.h` 22-23). -/
def requestSize (nbytes align : Nat) : Nat := align + 8 + nbytes

/-- Models `spgemm-blocks/util.h` 20-33, `mallocAligned`: `p` is the address
`malloc` returned, `blk` the bytes of the block. The result is the block after the
call and the offset of the returned pointer in the block. `malloc` is assumed to
succeed and `% 0` is not modelled (the alignment is at least 1 at all call
sites). -/
def mallocAligned (p : Nat) (blk : List Nat) (align : Nat) : Res (List Nat × Nat) := do
  let shift := 8
  let rem := (p + shift) % align
  let shift := shift + (if rem ≠ 0 then align - rem else 0)
  let blk ← storeWord blk (shift - 8) shift
  .ok (blk, shift)

/-- Models `spgemm-blocks/util.h` 35-41, `freeAligned`: the argument is given as an
offset in its block; the result is the address passed to `free`. -/
def freeAligned (p : Nat) (blk : List Nat) (off : Nat) : Res Int := do
  let shift ← load 8 blk (off - 8)
  .ok ((p : Int) + off - shift)

/-! ## Buffer handling of the accumulators -/

/-- Memory requirement of an accumulator: `dObj` bytes of dirty objects (values of
`MSA2A`), then `nC` clean objects of `szC` bytes. Models the `getMemoryRequirement`
functions: `MaskedSparseAccumulator1A.h` 63-65, `MaskedSparseAccumulator2A.h` 61-67,
`HashAccumulator.h` 52-54, `MaskCompressedAccumulator.h` 48-50. -/
structure Layout where
  szD : Nat
  nD : Nat
  szC : Nat
  nC : Nat
  deriving DecidableEq, Repr

/-- Bytes required. -/
def Layout.size (l : Layout) : Nat := l.szD * l.nD + l.szC * l.nC

/-- Alignment required (single-kind layouts have `szD = 1`). -/
def Layout.align (l : Layout) : Nat := Nat.lcm l.szD l.szC

/-- Models the `setBuffer` functions of the accumulators
(`MaskedSparseAccumulator1A.h` 67-73, `MaskedSparseAccumulator2A.h` 69-84,
`HashAccumulator.h` 68-74, `MaskCompressedAccumulator.h` 52-58): the alignment assert
(`p` is the address of the buffer), the size assert and the split. -/
def setBuffer (l : Layout) (p : Nat) (mem : List Nat) (memSize dirty : Nat) : Res Split := do
  check (decide (p % l.align = 0))
  check (decide (l.size ≤ memSize))
  splitMemory mem memSize dirty l.szD l.nD l.szC l.nC

end Verif.Mem
