import Verif.Lemmas.Memory

/-!
# C17, C18, C45, C46: buffers

Bytes of a buffer are given by their offset; a buffer at address `p` that is
aligned to a multiple of `szC` makes every offset that `szC` divides aligned.
-/

namespace Verif.Props
open Verif Mem

/-- C17. A buffer of `memSize` bytes of which all from `dirty` on are 0xFF is
split. If the objects fit, the call succeeds (no assert fails, no byte outside the
buffer is touched), the dirty objects `[0, szD*nD)` and the clean objects
`[clean, clean + szC*nC)` are disjoint and inside the buffer, the clean objects are
aligned and all their bytes are 0xFF, and from the updated dirty size on all bytes
are 0xFF. Bytes below the updated dirty size are untouched. -/
theorem C17_split (mem : List Nat) (memSize dirty szD nD szC nC : Nat)
    (hlen : mem.length = memSize) (hsz : 0 < szC)
    (hfit : szD * nD + szC * nC ≤ memSize - memSize % szC)
    (hd : dirty ≤ memSize)
    (hff : ∀ i, dirty ≤ i → i < memSize → mem[i]? = some 255)
    (hw : memSize + szC ≤ 2 ^ 64) :
    ∃ mem' dirty' clean,
      splitMemory mem memSize dirty szD nD szC nC = .ok ⟨mem', dirty', clean⟩ ∧
      mem'.length = memSize ∧
      szD * nD ≤ clean ∧ clean + szC * nC ≤ memSize ∧ szC ∣ clean ∧
      (∀ i, clean ≤ i → i < clean + szC * nC → mem'[i]? = some 255) ∧
      dirty' ≤ dirty ∧ dirty' ≤ clean ∧
      (∀ i, dirty' ≤ i → i < memSize → mem'[i]? = some 255) ∧
      (∀ i, i < dirty' → mem'[i]? = mem[i]?) := by
  obtain ⟨⟨m, d, c⟩, h1, h2⟩ := splitMemory_good hlen hsz hfit hd hff hw
  exact ⟨m, d, c, h1, h2.len, h2.disjoint, h2.inside, h2.aligned, h2.ff, h2.dirtyLe, h2.dirtyClean,
    h2.bound, h2.kept⟩

/-- C17, for `getCleanMemory`. -/
theorem C17_getClean (mem : List Nat) (memSize dirty szC nC : Nat)
    (hlen : mem.length = memSize) (hsz : 0 < szC) (hfit : szC * nC ≤ memSize)
    (hd : dirty ≤ memSize)
    (hff : ∀ i, dirty ≤ i → i < memSize → mem[i]? = some 255)
    (hw : memSize + szC ≤ 2 ^ 64) :
    ∃ mem' dirty' clean,
      getCleanMemory mem memSize dirty szC nC = .ok ⟨mem', dirty', clean⟩ ∧
      mem'.length = memSize ∧ clean + szC * nC ≤ memSize ∧ szC ∣ clean ∧
      (∀ i, clean ≤ i → i < clean + szC * nC → mem'[i]? = some 255) ∧
      dirty' ≤ dirty ∧ dirty' ≤ clean ∧
      (∀ i, dirty' ≤ i → i < memSize → mem'[i]? = some 255) ∧
      (∀ i, i < dirty' → mem'[i]? = mem[i]?) := by
  have hfit' : 1 * 0 + szC * nC ≤ memSize - memSize % szC := by
    have := le_roundDown hsz (Nat.dvd_mul_right szC nC) hfit
    omega
  obtain ⟨m, d, c, h1, h2, _, h4⟩ := C17_split mem memSize dirty 1 0 szC nC hlen hsz hfit' hd hff hw
  exact ⟨m, d, c, h1, h2, h4⟩

/-- A dirty buffer: cleaning is needed and 12 bytes are set. -/
example : splitMemory (List.replicate 27 7) 27 27 4 2 4 3 =
    .ok ⟨List.replicate 12 7 ++ List.replicate 15 255, 12, 12⟩ := by decide +kernel
example := C17_split (List.replicate 27 7) 27 27 4 2 4 3 rfl (by decide) (by decide) (by decide)
  (by omega) (by decide)
/-- A buffer with a clean end that is large enough: nothing is written. -/
example := C17_split (List.replicate 5 7 ++ List.replicate 15 255) 20 5 1 3 4 2 rfl (by decide)
  (by decide) (by decide)
  (fun i h1 h2 => by
    rw [List.getElem?_append_right (by simpa using h1), List.getElem?_replicate,
      if_pos (by simp; omega)])
  (by decide)
/-- The size requirement is needed: too small a buffer fails the assert. -/
example : splitMemory (List.replicate 8 7) 8 8 4 1 4 2 = .error .assertion := by decide +kernel

/-- C18. For every address `p` returned by `malloc` for a block of the requested
size, the returned pointer `p + off` is a multiple of the alignment; the stored shift
(8 bytes below it) and the `nbytes` usable bytes lie inside the block; and if the
user changes only the usable bytes, `freeAligned` passes exactly `p` to `free`. -/
theorem C18_alloc (p nbytes align : Nat) (blk : List Nat) (ha : 1 ≤ align)
    (hlen : blk.length = requestSize nbytes align) (hw : requestSize nbytes align < 2 ^ 64) :
    ∃ blk' off, mallocAligned p blk align = .ok (blk', off) ∧
      align ∣ p + off ∧ 8 ≤ off ∧ off + nbytes ≤ blk.length ∧
      blk'.length = blk.length ∧
      ∀ blk'' : List Nat,
        (∀ i, i < off ∨ off + nbytes ≤ i → blk''[i]? = blk'[i]?) →
        freeAligned p blk'' off = .ok (p : Int) := by
  unfold mallocAligned requestSize at *
  simp only []
  have hlt := Nat.mod_lt (p + 8) (show align > 0 by omega)
  generalize hs : (8 + if (p + 8) % align ≠ 0 then align - (p + 8) % align else 0) = shift
  have hs1 : 8 ≤ shift := by omega
  have hs2 : shift ≤ 8 + align := by
    subst hs
    split <;> omega
  obtain ⟨b, e1, e2, e3, e4⟩ := storeWord_spec blk (shift - 8) shift (by omega)
  rw [e1, ok_bind]
  refine ⟨b, shift, rfl, ?_, hs1, by omega, e2, ?_⟩
  · subst hs
    by_cases h : (p + 8) % align ≠ 0
    · rw [if_pos h]
      have : p + (8 + (align - (p + 8) % align)) = ((p + 8) - (p + 8) % align) + align := by
        have := Nat.mod_le (p + 8) align
        omega
      rw [this]
      exact Nat.dvd_add (dvd_roundDown _ _) (Nat.dvd_refl _)
    · rw [if_neg h]
      exact Nat.dvd_of_mod_eq_zero (Nat.eq_zero_of_not_pos (by
        intro hc
        exact h (by rw [Nat.add_zero] at hc; omega)))
  · intro blk'' hb
    unfold freeAligned
    rw [load_spec 8 blk'' (shift - 8) shift (by omega) (by
      intro k hk
      rw [hb _ (by omega), e3 k hk]), ok_bind]
    congr 1
    omega

example := C18_alloc 48 5 12 (List.replicate 25 0) (by decide) rfl (by decide)
example : (mallocAligned 48 (List.replicate 25 0) 12).map (·.2) = .ok 12 := by decide +kernel

/-- C46, the part that holds: if the alignment is a multiple of 8 then the address
of the stored shift is a multiple of 8. -/
theorem C46_header_partial (p align off : Nat) (blk blk' : List Nat) (h8 : 8 ∣ align)
    (ha : 1 ≤ align) (nbytes : Nat) (hlen : blk.length = requestSize nbytes align)
    (hw : requestSize nbytes align < 2 ^ 64) (h : mallocAligned p blk align = .ok (blk', off)) :
    8 ∣ p + off - 8 := by
  obtain ⟨b, o, h1, h2, h3, _⟩ := C18_alloc p nbytes align blk ha hlen hw
  rw [h1] at h
  cases h
  have := Nat.dvd_trans h8 h2
  omega

/-- C46 fails in general: with the alignment 12 that three 4-byte fields give (the
heap entries of a 32-bit index type), a 16-byte aligned `malloc` address leads to a
store of the shift at an address that is not a multiple of 8. -/
theorem C46_header_misaligned :
    ∃ p align blk blk' off, 16 ∣ p ∧ align = 3 * 4 ∧ blk.length = requestSize 24 align ∧
      mallocAligned p blk align = .ok (blk', off) ∧ ¬ 8 ∣ p + off - 8 :=
  ⟨48, 12, List.replicate 44 0, (List.replicate 44 0).set 4 12, 12, by decide, rfl, rfl,
    by decide +kernel, by decide⟩

/-- Sizes of an accumulator that its object sizes fit: used by C45. For `MSA1A`,
`Hash` and `MCA` there are no dirty objects (`szD = 1`, `nD = 0`); for `MSA2A` the
clean objects are single bytes. -/
structure LayoutOk (l : Layout) : Prop where
  pos : 0 < l.szC
  fit : l.szC ∣ l.szD * l.nD

/-- What an accumulator relies on after `setBuffer`: its dirty objects and its table
lie inside the buffer, do not overlap, the table is aligned and all its bytes are
0xFF. -/
def Usable (l : Layout) (p size : Nat) (mem : List Nat) (clean : Nat) : Prop :=
  mem.length = size ∧ l.szD * l.nD ≤ clean ∧ clean + l.szC * l.nC ≤ size ∧ l.szC ∣ p + clean ∧
  ∀ i, clean ≤ i → i < clean + l.szC * l.nC → mem[i]? = some 255

/-- One call of `setBuffer`. -/
theorem C45_setBuffer (l : Layout) (hl : LayoutOk l) (p size dirty : Nat) (mem : List Nat)
    (hp : l.align ∣ p) (hlen : mem.length = size) (hsize : l.size ≤ size) (hd : dirty ≤ size)
    (hff : ∀ i, dirty ≤ i → i < size → mem[i]? = some 255) (hw : size + l.szC ≤ 2 ^ 64) :
    ∃ r, setBuffer l p mem size dirty = .ok r ∧ Usable l p size r.mem r.clean ∧
      r.dirty ≤ r.clean ∧ ∀ i, r.dirty ≤ i → i < size → r.mem[i]? = some 255 := by
  unfold setBuffer
  rw [check_of (by simpa using Nat.mod_eq_zero_of_dvd hp), ok_bind,
    check_of (by simpa using hsize), ok_bind]
  obtain ⟨r, h1, h2⟩ := splitMemory_good (szD := l.szD) (nD := l.nD) hlen hl.pos
    (le_roundDown hl.pos (Nat.dvd_add hl.fit (Nat.dvd_mul_right _ _)) hsize) hd hff hw
  refine ⟨r, h1, ⟨h2.len, h2.disjoint, h2.inside, ?_, h2.ff⟩, h2.dirtyClean, h2.bound⟩
  exact Nat.dvd_add (Nat.dvd_trans (Nat.dvd_lcm_right _ _) hp) h2.aligned

/-- C45. One buffer serves both phases. Its initial bytes are arbitrary and all
counted as dirty. The symbolic accumulator gets a usable table (it has no values, so no dirty
objects). Then the symbolic
phase may change the bytes of its table in any way as long as they are 0xFF again at
the end, and the dirty size it returns is any number that is at least the one it
was given; the numeric accumulator then also gets a usable table. The numbers the
accumulators return (their dirty size, for the hash table increased by the bytes of
the largest table used, `k` entries) meet the condition. -/
theorem C45_handover (sym num : Layout) (hs : LayoutOk sym) (hn : LayoutOk num)
    (p size : Nat) (mem : List Nat)
    (hp : Nat.lcm sym.align num.align ∣ p) (hsize : size = max sym.size num.size)
    (hlen : mem.length = size) (hws : size + sym.szC ≤ 2 ^ 64) (hwn : size + num.szC ≤ 2 ^ 64) :
    ∃ r, setBuffer sym p mem size size = .ok r ∧ Usable sym p size r.mem r.clean ∧
      (∀ k, k ≤ sym.nC → r.dirty + k * sym.szC ≤ size) ∧
      ∀ mem' dirty', mem'.length = size →
        (∀ i, i < r.clean ∨ r.clean + sym.szC * sym.nC ≤ i → mem'[i]? = r.mem[i]?) →
        (∀ i, r.clean ≤ i → i < r.clean + sym.szC * sym.nC → mem'[i]? = some 255) →
        r.dirty ≤ dirty' → dirty' ≤ size →
        ∃ r', setBuffer num p mem' size dirty' = .ok r' ∧ Usable num p size r'.mem r'.clean := by
  obtain ⟨r, h1, h2, h3, h4⟩ := C45_setBuffer sym hs p size size mem
    (Nat.dvd_trans (Nat.dvd_lcm_left _ _) hp) hlen (by omega) (Nat.le_refl _) (by omega) hws
  refine ⟨r, h1, h2, ?_, ?_⟩
  · intro k hk
    have := h2.2.2.1
    have hm := Nat.mul_le_mul_left sym.szC hk
    rw [Nat.mul_comm k]
    omega
  · intro mem' dirty' hl ho ht hd1 hd2
    obtain ⟨r', g1, g2, _⟩ := C45_setBuffer num hn p size dirty' mem'
      (Nat.dvd_trans (Nat.dvd_lcm_right _ _) hp) hl (by omega) hd2 (by
        intro i hi1 hi2
        by_cases hc : r.clean ≤ i ∧ i < r.clean + sym.szC * sym.nC
        · exact ht i hc.1 hc.2
        · rw [ho i (by omega)]
          exact h4 i (by omega) hi2) hwn
    exact ⟨r', g1, g2⟩

/-- C45: entries made of 0xFF bytes read as the empty marker. A field of `w` bytes
at an offset inside the table of a usable buffer has the value `2^(8w) - 1`, i.e.
255 for the one-byte states and `EMPTY` for hash keys. -/
theorem C45_reads_empty (l : Layout) (p size : Nat) (mem : List Nat) (clean : Nat)
    (h : Usable l p size mem clean) (w off : Nat)
    (h1 : clean ≤ off) (h2 : off + w ≤ clean + l.szC * l.nC) :
    load w mem off = .ok (256 ^ w - 1) :=
  load_ff w mem off (fun k hk => h.2.2.2.2 _ (by omega) (by omega))

/-- The layouts of the modelled accumulators are covered: `MSA1A` / `MCA` / hash
entries of 1 byte (symbolic states), 4 bytes (symbolic hash keys), 16 bytes (numeric),
and `MSA2A` with 8-byte values and 1-byte states. -/
example (n : Nat) : LayoutOk ⟨1, 0, 1, n⟩ := ⟨Nat.zero_lt_succ _, by simp⟩
example (n : Nat) : LayoutOk ⟨1, 0, 4, n⟩ := ⟨Nat.zero_lt_succ _, by simp⟩
example (n : Nat) : LayoutOk ⟨1, 0, 16, n⟩ := ⟨Nat.zero_lt_succ _, by simp⟩
example (n : Nat) : LayoutOk ⟨8, n, 1, n⟩ := ⟨Nat.zero_lt_succ _, by simp⟩
example := C45_handover ⟨1, 0, 4, 8⟩ ⟨1, 0, 16, 8⟩ ⟨by decide, by decide⟩ ⟨by decide, by decide⟩
  64 128 (List.replicate 128 3) (by decide) (by decide) rfl (by decide) (by decide)

end Verif.Props
