import Verif.Lemmas.ReadCsr
import Verif.Props.C65

/-! # C67: building a matrix by rows from a text file -/

namespace Verif.Props
open Verif Model Model.ReadCsr Conv
open _root_.Verif.Spec (Numeral IntNumeral IntVal Sym Field banner EntryLine SizeLine LinesOnly MMText Describes fullEntries triples)

variable {V : Type}

/-- Whether the word "general" occurs in the comments of a symmetric file -/
def MisleadingGeneral (t : MMText) : Prop := t.sym ≠ .general ∧ ∃ c ∈ t.comments, "general".toList <:+: c

theorem csr_run {Val : List Char → V → Prop} {one : V} {atof : List Char → V} (ha : AtofOk Val atof) (dflt : V) (neg : V → V)
    {t : MMText} {m n : Nat} {es : List (Nat × Nat × V)} (h : Describes Val one t m n es) (hs : ∀ l ∈ t.lines, l.length ≤ 254)
    {text : List Char} (hl : LinesOnly t.lines text) :
    ∃ C, csrOfFile atof one dflt (some text) = .ok C ∧ C.WF ∧ C.rows = m ∧ C.cols = n ∧
      (triples C).Perm (fullEntries neg (if genFlag t then .general else .symmetric) es) := by
  have hsq : genFlag t = false → m = n := by
    intro hg
    apply h.square
    intro e
    simp [genFlag, e] at hg
  have hb := mem_fullEntries_bounds (neg := neg) (s := if genFlag t then .general else .symmetric) h.inBounds (fun hg => hsq (by
    by_contra hne
    apply hg
    rw [if_pos (by simpa using hne)]))
  have hp := sitems_perm neg (genFlag t) es
  have hb1 : ∀ x ∈ sitems (genFlag t) es, x.1 < m ∧ x.2.1 < n := fun x hx => hb _ (hp.subset (List.mem_map_of_mem hx))
  refine ⟨_, csrOfFile_ok ha dflt h hs hsq hl, ?_, rfl, rfl, ?_⟩
  · apply ofRows_wf _ _ _ _ rfl
    intro i _ x hx
    exact (hb1 (i, x) (mem_bucket.mp hx)).2
  · rw [triples_ofRows]
    have := bucket_perm (sitems (genFlag t) es) (fun x hx => (hb1 x hx).1)
    refine List.Perm.trans ?_ ((this.map fun x => (x.1, x.2.1, x.2.2)).trans hp)
    rw [List.map_flatMap]
    simp only [List.map_map, Function.comp_def]
    exact List.Perm.refl _

theorem genFlag_eq {t : MMText} (hm : ¬MisleadingGeneral t) : genFlag t = decide (t.sym = .general) := by
  unfold genFlag
  by_cases h : t.sym = .general
  · simp [h]
  · have : t.comments.any (ReadIO.contains · "general".toList) = false := by
      rw [List.any_eq_false]
      intro c hc hcon
      exact hm ⟨h, c, hc, of_decide_eq_true hcon⟩
    rw [this, Bool.or_false]

/-- C67: from a file whose lines have at most 254 characters, that is not skew-symmetric, has "general" in no comment if it is
symmetric, has as many entries as it says and nothing after them, the constructor builds the matrix that the file describes. What is
missing is shown by `C67_violated_…`. -/
theorem C67_partial {Val : List Char → V → Prop} {one : V} {atof : List Char → V} (ha : AtofOk Val atof) (dflt : V) (neg : V → V)
    {t : MMText} {m n : Nat} {es : List (Nat × Nat × V)} (h : Describes Val one t m n es) (hs : ∀ l ∈ t.lines, l.length ≤ 254)
    (hk : t.sym ≠ .skew) (hm : ¬MisleadingGeneral t) {text : List Char} (hl : LinesOnly t.lines text) :
    ∃ C, csrOfFile atof one dflt (some text) = .ok C ∧ C.WF ∧ C.rows = m ∧ C.cols = n ∧ (triples C).Perm (fullEntries neg t.sym es) := by
  have : (if genFlag t then Sym.general else .symmetric) = t.sym := by
    rw [genFlag_eq hm]
    cases hsym : t.sym with
    | general => simp
    | symmetric => simp
    | skew => exact absurd hsym hk
  obtain ⟨C, h1, h2, h3, h4, h5⟩ := csr_run ha dflt neg h hs hl
  rw [this] at h5
  exact ⟨C, h1, h2, h3, h4, h5⟩

/-- C67 is violated by every skew-symmetric file with an entry off the diagonal: its mirror image gets the same value. -/
theorem C67_violated_skew {Val : List Char → V → Prop} {one : V} {atof : List Char → V} (ha : AtofOk Val atof) (dflt : V) (neg : V → V)
    {t : MMText} {m n : Nat} {es : List (Nat × Nat × V)} (h : Describes Val one t m n es) (hs : ∀ l ∈ t.lines, l.length ≤ 254)
    (hk : t.sym = .skew) (hm : ¬MisleadingGeneral t) {text : List Char} (hl : LinesOnly t.lines text)
    (hnd : (fullEntries neg .symmetric es).Pairwise fun a b => (a.1, a.2.1) ≠ (b.1, b.2.1))
    {e : Nat × Nat × V} (he : e ∈ es) (hoff : e.1 ≠ e.2.1) (hv : neg e.2.2 ≠ e.2.2) :
    ∃ C, csrOfFile atof one dflt (some text) = .ok C ∧ ¬(triples C).Perm (fullEntries neg t.sym es) := by
  have hf : genFlag t = false := by simp [genFlag_eq hm, hk]
  obtain ⟨C, h1, _, _, _, h5⟩ := csr_run ha dflt neg h hs hl
  refine ⟨C, h1, fun hp => ?_⟩
  rw [hf, if_neg (by simp)] at h5
  rw [hk] at hp
  have hm1 : (e.2.1, e.1, neg e.2.2) ∈ fullEntries neg .skew es := by
    simp only [fullEntries, List.mem_append, List.mem_map, List.mem_filter]
    exact .inr ⟨e, ⟨he, by simpa using hoff⟩, rfl⟩
  have hm2 : (e.2.1, e.1, e.2.2) ∈ fullEntries neg .symmetric es := by
    simp only [fullEntries, List.mem_append, List.mem_map, List.mem_filter]
    exact .inr ⟨e, ⟨he, by simpa using hoff⟩, rfl⟩
  have hm3 := (hp.symm.trans h5).subset hm1
  obtain ⟨i, hi, ei⟩ := List.mem_iff_getElem.mp hm3
  obtain ⟨j, hj, ej⟩ := List.mem_iff_getElem.mp hm2
  rw [List.pairwise_iff_getElem] at hnd
  rcases Nat.lt_trichotomy i j with hij | hij | hij
  · have := hnd i j hi hj hij
    rw [ei, ej] at this
    exact this rfl
  · subst hij
    rw [ei] at ej
    exact hv (Prod.mk.inj (Prod.mk.inj ej).2).2
  · have := hnd j i hj hi hij
    rw [ei, ej] at this
    exact this rfl

/-- C67 is violated by every symmetric file with an entry off the diagonal and the word "general" in a comment: the mirror images are
missing. -/
theorem C67_violated_comment {Val : List Char → V → Prop} {one : V} {atof : List Char → V} (ha : AtofOk Val atof) (dflt : V) (neg : V → V)
    {t : MMText} {m n : Nat} {es : List (Nat × Nat × V)} (h : Describes Val one t m n es) (hs : ∀ l ∈ t.lines, l.length ≤ 254)
    (hk : t.sym = .symmetric) (hm : MisleadingGeneral t) {text : List Char} (hl : LinesOnly t.lines text)
    {e : Nat × Nat × V} (he : e ∈ es) (hoff : e.1 ≠ e.2.1) :
    ∃ C, csrOfFile atof one dflt (some text) = .ok C ∧ ¬(triples C).Perm (fullEntries neg t.sym es) := by
  have hf : genFlag t = true := by
    obtain ⟨_, c, hc, hin⟩ := hm
    unfold genFlag
    rw [Bool.or_eq_true]
    right
    rw [List.any_eq_true]
    exact ⟨c, hc, decide_eq_true hin⟩
  obtain ⟨C, h1, _, _, _, h5⟩ := csr_run ha dflt neg h hs hl
  refine ⟨C, h1, fun hp => ?_⟩
  rw [hf, if_pos rfl] at h5
  rw [hk] at hp
  have := (hp.symm.trans h5).length_eq
  simp only [fullEntries, List.length_append, List.length_map] at this
  have h0 : (es.filter fun e => decide (e.1 ≠ e.2.1)) ≠ [] := by
    apply List.ne_nil_of_mem
    exact List.mem_filter.mpr ⟨he, by simpa using hoff⟩
  have := List.length_pos_iff.mpr h0
  omega

/-- C67 is violated by every file that has only comments: the loop over the comments does not end. -/
theorem C67_violated_comments (atof : List Char → V) (one dflt : V) (cs : List (List Char)) (hne : cs ≠ [])
    (hc : ∀ c ∈ cs, '\n' ∉ c ∧ c.length ≤ 253) {text : List Char} (hl : LinesOnly (cs.map ('%' :: ·)) text) :
    csrOfFile atof one dflt (some text) = .error .diverge := by
  have stuck : ∀ (fuel : Nat) (l : List Char) (gen : Bool), l.head? = some '%' → headLoop fuel (some l) [] gen = .error .diverge := by
    intro fuel
    induction fuel with
    | zero => intro l gen _; rfl
    | succ fuel ih =>
      intro l gen hl
      rw [headLoop]
      simp only [nextLine, fgets, List.isEmpty_nil, if_true]
      rw [if_pos hl]
      exact ih l _ hl
  have key : ∀ (cs : List (List Char)) (fuel : Nat) (line : Option (List Char)) (text : List Char) (gen : Bool),
      (∀ c ∈ cs, '\n' ∉ c ∧ c.length ≤ 253) → LinesOnly (cs.map ('%' :: ·)) text →
      ((∃ l, line = some l ∧ l.head? = some '%') ∨ cs ≠ []) → headLoop fuel line text gen = .error .diverge := by
    intro cs
    induction cs with
    | nil =>
      intro fuel line text gen _ hl h
      rcases h with ⟨l, rfl, hh⟩ | h
      · have : text = [] := by
          rcases hl with rfl | h
          · rfl
          · simp at h
        subst this
        exact stuck fuel l gen hh
      · exact absurd rfl h
    | cons c cs ih =>
      intro fuel line text gen hc hl _
      cases fuel with
      | zero => rfl
      | succ fuel =>
        obtain ⟨h1, h2⟩ := hc c (by simp)
        obtain ⟨x, r, e, hx, hr, _⟩ := fgets_lines (l := '%' :: c) (ls := cs.map ('%' :: ·)) hl (by simp)
          (by simp only [List.mem_cons, not_or]; exact ⟨by decide, h1⟩) (by simp; omega)
        have hh : x.head? = some '%' := by
          rcases hx with rfl | rfl <;> rfl
        rw [headLoop]
        simp only [nextLine, e]
        rw [if_pos hh]
        exact ih fuel _ r _ (fun c hcc => hc c (by simp [hcc])) hr (.inl ⟨x, rfl, hh⟩)
  unfold csrOfFile
  simp only
  rw [key cs _ none text false hc hl (.inr hne)]
  rfl

/-- C67 is violated by an empty file: the line is examined although nothing has been read into it. -/
theorem C67_violated_empty (atof : List Char → V) (one dflt : V) : csrOfFile atof one dflt (some []) = .error .uninit := rfl

/-- C67 is violated if the number of entries is not the one in the file, or if a blank line follows. With more entries than announced
the arrays overflow; with fewer the result is not a valid matrix; a blank line is read through a null pointer. -/
theorem C67_violated_count :
    csrOfFile ReadIO.atoi 1 0 (some (banner .integer .general ++ "\n2 2 1\n1 1 5\n2 2 6\n".toList)) = .error .oob ∧
      (∃ C, csrOfFile ReadIO.atoi 1 0 (some (banner .integer .general ++ "\n2 2 3\n1 1 5\n2 2 6\n".toList)) = .ok C ∧ ¬C.WF) ∧
      csrOfFile ReadIO.atoi 1 0 (some (banner .integer .general ++ "\n2 2 2\n1 1 5\n2 2 6\n\n".toList)) = .error .oob := by
  refine ⟨by decide +kernel, ⟨⟨2, 2, 3, [0, 1, 2], [0, 1, 0], [5, 6, 0], true⟩, by decide +kernel, fun h => ?_⟩, by decide +kernel⟩
  have := h.ptrLast
  revert this
  decide

/-! ### Examples -/

theorem atoi_ok : AtofOk (IntVal (id : Int → Int)) ReadIO.atoi := by
  rintro w v ⟨z, hz, rfl⟩
  have h1 := ReadIO.atoi_int hz ReadIO.noDigit_nil
  rw [List.append_nil] at h1
  exact ⟨h1, ReadIO.atoi_int hz noDigit_nl⟩

example := C67_partial atoi_ok 0 (fun v : Int => -v) symFile_describes (by decide +kernel) (by decide)
  (by rintro ⟨_, c, hc, h⟩; revert h; simp only [symFile, List.mem_singleton] at hc; subst hc; decide +kernel)
  (text := banner .integer .symmetric ++ "\n% an example\n3 3 2\n2 1 -12\n3 3 7".toList) (.inr (by decide +kernel))
example : csrOfFile ReadIO.atoi 1 0 (some (banner .integer .symmetric ++ "\n% an example\n3 3 2\n2 1 -12\n3 3 7".toList)) =
    .ok { rows := 3, cols := 3, nnz := 3, rowptr := [0, 1, 2, 3], colids := [1, 0, 2], values := [-12, -12, 7], zerobased := true } := by
  decide +kernel

example := C67_violated_skew atoi_ok 0 (fun v : Int => -v) skewFile_describes (by decide +kernel) rfl
  (by rintro ⟨_, c, hc, _⟩; simp [skewFile] at hc)
  (text := banner .integer .skew ++ "\n2 2 1\n2 1 5\n".toList) (.inl (by decide +kernel)) (by decide)
  (e := (1, 0, 5)) (by decide) (by decide) (by decide)

/-- A symmetric file with a misleading comment -/
def genFile : MMText :=
  { field := .pattern, sym := .symmetric, comments := [" in general".toList], size := "2 2 1".toList, entries := ["2 1".toList] }

theorem genFile_describes : Describes (IntVal (id : Int → Int)) 1 genFile 2 2 [(1, 0, 1)] where
  noNewline := by decide +kernel
  size := .mk ['2'] ['2'] ['1'] 2 2 1 (.digit 2 (by decide)) (.digit 2 (by decide)) (.digit 1 (by decide))
  entries := .cons (.pattern ['2'] ['1'] 1 0 (.digit 2 (by decide)) (.digit 1 (by decide))) .nil
  inBounds := by decide
  square := fun _ => rfl

example := C67_violated_comment atoi_ok 0 (fun v : Int => -v) genFile_describes (by decide +kernel) rfl
  ⟨by decide, _, List.mem_singleton_self _, by decide +kernel⟩
  (text := banner .pattern .symmetric ++ "\n% in general\n2 2 1\n2 1\n".toList) (.inl (by decide +kernel)) (e := (1, 0, 1)) (by decide) (by decide)

example := C67_violated_comments ReadIO.atoi 1 0 ["a".toList, "b".toList] (by decide) (by decide) (text := "%a\n%b\n".toList)
  (.inl (by decide +kernel))

end Verif.Props
