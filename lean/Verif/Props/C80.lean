import Verif.SpecBench
import Verif.Model.BenchRun

/-! # C80: names of algorithms and files in the log -/

namespace Verif.Props

open Verif.Model Verif.Model.Bench
open _root_.Verif.Spec (Shown phases IsFileName)

theorem removePrefix_append (p x : List Char) : removePrefix (p ++ x) p = x := by
  unfold removePrefix
  rw [if_neg (by simp), if_pos (by simp), List.drop_left]

theorem removePrefix_none {p s : List Char} (h : ¬p <+: s) : removePrefix s p = s := by
  unfold removePrefix
  split
  · rfl
  · rw [if_neg]
    intro e
    exact h (List.prefix_iff_eq_take.2 e.symm)

theorem removeSuffix_append (x s : List Char) : removeSuffix (x ++ s) s = x := by
  unfold removeSuffix
  rw [if_neg (by simp)]
  simp

theorem removeSuffix_none {x s : List Char} (h : ¬x <:+ s) : removeSuffix s x = s := by
  unfold removeSuffix
  split
  · rfl
  · rw [if_neg]
    intro e
    exact h (List.suffix_iff_eq_drop.2 e.symm)

theorem startsWith_iff (s p : List Char) : startsWith s p = true ↔ p <+: s := by
  unfold startsWith
  split
  · rename_i hl
    simp only [Bool.false_eq_true, false_iff]
    intro h
    have := h.length_le
    omega
  · rw [beq_iff_eq, List.prefix_iff_eq_take, eq_comm]

/-- A prefix of `x` followed by something that starts with a character not in the prefix is a prefix of `x`. -/
theorem prefix_of_append {p x s : List Char} {c : Char} (hc : c ∉ p) (h : p <+: x ++ c :: s) : p <+: x := by
  rcases List.prefix_or_prefix_of_prefix h (List.prefix_append x (c :: s)) with h1 | ⟨r, rfl⟩
  · exact h1
  · cases r with
    | nil => simp
    | cons d r =>
      exfalso
      have := (List.prefix_append_right_inj x).1 h
      obtain ⟨t, ht⟩ := this
      rw [List.cons_append] at ht
      have := (List.cons.inj ht).1
      exact hc (by simp [this])

/-- The part after the parentheses are removed, for the name `tag ++ x ++ ">"`, where `x` may end with `::Impl` -/
theorem process_core (two : Bool) (x : List Char) (h : ¬tag2 <+: x) :
    let name := (if two then tag2 else tag1) ++ x ++ ">".toList
    (if startsWith name tag1 then 1 else if startsWith name tag2 then 2 else 0) = (if two then 2 else 1) ∧
      removeSuffix (removePrefix (removePrefix name tag1) tag2) ">".toList = x := by
  intro name
  cases two
  · have e : name = tag1 ++ (x ++ ">".toList) := by simp [name]
    constructor
    · rw [e, if_pos ((startsWith_iff _ _).2 (List.prefix_append _ _))]
      rfl
    · rw [e, removePrefix_append, removePrefix_none (s := x ++ ">".toList) (fun h' => h (prefix_of_append (c := '>') (s := []) (by decide) h')),
        removeSuffix_append]
  · have e : name = tag2 ++ (x ++ ">".toList) := by simp [name]
    have h1 : ¬tag1 <+: tag2 ++ (x ++ ">".toList) := by
      intro h'
      have h2 := List.prefix_of_prefix_length_le h' (List.prefix_append tag2 _) (by decide)
      revert h2
      decide
    constructor
    · rw [e, if_neg (by rw [startsWith_iff]; exact h1), if_pos ((startsWith_iff _ _).2 (List.prefix_append _ _))]
      rfl
    · rw [e, removePrefix_none h1, removePrefix_append, removeSuffix_append]

/-- C80: every algorithm is shown in the log by its own text without spaces, and the number of phases, in all ways in which the programs name
algorithms. -/
theorem C80_names {text shown : List Char} (h : Shown text shown) : processName text = .ok shown := by
  have tags : ∀ two, "MaskedSpGEMM".toList ++ phases two ++ "p<".toList = if two then tag2 else tag1 := by decide
  have fin : ∀ (two : Bool) (x : List Char), ((if (if two then 2 else 1) = 1 then x ++ "-1P".toList else
      if (if two then 2 else 1) = 2 then x ++ "-2P".toList else x).filter (· ≠ ' ')) =
        x.filter (· ≠ ' ') ++ "-".toList ++ phases two ++ "P".toList := by
    intro two x
    cases two <;> simp [phases]
  cases h with
  | impl two x hx =>
    have hlen : ∀ y : List Char, rd ('(' :: (y ++ [')'])) 0 = .ok '(' := fun y => rfl
    have hback : ∀ y : List Char, rd ('(' :: (y ++ [')'])) (('(' :: (y ++ [')'])).length - 1) = .ok ')' := by
      intro y
      apply rd_of_getElem?
      have e : ('(' :: (y ++ [')'])).length - 1 = ('(' :: y).length := by simp
      rw [e, ← List.cons_append, List.getElem?_append_right (Nat.le_refl _)]
      simp
    have e : "(MaskedSpGEMM".toList ++ phases two ++ "p<".toList ++ x ++ "::Impl>)".toList =
        '(' :: (((if two then tag2 else tag1) ++ (x ++ "::Impl".toList) ++ ">".toList) ++ [')']) := by
      rw [← tags two]
      simp
    rw [e]
    generalize hy : (if two then tag2 else tag1) ++ (x ++ "::Impl".toList) ++ ">".toList = y
    unfold processName
    simp only [hlen, hback, ok_bind, and_self, if_true]
    have e2 : ((('(' :: (y ++ [')'])).drop 1).take (('(' :: (y ++ [')'])).length - 2)) = y := by
      have : ('(' :: (y ++ [')'])).length - 2 = y.length := by simp
      rw [this, List.drop_one, List.tail_cons, List.take_left]
    have hc := process_core two (x ++ "::Impl".toList)
      (fun h' => hx (prefix_of_append (c := ':') (s := ":Impl".toList) (by decide) h'))
    simp only at hc
    rw [hy] at hc
    rw [e2, hc.1, hc.2, removeSuffix_append, fin two x]
  | templ two x hx hx' =>
    rw [tags two]
    generalize hy : (if two then tag2 else tag1) ++ x ++ ">".toList = y
    have h0 : rd y 0 = .ok 'M' := by
      rw [← hy]
      cases two <;> rfl
    have hl : ∃ c, rd y (y.length - 1) = .ok c := by
      have : 0 < y.length := by
        rw [← hy]
        cases two <;> simp
      exact ⟨_, rd_of_lt (by omega)⟩
    obtain ⟨c, hl⟩ := hl
    unfold processName
    have hno : ¬('M' = '(' ∧ c = ')') := by simp
    simp only [h0, hl, ok_bind, if_neg hno]
    have hc := process_core two x hx
    simp only at hc
    rw [hy] at hc
    rw [hc.1, hc.2, removeSuffix_none hx', fin two x]
  | plain _ hx hx' =>
    have hpos : 0 < text.length := List.length_pos_iff.2 hx
    have no : ∀ (p : List Char) (c : Char), c ∈ p → c ∈ "()<>:".toList → ¬p <:+: text := by
      intro p c hp hc ⟨a, b, e⟩
      exact hx' c (by rw [← e]; simp [hp]) hc
    unfold processName
    rw [rd_of_lt hpos, ok_bind, rd_of_lt (show text.length - 1 < text.length by omega), ok_bind]
    have hfront : text[0] ≠ '(' := fun e => hx' _ (List.getElem_mem hpos) (by rw [e]; decide)
    rw [if_neg (fun h => hfront h.1)]
    have n1 : ¬tag1 <+: text := fun h => no tag1 '<' (by decide) (by decide) h.isInfix
    have n2 : ¬tag2 <+: text := fun h => no tag2 '<' (by decide) (by decide) h.isInfix
    have s1 : startsWith text tag1 = false := by
      rw [← Bool.not_eq_true, startsWith_iff]; exact n1
    have s2 : startsWith text tag2 = false := by
      rw [← Bool.not_eq_true, startsWith_iff]; exact n2
    simp only [s1, s2, removePrefix_none n1, removePrefix_none n2,
      removeSuffix_none (x := ">".toList) (fun h => no _ '>' (by decide) (by decide) h.isInfix),
      removeSuffix_none (x := "::Impl".toList) (fun h => no _ ':' (by decide) (by decide) h.isInfix)]
    rfl

/-- C80: two templates are never shown under the same name, unless they are the same up to spaces and have the same number of phases. -/
theorem C80_distinct (two two' : Bool) (x y : List Char) (hx : ¬tag2 <+: x) (hy : ¬tag2 <+: y) :
    processName ("(MaskedSpGEMM".toList ++ phases two ++ "p<".toList ++ x ++ "::Impl>)".toList) =
        processName ("(MaskedSpGEMM".toList ++ phases two' ++ "p<".toList ++ y ++ "::Impl>)".toList) ↔
      two = two' ∧ x.filter (· ≠ ' ') = y.filter (· ≠ ' ') := by
  rw [C80_names (.impl two x hx), C80_names (.impl two' y hy), Except.ok.injEq]
  constructor
  · intro h
    rw [List.append_assoc, List.append_assoc, List.append_assoc, List.append_assoc] at h
    have hl : ("-".toList ++ (phases two ++ "P".toList)).length = ("-".toList ++ (phases two' ++ "P".toList)).length := by
      cases two <;> cases two' <;> rfl
    have := List.append_inj' h hl
    refine ⟨?_, this.1⟩
    have h2 := this.2
    cases two <;> cases two' <;> first | rfl | (revert h2; decide)
  · rintro ⟨rfl, h⟩
    rw [h]

theorem rfind_spec (s : List Char) (c : Char) : ∀ k ≤ s.length,
    match rfind s c k with
    | some p => p < k ∧ s[p]? = some c ∧ ∀ q, p < q → q < k → s[q]? ≠ some c
    | none => ∀ q < k, s[q]? ≠ some c := by
  intro k
  induction k with
  | zero => intro _; simp [rfind]
  | succ k ih =>
    intro hk
    unfold rfind
    by_cases h : s[k]? = some c
    · rw [if_pos h]
      exact ⟨by omega, h, fun q h1 h2 => by omega⟩
    · rw [if_neg h]
      have := ih (by omega)
      revert this
      cases rfind s c k with
      | none =>
        intro this q hq
        rcases Nat.lt_succ_iff_lt_or_eq.1 hq with h1 | rfl
        · exact this q h1
        · exact h
      | some p =>
        rintro ⟨h1, h2, h3⟩
        refine ⟨by omega, h2, fun q hq hq' => ?_⟩
        rcases Nat.lt_succ_iff_lt_or_eq.1 hq' with h4 | rfl
        · exact h3 q hq h4
        · exact h

/-- C80: the file shown in the log is the last component of the path, for every path. -/
theorem C80_file (path : List Char) : IsFileName path (getFileName path) := by
  have h := rfind_spec path '/' path.length (Nat.le_refl _)
  unfold getFileName
  revert h
  cases rfind path '/' path.length with
  | none =>
    intro h
    refine ⟨fun hm => ?_, .inl rfl⟩
    obtain ⟨q, hq⟩ := List.mem_iff_getElem?.1 hm
    exact h q (List.getElem?_eq_some_iff.1 hq).1 hq
  | some p =>
    rintro ⟨h1, h2, h3⟩
    refine ⟨fun hm => ?_, .inr ⟨path.take p, ?_⟩⟩
    · obtain ⟨q, hq⟩ := List.mem_iff_getElem?.1 hm
      rw [List.getElem?_drop] at hq
      exact h3 (p + 1 + q) (by omega) (List.getElem?_eq_some_iff.1 hq).1 hq
    · have : path[p] = '/' := by
        rw [List.getElem?_eq_getElem h1] at h2
        exact Option.some.inj h2
      rw [← this, ← List.drop_eq_getElem_cons h1, List.take_append_drop]

/-- A path has only one last component, so `C80_file` determines it. -/
theorem fileName_unique {path a b : List Char} (ha : IsFileName path a) (hb : IsFileName path b) : a = b := by
  have key : ∀ (d d' a b : List Char), '/' ∉ a → '/' ∉ b → d ++ '/' :: a = d' ++ '/' :: b → a = b := by
    intro d
    induction d with
    | nil =>
      intro d' a b ha hb e
      cases d' with
      | nil => exact (List.cons.inj e).2
      | cons c d' =>
        exfalso
        have := (List.cons.inj e).2
        exact ha (by rw [this]; simp)
    | cons c d ih =>
      intro d' a b ha hb e
      cases d' with
      | nil =>
        exfalso
        have := (List.cons.inj e).2
        exact hb (by rw [← this]; simp)
      | cons c' d' => exact ih d' a b ha hb (List.cons.inj e).2
  rcases ha with ⟨ha, rfl | ⟨d, rfl⟩⟩
  · rcases hb with ⟨hb, rfl | ⟨d', rfl⟩⟩
    · rfl
    · exact absurd ha (by simp)
  · rcases hb with ⟨hb, rfl | ⟨d', e⟩⟩
    · exact absurd hb (by simp)
    · exact key _ _ _ _ ha hb e

theorem cLoop_none {mem : List Char} : ∀ k ≤ mem.length, (∀ q < k, mem[q]? ≠ some '/') → cFileNameLoop mem k = .error .oob := by
  intro k
  induction k with
  | zero => intros; rfl
  | succ k ih =>
    intro hk h
    have h1 := h k (by omega)
    unfold cFileNameLoop
    rw [rd_of_lt (by omega), ok_bind, if_pos, ih (by omega) fun q hq => h q (by omega)]
    intro e
    exact h1 (by rw [List.getElem?_eq_getElem (by omega), e])

theorem cLoop_some {mem : List Char} {p : Nat} (hp : mem[p]? = some '/') : ∀ k, p < k → k ≤ mem.length →
    (∀ q, p < q → q < k → mem[q]? ≠ some '/') → cFileNameLoop mem k = .ok p := by
  have hpl := (List.getElem?_eq_some_iff.1 hp).1
  intro k
  induction k with
  | zero => intro h; omega
  | succ k ih =>
    intro h1 hk h
    unfold cFileNameLoop
    rw [rd_of_lt (by omega), ok_bind]
    by_cases e : k = p
    · subst e
      rw [if_neg]
      simpa [List.getElem?_eq_getElem hpl] using hp
    · rw [if_pos, ih (by omega) (by omega) fun q a b => h q a (by omega)]
      intro e'
      exact h k (by omega) (by omega) (by rw [List.getElem?_eq_getElem (by omega), e'])

/-- C80, the program for masks that are not complemented: the last component of every path that has a `/`. -/
theorem C80_file_masked_partial {path : List Char} (h : '/' ∈ path) : ∃ base, cFileName path = .ok base ∧ IsFileName path base := by
  refine ⟨getFileName path, ?_, C80_file path⟩
  have hs := rfind_spec path '/' path.length (Nat.le_refl _)
  unfold getFileName
  revert hs
  cases rfind path '/' path.length with
  | none =>
    intro hs
    obtain ⟨q, hq⟩ := List.mem_iff_getElem?.1 h
    exact absurd hq (hs q (List.getElem?_eq_some_iff.1 hq).1)
  | some p =>
    rintro ⟨h1, h2, h3⟩
    unfold cFileName
    rw [cLoop_some (p := p) (by rw [List.getElem?_append_left h1]; exact h2) _ (by omega) (by simp) ?_, ok_bind]
    intro q hq hq'
    by_cases hl : q < path.length
    · rw [List.getElem?_append_left hl]; exact h3 q hq hl
    · have : q = path.length := by omega
      subst this
      simp

/-- C80, violated by the program for masks that are not complemented: for every path without `/` it reads the byte before the path. -/
theorem C80_violated {path : List Char} (h : '/' ∉ path) : cFileName path = .error .oob := by
  unfold cFileName
  rw [cLoop_none _ (by simp) ?_]
  · rfl
  · intro q hq
    by_cases hl : q < path.length
    · rw [List.getElem?_append_left hl]
      exact fun e => h (List.mem_of_getElem? e)
    · have : q = path.length := by omega
      subst this
      simp

/-! ## Examples -/

example := C80_names (.impl true "MSA1A<false, true>".toList (by decide))
example : processName "(MaskedSpGEMM2p<MSA1A<false, true>::Impl>)".toList = .ok "MSA1A<false,true>-2P".toList := by decide +kernel
example := C80_names (.templ false "MaskedInner".toList (by decide) (by decide))
example : processName "MaskedSpGEMM1p<MaskedInner>".toList = .ok "MaskedInner-1P".toList := by decide +kernel
example := C80_names (.plain "mxm_hash_mask".toList (by decide) (by decide))
example := C80_distinct true false "MCA<false, false>".toList "MCA<false, false>".toList (by decide) (by decide)
example : getFileName "a/b.d/c.mtx".toList = "c.mtx".toList := by decide +kernel
example : cFileName "a/b.d/c.mtx".toList = .ok "c.mtx".toList := by decide +kernel
example := C80_file_masked_partial (path := "a/b.d/c.mtx".toList) (by decide)
example := C80_violated (path := "c.mtx".toList) (by decide)

end Verif.Props
