import Verif.Model.ReadIO
import Verif.SpecIO
import Verif.Lemmas.Triples

/-! # Reading text files -/

namespace Verif.Model.ReadIO
open Verif.Spec

variable {V : Type}

/-! ### Numbers -/

theorem digit_isDigit {d : Nat} (h : d < 10) : isDigit (Nat.digitChar d) = true ∧ (Nat.digitChar d).toNat - '0'.toNat = d := by
  have : d = 0 ∨ d = 1 ∨ d = 2 ∨ d = 3 ∨ d = 4 ∨ d = 5 ∨ d = 6 ∨ d = 7 ∨ d = 8 ∨ d = 9 := by omega
  rcases this with rfl | rfl | rfl | rfl | rfl | rfl | rfl | rfl | rfl | rfl <;> decide

theorem digit_ne {c d : Char} (h : isDigit c = true) (hd : isDigit d = false) : c ≠ d := by
  rintro rfl
  rw [h] at hd
  cases hd

theorem digit_not_space {c : Char} (h : isDigit c = true) : isSpace c = false := by
  unfold isSpace
  simp only [Bool.or_eq_false_iff, decide_eq_false_iff_not]
  refine ⟨⟨⟨⟨⟨?_, ?_⟩, ?_⟩, ?_⟩, ?_⟩, ?_⟩ <;> exact digit_ne h (by decide)

structure Digits (w : List Char) (n : Nat) : Prop where
  ne : w ≠ []
  all : ∀ c ∈ w, isDigit c = true
  val : digitsVal w = n

theorem numeral_digits {w : List Char} {n : Nat} (h : Numeral w n) : Digits w n := by
  induction h with
  | digit d hd =>
    refine ⟨by simp, by simpa using (digit_isDigit hd).1, ?_⟩
    simp only [digitsVal, List.foldl_cons, List.foldl_nil]
    rw [(digit_isDigit hd).2]
    omega
  | snoc w n d _ hd ih =>
    refine ⟨by simp, ?_, ?_⟩
    · intro c hc
      rw [List.mem_append, List.mem_singleton] at hc
      rcases hc with hc | rfl
      · exact ih.all c hc
      · exact (digit_isDigit hd).1
    · have := ih.val
      unfold digitsVal at this ⊢
      rw [List.foldl_append, this]
      simp only [List.foldl_cons, List.foldl_nil]
      rw [(digit_isDigit hd).2]

/-- The string ends or goes on with something else than a digit. -/
def NoDigit (r : List Char) : Prop := ∀ c ∈ r.head?, isDigit c = false

theorem takeWhile_digits {w : List Char} {n : Nat} (h : Digits w n) {r : List Char} (hr : NoDigit r) :
    (w ++ r).takeWhile isDigit = w ∧ (w ++ r).dropWhile isDigit = r := by
  have h1 : r.takeWhile isDigit = [] ∧ r.dropWhile isDigit = r := by
    cases r with
    | nil => exact ⟨rfl, rfl⟩
    | cons c r =>
      have := hr c (by simp)
      simp [this]
  refine ⟨?_, ?_⟩
  · rw [List.takeWhile_append_of_pos h.all, h1.1, List.append_nil]
  · rw [List.dropWhile_append_of_pos h.all, h1.2]

theorem sign_digits {w : List Char} {n : Nat} (h : Digits w n) (r : List Char) : sign (w ++ r) = (false, w ++ r) := by
  cases w with
  | nil => exact absurd rfl h.ne
  | cons c w =>
    have := h.all c (by simp)
    simp only [List.cons_append, sign]
    rw [if_neg (digit_ne this (by decide)), if_neg (digit_ne this (by decide))]

theorem skip_digits {w : List Char} {n : Nat} (h : Digits w n) (r : List Char) : (w ++ r).dropWhile isSpace = w ++ r := by
  cases w with
  | nil => exact absurd rfl h.ne
  | cons c w =>
    have := digit_not_space (h.all c (by simp))
    simp [this]

theorem atoi_digits {w : List Char} {n : Nat} (h : Digits w n) {r : List Char} (hr : NoDigit r) : atoi (w ++ r) = n := by
  unfold atoi
  rw [skip_digits h, sign_digits h]
  simp only
  rw [(takeWhile_digits h hr).1, h.val]
  rfl

theorem noDigit_nil : NoDigit [] := by intro c hc; simp at hc

theorem noDigit_space (r : List Char) : NoDigit (' ' :: r) := by
  intro c hc
  simp at hc
  subst hc
  decide

theorem atoi_int {w : List Char} {z : Int} (h : IntNumeral w z) {r : List Char} (hr : NoDigit r) : atoi (w ++ r) = z := by
  cases h with
  | pos _ n hn => exact atoi_digits (numeral_digits hn) hr
  | neg w n hn =>
    have hd := numeral_digits hn
    unfold atoi
    have e : ('-' :: w ++ r).dropWhile isSpace = '-' :: (w ++ r) := rfl
    rw [e]
    have e2 : sign ('-' :: (w ++ r)) = (true, w ++ r) := rfl
    rw [e2]
    simp only
    rw [(takeWhile_digits hd hr).1, hd.val]
    rfl

theorem extract_digits {w : List Char} {n : Nat} (h : Digits w n) {r : List Char} (hr : NoDigit r) :
    extract (w ++ r, false) = (some (n : Int), (r, false)) := by
  unfold extract
  simp only [Bool.false_eq_true, if_false]
  rw [skip_digits h, sign_digits h]
  simp only
  rw [(takeWhile_digits h hr).1, (takeWhile_digits h hr).2, h.val]
  have h1 : (w ++ r).isEmpty = false := by
    cases w with
    | nil => exact absurd rfl h.ne
    | cons _ _ => rfl
  have h2 : w.isEmpty = false := by
    cases w with
    | nil => exact absurd rfl h.ne
    | cons _ _ => rfl
  rw [h1, h2]
  rfl

theorem extract_space {l : List Char} : extract (' ' :: l, false) = extract (l, false) := by
  unfold extract
  have : (' ' :: l).dropWhile isSpace = l.dropWhile isSpace := rfl
  simp only [this, Bool.false_eq_true, if_false]

theorem readSizes_ok {l : List Char} {m n k : Nat} (h : SizeLine l m n k) : readSizes l = .ok ((m : Int), (n : Int), (k : Int)) := by
  obtain ⟨w1, w2, w3, _, _, _, h1, h2, h3⟩ := h
  unfold readSizes
  simp only
  rw [List.append_assoc, List.cons_append, extract_digits (numeral_digits h1) (noDigit_space _)]
  simp only
  rw [extract_space, extract_digits (numeral_digits h2) (noDigit_space _)]
  simp only
  rw [extract_space, ← List.append_nil w3, extract_digits (numeral_digits h3) noDigit_nil]
  rfl

theorem afterSpace_some {w : List Char} (h : ' ' ∉ w) (r : List Char) : afterSpace (w ++ ' ' :: r) = some r := by
  unfold afterSpace
  rw [List.dropWhile_append_of_pos]
  · rfl
  · intro c hc
    simp only [decide_eq_true_eq]
    rintro rfl
    exact h hc

theorem afterSpace_none {w : List Char} (h : ' ' ∉ w) : afterSpace w = none := by
  unfold afterSpace
  have : w.dropWhile (fun c => decide (c ≠ ' ')) = [] := by
    have := List.dropWhile_append_of_pos (p := fun c => decide (c ≠ ' ')) (l₁ := w) (l₂ := []) (by
      intro c hc
      simp only [decide_eq_true_eq]
      rintro rfl
      exact h hc)
    simpa using this
  rw [this]

theorem digits_no {w : List Char} {n : Nat} (h : Digits w n) {c : Char} (hc : isDigit c = false) : c ∉ w :=
  fun hm => digit_ne (h.all c hm) hc rfl

theorem parseLine_ok {ofInt : Int → V} {l : List Char} {e : Nat × Nat × V} (h : EntryLine (IntVal ofInt) (ofInt 1) l e) :
    parseLine ofInt l = .ok ((e.1 : Int) + 1, (e.2.1 : Int) + 1, e.2.2) := by
  cases h with
  | pattern w1 w2 i j h1 h2 =>
    have d1 := numeral_digits h1
    have d2 := numeral_digits h2
    unfold parseLine
    rw [afterSpace_some (digits_no d1 (by decide))]
    simp only
    rw [afterSpace_none (digits_no d2 (by decide))]
    simp only
    have e2 := atoi_digits d2 noDigit_nil
    rw [List.append_nil] at e2
    rw [atoi_digits d1 (noDigit_space _), e2]
    simp
  | value w1 w2 w3 i j v h1 h2 h3 =>
    obtain ⟨z, h3, rfl⟩ := h3
    have d1 := numeral_digits h1
    have d2 := numeral_digits h2
    unfold parseLine
    rw [List.append_assoc, List.cons_append, afterSpace_some (digits_no d1 (by decide))]
    simp only
    rw [afterSpace_some (digits_no d2 (by decide))]
    simp only
    have e3 := atoi_int h3 noDigit_nil
    rw [List.append_nil] at e3
    rw [atoi_digits d1 (noDigit_space _), atoi_digits d2 (noDigit_space _), e3]
    simp

/-! ### Lines -/

theorem scanLine_delim {l : List Char} (h : '\n' ∉ l) : ∀ {k : Nat}, l.length ≤ k → ∀ r, scanLine k (l ++ '\n' :: r) = (l, r, .delim) := by
  induction l with
  | nil =>
    intro k _ r
    unfold scanLine
    simp
  | cons c l ih =>
    intro k hk r
    cases k with
    | zero => simp at hk
    | succ k =>
      simp only [List.mem_cons, not_or] at h
      have e := ih h.2 (show l.length ≤ k by simpa using hk) r
      rw [List.cons_append, scanLine.eq_def]
      simp only
      rw [if_neg (Ne.symm h.1), e]

theorem scanLine_eof {l : List Char} (h : '\n' ∉ l) : ∀ {k : Nat}, l.length ≤ k → scanLine k l = (l, [], .eof) := by
  induction l with
  | nil =>
    intro k _
    unfold scanLine
    rfl
  | cons c l ih =>
    intro k hk
    cases k with
    | zero => simp at hk
    | succ k =>
      simp only [List.mem_cons, not_or] at h
      have e := ih h.2 (show l.length ≤ k by simpa using hk)
      rw [scanLine.eq_def]
      simp only
      rw [if_neg (Ne.symm h.1), e]

theorem lines_char {a : Char} {c : List Char} {ls : List (List Char)} {text : List Char} (ha : a ≠ '\n')
    (h : Lines ((a :: c) :: ls) text) : ∃ text', text = a :: text' ∧ Lines (c :: ls) text' := by
  rcases h with ⟨tail, rfl⟩ | h
  · exact ⟨_, rfl, .inl ⟨tail, rfl⟩⟩
  · cases text with
    | nil =>
      simp only [List.nil_append, List.flatMap_cons, List.cons_append] at h
      exact absurd (List.cons.inj h).1.symm ha
    | cons b text =>
      simp only [List.flatMap_cons, List.cons_append] at h
      obtain ⟨h1, h⟩ := List.cons.inj h
      exact ⟨text, by rw [h1], .inr h⟩

theorem lines_char' {a : Char} {c : List Char} {ls : List (List Char)} {text : List Char} (h : Lines (c :: ls) text) :
    Lines ((a :: c) :: ls) (a :: text) := by
  rcases h with ⟨tail, rfl⟩ | h
  · exact .inl ⟨tail, rfl⟩
  · refine .inr ?_
    rw [List.cons_append, h]
    rfl

theorem getline_lines {l : List Char} {ls : List (List Char)} {text : List Char} (h : Lines (l :: ls) text) (h1 : '\n' ∉ l)
    (h2 : l.length ≤ 255) : ∃ s, getline ⟨text, false, false⟩ = (l, s) ∧ (ls ≠ [] → ∃ text', s = ⟨text', false, false⟩ ∧ Lines ls text') := by
  have good : ∀ text', text = l ++ '\n' :: text' → getline ⟨text, false, false⟩ = (l, ⟨text', false, false⟩) := by
    rintro text' rfl
    unfold getline
    simp only [Bool.or_self, Bool.false_eq_true, if_false]
    rw [scanLine_delim h1 h2]
  rcases h with ⟨tail, e⟩ | e
  · have e' : text = l ++ '\n' :: ((ls.flatMap fun l => l ++ ['\n']) ++ tail) := by
      rw [e]
      simp
    exact ⟨_, good _ e', fun _ => ⟨_, rfl, .inl ⟨tail, rfl⟩⟩⟩
  · rcases List.eq_nil_or_concat ls with h0 | ⟨P, x, h0⟩
    · subst h0
      have e' : text = l := by
        simp only [List.flatMap_cons, List.flatMap_nil, List.append_nil] at e
        exact List.append_cancel_right e
      subst e'
      refine ⟨⟨[], true, text.isEmpty⟩, ?_, fun h => absurd rfl h⟩
      unfold getline
      simp only [Bool.or_self, Bool.false_eq_true, if_false]
      rw [scanLine_eof h1 h2]
    · rw [List.concat_eq_append] at h0
      subst h0
      have e' : text = l ++ '\n' :: ((P.flatMap fun l => l ++ ['\n']) ++ x) := by
        apply List.append_cancel_right (bs := ['\n'])
        rw [e]
        simp
      refine ⟨_, good _ e', fun _ => ⟨_, rfl, .inr ?_⟩⟩
      simp

/-- The comments. `c` is the rest of the first comment, whose `%` has been read. -/
theorem comments_ok {c0 : Char} {size : List Char} {ls : List (List Char)} (hc0 : c0 ≠ '%') (hc0' : c0 ≠ '\n') :
    ∀ (cs : List (List Char)) (c : List Char) (fuel : Nat) (sym : Bool) (text : List Char), cs.length + 2 ≤ fuel →
      (∀ x ∈ c :: cs, '\n' ∉ x ∧ x.length ≤ 255) → Lines (c :: (cs.map ('%' :: ·) ++ (c0 :: size) :: ls)) text →
      ∃ text', comments fuel (some '%') ⟨text, false, false⟩ sym =
          .ok (sym || (c :: cs).any (contains · "symmetric".toList), some c0, ⟨text', false, false⟩) ∧ Lines (size :: ls) text' := by
  intro cs
  induction cs with
  | nil =>
    intro c fuel sym text hf hsh hl
    match fuel, hf with
    | fuel + 2, _ =>
      obtain ⟨h1, h2⟩ := hsh c (by simp)
      obtain ⟨s, e, hs⟩ := getline_lines hl h1 h2
      obtain ⟨text1, rfl, hl1⟩ := hs (by simp)
      obtain ⟨text2, rfl, hl2⟩ := lines_char hc0' hl1
      refine ⟨text2, ?_, hl2⟩
      rw [comments]
      simp only [if_true]
      rw [e]
      simp only [get, Bool.or_self, Bool.false_eq_true, if_false]
      rw [comments, if_neg (by simpa using hc0)]
      simp
  | cons d cs ih =>
    intro c fuel sym text hf hsh hl
    match fuel, hf with
    | fuel + 1, hf =>
      obtain ⟨h1, h2⟩ := hsh c (by simp)
      obtain ⟨s, e, hs⟩ := getline_lines hl h1 h2
      obtain ⟨text1, rfl, hl1⟩ := hs (by simp)
      rw [List.map_cons, List.cons_append] at hl1
      obtain ⟨text2, rfl, hl2⟩ := lines_char (by decide) hl1
      obtain ⟨text3, e3, hl3⟩ := ih d fuel (sym || contains c "symmetric".toList) text2 (by simp at hf; omega)
        (fun x hx => hsh x (List.mem_cons_of_mem _ hx)) hl2
      refine ⟨text3, ?_, hl3⟩
      rw [comments]
      simp only [if_true]
      rw [e]
      simp only [get, Bool.or_self, Bool.false_eq_true, if_false]
      rw [e3]
      simp [Bool.or_assoc]

/-! ### The beginning of the file -/

theorem banner_cons (f : Field) (s : Sym) : banner f s = '%' :: (banner f s).tail := by
  cases f <;> cases s <;> decide

theorem banner_sym (f : Field) (s : Sym) : contains (banner f s).tail "symmetric".toList = decide (s ≠ .general) := by
  cases f <;> cases s <;> decide +kernel

theorem size_cons {l : List Char} {m n k : Nat} (h : SizeLine l m n k) : ∃ c r, l = c :: r ∧ isDigit c = true := by
  obtain ⟨w1, w2, w3, _, _, _, h1, _, _⟩ := h
  have d := numeral_digits h1
  cases w1 with
  | nil => exact absurd rfl d.ne
  | cons c w => exact ⟨c, _, rfl, d.all c (by simp)⟩

theorem lines_length {ls : List (List Char)} {text : List Char} (h : Lines ls text) : (ls.map fun l => l.length + 1).sum ≤ text.length + 1 := by
  have e : (ls.flatMap fun l => l ++ ['\n']).length = (ls.map fun l => l.length + 1).sum := by
    rw [List.length_flatMap]
    congr 1
    apply List.map_congr_left
    intro l _
    simp
  rcases h with ⟨tail, rfl⟩ | h
  · rw [List.length_append, e]
    omega
  · have := congrArg List.length h
    rw [e, List.length_append, List.length_singleton] at this
    omega

/-- The line is read as the entry `e`. -/
def Reads (ofInt : Int → V) (l : List Char) (e : Nat × Nat × V) : Prop :=
  parseLine ofInt l = .ok ((e.1 : Int) + 1, (e.2.1 : Int) + 1, e.2.2)

/-- The file is read as an `m` times `n` matrix with the entries `es` if there are no long lines. -/
structure Parses (ofInt : Int → V) (t : MMText) (m n : Nat) (es : List (Nat × Nat × V)) : Prop where
  noNewline : ∀ l ∈ t.lines, '\n' ∉ l
  size : SizeLine t.size m n es.length
  entries : List.Forall₂ (Reads ofInt) t.entries es
  inBounds : ∀ e ∈ es, e.1 < m ∧ e.2.1 < n

theorem Parses.of_describes {ofInt : Int → V} {t : MMText} {m n : Nat} {es : List (Nat × Nat × V)} (h : Describes (IntVal ofInt) (ofInt 1) t m n es) :
    Parses ofInt t m n es :=
  ⟨h.noNewline, h.size, h.entries.imp fun _ _ h => parseLine_ok h, h.inBounds⟩

/-- What `isSymmetric` is after the comments -/
def symFlag (t : MMText) : Bool := decide (t.sym ≠ .general) || t.comments.any (contains · "symmetric".toList)

theorem header_ok {ofInt : Int → V} {t : MMText} {m n : Nat} {es : List (Nat × Nat × V)} (h : Parses ofInt t m n es)
    (hs : ∀ l ∈ t.lines, l.length ≤ 255) {text : List Char} (hl : Lines t.lines text) :
    ∃ s, header (some text) = .ok (symFlag t, ((m : Int), (n : Int), (es.length : Int)), s) ∧
      (t.entries ≠ [] → ∃ text', s = ⟨text', false, false⟩ ∧ Lines t.entries text') := by
  have hlen := lines_length hl
  have hn := h.noNewline
  unfold MMText.lines at hl hs hlen hn
  rw [banner_cons] at hl hs hlen hn
  obtain ⟨c0, size, hsz, hc0⟩ := size_cons h.size
  rw [hsz] at hl
  obtain ⟨text1, rfl, hl1⟩ := lines_char (by decide) hl
  have hmem : ∀ x ∈ (banner t.field t.sym).tail :: t.comments, '\n' ∉ x ∧ x.length ≤ 255 := by
    intro x hx
    have hx' : '%' :: x ∈ ('%' :: (banner t.field t.sym).tail) :: (t.comments.map ('%' :: ·) ++ t.size :: t.entries) := by
      rcases List.mem_cons.mp hx with rfl | hx
      · simp
      · refine List.mem_cons_of_mem _ (List.mem_append_left _ ?_)
        exact List.mem_map_of_mem hx
    have h1 := hn _ hx'
    have h2 := hs _ hx'
    simp only [List.mem_cons, not_or] at h1
    simp only [List.length_cons] at h2
    exact ⟨h1.2, by omega⟩
  have hfuel : t.comments.length + 2 ≤ ('%' :: text1).length + 2 := by
    have e1 : t.comments.length ≤ ((t.comments.map ('%' :: ·)).map fun l => l.length + 1).sum := by
      generalize t.comments = cs
      induction cs with
      | nil => simp
      | cons c cs ih =>
        simp only [List.map_cons, List.sum_cons, List.length_cons] at ih ⊢
        omega
    simp only [List.map_cons, List.map_append, List.sum_cons, List.sum_append] at hlen
    omega
  obtain ⟨text2, e2, hl2⟩ := comments_ok (digit_ne hc0 (by decide)) (digit_ne hc0 (by decide)) t.comments
    (banner t.field t.sym).tail (('%' :: text1).length + 2) false text1 hfuel hmem hl1
  have hsn := hn t.size (by simp)
  have hss := hs t.size (by simp)
  have hl3 : Lines (t.size :: t.entries) (c0 :: text2) := by
    rw [hsz]
    exact lines_char' hl2
  obtain ⟨s, e3, h3⟩ := getline_lines hl3 hsn hss
  refine ⟨s, ?_, h3⟩
  unfold header
  simp only [openFile, get, Bool.or_self, Bool.false_eq_true, if_false]
  rw [e2]
  simp only [ok_bind, unget, Bool.false_eq_true, if_false]
  rw [e3]
  simp only
  rw [readSizes_ok h.size]
  simp only [ok_bind]
  rw [List.any_cons, banner_sym]
  rfl

/-! ### The entries -/

/-- What the code stores for the entry `e` in line `k` -/
def outOne (rand : Bool) (rnd : Nat → V) (sym remove : Bool) (k : Nat) (e : Nat × Nat × V) : List (Int × Int × V) :=
  if remove ∧ e.1 = e.2.1 then []
  else if sym ∧ e.1 ≠ e.2.1 then [(e.1, e.2.1, pick rand rnd k e.2.2), (e.2.1, e.1, pick rand rnd k e.2.2)]
  else [(e.1, e.2.1, pick rand rnd k e.2.2)]

def outAll (rand : Bool) (rnd : Nat → V) (sym remove : Bool) : Nat → List (Nat × Nat × V) → List (Int × Int × V)
  | _, [] => []
  | k, e :: es => outOne rand rnd sym remove k e ++ outAll rand rnd sym remove (k + 1) es

theorem wr_append {α : Type} (a : List α) (x y : α) (r : List α) : wr (a ++ x :: r) a.length y = .ok (a ++ y :: r) := by
  rw [wr_of_lt (by simp)]
  simp

def weight (sym : Bool) : Nat := if sym then 2 else 1

theorem lineT_ok {ofInt : Int → V} (rand : Bool) (rnd : Nat → V) (sym remove : Bool) {l : List Char} {ls : List (List Char)}
    {text : List Char} (hl : Lines (l :: ls) text) (hn : '\n' ∉ l) (hs : l.length ≤ 255) {e : Nat × Nat × V} (he : Reads ofInt l e)
    (done rest : List (Int × Int × V)) (nnz : Int) (k : Nat) (hr : weight sym ≤ rest.length) :
    ∃ s rest' nnz', lineT ofInt rand rnd sym remove { arr := done ++ rest, cnz := done.length, nnz := nnz, s := ⟨text, false, false⟩, k := k } =
        .ok { arr := (done ++ outOne rand rnd sym remove k e) ++ rest', cnz := (done ++ outOne rand rnd sym remove k e).length, nnz := nnz', s := s, k := k + 1 } ∧
      (ls ≠ [] → ∃ text', s = ⟨text', false, false⟩ ∧ Lines ls text') ∧
      rest.length ≤ rest'.length + weight sym ∧
      nnz' - ((done ++ outOne rand rnd sym remove k e).length : Int) = nnz - (done.length : Int) - (weight sym : Nat) := by
  obtain ⟨s, e1, h1⟩ := getline_lines hl hn hs
  obtain ⟨i, j, v⟩ := e
  generalize hv : pick rand rnd k v = x
  unfold lineT
  simp only
  rw [e1]
  simp only
  rw [he]
  simp only [ok_bind, keep, outOne, hv]
  by_cases hd : remove = true ∧ i = j
  · have hd' : remove = true ∧ (i : Int) + 1 = (j : Int) + 1 := ⟨hd.1, by rw [hd.2]⟩
    simp only [if_pos hd, if_pos hd']
    refine ⟨s, rest, _, by rw [List.append_nil], h1, by omega, ?_⟩
    rw [List.append_nil]
    unfold weight
    cases sym <;> simp <;> omega
  · have hd' : ¬(remove = true ∧ (i : Int) + 1 = (j : Int) + 1) := by
      rintro ⟨a, b⟩
      exact hd ⟨a, by omega⟩
    simp only [if_neg hd, if_neg hd', store]
    cases rest with
    | nil =>
      unfold weight at hr
      cases sym <;> simp at hr
    | cons r0 rest =>
      rw [wr_append]
      have ei : (i : Int) + 1 - 1 = i := by omega
      have ej : (j : Int) + 1 - 1 = j := by omega
      simp only [ok_bind, ei, ej, mirror]
      cases sym with
      | false =>
        simp only [Bool.false_eq_true, if_false, false_and]
        refine ⟨s, rest, nnz, ?_, h1, ?_, ?_⟩
        · simp
        · simp [weight]
        · simp [weight]; omega
      | true =>
        simp only [if_true, true_and]
        by_cases hij : i = j
        · have hji : ¬((j : Int) ≠ (i : Int)) := by simp [hij]
          have hij' : ¬(i ≠ j) := by simp [hij]
          simp only [if_neg hji, if_neg hij']
          refine ⟨s, rest, nnz - 1, ?_, h1, ?_, ?_⟩
          · simp
          · simp [weight]
          · simp [weight]; omega
        · have hji : (j : Int) ≠ (i : Int) := by omega
          have hij' : i ≠ j := hij
          simp only [if_pos hji, if_pos hij']
          cases rest with
          | nil => simp [weight] at hr
          | cons r1 rest =>
            have e2 : done ++ ((i : Int), (j : Int), x) :: r1 :: rest = (done ++ [((i : Int), (j : Int), x)]) ++ r1 :: rest := by simp
            have e3 : done.length + 1 = (done ++ [((i : Int), (j : Int), x)]).length := by simp
            rw [e2, e3, wr_append]
            simp only [ok_bind]
            refine ⟨s, rest, nnz, ?_, h1, ?_, ?_⟩
            · simp
            · simp [weight]
            · simp [weight]; omega

theorem entryLoop_ok {ofInt : Int → V} (rand : Bool) (rnd : Nat → V) (sym remove : Bool) :
    ∀ (es : List (Nat × Nat × V)) (ls : List (List Char)) (done rest : List (Int × Int × V)) (nnz : Int) (s : Stream) (k fuel : Nat),
      List.Forall₂ (Reads ofInt) ls es → (∀ l ∈ ls, '\n' ∉ l ∧ l.length ≤ 255) →
      (ls ≠ [] → ∃ text, s = ⟨text, false, false⟩ ∧ Lines ls text) →
      nnz = (done.length : Int) + (weight sym * es.length : Nat) → weight sym * es.length ≤ rest.length → es.length < fuel →
      ∃ st, entryLoop (lineT ofInt rand rnd sym remove) fuel { arr := done ++ rest, cnz := done.length, nnz := nnz, s := s, k := k } = .ok st ∧
        st.nnz = (done ++ outAll rand rnd sym remove k es).length ∧ (st.cnz : Int) = st.nnz ∧
        st.arr.take st.cnz = done ++ outAll rand rnd sym remove k es := by
  intro es
  induction es with
  | nil =>
    intro ls done rest nnz s k fuel hf hls hst hn hr hfuel
    match fuel, hfuel with
    | fuel + 1, _ =>
      simp only [List.length_nil, Nat.mul_zero, Int.natCast_zero, Int.add_zero] at hn
      subst hn
      rw [entryLoop, if_neg (by simp)]
      refine ⟨_, rfl, ?_, rfl, ?_⟩
      · simp [outAll]
      · simp [outAll]
  | cons e es ih =>
    intro ls done rest nnz s k fuel hf hls hst hn hr hfuel
    match fuel, hfuel with
    | fuel + 1, hfuel =>
      cases hf with
      | cons he hf =>
        rename_i l ls
        obtain ⟨text, rfl, hl⟩ := hst (by simp)
        obtain ⟨h1, h2⟩ := hls l (by simp)
        have hw : weight sym * (e :: es).length = weight sym * es.length + weight sym := by
          rw [List.length_cons, Nat.mul_add, Nat.mul_one]
        have hw1 : 1 ≤ weight sym := by unfold weight; cases sym <;> simp
        obtain ⟨s', rest', nnz', e1, hs', hr', hn'⟩ := lineT_ok (ofInt := ofInt) rand rnd sym remove hl h1 h2 he done rest nnz k (by omega)
        obtain ⟨st, e2, h3, h4, h5⟩ := ih ls (done ++ outOne rand rnd sym remove k e) rest' nnz' s' (k + 1) fuel hf
          (fun l hl => hls l (List.mem_cons_of_mem _ hl)) hs' (by omega) (by omega) (by simp at hfuel; omega)
        refine ⟨st, ?_, ?_, h4, ?_⟩
        · rw [entryLoop, if_pos ⟨rfl, by simp only; omega⟩, e1]
          exact e2
        · rw [h3, outAll, List.append_assoc]
        · rw [h5, outAll, List.append_assoc]

theorem lineA_eq (ofInt : Int → V) (sym : Bool) (rnd : Nat → V) : lineA ofInt sym = lineT ofInt false rnd sym false := by
  funext st
  unfold lineA lineT
  rcases h : parseLine ofInt (getline st.s).1 with e | t
  · simp only [h]
    rfl
  · simp only [h, ok_bind, keep, pick, Bool.false_eq_true, false_and, if_false]

theorem entries_ok {ofInt : Int → V} (fresh : Nat → Int × Int × V) (rand : Bool) (rnd : Nat → V) (remove : Bool) {t : MMText} {m n : Nat}
    {es : List (Nat × Nat × V)} (h : Parses ofInt t m n es) (hs : ∀ l ∈ t.lines, l.length ≤ 255) {text : List Char}
    (hl : Lines t.lines text) :
    entries fresh (fun sym => lineT ofInt rand rnd sym remove) (some text) =
      .ok (((m : Int), (n : Int)), outAll rand rnd (symFlag t) remove 0 es) := by
  obtain ⟨s, e1, h1⟩ := header_ok h hs hl
  unfold entries
  rw [e1]
  simp only [ok_bind]
  have hn : (if symFlag t then 2 * (es.length : Int) else es.length) = ((weight (symFlag t) * es.length : Nat) : Int) := by
    unfold weight
    cases symFlag t <;> simp
  rw [hn]
  unfold alloc
  rw [if_neg (by omega)]
  simp only [ok_bind, Int.toNat_natCast]
  have hm : ∀ l ∈ t.entries, l ∈ t.lines := by
    intro l hl
    unfold MMText.lines
    simp [hl]
  obtain ⟨st, e2, h3, h4, h5⟩ := entryLoop_ok (ofInt := ofInt) rand rnd (symFlag t) remove es t.entries []
    (tab (weight (symFlag t) * es.length) fresh) (weight (symFlag t) * es.length : Nat) s 0 (weight (symFlag t) * es.length + 1) h.entries
    (fun l hl => ⟨h.noNewline l (hm l hl), hs l (hm l hl)⟩) h1 (by simp) (Nat.le_of_eq (tab_length _ _).symm)
    (by unfold weight; split <;> omega)
  simp only [List.nil_append, List.length_nil] at e2
  rw [e2]
  simp only [ok_bind]
  rw [show check (decide ((st.cnz : Int) = st.nnz)) = .ok () by rw [h4]; simp [check]]
  simp only [ok_bind]
  have : st.nnz.toNat = st.cnz := by omega
  rw [this, h5, List.nil_append]

end Verif.Model.ReadIO
