import Verif.Lemmas.ReadIO
import Verif.Props.C21

/-! # C65, C66: reading matrices from text files -/

namespace Verif.Props
open Verif Model Model.ReadIO
open _root_.Verif.Spec (Numeral IntNumeral IntVal Sym Field banner EntryLine SizeLine Lines MMText Describes fullEntries SortsBy triplesC)

variable {V : Type}

/-- The entry with its indices as integers -/
def castE (e : Nat × Nat × V) : Int × Int × V := (e.1, e.2.1, e.2.2)

/-- Whether the word "symmetric" occurs in the comments of a file that is not symmetric -/
def MisleadingComment (t : MMText) : Prop := t.sym = .general ∧ ∃ c ∈ t.comments, "symmetric".toList <:+: c

/-- The entries with the values that are used, if `k` lines have been read before -/
def valued (rand : Bool) (rnd : Nat → V) : Nat → List (Nat × Nat × V) → List (Nat × Nat × V)
  | _, [] => []
  | k, e :: es => (e.1, e.2.1, ReadIO.pick rand rnd k e.2.2) :: valued rand rnd (k + 1) es

theorem valued_pos (rand : Bool) (rnd : Nat → V) (es : List (Nat × Nat × V)) :
    ∀ k, (valued rand rnd k es).map (fun e => (e.1, e.2.1)) = es.map fun e => (e.1, e.2.1) := by
  induction es with
  | nil => intro k; rfl
  | cons e es ih =>
    intro k
    simp only [valued, List.map_cons]
    rw [ih]

theorem valued_false (rnd : Nat → V) (es : List (Nat × Nat × V)) : ∀ k, valued false rnd k es = es := by
  induction es with
  | nil => intro k; rfl
  | cons e es ih =>
    intro k
    simp only [valued, ReadIO.pick, Bool.false_eq_true, if_false]
    rw [ih]

theorem valued_true (rnd : Nat → V) (es : List (Nat × Nat × V)) : ∀ k, ∀ e ∈ valued true rnd k es, ∃ i, e.2.2 = rnd i := by
  induction es with
  | nil => intro k e he; simp [valued] at he
  | cons e es ih =>
    intro k x hx
    simp only [valued, List.mem_cons] at hx
    rcases hx with rfl | hx
    · exact ⟨k, by simp [ReadIO.pick]⟩
    · exact ih _ x hx

theorem outAll_perm (rand : Bool) (rnd : Nat → V) (sym remove : Bool) (neg : V → V) (es : List (Nat × Nat × V)) :
    ∀ k, ∃ F : List (Nat × Nat × V), outAll rand rnd sym remove k es = F.map castE ∧
      F.Perm (fullEntries neg (if sym then .symmetric else .general)
        ((valued rand rnd k es).filter fun e => !(remove && decide (e.1 = e.2.1)))) := by
  induction es with
  | nil =>
    intro k
    refine ⟨[], rfl, ?_⟩
    cases sym <;> exact List.Perm.refl _
  | cons e es ih =>
    intro k
    obtain ⟨F, h1, h2⟩ := ih (k + 1)
    obtain ⟨i, j, v⟩ := e
    simp only [outAll, outOne, valued]
    generalize ReadIO.pick rand rnd k v = x
    by_cases hd : remove = true ∧ i = j
    · rw [if_pos hd, List.filter_cons_of_neg (by simp [hd.1, hd.2])]
      exact ⟨F, h1, h2⟩
    · rw [if_neg hd, List.filter_cons_of_pos (by
        simp only [Bool.not_eq_true', Bool.and_eq_false_iff, decide_eq_false_iff_not]
        by_cases hr : remove = true
        · exact .inr fun e => hd ⟨hr, e⟩
        · exact .inl (by simpa using hr))]
      cases sym with
      | false =>
        simp only [Bool.false_eq_true, false_and, if_false, fullEntries] at h2 ⊢
        refine ⟨(i, j, x) :: F, ?_, h2.cons _⟩
        rw [h1]
        rfl
      | true =>
        simp only [true_and, if_true, fullEntries] at h2 ⊢
        by_cases hij : i = j
        · rw [if_neg (by simpa using hij), List.filter_cons_of_neg (by simpa using hij)]
          refine ⟨(i, j, x) :: F, ?_, h2.cons _⟩
          rw [h1]
          rfl
        · rw [if_pos (by simpa using hij), List.filter_cons_of_pos (by simpa using hij)]
          refine ⟨(i, j, x) :: (j, i, x) :: F, ?_, ?_⟩
          · rw [h1]
            rfl
          · refine List.Perm.cons _ ?_
            simp only [List.map_cons]
            exact (h2.cons _).trans List.perm_middle.symm

theorem symFlag_eq {t : MMText} (hm : ¬MisleadingComment t) : symFlag t = decide (t.sym ≠ .general) := by
  unfold symFlag
  by_cases h : t.sym = .general
  · have : t.comments.any (contains · "symmetric".toList) = false := by
      rw [List.any_eq_false]
      intro c hc hcon
      exact hm ⟨h, c, hc, of_decide_eq_true hcon⟩
    rw [this, Bool.or_false]
  · simp [h]

theorem triples_run {ofInt : Int → V} (neg : V → V) (fresh : Nat → Int × Int × V) (rand : Bool) (rnd : Nat → V) (remove : Bool) {t : MMText}
    {m n : Nat} {es : List (Nat × Nat × V)} (h : Parses ofInt t m n es) (hs : ∀ l ∈ t.lines, l.length ≤ 255) {text : List Char}
    (hl : Lines t.lines text) :
    ∃ es' F : List (Nat × Nat × V), es'.map (fun e => (e.1, e.2.1)) = es.map (fun e => (e.1, e.2.1)) ∧ (rand = false → es' = es) ∧
      (rand = true → ∀ e ∈ es', ∃ i, e.2.2 = rnd i) ∧
      entries fresh (fun sym => lineT ofInt rand rnd sym remove) (some text) = .ok (((m : Int), (n : Int)), F.map castE) ∧
      F.Perm (fullEntries neg (if symFlag t then .symmetric else .general) (es'.filter fun e => !(remove && decide (e.1 = e.2.1)))) := by
  obtain ⟨F, h1, h2⟩ := outAll_perm rand rnd (symFlag t) remove neg es 0
  refine ⟨valued rand rnd 0 es, F, valued_pos _ _ _ _, ?_, ?_, ?_, h2⟩
  · rintro rfl
    exact valued_false _ _ _
  · rintro rfl
    exact valued_true _ _ _
  · rw [entries_ok fresh rand rnd remove h hs hl, h1]

/-- C66: from a file whose lines have at most 255 characters, that is not skew-symmetric and in which the word "symmetric" occurs only
where it belongs, `ReadASCII_Triples` reads the sizes and exactly the entries of the matrix: with mirror images in the symmetric case,
without the diagonal if wanted, and with random values at the same positions if wanted (the same value for an entry and its mirror
image). What is missing is shown by `C65_violated_…`. -/
theorem C66_partial {ofInt : Int → V} (neg : V → V) (fresh : Nat → Int × Int × V) (rand : Bool) (rnd : Nat → V) (remove : Bool) {t : MMText}
    {m n : Nat} {es : List (Nat × Nat × V)} (h : Describes (IntVal ofInt) (ofInt 1) t m n es) (hs : ∀ l ∈ t.lines, l.length ≤ 255) (hk : t.sym ≠ .skew)
    (hm : ¬MisleadingComment t) {text : List Char} (hl : Lines t.lines text) :
    ∃ es' F : List (Nat × Nat × V), es'.map (fun e => (e.1, e.2.1)) = es.map (fun e => (e.1, e.2.1)) ∧ (rand = false → es' = es) ∧
      (rand = true → ∀ e ∈ es', ∃ i, e.2.2 = rnd i) ∧
      readTriples fresh ofInt rand rnd remove (some text) = .ok (((m : Int), (n : Int)), F.map castE) ∧
      F.Perm (fullEntries neg t.sym (es'.filter fun e => !(remove && decide (e.1 = e.2.1)))) := by
  obtain ⟨es', F, h1, h2, h3, h4, h5⟩ := triples_run neg fresh rand rnd remove (.of_describes h) hs hl
  refine ⟨es', F, h1, h2, h3, h4, ?_⟩
  have : (if symFlag t then Sym.symmetric else .general) = t.sym := by
    rw [symFlag_eq hm]
    cases hsym : t.sym with
    | general => simp
    | symmetric => simp
    | skew => exact absurd hsym hk
  rwa [this] at h5

theorem mem_fullEntries_bounds {neg : V → V} {s : Sym} {es : List (Nat × Nat × V)} {m n : Nat} (hb : ∀ e ∈ es, e.1 < m ∧ e.2.1 < n)
    (hsq : s ≠ .general → m = n) : ∀ e ∈ fullEntries neg s es, e.1 < m ∧ e.2.1 < n := by
  intro e he
  have key : ∀ f : V → V, m = n → e ∈ es ++ (es.filter fun e => decide (e.1 ≠ e.2.1)).map (fun e => (e.2.1, e.1, f e.2.2)) →
      e.1 < m ∧ e.2.1 < n := by
    rintro f rfl hm
    rw [List.mem_append, List.mem_map] at hm
    rcases hm with hm | ⟨x, hx, rfl⟩
    · exact hb e hm
    · have := hb x (List.mem_of_mem_filter hx)
      exact ⟨this.2, this.1⟩
  cases s with
  | general => exact hb e he
  | symmetric => exact key id (hsq (by simp)) he
  | skew => exact key neg (hsq (by simp)) he

theorem ascii_run {ofInt : Int → V} (neg : V → V) {sortf : List (Nat × V) → List (Nat × V)} (hsort : SortsBy Prod.fst sortf) {t : MMText}
    {m n : Nat} {es : List (Nat × Nat × V)} (h : Parses ofInt t m n es) (hs : ∀ l ∈ t.lines, l.length ≤ 255)
    (hsq : symFlag t = true → m = n) {text : List Char}
    (hl : Lines t.lines text) {order : List Nat} (ho : order.Perm (List.range n)) :
    ∃ C, readASCII sortf order ofInt (some text) = .ok C ∧ C.WF ∧ C.rows = m ∧ C.cols = n ∧
      (triplesC C).Perm (fullEntries neg (if symFlag t then .symmetric else .general) es) ∧
      ∀ j < n, (C.colRows j).Pairwise (· ≤ ·) := by
  obtain ⟨es', F, _, h2, _, h4, h5⟩ := triples_run neg (fun _ => (0, 0, ofInt 0)) false (fun _ => ofInt 0) false h hs hl
  rw [h2 rfl] at h5
  have e0 : es.filter (fun e => !(false && decide (e.1 = e.2.1))) = es := by simp
  rw [e0] at h5
  have hb : ∀ e ∈ F, e.1 < m ∧ e.2.1 < n := fun e he =>
    mem_fullEntries_bounds h.inBounds (fun hg => hsq (by
      by_contra hne
      exact hg (if_neg hne))) e (h5.subset he)
  obtain ⟨C, e1, hw, hr, hc, _, hp, hso, _⟩ := C47_triples hsort (ofInt 0) F m n order ho hb
  refine ⟨C, ?_, hw, hr, hc, hp.trans h5, hso⟩
  unfold readASCII
  have ef : (fun sym => lineA ofInt sym) = (fun sym => lineT ofInt false (fun _ => ofInt 0) sym false) := by
    funext sym
    exact lineA_eq ofInt sym _
  rw [ef, h4]
  simp only [ok_bind]
  have et : toNats (((m : Int), (n : Int)), F.map castE) = .ok ((m, n), F) := by
    unfold toNats
    rw [if_pos]
    · simp [castE, Function.comp_def]
    · refine ⟨by simp, by simp, ?_⟩
      intro t ht
      rw [List.mem_map] at ht
      obtain ⟨x, _, rfl⟩ := ht
      simp [castE]
  rw [et]
  exact e1

/-- C65: from a file whose lines have at most 255 characters, that is not skew-symmetric and in which the word "symmetric" occurs only
where it belongs, `ReadASCII` builds the matrix that the file describes. What is missing is shown by `C65_violated_…`. -/
theorem C65_partial {ofInt : Int → V} (neg : V → V) {sortf : List (Nat × V) → List (Nat × V)} (hsort : SortsBy Prod.fst sortf) {t : MMText}
    {m n : Nat} {es : List (Nat × Nat × V)} (h : Describes (IntVal ofInt) (ofInt 1) t m n es) (hs : ∀ l ∈ t.lines, l.length ≤ 255) (hk : t.sym ≠ .skew)
    (hm : ¬MisleadingComment t) {text : List Char} (hl : Lines t.lines text) {order : List Nat} (ho : order.Perm (List.range n)) :
    ∃ C, readASCII sortf order ofInt (some text) = .ok C ∧ C.WF ∧ C.rows = m ∧ C.cols = n ∧
      (triplesC C).Perm (fullEntries neg t.sym es) ∧ ∀ j < n, (C.colRows j).Pairwise (· ≤ ·) := by
  have e := symFlag_eq hm
  have : (if symFlag t then Sym.symmetric else .general) = t.sym := by
    rw [e]
    cases hsym : t.sym with
    | general => simp
    | symmetric => simp
    | skew => exact absurd hsym hk
  obtain ⟨C, h1, h2, h3, h4, h5, h6⟩ := ascii_run neg hsort (.of_describes h) hs (fun hf => h.square (by rw [e] at hf; simpa using hf)) hl ho
  rw [this] at h5
  exact ⟨C, h1, h2, h3, h4, h5, h6⟩

/-- C65 is violated by every skew-symmetric file with an entry off the diagonal: it is read as if it were symmetric, the mirror image of
an entry gets the same value instead of the opposite one. -/
theorem C65_violated_skew {ofInt : Int → V} (neg : V → V) {sortf : List (Nat × V) → List (Nat × V)} (hsort : SortsBy Prod.fst sortf)
    {t : MMText} {m n : Nat} {es : List (Nat × Nat × V)} (h : Describes (IntVal ofInt) (ofInt 1) t m n es) (hs : ∀ l ∈ t.lines, l.length ≤ 255)
    (hk : t.sym = .skew) {text : List Char} (hl : Lines t.lines text) {order : List Nat} (ho : order.Perm (List.range n))
    (hnd : (fullEntries neg .symmetric es).Pairwise fun a b => (a.1, a.2.1) ≠ (b.1, b.2.1))
    {e : Nat × Nat × V} (he : e ∈ es) (hoff : e.1 ≠ e.2.1) (hv : neg e.2.2 ≠ e.2.2) :
    ∃ C, readASCII sortf order ofInt (some text) = .ok C ∧ ¬(triplesC C).Perm (fullEntries neg t.sym es) := by
  have hf : symFlag t = true := by simp [symFlag, hk]
  obtain ⟨C, h1, _, _, _, h5, _⟩ := ascii_run neg hsort (.of_describes h) hs (fun _ => h.square (by rw [hk]; simp)) hl ho
  refine ⟨C, h1, fun hp => ?_⟩
  rw [hf, if_pos rfl] at h5
  rw [hk] at hp
  have hm1 : (e.2.1, e.1, neg e.2.2) ∈ fullEntries neg .skew es := by
    simp only [fullEntries, List.mem_append, List.mem_map, List.mem_filter]
    exact .inr ⟨e, ⟨he, by simpa using hoff⟩, rfl⟩
  have hm2 : (e.2.1, e.1, e.2.2) ∈ fullEntries neg .symmetric es := by
    simp only [fullEntries, List.mem_append, List.mem_map, List.mem_filter]
    exact .inr ⟨e, ⟨he, by simpa using hoff⟩, rfl⟩
  have hm3 := (hp.symm.trans h5).subset hm1
  obtain ⟨i, hi, ei⟩ := List.mem_iff_getElem.mp hm3
  obtain ⟨j, hj, ej⟩ := List.mem_iff_getElem.mp hm2
  rw [List.pairwise_iff_getElem] at hnd
  rcases Nat.lt_trichotomy i j with hij | hij | hij
  · have := hnd i j hi hj hij
    rw [ei, ej] at this
    exact this rfl
  · subst hij
    rw [ei] at ej
    exact hv (Prod.mk.inj (Prod.mk.inj ej).2).2
  · have := hnd j i hj hi hij
    rw [ei, ej] at this
    exact this rfl

/-- C65 is violated by every general file of a square matrix with the word "symmetric" in a comment: the mirror images are added. -/
theorem C65_violated_comment {ofInt : Int → V} (neg : V → V) {sortf : List (Nat × V) → List (Nat × V)} (hsort : SortsBy Prod.fst sortf)
    {t : MMText} {m : Nat} {es : List (Nat × Nat × V)} (h : Describes (IntVal ofInt) (ofInt 1) t m m es) (hs : ∀ l ∈ t.lines, l.length ≤ 255)
    (hk : MisleadingComment t) {text : List Char} (hl : Lines t.lines text) {order : List Nat} (ho : order.Perm (List.range m))
    {e : Nat × Nat × V} (he : e ∈ es) (hoff : e.1 ≠ e.2.1) :
    ∃ C, readASCII sortf order ofInt (some text) = .ok C ∧ ¬(triplesC C).Perm (fullEntries neg t.sym es) := by
  have hf : symFlag t = true := by
    obtain ⟨_, c, hc, hin⟩ := hk
    unfold symFlag
    rw [Bool.or_eq_true]
    right
    rw [List.any_eq_true]
    exact ⟨c, hc, decide_eq_true hin⟩
  obtain ⟨C, h1, _, _, _, h5, _⟩ := ascii_run neg hsort (.of_describes h) hs (fun _ => rfl) hl ho
  refine ⟨C, h1, fun hp => ?_⟩
  rw [hf, if_pos rfl] at h5
  rw [hk.1] at hp
  have := (hp.symm.trans h5).length_eq
  simp only [fullEntries, List.length_append, List.length_map] at this
  have h0 : (es.filter fun e => decide (e.1 ≠ e.2.1)) ≠ [] := by
    apply List.ne_nil_of_mem
    exact List.mem_filter.mpr ⟨he, by simpa using hoff⟩
  have := List.length_pos_iff.mpr h0
  omega

/-- C65 is violated by every file with a comment of more than 256 characters right after the banner: the sizes are not set. -/
theorem C65_violated_long (sortf : List (Nat × V) → List (Nat × V)) (order : List Nat) (ofInt : Int → V) (f : Field) (s : Sym)
    (c tail : List Char) (hc : 255 < c.length) (hn : '\n' ∉ c) :
    readASCII sortf order ofInt (some (banner f s ++ '\n' :: '%' :: c ++ '\n' :: tail)) = .error .uninit := by
  have hb : '\n' ∉ (banner f s).tail ∧ (banner f s).tail.length ≤ 255 := by
    cases f <;> cases s <;> decide +kernel
  have h1 : ∀ (k : Nat) (l r : List Char), k < l.length → '\n' ∉ l → ∃ a b, scanLine k (l ++ r) = (a, b, .full) := by
    intro k
    induction k with
    | zero =>
      intro l r hl hn
      cases l with
      | nil => simp at hl
      | cons x l =>
        simp only [List.mem_cons, not_or] at hn
        refine ⟨[], x :: (l ++ r), ?_⟩
        rw [List.cons_append, scanLine.eq_def]
        simp only
        rw [if_neg (Ne.symm hn.1)]
    | succ k ih =>
      intro l r hl hn
      cases l with
      | nil => simp at hl
      | cons x l =>
        simp only [List.mem_cons, not_or] at hn
        obtain ⟨a, b, e⟩ := ih l r (by simpa using hl) hn.2
        refine ⟨x :: a, b, ?_⟩
        rw [List.cons_append, scanLine.eq_def]
        simp only
        rw [if_neg (Ne.symm hn.1), e]
  obtain ⟨a, b, e⟩ := h1 255 c ('\n' :: tail) hc hn
  have hlen : ∃ k, (banner f s ++ '\n' :: '%' :: c ++ '\n' :: tail).length + 2 = k + 3 := by
    refine ⟨(banner f s ++ '\n' :: '%' :: c ++ '\n' :: tail).length - 1, ?_⟩
    rw [banner_cons]
    simp
  obtain ⟨k, hk⟩ := hlen
  have e2 : header (some (banner f s ++ '\n' :: '%' :: c ++ '\n' :: tail)) = .error .uninit := by
    unfold header
    simp only [openFile]
    rw [hk, banner_cons]
    simp only [ReadIO.get, List.cons_append, List.append_assoc, Bool.or_self, Bool.false_eq_true, if_false]
    rw [comments]
    simp only [if_true]
    have g1 : getline ⟨(banner f s).tail ++ '\n' :: '%' :: (c ++ '\n' :: tail), false, false⟩ =
        ((banner f s).tail, ⟨'%' :: (c ++ '\n' :: tail), false, false⟩) := by
      unfold getline
      simp only [Bool.or_self, Bool.false_eq_true, if_false]
      rw [scanLine_delim hb.1 hb.2]
    rw [g1]
    simp only [ReadIO.get, Bool.or_self, Bool.false_eq_true, if_false]
    rw [comments]
    simp only [if_true]
    have g2 : getline ⟨c ++ '\n' :: tail, false, false⟩ = (a, ⟨b, false, true⟩) := by
      unfold getline
      simp only [Bool.or_self, Bool.false_eq_true, if_false]
      rw [e]
    rw [g2]
    simp only [ReadIO.get, Bool.or_true, if_true]
    rw [comments, if_neg (by simp)]
    simp only [ok_bind, unget, if_true, getline, Bool.or_true]
    rfl
  unfold readASCII entries
  rw [e2]
  rfl

/-- C65 is violated if the file does not exist: the sizes are not set. -/
theorem C65_violated_missing (sortf : List (Nat × V) → List (Nat × V)) (order : List Nat) (ofInt : Int → V) :
    readASCII sortf order ofInt none = .error .uninit := rfl

/-- A line whose value has a fractional part -/
inductive DecimalLine (ofInt : Int → V) : List Char → Nat × Nat × V → Prop where
  | mk (w1 w2 w3 frac : List Char) (i j : Nat) (v : Int) (h1 : Numeral w1 (i + 1)) (h2 : Numeral w2 (j + 1)) (h3 : IntNumeral w3 v) :
      DecimalLine ofInt (w1 ++ ' ' :: w2 ++ ' ' :: (w3 ++ '.' :: frac)) (i, j, ofInt v)

/-- C65 is violated by values that are not integers: in a file of such values everything after the points is dropped, so that for
example all values between -1 and 1 become 0. -/
theorem C65_violated_decimal {ofInt : Int → V} (neg : V → V) {sortf : List (Nat × V) → List (Nat × V)} (hsort : SortsBy Prod.fst sortf)
    {t : MMText} {m n : Nat} {es : List (Nat × Nat × V)} (hn : ∀ l ∈ t.lines, '\n' ∉ l) (hz : SizeLine t.size m n es.length)
    (he : List.Forall₂ (DecimalLine ofInt) t.entries es) (hb : ∀ e ∈ es, e.1 < m ∧ e.2.1 < n) (hs : ∀ l ∈ t.lines, l.length ≤ 255)
    (hg : t.sym = .general) (hm : ¬MisleadingComment t) {text : List Char} (hl : Lines t.lines text) {order : List Nat}
    (ho : order.Perm (List.range n)) :
    ∃ C, readASCII sortf order ofInt (some text) = .ok C ∧ (triplesC C).Perm es := by
  have hp : Parses ofInt t m n es := ⟨hn, hz, he.imp fun l e h => by
    obtain ⟨w1, w2, w3, frac, i, j, v, h1, h2, h3⟩ := h
    have d1 := numeral_digits h1
    have d2 := numeral_digits h2
    unfold Reads parseLine
    rw [List.append_assoc, List.cons_append, afterSpace_some (digits_no d1 (by decide))]
    simp only
    rw [afterSpace_some (digits_no d2 (by decide))]
    simp only
    rw [atoi_digits d1 (noDigit_space _), atoi_digits d2 (noDigit_space _), atoi_int h3 (r := '.' :: frac) (by
      intro c hc
      simp at hc
      subst hc
      decide)]
    simp, hb⟩
  have hf : symFlag t = false := by simp [symFlag_eq hm, hg]
  obtain ⟨C, h1, _, _, _, h5, _⟩ := ascii_run neg hsort hp hs (by simp [hf]) hl ho
  exact ⟨C, h1, by simpa [hf, fullEntries] using h5⟩

/-- A line with two spaces between row and column; the entry has the number of the column as its value. -/
inductive DoubleLine (ofInt : Int → V) : List Char → Nat × Nat × V → Prop where
  | mk (w1 w2 w3 : List Char) (i j : Nat) (h1 : Numeral w1 (i + 1)) (h2 : Numeral w2 (j + 1)) :
      DoubleLine ofInt (w1 ++ ' ' :: ' ' :: w2 ++ ' ' :: w3) (i, j, ofInt (j + 1))

/-- C65 is violated if row and column are separated by two spaces: the values in the file are ignored, the number of the column is taken
instead. -/
theorem C65_violated_spaces {ofInt : Int → V} (neg : V → V) {sortf : List (Nat × V) → List (Nat × V)} (hsort : SortsBy Prod.fst sortf)
    {t : MMText} {m n : Nat} {es : List (Nat × Nat × V)} (hn : ∀ l ∈ t.lines, '\n' ∉ l) (hz : SizeLine t.size m n es.length)
    (he : List.Forall₂ (DoubleLine ofInt) t.entries es) (hb : ∀ e ∈ es, e.1 < m ∧ e.2.1 < n) (hs : ∀ l ∈ t.lines, l.length ≤ 255)
    (hg : t.sym = .general) (hm : ¬MisleadingComment t) {text : List Char} (hl : Lines t.lines text) {order : List Nat}
    (ho : order.Perm (List.range n)) :
    ∃ C, readASCII sortf order ofInt (some text) = .ok C ∧ (triplesC C).Perm es := by
  have hp : Parses ofInt t m n es := ⟨hn, hz, he.imp fun l e h => by
    obtain ⟨w1, w2, w3, i, j, h1, h2⟩ := h
    have d1 := numeral_digits h1
    have d2 := numeral_digits h2
    unfold Reads parseLine
    rw [List.append_assoc, List.cons_append, List.cons_append, afterSpace_some (digits_no d1 (by decide))]
    simp only
    have e0 : afterSpace (' ' :: (w2 ++ ' ' :: w3)) = some (w2 ++ ' ' :: w3) := rfl
    rw [e0]
    simp only
    have e1 : atoi (' ' :: (w2 ++ ' ' :: w3)) = atoi (w2 ++ ' ' :: w3) := rfl
    rw [e1, atoi_digits d1 (noDigit_space _), atoi_digits d2 (noDigit_space _)]
    simp, hb⟩
  have hf : symFlag t = false := by simp [symFlag_eq hm, hg]
  obtain ⟨C, h1, _, _, _, h5, _⟩ := ascii_run neg hsort hp hs (by simp [hf]) hl ho
  exact ⟨C, h1, by simpa [hf, fullEntries] using h5⟩

/-- C65 is violated by a file that ends too early: reading goes on with an empty line, whose end is passed. -/
theorem C65_violated_truncated :
    readASCII (V := Int) (isort Prod.fst) [0, 1] id (some (banner .integer .general ++ "\n2 2 2\n1 1 5\n".toList)) = .error .oob ∧
      readASCII (V := Int) (isort Prod.fst) [0, 1] id (some (banner .integer .general ++ "\n2 2 2\n1 1 5".toList)) = .error .assertion := by
  decide +kernel

/-! ### Examples -/

/-- A symmetric file -/
def symFile : MMText :=
  { field := .integer, sym := .symmetric, comments := [" an example".toList], size := "3 3 2".toList, entries := ["2 1 -12".toList, "3 3 7".toList] }

theorem symFile_describes : Describes (IntVal (id : Int → Int)) 1 symFile 3 3 [(1, 0, -12), (2, 2, 7)] where
  noNewline := by decide +kernel
  size := .mk ['3'] ['3'] ['2'] 3 3 2 (.digit 3 (by decide)) (.digit 3 (by decide)) (.digit 2 (by decide))
  entries := .cons (.value ['2'] ['1'] ['-', '1', '2'] 1 0 (-12) (.digit 2 (by decide)) (.digit 1 (by decide))
      ⟨_, .neg ['1', '2'] 12 (.snoc ['1'] 1 2 (.digit 1 (by decide)) (by decide)), rfl⟩)
    (.cons (.value ['3'] ['3'] ['7'] 2 2 7 (.digit 3 (by decide)) (.digit 3 (by decide)) ⟨_, .pos ['7'] 7 (.digit 7 (by decide)), rfl⟩) .nil)
  inBounds := by decide
  square := fun _ => rfl

theorem symFile_lines : Lines symFile.lines (banner .integer .symmetric ++ "\n% an example\n3 3 2\n2 1 -12\n3 3 7".toList) :=
  .inr (by decide +kernel)

example := C65_partial (fun v : Int => -v) (isort_sorts Prod.fst) symFile_describes (by decide +kernel) (by decide)
  (fun h => absurd h.1 (by decide)) symFile_lines (order := [0, 1, 2]) (by decide)
example : readASCII (isort Prod.fst) [0, 1, 2] (id : Int → Int)
      (some (banner .integer .symmetric ++ "\n% an example\n3 3 2\n2 1 -12\n3 3 7".toList)) =
    .ok { rows := 3, cols := 3, nnz := 3, colptr := [0, 1, 2, 3], rowids := [1, 0, 2], values := [-12, -12, 7] } := by decide +kernel
example := C66_partial (fun v : Int => -v) (fun _ => (0, 0, 0)) true (fun i => (i : Int)) true symFile_describes (by decide +kernel) (by decide)
  (fun h => absurd h.1 (by decide)) symFile_lines
example : readTriples (fun _ => (8, 8, 8)) (id : Int → Int) true (fun i => (i : Int)) true
      (some (banner .integer .symmetric ++ "\n% an example\n3 3 2\n2 1 -12\n3 3 7".toList)) =
    .ok ((3, 3), [(1, 0, 0), (0, 1, 0)]) := by decide +kernel

/-- A skew-symmetric file -/
def skewFile : MMText := { field := .integer, sym := .skew, comments := [], size := "2 2 1".toList, entries := ["2 1 5".toList] }

theorem skewFile_describes : Describes (IntVal (id : Int → Int)) 1 skewFile 2 2 [(1, 0, 5)] where
  noNewline := by decide +kernel
  size := .mk ['2'] ['2'] ['1'] 2 2 1 (.digit 2 (by decide)) (.digit 2 (by decide)) (.digit 1 (by decide))
  entries := .cons (.value ['2'] ['1'] ['5'] 1 0 5 (.digit 2 (by decide)) (.digit 1 (by decide)) ⟨_, .pos ['5'] 5 (.digit 5 (by decide)), rfl⟩) .nil
  inBounds := by decide
  square := fun _ => rfl

example := C65_violated_skew (fun v : Int => -v) (isort_sorts Prod.fst) skewFile_describes (by decide +kernel) rfl
  (text := banner .integer .skew ++ "\n2 2 1\n2 1 5\n".toList) (.inl ⟨[], by decide +kernel⟩) (order := [1, 0]) (by decide) (by decide)
  (e := (1, 0, 5)) (by decide) (by decide) (by decide)

/-- A file with a misleading comment -/
def comFile : MMText :=
  { field := .pattern, sym := .general, comments := ["not symmetric".toList], size := "2 2 1".toList, entries := ["2 1".toList] }

theorem comFile_describes : Describes (IntVal (id : Int → Int)) 1 comFile 2 2 [(1, 0, 1)] where
  noNewline := by decide +kernel
  size := .mk ['2'] ['2'] ['1'] 2 2 1 (.digit 2 (by decide)) (.digit 2 (by decide)) (.digit 1 (by decide))
  entries := .cons (.pattern ['2'] ['1'] 1 0 (.digit 2 (by decide)) (.digit 1 (by decide))) .nil
  inBounds := by decide
  square := fun _ => rfl

example := C65_violated_comment (fun v : Int => -v) (isort_sorts Prod.fst) comFile_describes (by decide +kernel)
  ⟨rfl, _, List.mem_singleton_self _, by decide +kernel⟩
  (text := banner .pattern .general ++ "\n%not symmetric\n2 2 1\n2 1\n".toList) (.inl ⟨[], by decide +kernel⟩) (order := [1, 0]) (by decide)
  (e := (1, 0, 1)) (by decide) (by decide)

/-- A file with decimal values -/
def decFile : MMText := { field := .real, sym := .general, comments := [], size := "1 1 1".toList, entries := ["1 1 0.75".toList] }

example := C65_violated_decimal (ofInt := (id : Int → Int)) (fun v : Int => -v) (isort_sorts Prod.fst) (t := decFile) (m := 1) (n := 1)
  (es := [(0, 0, 0)]) (by decide +kernel)
  (.mk ['1'] ['1'] ['1'] 1 1 1 (.digit 1 (by decide)) (.digit 1 (by decide)) (.digit 1 (by decide)))
  (.cons (.mk ['1'] ['1'] ['0'] ['7', '5'] 0 0 0 (.digit 1 (by decide)) (.digit 1 (by decide)) (.pos ['0'] 0 (.digit 0 (by decide)))) .nil)
  (by decide) (by decide +kernel) rfl (by rintro ⟨_, c, hc, _⟩; simp [decFile] at hc)
  (text := banner .real .general ++ "\n1 1 1\n1 1 0.75\n".toList) (.inl ⟨[], by decide +kernel⟩) (order := [0]) (by decide)

/-- A file with two spaces -/
def dblFile : MMText := { field := .integer, sym := .general, comments := [], size := "2 2 1".toList, entries := ["1  2 9".toList] }

example := C65_violated_spaces (ofInt := (id : Int → Int)) (fun v : Int => -v) (isort_sorts Prod.fst) (t := dblFile) (m := 2) (n := 2)
  (es := [(0, 1, 2)]) (by decide +kernel)
  (.mk ['2'] ['2'] ['1'] 2 2 1 (.digit 2 (by decide)) (.digit 2 (by decide)) (.digit 1 (by decide)))
  (.cons (.mk ['1'] ['2'] ['9'] 0 1 (.digit 1 (by decide)) (.digit 2 (by decide))) .nil)
  (by decide) (by decide +kernel) rfl (by rintro ⟨_, c, hc, _⟩; simp [dblFile] at hc)
  (text := banner .integer .general ++ "\n2 2 1\n1  2 9\n".toList) (.inl ⟨[], by decide +kernel⟩) (order := [0, 1]) (by decide)

example := C65_violated_long (isort Prod.fst) [0] (id : Int → Int) .real .general (List.replicate 300 'x') "1 1 0\n".toList (by decide +kernel)
  (by decide +kernel)

end Verif.Props
