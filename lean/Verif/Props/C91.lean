import Verif.Lemmas.RadixSort
import Verif.Props.C64
import Verif.Props.C85

/-! # C91: the radix sort -/

namespace Verif.Props

open _root_.Verif.Model
open _root_.Verif.Model.RadixSort
open _root_.Verif.Spec (SortedByKey OrderedByKey keyOf TypeOk InType Plain oneByte WordSize ieee SortsBy32 ValidOuter AssocComm IsOuterProduct)

variable {α : Type}

/-- There is only one result. -/
theorem C91_unique {key : α → List Int} {l r s : List α} (hr : SortedByKey key l r) (hs : SortedByKey key l s) : r = s :=
  sorted_unique hr.sorted hs.sorted (hr.perm.trans hs.perm.symm) fun k => by rw [hr.stable, hs.stable]

/-- C91: `radix_sort` sorts by keys of any type, and elements with the same key keep their order. It returns whether the result is in the buffer, which
is so if the number of components of one byte is odd; the rest of the buffer stays as it was. `char`s must not be negative, floating-point
numbers neither the negative zero nor not a number: what is missing is shown by `C91_violated_char` and `C91_violated_zero`. -/
theorem C91_partial (e : Key α) (ht : TypeOk e) (l : List α) (hi : ∀ x ∈ l, InType e x) (hp : ∀ x ∈ l, Plain e x) :
    ∃ l', SortedByKey (keyOf e) l l' ∧ ∀ b : List (Option α), l.length ≤ b.length →
      ∃ a' b', radixSort e (l.map some) b = .ok (decide (oneByte e % 2 = 1), a', b') ∧
        (if oneByte e % 2 = 1 then b' = l'.map some ++ b.drop l.length else a' = l'.map some) ∧ a'.length = l.length ∧ b'.length = b.length ∧
        b'.drop l.length = b.drop l.length := by
  have hg : ∀ {r}, Good (codeOf e) l r → SortedByKey (keyOf e) l r := fun h =>
    (h.congr (fun x hx y hy => (code_iff e ht (hi x hx) (hi y hy) (hp x hx) (hp y hy)).1.1)
      fun x hx y hy => (code_iff e ht (hi x hx) (hi y hy) (hp x hx) (hp y hy)).2.symm).sortedBy
  obtain ⟨r, _, _, h1, _⟩ := radix_run e ht l (List.replicate l.length none) (by simp) hi
  refine ⟨r, hg h1, fun b hb => ?_⟩
  obtain ⟨s, a', b', h2, h3, h4, h5⟩ := radix_run e ht l b hb hi
  obtain rfl := C91_unique (hg h1) (hg h2)
  exact ⟨a', b', h3, h4, h5⟩

/-- A buffer that is too short is written out of bounds. -/
theorem C91_violated_buffer {k : Nat} (hk : WordSize k) {f : α → Nat} {l : List α} (hi : ∀ x ∈ l, f x < 2 ^ (8 * k)) {b : List (Option α)}
    (hb : b.length < l.length) : radixSort (.unsigned k f) (l.map some) b = .error .oob := by
  unfold radixSort sort
  rw [List.length_map]
  exact sized_short hk (holds_map l) hb hi

/-- `char`s are compared as if they had no sign: whenever there are negative and other ones, the result is not in their order. -/
theorem C91_violated_char {f : α → Int} {l : List α} (hi : ∀ x ∈ l, -128 ≤ f x ∧ f x < 128) {x y : α} (hx : x ∈ l) (hy : y ∈ l) (hfx : f x < 0)
    (hfy : 0 ≤ f y) {b : List (Option α)} (hb : l.length ≤ b.length) :
    ∃ r a', radixSort (.char f) (l.map some) b = .ok (true, a', r.map some ++ b.drop l.length) ∧ r.Perm l ∧
      ¬ OrderedByKey (keyOf (.char f)) l r := by
  obtain ⟨r, a', b', h1, h2, h3, _⟩ := radix_run (.char f) trivial l b hb hi
  replace h3 : b' = _ := h3
  subst h3
  refine ⟨r, a', h2, h1.perm, not_ordered h1 hy hx ?_ ?_⟩
  · show ([_] : List Int) < [_]
    rw [single_lt]
    have := hi x hx
    have := hi y hy
    unfold ofChar
    omega
  · show ([_] : List Int) < [_]
    rw [single_lt]
    omega

theorem zero_eq : ieee 23 32 (2 ^ 31) = ieee 23 32 0 := by decide

theorem zero_lt : ((ofFloat 4 (2 ^ 31) : Nat) : Int) < (ofFloat 4 0 : Nat) := by decide

theorem code_pair (e e' : Key α) (x : α) : codeOf (.pair e e') x = codeOf e x ++ codeOf e' x := rfl

theorem code_float (f : α → Nat) (x : α) : codeOf (.float f) x = [((ofFloat 4 (f x) : Nat) : Int)] := rfl

theorem key_pair (e e' : Key α) (x : α) : keyOf (.pair e e') x = keyOf e x ++ keyOf e' x := rfl

theorem key_float (f : α → Nat) (x : α) : keyOf (.float f) x = [ieee 23 32 (f x)] := rfl

theorem violated_pair {f : α → Nat} {e : Key α} (ht : TypeOk e) {l : List α} (hi : ∀ x ∈ l, InType (.pair (.float f) e) x) {x y : α} (hx : x ∈ l)
    (hy : y ∈ l) (hz : ieee 23 32 (f x) = ieee 23 32 (f y)) (hlt : ((ofFloat 4 (f x) : Nat) : Int) < (ofFloat 4 (f y) : Nat))
    (hxy : keyOf e y < keyOf e x) {b : List (Option α)} (hb : l.length ≤ b.length) :
    ∃ r w a' b', radixSort (.pair (.float f) e) (l.map some) b = .ok (w, a', b') ∧
      (if w then b' = r.map some ++ b.drop l.length else a' = r.map some) ∧ r.Perm l ∧ ¬ OrderedByKey (keyOf (.pair (.float f) e)) l r := by
  obtain ⟨r, a', b', h1, h2, h3, _⟩ := radix_run (.pair (.float f) e) ⟨trivial, ht⟩ l b hb hi
  refine ⟨r, _, a', b', h2, by simpa only [decide_eq_true_eq] using h3, h1.perm, not_ordered h1 hx hy ?_ ?_⟩
  · rw [code_pair, code_pair]
    exact (append_lt (by rw [code_float, code_float]; rfl)).2 (.inl (by rw [code_float, code_float]; exact (single_lt _ _).2 hlt))
  · rw [key_pair, key_pair, key_float, key_float, hz]
    exact (append_lt rfl).2 (.inr ⟨rfl, hxy⟩)

/-- The negative zero comes before zero, although they are equal: elements with these numbers in the first component of a pair are not compared
by the second one. -/
theorem C91_violated_zero {f : α → Nat} {e : Key α} (ht : TypeOk e) {l : List α} (hi : ∀ x ∈ l, f x < 2 ^ 32 ∧ InType e x) {x y : α} (hx : x ∈ l)
    (hy : y ∈ l) (hfx : f x = 2 ^ 31) (hfy : f y = 0) (hxy : keyOf e y < keyOf e x) {b : List (Option α)} (hb : l.length ≤ b.length) :
    ieee 23 32 (f x) = ieee 23 32 (f y) ∧
    ∃ r w a' b', radixSort (.pair (.float f) e) (l.map some) b = .ok (w, a', b') ∧
      (if w then b' = r.map some ++ b.drop l.length else a' = r.map some) ∧ r.Perm l ∧ ¬ OrderedByKey (keyOf (.pair (.float f) e)) l r := by
  have hz : ieee 23 32 (f x) = ieee 23 32 (f y) := by
    rw [hfx, hfy, zero_eq]
  have hlt : ((ofFloat 4 (f x) : Nat) : Int) < (ofFloat 4 (f y) : Nat) := by
    rw [hfx, hfy]
    exact zero_lt
  exact ⟨hz, violated_pair ht hi hx hy hz hlt hxy hb⟩

/-- `counting_sort` by keys of one byte -/
theorem C91_counting {key : α → Nat} {l : List α} (hk : ∀ x ∈ l, key x < 256) :
    ∃ l', SortedByKey (fun x => [(key x : Int)]) l l' ∧ ∀ b : List (Option α), l.length ≤ b.length →
      ∃ a', countingSortTo key (l.map some) b = .ok (a', l'.map some ++ b.drop l.length) ∧ a'.length = l.length := by
  have hg := byDigit_good hk
  refine ⟨_, (hg.congr (key' := fun x => [(key x : Int)]) (fun x _ y _ h => by rw [single_lt]; omega) fun x _ y _ => by simp).sortedBy, fun b hb => ?_⟩
  obtain ⟨a', b', e1, e2, e3, e4⟩ := RadixSort.countingSort_eq (holds_map l) hb hk
  refine ⟨a', ?_, by simpa using e3.1⟩
  unfold countingSortTo
  rw [List.length_map, e1, eq_of_holds hg.perm.length_eq e2 e4]

/-- With a larger key, the array of counters is accessed out of bounds. -/
theorem C91_violated_counting {key : α → Nat} {l : List α} (hx : ∃ x ∈ l, 256 ≤ key x) (b : List (Option α)) :
    countingSortTo key (l.map some) b = .error .oob := by
  unfold countingSortTo
  rw [List.length_map]
  exact countingSort_oob (holds_map l) hx

theorem mapM_some (l : List α) : (l.map some).mapM use = .ok l := by
  induction l with
  | nil => rfl
  | cons x l ih =>
    rw [List.map_cons, List.mapM_cons, ih]
    rfl

/-- `linear_sort` brings the elements into the order of their keys. Elements with the same key may change their order. -/
theorem C91_linear_partial (e : Key α) (ht : TypeOk e) {stdsort : List α → List α} (hs : ∀ l, OrderedByKey (keyOf e) l (stdsort l)) (l : List α)
    (hi : ∀ x ∈ l, InType e x) (hp : ∀ x ∈ l, Plain e x) {b : List (Option α)} (hb : l.length ≤ b.length) :
    ∃ l' w a' b', OrderedByKey (keyOf e) l l' ∧ linearSort stdsort e (l.map some) b = .ok (w, a', b') ∧
      (if w then b' = l'.map some ++ b.drop l.length else a' = l'.map some) := by
  unfold linearSort
  rw [List.length_map]
  split
  · refine ⟨_, false, _, b, hs l, ?_, rfl⟩
    rw [mapM_some, ok_bind]
  · obtain ⟨l', h1, h2⟩ := C91_partial e ht l hi hp
    obtain ⟨a', b', h3, h4, _⟩ := h2 b hb
    exact ⟨l', _, a', b', ⟨h1.perm, h1.sorted⟩, h3, by simpa using h4⟩

/-- For negative `char`s the order of the result depends on the number of elements: up to 512 elements are in the order of their keys, more are
not. -/
theorem C91_violated_linear {f : α → Int} {stdsort : List α → List α} (hs : ∀ l, OrderedByKey (keyOf (.char f)) l (stdsort l)) {l : List α}
    (hi : ∀ x ∈ l, -128 ≤ f x ∧ f x < 128) {x y : α} (hx : x ∈ l) (hy : y ∈ l) (hfx : f x < 0) (hfy : 0 ≤ f y) {b : List (Option α)}
    (hb : l.length ≤ b.length) :
    ∃ r w a' b', linearSort stdsort (.char f) (l.map some) b = .ok (w, a', b') ∧
      (if w then b' = r.map some ++ b.drop l.length else a' = r.map some) ∧ (OrderedByKey (keyOf (.char f)) l r ↔ l.length ≤ 512) := by
  unfold linearSort
  rw [List.length_map]
  by_cases h : l.length ≤ 512
  · rw [if_pos (.inl h), mapM_some, ok_bind]
    exact ⟨_, false, _, b, rfl, rfl, fun _ => h, fun _ => hs l⟩
  · rw [if_neg (fun h' => h'.elim h (by simp [passCount]))]
    obtain ⟨r, a', h1, _, h2⟩ := C91_violated_char hi hx hy hfx hfy hb
    exact ⟨r, true, a', _, h1, rfl, fun h' => absurd h' h2, fun h' => absurd h' h⟩

/-! ## The products that use it -/

/-- The elements after `radix_sort` with keys of 32 bits, as in `doRadixSort` (outer_mult.h:168-173, outer_mult2.h:163-169), which takes them from the
range whatever `radix_sort` returns. The buffer has the length of the range. -/
def radixBy (k : α → Nat) (l : List α) : List α :=
  match radixSort (.unsigned 4 k) (l.map some) (List.replicate l.length none) with
  | .ok (_, a, _) => a.filterMap id
  | .error _ => []

/-- It is as C64 and C85 require. -/
theorem C91_sorts : SortsBy32 (radixBy (α := α)) := by
  intro k hk
  have h : ∀ l, SortedByKey (fun x => [(k x : Int)]) l (radixBy k l) := by
    intro l
    obtain ⟨l', h1, h2⟩ := C91_partial (.unsigned 4 k) (.inr (.inr (.inl rfl))) l (fun x _ => hk x) fun _ _ => trivial
    obtain ⟨a', b', h3, h4, _⟩ := h2 (List.replicate l.length none) (by simp)
    have : radixBy k l = l' := by
      unfold radixBy
      rw [h3]
      simp only []
      replace h4 : a' = _ := h4
      rw [h4, List.filterMap_map]
      simp
    rw [this]
    exact h1
  refine ⟨fun l => (h l).perm, fun l => (h l).sorted.imp ?_⟩
  intro x y hxy
  rw [single_lt] at hxy
  omega

/-- The same with any buffer that is long enough, as there (one for the largest block, outer_mult.h:254, outer_mult2.h:251) -/
theorem C91_inplace {k : α → Nat} (hk : ∀ x, k x < 2 ^ 32) (l : List α) {b : List (Option α)} (hb : l.length ≤ b.length) :
    ∃ b', radixSort (.unsigned 4 k) (l.map some) b = .ok (false, (radixBy k l).map some, b') := by
  obtain ⟨l', _, h2⟩ := C91_partial (.unsigned 4 k) (.inr (.inr (.inl rfl))) l (fun x _ => hk x) fun _ _ => trivial
  obtain ⟨a', b', h3, h4, _⟩ := h2 (List.replicate l.length none) (by simp)
  obtain ⟨a2, b2, h5, h6, _⟩ := h2 b hb
  have : radixBy k l = l' := by
    unfold radixBy
    rw [h3]
    simp only []
    replace h4 : a' = _ := h4
    rw [h4, List.filterMap_map]
    simp
  replace h6 : a2 = _ := h6
  rw [this, ← h6]
  exact ⟨b2, h5⟩

/-- C64 with this sort -/
theorem C91_outer {V : Type} {mul add : V → V → V} (ha : AssocComm add) {A : CSC V} {B : CSR V} (h : ValidOuter A B) {n nb width : Nat}
    (hw : 0 < width) (hnb : 0 < nb) (hnb2 : nb < 2 ^ 16) (hsm : A.rows + 1 < 2 ^ 17) (hrow : A.rows ≤ 4096 * nb) (hc : B.cols ≤ 2 ^ 20) :
    ∃ C, IsOuterProduct mul add A B C ∧ ∀ mem : List Nat, mem.length = A.rows + 1 → ∀ sch, OuterAdm A n nb sch →
      (Outer.outerSpGEMM mul add radixBy A B n nb width mem sch = .ok none ∧
        ∃ t < n, sch.main.count t ≤ 1 + ((sch.asg t).map fun k => (A.col k).length * (B.row k).length).sum + nb) ∨
      Outer.outerSpGEMM mul add radixBy A B n nb width mem sch = .ok (some C) :=
  C64_partial ha h hw hnb hnb2 hsm hrow hc C91_sorts

/-- C85 with this sort -/
theorem C91_outer2 {V : Type} {mul add : V → V → V} (ha : AssocComm add) {A : CSC V} {B : CSR V} (h : ValidOuter A B) (hsq : A.rows = A.cols)
    (h0 : 0 < A.rows) {n nb width : Nat} (hn : 0 < n) (hw : 0 < width) (hnb : 0 < nb) (hnb2 : nb < 2 ^ 16) (hr : A.rows ≤ 2 ^ 16)
    (hc : B.cols ≤ 2 ^ 16) :
    ∃ (C : CSR V) (cs : Nat → List Nat), IsOuterProduct mul add A B C ∧ (List.range n).flatMap cs = List.range A.cols ∧
      ∀ mem : List Nat, mem.length = A.rows + 1 → ∀ sch, BalancedAdm nb sch →
        (Outer2.outerSpGEMM mul add radixBy A B n nb width mem sch = .ok none ∧
          ∃ t < n, sch.main.count t ≤ 1 + ((cs t).map fun k => (A.col k).length * (B.row k).length).sum + nb) ∨
        Outer2.outerSpGEMM mul add radixBy A B n nb width mem sch = .ok (some C) :=
  C85_partial ha h hsq h0 hn hw hnb hnb2 hr hc C91_sorts

/-! A case that meets the hypotheses of `C91_partial`: pairs of a signed integer of 2 bytes and a byte. -/

def rxKey : Key (Int × Nat) := .pair (.signed 2 Prod.fst) (.unsigned 1 Prod.snd)

theorem rx_type : TypeOk rxKey := ⟨.inr (.inl rfl), .inl rfl⟩

theorem rx_in : ∀ x ∈ [((-1 : Int), 7), (300, 200), (-1, 3), (300, 5)], InType rxKey x := by
  intro x hx
  simp only [List.mem_cons, List.not_mem_nil, or_false] at hx
  rcases hx with rfl | rfl | rfl | rfl <;> exact ⟨⟨by decide, by decide⟩, (by decide : _ < (256 : Nat))⟩

theorem rx_plain (l : List (Int × Nat)) : ∀ x ∈ l, Plain rxKey x := fun _ _ => ⟨trivial, trivial⟩

example := C91_partial rxKey rx_type _ rx_in (rx_plain _)

/-- Two `char`s -/
example : radixSort (.char id) ([(5 : Int), -3].map some) [none, none] = .ok (true, [none, none], [some 5, some (-3)]) := by decide +kernel

/-- The sign and the size decide the order of floating-point numbers: -1.0, 0, the least positive number, 1.0 -/
example : (ieee 23 32 0xbf800000 < ieee 23 32 0) ∧ (ieee 23 32 0 < ieee 23 32 1) ∧ ieee 23 32 1 < ieee 23 32 0x3f800000 := by decide

/-- A case for `C91_violated_zero`: the pairs (-0, 1) and (0, 0) -/
example := C91_violated_zero (α := Nat × Nat) (f := Prod.fst) (e := .unsigned 1 Prod.snd) (.inl rfl) (l := [(2 ^ 31, 1), (0, 0)])
  (by intro x hx; simp only [List.mem_cons, List.not_mem_nil, or_false] at hx; rcases hx with rfl | rfl <;> exact ⟨by decide, (by decide : _ < (256 : Nat))⟩)
  (x := (2 ^ 31, 1)) (y := (0, 0)) (by simp) (by simp) rfl rfl ((single_lt _ _).2 (by decide)) (b := [none, none]) (Nat.le_refl _)

example := C91_outer (mul := (· * ·)) (n := 2) (nb := 1) (width := 2) ⟨Int.add_assoc, Int.add_comm⟩ ou_valid (by omega) (by omega) (by omega) (by decide)
  (by decide) (by decide)

example := C91_outer2 (mul := (· * ·)) (n := 2) (nb := 2) (width := 2) ⟨Int.add_assoc, Int.add_comm⟩ ob_valid rfl (by decide) (by omega) (by omega) (by omega)
  (by omega) (by decide) (by decide)

end Verif.Props
