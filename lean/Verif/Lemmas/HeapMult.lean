import Verif.Model.HeapMult
import Verif.SpecCols
import Verif.Lemmas.HeapCompl
import Verif.Lemmas.Dot
import Verif.Lemmas.Triples

/-! # The older heap kernel computes the product -/

namespace Verif.Model.HeapMult

open Heap (EntOf Ent IsHeap EOk HOk Pend pendAt St Next Skip col bend popHeap pushHeap makeHeap popHeap_ok pushHeap_ok makeHeap_ok)
open Dot (asRows put put_length put_lt put_mid put_ge asRows_wf memcpy memcpy_eq)
open List (Perm)
open Spec (ValidCols)

variable {V : Type}

/-- A mask without entries. -/
def noMask (rows cols : Nat) : CSR V :=
  { rows := rows, cols := cols, nnz := 0, rowptr := List.replicate (rows + 1) 0, colids := [], values := [] }

theorem noMask_wf (rows cols : Nat) : (noMask rows cols : CSR V).WF := by
  have hp : ∀ i, (noMask rows cols : CSR V).ptr i = 0 := by
    intro i
    unfold CSR.ptr noMask
    simp only [List.getD_eq_getElem?_getD, List.getElem?_replicate]
    split <;> rfl
  exact ⟨rfl, by simp [noMask], hp 0, fun i _ => by rw [hp, hp]; exact Nat.le_refl _, by rw [hp]; rfl, rfl, rfl,
    by simp [noMask]⟩

theorem noMask_row (rows cols i : Nat) : (noMask rows cols : CSR V).rowCols i = [] := by
  simp [CSR.rowCols, noMask, slice]

theorem hok {A B : CSC V} (h : ValidCols A B) {i : Nat} (hi : i < B.cols) :
    HOk (asRows B) (asRows A) (noMask B.cols A.rows) i where
  wfA := asRows_wf h.wfB
  wfB := asRows_wf h.wfA
  wfM := noMask_wf _ _
  sh := ⟨h.ab.symm, rfl, rfl⟩
  nodup := by rw [noMask_row]; exact List.nodup_nil
  lt := hi
  sB := h.sortedA
  sM := by rw [noMask_row]; exact List.Pairwise.nil

theorem outside_eq (A B : CSC V) (i : Nat) :
    Heap.outside (asRows A) (noMask B.cols A.rows) i = List.range A.rows := by
  unfold Heap.outside
  rw [noMask_row]
  simp [asRows]

section Column

variable (mul add : V → V → V) (A B : CSC V)

/-- The position of an entry, as in the newer heap algorithms. -/
def abs (e : Entry V) : Ent := ⟨e.key, e.runr, A.ptr (B.rowids.getD e.runr 0) + e.loc.1 - 1⟩

/-- A proper entry for column `i`. -/
structure VOk (i : Nat) (e : Entry V) : Prop where
  one : 1 ≤ e.loc.1
  ok : EOk (asRows B) (asRows A) i (abs A B e)
  val : ∃ x y, rd A.values (abs A B e).loc = .ok x ∧ rd B.values e.runr = .ok y ∧ e.loc.2 = mul x y

/-- Number of products of column `i` -/
def flops (i : Nat) : Nat := Bin.nprod (asRows B) (asRows A) i

/-- The expected column: every row with a contribution. -/
def expCol (i : Nat) : List (Nat × V) :=
  (List.range A.rows).filterMap fun r =>
    (Spec.dot (fun b a => mul a b) add (asRows B) (asRows A) i r).map fun v => (r, v)

end Column

variable {mul add : V → V → V} {A B : CSC V}

theorem isHeap_map [Inhabited V] {es : List (Entry V)} : IsHeap 0 (es.map (abs A B)) ↔ IsHeap 0 es := by
  unfold IsHeap Heap.HF
  have hk : ∀ k, k < es.length → ((es.map (abs A B)).getD k ⟨0, 0, default⟩).key = (es.getD k ⟨0, 0, default⟩).key := by
    intro k hk
    simp [List.getD_eq_getElem?_getD, List.getElem?_map, List.getElem?_eq_getElem hk, abs]
  constructor
  · intro h i h1 h2 h3
    have := h i h1 (by simpa using h2) h3
    have e1 := hk ((i - 1) / 2) (by omega)
    have e2 := hk i h2
    show (es.getD ((i - 1) / 2) ⟨0, 0, default⟩).key ≤ (es.getD i ⟨0, 0, default⟩).key
    rw [← e1, ← e2]; exact this
  · intro h i h1 h2 h3
    rw [List.length_map] at h2
    have := h i h1 h2 h3
    have e1 := hk ((i - 1) / 2) (by omega)
    have e2 := hk i h2
    show ((es.map (abs A B)).getD ((i - 1) / 2) ⟨0, 0, default⟩).key ≤ ((es.map (abs A B)).getD i ⟨0, 0, default⟩).key
    rw [e1, e2]; exact this

/-- The inputs of the column, as the heap lemmas see them. -/
theorem rd_inner (h : ValidCols A B) {i j : Nat} (hi : i < B.cols) (hj : j < B.ptr (i + 1)) :
    rd B.rowids j = .ok (B.rowids.getD j 0) ∧ B.rowids.getD j 0 < A.cols := by
  have hj' : j < B.nnz := Nat.lt_of_lt_of_le hj (Inner.cptr_le_nnz h.wfB hi)
  have h1 : j < B.rowids.length := by rw [h.wfB.rowLen]; exact hj'
  refine ⟨by rw [rd_of_lt h1]; simp [h1], ?_⟩
  rw [h.ab]
  apply h.wfB.inBounds
  simp [h1]

theorem initHeap_ok [Inhabited V] (h : ValidCols A B) {i cap : Nat} (hi : i < B.cols) (hcap : B.ptr (i + 1) - B.ptr i ≤ cap) :
    ∃ es, initHeap mul A B cap i = .ok es ∧ IsHeap 0 es ∧ (∀ x ∈ es, VOk mul A B i x) ∧
      (Pend (fun b a => mul a b) (asRows B) (asRows A) (es.map (abs A B))).Perm
        (prods (fun b a => mul a b) (asRows B) (asRows A) i) := by
  have hh := hok h hi
  unfold initHeap
  rw [Inner.rd_cptr h.wfB (Nat.le_of_lt hi), ok_bind, Inner.rd_cptr h.wfB (j := i + 1) hi, ok_bind]
  obtain ⟨es, e1, e2, e3, e4⟩ := forRange_inv (body := fun j es => (do
      let inner ← rd B.rowids j
      let e ← rd A.colptr (inner + 1)
      let b ← rd A.colptr inner
      if e - b > 0 then do
        let x ← rd A.values b
        let y ← rd B.values j
        let key ← rd A.rowids b
        append cap es ⟨key, j, (1, mul x y)⟩
      else .ok es : Res (List (Entry V))))
    (fun j es => es.length ≤ j - B.ptr i ∧ (∀ x ∈ es, VOk mul A B i x) ∧
      Pend (fun b a => mul a b) (asRows B) (asRows A) (es.map (abs A B)) =
        (List.range' (B.ptr i) (j - B.ptr i)).flatMap fun j =>
          pendAt (fun b a => mul a b) (asRows B) (asRows A) j ((asRows A).ptr (col (asRows B) j)))
    (B.ptr i) (B.ptr (i + 1)) (h.wfB.ptrMono i hi) [] (by simp [Pend]) (by
      rintro j es hj1 hj2 ⟨k1, k2, k3⟩
      obtain ⟨r1, r2⟩ := rd_inner h hi hj2
      have hcol : col (asRows B) j = B.rowids.getD j 0 := rfl
      have hptr : ∀ c, (asRows A).ptr c = A.ptr c := fun _ => rfl
      have hbe : bend (asRows B) (asRows A) j = A.ptr (B.rowids.getD j 0 + 1) := rfl
      rw [r1, ok_bind, Inner.rd_cptr h.wfA (j := B.rowids.getD j 0 + 1) r2, ok_bind, Inner.rd_cptr h.wfA (Nat.le_of_lt r2), ok_bind]
      have e0 : List.range' (B.ptr i) (j + 1 - B.ptr i) = List.range' (B.ptr i) (j - B.ptr i) ++ [j] := by
        rw [show j + 1 - B.ptr i = (j - B.ptr i) + 1 by omega, List.range'_concat]
        congr 2; omega
      rw [e0]
      simp only [List.flatMap_append, List.flatMap_cons, List.flatMap_nil, List.append_nil]
      by_cases hc : A.ptr (B.rowids.getD j 0 + 1) - A.ptr (B.rowids.getD j 0) > 0
      · rw [if_pos hc]
        have hlt : A.ptr (B.rowids.getD j 0) < bend (asRows B) (asRows A) j := by rw [hbe]; omega
        obtain ⟨b, a, v1, v2, -⟩ := Heap.pendAt_cons (mul := fun b a => mul a b) hh (j := j) hj2 hlt
        have v1 : rd B.values j = .ok b := v1
        have v2 : rd A.values (A.ptr (B.rowids.getD j 0)) = .ok a := v2
        have hk : rd A.rowids (A.ptr (B.rowids.getD j 0)) = .ok (col (asRows A) (A.ptr (B.rowids.getD j 0))) :=
          hh.rdB (j := j) hj2 hlt
        rw [v2, ok_bind, v1, ok_bind, hk, ok_bind]
        refine ⟨es ++ [⟨col (asRows A) (A.ptr (B.rowids.getD j 0)), j, (1, mul a b)⟩], ?_, ?_, ?_, ?_⟩
        · unfold append; rw [if_pos (by omega)]
        · simp only [List.length_append, List.length_singleton]; omega
        · intro x hx
          rcases List.mem_append.1 hx with hx | hx
          · exact k2 x hx
          · simp only [List.mem_singleton] at hx
            subst hx
            have he : abs A B ⟨col (asRows A) (A.ptr (B.rowids.getD j 0)), j, (1, mul a b)⟩ =
                ⟨col (asRows A) (A.ptr (B.rowids.getD j 0)), j, A.ptr (B.rowids.getD j 0)⟩ := by
              simp [abs]
            refine ⟨Nat.le_refl _, ?_, a, b, ?_, v1, rfl⟩
            · rw [he]
              exact ⟨hj1, hj2, Nat.le_refl _, hlt, rfl⟩
            · rw [he]; exact v2
        · rw [List.map_append]
          have he : [⟨col (asRows A) (A.ptr (B.rowids.getD j 0)), j, (1, mul a b)⟩].map (abs A B) =
              [⟨col (asRows A) (A.ptr (B.rowids.getD j 0)), j, A.ptr (B.rowids.getD j 0)⟩] := by
            simp [abs]
          rw [he]
          have hp : ∀ (l : List Ent) (e : Ent), Pend (fun b a => mul a b) (asRows B) (asRows A) (l ++ [e]) =
              Pend (fun b a => mul a b) (asRows B) (asRows A) l ++ pendAt (fun b a => mul a b) (asRows B) (asRows A) e.runr e.loc := by
            intro l e; simp [Pend]
          rw [hp, k3]
          rfl
      · rw [if_neg hc]
        refine ⟨es, rfl, by omega, k2, ?_⟩
        rw [k3, Heap.pendAt_nil (j := j) (by rw [hbe, hptr, hcol]; omega), List.append_nil])
  rw [e1, ok_bind]
  obtain ⟨a, m1, m2, m3⟩ := makeHeap_ok es
  refine ⟨a, m1, m3, fun x hx => e3 x (m2.mem_iff.1 hx), ?_⟩
  rw [Heap.prods_eq hh]
  exact (Heap.Pend_perm (m2.map _)).trans (.of_eq e4)

/-! ## The output arrays -/

/-- The arrays while column `i` is being written: `out` are its entries so far. -/
def arrays (cs : Nat → Nat) (first i : Nat) (ce : List Nat) (X out : List (Nat × V)) : Out V :=
  ⟨ce.set i (cs i + out.length), (put X (cs i - cs first) out).map (·.1), (put X (cs i - cs first) out).map (·.2)⟩

/-- The key of the last entry. -/
def lastKey (out : List (Nat × V)) : Option Nat := out.getLast?.map (·.1)

theorem put_last {α : Type} (X out : List α) (x y : α) (b : Nat) (h : b ≤ X.length) :
    (put X b (out ++ [y])).set (b + out.length) x = put X b (out ++ [x]) := by
  unfold put
  have hl : (X.take b ++ out).length = b + out.length := by simp; omega
  have e : ∀ z, X.take b ++ (out ++ [z]) ++ X.drop (b + (out ++ [z]).length) =
      (X.take b ++ out) ++ (z :: X.drop (b + out.length + 1)) := by intro z; simp [Nat.add_assoc]
  rw [e, e, List.set_append_right _ _ (by omega), hl, Nat.sub_self, List.set_cons_zero]

theorem store_ok {colStart ce : List Nat} {cs : Nat → Nat} {first i key : Nat} {value : V} {X out out' : List (Nat × V)}
    {p : Option Nat} (hs : rd colStart i = .ok (cs i)) (hf : rd colStart first = .ok (cs first)) (hle : cs first ≤ cs i)
    (hce : i < ce.length) (hX : cs i - cs first + out.length < X.length)
    (he : Heap.emit add (lastKey out) out key value = .ok (p, out')) :
    store add colStart first i key value (arrays cs first i ce X out) = .ok (arrays cs first i ce X out') ∧ p = lastKey out' ∧
      out'.length ≤ out.length + 1 := by
  have hpl := put_length (X := X) (off := cs i - cs first) (xs := out) (by omega)
  have hrd : rd (ce.set i (cs i + out.length)) i = .ok (cs i + out.length) := by
    rw [rd_of_lt (by simpa using hce)]; simp
  have hnew : out' = out ++ [(key, value)] → p = some key →
      (do
        let values ← wr (arrays cs first i ce X out).values (cs i + out.length - cs first) value
        let rowids ← wr (arrays cs first i ce X out).rowids (cs i + out.length - cs first) key
        let colEnd ← wr (arrays cs first i ce X out).colEnd i (cs i + out.length + 1)
        .ok { colEnd := colEnd, rowids := rowids, values := values } : Res (Out V)) = .ok (arrays cs first i ce X out') ∧
      p = lastKey out' ∧ out'.length ≤ out.length + 1 := by
    rintro rfl rfl
    have hpos : cs i + out.length - cs first = cs i - cs first + out.length := by omega
    rw [hpos]
    have e1 : ∀ (x : Nat × V), (put X (cs i - cs first) out).set (cs i - cs first + out.length) x =
        put X (cs i - cs first) (out ++ [x]) := fun x => HashMult.set_mid X out x _ (by omega)
    refine ⟨?_, by simp [lastKey], by simp⟩
    unfold arrays
    rw [wr_of_lt (by simp; omega), ok_bind, wr_of_lt (by simp; omega), ok_bind, wr_of_lt (by simpa using hce), ok_bind]
    rw [← e1 (key, value), List.map_set, List.map_set, List.set_set]
    simp [Nat.add_assoc]
  unfold store
  have ha : (arrays cs first i ce X out).colEnd = ce.set i (cs i + out.length) := rfl
  rw [ha, hrd, ok_bind, hs, ok_bind, hf, ok_bind]
  rcases List.eq_nil_or_concat out with rfl | ⟨out0, ⟨c, v⟩, h0⟩
  · rw [if_neg (by simp)]
    simp only [ok_bind, Bool.false_eq_true, if_false]
    have : Heap.emit add (lastKey ([] : List (Nat × V))) [] key value = .ok (some key, [] ++ [(key, value)]) := rfl
    rw [this] at he
    injection he with he; injection he with h1 h2
    rw [← ha]
    exact hnew h2.symm h1.symm
  · rw [List.concat_eq_append] at h0
    subst h0
    have hlen : (out0 ++ [(c, v)]).length = out0.length + 1 := by simp
    rw [if_pos (by omega)]
    have hpos : cs i + (out0 ++ [(c, v)]).length - cs first - 1 = cs i - cs first + out0.length := by omega
    have hget : (put X (cs i - cs first) (out0 ++ [(c, v)]))[cs i - cs first + out0.length]? = some (c, v) := by
      rw [put_mid (by omega) (by omega)]; simp
    have hr1 : rd (arrays cs first i ce X (out0 ++ [(c, v)])).rowids (cs i - cs first + out0.length) = .ok c := by
      apply rd_of_getElem?
      unfold arrays
      simp [hget]
    have hr2 : rd (arrays cs first i ce X (out0 ++ [(c, v)])).values (cs i - cs first + out0.length) = .ok v := by
      apply rd_of_getElem?
      unfold arrays
      simp [hget]
    rw [hpos, hr1, ok_bind, ok_bind]
    unfold Heap.emit at he
    have hlk : lastKey (out0 ++ [(c, v)]) = some c := by simp [lastKey]
    rw [hlk] at he
    by_cases hck : c = key
    · subst hck
      rw [if_pos rfl] at he
      simp only [List.getLast?_concat, List.dropLast_concat] at he
      injection he with he; injection he with h1 h2
      subst h1 h2
      simp only [beq_self_eq_true, if_true]
      rw [hr2, ok_bind]
      refine ⟨?_, by simp [lastKey], by simp⟩
      unfold arrays
      rw [wr_of_lt (by simp; omega), ok_bind]
      have e1 := put_last X out0 (c, add value v) (c, v) (cs i - cs first) (by omega)
      have e2 := congrArg (List.map (·.2)) e1
      have e3 := congrArg (List.map (·.1)) e1
      rw [List.map_set] at e2 e3
      have e4 : ((put X (cs i - cs first) (out0 ++ [(c, v)])).map (·.1)).set (cs i - cs first + out0.length) c =
          (put X (cs i - cs first) (out0 ++ [(c, v)])).map (·.1) := by
        apply List.ext_getElem?
        intro k
        rw [List.getElem?_set]
        by_cases hk : cs i - cs first + out0.length = k
        · subst hk
          rw [if_pos rfl, List.getElem?_map, hget, if_pos (by simp; omega)]
          rfl
        · rw [if_neg hk]
      rw [e2, ← e3, e4]
      simp
    · rw [if_neg (by simpa using hck)] at he
      injection he with he; injection he with h1 h2
      have hb : (c == key) = false := by simpa using hck
      rw [hb]
      simp only [Bool.false_eq_true, if_false]
      rw [← ha]
      exact hnew h2.symm h1.symm

/-! ## A column -/

theorem abs_perm {l l' : List (Entry V)} (h : l.Perm l') : (l.map (abs A B)).Perm (l'.map (abs A B)) := h.map _

theorem colLoop_ok [Inhabited V] (hadd : Spec.AssocComm add) (h : ValidCols A B) {i : Nat} (hi : i < B.cols)
    {colStart ce : List Nat} {cs : Nat → Nat} {first : Nat} {X : List (Nat × V)} (hs : rd colStart i = .ok (cs i))
    (hf : rd colStart first = .ok (cs first)) (hle : cs first ≤ cs i) (hce : i < ce.length)
    (hX : cs i - cs first + flops A B i ≤ X.length) :
    ∀ (fuel : Nat) (es : List (Entry V)) (Q out : List (Nat × V)),
      (Pend (fun b a => mul a b) (asRows B) (asRows A) (es.map (abs A B))).length < fuel →
      St (fun b a => mul a b) add (asRows B) (asRows A) i (List.range A.rows) (prods (fun b a => mul a b) (asRows B) (asRows A) i) Q
        (es.map (abs A B)) (lastKey out) out →
      (∀ x ∈ es, VOk mul A B i x) →
      out.length + (Pend (fun b a => mul a b) (asRows B) (asRows A) (es.map (abs A B))).length ≤ flops A B i →
      colLoop mul add A B colStart first i fuel es (arrays cs first i ce X out) =
        .ok (arrays cs first i ce X (expCol mul add A B i)) := by
  have hh := hok h hi
  intro fuel
  induction fuel with
  | zero => intro es Q out h1; omega
  | succ fuel ih =>
    intro es Q out hfu st hv hlen
    unfold colLoop
    cases es with
    | nil =>
      simp only [List.isEmpty_nil, if_true]
      have := st.done hadd (by intro c _; rfl)
      unfold expCol
      simp only [dot_eq]
      rw [← this]
    | cons e rest =>
      simp only [List.isEmpty_cons, Bool.false_eq_true, if_false]
      have hheap : IsHeap 0 (e :: rest) := isHeap_map.1 st.heap
      obtain ⟨r', p1, p2, p3⟩ := popHeap_ok e rest (hheap.replace e)
      have hlast : rd (r' ++ [e]) ((r' ++ [e]).length - 1) = .ok e := by
        apply rd_of_getElem?; simp
      rw [p1, ok_bind, hlast, ok_bind]
      have hve := hv e (by simp)
      obtain ⟨x, y, v1, v2, v3⟩ := hve.val
      have he := hve.ok
      obtain ⟨r1, r2⟩ := rd_inner h hi (j := e.runr) he.hi
      have hbe : bend (asRows B) (asRows A) e.runr = A.ptr (B.rowids.getD e.runr 0 + 1) := rfl
      have hloc : (abs A B e).loc = A.ptr (B.rowids.getD e.runr 0) + e.loc.1 - 1 := rfl
      have hone := hve.one
      have hin : (abs A B e).key ∈ List.range A.rows := by
        rw [List.mem_range, he.key]; exact hh.col_lt he.hi he.bhi
      -- the state after the entry moved on
      have key : ∀ es', Next (fun b a => mul a b) (asRows B) (asRows A) i (List.range A.rows) (abs A B e) (rest.map (abs A B))
          (es'.map (abs A B)) → (∀ x ∈ es', VOk mul A B i x) →
          (do
            let o ← store add colStart first i e.key e.loc.2 (arrays cs first i ce X out)
            colLoop mul add A B colStart first i fuel es' o) = .ok (arrays cs first i ce X (expCol mul add A B i)) := by
        intro es' nx hv'
        obtain ⟨prev', out', k1, k2⟩ := st.hit hh List.pairwise_lt_range hin nx v2 v1
        have k1 : Heap.emit add (lastKey out) out e.key e.loc.2 = .ok (prev', out') := by rw [v3]; exact k1
        have hl := nx.len
        have hlen' : out.length + (Pend (fun b a => mul a b) (asRows B) (asRows A) (abs A B e :: rest.map (abs A B))).length ≤
          flops A B i := hlen
        have hfu' : (Pend (fun b a => mul a b) (asRows B) (asRows A) (abs A B e :: rest.map (abs A B))).length < fuel + 1 := hfu
        obtain ⟨s1, s2, s3⟩ := store_ok (X := X) hs hf hle hce (by omega) k1
        rw [s1, ok_bind]
        subst s2
        exact ih es' _ out' (by omega) k2 hv' (by omega)
      by_cases hc : A.ptr (B.rowids.getD e.runr 0 + 1) - A.ptr (B.rowids.getD e.runr 0) > e.loc.1
      · have hlt : A.ptr (B.rowids.getD e.runr 0) + e.loc.1 < bend (asRows B) (asRows A) e.runr := by rw [hbe]; omega
        obtain ⟨b, a, w1, w2, -⟩ := Heap.pendAt_cons (mul := fun b a => mul a b) hh (j := e.runr) he.hi hlt
        have w1 : rd B.values e.runr = .ok b := w1
        have w2 : rd A.values (A.ptr (B.rowids.getD e.runr 0) + e.loc.1) = .ok a := w2
        have w3 : rd A.rowids (A.ptr (B.rowids.getD e.runr 0) + e.loc.1) =
            .ok (col (asRows A) (A.ptr (B.rowids.getD e.runr 0) + e.loc.1)) := hh.rdB (j := e.runr) he.hi hlt
        have w4 : ∀ z, wr (r' ++ [e]) ((r' ++ [e]).length - 1) z = .ok (r' ++ [z]) := by
          intro z
          rw [wr_of_lt (by simp)]
          simp [List.set_append_right]
        obtain ⟨es', q1, q2, q3⟩ := pushHeap_ok r'
          (⟨col (asRows A) (A.ptr (B.rowids.getD e.runr 0) + e.loc.1), e.runr, (e.loc.1 + 1, mul a b)⟩ : Entry V) p3
        have hperm : es'.Perm (⟨col (asRows A) (A.ptr (B.rowids.getD e.runr 0) + e.loc.1), e.runr, (e.loc.1 + 1, mul a b)⟩ :: rest) :=
          q2.trans ((List.perm_append_singleton _ r').trans (p2.cons _))
        have habs : abs A B ⟨col (asRows A) (A.ptr (B.rowids.getD e.runr 0) + e.loc.1), e.runr, (e.loc.1 + 1, mul a b)⟩ =
            ⟨col (asRows A) (A.ptr (B.rowids.getD e.runr 0) + e.loc.1), e.runr, A.ptr (B.rowids.getD e.runr 0) + e.loc.1⟩ := by
          simp [abs, ← Nat.add_assoc]
        have nx : Next (fun b a => mul a b) (asRows B) (asRows A) i (List.range A.rows) (abs A B e) (rest.map (abs A B))
            (es'.map (abs A B)) := by
          refine Next.sink hh (key := col (asRows A) (A.ptr (B.rowids.getD e.runr 0) + e.loc.1))
            (loc := A.ptr (B.rowids.getD e.runr 0) + e.loc.1) st.heap st.ok ⟨?_, hlt, rfl, ?_⟩ (isHeap_map.2 q3) ?_
          · rw [hloc]; omega
          · intro k k1 k2; rw [hloc] at k1; omega
          · have := abs_perm (A := A) (B := B) hperm
            rw [List.map_cons, habs] at this
            exact this
        have := key es' nx (by
          intro z hz
          rcases List.mem_cons.1 (hperm.mem_iff.1 hz) with rfl | hz
          · have hok' := nx.ok _ (List.mem_map_of_mem hz)
            refine ⟨by simp, hok', a, b, ?_, w1, rfl⟩
            rw [habs]; exact w2
          · exact hv z (by simp [hz]))
        obtain ⟨o, o1, o2⟩ := Heap.bind_ok this
        rw [o1, ok_bind, r1, ok_bind, Inner.rd_cptr h.wfA (j := B.rowids.getD e.runr 0 + 1) r2, ok_bind,
          Inner.rd_cptr h.wfA (Nat.le_of_lt r2), ok_bind, if_pos hc, w2, ok_bind, w1, ok_bind, w3, ok_bind, w4, ok_bind, q1, ok_bind]
        exact o2
      · have nx : Next (fun b a => mul a b) (asRows B) (asRows A) i (List.range A.rows) (abs A B e) (rest.map (abs A B))
            (r'.map (abs A B)) := by
          refine Next.pop hh st.heap st.ok ?_ (isHeap_map.2 p3) (abs_perm p2)
          intro k k1 k2
          have k2 : k < A.ptr (B.rowids.getD e.runr 0 + 1) := k2
          rw [hloc] at k1
          omega
        have := key r' nx (fun z hz => hv z (by simp [p2.mem_iff.1 hz]))
        obtain ⟨o, o1, o2⟩ := Heap.bind_ok this
        rw [o1, ok_bind, r1, ok_bind, Inner.rd_cptr h.wfA (j := B.rowids.getD e.runr 0 + 1) r2, ok_bind,
          Inner.rd_cptr h.wfA (Nat.le_of_lt r2), ok_bind, if_neg hc]
        rw [List.dropLast_concat]
        exact o2

theorem flops_eq (i : Nat) : flops A B i = (prods (fun b a => mul a b) (asRows B) (asRows A) i).length := by
  unfold flops Bin.nprod prods; simp

/-- The loop body for a column. -/
theorem column_ok [Inhabited V] (hadd : Spec.AssocComm add) (h : ValidCols A B) {i : Nat} (hi : i < B.cols)
    {colStart ce : List Nat} {cs : Nat → Nat} {first cap : Nat} {X : List (Nat × V)} (hs : rd colStart i = .ok (cs i))
    (hf : rd colStart first = .ok (cs first)) (hle : cs first ≤ cs i) (hce : ce[i]? = some (cs i))
    (hX : cs i - cs first + flops A B i ≤ X.length) (hcap : B.ptr (i + 1) - B.ptr i ≤ cap) :
    column mul add A B colStart i ce ⟨first, cap, X.map (·.1), X.map (·.2)⟩ =
      .ok (ce.set i (cs i + (expCol mul add A B i).length),
        ⟨first, cap, (put X (cs i - cs first) (expCol mul add A B i)).map (·.1),
          (put X (cs i - cs first) (expCol mul add A B i)).map (·.2)⟩) := by
  obtain ⟨es, e1, e2, e3, e4⟩ := initHeap_ok (mul := mul) h hi hcap
  unfold column
  rw [e1, ok_bind]
  have hturn : turns A B i = (prods (fun b a => mul a b) (asRows B) (asRows A) i).length + 1 :=
    Heap.turns_eq (asRows B) (asRows A) i
  have h0 : (⟨ce, X.map (·.1), X.map (·.2)⟩ : Out V) = arrays cs first i ce X [] := by
    unfold arrays
    have : put X (cs i - cs first) [] = X := by unfold put; simp
    rw [this]
    congr 1
    rw [List.length_nil, Nat.add_zero]
    obtain ⟨hl, he⟩ := List.getElem?_eq_some_iff.1 hce
    rw [← he, List.set_getElem_self]
  have hl4 := e4.length_eq
  have hcl : i < ce.length := (List.getElem?_eq_some_iff.1 hce).1
  rw [h0, colLoop_ok hadd h hi hs hf hle hcl hX (turns A B i) es [] [] (by rw [hturn]; omega)
    ⟨isHeap_map.2 e2, by
      intro x hx
      obtain ⟨z, hz, rfl⟩ := List.mem_map.1 hx
      exact (e3 z hz).ok, by
      intro c _
      simpa using Heap.pick_perm e4 c, by simp, by simp, ⟨fun _ => rfl, by simp [lastKey]⟩, by
      symm; apply Heap.filterMap_eq_nil_of; intro j _; rfl⟩ e3 (by rw [flops_eq (mul := mul)]; simp; omega)]
  rfl

theorem expCol_length_le (i : Nat) : (expCol mul add A B i).length ≤ flops A B i := by
  unfold flops Bin.nprod
  have h1 : (expCol mul add A B i).map (·.1) =
      (List.range A.rows).filter fun r => (Spec.dot (fun b a => mul a b) add (asRows B) (asRows A) i r).isSome := by
    unfold expCol
    rw [List.map_filterMap, ← List.filterMap_eq_filter]
    apply Heap.filterMap_congr_mem
    intro r _
    rcases e : Spec.dot (fun b a => mul a b) add (asRows B) (asRows A) i r with _ | v <;> simp [Option.guard, e]
  have h2 := nodup_length_le (l := (expCol mul add A B i).map (·.1)) (l' := (visits (asRows B) (asRows A) i).map (·.1))
    (by rw [h1]; exact List.nodup_range.filter _) (by
      intro x hx
      rw [h1, List.mem_filter, Msa.dot_isSome] at hx
      exact of_decide_eq_true hx.2)
  simpa using h2

/-! ## The first part -/

/-- The iterations of the loops are complete. -/
structure Sched.Adm (cols n : Nat) (sch : Sched) : Prop where
  flop : sch.flop.Perm (List.range cols)
  ends : sch.ends.Perm (List.range (cols - 1))
  threads : sch.threads.Perm (List.range n)
  nz : sch.nz.Perm (List.range cols)

/-- Where the threads start -/
def bounds (f : Nat → Nat) (total cols n t : Nat) : Nat :=
  if t = 0 then 0 else if t = n then cols else lb (psum f) (total / n * t) cols

theorem bounds_ok (f : Nat → Nat) (total cols : Nat) {n : Nat} (hn : 0 < n) : Bounds n cols (bounds f total cols n) where
  first := by simp [bounds]
  last := by unfold bounds; rw [if_neg (by omega), if_pos rfl]
  mono := by
    intro t ht
    unfold bounds
    by_cases h0 : t = 0
    · rw [if_pos h0]; exact Nat.zero_le _
    · rw [if_neg h0, if_neg (by omega), if_neg (by omega)]
      by_cases h1 : t + 1 = n
      · rw [if_pos h1]; exact lb_le _ _ _
      · rw [if_neg h1]
        exact lb_mono (Nat.mul_le_mul_left _ (by omega)) _

theorem getFlop_eq (h : ValidCols A B) {order : List Nat} (ho : order.Perm (List.range B.cols)) :
    getFlop A B order (List.replicate B.cols 0) = .ok (tab B.cols (flops A B), psum (flops A B) B.cols) :=
  Bin.setIntprodNum_eq (asRows_wf h.wfB) (asRows_wf h.wfA) h.ab.symm ho

theorem plan_eq (h : ValidCols A B) (hpos : 0 < B.cols) (hsmall : B.cols < 2 ^ 17) {n : Nat} (hn : 0 < n) {sch : Sched}
    (hadm : sch.Adm B.cols n) :
    plan A B n sch = .ok (some (tab B.cols (flops A B), tab B.cols (psum (flops A B)), tab B.cols (psum (flops A B)),
      tab (n + 1) (bounds (flops A B) (psum (flops A B) B.cols) B.cols n))) := by
  unfold plan
  rw [getFlop_eq h hadm.flop, ok_bind]
  simp only []
  rw [Conv.replicate_eq_tab, Conv.replicate_eq_tab, wr_tab (by omega), ok_bind, wr_tab hpos, ok_bind, ok_bind]
  have hs : UtilScan.scan (tab B.cols (flops A B)) B.cols (tab B.cols (upd (fun _ => 0) 0 0)) n sch.s1 sch.s2 =
      .ok (some (tab B.cols (psum (flops A B)))) := by
    unfold UtilScan.scan
    rw [if_pos hsmall, UtilScan.seqScan_eq (f := flops A B) hpos (by intro i hi; rw [tab_getElem? (by omega)]) (by simp)]
    rfl
  rw [hs, ok_bind]
  simp only []
  have hends := fillOrder (n := B.cols - 1) (fun (ce : List Nat) k => (do
      let x ← rd (tab B.cols (psum (flops A B))) (k + 1)
      wr ce (k + 1) x : Res (List Nat)))
    (fun D => tab B.cols fun k => if k ≠ 0 ∧ D (k - 1) = true then psum (flops A B) k else 0) sch.ends hadm.ends (by
      intro D k hk hD
      rw [rd_tab (by omega), ok_bind, wr_tab (by omega)]
      congr 1
      apply tab_ext
      intro j hj
      by_cases hjt : j = k + 1
      · subst hjt
        rw [upd_same]
        simp
      · rw [upd_ne _ _ hjt]
        by_cases hj0 : j = 0
        · simp [hj0]
        · have : (j - 1 == k) = false := by simp; omega
          simp only [this, Bool.or_false])
  have e0 : tab B.cols (upd (fun _ => 0) 0 0) = tab B.cols fun k => if k ≠ 0 ∧ (fun _ => false : Nat → Bool) (k - 1) = true then
      psum (flops A B) k else 0 := by
    apply tab_ext
    intro j _
    by_cases hj : j = 0
    · subst hj; rw [upd_same]; simp
    · rw [upd_ne _ _ hj]; simp
  rw [e0, hends, ok_bind]
  have hlb : ∀ x, lowerBound ((tab B.cols (psum (flops A B))).map some) B.cols x = .ok (lb (psum (flops A B)) x B.cols) := by
    intro x
    have hmap : (tab B.cols (psum (flops A B))).map some = tab B.cols (fun i => some (psum (flops A B) i)) := by
      unfold tab; rw [List.map_map]; rfl
    rw [hmap]
    exact lowerBound_eq x (fun i hi => has_tab hi) (fun i j hij _ => psum_mono hij)
  simp only [hlb, ok_bind]
  have hfill := fillOrder (n := n) (fun (per : List Nat) t =>
      wr per (t + 1) (lb (psum (flops A B)) (psum (flops A B) B.cols / n * (t + 1)) B.cols))
    (fun D => tab (n + 1) fun t => if t ≠ 0 ∧ D (t - 1) = true then
      lb (psum (flops A B)) (psum (flops A B) B.cols / n * t) B.cols else 0) sch.threads hadm.threads (by
      intro D t ht hD
      rw [wr_tab (by omega)]
      congr 1
      apply tab_ext
      intro j hj
      by_cases hjt : j = t + 1
      · subst hjt
        rw [upd_same]
        simp
      · rw [upd_ne _ _ hjt]
        by_cases hj0 : j = 0
        · simp [hj0]
        · have : (j - 1 == t) = false := by simp; omega
          simp only [this, Bool.or_false])
  have e1 : tab (n + 1) (upd (fun _ => 0) 0 0) = tab (n + 1) fun t => if t ≠ 0 ∧ (fun _ => false : Nat → Bool) (t - 1) = true then
      lb (psum (flops A B)) (psum (flops A B) B.cols / n * t) B.cols else 0 := by
    apply tab_ext
    intro j _
    by_cases hj : j = 0
    · subst hj; rw [upd_same]; simp
    · rw [upd_ne _ _ hj]; simp
  rw [e1, hfill, ok_bind, wr_tab (by omega), ok_bind]
  have e2 : (tab B.cols fun k => if k ≠ 0 ∧ decide (k - 1 < B.cols - 1) = true then psum (flops A B) k else 0) =
      tab B.cols (psum (flops A B)) := by
    apply tab_ext
    intro j hj
    by_cases hj0 : j = 0
    · subst hj0; rfl
    · rw [if_pos ⟨hj0, by simp; omega⟩]
  rw [e2]
  congr 5
  apply tab_ext
  intro j hj
  unfold bounds
  by_cases hjn : j = n
  · subst hjn; rw [upd_same, if_neg (by omega), if_pos rfl]
  · rw [upd_ne _ _ hjn]
    by_cases hj0 : j = 0
    · subst hj0; simp
    · rw [if_neg hj0, if_neg hjn, if_pos ⟨hj0, by simp; omega⟩]

/-! ## The numeric region -/

/-- What a thread with the columns from `lo` to `hi` has computed when its next column is `i`. -/
structure Mine (mul add : V → V → V) (A B : CSC V) (lo hi i : Nat) (l : Loc V) : Prop where
  first : l.first = lo
  cap : ∀ k, lo ≤ k → k < hi → B.ptr (k + 1) - B.ptr k ≤ l.cap
  cells : ∃ X : List (Nat × V), l.rowids = X.map (·.1) ∧ l.values = X.map (·.2) ∧
    X.length = psum (flops A B) hi - psum (flops A B) lo ∧
    ∀ k, lo ≤ k → k < i → Dot.Holds X (psum (flops A B) k - psum (flops A B) lo) (expCol mul add A B k)

theorem start_ok (h : ValidCols A B) (zero : V) {lo hi : Nat} (hlo : lo ≤ hi) (hhi : hi ≤ B.cols) :
    ∃ l, start zero B (tab B.cols (flops A B)) lo hi = .ok l ∧ Mine mul add A B lo hi lo l := by
  unfold start
  obtain ⟨s, e1, e2⟩ := forRange_inv (body := fun i s => (do
      let x ← rd (tab B.cols (flops A B)) i
      .ok (s + x) : Res Nat)) (fun k s => s = psum (flops A B) k - psum (flops A B) lo) lo hi hlo 0 (by omega) (by
      rintro k s h1 h2 rfl
      refine ⟨_, by rw [rd_tab (by omega)]; rfl, ?_⟩
      have := psum_mono (f := flops A B) h1
      show _ = psum (flops A B) k + flops A B k - _
      omega)
  obtain ⟨m, e3, e4⟩ := forRange_inv (body := fun i m => (do
      let e ← rd B.colptr (i + 1)
      let b ← rd B.colptr i
      .ok (if e - b > m then e - b else m) : Res Nat))
    (fun j m => ∀ k, lo ≤ k → k < j → B.ptr (k + 1) - B.ptr k ≤ m) lo hi hlo 0 (by intro k h1 h2; omega) (by
      intro j m h1 h2 hm
      refine ⟨_, by rw [Inner.rd_cptr h.wfB (j := j + 1) (by omega), ok_bind, Inner.rd_cptr h.wfB (by omega), ok_bind], ?_⟩
      intro k k1 k2
      by_cases hk : k = j
      · subst hk; split <;> omega
      · have := hm k k1 (by omega)
        split <;> omega)
  rw [e1, ok_bind, e3, ok_bind]
  refine ⟨_, rfl, rfl, e4, List.replicate s (0, zero), by simp, by simp, by rw [List.length_replicate, e2], ?_⟩
  intro k k1 k2; omega

theorem main_ok [Inhabited V] (hadd : Spec.AssocComm add) (h : ValidCols A B) (zero : V) {n : Nat} {o : Nat → Nat}
    (ho : Bounds n B.cols o) (sched : List Nat) :
    (blocks n (tab (n + 1) o) (fun _ lo hi => start zero B (tab B.cols (flops A B)) lo hi)
      (column mul add A B (tab B.cols (psum (flops A B)))) sched (tab B.cols (psum (flops A B))) = .ok none ∧
      ∃ t < n, sched.count t ≤ B.cols + 1) ∨
    ∃ ls, blocks n (tab (n + 1) o) (fun _ lo hi => start zero B (tab B.cols (flops A B)) lo hi)
      (column mul add A B (tab B.cols (psum (flops A B)))) sched (tab B.cols (psum (flops A B))) =
        .ok (some (tab B.cols fun i => psum (flops A B) i + (expCol mul add A B i).length, ls)) ∧
      ∀ t < n, ∃ l, ls[t]? = some l ∧ Mine mul add A B (o t) (o (t + 1)) (o (t + 1)) l := by
  have := blocks_own_loc ho (off := tab (n + 1) o) (fun t ht => by rw [tab_getElem? (by omega)])
    (init := fun _ lo hi => start zero B (tab B.cols (flops A B)) lo hi)
    (row := column mul add A B (tab B.cols (psum (flops A B))))
    (fun t i (g : List Nat) => ∀ k, o t ≤ k → k < o (t + 1) →
      g[k]? = some (psum (flops A B) k + if k < i then (expCol mul add A B k).length else 0))
    (fun g => g.length = B.cols) (fun t i l => Mine mul add A B (o t) (o (t + 1)) i l)
    (fun t ht => start_ok h zero (ho.mono t ht) (ho.le (by omega)))
    (by
      intro t ht i l g h1 h2 hg hJ hl
      obtain ⟨first, cap, rowids, values⟩ := l
      obtain ⟨rfl, hcap, X, hx1, hx2, hX, hH⟩ := hl
      simp only at hx1 hx2
      subst hx1 hx2
      have hle := ho.le (t := t + 1) (by omega)
      have hi : i < B.cols := by omega
      have hJi := hJ i h1 h2
      rw [if_neg (Nat.lt_irrefl _), Nat.add_zero] at hJi
      have p1 := psum_mono (f := flops A B) h1
      have p2 := psum_mono (f := flops A B) (show i + 1 ≤ o (t + 1) from h2)
      have p3 : psum (flops A B) (i + 1) = psum (flops A B) i + flops A B i := rfl
      have hlen := expCol_length_le (mul := mul) (add := add) (A := A) (B := B) i
      have hcol := column_ok (mul := mul) hadd h hi (colStart := tab B.cols (psum (flops A B))) (ce := g)
        (cs := psum (flops A B)) (first := o t) (cap := cap) (X := X) (rd_tab hi) (rd_tab (by omega)) p1 hJi (by omega)
        (hcap i h1 h2)
      refine ⟨_, _, hcol, by simpa using hg, ?_, ⟨rfl, hcap, _, rfl, rfl, ?_, ?_⟩, ?_⟩
      · intro k k1 k2
        rw [List.getElem?_set]
        by_cases hk : i = k
        · subst hk
          rw [if_pos rfl, if_pos (by omega), if_pos (by omega)]
        · rw [if_neg hk, hJ k k1 k2]
          congr 2
          by_cases hki : k < i
          · rw [if_pos hki, if_pos (by omega)]
          · rw [if_neg hki, if_neg (by omega)]
      · rw [put_length (by omega), hX]
      · intro k k1 k2
        by_cases hk : k = i
        · subst hk
          exact Dot.holds_put (by omega)
        · intro q hq
          have hlk := expCol_length_le (mul := mul) (add := add) (A := A) (B := B) k
          have p4 := psum_mono (f := flops A B) (show k + 1 ≤ i by omega)
          have p5 : psum (flops A B) (k + 1) = psum (flops A B) k + flops A B k := rfl
          have p6 := psum_mono (f := flops A B) k1
          rw [put_lt (by omega) (by omega)]
          exact hH k k1 (by omega) q hq
      · intro u hu hut j j1 j2 hJu k k1 k2
        rw [List.getElem?_set, if_neg]
        · exact hJu k k1 k2
        · rintro rfl
          exact hut (ho.disj hu ht k1 k2 h1 h2))
    sched (tab B.cols (psum (flops A B))) (by simp) (by
      intro t ht k k1 k2
      have hle := ho.le (t := t + 1) (by omega)
      rw [tab_getElem? (by omega), if_neg (by omega)]
      rfl)
  rcases this with h' | ⟨g, ls, e, hg, hall⟩
  · exact Or.inl h'
  · right
    refine ⟨ls, ?_, fun t ht => (hall t ht).2⟩
    rw [e]
    congr 3
    apply List.ext_getElem?
    intro k
    by_cases hk : k < B.cols
    · obtain ⟨t, ht, k1, k2⟩ := ho.cover hk
      rw [(hall t ht).1 k k1 k2, tab_getElem? hk, if_pos k2]
    · rw [List.getElem?_eq_none (by omega), List.getElem?_eq_none (by simp; omega)]

/-! ## The last part -/

theorem finish_ok (zero : V) (hpos : 0 < B.cols) (hsmall : B.cols + 1 < 2 ^ 17) {n : Nat} {o : Nat → Nat}
    (ho : Bounds n B.cols o) {ls : List (Loc V)}
    (hls : ∀ t < n, ∃ l, ls[t]? = some l ∧ Mine mul add A B (o t) (o (t + 1)) (o (t + 1)) l) {sch : Sched}
    (hnz : sch.nz.Perm (List.range B.cols)) :
    (finish zero A B n (tab B.cols (psum (flops A B)))
      (tab B.cols fun i => psum (flops A B) i + (expCol mul add A B i).length) (tab (n + 1) o) ls sch = .ok none ∧
      ∃ t < n, sch.copy.count t ≤ B.cols + 1) ∨
    finish zero A B n (tab B.cols (psum (flops A B)))
      (tab B.cols fun i => psum (flops A B) i + (expCol mul add A B i).length) (tab (n + 1) o) ls sch =
      .ok (some (Conv.ofCols A.rows B.cols (expCol mul add A B))) := by
  unfold finish
  rw [Conv.replicate_eq_tab, Conv.replicate_eq_tab, wr_tab (by omega), ok_bind]
  have hfill := fillOrder (n := B.cols) (fun (nz : List Nat) i => (do
      let e ← rd (tab B.cols fun i => psum (flops A B) i + (expCol mul add A B i).length) i
      let s ← rd (tab B.cols (psum (flops A B))) i
      wr nz i (e - s) : Res (List Nat)))
    (fun D => tab B.cols fun i => if D i then (expCol mul add A B i).length else 0) sch.nz hnz (by
      intro D i hi hD
      rw [rd_tab hi, ok_bind, rd_tab hi, ok_bind, wr_tab hi]
      congr 1
      apply tab_ext
      intro j hj
      by_cases hji : j = i
      · subst hji; rw [upd_same]; simp
      · rw [upd_ne _ _ hji]
        have : (j == i) = false := by simpa using hji
        simp only [this, Bool.or_false])
  have e0 : tab B.cols (fun _ => 0) = tab B.cols fun i => if (fun _ => false : Nat → Bool) i then (expCol mul add A B i).length else 0 := by
    apply tab_ext; intro j _; simp
  rw [e0, hfill, ok_bind]
  have e1 : (tab B.cols fun i => if decide (i < B.cols) = true then (expCol mul add A B i).length else 0) =
      tab B.cols (lens (expCol mul add A B)) := by
    apply tab_ext; intro j hj; rw [if_pos (by simpa using hj)]; rfl
  rw [e1]
  have hs : UtilScan.scan (tab B.cols (lens (expCol mul add A B))) (B.cols + 1) (tab (B.cols + 1) (upd (fun _ => 0) 0 0)) n sch.s3
      sch.s4 = .ok (some (tab (B.cols + 1) (psum (lens (expCol mul add A B))))) := by
    unfold UtilScan.scan
    rw [if_pos hsmall, UtilScan.seqScan_eq (f := lens (expCol mul add A B)) (by omega)
      (by intro i hi; rw [tab_getElem? (by omega)]) (by simp)]
    rfl
  rw [hs, ok_bind]
  simp only []
  rw [rd_tab (by omega), ok_bind]
  have := fill_ok ho (off := tab (n + 1) o) (fun t ht => by rw [tab_getElem? (by omega)])
    (init := fun t _ _ => rd ls t)
    (row := copyCol (tab B.cols (psum (flops A B))) (tab B.cols fun i => psum (flops A B) i + (expCol mul add A B i).length)
      (tab (B.cols + 1) (psum (lens (expCol mul add A B)))))
    (exp := expCol mul add A B) (fun t l => Mine mul add A B (o t) (o (t + 1)) (o (t + 1)) l)
    (by
      intro t ht
      obtain ⟨l, h1, h2⟩ := hls t ht
      exact ⟨l, rd_of_getElem? h1, h2⟩)
    (by
      intro t ht i l h1 h2 hl Y hY
      refine ⟨l, ?_, hl⟩
      obtain ⟨first, cap, rowids, values⟩ := l
      obtain ⟨rfl, hcap, X, hx1, hx2, hX, hH⟩ := hl
      simp only at hx1 hx2
      subst hx1 hx2
      have hle := ho.le (t := t + 1) (by omega)
      have p1 := psum_mono (f := flops A B) h1
      have p2 : psum (lens (expCol mul add A B)) (i + 1) =
        psum (lens (expCol mul add A B)) i + (expCol mul add A B i).length := rfl
      unfold copyCol
      simp only []
      rw [rd_tab (by omega), ok_bind, rd_tab (by omega), ok_bind, rd_tab (by omega), ok_bind, rd_tab (by omega), ok_bind,
        Nat.add_sub_cancel_left]
      have hHi := hH i h1 h2
      rw [memcpy_eq (xs := (expCol mul add A B i).map (·.1)) (by simp) (hHi.map _) (by simp; omega), ok_bind,
        memcpy_eq (xs := (expCol mul add A B i).map (·.2)) (by simp) (hHi.map _) (by simp; omega), ok_bind]
      have hput : ∀ {β : Type} (f : Nat × V → β), put (Y.map f) (psum (lens (expCol mul add A B)) i)
          ((expCol mul add A B i).map f) = (putRow (expCol mul add A B) i Y).map f := by
        intro β f
        unfold put putRow
        rw [p2]
        simp
      rw [hput, hput])
    zero sch.copy
  rcases this with ⟨e, hc⟩ | ⟨as, e⟩
  · left
    rw [e]
    exact ⟨rfl, hc⟩
  · right
    rw [e]
    rfl

/-- The call computes the product, or the schedule was too short. -/
theorem heapSpGEMM_ok (hadd : Spec.AssocComm add) (h : ValidCols A B) (zero : V) (hpos : 0 < B.cols)
    (hsmall : B.cols + 1 < 2 ^ 17) {n : Nat} (hn : 0 < n) {sch : Sched} (hadm : sch.Adm B.cols n) :
    (heapSpGEMM mul add zero A B n sch = .ok none ∧
      ∃ t < n, sch.main.count t ≤ B.cols + 1 ∨ sch.copy.count t ≤ B.cols + 1) ∨
    heapSpGEMM mul add zero A B n sch = .ok (some (Conv.ofCols A.rows B.cols (expCol mul add A B))) := by
  haveI : Inhabited V := ⟨zero⟩
  unfold heapSpGEMM
  rw [plan_eq h hpos (by omega) hn hadm, ok_bind]
  simp only []
  rw [rd_tab (by omega), ok_bind, rd_tab (by omega), ok_bind]
  have ho := bounds_ok (flops A B) (psum (flops A B) B.cols) B.cols hn
  rcases main_ok (mul := mul) hadd h zero ho sch.main with ⟨e, t, ht, hc⟩ | ⟨ls, e, hls⟩
  · left
    rw [e]
    exact ⟨rfl, t, ht, Or.inl hc⟩
  · rw [e, ok_bind]
    simp only []
    rcases finish_ok zero hpos hsmall ho hls hadm.nz with ⟨e, t, ht, hc⟩ | e
    · exact Or.inl ⟨e, t, ht, Or.inr hc⟩
    · exact Or.inr e

theorem isColProduct (h : ValidCols A B) : Spec.IsColProduct mul add A B (Conv.ofCols A.rows B.cols (expCol mul add A B)) where
  wf := by
    apply Conv.ofCols_wf
    intro j _ x hx
    unfold expCol at hx
    obtain ⟨r, hr, hv⟩ := List.mem_filterMap.1 hx
    rcases e : Spec.dot (fun b a => mul a b) add (asRows B) (asRows A) j r with _ | v
    · rw [e] at hv; cases hv
    · rw [e] at hv
      injection hv with hv
      rw [← hv]
      exact List.mem_range.1 hr
  rows := rfl
  cols := rfl
  entries := by
    intro j hj r v
    rw [Conv.ofCols_col _ _ _ hj]
    have hd : Spec.sum1 add (Spec.contribsByCol mul A B r j) = Spec.dot (fun b a => mul a b) add (asRows B) (asRows A) j r := rfl
    rw [hd]
    unfold expCol
    rw [List.mem_filterMap]
    constructor
    · rintro ⟨r', _, hv⟩
      rcases e : Spec.dot (fun b a => mul a b) add (asRows B) (asRows A) j r' with _ | w
      · rw [e] at hv; cases hv
      · rw [e] at hv
        injection hv with hv
        injection hv with h1 h2
        subst h1 h2
        exact e
    · intro e
      refine ⟨r, ?_, by rw [e]; rfl⟩
      have hs : (Spec.dot (fun b a => mul a b) add (asRows B) (asRows A) j r).isSome = true := by rw [e]; rfl
      rw [Msa.dot_isSome] at hs
      obtain ⟨x, hx, rfl⟩ := List.mem_map.1 (of_decide_eq_true hs)
      rw [List.mem_range]
      exact visits_lt (asRows_wf h.wfA) hx
  sorted := by
    intro j hj
    have hj : j < B.cols := hj
    rw [Conv.ofCols_colRows _ _ _ hj]
    unfold expCol
    rw [List.pairwise_map, List.pairwise_filterMap]
    refine List.pairwise_lt_range.imp ?_
    intro a b hab x hx y hy
    rcases e1 : Spec.dot (fun b a => mul a b) add (asRows B) (asRows A) j a with _ | u
    · rw [e1] at hx; cases hx
    · rcases e2 : Spec.dot (fun b a => mul a b) add (asRows B) (asRows A) j b with _ | w
      · rw [e2] at hy; cases hy
      · rw [e1] at hx; rw [e2] at hy
        injection hx with hx
        injection hy with hy
        rw [← hx, ← hy]
        exact hab

/-! ## Where the claim fails -/

theorem fold_length {colStart colEnd : List Nat} : ∀ (l : List Nat) (nz nz' : List Nat),
    l.foldlM (fun (nz : List Nat) i => (do
      let e ← rd colEnd i
      let s ← rd colStart i
      wr nz i (e - s) : Res (List Nat))) nz = .ok nz' → nz'.length = nz.length := by
  intro l
  induction l with
  | nil => intro nz nz' h; cases h; rfl
  | cons i l ih =>
    intro nz nz' h
    rw [List.foldlM_cons] at h
    obtain ⟨a, h1, h2⟩ := Heap.bind_ok h
    obtain ⟨e, _, h1⟩ := Heap.bind_ok h1
    obtain ⟨s, _, h1⟩ := Heap.bind_ok h1
    rw [ih a nz' h2]
    unfold wr at h1
    split at h1
    · cases h1; simp
    · cases h1

theorem heapSpGEMM_big (mul add : V → V → V) (zero : V) {n : Nat} (hn : 0 < n) (hbig : 2 ^ 17 ≤ B.cols + 1) (sch : Sched) (C : CSC V) :
    heapSpGEMM mul add zero A B n sch ≠ .ok (some C) := by
  intro h
  unfold heapSpGEMM at h
  obtain ⟨r, _, h⟩ := Heap.bind_ok h
  cases r with
  | none => cases h
  | some r =>
    obtain ⟨maxnnzc, colStart, colEnd, colPer⟩ := r
    simp only [] at h
    obtain ⟨_, _, h⟩ := Heap.bind_ok h
    obtain ⟨_, _, h⟩ := Heap.bind_ok h
    obtain ⟨r, _, h⟩ := Heap.bind_ok h
    cases r with
    | none => cases h
    | some r =>
      obtain ⟨colEnd', ls⟩ := r
      simp only [] at h
      unfold finish at h
      obtain ⟨colptr, _, h⟩ := Heap.bind_ok h
      obtain ⟨nz, hnz, h⟩ := Heap.bind_ok h
      obtain ⟨r, hr, h⟩ := Heap.bind_ok h
      cases r with
      | none => cases h
      | some r =>
        have hl := fold_length _ _ _ hnz
        rw [List.length_replicate] at hl
        exact UtilScan.scan_short hn (by omega) (by omega) _ _ _ hr

theorem heapSpGEMM_empty (mul add : V → V → V) (zero : V) (h0 : B.cols = 0) {n : Nat} (sch : Sched) (r : Option (CSC V)) :
    heapSpGEMM mul add zero A B n sch ≠ .ok r := by
  intro h
  unfold heapSpGEMM at h
  obtain ⟨p, hp, _⟩ := Heap.bind_ok h
  unfold plan at hp
  obtain ⟨_, _, hp⟩ := Heap.bind_ok hp
  obtain ⟨_, _, hp⟩ := Heap.bind_ok hp
  obtain ⟨_, hw, _⟩ := Heap.bind_ok hp
  rw [h0] at hw
  cases hw

end Verif.Model.HeapMult
