import Verif.Model.HeapAlg
import Verif.Lemmas.StlHeap
import Verif.Lemmas.Mca

/-! # The heap algorithms produce the expected rows -/

namespace Verif.Model.Heap

open Msa (Ok Inputs)
open Mca (Inc)
open List (Perm)

variable {V : Type}

/-! ## Sums that do not depend on the order -/

theorem foldl_perm {add : V → V → V} (h : Spec.AssocComm add) {l l' : List V} (p : l.Perm l') (x : V) :
    l.foldl add x = l'.foldl add x := by
  induction p generalizing x with
  | nil => rfl
  | cons a _ ih => exact ih _
  | swap a b l =>
    simp only [List.foldl_cons]
    rw [h.assoc, h.assoc, h.comm b a]
  | trans _ _ ih1 ih2 => exact (ih1 x).trans (ih2 x)

theorem sum1_eq_foldl {add : V → V → V} (x y : V) (l : List V) (h : Spec.AssocComm add) :
    (y :: l).foldl add x = add x (l.foldl add y) := by
  induction l generalizing x y with
  | nil => rfl
  | cons z l ih =>
    have := ih (add x y) z
    simp only [List.foldl_cons] at this ⊢
    rw [this, h.assoc, ← ih y z]
    rfl

theorem sum1_perm {add : V → V → V} (h : Spec.AssocComm add) {l l' : List V} (p : l.Perm l') :
    Spec.sum1 add l = Spec.sum1 add l' := by
  induction p with
  | nil => rfl
  | cons a p _ => simp only [Spec.sum1]; rw [foldl_perm h p]
  | swap a b l => simp only [Spec.sum1, List.foldl_cons]; rw [h.comm b a]
  | trans _ _ ih1 ih2 => exact ih1.trans ih2

/-- Addition with the new element first. -/
def flip' (add : V → V → V) (v x : V) : V := add x v

theorem flip'_eq {add : V → V → V} (h : Spec.AssocComm add) : flip' add = add := by
  funext a b; exact h.comm _ _

/-! ## Pending products -/

section

variable (mul : V → V → V) (A B : CSR V)

/-- Column ids by position. -/
abbrev col (A : CSR V) (j : Nat) : Nat := A.colids.getD j 0

/-- End of the row of `B` for position `j` of `A`. -/
abbrev bend (j : Nat) : Nat := B.ptr (col A j + 1)

/-- Products of position `j` of `A` with the positions `loc, ...` of its row of `B`. -/
def pendAt (j loc : Nat) : List (Nat × V) :=
  match A.values[j]? with
  | none => []
  | some a => (slice (B.colids.zip B.values) loc (bend A B j)).map fun jb => (jb.1, mul a jb.2)

/-- Products still to come from a heap. -/
def Pend (es : List Ent) : List (Nat × V) := es.flatMap fun e => pendAt mul A B e.runr e.loc

end

/-- Inputs for the heap algorithms. -/
structure HOk (A B M : CSR V) (row : Nat) : Prop extends Ok A B M row where
  sB : B.SortedRows
  sM : (M.rowCols row).Pairwise (· < ·)

/-- A proper heap entry for the row. -/
structure EOk (A B : CSR V) (row : Nat) (e : Ent) : Prop where
  lo : A.ptr row ≤ e.runr
  hi : e.runr < A.ptr (row + 1)
  blo : B.ptr (col A e.runr) ≤ e.loc
  bhi : e.loc < bend A B e.runr
  key : e.key = col B e.loc

variable {mul add : V → V → V} {A B M : CSR V} {row : Nat}

theorem HOk.a_lt (h : HOk A B M row) {j : Nat} (hj : j < A.ptr (row + 1)) : j < A.nnz :=
  Nat.lt_of_lt_of_le hj (CSR.ptr_le_nnz h.wfA h.lt)

theorem rd_col (h : A.WF) {j : Nat} (hj : j < A.nnz) : rd A.colids j = .ok (col A j) := by
  have : j < A.colids.length := by rw [h.colLen]; exact hj
  rw [rd_of_lt this]; simp [col, this]

theorem HOk.inner_lt (h : HOk A B M row) {j : Nat} (hj : j < A.ptr (row + 1)) : col A j < B.rows := by
  rw [← h.sh.ab]
  have : j < A.colids.length := by rw [h.wfA.colLen]; exact h.a_lt hj
  apply h.wfA.inBounds
  simp [col, this]

theorem HOk.bend_le (h : HOk A B M row) {j : Nat} (hj : j < A.ptr (row + 1)) : bend A B j ≤ B.nnz :=
  CSR.ptr_le_nnz h.wfB (h.inner_lt hj)

theorem HOk.incB (h : HOk A B M row) {j : Nat} (hj : j < A.ptr (row + 1)) :
    Inc (col B) (B.ptr (col A j)) (bend A B j) :=
  Mca.inc_of_sorted (by rw [h.wfB.colLen]; exact h.bend_le hj) (h.sB _ (h.inner_lt hj))

theorem HOk.incM (h : HOk A B M row) : Inc (col M) (M.ptr row) (M.ptr (row + 1)) :=
  Mca.inc_of_sorted (by rw [h.wfM.colLen]; exact CSR.ptr_le_nnz h.wfM h.ltM) h.sM

theorem HOk.mem_mask (h : HOk A B M row) {c : Nat} :
    c ∈ M.rowCols row ↔ ∃ m, M.ptr row ≤ m ∧ m < M.ptr (row + 1) ∧ col M m = c := by
  have hl : M.ptr (row + 1) ≤ M.colids.length := by rw [h.wfM.colLen]; exact CSR.ptr_le_nnz h.wfM h.ltM
  have hlen := slice_length (lo := M.ptr row) hl
  unfold CSR.rowCols
  constructor
  · intro hc
    obtain ⟨i, hi, rfl⟩ := List.mem_iff_getElem.1 hc
    refine ⟨M.ptr row + i, by omega, by omega, ?_⟩
    have := Mca.slice_getD (l := M.colids) (lo := M.ptr row) (hi := M.ptr (row + 1)) (i := i) (by omega) hl
    rw [List.getElem?_eq_getElem hi] at this
    exact (Option.some.inj this).symm
  · rintro ⟨m, h1, h2, rfl⟩
    have := Mca.slice_getD (l := M.colids) (lo := M.ptr row) (hi := M.ptr (row + 1)) (i := m - M.ptr row)
      (by omega) hl
    rw [show M.ptr row + (m - M.ptr row) = m by omega] at this
    exact List.mem_of_getElem? this

theorem pendAt_nil {j loc : Nat} (h : bend A B j ≤ loc) : pendAt mul A B j loc = [] := by
  unfold pendAt
  cases A.values[j]? <;> simp [slice_empty h]

theorem pendAt_cons (h : HOk A B M row) {j loc : Nat} (hj : j < A.ptr (row + 1)) (hl : loc < bend A B j) :
    ∃ a b, rd A.values j = .ok a ∧ rd B.values loc = .ok b ∧
      pendAt mul A B j loc = (col B loc, mul a b) :: pendAt mul A B j (loc + 1) := by
  have h1 : j < A.values.length := by rw [h.wfA.valLen]; exact h.a_lt hj
  have h2 : loc < B.nnz := Nat.lt_of_lt_of_le hl (h.bend_le hj)
  have h3 : loc < B.values.length := by rw [h.wfB.valLen]; exact h2
  have h4 : loc < B.colids.length := by rw [h.wfB.colLen]; exact h2
  refine ⟨A.values[j], B.values[loc], rd_of_lt h1, rd_of_lt h3, ?_⟩
  unfold pendAt
  rw [List.getElem?_eq_getElem h1]
  simp only
  rw [slice_succ hl (by rw [CSR.zip_length h.wfB]; exact h2)]
  simp [col, h4]

/-- Induction over the positions of a row of `B`. -/
theorem down_induction {P : Nat → Prop} {hi : Nat} (h0 : ∀ k, hi ≤ k → P k) (hs : ∀ k, k < hi → P (k + 1) → P k) :
    ∀ k, P k := by
  intro k
  induction hd : hi - k generalizing k with
  | zero => exact h0 k (by omega)
  | succ n ih => exact hs k (by omega) (ih (k + 1) (by omega))

theorem mem_pendAt (h : HOk A B M row) {j loc : Nat} (hj : j < A.ptr (row + 1)) {p : Nat × V}
    (hp : p ∈ pendAt mul A B j loc) : ∃ k, loc ≤ k ∧ k < bend A B j ∧ p.1 = col B k := by
  revert hp
  refine down_induction (hi := bend A B j) (P := fun loc => p ∈ pendAt mul A B j loc → ∃ k, loc ≤ k ∧ k < bend A B j ∧ p.1 = col B k) ?_ ?_ loc
  · intro k hk hp
    rw [pendAt_nil hk] at hp; simp at hp
  · intro k hk ih hp
    obtain ⟨a, b, -, -, e⟩ := pendAt_cons (mul := mul) h hj hk
    rw [e, List.mem_cons] at hp
    rcases hp with rfl | hp
    · exact ⟨k, Nat.le_refl _, hk, rfl⟩
    · obtain ⟨k', h1, h2, h3⟩ := ih hp
      exact ⟨k', by omega, h2, h3⟩

theorem pendAt_length (h : HOk A B M row) {j : Nat} (hj : j < A.ptr (row + 1)) (loc : Nat) :
    (pendAt mul A B j loc).length = bend A B j - loc := by
  refine down_induction (hi := bend A B j) (P := fun loc => (pendAt mul A B j loc).length = bend A B j - loc) ?_ ?_ loc
  · intro k hk
    rw [pendAt_nil hk]; simp; omega
  · intro k hk ih
    obtain ⟨a, b, -, -, e⟩ := pendAt_cons (mul := mul) h hj hk
    rw [e, List.length_cons, ih]; omega

/-- What a search for the next entry of a row may do: no position with a column of `L` is skipped. -/
def Skip (A B : CSR V) (L : List Nat) (j lo : Nat) : Option (Nat × Nat) → Prop
  | none => ∀ k, lo ≤ k → k < bend A B j → col B k ∉ L
  | some (key, loc) => lo ≤ loc ∧ loc < bend A B j ∧ key = col B loc ∧ ∀ k, lo ≤ k → k < loc → col B k ∉ L

theorem pick_skip_none (h : HOk A B M row) {j lo : Nat} {L : List Nat} (hj : j < A.ptr (row + 1))
    (hs : Skip A B L j lo none) {c : Nat} (hc : c ∈ L) : pick (pendAt mul A B j lo) c = [] := by
  rw [pick_eq_nil]
  intro p hp he
  obtain ⟨k, h1, h2, h3⟩ := mem_pendAt h hj hp
  exact hs k h1 h2 (by rw [← h3, he]; exact hc)

theorem pick_skip_some (h : HOk A B M row) {j lo key loc : Nat} {L : List Nat} (hj : j < A.ptr (row + 1))
    (hs : Skip A B L j lo (some (key, loc))) {c : Nat} (hc : c ∈ L) :
    pick (pendAt mul A B j lo) c = pick (pendAt mul A B j loc) c := by
  obtain ⟨h1, h2, -, h4⟩ := hs
  induction hd : loc - lo generalizing lo with
  | zero => have : lo = loc := by omega
            rw [this]
  | succ n ih =>
    obtain ⟨a, b, -, -, e⟩ := pendAt_cons (mul := mul) h hj (show lo < bend A B j by omega)
    rw [e, pick_cons, if_neg, ih (by omega) (fun k hk1 hk2 => h4 k (by omega) hk2) (by omega)]
    intro he
    exact h4 lo (Nat.le_refl _) (by omega) (by simp only at he; rw [he]; exact hc)

theorem pick_perm {l l' : List (Nat × V)} (p : l.Perm l') (c : Nat) : (pick l c).Perm (pick l' c) :=
  p.filterMap _

theorem Pend_perm {l l' : List Ent} (p : l.Perm l') : (Pend mul A B l).Perm (Pend mul A B l') :=
  p.flatMap_right _

theorem Pend_cons (e : Ent) (r : List Ent) :
    Pend mul A B (e :: r) = pendAt mul A B e.runr e.loc ++ Pend mul A B r := rfl

/-! ## One turn -/

/-- The heap after the root `e` moved on. -/
structure Next (mul : V → V → V) (A B : CSR V) (row : Nat) (L : List Nat) (e : Ent) (rest es : List Ent) : Prop where
  heap : IsHeap 0 es
  ok : ∀ x ∈ es, EOk A B row x
  key : ∀ x ∈ es, e.key ≤ x.key
  pend : ∀ c ∈ L, (pick (Pend mul A B es) c).Perm
    (pick (pendAt mul A B e.runr (e.loc + 1)) c ++ pick (Pend mul A B rest) c)
  len : (Pend mul A B es).length + 1 ≤ (Pend mul A B (e :: rest)).length

theorem Next.pop (h : HOk A B M row) {L : List Nat} {e : Ent} {rest es : List Ent} (hh : IsHeap 0 (e :: rest))
    (hok : ∀ x ∈ e :: rest, EOk A B row x) (hs : Skip A B L e.runr (e.loc + 1) none)
    (hes : IsHeap 0 es) (hp : es.Perm rest) : Next mul A B row L e rest es where
  heap := hes
  ok := fun x hx => hok x (by simp [hp.mem_iff.1 hx])
  key := fun x hx => hh.top x (hp.mem_iff.1 hx)
  pend := by
    intro c hc
    rw [pick_skip_none h (hok e (by simp)).hi hs hc]
    exact pick_perm (Pend_perm hp) c
  len := by
    rw [Pend_cons, (Pend_perm hp).length_eq, List.length_append, pendAt_length h (hok e (by simp)).hi]
    have := (hok e (by simp)).bhi
    omega

theorem Next.sink (h : HOk A B M row) {L : List Nat} {e : Ent} {rest es : List Ent} {key loc : Nat}
    (hh : IsHeap 0 (e :: rest))
    (hok : ∀ x ∈ e :: rest, EOk A B row x) (hs : Skip A B L e.runr (e.loc + 1) (some (key, loc)))
    (hes : IsHeap 0 es) (hp : es.Perm (⟨key, e.runr, loc⟩ :: rest)) : Next mul A B row L e rest es where
  heap := hes
  ok := by
    intro x hx
    have he := hok e (by simp)
    rcases List.mem_cons.1 (hp.mem_iff.1 hx) with rfl | hx
    · exact ⟨he.lo, he.hi, by have := he.blo; have := hs.1; simp only; omega, hs.2.1, hs.2.2.1⟩
    · exact hok x (by simp [hx])
  key := by
    intro x hx
    have he := hok e (by simp)
    rcases List.mem_cons.1 (hp.mem_iff.1 hx) with rfl | hx
    · have h1 := h.incB he.hi e.loc loc he.blo (by have := hs.1; omega) hs.2.1
      simp only [hs.2.2.1, he.key]
      exact Nat.le_of_lt h1
    · exact hh.top x hx
  pend := by
    intro c hc
    rw [pick_skip_some h (hok e (by simp)).hi hs hc, ← pick_append]
    exact pick_perm (Pend_perm hp) c
  len := by
    have he := hok e (by simp)
    rw [Pend_cons, (Pend_perm hp).length_eq, Pend_cons, List.length_append, List.length_append, pendAt_length h he.hi,
      pendAt_length h he.hi]
    have := he.bhi
    have := hs.1
    have := hs.2.1
    simp only
    omega

theorem pop_ok (cap : Nat) {e : Ent} {r : List Ent} (h : IsHeap 1 (e :: r)) :
    ∃ r', HP.pop ⟨cap, e :: r⟩ = .ok ⟨cap, r'⟩ ∧ r'.Perm r ∧ IsHeap 0 r' := by
  obtain ⟨r', h1, h2, h3⟩ := popHeap_ok e r h
  exact ⟨r', by simp [HP.pop, h1], h2, h3⟩

theorem sink_ok (cap : Nat) {e : Ent} {r : List Ent} (h : IsHeap 1 (e :: r)) :
    ∃ a, HP.sinkRoot ⟨cap, e :: r⟩ = .ok ⟨cap, a⟩ ∧ a.Perm (e :: r) ∧ IsHeap 0 a := by
  obtain ⟨r', h1, h2, h3⟩ := popHeap_ok e r h
  obtain ⟨a, k1, k2, k3⟩ := pushHeap_ok r' e h3
  refine ⟨a, by simp [HP.sinkRoot, h1, k1], k2.trans ?_, k3⟩
  exact (List.perm_append_singleton e r').trans (h2.cons e)

theorem setTop_ok (cap : Nat) (e e' : Ent) (r : List Ent) : HP.setTop ⟨cap, e :: r⟩ e' = .ok ⟨cap, e' :: r⟩ := by
  simp [HP.setTop, wr]

/-- End of `insertNext`: replace the root and restore the heap, or remove it. -/
theorem finish_ok (h : HOk A B M row) {L : List Nat} (cap : Nat) {e : Ent} {rest : List Ent} (put : Bool) (key loc : Nat)
    (hh : IsHeap 0 (e :: rest)) (hok : ∀ x ∈ e :: rest, EOk A B row x)
    (hs : Skip A B L e.runr (e.loc + 1) (if put then some (key, loc) else none)) :
    ∃ es, (do
        let h ← HP.setTop ⟨cap, e :: rest⟩ ⟨key, e.runr, loc⟩
        if put then h.sinkRoot else h.pop : Res HP) = .ok ⟨cap, es⟩ ∧ Next mul A B row L e rest es := by
  rw [setTop_ok, ok_bind]
  cases put with
  | true =>
    obtain ⟨a, h1, h2, h3⟩ := sink_ok cap (hh.replace ⟨key, e.runr, loc⟩)
    exact ⟨a, by simpa using h1, Next.sink h hh hok hs h3 h2⟩
  | false =>
    obtain ⟨a, h1, h2, h3⟩ := pop_ok cap (hh.replace ⟨key, e.runr, loc⟩)
    exact ⟨a, by simpa using h1, Next.pop h hh hok hs h3 h2⟩

/-! ## State of the main loops -/

/-- The main loop has consumed the products `Q`; `all` are all products of the row and `L` the
columns that may be stored, in increasing order. -/
structure St (mul add : V → V → V) (A B : CSR V) (row : Nat) (L : List Nat) (all Q : List (Nat × V)) (es : List Ent)
    (prev : Option Nat) (out : List (Nat × V)) : Prop where
  heap : IsHeap 0 es
  ok : ∀ x ∈ es, EOk A B row x
  perm : ∀ c ∈ L, (pick Q c ++ pick (Pend mul A B es) c).Perm (pick all c)
  mem : ∀ p ∈ Q, p.1 ∈ L
  le : ∀ p ∈ Q, ∀ x ∈ es, p.1 ≤ x.key
  prev : (prev = none → Q = []) ∧ ∀ k, prev = some k → (∃ p ∈ Q, p.1 = k) ∧ ∀ p ∈ Q, p.1 ≤ k
  out : out = L.filterMap fun j => (Spec.sum1 (flip' add) (pick Q j)).map fun v => (j, v)

/-- The entry at the root is not stored. -/
theorem St.miss (h : HOk A B M row) {L : List Nat} {all Q : List (Nat × V)} {e : Ent} {rest es : List Ent}
    {prev : Option Nat} {out : List (Nat × V)} (st : St mul add A B row L all Q (e :: rest) prev out)
    (he : e.key ∉ L) (nx : Next mul A B row L e rest es) : St mul add A B row L all Q es prev out where
  heap := nx.heap
  ok := nx.ok
  perm := by
    intro c hc
    have h1 := st.perm c hc
    have hee := st.ok e (by simp)
    obtain ⟨a, b, -, -, e1⟩ := pendAt_cons (mul := mul) h hee.hi hee.bhi
    rw [Pend_cons, pick_append, e1, pick_cons, if_neg] at h1
    · exact ((nx.pend c hc).append_left _).trans h1
    · simp only [← hee.key]; rintro rfl; exact he hc
  mem := st.mem
  le := fun p hp x hx => Nat.le_trans (st.le p hp e (by simp)) (nx.key x hx)
  prev := st.prev
  out := st.out

theorem filterMap_eq_nil_of {f : Nat → Option (Nat × V)} {l : List Nat} (h : ∀ j ∈ l, f j = none) :
    l.filterMap f = [] := by
  rw [List.filterMap_eq_nil_iff]; exact h

theorem filterMap_congr_mem {α β : Type} {f g : α → Option β} {l : List α} (h : ∀ j ∈ l, f j = g j) :
    l.filterMap f = l.filterMap g := by
  induction l with
  | nil => rfl
  | cons a l ih =>
    rw [List.filterMap_cons, List.filterMap_cons, h a (by simp), ih (fun j hj => h j (by simp [hj]))]

/-- The entry at the root is stored. -/
theorem St.hit (h : HOk A B M row) {L : List Nat} {all Q : List (Nat × V)} {e : Ent} {rest es : List Ent}
    {prev : Option Nat} {out : List (Nat × V)} (hL : L.Pairwise (· < ·))
    (st : St mul add A B row L all Q (e :: rest) prev out)
    (he : e.key ∈ L) (nx : Next mul A B row L e rest es) {a b : V} (ha : rd A.values e.runr = .ok a)
    (hb : rd B.values e.loc = .ok b) :
    ∃ prev' out', emit add prev out e.key (mul a b) = .ok (prev', out') ∧
      St mul add A B row L all (Q ++ [(e.key, mul a b)]) es prev' out' := by
  have hee := st.ok e (by simp)
  have hle : ∀ p ∈ Q, p.1 ≤ e.key := fun p hp => st.le p hp e (by simp)
  -- split of the columns at the key
  obtain ⟨pre, post, hsp⟩ := List.append_of_mem he
  have hpre : ∀ j ∈ pre, j < e.key := by
    intro j hj
    rw [hsp, List.pairwise_append] at hL
    exact hL.2.2 j hj e.key (by simp)
  have hpost : ∀ j ∈ post, e.key < j := by
    intro j hj
    rw [hsp, List.pairwise_append, List.pairwise_cons] at hL
    exact hL.2.1.1 j hj
  -- the output after the step
  have hF : ∀ w, (L.filterMap fun j => (Spec.sum1 (flip' add) (pick (Q ++ [(e.key, w)]) j)).map fun v => (j, v)) =
      (pre.filterMap fun j => (Spec.sum1 (flip' add) (pick Q j)).map fun v => (j, v)) ++
        [(e.key, match Spec.sum1 (flip' add) (pick Q e.key) with | none => w | some v => add w v)] := by
    intro w
    rw [hsp, List.filterMap_append, List.filterMap_cons]
    have e1 : pick (Q ++ [(e.key, w)]) e.key = pick Q e.key ++ [w] := by simp [pick_append, pick_cons]
    rw [e1, sum1_append_singleton]
    simp only [Option.map_some]
    have e2 : (post.filterMap fun j => (Spec.sum1 (flip' add) (pick (Q ++ [(e.key, w)]) j)).map fun v => (j, v)) = [] := by
      apply filterMap_eq_nil_of
      intro j hj
      have : pick (Q ++ [(e.key, w)]) j = [] := by
        rw [pick_eq_nil]
        intro p hp
        have h1 := hpost j hj
        rcases List.mem_append.1 hp with hp | hp
        · have := hle p hp; omega
        · simp at hp; subst hp; simp only; omega
      rw [this]; rfl
    rw [e2]
    congr 1
    apply filterMap_congr_mem
    intro j hj
    have : pick (Q ++ [(e.key, w)]) j = pick Q j := by
      have := hpre j hj
      rw [pick_append, pick_cons, if_neg (by simp only; omega)]
      simp
    rw [this]
  have hout : out = (pre.filterMap fun j => (Spec.sum1 (flip' add) (pick Q j)).map fun v => (j, v)) ++
      ((Spec.sum1 (flip' add) (pick Q e.key)).map fun v => (e.key, v)).toList := by
    rw [st.out, hsp]
    rw [List.filterMap_append, List.filterMap_cons]
    have e2 : (post.filterMap fun j => (Spec.sum1 (flip' add) (pick Q j)).map fun v => (j, v)) = [] := by
      apply filterMap_eq_nil_of
      intro j hj
      have : pick Q j = [] := by
        rw [pick_eq_nil]
        intro p hp
        have h1 := hpost j hj
        have := hle p hp; omega
      rw [this]; rfl
    rw [e2]
    cases Spec.sum1 (flip' add) (pick Q e.key) <;> rfl
  have hprev : prev = some e.key ↔ pick Q e.key ≠ [] := by
    rw [Ne, pick_eq_nil]
    constructor
    · intro hp h'
      obtain ⟨⟨p, hpQ, hpk⟩, -⟩ := st.prev.2 _ hp
      exact h' p hpQ hpk
    · intro h'
      cases hpv : prev with
      | none =>
        exfalso
        apply h'
        rw [st.prev.1 hpv]; simp
      | some k =>
        obtain ⟨⟨p, hpQ, hpk⟩, hmax⟩ := st.prev.2 _ hpv
        by_cases hk : k = e.key
        · rw [hk]
        · exfalso
          apply h'
          intro q hq hqe
          have := hmax q hq
          have := hle p hpQ
          omega
  have hperm : ∀ c ∈ L, (pick (Q ++ [(e.key, mul a b)]) c ++ pick (Pend mul A B es) c).Perm (pick all c) := by
    intro c hc
    have h1 := st.perm c hc
    obtain ⟨a', b', ha', hb', e1⟩ := pendAt_cons (mul := mul) h hee.hi hee.bhi
    rw [ha] at ha'; rw [hb] at hb'
    cases ha'; cases hb'
    have e2 : pendAt mul A B e.runr e.loc = [(e.key, mul a b)] ++ pendAt mul A B e.runr (e.loc + 1) := by
      rw [e1, ← hee.key]; rfl
    rw [Pend_cons, e2, pick_append, pick_append] at h1
    rw [pick_append, List.append_assoc]
    refine Perm.trans ?_ h1
    rw [List.append_assoc]
    exact ((nx.pend c hc).append_left _).append_left _
  have hmem : ∀ p ∈ Q ++ [(e.key, mul a b)], p.1 ∈ L := by
    intro p hp
    rcases List.mem_append.1 hp with hp | hp
    · exact st.mem p hp
    · simp at hp; subst hp; exact he
  have hle' : ∀ p ∈ Q ++ [(e.key, mul a b)], ∀ x ∈ es, p.1 ≤ x.key := by
    intro p hp x hx
    have := nx.key x hx
    rcases List.mem_append.1 hp with hp | hp
    · have := hle p hp; omega
    · simp at hp; subst hp; exact this
  have hprev' : (some e.key = none → Q ++ [(e.key, mul a b)] = []) ∧ ∀ k, some e.key = some k →
      (∃ p ∈ Q ++ [(e.key, mul a b)], p.1 = k) ∧ ∀ p ∈ Q ++ [(e.key, mul a b)], p.1 ≤ k := by
    refine ⟨by simp, ?_⟩
    intro k hk
    cases hk
    refine ⟨⟨(e.key, mul a b), by simp, rfl⟩, ?_⟩
    intro p hp
    rcases List.mem_append.1 hp with hp | hp
    · exact hle p hp
    · simp at hp; subst hp; exact Nat.le_refl _
  unfold emit
  by_cases hp : prev = some e.key
  · rw [if_pos hp]
    have hne := hprev.1 hp
    cases hs : Spec.sum1 (flip' add) (pick Q e.key) with
    | none => rw [sum1_eq_none] at hs; exact absurd hs hne
    | some v =>
      rw [hs] at hout
      have h1 : out.getLast? = some (e.key, v) := by rw [hout]; simp
      have h2 : out.dropLast = (pre.filterMap fun j => (Spec.sum1 (flip' add) (pick Q j)).map fun v => (j, v)) := by
        rw [hout]; simp
      rw [h1]
      refine ⟨prev, _, rfl, nx.heap, nx.ok, hperm, hmem, hle', hp ▸ hprev', ?_⟩
      rw [hF, hs, h2]
  · rw [if_neg hp]
    have hnil : pick Q e.key = [] := by
      by_cases hh : pick Q e.key = []
      · exact hh
      · exact absurd (hprev.2 hh) hp
    have hs : Spec.sum1 (flip' add) (pick Q e.key) = none := by rw [hnil]; rfl
    refine ⟨some e.key, _, rfl, nx.heap, nx.ok, hperm, hmem, hle', hprev', ?_⟩
    rw [hF, hs, hout, hs]
    simp

/-- Nothing to store is left: the output is complete. -/
theorem St.done {L : List Nat} {all Q : List (Nat × V)} {es : List Ent} {prev : Option Nat} {out : List (Nat × V)}
    (hadd : Spec.AssocComm add) (st : St mul add A B row L all Q es prev out)
    (hnil : ∀ c ∈ L, pick (Pend mul A B es) c = []) :
    out = L.filterMap fun j => (Spec.sum1 add (pick all j)).map fun v => (j, v) := by
  rw [st.out]
  apply filterMap_congr_mem
  intro j hj
  have := st.perm j hj
  rw [hnil j hj, List.append_nil] at this
  rw [flip'_eq hadd, sum1_perm hadd this]

end Verif.Model.Heap
