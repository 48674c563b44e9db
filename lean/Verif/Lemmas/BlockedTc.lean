import Verif.Model.BlockedTc
import Verif.Lemmas.Blocked
import Verif.Props.C24
import Verif.Props.C33
import Verif.Props.C58
import Verif.Props.C70
import Verif.Props.C83

/-!
# Lemmas about the program that counts triangles in blocks
-/

namespace Verif.Model.BlockedTc

open Verif.Spec
open _root_.Verif.Model.Bench (Gives triples_nodup)
open _root_.Verif.Model.MaskedAll (Mats nodup_of_sorted masked_entries masked_unique)

/-! ## One iteration -/

theorem andThen_gives {α β : Type} {st : Prop} {x : Res (Option α)} {a : α} {f : α → Res (Option β)} {b : β} (hx : Gives st a x)
    (hf : Gives st b (f a)) : Gives st b (andThen x f) := by
  unfold andThen
  rcases hx with e | ⟨h, e⟩
  · rw [e]; exact hf
  · rw [e]; exact .inr ⟨h, rfl⟩

/-- The schedules of an iteration: every loop runs all its iterations. -/
structure Adm (rows : Nat) (s : Sch) : Prop where
  prod : HashMult.Adm rows 1 s.prod
  sort : s.sort.Perm (List.range rows)
  order1 : s.order1.Perm (List.range rows)
  order2 : s.order2.Perm (List.range rows)
  spa : s.spa.Adm rows 1
  parts : ∀ n, Splits n (s.parts n)
  dot : s.dot.Adm rows 1
  hash : s.hash.Adm rows 1

/-- The single thread of each call gets at least `2^17` turns in every part of the call. -/
structure FairSch (s : Sch) : Prop where
  prod : 2 ^ 17 ≤ s.prod.sym.count 0 ∧ 2 ^ 17 ≤ s.prod.num.count 0
  spa : 2 ^ 17 ≤ s.spa.count.count 0 ∧ 2 ^ 17 ≤ s.spa.fill.count 0
  dot : 2 ^ 17 ≤ s.dot.main.count 0
  hash : 2 ^ 17 ≤ s.hash.count.count 0 ∧ 2 ^ 17 ≤ s.hash.fill.count 0

/-- Integers in a list of entries -/
def Ints (es : List (Nat × Nat × ℚ)) : Prop := ∀ e ∈ es, ∃ z : ℤ, e.2.2 = z

theorem int_sum {l : List ℚ} (h : ∀ v ∈ l, ∃ z : ℤ, v = z) : ∃ z : ℤ, l.sum = z := by
  induction l with
  | nil => exact ⟨0, by simp⟩
  | cons v l ih =>
    obtain ⟨z, hz⟩ := ih fun x hx => h x (by simp [hx])
    obtain ⟨y, hy⟩ := h v (by simp)
    exact ⟨y + z, by rw [List.sum_cons, hy, hz]; push_cast; rfl⟩

theorem int_product {es fs : List (Nat × Nat × ℚ)} (he : Ints es) (hf : Ints fs) (u v : Nat) : ∃ z : ℤ, productAt es fs u v = z := by
  unfold productAt
  refine int_sum fun x hx => ?_
  obtain ⟨⟨a, b⟩, hp, e⟩ := List.mem_filterMap.1 hx
  obtain ⟨ha, hb⟩ := List.mem_product.1 hp
  split at e
  · obtain ⟨y, hy⟩ := he a ha
    obtain ⟨z, hz⟩ := hf b hb
    exact ⟨y * z, by rw [← Option.some.inj e]; simp only [hy, hz]; push_cast; rfl⟩
  · cases e

theorem nnz_triples {V : Type} {C : CSR V} (h : C.WF) : C.nnz = ((triples C).map fun t => (t.1, t.2.1)).length := by
  rw [List.length_map, ← h.colLen, ← (MatObj.triples_snd h).1, List.length_map]

theorem length_of_positions {L L' : List (Nat × Nat)} (h : L.Nodup) (h' : L'.Nodup) (he : ∀ p, p ∈ L ↔ p ∈ L') : L.length = L'.length :=
  ((List.perm_ext_iff_of_nodup h h').2 he).length_eq

/-- The counts of one iteration: `P` are the positions of the product, `L` the entries of the masked product. -/
structure CellOk (es fs ms : List (Nat × Nat × ℚ)) (c : Counts) (P : List (Nat × Nat)) (L : List (Nat × Nat × ℚ)) : Prop where
  flps : c.flps = 2 * pairings es fs
  nodup : P.Nodup
  mem : ∀ p, p ∈ P ↔ ∃ k, Stored es p.1 k ∧ Stored fs k p.2
  nnzs : c.nnzs = P.length
  entries : MaskedEntries es fs ms L
  masked : c.masked = L.length
  inner : c.inner = L.length
  triangles : (c.triangles : ℚ) = (L.map fun e => e.2.2).sum

theorem cell_gives {sortf : List (Nat × ℚ) → List (Nat × ℚ)} (hsort : SortsBy Prod.fst sortf) {nd : Nat} (hnd : 0 < nd) {m k n : Nat}
    {es fs ms : List (Nat × Nat × ℚ)} {A B M : CSR ℚ} {Bc : CSC ℚ} (h : Mats m k n es fs ms A B M Bc) (hm : 0 < m) (hsmall : m + 1 < 2 ^ 17)
    (hcols : ∀ e ∈ es, e.2.1 < n) (he : Ints es) (hf : Ints fs) :
    ∃ c P L, CellOk es fs ms c P L ∧ ∀ s, Adm m s → Gives (FairSch s) c (cell sortf nd A B M Bc s) := by
  have hv : Valid A B M := ⟨h.wA, h.wB, h.wM, ⟨h.cA.trans h.rB.symm, h.rM.trans h.rA.symm, h.cM.trans h.cB.symm⟩, h.rA ▸ hm⟩
  have eA := h.rA
  subst eA
  have hflip : (fun a b : ℚ => b + a) = fun a b => a + b := by funext a b; exact add_comm b a
  have entries := fun {C : CSR ℚ} (hC : IsMaskedSet (fun x y => x * y) (fun x y => x + y) A B M C) =>
    masked_entries h.wA h.wB h.wM hv.shapes.ab hv.shapes.ma h.pA h.pB h.pM hC
  -- the product
  obtain ⟨C, hC, gC⟩ := Props.C34_hash_partial (sorted := false) hsort (fun x y : ℚ => x * y) (fun x y => x + y) 0 h.wA h.wB hv.shapes.ab hm
    hsmall one_pos nd
  rw [hflip] at hC
  -- sorted
  have hsortC := fun {order : List Nat} (ho : order.Perm (List.range C.rows)) => Props.C58_sort hsort hC.wf ho
  -- the masked products
  obtain ⟨S, hS, -, gS⟩ := Props.C31_spa_partial (fun x y : ℚ => x * y) (fun x y => x + y) hv hsmall 0 one_pos nd
  rw [hflip] at hS
  have hvc : ValidC A Bc M := ⟨h.wA, h.wBc, h.wM, h.cA.trans (h.rB.symm.trans h.same.rows.symm), h.rM, h.cM.trans (h.cB.symm.trans h.same.cols.symm),
    hm, h.sA, h.sBc⟩
  have hc : ∀ c ∈ A.colids, c < Bc.cols := by
    intro c hc
    rw [← (MatObj.triples_snd h.wA).1, List.mem_map] at hc
    obtain ⟨e, he, rfl⟩ := hc
    rw [h.same.cols, h.cB]
    exact hcols e (h.pA.mem_iff.1 he)
  obtain ⟨I, hI, wI, gI⟩ := Props.C53_inner_partial (fun x y : ℚ => x * y) (fun x y => x + y) 0 (fun x y => zero_add _) hvc
    (nodup_of_sorted h.sM) hc hsmall one_pos nd
  have hI' := MaskedAll.masked_set wI (isMasked_of_csc h.wA h.wBc h.wB h.wM hv.shapes.ab hv.shapes.mb h.same (nodup_of_sorted h.sB) h.sBc hI)
  obtain ⟨H, hH, gH⟩ := Props.C31_hash_partial (fun x y : ℚ => x * y) (fun x y => x + y) hv hsmall 0 one_pos nd
  have eS := entries hS
  have hints : ∀ v ∈ S.values, ∃ z : ℤ, v = z := by
    intro v hv
    rw [← (MatObj.triples_snd hS.wf).2, List.mem_map] at hv
    obtain ⟨⟨i, j, v⟩, hx, rfl⟩ := hv
    rw [((eS.mem i j v).1 hx).2.2]
    exact int_product he hf i j
  obtain ⟨z, hz⟩ := int_sum hints
  -- positions
  have hmem : ∀ p : Nat × Nat, p ∈ (triples C).map (fun t => (t.1, t.2.1)) ↔ ∃ k, Stored es p.1 k ∧ Stored fs k p.2 := by
    rintro ⟨i, j⟩
    rw [List.mem_map]
    constructor
    · rintro ⟨⟨i', j', v⟩, hx, e⟩
      obtain rfl : i = i' := (congrArg Prod.fst e).symm
      obtain rfl : j = j' := (congrArg Prod.snd e).symm
      have := Graph.mem_triples.1 hx
      rw [hC.rows] at this
      exact (MaskedAll.dot_isSome h.wA h.wB hv.shapes.ab h.pA h.pB this.1).1 ⟨v, (hC.entries i this.1 j v).1 this.2⟩
    · intro hk
      have hi : i < A.rows := by
        obtain ⟨k, ⟨e, he, e2⟩, -⟩ := hk
        have := (Graph.mem_triples.1 (h.pA.mem_iff.2 (show (e.1, e.2.1, e.2.2) ∈ es from he))).1
        simp only [Prod.mk.injEq] at e2
        rw [← e2.1]
        exact this
      obtain ⟨v, hv'⟩ := (MaskedAll.dot_isSome (mul := fun x y : ℚ => x * y) (add := fun x y => x + y) h.wA h.wB hv.shapes.ab h.pA h.pB hi).2 hk
      exact ⟨(i, j, v), Graph.mem_triples.2 ⟨hC.rows.symm ▸ hi, (hC.entries i hi j v).2 hv'⟩, rfl⟩
  refine ⟨⟨2 * pairings es fs, C.nnz, (triples S).length, (triples S).length, z⟩, (triples C).map fun t => (t.1, t.2.1), triples S, ⟨rfl, triples_nodup hC.wf hC.nodup,
    hmem, nnz_triples hC.wf, eS, rfl, rfl, ?_⟩, ?_⟩
  · show (z : ℚ) = _
    rw [← hz, ← (MatObj.triples_snd hS.wf).2]
  intro s hs
  unfold cell
  rw [Props.C83_rows h.wA h.wB hv.shapes.ab, ok_bind]
  have hpair : pairings (triples A) (triples B) = pairings es fs := by
    unfold pairings
    exact ((h.pA.product h.pB).filter _).length_eq
  rw [hpair]
  refine andThen_gives (a := C) ?_ ?_
  · rcases gC s.prod hs.prod with ⟨e, t, ht, hp⟩ | e
    · refine .inr ⟨fun hfair => ?_, e⟩
      obtain rfl : t = 0 := by omega
      have := hfair.prod
      omega
    · exact .inl e
  obtain ⟨C', e, hC', -, hC's⟩ := hsortC (order := s.sort) (hC.rows.symm ▸ hs.sort)
  rw [e, ok_bind]
  obtain ⟨Tr, eT, hT⟩ := Props.C24_intersect_partial (fun x y : ℚ => x + y) h.wM hC'.wf h.sM (hC's hC.nodup) (hv.shapes.ma.trans (hC.rows.symm.trans hC'.rows.symm))
    (hv.shapes.mb.trans (hC.cols.symm.trans hC'.cols.symm)) (hv.shapes.ma.symm ▸ hsmall) 0 hnd (order1 := s.order1) (order2 := s.order2)
    (hv.shapes.ma.symm ▸ hs.order1) (hv.shapes.ma.symm ▸ hs.order2) s.s1 s.s2
  refine andThen_gives (a := Tr) (.inl eT) ?_
  have hTr : Tr.nnz = (triples S).length := by
    rw [nnz_triples hT.wf, ← List.length_map (f := fun e : Nat × Nat × ℚ => (e.1, e.2.1)) (as := triples S)]
    refine length_of_positions (triples_nodup hT.wf (nodup_of_sorted hT.sorted)) eS.nodup ?_
    rintro ⟨i, j⟩
    rw [List.mem_map, List.mem_map]
    constructor
    · rintro ⟨⟨i', j', v⟩, hx, e⟩
      obtain rfl : i = i' := (congrArg Prod.fst e).symm
      obtain rfl : j = j' := (congrArg Prod.snd e).symm
      have := Graph.mem_triples.1 hx
      rw [hT.rows] at this
      obtain ⟨a, b, ha, hb, -⟩ := (hT.entries i this.1 j v).1 this.2
      rw [hv.shapes.ma] at this
      have hb := (hC'.perm i (hC.rows.symm ▸ this.1)).mem_iff.1 hb
      refine ⟨(i, j, productAt es fs i j), (eS.mem i j _).2 ⟨⟨(i, j, a), h.pM.mem_iff.1 (Graph.mem_triples.2 ⟨hv.shapes.ma.symm ▸ this.1, ha⟩), rfl⟩,
        (hmem (i, j)).1 (List.mem_map.2 ⟨(i, j, b), Graph.mem_triples.2 ⟨hC.rows.symm ▸ this.1, hb⟩, rfl⟩), rfl⟩, rfl⟩
    · rintro ⟨⟨i', j', v⟩, hx, e⟩
      obtain rfl : i = i' := (congrArg Prod.fst e).symm
      obtain rfl : j = j' := (congrArg Prod.snd e).symm
      obtain ⟨⟨x, hx1, hx2⟩, hk, -⟩ := (eS.mem i j v).1 hx
      obtain ⟨i', j', a⟩ := x
      obtain rfl : i = i' := (congrArg Prod.fst hx2).symm
      obtain rfl : j = j' := (congrArg Prod.snd hx2).symm
      obtain ⟨⟨i', j', b⟩, hb, e⟩ := List.mem_map.1 ((hmem (i, j)).2 hk)
      obtain rfl : i = i' := (congrArg Prod.fst e).symm
      obtain rfl : j = j' := (congrArg Prod.snd e).symm
      have ha := Graph.mem_triples.1 (h.pM.mem_iff.2 hx1)
      have hb := Graph.mem_triples.1 hb
      have hb' := (hC'.perm i hb.1).mem_iff.2 hb.2
      exact ⟨(i, j, a + b), Graph.mem_triples.2 ⟨hT.rows.symm ▸ ha.1, (hT.entries i ha.1 j _).2 ⟨a, b, ha.2, hb', rfl⟩⟩, rfl⟩
  refine andThen_gives (a := S) ?_ ?_
  · rcases gS s.spa hs.spa with ⟨e, t, ht, hp⟩ | e
    · refine .inr ⟨fun hfair => ?_, e⟩
      obtain rfl : t = 0 := by omega
      have := hfair.spa
      omega
    · exact .inl e
  have hsum : sumInt S s.parts = .ok z := by
    unfold sumInt
    rw [Props.C70_integers_partial S hS.wf hints (hs.parts _), ok_bind, hz]
    unfold SumAll.trunc
    rw [Int.floor_intCast, Int.ceil_intCast, ite_self]
  rw [hsum, ok_bind]
  refine andThen_gives (a := I) ?_ ?_
  · rcases gI s.dot hs.dot with ⟨e, t, ht, hp⟩ | e
    · refine .inr ⟨fun hfair => ?_, e⟩
      obtain rfl : t = 0 := by omega
      have := hfair.dot
      omega
    · exact .inl e
  refine andThen_gives (a := H) ?_ ?_
  · rcases gH s.hash hs.hash with ⟨e, t, ht, hp⟩ | e
    · refine .inr ⟨fun hfair => ?_, e⟩
      obtain rfl : t = 0 := by omega
      have := hfair.hash
      omega
    · exact .inl e
  have hIn : I.nnz = (triples S).length := by
    rw [nnz_triples wI, List.length_map]
    exact (masked_unique (entries hI') eS).length_eq
  rw [hTr, hIn]
  exact .inl rfl

/-! ## Reading -/

/-- A block as it is stored -/
structure IsBlock (m n : Nat) (es : List (Nat × Nat × ℚ)) (b : CSC ℚ × CSR ℚ) : Prop where
  wC : b.1.WF
  rC : b.1.rows = m
  cC : b.1.cols = n
  sC : b.1.SortedCols
  w : b.2.WF
  r : b.2.rows = m
  c : b.2.cols = n
  perm : (triples b.2).Perm es
  s : b.2.SortedRows
  same : SameMat b.2 b.1

theorem file_ints {neg : ℚ → ℚ} {t : List Char} {m n : Nat} {es : List (Nat × Nat × ℚ)} (h : FileOf (fun z : ℤ => (z : ℚ)) neg t m n es) : Ints es := by
  obtain ⟨t, es0, hd, rfl, -, hk, -⟩ := h
  have h0 : Ints es0 := by
    intro e he
    have : ∀ (ls : List (List Char)) (es : List (Nat × Nat × ℚ)), List.Forall₂ (EntryLine (IntVal fun z : ℤ => (z : ℚ)) ((1 : ℤ) : ℚ)) ls es →
        ∀ e ∈ es, ∃ z : ℤ, e.2.2 = z := by
      intro ls es h
      induction h with
      | nil => simp
      | cons h _ ih =>
        intro e he
        rcases List.mem_cons.1 he with rfl | he
        · cases h with
          | pattern => exact ⟨1, rfl⟩
          | value _ _ _ _ _ _ _ _ h => exact ⟨h.choose, h.choose_spec.2⟩
        · exact ih e he
    exact this _ _ hd.entries e he
  intro e he
  unfold fullEntries at he
  split at he
  · exact h0 e he
  · rcases List.mem_append.1 he with he | he
    · exact h0 e he
    · obtain ⟨x, hx, rfl⟩ := List.mem_map.1 he
      exact h0 x (List.mem_filter.1 hx).1
  · rename_i hs
    exact absurd hs hk

theorem file_bounds {neg : ℚ → ℚ} {t : List Char} {m n : Nat} {es : List (Nat × Nat × ℚ)} (h : FileOf (fun z : ℤ => (z : ℚ)) neg t m n es) :
    ∀ e ∈ es, e.1 < m ∧ e.2.1 < n := by
  obtain ⟨t, es0, hd, rfl, -, hk, -⟩ := h
  intro e he
  unfold fullEntries at he
  split at he
  · exact hd.inBounds e he
  · rename_i hs
    rcases List.mem_append.1 he with he | he
    · exact hd.inBounds e he
    · obtain ⟨x, hx, rfl⟩ := List.mem_map.1 he
      have := hd.inBounds x (List.mem_filter.1 hx).1
      have := hd.square (by rw [hs]; simp)
      simp only
      omega
  · rename_i hs
    exact absurd hs hk

/-- The files describe the blocks. -/
structure BlockFiles (neg : ℚ → ℚ) (g : Nat) (w : Nat → Nat) (es : Nat → Nat → List (Nat × Nat × ℚ)) (files : Nat → Nat → Option (List Char))
    (orders : Nat → Nat → List Nat) : Prop where
  files : ∀ i < g, ∀ j < g, ∃ t, files i j = some t ∧ FileOf (fun z : ℤ => (z : ℚ)) neg t (w i) (w j) (es i j)
  orders : ∀ i < g, ∀ j < g, (orders i j).Perm (List.range (w j))

variable {neg : ℚ → ℚ} {g : Nat} {w : Nat → Nat} {es : Nat → Nat → List (Nat × Nat × ℚ)} {files : Nat → Nat → Option (List Char)}
  {orders : Nat → Nat → List Nat} {sortf : List (Nat × ℚ) → List (Nat × ℚ)} {nd : Nat}

theorem BlockFiles.bounded (h : BlockFiles neg g w es files orders) : Blocked.Bounded g w es := by
  intro i hi j hj e he
  obtain ⟨t, -, ht⟩ := h.files i hi j hj
  exact file_bounds ht e he

theorem BlockFiles.nodup (h : BlockFiles neg g w es files orders) : ∀ i < g, ∀ j < g, ((es i j).map fun e => (e.1, e.2.1)).Nodup := by
  intro i hi j hj
  obtain ⟨t, -, _, _, _, _, _, _, _, _, h⟩ := h.files i hi j hj
  exact h

theorem load_ok (hsort : SortsBy Prod.fst sortf) (h : BlockFiles neg g w es files orders) :
    ∃ X : Nat → Nat → CSC ℚ × CSR ℚ, load sortf g g orders files = .ok ((List.range g).map fun i => (List.range g).map fun j => X i j) ∧
      ∀ i < g, ∀ j < g, IsBlock (w i) (w j) (es i j) (X i j) := by
  have : ∀ i j, ∃ b : CSC ℚ × CSR ℚ, i < g → j < g → readBlock sortf (orders i j) (files i j) = .ok b ∧ IsBlock (w i) (w j) (es i j) b := by
    intro i j
    by_cases hij : i < g ∧ j < g
    · obtain ⟨t, et, ht⟩ := h.files i hij.1 j hij.2
      obtain ⟨Ac, A, T, a1, a2, -, a4, a5, a6, -, a8, a9, a10, a11, a12, a13, a14⟩ := MaskedAll.read_file hsort ht (h.orders i hij.1 j hij.2)
      refine ⟨(Ac, A), fun _ _ => ⟨?_, a4, a5, a6, a8, a9, a10, a11, a12, a13, a14⟩⟩
      unfold readBlock
      rw [et, a1, ok_bind, a2, ok_bind]
    · exact ⟨(⟨0, 0, 0, [], [], [], true⟩, Intersect.emptyCSR), fun hi hj => absurd ⟨hi, hj⟩ hij⟩
  choose X hX using this
  refine ⟨X, ?_, fun i hi j hj => (hX i j hi hj).2⟩
  unfold load
  refine mapM_ok fun i hi => mapM_ok fun j hj => ?_
  rw [List.mem_range] at hi hj
  exact (hX i j hi hj).1

theorem blockAt_eq (X : Nat → Nat → CSC ℚ × CSR ℚ) {i j : Nat} (hi : i < g) (hj : j < g) :
    blockAt ((List.range g).map fun i => (List.range g).map fun j => X i j) i j = .ok (X i j) := by
  unfold blockAt
  rw [rd_of_getElem? (x := (List.range g).map fun j => X i j) (by simp [hi]), ok_bind, rd_of_getElem? (x := X i j) (by simp [hj])]

/-! ## All iterations -/

theorem digits {g q : Nat} (h : q < g * g * g) : q / (g * g) < g ∧ q / g % g < g ∧ q % g < g := by
  have hg : 0 < g := by
    rcases Nat.eq_zero_or_pos g with rfl | h0
    · simp at h
    · exact h0
  refine ⟨?_, Nat.mod_lt _ hg, Nat.mod_lt _ hg⟩
  rw [Nat.div_lt_iff_lt_mul (Nat.mul_pos hg hg)]
  rw [Nat.mul_assoc] at h
  exact h

theorem digits_inj {g q q' : Nat} (h1 : q / (g * g) = q' / (g * g)) (h2 : q / g % g = q' / g % g) (h3 : q % g = q' % g) : q = q' := by
  rw [← Nat.div_div_eq_div_mul, ← Nat.div_div_eq_div_mul] at h1
  have : q / g = q' / g := by rw [← Nat.div_add_mod (q / g) g, h1, h2, Nat.div_add_mod]
  rw [← Nat.div_add_mod q g, this, h3, Nat.div_add_mod]

theorem of_digits {g i j k : Nat} (hi : i < g) (hj : j < g) (hk : k < g) :
    ∃ q < g * g * g, q / (g * g) = i ∧ q / g % g = j ∧ q % g = k := by
  have hg : 0 < g := by omega
  have e1 : ((i * g + j) * g + k) / g = i * g + j := by
    rw [Nat.add_comm, Nat.add_mul_div_right _ _ hg, Nat.div_eq_of_lt hk, Nat.zero_add]
  have e2 : (i * g + j) / g = i := by
    rw [Nat.add_comm, Nat.add_mul_div_right _ _ hg, Nat.div_eq_of_lt hj, Nat.zero_add]
  refine ⟨(i * g + j) * g + k, ?_, ?_, ?_, ?_⟩
  · have h1 : i * g + j < g * g := by
      have : (i + 1) * g ≤ g * g := Nat.mul_le_mul_right g hi
      rw [Nat.succ_mul] at this
      omega
    have : (i * g + j + 1) * g ≤ g * g * g := Nat.mul_le_mul_right g h1
    rw [Nat.succ_mul] at this
    omega
  · rw [← Nat.div_div_eq_div_mul, e1, e2]
  · rw [e1, Nat.add_comm, Nat.add_mul_mod_self_right, Nat.mod_eq_of_lt hj]
  · rw [Nat.add_comm, Nat.add_mul_mod_self_right, Nat.mod_eq_of_lt hk]

theorem sum_mul {S : Type} [AddCommMonoid S] (a b : Nat) (F : Nat → Nat → S) :
    ∑ q ∈ Finset.range (a * b), F (q / b) (q % b) = ∑ i ∈ Finset.range a, ∑ j ∈ Finset.range b, F i j := by
  induction a with
  | zero => simp
  | succ a ih =>
    rw [Nat.succ_mul, Finset.sum_range_add, ih, Finset.sum_range_succ]
    congr 1
    refine Finset.sum_congr rfl fun j hj => ?_
    rw [Finset.mem_range] at hj
    rw [Nat.add_comm, Nat.add_mul_div_right _ _ (by omega), Nat.add_mul_mod_self_right, Nat.div_eq_of_lt hj, Nat.mod_eq_of_lt hj, Nat.zero_add]

theorem sum_digits {S : Type} [AddCommMonoid S] (g : Nat) (F : Nat → Nat → Nat → S) :
    ∑ q ∈ Finset.range (g * g * g), F (q / (g * g)) (q / g % g) (q % g) =
      ∑ i ∈ Finset.range g, ∑ j ∈ Finset.range g, ∑ k ∈ Finset.range g, F i j k := by
  simp only [← Nat.div_div_eq_div_mul]
  rw [sum_mul (g * g) g fun a k => F (a / g) (a % g) k, sum_mul g g fun i j => ∑ k ∈ Finset.range g, F i j k]

theorem fill_gives {st : Prop} {f : Nat → Res (Option Counts)} {c : Nat → Counts} {N : Nat} :
    ∀ (order : List Nat) (d : Nat → Counts), (∀ q ∈ order, q < N ∧ Gives st (c q) (f q)) →
      Gives st (tab N fun q => if q ∈ order then c q else d q) (fill f order (tab N d)) := by
  intro order
  induction order with
  | nil => intro d _; exact .inl (by simp [fill])
  | cons q order ih =>
    intro d h
    unfold fill
    refine andThen_gives (h q (by simp)).2 ?_
    rw [wr_tab (h q (by simp)).1, ok_bind]
    have := ih (upd d q (c q)) fun x hx => h x (by simp [hx])
    have e : (fun x => if x ∈ q :: order then c x else d x) = fun x => if x ∈ order then c x else upd d q (c q) x := by
      funext x
      by_cases hx : x ∈ order
      · rw [if_pos (by simp [hx]), if_pos hx]
      · by_cases hq : x = q
        · subst hq
          rw [if_pos (by simp), if_neg hx, upd_same]
        · rw [if_neg (by simp [hx, hq]), if_neg hx, upd_ne _ _ hq]
    rw [e]
    exact this

theorem totals_tab (c : Nat → Counts) (N : Nat) : totals (tab N c) =
    ⟨∑ q ∈ Finset.range N, (c q).flps, ∑ q ∈ Finset.range N, (c q).nnzs, ∑ q ∈ Finset.range N, (c q).masked, ∑ q ∈ Finset.range N, (c q).inner,
      ∑ q ∈ Finset.range N, (c q).triangles⟩ := by
  unfold totals
  induction N with
  | zero => rfl
  | succ N ih =>
    have : tab (N + 1) c = tab N c ++ [c N] := by
      unfold tab
      rw [List.range_succ, List.map_append]
      rfl
    rw [this, List.foldl_append, ih]
    simp only [List.foldl_cons, List.foldl_nil, Finset.sum_range_succ]

/-- What the iterations need beyond the files: blocks with at least one row, few rows, and columns that fit into every block -/
structure Fits (g : Nat) (w : Nat → Nat) (es : Nat → Nat → List (Nat × Nat × ℚ)) : Prop where
  pos : ∀ i < g, 0 < w i
  small : ∀ i < g, w i + 1 < 2 ^ 17
  cols : ∀ i < g, ∀ k < g, ∀ e ∈ es i k, ∀ j < g, e.2.1 < w j

theorem mats {X : Nat → Nat → CSC ℚ × CSR ℚ} (hX : ∀ i < g, ∀ j < g, IsBlock (w i) (w j) (es i j) (X i j)) {i j k : Nat} (hi : i < g) (hj : j < g)
    (hk : k < g) : Mats (w i) (w k) (w j) (es i k) (es k j) (es i j) (X i k).2 (X k j).2 (X i j).2 (X k j).1 :=
  ⟨(hX i hi k hk).w, (hX k hk j hj).w, (hX i hi j hj).w, (hX k hk j hj).wC, (hX i hi k hk).r, (hX i hi k hk).c, (hX k hk j hj).r, (hX k hk j hj).c,
    (hX i hi j hj).r, (hX i hi j hj).c, (hX i hi k hk).perm, (hX k hk j hj).perm, (hX i hi j hj).perm, (hX i hi k hk).s, (hX k hk j hj).s, (hX i hi j hj).s,
    (hX k hk j hj).sC, (hX k hk j hj).same⟩

/-- The run of the program -/
theorem main_gives (hsort : SortsBy Prod.fst sortf) (hnd : 0 < nd) (h : BlockFiles neg g w es files orders) (hfit : Fits g w es) :
    ∃ (c : Nat → Counts) (P : Nat → List (Nat × Nat)) (L : Nat → List (Nat × Nat × ℚ)),
      (∀ q < g * g * g, CellOk (es (q / (g * g)) (q % g)) (es (q % g) (q / g % g)) (es (q / (g * g)) (q / g % g)) (c q) (P q) (L q)) ∧
      ∀ order, order.Perm (List.range (g * g * g)) → ∀ sch : Nat → Sch, (∀ q < g * g * g, Adm (w (q / (g * g))) (sch q)) →
        Gives (∀ q < g * g * g, FairSch (sch q)) (totals (tab (g * g * g) c)) (main sortf nd g g orders files order sch) := by
  obtain ⟨X, e, hX⟩ := load_ok hsort h
  have hint : ∀ i < g, ∀ j < g, Ints (es i j) := by
    intro i hi j hj
    obtain ⟨t, -, ht⟩ := h.files i hi j hj
    exact file_ints ht
  have key : ∀ q, ∃ c P L, q < g * g * g → CellOk (es (q / (g * g)) (q % g)) (es (q % g) (q / g % g)) (es (q / (g * g)) (q / g % g)) c P L ∧
      ∀ s, Adm (w (q / (g * g))) s → Gives (FairSch s) c (cell sortf nd (X (q / (g * g)) (q % g)).2 (X (q % g) (q / g % g)).2 (X (q / (g * g)) (q / g % g)).2
        (X (q % g) (q / g % g)).1 s) := by
    intro q
    by_cases hq : q < g * g * g
    · obtain ⟨hi, hj, hk⟩ := digits hq
      obtain ⟨c, P, L, h1, h2⟩ := cell_gives hsort hnd (mats hX hi hj hk) (hfit.pos _ hi) (hfit.small _ hi) (fun e he => hfit.cols _ hi _ hk e he _ hj)
        (hint _ hi _ hk) (hint _ hk _ hj)
      exact ⟨c, P, L, fun _ => ⟨h1, h2⟩⟩
    · exact ⟨⟨0, 0, 0, 0, 0⟩, [], [], fun h => absurd h hq⟩
  choose c P L hc using key
  refine ⟨c, P, L, fun q hq => (hc q hq).1, fun order ho sch hadm => ?_⟩
  unfold main
  rw [check, if_pos (by simp), ok_bind, e, ok_bind]
  refine andThen_gives (a := tab (g * g * g) c) ?_ (.inl rfl)
  rw [Conv.replicate_eq_tab]
  have := fill_gives (st := ∀ q < g * g * g, FairSch (sch q)) (N := g * g * g) (c := c)
    (f := iteration sortf nd g ((List.range g).map fun i => (List.range g).map fun j => X i j) sch) order (fun _ => ⟨0, 0, 0, 0, 0⟩) (by
    intro q hq
    have hq : q < g * g * g := List.mem_range.1 (ho.mem_iff.1 hq)
    refine ⟨hq, ?_⟩
    obtain ⟨hi, hj, hk⟩ := digits hq
    unfold iteration
    rw [blockAt_eq X hi hk, ok_bind, blockAt_eq X hk hj, ok_bind, blockAt_eq X hi hj, ok_bind]
    exact MaskedAll.Gives.weaken ((hc q hq).2 _ (hadm q hq)) fun h => h q hq)
  have e2 : (tab (g * g * g) fun q => if q ∈ order then c q else ⟨0, 0, 0, 0, 0⟩) = tab (g * g * g) c :=
    tab_ext fun q hq => if_pos (ho.mem_iff.2 (List.mem_range.2 hq))
  rw [e2] at this
  exact this

/-! ## Counts of positions -/

/-- The positions that the iterations count, in the whole matrix, with the number of the block in the middle -/
theorem count_positions (hb : Blocked.Bounded g w es) {P : Nat → List (Nat × Nat)} {p : Nat → Nat → Prop}
    (hnd : ∀ q < g * g * g, (P q).Nodup)
    (hmem : ∀ q < g * g * g, ∀ x, x ∈ P q ↔ p (blockStart w (q / (g * g)) + x.1) (blockStart w (q / g % g) + x.2) ∧
      ∃ y, Stored (es (q / (g * g)) (q % g)) x.1 y ∧ Stored (es (q % g) (q / g % g)) y x.2) :
    {t : Nat × Nat × Nat | p t.1 t.2.1 ∧ Through w (assembled g w es) t.1 t.2.1 t.2.2}.ncard = ∑ q ∈ Finset.range (g * g * g), (P q).length := by
  have bound : ∀ {i j r c}, i < g → j < g → Stored (es i j) r c → r < w i ∧ c < w j := by
    rintro i j r c hi hj ⟨e, he, e2⟩
    have := hb i hi j hj e he
    cases e2
    exact this
  rw [Blocked.ncard_list (l := (List.range (g * g * g)).flatMap fun q => (P q).map fun x =>
    (blockStart w (q / (g * g)) + x.1, blockStart w (q / g % g) + x.2, q % g))]
  · rw [List.length_flatMap, Blocked.sum_range]
    simp only [List.length_map]
  · rw [List.nodup_flatMap]
    constructor
    · intro q hq
      refine (hnd q (List.mem_range.1 hq)).map fun x y e => ?_
      simp only [Prod.mk.injEq, Nat.add_left_cancel_iff] at e
      exact Prod.ext e.1 e.2.1
    · refine List.Pairwise.imp_of_mem (R := (· ≠ ·)) ?_ List.nodup_range
      intro q q' hq hq' hne t ht ht'
      rw [List.mem_range] at hq hq'
      obtain ⟨x, hx, rfl⟩ := List.mem_map.1 ht
      obtain ⟨y, hy, e⟩ := List.mem_map.1 ht'
      simp only [Prod.mk.injEq] at e
      obtain ⟨hi, hj, hk⟩ := digits hq
      obtain ⟨hi', hj', hk'⟩ := digits hq'
      obtain ⟨-, z, h1, h2⟩ := (hmem q hq x).1 hx
      obtain ⟨-, z', h1', h2'⟩ := (hmem q' hq' y).1 hy
      exact hne (digits_inj (Blocked.blockStart_inj (bound hi' hk' h1').1 (bound hi hk h1).1 e.1).1.symm
        (Blocked.blockStart_inj (bound hk' hj' h2').2 (bound hk hj h2).2 e.2.1).1.symm e.2.2.symm)
  · rintro ⟨u, v, k⟩
    simp only [Set.mem_ofPred_eq, List.mem_flatMap, List.mem_range, List.mem_map]
    constructor
    · rintro ⟨hp, x, hx1, hx2, hs1, hs2⟩
      obtain ⟨i, hi, k', hk', r, hr, y, hy, rfl, rfl⟩ := Blocked.stored_split hb hs1
      obtain ⟨k'', hk'', j, hj, y', hy', c, hc, e1, rfl⟩ := Blocked.stored_split hb hs2
      obtain ⟨rfl, rfl⟩ := Blocked.blockStart_inj hy hy' e1
      have hkk : k = k' := by
        rw [Blocked.blockStart_succ] at hx2
        exact (Blocked.blockStart_inj (w := w) (i := k) (r := blockStart w k' + y - blockStart w k) (by omega) hy (by omega)).1
      subst hkk
      obtain ⟨q, hq, e1, e2, e3⟩ := of_digits hi hj hk'
      refine ⟨q, hq, (r, c), ?_, by rw [e1, e2, e3]⟩
      rw [hmem q hq, e1, e2, e3]
      exact ⟨hp, y, (Blocked.stored_assembled hb hi hk' hr hy).1 hs1, (Blocked.stored_assembled hb hk' hj hy hc).1 hs2⟩
    · rintro ⟨q, hq, ⟨r, c⟩, hx, e⟩
      obtain ⟨hi, hj, hk⟩ := digits hq
      simp only [Prod.mk.injEq] at e
      obtain ⟨rfl, rfl, rfl⟩ := e
      obtain ⟨hp, y, h1, h2⟩ := (hmem q hq _).1 hx
      have b1 := bound hi hk h1
      have b2 := bound hk hj h2
      refine ⟨hp, blockStart w (q % g) + y, by omega, by rw [Blocked.blockStart_succ]; omega, ?_, ?_⟩
      · exact (Blocked.stored_assembled hb hi hk b1.1 b1.2).2 h1
      · exact (Blocked.stored_assembled hb hk hj b2.1 b2.2).2 h2

/-- A list with the entries of the masked product -/
theorem entries_of_list {E : List (Nat × Nat × ℚ)} (hnd : (E.map fun e => (e.1, e.2.1)).Nodup) : ∃ L, MaskedEntries E E E L := by
  classical
  refine ⟨(E.filter fun e => decide (∃ k, Stored E e.1 k ∧ Stored E k e.2.1)).map fun e => (e.1, e.2.1, productAt E E e.1 e.2.1), ?_, ?_⟩
  · rw [List.map_map]
    exact hnd.sublist (List.filter_sublist.map _)
  · intro i j v
    simp only [List.mem_map, List.mem_filter, decide_eq_true_eq]
    constructor
    · rintro ⟨e, ⟨he, hk⟩, e2⟩
      simp only [Prod.mk.injEq] at e2
      obtain ⟨rfl, rfl, rfl⟩ := e2
      exact ⟨⟨e, he, rfl⟩, hk, rfl⟩
    · rintro ⟨⟨e, he, e2⟩, hk, rfl⟩
      simp only [Prod.mk.injEq] at e2
      obtain ⟨rfl, rfl⟩ := e2
      exact ⟨e, ⟨he, hk⟩, rfl⟩

end Verif.Model.BlockedTc
