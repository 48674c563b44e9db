import Verif.Lemmas.GenMat
import Verif.Props.C65
import Verif.Props.C68
import Verif.Props.C89

/-! # C95: the program that writes matrices to files -/

namespace Verif.Props
open Verif Model Model.ReadIO Model.Sample
open _root_.Verif.Spec (Numeral IntNumeral IntVal Sym Field banner EntryLine SizeLine Lines MMText Describes fullEntries SortsBy triplesC triples PatternFile positions
  HasStem binaryFile IsRandomGraph)

variable {V F : Type}

/-- The files of the program for two matrices with the given sizes and entries: the left one lists the positions by columns, the right one by rows. The
last line has the numbers of entries and the number of rows. A file that cannot be opened is not written. -/
structure Writes (writable : List Char → Bool) (a2 a3 a4 : List Char) (m n : Nat) (esA : List (Nat × Nat × V)) (m' n' : Nat) (esB : List (Nat × Nat × V))
    (out : Bench.Out GenEvent) : Prop where
  ends : out.status = .ok (some ())
  files : ∃ tl tr psA psB, PatternFile tl m n psA ∧ psA.Perm (positions esA) ∧ psA.Pairwise (fun p q => p.2 ≤ q.2) ∧
    PatternFile tr m' n' psB ∧ psB.Perm (positions esB) ∧ psB.Pairwise (fun p q => p.1 ≤ q.1) ∧
    out.events =
      (if writable ("assets/left_".toList ++ a2 ++ a3 ++ "_".toList ++ a4 ++ ".mtx".toList) then
        [.file ("assets/left_".toList ++ a2 ++ a3 ++ "_".toList ++ a4 ++ ".mtx".toList) tl] else []) ++
      (if writable ("assets/right_".toList ++ a2 ++ a3 ++ "_".toList ++ a4 ++ ".mtx".toList) then
        [.file ("assets/right_".toList ++ a2 ++ a3 ++ "_".toList ++ a4 ++ ".mtx".toList) tr] else []) ++
      [.summary esA.length esB.length m]

theorem positions_length (es : List (Nat × Nat × V)) : (positions es).length = es.length := by
  unfold positions
  rw [List.length_map]

theorem blocks_pairwise {α : Type} (f : Nat → List α) (key : α → Nat) (hk : ∀ i, ∀ x ∈ f i, key x = i) (n : Nat) :
    ((List.range n).flatMap f).Pairwise fun p q => key p ≤ key q := by
  rw [List.pairwise_flatMap]
  constructor
  · intro i _
    rw [List.pairwise_iff_forall_sublist]
    intro a b hab
    rw [hk i a (hab.subset (by simp)), hk i b (hab.subset (by simp))]
  · refine List.pairwise_lt_range.imp fun {i j} hij x hx y hy => ?_
    rw [hk i x hx, hk j y hy]
    omega

theorem fileName_eq (side : List Char) (a1 a2 a3 a4 : List Char) (rest : List (List Char)) :
    fileName side (a1 :: a2 :: a3 :: a4 :: rest) = .ok ("assets/".toList ++ side ++ "_".toList ++ a2 ++ a3 ++ "_".toList ++ a4 ++ ".mtx".toList) := rfl

theorem left_name : "assets/".toList ++ "left".toList ++ "_".toList = "assets/left_".toList := by decide +kernel
theorem right_name : "assets/".toList ++ "right".toList ++ "_".toList = "assets/right_".toList := by decide +kernel

/-- C95, the left file: of a well-formed matrix with as many rows as columns it has the positions of all entries, column by column. -/
theorem C95_left_partial {A : CSC V} (h : A.WF) (hsq : A.rows = A.cols) :
    ∃ text, leftText A = .ok text ∧ PatternFile text A.rows A.cols (positions (triplesC A)) := by
  refine ⟨_, leftText_eq h (by omega), ?_⟩
  rw [hsq, posCols_eq h, ← hsq]
  have hb := posCols_bounds h (r := A.cols)
  have hl := posCols_length h A.cols (Nat.le_refl _)
  rw [posCols_eq h] at hb hl
  rw [h.ptrLast] at hl
  rw [← hl, hsq]
  rw [hsq] at hb
  exact fileText_pattern hb

/-- C95, the right file: of a well-formed matrix it has the positions of all entries, row by row. -/
theorem C95_right {B : CSR V} (h : B.WF) : ∃ text, rightText B = .ok text ∧ PatternFile text B.rows B.cols (positions (triples B)) := by
  refine ⟨_, rightText_eq h, ?_⟩
  have hb := posRows_bounds h
  have hl := posRows_length h
  rw [posRows_eq h] at hb hl ⊢
  rw [← hl]
  exact fileText_pattern hb

theorem parts_noComment (m n k : Nat) (ps : List (Nat × Nat)) : ¬MisleadingComment (parts m n k ps) := by
  rintro ⟨_, c, hc, _⟩
  cases hc

theorem fileText_read {ofInt : Int → V} {sortf : List (Nat × V) → List (Nat × V)} (hsort : SortsBy Prod.fst sortf) {m n : Nat} {ps : List (Nat × Nat)}
    (hb : ∀ p ∈ ps, p.1 < m ∧ p.2 < n) (hm : m < 2 ^ 31) (hn : n < 2 ^ 31) (hk : ps.length < 2 ^ 31) {order : List Nat}
    (ho : order.Perm (List.range n)) :
    ∃ C, readASCII sortf order ofInt (some (fileText m n ps.length ps)) = .ok C ∧ C.WF ∧ C.rows = m ∧ C.cols = n ∧
      (triplesC C).Perm (ps.map fun p => (p.1, p.2, ofInt 1)) ∧ ∀ j < n, (C.colRows j).Pairwise (· ≤ ·) :=
  C65_partial (ofInt := ofInt) id hsort (parts_describes (IntVal ofInt) (ofInt 1) hb) (parts_short hm hn hk hb) (by simp [parts]) (parts_noComment _ _ _ _)
    (.inl ⟨[], by rw [fileText_lines, List.append_nil]⟩) ho

/-- C95, reading a left file with `ReadASCII` gives a matrix of the same size with entries at the same positions and ones as values. -/
theorem C95_roundtrip_left_partial {A : CSC V} (h : A.WF) (hsq : A.rows = A.cols) (hm : A.rows < 2 ^ 31) (hk : A.nnz < 2 ^ 31) {W : Type} {ofInt : Int → W}
    {sortf : List (Nat × W) → List (Nat × W)} (hsort : SortsBy Prod.fst sortf) {order : List Nat} (ho : order.Perm (List.range A.cols)) :
    ∃ text C, leftText A = .ok text ∧ readASCII sortf order ofInt (some text) = .ok C ∧ C.WF ∧ C.rows = A.rows ∧ C.cols = A.cols ∧
      (triplesC C).Perm ((triplesC A).map fun e => (e.1, e.2.1, ofInt 1)) := by
  have hb := posCols_bounds h (r := A.cols)
  have hl := posCols_length h A.cols (Nat.le_refl _)
  rw [h.ptrLast] at hl
  obtain ⟨C, h1, h2, h3, h4, h5, _⟩ := fileText_read (ofInt := ofInt) hsort hb hm (by omega) (by omega) ho
  rw [hl] at h1
  refine ⟨_, C, leftText_eq h (by omega), ?_, h2, h3, h4, ?_⟩
  · rw [hsq]
    rw [hsq] at h1
    exact h1
  · rw [posCols_eq h] at h5
    simpa only [positions, List.map_map, Function.comp_def] using h5

/-- The same for the right file, for matrices of any shape. -/
theorem C95_roundtrip_right {B : CSR V} (h : B.WF) (hm : B.rows < 2 ^ 31) (hn : B.cols < 2 ^ 31) (hk : B.nnz < 2 ^ 31) {W : Type} {ofInt : Int → W}
    {sortf : List (Nat × W) → List (Nat × W)} (hsort : SortsBy Prod.fst sortf) {order : List Nat} (ho : order.Perm (List.range B.cols)) :
    ∃ text C, rightText B = .ok text ∧ readASCII sortf order ofInt (some text) = .ok C ∧ C.WF ∧ C.rows = B.rows ∧ C.cols = B.cols ∧
      (triplesC C).Perm ((triples B).map fun e => (e.1, e.2.1, ofInt 1)) := by
  have hb := posRows_bounds h
  have hl := posRows_length h
  obtain ⟨C, h1, h2, h3, h4, h5, _⟩ := fileText_read (ofInt := ofInt) hsort hb hm hn (by omega) ho
  rw [hl] at h1
  refine ⟨_, C, rightText_eq h, h1, h2, h3, h4, ?_⟩
  rw [posRows_eq h] at h5
  simpa only [positions, List.map_map, Function.comp_def] using h5

theorem gen_run {env : Env V F} (writable : List Char → Bool) {a1 a2 a3 a4 : List Char} {rest : List (List Char)} {oA oB : List Nat} {A B : CSC V}
    (hi : setInput env (a1 :: a2 :: a3 :: a4 :: rest) oA oB = .ok (A, B)) (hA : A.WF) (hB : B.WF) (hsq : A.rows = A.cols) {esA esB : List (Nat × Nat × V)}
    (pA : (triplesC A).Perm esA) (pB : (triplesC B).Perm esB) :
    Writes writable a2 a3 a4 A.rows A.cols esA B.rows B.cols esB (genMain env writable (a1 :: a2 :: a3 :: a4 :: rest) oA oB) := by
  obtain ⟨C, e1, hC, hr, hc, hp, _⟩ := C21_csc_to_csr (env.ofInt 0) hB
  obtain ⟨tl, e2, f2⟩ := C95_left_partial hA hsq
  obtain ⟨tr, e3, f3⟩ := C95_right hC
  have nA : A.nnz = esA.length := by
    rw [← pA.length_eq, ← positions_length, ← posCols_eq hA, posCols_length hA _ (Nat.le_refl _), hA.ptrLast]
  have nB : C.nnz = esB.length := by
    rw [← pB.length_eq, ← hp.length_eq, ← positions_length, ← posRows_eq hC, posRows_length hC]
  have e : genMain env writable (a1 :: a2 :: a3 :: a4 :: rest) oA oB =
      ⟨(if writable ("assets/left_".toList ++ a2 ++ a3 ++ "_".toList ++ a4 ++ ".mtx".toList) then
        [.file ("assets/left_".toList ++ a2 ++ a3 ++ "_".toList ++ a4 ++ ".mtx".toList) tl] else []) ++
      (if writable ("assets/right_".toList ++ a2 ++ a3 ++ "_".toList ++ a4 ++ ".mtx".toList) then
        [.file ("assets/right_".toList ++ a2 ++ a3 ++ "_".toList ++ a4 ++ ".mtx".toList) tr] else []) ++
      [.summary A.nnz C.nnz A.rows], .ok (some ())⟩ := by
    unfold genMain
    rw [if_neg (by simp), hi]
    simp only [ok_bind, e1]
    unfold writeFile
    rw [fileName_eq, fileName_eq, e2, e3, left_name, right_name]
    simp only [ok_bind, Bench.Out.seq]
    simp
  rw [e]
  refine ⟨rfl, tl, tr, positions (triplesC A), positions (triples C), f2, pA.map _, ?_, by rw [← hr, ← hc]; exact f3, (hp.trans pB).map _, ?_, by rw [nA, nB]⟩
  · rw [← posCols_eq hA]
    exact blocks_pairwise _ _ (by intro i x hx; obtain ⟨_, _, rfl⟩ := List.mem_map.1 hx; rfl) _
  · rw [← posRows_eq hC]
    exact blocks_pairwise _ _ (by intro i x hx; obtain ⟨_, _, rfl⟩ := List.mem_map.1 hx; rfl) _

/-! ### Text files -/

/-- A text file from which `ReadASCII` reads the matrix that it describes, see C65 -/
structure GoodText (ofInt : Int → V) (neg : V → V) (file : Option (List Char)) (m n : Nat) (es : List (Nat × Nat × V)) : Prop where
  good : ∃ t es' text, file = some text ∧ Describes (IntVal ofInt) (ofInt 1) t m n es' ∧ (∀ l ∈ t.lines, l.length ≤ 255) ∧ t.sym ≠ .skew ∧
    ¬MisleadingComment t ∧ Lines t.lines text ∧ es = fullEntries neg t.sym es'

theorem GoodText.read {ofInt : Int → V} {neg : V → V} {file : Option (List Char)} {m n : Nat} {es : List (Nat × Nat × V)} (h : GoodText ofInt neg file m n es)
    {sortf : List (Nat × V) → List (Nat × V)} (hsort : SortsBy Prod.fst sortf) {order : List Nat} (ho : order.Perm (List.range n)) :
    ∃ C, readASCII sortf order ofInt file = .ok C ∧ C.WF ∧ C.rows = m ∧ C.cols = n ∧ (triplesC C).Perm es := by
  obtain ⟨t, es', text, rfl, h1, h2, h3, h4, h5, rfl⟩ := h.good
  obtain ⟨C, g1, g2, g3, g4, g5, _⟩ := C65_partial neg hsort h1 h2 h3 h4 h5 ho
  exact ⟨C, g1, g2, g3, g4, g5⟩

theorem input_text {env : Env V F} (hsort : SortsBy Prod.fst env.sortf) {neg : V → V} {a1 a2 a3 : List Char} {rest : List (List Char)} {oA oB : List Nat}
    (h1 : a1 ≠ "gen".toList) (h2 : a1 ≠ "binary".toList) {m n m' n' : Nat} {esA esB : List (Nat × Nat × V)}
    (hA : GoodText env.ofInt neg (env.text a2) m n esA) (hB : GoodText env.ofInt neg (env.text a3) m' n' esB) (oA' : oA.Perm (List.range n))
    (oB' : oB.Perm (List.range n')) :
    ∃ A B, (setInput env (a1 :: a2 :: a3 :: rest) oA oB = do
        let _ ← inputName a2
        .ok (A, B)) ∧ A.WF ∧ A.rows = m ∧ A.cols = n ∧ (triplesC A).Perm esA ∧ B.WF ∧ B.rows = m' ∧ B.cols = n' ∧ (triplesC B).Perm esB := by
  obtain ⟨A, e1, g1, g2, g3, g4⟩ := hA.read hsort oA'
  obtain ⟨B, e2, k1, k2, k3, k4⟩ := hB.read hsort oB'
  refine ⟨A, B, ?_, g1, g2, g3, g4, k1, k2, k3, k4⟩
  unfold setInput
  simp only [rd, List.getElem?_cons_zero, List.getElem?_cons_succ, ok_bind]
  rw [if_neg h1, if_neg h2, e1, ok_bind, e2, ok_bind]

/-- C95 for text files: with four arguments, a name with a stem for the first file, and a square left matrix, the program ends and writes the positions of
the entries of both matrices. What is missing is shown by `C95_violated_…`. -/
theorem C95_text_partial {env : Env V F} (hsort : SortsBy Prod.fst env.sortf) (writable : List Char → Bool) {neg : V → V} {a1 a2 a3 a4 : List Char}
    {rest : List (List Char)} {oA oB : List Nat} (h1 : a1 ≠ "gen".toList) (h2 : a1 ≠ "binary".toList) (hn : HasStem a2) {m m' n' : Nat}
    {esA esB : List (Nat × Nat × V)} (hA : GoodText env.ofInt neg (env.text a2) m m esA) (hB : GoodText env.ofInt neg (env.text a3) m' n' esB)
    (oA' : oA.Perm (List.range m)) (oB' : oB.Perm (List.range n')) :
    Writes writable a2 a3 a4 m m esA m' n' esB (genMain env writable (a1 :: a2 :: a3 :: a4 :: rest) oA oB) := by
  obtain ⟨A, B, e, g1, g2, g3, g4, k1, k2, k3, k4⟩ := input_text hsort (rest := a4 :: rest) h1 h2 hA hB oA' oB'
  obtain ⟨s, es⟩ := inputName_ok hn
  rw [es, ok_bind] at e
  have := gen_run writable e g1 k1 (by omega) g4 k4
  rwa [g2, g3, k2, k3] at this

/-! ### Binary files -/

theorem input_binary {env : Env V F} {a2 a3 : List Char} {rest : List (List Char)} {oA oB : List Nat} {x y : Option (CSC V)}
    (h1 : ReadBin.readBinary env.sortf oA (env.ofInt 0) env.decV env.si env.sv (env.bin a2) = .ok x)
    (h2 : ReadBin.readBinary env.sortf oB (env.ofInt 0) env.decV env.si env.sv (env.bin a3) = .ok y) :
    setInput env ("binary".toList :: a2 :: a3 :: rest) oA oB = .ok (x.getD emptyC, y.getD emptyC) := by
  unfold setInput readB
  simp only [rd, List.getElem?_cons_zero, List.getElem?_cons_succ, ok_bind]
  rw [if_neg (by decide +kernel), if_pos trivial, h1, ok_bind, ok_bind, h2, ok_bind, ok_bind]

/-- A binary file that `ReadBinary` accepts, see C68 -/
structure GoodBinary (decV : List UInt8 → V) (si sv : Nat) (file : Option (List UInt8)) (m n : Nat) (es : List (Nat × Nat × V)) : Prop where
  good : ∃ es' tail, file = some (binaryFile si m n es' ++ tail) ∧ 0 < si ∧ 0 < sv ∧ es' ≠ [] ∧ (∀ e ∈ es', e.2.2.length = sv) ∧
    (∀ e ∈ es', e.1 < m ∧ e.2.1 < n) ∧ 2 * m < 256 ^ si ∧ 2 * n < 256 ^ si ∧ 2 * es'.length < 256 ^ si ∧ es = es'.map fun e => (e.1, e.2.1, decV e.2.2)

theorem GoodBinary.read {decV : List UInt8 → V} {si sv : Nat} {file : Option (List UInt8)} {m n : Nat} {es : List (Nat × Nat × V)}
    (h : GoodBinary decV si sv file m n es) {sortf : List (Nat × V) → List (Nat × V)} (hsort : SortsBy Prod.fst sortf) (dflt : V) {order : List Nat}
    (ho : order.Perm (List.range n)) :
    ∃ C, ReadBin.readBinary sortf order dflt decV si sv file = .ok (some C) ∧ C.WF ∧ C.rows = m ∧ C.cols = n ∧ (triplesC C).Perm es := by
  obtain ⟨es', tail, rfl, h1, h2, h3, h4, h5, h6, h7, h8, rfl⟩ := h.good
  obtain ⟨C, g1, g2, g3, g4, g5, _⟩ := C68_partial hsort dflt decV h1 h2 h3 h4 h5 h6 h7 h8 tail ho
  exact ⟨C, g1, g2, g3, g4, g5⟩

/-- C95 for binary files. The names do not matter. What is missing is shown by `C95_violated_…`. -/
theorem C95_binary_partial {env : Env V F} (hsort : SortsBy Prod.fst env.sortf) (writable : List Char → Bool) {a2 a3 a4 : List Char}
    {rest : List (List Char)} {oA oB : List Nat} {m m' n' : Nat} {esA esB : List (Nat × Nat × V)}
    (hA : GoodBinary env.decV env.si env.sv (env.bin a2) m m esA) (hB : GoodBinary env.decV env.si env.sv (env.bin a3) m' n' esB)
    (oA' : oA.Perm (List.range m)) (oB' : oB.Perm (List.range n')) :
    Writes writable a2 a3 a4 m m esA m' n' esB (genMain env writable ("binary".toList :: a2 :: a3 :: a4 :: rest) oA oB) := by
  obtain ⟨A, e1, g1, g2, g3, g4⟩ := hA.read hsort (env.ofInt 0) oA'
  obtain ⟨B, e2, k1, k2, k3, k4⟩ := hB.read hsort (env.ofInt 0) oB'
  have e := input_binary (rest := a4 :: rest) e1 e2
  have := gen_run writable e g1 k1 (by simp only [Option.getD_some]; omega) g4 k4
  simp only [Option.getD_some] at this
  rwa [g2, g3, k2, k3] at this

/-- C95 is violated by binary files that are rejected, for example missing files: the program reports nothing and writes two files of matrices without rows
and columns. -/
theorem C95_violated_binary {env : Env V F} (writable : List Char → Bool) {a2 a3 a4 : List Char} {rest : List (List Char)} (oA oB : List Nat)
    (h1 : ReadBin.readBinary env.sortf oA (env.ofInt 0) env.decV env.si env.sv (env.bin a2) = .ok none)
    (h2 : ReadBin.readBinary env.sortf oB (env.ofInt 0) env.decV env.si env.sv (env.bin a3) = .ok none) :
    Writes (V := V) writable a2 a3 a4 0 0 [] 0 0 [] (genMain env writable ("binary".toList :: a2 :: a3 :: a4 :: rest) oA oB) := by
  have e := input_binary (rest := a4 :: rest) h1 h2
  have hc : Conv.csrOfCsc (env.ofInt 0) (emptyC : CSC V) = .ok { rows := 0, cols := 0, nnz := 0, rowptr := [0], colids := [], values := [] } := rfl
  have f := fileText_pattern (m := 0) (n := 0) (ps := []) (by simp)
  rw [List.length_nil] at f
  have e' : genMain env writable ("binary".toList :: a2 :: a3 :: a4 :: rest) oA oB =
      ⟨(if writable ("assets/left_".toList ++ a2 ++ a3 ++ "_".toList ++ a4 ++ ".mtx".toList) then
        [.file ("assets/left_".toList ++ a2 ++ a3 ++ "_".toList ++ a4 ++ ".mtx".toList) (fileText 0 0 0 [])] else []) ++
      (if writable ("assets/right_".toList ++ a2 ++ a3 ++ "_".toList ++ a4 ++ ".mtx".toList) then
        [.file ("assets/right_".toList ++ a2 ++ a3 ++ "_".toList ++ a4 ++ ".mtx".toList) (fileText 0 0 0 [])] else []) ++
      [.summary 0 0 0], .ok (some ())⟩ := by
    unfold genMain
    rw [if_neg (by simp), e]
    simp only [ok_bind, Option.getD_none, hc]
    have tl : leftText (emptyC : CSC V) = .ok (fileText 0 0 0 []) := by
      unfold leftText emptyC fileText
      simp [forRange]
    have tr : rightText ({ rows := 0, cols := 0, nnz := 0, rowptr := [0], colids := [], values := [] } : CSR V) = .ok (fileText 0 0 0 []) := by
      unfold rightText fileText
      simp [forRange]
    unfold writeFile
    rw [fileName_eq, fileName_eq, tl, tr, left_name, right_name]
    simp only [ok_bind, Bench.Out.seq]
    simp [emptyC]
  rw [e']
  exact ⟨rfl, _, _, [], [], f, .refl _, .nil, f, .refl _, .nil, rfl⟩

/-! ### Generated matrices -/

theorem ofGraph_ok {env : Env V F} (ha : Spec.AssocComm env.add) (hs : Spec.SortsEdges env.sortE) {n m : Nat} {G : List (Nat × Nat × Int)}
    (hG : IsRandomGraph n m 0 100 G) (hm : m ≠ 0) :
    ∃ C, ofGraph env n G = .ok C ∧ C.WF ∧ C.rows = n ∧ C.cols = n ∧ (positions (triplesC C)).Nodup ∧
      ∀ p, p ∈ positions (triplesC C) ↔ p ∈ positions G := by
  obtain ⟨C, e, h⟩ := C57_csc_partial ha hs (env.ofInt 0) n (G.map fun e => (e.1, e.2.1, env.ofInt e.2.2)) (by
      intro h0
      have := congrArg List.length h0
      rw [List.length_map, hG.count] at this
      exact hm this)
    (by
      rw [List.pairwise_map]
      exact hG.sorted)
    (by
      intro x hx
      obtain ⟨y, hy, rfl⟩ := List.mem_map.1 hx
      exact hG.ends y hy)
  refine ⟨C, e, h.wf, h.rows, h.cols, ?_, ?_⟩
  · rw [← posCols_eq h.wf]
    unfold posCols
    rw [List.nodup_flatMap]
    constructor
    · intro j hj
      rw [List.mem_range, h.cols] at hj
      exact ((h.sorted j hj).imp fun h => Nat.ne_of_lt h).map (fun i => (i, j)) fun a b hab h => hab (Prod.mk.inj h).1
    · refine List.pairwise_lt_range.imp fun {i j} hij => ?_
      intro x hx hy
      obtain ⟨_, _, rfl⟩ := List.mem_map.1 hx
      obtain ⟨_, _, h⟩ := List.mem_map.1 hy
      have := (Prod.mk.inj h).2
      omega
  · rintro ⟨i, j⟩
    have h1 : (i, j) ∈ positions (triplesC C) ↔ j < n ∧ ∃ v, (i, v) ∈ C.col j := by
      unfold positions triplesC
      simp only [List.mem_map, List.mem_flatMap, List.mem_range, Prod.mk.injEq, h.cols]
      constructor
      · rintro ⟨_, ⟨j', hj', x, hx, rfl⟩, rfl, rfl⟩
        exact ⟨hj', x.2, hx⟩
      · rintro ⟨hj, v, hv⟩
        exact ⟨(i, j, v), ⟨j, hj, (i, v), hv, rfl⟩, rfl, rfl⟩
    rw [h1]
    have h2 : ∀ l : List V, (∃ v, Spec.sum1 env.add l = some v) ↔ l ≠ [] := by
      intro l
      cases l with
      | nil => simp [Spec.sum1]
      | cons a l => simp [Spec.sum1]
    constructor
    · rintro ⟨hj, v, hv⟩
      have := (h2 _).1 ⟨v, (h.entries j hj i v).1 hv⟩
      obtain ⟨w, hw⟩ := List.exists_mem_of_ne_nil _ this
      unfold Spec.weights at hw
      simp only [List.mem_map, List.mem_filter] at hw
      obtain ⟨_, ⟨⟨x, hx, rfl⟩, hd⟩, _⟩ := hw
      simp at hd
      unfold positions
      exact List.mem_map.2 ⟨x, hx, by rw [hd.1, hd.2]⟩
    · intro hp
      unfold positions at hp
      obtain ⟨x, hx, he⟩ := List.mem_map.1 hp
      obtain ⟨rfl, rfl⟩ := Prod.mk.inj he
      have hj := (hG.ends x hx).2
      refine ⟨hj, ?_⟩
      have : Spec.weights (G.map fun e => (e.1, e.2.1, env.ofInt e.2.2)) x.1 x.2.1 ≠ [] := by
        apply List.ne_nil_of_mem (a := env.ofInt x.2.2)
        unfold Spec.weights
        simp only [List.mem_map, List.mem_filter]
        exact ⟨_, ⟨⟨x, hx, rfl⟩, by simp⟩, rfl⟩
      obtain ⟨v, hv⟩ := (h2 _).2 this
      exact ⟨v, (h.entries _ hj _ v).2 hv⟩

/-- C95 for generated matrices: if the program ends, both files have the positions of the edges of random graphs with `2 ^ scale` vertices and
`2 ^ scale * factor` edges, each position once. Otherwise the generator does not end. What is missing is shown by `C95_violated_…`. -/
theorem C95_gen_partial {env : Env V F} (ha : Spec.AssocComm env.add) (hs : Spec.SortsEdges env.sortE) (hr : ∀ i, 0 ≤ env.st.s2 i ∧ env.st.s2 i < 1)
    (writable : List Char → Bool) {a2 a3 a4 : List Char} {rest : List (List Char)} (oA oB : List Nat) {scale factor : Nat} (h3 : Numeral a3 scale)
    (h4 : Numeral a4 factor) (hsc : scale ≤ 32) (hf : factor ≠ 0) :
    (∃ (GA GB : List (Nat × Nat × Int)) (esA esB : List (Nat × Nat × V)), IsRandomGraph (2 ^ scale) (2 ^ scale * factor) 0 100 GA ∧
      IsRandomGraph (2 ^ scale) (2 ^ scale * factor) 0 100 GB ∧ (positions esA).Nodup ∧ (∀ p, p ∈ positions esA ↔ p ∈ positions GA) ∧
      (positions esB).Nodup ∧ (∀ p, p ∈ positions esB ↔ p ∈ positions GB) ∧
      Writes writable a2 a3 a4 (2 ^ scale) (2 ^ scale) esA (2 ^ scale) (2 ^ scale) esB
        (genMain env writable ("gen".toList :: a2 :: a3 :: a4 :: rest) oA oB)) ∨
      genMain env writable ("gen".toList :: a2 :: a3 :: a4 :: rest) oA oB = ⟨[], .error .diverge⟩ := by
  have hpos : 2 ^ scale ≠ 0 := by simp
  have hle : 2 ^ scale ≤ 2 ^ 32 := Nat.pow_le_pow_right (by omega) hsc
  have hm : 2 ^ scale * factor ≠ 0 := Nat.mul_ne_zero hpos hf
  have d3 := atoi_digits (numeral_digits h3) (r := []) (by intro c hc; cases hc)
  have d4 := atoi_digits (numeral_digits h4) (r := []) (by intro c hc; cases hc)
  rw [List.append_nil] at d3 d4
  generalize hq : (if a2 = "rmat".toList then env.parRmat else env.parEr) = q
  have e0 : setInput env ("gen".toList :: a2 :: a3 :: a4 :: rest) oA oB = generate env q scale factor := by
    unfold setInput
    simp only [rd, List.getElem?_cons_zero, List.getElem?_cons_succ, ok_bind]
    rw [if_pos trivial, hq, d3, d4]
  have e1 : generate env q scale factor = (do
    let g1 ← Rmat.graphGen env.ar Rmat.getParams q env.st (2 ^ scale) (2 ^ scale * factor) env.fuel
    let A ← ofGraph env (2 ^ scale) g1
    let q2 := parAfter env.ar env.st q (2 ^ scale) (2 ^ scale * factor) env.fuel 0 0 q
    let g2 ← Rmat.graphGen env.ar Rmat.getParams q2 env.st (2 ^ scale) (2 ^ scale * factor) env.fuel
    let B ← ofGraph env (2 ^ scale) g2
    .ok (A, B)) := by
    unfold generate
    rw [if_neg (by omega)]
    simp only [Int.toNat_natCast]
    rw [if_neg (by omega)]
  have key : ∀ e, generate env q scale factor = .error e →
      genMain env writable ("gen".toList :: a2 :: a3 :: a4 :: rest) oA oB = ⟨[], .error e⟩ := by
    intro e he
    unfold genMain
    rw [if_neg (by simp), e0, he]
    rfl
  rcases C89_partial env.ar Rmat.getParams rfl rfl rfl (by decide) (by decide) q env.st hr hpos hle (2 ^ scale * factor) env.fuel with ⟨GA, eA, hGA⟩ | eA
  · obtain ⟨A, fA, wA, rA, cA, nA, mA⟩ := ofGraph_ok ha hs hGA hm
    rcases C89_partial env.ar Rmat.getParams rfl rfl rfl (by decide) (by decide)
      (parAfter env.ar env.st q (2 ^ scale) (2 ^ scale * factor) env.fuel 0 0 q) env.st hr hpos hle (2 ^ scale * factor) env.fuel with ⟨GB, eB, hGB⟩ | eB
    · obtain ⟨B, fB, wB, rB, cB, nB, mB⟩ := ofGraph_ok ha hs hGB hm
      left
      refine ⟨GA, GB, triplesC A, triplesC B, hGA, hGB, nA, mA, nB, mB, ?_⟩
      have e2 : setInput env ("gen".toList :: a2 :: a3 :: a4 :: rest) oA oB = .ok (A, B) := by
        rw [e0, e1, eA, ok_bind, fA, ok_bind]
        simp only [eB, ok_bind, fB]
      have := gen_run writable e2 wA wB (by omega) (.refl _) (.refl _)
      rwa [rA, cA, rB, cB] at this
    · right
      apply key
      rw [e1, eA, ok_bind, fA, ok_bind]
      simp only [eB]
      rfl
  · right
    apply key
    rw [e1, eA]
    rfl

/-! ### Where it fails -/

/-- C95 is violated by exactly three arguments: that many are accepted, but the program fails and writes nothing. -/
theorem C95_violated_args (env : Env V F) (writable : List Char → Bool) (a1 a2 a3 : List Char) (oA oB : List Nat) :
    ∃ e, genMain env writable [a1, a2, a3] oA oB = ⟨[], .error e⟩ := by
  unfold genMain
  rw [if_neg (by simp)]
  split
  · exact ⟨_, rfl⟩
  · exact ⟨.oob, rfl⟩

theorem main_error {env : Env V F} (writable : List Char → Bool) {args : List (List Char)} (ha : 3 ≤ args.length) {oA oB : List Nat} {e : Err}
    (h : setInput env args oA oB = .error e) : genMain env writable args oA oB = ⟨[], .error e⟩ := by
  unfold genMain
  rw [if_neg (by omega), h]
  rfl

/-- C95 is violated by text files if the name of the first one has no stem before a point, for example no point at all: the program fails after it has read
them. -/
theorem C95_violated_name {env : Env V F} (hsort : SortsBy Prod.fst env.sortf) (writable : List Char → Bool) {neg : V → V} {a1 a2 a3 : List Char}
    {rest : List (List Char)} {oA oB : List Nat} (h1 : a1 ≠ "gen".toList) (h2 : a1 ≠ "binary".toList) (hn : ¬HasStem a2) {m n m' n' : Nat}
    {esA esB : List (Nat × Nat × V)} (hA : GoodText env.ofInt neg (env.text a2) m n esA) (hB : GoodText env.ofInt neg (env.text a3) m' n' esB)
    (oA' : oA.Perm (List.range n)) (oB' : oB.Perm (List.range n')) :
    genMain env writable (a1 :: a2 :: a3 :: rest) oA oB = ⟨[], .error .oob⟩ := by
  obtain ⟨A, B, e, _⟩ := input_text hsort (rest := rest) h1 h2 hA hB oA' oB'
  rw [inputName_error hn] at e
  exact main_error writable (by simp) e

/-- Names without a point and names whose only point is at the beginning or at the end have no stem. -/
theorem noStem (name : List Char) (h : '.' ∉ name) : ¬HasStem name ∧ ¬HasStem ('.' :: name) ∧ ¬HasStem (name ++ ['.']) := by
  have key : ∀ stem c ext, c ≠ '.' → name ≠ stem ++ c :: '.' :: ext := fun stem c ext _ e => h (by rw [e]; simp)
  refine ⟨?_, ?_, ?_⟩
  · rintro ⟨stem, c, ext, hc, _, ⟨_, e⟩ | e⟩
    · exact key _ _ _ hc e
    · exact key stem c (ext ++ ['.']) hc (by rw [e]; simp)
  · rintro ⟨stem, c, ext, hc, _, ⟨_, e⟩ | e⟩ <;> cases stem with
    | nil =>
      simp at e
      exact hc e.1.symm
    | cons a stem =>
      simp at e
      exact h (by rw [e.2]; simp)
  · rintro ⟨stem, c, ext, hc, he, ⟨h0, e⟩ | e⟩
    · rcases List.eq_nil_or_concat ext with h1 | ⟨ext', b, rfl⟩
      · exact h0 h1
      · have e' : name ++ ['.'] = (stem ++ c :: '.' :: ext') ++ [b] := by rw [e]; simp
        have := (List.append_inj' e' rfl).1
        exact h (by rw [this]; simp)
    · have e' : name ++ ['.'] = (stem ++ c :: '.' :: ext) ++ ['.'] := by rw [e]
      have := (List.append_inj' e' rfl).1
      exact h (by rw [this]; simp)

/-- C95 is violated by every left matrix with more rows than columns: the program fails while it writes the first file, because the loop over the columns
goes on to the number of rows. -/
theorem C95_violated_tall {env : Env V F} (hsort : SortsBy Prod.fst env.sortf) (writable : List Char → Bool) {neg : V → V} {a1 a2 a3 a4 : List Char}
    {rest : List (List Char)} {oA oB : List Nat} (h1 : a1 ≠ "gen".toList) (h2 : a1 ≠ "binary".toList) (hn : HasStem a2) {m n m' n' : Nat} (hmn : n < m)
    {esA esB : List (Nat × Nat × V)} (hA : GoodText env.ofInt neg (env.text a2) m n esA) (hB : GoodText env.ofInt neg (env.text a3) m' n' esB)
    (oA' : oA.Perm (List.range n)) (oB' : oB.Perm (List.range n')) :
    genMain env writable (a1 :: a2 :: a3 :: a4 :: rest) oA oB = ⟨[], .error .oob⟩ := by
  obtain ⟨A, B, e, g1, g2, g3, g4, k1, k2, k3, k4⟩ := input_text hsort (rest := a4 :: rest) h1 h2 hA hB oA' oB'
  obtain ⟨s, es⟩ := inputName_ok hn
  rw [es, ok_bind] at e
  obtain ⟨C, e1, _⟩ := C21_csc_to_csr (env.ofInt 0) k1
  unfold genMain
  rw [if_neg (by simp), e]
  simp only [ok_bind, e1]
  have et := leftText_tall g1 (by omega)
  unfold writeFile
  rw [fileName_eq, et]
  rfl

/-- C65 is violated by every file without comments that has fewer entries than it announces: reading goes on at an empty line. -/
theorem C65_violated_short {ofInt : Int → V} (sortf : List (Nat × V) → List (Nat × V)) (order : List Nat) {t : MMText} {m n k : Nat}
    {es : List (Nat × Nat × V)} (hc : t.comments = []) (hn : ∀ l ∈ t.lines, '\n' ∉ l) (hs : ∀ l ∈ t.lines, l.length ≤ 255)
    (hz : SizeLine t.size m n k) (he : List.Forall₂ (EntryLine (IntVal ofInt) (ofInt 1)) t.entries es) (hk : es.length < k) :
    readASCII sortf order ofInt (some (t.lines.flatMap fun l => l ++ ['\n'])) = .error .oob := by
  unfold readASCII
  have ef : (fun sym => lineA ofInt sym) = (fun sym => lineT ofInt false (fun _ => ofInt 0) sym false) := by
    funext sym
    exact lineA_eq ofInt sym _
  rw [ef, entries_short _ false _ false hc hn hs hz (he.imp fun _ _ h => parseLine_ok h) hk]
  rfl

/-- C95 is violated by every left matrix with fewer rows than columns and an entry in one of the last columns: the program ends, but the left file announces
more entries than it has. Reading it fails. -/
theorem C95_violated_wide {A : CSC V} (h : A.WF) (hrc : A.rows < A.cols) (he : ∃ e ∈ triplesC A, A.rows ≤ e.2.1) (hn : A.cols < 2 ^ 31) (hk : A.nnz < 2 ^ 31)
    {W : Type} (ofInt : Int → W) (sortf : List (Nat × W) → List (Nat × W)) (order : List Nat) :
    ∃ text, leftText A = .ok text ∧ readASCII sortf order ofInt (some text) = .error .oob := by
  refine ⟨_, leftText_eq h (by omega), ?_⟩
  have hlen : (posCols A A.rows).length < A.nnz := by
    obtain ⟨⟨i, j, v⟩, hm, hj⟩ := he
    have h1 : (i, j) ∈ posCols A A.cols := by
      rw [posCols_eq h]
      exact List.mem_map.2 ⟨_, hm, rfl⟩
    have h2 : (i, j) ∉ posCols A A.rows := fun h' => by
      have := (posCols_bounds h _ h').2
      simp only at this hj
      omega
    have h3 : posCols A A.cols = posCols A A.rows ++ (List.range' A.rows (A.cols - A.rows)).flatMap fun j => (A.colRows j).map fun i => (i, j) := by
      unfold posCols
      rw [← List.flatMap_append]
      congr 1
      have := List.range'_append_1 (s := 0) (m := A.rows) (n := A.cols - A.rows)
      rw [Nat.zero_add, Nat.add_sub_cancel' (by omega)] at this
      rw [List.range_eq_range', List.range_eq_range', this]
    have h4 := posCols_length h A.cols (Nat.le_refl _)
    rw [h.ptrLast] at h4
    rw [h3, List.length_append] at h4
    rw [h3, List.mem_append] at h1
    rcases h1 with h1 | h1
    · exact absurd h1 h2
    · have := List.length_pos_of_mem h1
      omega
  rw [fileText_lines]
  have hb : ∀ p ∈ posCols A A.rows, p.1 < A.rows ∧ p.2 < A.cols := fun p hp => by
    have := posCols_bounds h p hp
    omega
  exact C65_violated_short (ofInt := ofInt) sortf order rfl (parts_noNewline _ _ _ _) (parts_short (by omega) hn hk hb) (parts_size _ _ _ _)
    (parts_entries (IntVal ofInt) (ofInt 1) _ _ _ _) (by rw [List.length_map]; exact hlen)

/-- C95 is violated by a scale of 0: the generator does not end. -/
theorem C95_violated_scale {env : Env V F} (writable : List Char → Bool) (a2 : List Char) {a4 : List Char} {rest : List (List Char)} (oA oB : List Nat)
    {factor : Nat} (h4 : Numeral a4 factor) (hf : factor ≠ 0) :
    genMain env writable ("gen".toList :: a2 :: "0".toList :: a4 :: rest) oA oB = ⟨[], .error .diverge⟩ := by
  have d4 := atoi_digits (numeral_digits h4) (r := []) (by intro c hc; cases hc)
  rw [List.append_nil] at d4
  apply main_error _ (by simp)
  unfold setInput
  simp only [rd, List.getElem?_cons_zero, List.getElem?_cons_succ, ok_bind]
  rw [if_pos trivial, d4]
  generalize (if a2 = "rmat".toList then env.parRmat else env.parEr) = q
  have d3 : atoi "0".toList = 0 := by decide +kernel
  rw [d3]
  unfold generate
  rw [if_neg (by omega)]
  have := C89_violated_one_vertex env.ar q env.st hf env.fuel
  unfold Rmat.rmat at this
  simp only [Int.toNat_natCast, Int.toNat_zero]
  rw [if_neg (by omega), this]
  rfl

/-- C95 is violated by a factor of 0: the first edge is read although there are none. -/
theorem C95_violated_factor {env : Env V F} (hr : ∀ i, 0 ≤ env.st.s2 i ∧ env.st.s2 i < 1) (writable : List Char → Bool) (a2 : List Char) {a3 : List Char} {rest : List (List Char)} (oA oB : List Nat)
    {scale : Nat} (h3 : Numeral a3 scale) (hsc : scale ≤ 32) :
    ∃ e, genMain env writable ("gen".toList :: a2 :: a3 :: "0".toList :: rest) oA oB = ⟨[], .error e⟩ := by
  have d3 := atoi_digits (numeral_digits h3) (r := []) (by intro c hc; cases hc)
  rw [List.append_nil] at d3
  have d4 : atoi "0".toList = 0 := by decide +kernel
  have : ∃ e, setInput env ("gen".toList :: a2 :: a3 :: "0".toList :: rest) oA oB = .error e := by
    unfold setInput
    simp only [rd, List.getElem?_cons_zero, List.getElem?_cons_succ, ok_bind]
    rw [if_pos trivial, d3, d4]
    unfold generate
    rw [if_neg (by omega)]
    simp only [Int.toNat_natCast, Int.toNat_zero, Nat.mul_zero]
    generalize (if a2 = "rmat".toList then env.parRmat else env.parEr) = q
    rw [if_neg (by omega)]
    rcases C89_partial env.ar Rmat.getParams rfl rfl rfl (by decide) (by decide) q env.st hr (n := 2 ^ scale) (by simp)
      (Nat.pow_le_pow_right (by omega) hsc) 0 env.fuel with ⟨G, e, hG⟩ | e
    · have : G = [] := List.eq_nil_of_length_eq_zero hG.count
      rw [e, ok_bind, this]
      exact ⟨.oob, rfl⟩
    · rw [e]
      exact ⟨.diverge, rfl⟩
  obtain ⟨e, h⟩ := this
  exact ⟨e, main_error writable (by simp) h⟩

/-! ### Examples -/

/-- A symmetric file, see `symFile`, and one of a rectangular matrix -/
def genFiles (name : List Char) : Option (List Char) :=
  if name = "d/a.mtx".toList then some (banner .integer .symmetric ++ "\n% an example\n3 3 2\n2 1 -12\n3 3 7".toList)
  else if name = "b".toList then some (fileText 2 3 2 [(1, 0), (0, 2)])
  else none

def exGenEnv (fuel : Nat) : Env Int ℚ where
  text := genFiles
  bin := fun name => if name = "d/a.mtx".toList then some (binaryFile 4 3 3 [(2, 1, Spec.bytesLE 4 300), (0, 0, Spec.bytesLE 4 7)]) else none
  si := 4
  sv := 4
  decV := fun b => ReadBin.intLE b
  ofInt := id
  add := (· + ·)
  sortf := isort Prod.fst
  sortE := edgeSort
  ar := ratArith
  st := ratStreams
  parRmat := ratPar
  parEr := ⟨1 / 4, 1 / 4, 1 / 4, 1 / 4⟩
  fuel := fuel

theorem genExA : GoodText (id : Int → Int) Int.neg (genFiles "d/a.mtx".toList) 3 3 (fullEntries Int.neg .symmetric [(1, 0, -12), (2, 2, 7)]) :=
  ⟨symFile, _, _, by decide +kernel, symFile_describes, by decide +kernel, by decide, by rintro ⟨h, _⟩; exact absurd h (by decide), symFile_lines, rfl⟩

theorem genExB : GoodText (id : Int → Int) Int.neg (genFiles "b".toList) 2 3 [(1, 0, 1), (0, 2, 1)] :=
  ⟨parts 2 3 2 [(1, 0), (0, 2)], _, _, by decide +kernel, parts_describes (IntVal id) (id 1) (ps := [(1, 0), (0, 2)]) (by decide), by decide +kernel, by decide,
    parts_noComment _ _ _ _, .inl ⟨[], (fileText_lines 2 3 2 _).trans (List.append_nil _).symm⟩, rfl⟩

theorem genExStem : HasStem "d/a.mtx".toList := ⟨"d/".toList, 'a', "mtx".toList, by decide, by decide +kernel, .inl ⟨by decide +kernel, by decide +kernel⟩⟩

example := C95_text_partial (env := exGenEnv 0) (isort_sorts _) (fun _ => true) (a1 := "text".toList) (a2 := "d/a.mtx".toList) (a3 := "b".toList)
  (a4 := "x".toList) (rest := []) (oA := [0, 2, 1]) (oB := [0, 1, 2]) (by decide +kernel) (by decide +kernel) genExStem genExA genExB (by decide) (by decide)
example := C95_violated_name (env := exGenEnv 0) (isort_sorts _) (fun _ => true) (a1 := "text".toList) (a2 := "b".toList) (a3 := "b".toList)
  (rest := ["x".toList]) (oA := [0, 2, 1]) (oB := [0, 1, 2]) (by decide +kernel) (by decide +kernel) (noStem _ (by decide +kernel)).1 genExB genExB (by decide) (by decide)
example := C95_binary_partial (env := exGenEnv 0) (isort_sorts _) (fun _ => true) (a2 := "d/a.mtx".toList) (a3 := "d/a.mtx".toList) (a4 := "x".toList) (rest := [])
  (oA := [0, 2, 1]) (oB := [0, 1, 2]) (m := 3) (m' := 3) (n' := 3) (esA := [(2, 1, 300), (0, 0, 7)]) (esB := [(2, 1, 300), (0, 0, 7)])
  ⟨[(2, 1, Spec.bytesLE 4 300), (0, 0, Spec.bytesLE 4 7)], [], by decide +kernel, by decide, by decide, by decide, by decide, by decide, by decide, by decide,
    by decide, by decide +kernel⟩
  ⟨[(2, 1, Spec.bytesLE 4 300), (0, 0, Spec.bytesLE 4 7)], [], by decide +kernel, by decide, by decide, by decide, by decide, by decide, by decide, by decide,
    by decide, by decide +kernel⟩ (by decide) (by decide)
example := C95_violated_binary (env := exGenEnv 0) (fun _ => true) (a2 := "x".toList) (a3 := "y".toList) (a4 := "z".toList) (rest := []) [] [] rfl rfl
example (fuel : Nat) := C95_gen_partial (env := exGenEnv fuel) ⟨fun a b c => Int.add_assoc a b c, fun a b => Int.add_comm a b⟩ edgeSort_sorts
  (fun i => by simp only [exGenEnv, ratStreams]; norm_num) (fun _ => true) (a2 := "rmat".toList) (rest := []) [] [] (.digit 2 (by decide)) (.digit 3 (by decide)) (by decide) (by decide)

theorem parAfter_rat (n m : Nat) : ∀ fuel i t, parAfter ratArith ratStreams ratPar n m fuel i t ratPar = ratPar := by
  have hw : ∀ fuel step u v t, walkPar ratArith ratStreams fuel step ratPar u v t = ratPar := by
    intro fuel
    induction fuel with
    | zero => intros; rfl
    | succ fuel ih =>
      intro step u v t
      unfold walkPar
      split
      · simp only [ratStreams, ratPar_vary]
        exact ih _ _ _ _
      · rfl
  intro fuel
  induction fuel with
  | zero => intros; rfl
  | succ fuel ih =>
    intro i t
    unfold parAfter
    split
    · split
      · rfl
      · rw [hw]
        exact ih _ _
    · rfl

/-- The program ends in this case, with enough attempts of the generator. -/
example : ∃ fuel, (genMain (exGenEnv fuel) (fun _ => true) ["gen".toList, "rmat".toList, "2".toList, "2".toList] [] []).status = .ok (some ()) := by
  obtain ⟨fuel, G, e, hG⟩ := C89_ends ratArith Rmat.getParams rfl rfl rfl (by decide) (by decide) ratPar ratStreams (fun _ => by simp only [ratStreams]; norm_num)
    (n := 4) (by decide) (by decide) 8 fun k => ⟨k, Nat.le_refl _, ratStreams_succeeds k⟩
  obtain ⟨C, f, w, r, c, _⟩ := ofGraph_ok (env := exGenEnv fuel) ⟨fun a b c => Int.add_assoc a b c, fun a b => Int.add_comm a b⟩ edgeSort_sorts hG (by decide)
  refine ⟨fuel, (gen_run (A := C) (B := C) (fun _ => true) ?_ w w (by omega) (.refl _) (.refl _)).ends⟩
  have h2 : atoi "2".toList = 2 := by decide +kernel
  unfold setInput
  simp only [rd, List.getElem?_cons_zero, List.getElem?_cons_succ, ok_bind]
  rw [if_pos trivial, if_pos trivial, h2]
  unfold generate
  rw [if_neg (by omega)]
  have n4 : (if (2 : Int) < 0 then 0 else 2 ^ (2 : Int).toNat) = 4 := rfl
  have hp := parAfter_rat 4 8 fuel 0 0
  change (do
    let g1 ← Rmat.graphGen ratArith Rmat.getParams ratPar ratStreams 4 8 fuel
    let A ← ofGraph (exGenEnv fuel) 4 g1
    let g2 ← Rmat.graphGen ratArith Rmat.getParams (parAfter ratArith ratStreams ratPar 4 8 fuel 0 0 ratPar) ratStreams 4 8 fuel
    let B ← ofGraph (exGenEnv fuel) 4 g2
    .ok (A, B)) = _
  rw [hp, e, ok_bind, f, ok_bind, ok_bind, f, ok_bind]

/-- A left file -/
example : leftText ({ rows := 2, cols := 2, nnz := 3, colptr := [0, 1, 3], rowids := [1, 0, 1], values := [5, 6, 7] } : CSC Int) =
    .ok "%%MatrixMarket matrix coordinate pattern general\n2 2 3\n2 1\n1 2\n2 2\n".toList := by decide +kernel
/-- With one column more the last entry is missing. -/
example : leftText ({ rows := 2, cols := 3, nnz := 4, colptr := [0, 1, 3, 4], rowids := [1, 0, 1, 0], values := [5, 6, 7, 8] } : CSC Int) =
    .ok "%%MatrixMarket matrix coordinate pattern general\n2 3 4\n2 1\n1 2\n2 2\n".toList := by decide +kernel

end Verif.Props
