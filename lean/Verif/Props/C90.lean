import Verif.Lemmas.HeatMap
import Verif.Props.C82
import Verif.Props.C89

/-! # C90: the benchmark on random matrices -/

namespace Verif.Props

open Verif.Spec Model.HeatMap
open Model.Bench (Out)
open Model.MaskedAll (Good)

variable {F : Type}

/-- The orders of the parallel loops are rearrangements of their indices. -/
def HeatOrders (a : Args) (ord : Orders) : Prop :=
  (∀ d w i, (ord.cols d w i).Perm (List.range d)) ∧ ∀ d i j k, (ord.flops d i j k).Perm (List.range (a.rowsA d))

/-- The arguments: the least values are positive, the largest are less than `2 ^ 31`. -/
structure HeatArgs (a : Args) : Prop where
  threads : 0 < a.nthreads
  dim : 0 < a.dimMin ∧ a.dimMax < 2 ^ 31
  degA : 0 < a.dAMin ∧ a.dAMax < 2 ^ 31
  degB : 0 < a.dBMin ∧ a.dBMax < 2 ^ 31
  degM : 0 < a.dMMin ∧ a.dMMax < 2 ^ 31

/-- C90 for uniformly random matrices: in every run in which the threads get enough turns the program ends, and has printed for each dimension and each
choice of degrees the number of products of the two matrices (modulo `2 ^ 32`), where a matrix with `m` rows and degree `x` has its entries at the positions of
the first `m * x` draws; the first matrix has at most `maxRowsA` rows. In other runs it has printed a part of these lines, from the start. What is missing are
arguments outside of `HeatArgs`, dimensions times degrees from `2 ^ 32` on, and `sameAB` with fewer degrees for the second matrix than for the first,
see the theorems on violations. -/
theorem C90_partial (env : Env F) (hT : SortsTriples env.sortT) (hC : SortsBy Prod.fst env.sortC)
    (hrnd : ∀ m n i, 0 < m → 0 < n → (env.rnd m n i).1 < m ∧ (env.rnd m n i).2 < n) (hf : 32 < env.fuel) (a : Args) (hs : a.source = .er) (h : HeatArgs a)
    (hrows : 0 < a.maxRowsA) (hA : a.dimMax * a.dAMax < 2 ^ 32) (hB : a.dimMax * a.dBMax < 2 ^ 32) (hM : a.dimMax * a.dMMax < 2 ^ 32)
    (hsame : a.sameAB = true → (doubled a.dAMin a.dAMax).length ≤ (doubled a.dBMin a.dBMax).length)
    (ord : Orders) (ho : HeatOrders a ord) :
    ∃ K, ∀ calls : Calls, (∀ d i j k g c, Admissible (min a.maxRowsA d) (calls d i j k g c)) →
      Good (∀ d i j k g c, Fair a.nthreads K (calls d i j k g c))
        ((doubled a.dimMin a.dimMax).flatMap fun d => heatLines a.sameAB d (doubled a.dAMin a.dAMax) (doubled a.dBMin a.dBMax) (doubled a.dMMin a.dMMax)
          fun x y => meetings (drawn (env.rnd (min a.maxRowsA d) d) (min a.maxRowsA d * x)) (drawn (env.rnd d d) (d * y)))
        (main env a ord calls) := by
  have hra : ∀ d, a.rowsA d = min a.maxRowsA d := by
    intro d
    unfold Args.rowsA
    rw [if_neg (by rw [hs]; simp)]
  have key : ∀ d ∈ doubled a.dimMin a.dimMax, ∀ m, 0 < m → m ≤ d → ∀ lo hi, 0 < lo → a.dimMax * hi < 2 ^ 32 → ∀ deg ∈ doubled lo hi, ∀ w,
      (drawn (env.rnd m d) (m * deg)).card < 2 ^ 32 ∧
      ∀ i, ∃ c, matrix env a.source (ord.cols d w i) m d deg = .ok c ∧ HasC m d (drawn (env.rnd m d) (m * deg)) c := by
    intro d hd m hm hmd lo hi hlo hhi deg hdeg w
    have h1 := mem_doubled h.dim.1 hd
    have h2 := mem_doubled hlo hdeg
    have hlt : m * deg < 2 ^ 32 := (Nat.mul_le_mul (hmd.trans h1.2) h2.2).trans_lt hhi
    refine ⟨(drawn_card _ _).trans_lt hlt, fun i => ?_⟩
    have := er_has env hT hC (fun j => hrnd m d j hm (by omega)) (Nat.mul_pos hm h2.1) hlt (ho.1 d w i)
    unfold matrix
    rwa [if_neg (by rw [hs]; simp)]
  have hrow : ∀ d, d ∈ doubled a.dimMin a.dimMax → 0 < a.rowsA d ∧ a.rowsA d ≤ d := by
    intro d hd
    have := mem_doubled h.dim.1 hd
    rw [hra]
    omega
  obtain ⟨K, hK⟩ := main_good env a ord (patA := fun d x => drawn (env.rnd (a.rowsA d) d) (a.rowsA d * x)) (patB := fun d x => drawn (env.rnd d d) (d * x))
    (patM := fun d x => drawn (env.rnd (a.rowsA d) d) (a.rowsA d * x)) hf (by rw [hs]; simp) h.threads h.dim.1 h.degA.1 h.degB.1 h.degM.1 h.dim.2 h.degA.2
    h.degB.2 h.degM.2 hrow (fun d hd deg hdeg => key d hd _ (hrow d hd).1 (hrow d hd).2 _ _ h.degA.1 hA deg hdeg 0)
    (fun d hd deg hdeg => key d hd _ (mem_doubled h.dim.1 hd).1 le_rfl _ _ h.degB.1 hB deg hdeg 1)
    (fun d hd deg hdeg => key d hd _ (hrow d hd).1 (hrow d hd).2 _ _ h.degM.1 hM deg hdeg 2) ho.2 (fun e => .inl (hsame e))
  simp only [hra] at hK
  refine ⟨K, fun calls hc => hK calls ?_⟩
  intro d i j k g c
  rw [hra]
  exact hc d i j k g c

/-- C90 for R-MAT matrices whose dimensions are powers of 2, if the generator returns a graph for each dimension and degree: the positions of the entries are
those of its edges. What is missing are other dimensions, and what is missing in `C90_partial`. -/
theorem C90_rmat_partial (env : Env F) (hE : SortsEdges env.sortE) (hr : ∀ i, 0 ≤ env.st.s2 i ∧ env.st.s2 i < 1) (hf : 32 < env.fuel) (a : Args)
    (hs : a.source = .rmat) (h : HeatArgs a) (hA : a.dimMax * a.dAMax < 2 ^ 32) (hB : a.dimMax * a.dBMax < 2 ^ 32) (hM : a.dimMax * a.dMMax < 2 ^ 32)
    (hsame : a.sameAB = true → (doubled a.dAMin a.dAMax).length ≤ (doubled a.dBMin a.dBMax).length) {s : Nat} (hdim : a.dimMin = 2 ^ s)
    {G : Nat → Nat → List (Nat × Nat × Int)}
    (hG : ∀ scale deg, 2 ^ scale ∈ doubled a.dimMin a.dimMax →
      deg ∈ doubled a.dAMin a.dAMax ∨ deg ∈ doubled a.dBMin a.dBMax ∨ deg ∈ doubled a.dMMin a.dMMax →
      Model.Rmat.rmat env.ar env.par env.st scale deg env.fuel = .ok (G (2 ^ scale) deg))
    (ord : Orders) (ho : HeatOrders a ord) :
    ∃ K, ∀ calls : Calls, (∀ d i j k g c, Admissible d (calls d i j k g c)) →
      Good (∀ d i j k g c, Fair a.nthreads K (calls d i j k g c))
        ((doubled a.dimMin a.dimMax).flatMap fun d => heatLines a.sameAB d (doubled a.dAMin a.dAMax) (doubled a.dBMin a.dBMax) (doubled a.dMMin a.dMMax)
          fun x y => meetings (edgePos (G d x)) (edgePos (G d y)))
        (main env a ord calls) := by
  have hra : ∀ d, a.rowsA d = d := by
    intro d
    unfold Args.rowsA
    rw [if_pos hs]
  have key : ∀ d ∈ doubled a.dimMin a.dimMax, ∀ lo hi, 0 < lo → a.dimMax * hi < 2 ^ 32 → ∀ deg ∈ doubled lo hi,
      (deg ∈ doubled a.dAMin a.dAMax ∨ deg ∈ doubled a.dBMin a.dBMax ∨ deg ∈ doubled a.dMMin a.dMMax) → ∀ order : Nat → List Nat,
      (edgePos (G d deg)).card < 2 ^ 32 ∧ ∀ i, ∃ c, matrix env a.source (order i) d d deg = .ok c ∧ HasC d d (edgePos (G d deg)) c := by
    intro d hd lo hi hlo hhi deg hdeg hor order
    have h1 := mem_doubled h.dim.1 hd
    have h2 := mem_doubled hlo hdeg
    obtain ⟨scale, rfl⟩ : ∃ k, d = 2 ^ k := by
      unfold doubled at hd
      obtain ⟨i, -, rfl⟩ := List.mem_map.1 (List.mem_filter.1 hd).1
      exact ⟨s + i, by rw [hdim, pow_add]⟩
    have hsc : scale ≤ 31 := by
      by_contra hn
      have : 2 ^ 32 ≤ 2 ^ scale := Nat.pow_le_pow_right (by omega) (by omega)
      have := h.dim.2
      omega
    obtain ⟨c, e, hc, hcard⟩ := rmat_has env hE hr hsc hf h2.1 (hG scale deg hd hor)
    refine ⟨hcard.trans_lt ((Nat.mul_le_mul h1.2 h2.2).trans_lt hhi), fun i => ⟨c, ?_, hc⟩⟩
    unfold matrix
    rwa [if_pos hs]
  obtain ⟨K, hK⟩ := main_good env a ord (patA := fun d x => edgePos (G d x)) (patB := fun d x => edgePos (G d x))
    (patM := fun d x => edgePos (G d x)) hf (by rw [hs]; simp) h.threads h.dim.1 h.degA.1 h.degB.1 h.degM.1 h.dim.2 h.degA.2
    h.degB.2 h.degM.2 (fun d hd => by have := mem_doubled h.dim.1 hd; rw [hra]; omega)
    (fun d hd deg hdeg => by rw [hra]; exact key d hd _ _ h.degA.1 hA deg hdeg (.inl hdeg) _)
    (fun d hd deg hdeg => key d hd _ _ h.degB.1 hB deg hdeg (.inr (.inl hdeg)) _)
    (fun d hd deg hdeg => by rw [hra]; exact key d hd _ _ h.degM.1 hM deg hdeg (.inr (.inr hdeg)) _) ho.2 (fun e => .inl (hsame e))
  refine ⟨K, fun calls hc => hK calls ?_⟩
  intro d i j k g c
  rw [hra]
  exact hc d i j k g c

/-! ## Violations -/

/-- The loops that double a number end exactly if one of the numbers exceeds the bound before it is too large for 32 bits. -/
theorem C90_loop_ends {lo hi : Nat} (h : lo < 2 ^ 32) : (∃ fuel l, doublings hi fuel lo = .ok l) ↔ ∃ i < 32, hi < lo * 2 ^ i % 2 ^ 32 := by
  have e : lo = lo * 2 ^ 0 % 2 ^ 32 := by rw [Nat.pow_zero, Nat.mul_one, Nat.mod_eq_of_lt h]
  constructor
  · rintro ⟨fuel, hl⟩
    rw [e] at hl
    obtain ⟨j, _, _, hj⟩ := (doublings_iff fuel 0).1 hl
    refine ⟨j, ?_, hj⟩
    by_contra hn
    have : 2 ^ 32 ∣ lo * 2 ^ j := (Nat.pow_dvd_pow 2 (by omega)).mul_left _
    rw [Nat.mod_eq_zero_of_dvd this] at hj
    omega
  · rintro ⟨i, hi', hlt⟩
    refine ⟨32, ?_⟩
    rw [e]
    exact (doublings_iff 32 0).2 ⟨i, by omega, by omega, hlt⟩

/-- C90 is violated if a least degree is 0: the program prints nothing and does not end, for each number of iterations that one waits. -/
theorem C90_violated_degree (env : Env F) (a : Args) (hs : a.source ≠ .other) (hdim : a.dimMin ≤ a.dimMax) (hd : a.dAMin = 0) (ord : Orders)
    (calls : Calls) : main env a ord calls = ⟨[], .error .diverge⟩ := by
  unfold main
  cases env.fuel with
  | zero => rfl
  | succ f =>
    unfold dimLoop
    rw [if_pos hdim]
    have : dimBody env a ord calls a.dimMin = ⟨[], .error .diverge⟩ := by
      unfold dimBody createAll create
      rw [if_neg hs, hd, doublings_zero]
      rfl
    rw [this]
    rfl

/-- C90 is violated for least dimensions that are 0 or a power of 2 if the largest dimension is at least `2 ^ 31`: the program does not end. -/
theorem C90_violated_dimension (env : Env F) (a : Args) {s : Nat} (hdim : a.dimMin = 0 ∨ s < 32 ∧ a.dimMin = 2 ^ s) (hmax : 2 ^ 31 ≤ a.dimMax) (ord : Orders)
    (calls : Calls) : (main env a ord calls).status ≠ .ok (some ()) := by
  intro h
  unfold main at h
  have hlo : a.dimMin < 2 ^ 32 := by
    rcases hdim with h | ⟨hs, h⟩
    · rw [h]; decide
    · rw [h]; exact Nat.pow_lt_pow_right (by omega) hs
  rw [show a.dimMin = a.dimMin * 2 ^ 0 % 2 ^ 32 by rw [Nat.pow_zero, Nat.mul_one, Nat.mod_eq_of_lt hlo]] at h
  obtain ⟨j, hj⟩ := dimLoop_ends _ _ _ h
  rcases hdim with h | ⟨hs, h⟩
  · rw [h, Nat.zero_mul, Nat.zero_mod] at hj
    omega
  · rw [h, ← pow_add] at hj
    by_cases hle : s + j ≤ 31
    · have h1 : 2 ^ (s + j) ≤ 2 ^ 31 := Nat.pow_le_pow_right (by omega) hle
      have h2 := Nat.mod_le (2 ^ (s + j)) (2 ^ 32)
      omega
    · rw [Nat.mod_eq_zero_of_dvd (Nat.pow_dvd_pow 2 (by omega))] at hj
      omega

/-- C90 is violated with `sameAB` if there are fewer degrees for the second matrix than for the first, but some: the program uses a matrix
that does not exist. -/
theorem C90_violated_same (env : Env F) (a : Args) (hsame : a.sameAB = true) (hs : a.source ≠ .other) (hdim : a.dimMin ≤ a.dimMax) (h : HeatArgs a)
    (hB : doubled a.dBMin a.dBMax ≠ []) (hM : doubled a.dMMin a.dMMax ≠ [])
    (hlt : (doubled a.dBMin a.dBMax).length < (doubled a.dAMin a.dAMax).length) (ord : Orders) (calls : Calls) :
    (main env a ord calls).status ≠ .ok (some ()) := by
  intro hok
  unfold main at hok
  cases hfu : env.fuel with
  | zero => rw [hfu] at hok; simp [dimLoop] at hok
  | succ f =>
    rw [hfu] at hok
    unfold dimLoop at hok
    rw [if_pos hdim] at hok
    have hb := (seq_ok hok).1
    unfold dimBody at hb
    split at hb
    · cases hb
    · next As Bs Ms hc =>
      unfold createAll at hc
      rw [if_neg hs] at hc
      obtain ⟨As, hA, hc⟩ := _root_.Verif.MatObj.bind_eq_ok hc
      obtain ⟨Bs, hB', hc⟩ := _root_.Verif.MatObj.bind_eq_ok hc
      obtain ⟨Ms, hM', hc⟩ := _root_.Verif.MatObj.bind_eq_ok hc
      cases hc
      have lA := create_length env h.degA.1 h.degA.2 hA
      have lB := create_length env h.degB.1 h.degB.2 hB'
      have lM := create_length env h.degM.1 h.degM.2 hM'
      have hB0 : 0 < Bs.length := by rw [lB]; exact List.length_pos_iff.2 hB
      have hM0 : 0 < Ms.length := by rw [lM]; exact List.length_pos_iff.2 hM
      have h1 := seqAll_ok _ hb _ (List.mem_map_of_mem (List.mem_range.2 (show Bs.length < As.length by omega)))
      have h2 := seqAll_ok _ h1 _ (List.mem_map_of_mem (show Bs.length ∈ indicesB a.sameAB Bs.length Bs.length by
        unfold indicesB
        rw [if_pos hsame, if_pos hB0]
        simp))
      have h3 := seqAll_ok _ h2 _ (List.mem_map_of_mem (List.mem_range.2 hM0))
      unfold cell at h3
      rw [rd_of_lt (show Bs.length < As.length by omega), ok_bind, rd_oob (Nat.le_refl Bs.length)] at h3
      cases h3

/-- C90 is violated if the number of rows times a degree is a multiple of `2 ^ 32`: the matrix is made of no draws, and the first of them is read. -/
theorem C90_violated_entries (env : Env F) (hT : SortsTriples env.sortT) (order : List Nat) {rows deg : Nat} (h : 2 ^ 32 ∣ rows * deg) (cols : Nat) :
    matrix env .er order rows cols deg = .error .oob := by
  unfold matrix erMatrix _root_.Verif.Tuples.randomTriples
  rw [if_neg (by simp), Nat.mod_eq_zero_of_dvd h]
  have := C62_violated hT
  rw [show (tab 0 fun i => ((env.rnd rows cols i).1, (env.rnd rows cols i).2, (1 : Val))) = [] from rfl, this, ok_bind]
  rfl

/-- C90, the matrices of one dimension are not independent: of two with equally many rows the one with the smaller degree has a subset of the positions of the
other, so that with equal degrees a matrix is its own mask. -/
theorem C90_nested (rnd : Nat → Nat × Nat) (m : Nat) {x y : Nat} (h : x ≤ y) : drawn rnd (m * x) ⊆ drawn rnd (m * y) := by
  unfold drawn
  exact Finset.image_subset_image (Finset.range_subset_range.2 (Nat.mul_le_mul_left _ h))

/-- C90, the largest number of rows of the first matrix is the largest degree unless another is given. -/
theorem C90_default_rows (a : Args) (hs : a.source = .er) (hm : a.maxRows = none) (dim : Nat) : a.rowsA dim = min a.dAMax dim := by
  unfold Args.rowsA Args.maxRowsA
  rw [if_neg (by rw [hs]; simp), hm]
  rfl

/-- C90 is violated for R-MAT matrices of dimension 1: the program prints nothing and does not end. -/
theorem C90_violated_rmat_one (env : Env F) (a : Args) (hs : a.source = .rmat) (hdim : a.dimMin = 1) (hdim' : 1 ≤ a.dimMax) (hd : 0 < a.dAMin)
    (hd' : a.dAMin ≤ a.dAMax) (ord : Orders) (calls : Calls) : main env a ord calls = ⟨[], .error .diverge⟩ := by
  unfold main
  cases hfu : env.fuel with
  | zero => rfl
  | succ f =>
    unfold dimLoop
    rw [hdim, if_pos hdim']
    have hm : ∀ order, matrix env .rmat order 1 1 a.dAMin = .error .diverge := by
      intro order
      unfold matrix rmatMatrix
      rw [if_pos rfl, hfu]
      unfold scaleLoop
      rw [if_neg (by omega), ok_bind, C89_violated_one_vertex _ _ _ (by omega)]
      rfl
    have : dimBody env a ord calls 1 = ⟨[], .error .diverge⟩ := by
      unfold dimBody createAll create
      have hr : a.rowsA 1 = 1 := by unfold Args.rowsA; rw [if_pos hs]
      rw [if_neg (by rw [hs]; simp), hr, hs]
      cases hd2 : doublings a.dAMax env.fuel a.dAMin with
      | error e => rw [doublings_error _ _ _ _ hd2]; rfl
      | ok l =>
        have : ∃ l', l = a.dAMin :: l' := by
          rw [hfu] at hd2
          unfold doublings at hd2
          rw [if_pos hd'] at hd2
          obtain ⟨r, _, hd2⟩ := _root_.Verif.MatObj.bind_eq_ok hd2
          injection hd2 with hd2
          exact ⟨r, hd2.symm⟩
        obtain ⟨l', rfl⟩ := this
        rw [ok_bind, List.zipIdx_cons, List.mapM_cons, hm]
        rfl
    rw [this]
    rfl

/-! ## Examples -/

/-- Sorting functions, positions on diagonals instead of random ones, and the R-MAT parameters of `C89` -/
def heatEnv (fuel : Nat) : Env ℚ :=
  { sortT := sortPos, sortC := isort Prod.fst, sortE := edgeSort, rnd := fun m n i => (i % m, (i + i / m) % n), ar := ratArith, par := ratPar,
    st := ratStreams, dflt := 4, fuel := fuel }

def heatArgs (source : Source) (sameAB : Bool) : Args :=
  { witer := 1, niter := 2, nthreads := 3, source := source, dimMin := 4, dimMax := 16, dAMin := 1, dAMax := 4, dBMin := 1, dBMax := 8, dMMin := 2, dMMax := 2,
    maxRows := none, sameAB := sameAB }

theorem heatArgs_ok (source : Source) (sameAB : Bool) : HeatArgs (heatArgs source sameAB) :=
  by cases source <;> cases sameAB <;> constructor <;> decide

def heatOrders (a : Args) : Orders := { cols := fun d _ _ => List.range d, flops := fun d _ _ _ => (List.range (a.rowsA d)).reverse }

theorem heatOrders_ok (a : Args) : HeatOrders a (heatOrders a) := ⟨fun _ _ _ => .refl _, fun _ _ _ _ => List.reverse_perm _⟩

/-- Schedules as required exist. -/
theorem heatCalls_exist (rows : Nat → Nat) (n K : Nat) : ∃ calls : Calls, (∀ d i j k g c, Admissible (rows d) (calls d i j k g c)) ∧
    ∀ d i j k g c, Fair n K (calls d i j k g c) :=
  ⟨fun d _ _ _ _ _ => (fair_exists (rows d) n K).choose, fun d _ _ _ _ _ => (fair_exists (rows d) n K).choose_spec.1,
    fun d _ _ _ _ _ => (fair_exists (rows d) n K).choose_spec.2⟩

theorem heatEnv_rnd (fuel m n i : Nat) (hm : 0 < m) (hn : 0 < n) : ((heatEnv fuel).rnd m n i).1 < m ∧ ((heatEnv fuel).rnd m n i).2 < n :=
  ⟨Nat.mod_lt _ hm, Nat.mod_lt _ hn⟩

example (sameAB : Bool) := C90_partial (heatEnv 33) sortPos_sorts (isort_sorts Prod.fst) (heatEnv_rnd 33) (by decide) (heatArgs .er sameAB) rfl
  (heatArgs_ok _ _) (by decide +revert) (by decide +revert) (by decide +revert) (by decide +revert) (fun _ => by decide +revert) _ (heatOrders_ok _)

/-- The lines of this example for dimension 4 -/
example : heatLines false 4 (doubled 1 4) (doubled 1 8) (doubled 2 2)
    (fun x y => meetings (drawn ((heatEnv 33).rnd 4 4) (4 * x)) (drawn ((heatEnv 33).rnd 4 4) (4 * y))) =
    [[4, 1, 1, 2, 4], [4, 1, 2, 2, 8], [4, 1, 4, 2, 16], [4, 1, 8, 2, 16], [4, 2, 1, 2, 8], [4, 2, 2, 2, 16], [4, 2, 4, 2, 32], [4, 2, 8, 2, 32],
      [4, 4, 1, 2, 16], [4, 4, 2, 2, 32], [4, 4, 4, 2, 64], [4, 4, 8, 2, 64]] := by decide +kernel

/-- The R-MAT parameters meet the hypotheses for 4 vertices. -/
theorem heatGraph (l : List Nat) : ∃ fuel, 32 < fuel ∧ ∀ deg ∈ l, ∃ G, _root_.Verif.Model.Rmat.rmat ratArith ratPar ratStreams 2 deg fuel = .ok G := by
  induction l with
  | nil => exact ⟨33, by decide, by simp⟩
  | cons d l ih =>
    obtain ⟨f, hf, h⟩ := ih
    obtain ⟨f', G, hG, -⟩ := C89_ends ratArith _root_.Verif.Model.Rmat.getParams rfl rfl rfl (by decide) (by decide) ratPar ratStreams
      (fun _ => by simp only [ratStreams]; norm_num) (n := 2 ^ 2) (by decide) (by decide) (2 ^ 2 * d) fun k => ⟨k, Nat.le_refl _, ratStreams_succeeds k⟩
    refine ⟨max f f', by omega, fun deg hd => ?_⟩
    rcases List.mem_cons.1 hd with rfl | hd
    · exact ⟨G, _root_.Verif.Model.Rmat.graphGen_mono (le_max_right f f') hG⟩
    · obtain ⟨G, hG⟩ := h deg hd
      exact ⟨G, _root_.Verif.Model.Rmat.graphGen_mono (le_max_left f f') hG⟩

example (sameAB : Bool) : ∃ (fuel : Nat) (G : Nat → Nat → List (Nat × Nat × Int)) (K : Nat), ∀ calls : Calls,
    (∀ d i j k g c, Admissible d (calls d i j k g c)) → Good (∀ d i j k g c, Fair 3 K (calls d i j k g c))
      (heatLines sameAB 4 [1, 2, 4] [1, 2, 4, 8] [2] fun x y => meetings (edgePos (G 4 x)) (edgePos (G 4 y)))
      (main (heatEnv fuel) { heatArgs .rmat sameAB with dimMax := 4 } (heatOrders { heatArgs .rmat sameAB with dimMax := 4 }) calls) := by
  obtain ⟨fuel, hf, h⟩ := heatGraph [1, 2, 4, 8]
  obtain ⟨G, hG⟩ : ∃ G : Nat → List (Nat × Nat × Int), ∀ deg ∈ [1, 2, 4, 8],
      _root_.Verif.Model.Rmat.rmat ratArith ratPar ratStreams 2 deg fuel = .ok (G deg) :=
    ⟨fun deg => if hd : deg ∈ [1, 2, 4, 8] then (h deg hd).choose else [], fun deg hd => by simp only [dif_pos hd]; exact (h deg hd).choose_spec⟩
  obtain ⟨K, hK⟩ := C90_rmat_partial (heatEnv fuel) edgeSort_sorts (fun _ => by simp only [heatEnv, ratStreams]; norm_num) hf
    { heatArgs .rmat sameAB with dimMax := 4 } rfl (by constructor <;> revert sameAB <;> decide) (by decide +revert) (by decide +revert) (by decide +revert)
    (fun _ => by decide +revert) (s := 2) rfl (G := fun _ => G)
    (by
      intro scale deg hs hdeg
      have h4 : 2 ^ scale = 2 ^ 2 := by
        have : 2 ^ scale ∈ [4] := hs
        simpa using this
      obtain rfl : scale = 2 := Nat.pow_right_injective (le_refl 2) h4
      have hd : deg ∈ [1, 2, 4, 8] := by
        have : deg ∈ [1, 2, 4] ∨ deg ∈ [1, 2, 4, 8] ∨ deg ∈ [2] := hdeg
        simp only [List.mem_cons, List.not_mem_nil, or_false] at this ⊢
        omega
      exact hG deg hd)
    _ (heatOrders_ok _)
  refine ⟨fuel, fun _ => G, K, fun calls hc => ?_⟩
  have e : ([4].flatMap fun d => heatLines sameAB d [1, 2, 4] [1, 2, 4, 8] [2] fun x y => meetings (edgePos (G x)) (edgePos (G y))) = _ :=
    List.flatMap_singleton _ _
  rw [← e]
  exact hK calls hc

example (ord : Orders) (calls : Calls) := C90_violated_degree (heatEnv 100) { heatArgs .er false with dAMin := 0 } (by decide) (by decide) rfl ord calls
example (ord : Orders) (calls : Calls) := C90_violated_dimension (heatEnv 100) { heatArgs .er false with dimMax := 2 ^ 31 } (s := 2) (.inr ⟨by decide, rfl⟩)
  (by decide) ord calls
example (ord : Orders) (calls : Calls) := C90_violated_same (heatEnv 100) { heatArgs .er true with dBMax := 2 } rfl (by decide) (by decide)
  (by constructor <;> decide) (by decide) (by decide) (by decide) ord calls
example := C90_violated_entries (heatEnv 100) sortPos_sorts [] (rows := 2 ^ 20) (deg := 2 ^ 12) (by decide) 7
example (ord : Orders) (calls : Calls) := C90_violated_rmat_one (heatEnv 100) { heatArgs .rmat false with dimMin := 1 } rfl rfl (by decide) (by decide) (by decide)
  ord calls

end Verif.Props
