import Verif.Model.Race
import Verif.Model.HeapGen

/-!
# Memory accesses of the threads: the generic heap driver

`HeapSpGEMM<RowAlgorithm>` of `/repo/heap_mult_generic.h` as programs of loads and stores, see `Verif.Model.Race`. The buffers, the heap and
the flags of a row algorithm belong to its thread and are private; `rowNvals[i]` is all a row algorithm writes of the shared memory. Not
listed: the team that only counts its threads (lines 725-727, `omp single`), and `scan`, for which see `Verif.Model.RaceOuter`. The part
behind the second barrier is `Race.prog3`; there `threadsNvals[t]` is read again for every pair, while lines 802-803 use the thread's own
copy `threadNvals`, so that more loads are listed than there are (nobody writes that array in this part). The `master` block
(lines 783-788) and `std::accumulate` of line 791 read `threadsNvals` only, the block writes nothing that others read before the barrier.
-/

namespace Verif.Model.Gen

open Race (Prog Access trace shMem prog3)

variable {V : Type}

/-- `Gen.step`, heap_mult_generic.h:774-777; the store is line 132, 194, 283, 359, 470, 568, 639 or 711. -/
def prog (alg : Alg V) (mul add : V → V → V) (A B M : CSR V) (t : Nat) (l : Loc alg.Aux V) : Prog V (Loc alg.Aux V) :=
  if l.row < l.stop then
    .lift (alg.row mul add A B M l.row l.aux l.buf) fun r =>
      match r.2.2 with
      | none => .ret { l with row := l.row + 1, aux := r.1, buf := r.2.1 }
      | some k => .store .rowNvals l.row k (.ret { l with row := l.row + 1, aux := r.1, buf := r.2.1, nvals := l.nvals + k })
  else .store .threadsNvals t l.nvals (.ret { l with done := true })

/-- The accesses of a call of `HeapSpGEMM<RowAlgorithm>`, region by region: the loop of `getFlop` (heap_mult_generic.h:18-28; every
iteration counts as a thread of its own, `maxnnzc` is called `flopsPerRow` here) and the two parts of the main region (752-807). -/
def traces (alg : Alg V) (mul add : V → V → V) (zero : V) (A B M : CSR V) (numThreads dflt : Nat) (sch : Scheds) :
    List (List (Nat × Access)) :=
  let n := setNumThreads numThreads dflt
  sch.flops.map (fun i => (i, ⟨.flopsPerRow, i, true⟩)) ::
  match plan A B dflt sch with
  | .ok (some (maxnnzc, flops, rowStart)) =>
    match setup n (range rowStart flops A.rows n) with
    | .ok rngs =>
      match rngs.mapM (start alg zero A M maxnnzc) with
      | .ok (l0 :: ls) =>
        let g : Sh V := { rowNvals := List.replicate A.rows (some 0), threadsNvals := List.replicate n (some 0) }
        trace shMem n (prog alg mul add A B M) (·.done) sch.first g (fun t => (l0 :: ls).getD t l0) ::
        match phase n (step alg mul add A B M) (·.done) sch.first g (fun t => (l0 :: ls).getD t l0) with
        | .ok (some (g, ls)) =>
          match alloc A.rows n g with
          | .ok g => [trace shMem n (prog3 A.rows n (fun t => rngs.getD t (0, 0)) (fun t => (ls t).out)) (· == .done)
              sch.second g (fun _ => .start)]
          | .error _ => []
        | _ => []
      | _ => []
    | .error _ => []
  | _ => []

end Verif.Model.Gen
