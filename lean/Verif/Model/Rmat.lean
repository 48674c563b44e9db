import Verif.Model.Scan
import Verif.Model.SumAll

/-!
# The generator of R-MAT graphs

Models `graphGen`, `choosePartition` and `varyParams` of `/repo/GTgraph/R-MAT/graph.c`, `setGTgraphParams` of `init.c`, and the sorting
functions of `utils.c` in the same directory.

Simplifications. Vertices and numbers of edges have no bound (`long` there). The numbers that the random streams return are given by functions.
The arithmetic on the probabilities is a parameter, so that it may be that of `double` with rounding; that on the weights has no rounding.
The branch of `graphGen` that writes the edges to a file while they are generated (`STORE_IN_MEMORY == 0`, graph.c:29-76) is left out.
-/

namespace Verif.Model.Rmat

open Scan (rdu)

/-! ## Edges -/

/-- Arithmetic on probabilities, with the constants 0.05 and 0.5 -/
structure Arith (F : Type) where
  add : F → F → F
  sub : F → F → F
  mul : F → F → F
  div : F → F → F
  lt : F → F → Bool
  small : F
  half : F

variable {F : Type}

/-- The global variables `a`, `b`, `c`, `d` -/
structure Par (F : Type) where
  a : F
  b : F
  c : F
  d : F

/-- `choosePartition`, graph.c:158-182, where the random number is `p` -/
def choosePartition (ar : Arith F) (q : Par F) (p : F) (u v step : Nat) : Nat × Nat :=
  let ab := ar.add q.a q.b
  let abc := ar.add ab q.c
  let abcd := ar.add abc q.d
  if ar.lt p q.a then (u, v)
  else if ar.lt q.a p && ar.lt p ab then (u, v + step)
  else if ar.lt ab p && ar.lt p abc then (u + step, v)
  else if ar.lt abc p && ar.lt p abcd then (u + step, v + step)
  else (u, v)

/-- `*a += *a * v * sprng(stream3)` or `*a -= *a * v * sprng(stream3)`, graph.c:191-194 -/
def vary (ar : Arith F) (x r4 r3 : F) : F :=
  let y := ar.mul (ar.mul x ar.small) r3
  if ar.lt ar.half r4 then ar.add x y else ar.sub x y

/-- The same for `b`, graph.c:196-199: it grows in both cases. -/
def varyB (ar : Arith F) (x r3 : F) : F := ar.add x (ar.mul (ar.mul x ar.small) r3)

/-- `varyParams`, graph.c:184-218. `r3` and `r4` are the next four numbers of the streams 3 and 4. -/
def varyParams (ar : Arith F) (q : Par F) (r3 r4 : Nat → F) : Par F :=
  let a := vary ar q.a (r4 0) (r3 0)
  let b := varyB ar q.b (r3 1)
  let c := vary ar q.c (r4 2) (r3 2)
  let d := vary ar q.d (r4 3) (r3 3)
  let s := ar.add (ar.add (ar.add a b) c) d
  ⟨ar.div a s, ar.div b s, ar.div c s, ar.div d s⟩

/-- The numbers of the random streams, and for stream 2 as numbers between 0 and 1 (graph.c:19-22) -/
structure Streams (F : Type) where
  s1 : Nat → F
  s2 : Nat → ℚ
  s3 : Nat → F
  s4 : Nat → F

/-- `while (step >= 1) { … }`, graph.c:91-95. `t` counts the iterations since the start of the program: each takes one number of stream 1
and four of streams 3 and 4. The result has the vertices (from 1) and the new `t`. At most `fuel` iterations. -/
def walk (ar : Arith F) (st : Streams F) : Nat → Nat → Par F → Nat → Nat → Nat → Res (Nat × Nat × Nat)
  | 0, _, _, _, _, _ => .error .diverge
  | fuel + 1, step, q, u, v, t =>
    if step ≥ 1 then
      let uv := choosePartition ar q (st.s1 t) u v step
      walk ar st fuel (step / 2) (varyParams ar q (fun k => st.s3 (4 * t + k)) fun k => st.s4 (4 * t + k)) uv.1 uv.2 (t + 1)
    else .ok (u, v, t)

/-- The loop over the edges, graph.c:84-106, with at most `fuel` iterations: `es` are the edges so far, `es.length` is `i`. An edge from a vertex to
itself is not stored unless `loops` (`SELF_LOOPS`). -/
def edgeLoop (ar : Arith F) (st : Streams F) (q : Par F) (loops : Bool) (n m : Nat) : Nat → List (Nat × Nat) → Nat → Res (List (Nat × Nat))
  | 0, _, _ => .error .diverge
  | fuel + 1, es, t =>
    if es.length < m then do
      let r ← walk ar st (n + 1) (n / 2) q 1 1 t
      if !loops && r.1 == r.2.1 then edgeLoop ar st q loops n m fuel es r.2.2
      else edgeLoop ar st q loops n m fuel (es ++ [(r.1 - 1, r.2.1 - 1)]) r.2.2
    else .ok es

/-- The weight of edge `i`, graph.c:120-123 -/
def weight (lo hi : Int) (r : ℚ) : Int := SumAll.trunc ((lo : ℚ) + ((hi - lo : Int) : ℚ) * r)

/-! ## Sorting -/

/-- `bits(x, k, j)`, utils.h:11 -/
def bits (x k j : Nat) : Nat := (x >>> k) &&& (2 ^ j - 1)

/-- utils.c:83-100: the starts of the buckets. `psHisto` is a copy of `myHisto`. -/
def offsets (ps : List Nat) (r : Nat) : Res (List Nat × Nat) :=
  forRange 0 r (ps, 0) fun k s => do
    let p ← rd ps k
    let h ← rd s.1 k
    let mhp ← wr s.1 k ((p - h) + s.2)
    .ok (mhp, s.2 + p)

/-- The body of the last loop, utils.c:102-107 -/
def put (off j : Nat) (keys aux : List (Option Nat)) (k : Nat) (s : List Nat × List (Option Nat) × List (Option Nat)) :
    Res (List Nat × List (Option Nat) × List (Option Nat)) := do
  let key ← rdu keys k
  let pos ← rd s.1 (bits key off j)
  let ks ← wr s.2.1 pos (some key)
  let a ← rdu aux k
  let as ← wr s.2.2 pos (some a)
  let mhp ← wr s.1 (bits key off j) (pos + 1)
  .ok (mhp, ks, as)

/-- `countsort_aux`, utils.c:62-111: sorts `q` keys and the numbers that belong to them by `j` bits of the keys. The target arrays are taken as
unset. -/
def countsortAux (q : Nat) (keys aux : List (Option Nat)) (r off j : Nat) : Res (List (Option Nat) × List (Option Nat)) := do
  let h ← forRange 0 q (List.replicate r 0) fun k h => do
    let key ← rdu keys k
    let c ← rd h (bits key off j)
    wr h (bits key off j) (c + 1)
  let mhp ← offsets h r
  let s ← forRange 0 q (mhp.1, List.replicate q none, List.replicate q none) (put off j keys aux)
  .ok s.2

/-- `b[i] = a[index[i]]` for all `i`, utils.c:149-167 -/
def gather {α : Type} (m : Nat) (a : List α) (index : List (Option Nat)) : Res (List α) :=
  (List.range m).mapM fun i => do
    let x ← rdu index i
    rd a x

/-- `countingSort`, utils.c:114-172: the new contents of the three arrays. The keys are sorted together with their positions in three passes. -/
def countingSort {W : Type} (keys aux1 : List Nat) (aux2 : List W) (m : Nat) : Res (List Nat × List Nat × List W) := do
  let p1 ← countsortAux m (keys.map some) ((List.range m).map some) (2 ^ 11) 0 11
  let p2 ← countsortAux m p1.1 p1.2 (2 ^ 11) 11 11
  let p3 ← countsortAux m p2.1 p2.2 (2 ^ 10) 22 10
  let ks ← (List.range m).mapM fun i => rdu p3.1 i
  let a1 ← gather m aux1 p3.2
  let a2 ← gather m aux2 p3.2
  .ok (ks, a1, a2)

/-- The three arrays of `heapSort` -/
abbrev Arrays (W : Type) := List Nat × List Nat × List W

/-- `swapL`, `swapW`, utils.c:216-228 -/
def swap {α : Type} (l : List α) (i j : Nat) : Res (List α) := do
  let x ← rd l i
  let y ← rd l j
  let l ← wr l i y
  wr l j x

def swapAll {W : Type} (s : Arrays W) (i j : Nat) : Res (Arrays W) := do
  let k ← swap s.1 i j
  let a ← swap s.2.1 i j
  let w ← swap s.2.2 i j
  .ok (k, a, w)

/-- utils.c:198-203 -/
def maxChild (keys : List Nat) (root bottom : Nat) : Res Nat := do
  if root * 2 = bottom then .ok (root * 2)
  else
    let x ← rd keys (root * 2)
    let y ← rd keys (root * 2 + 1)
    .ok (if x > y then root * 2 else root * 2 + 1)

/-- `siftDown`, utils.c:191-214, with at most `fuel` iterations -/
def siftDown {W : Type} : Nat → Arrays W → Nat → Nat → Res (Arrays W)
  | 0, _, _, _ => .error .diverge
  | fuel + 1, s, root, bottom =>
    if root * 2 ≤ bottom then do
      let c ← maxChild s.1 root bottom
      let x ← rd s.1 root
      let y ← rd s.1 c
      if x < y then do
        let s ← swapAll s root c
        siftDown fuel s c bottom
      else .ok s
    else .ok s

/-- `heapSort`, utils.c:174-188 -/
def heapSort {W : Type} (s : Arrays W) (n : Nat) : Res (Arrays W) := do
  let s ← (List.range (n / 2)).reverse.foldlM (fun s i => siftDown (n + 1) s i n) s
  ((List.range n).tail.reverse).foldlM (fun s i => do
    let s ← swapAll s 0 i
    siftDown (n + 1) s 0 (i - 1)) s

/-! ## The generator -/

/-- The other global variables: `SELF_LOOPS`, `MIN_WEIGHT`, `MAX_WEIGHT`, `SORT_EDGELISTS`, `SORT_TYPE` -/
structure Opts where
  loops : Bool
  lo : Int
  hi : Int
  sort : Bool
  heap : Bool

/-- `getParams`, init.c:111-133 -/
def getParams : Opts := ⟨false, 0, 100, true, false⟩

/-- graph.c:133-144 -/
def sortEdges (o : Opts) (s : Arrays Int) (m : Nat) : Res (Arrays Int) :=
  if o.sort then (if o.heap then heapSort s m else countingSort s.1 s.2.1 s.2.2 m) else .ok s

/-- `graphGen`, graph.c:4-155, with at most `fuel` attempts to make an edge: the edges with their weights -/
def graphGen (ar : Arith F) (o : Opts) (q : Par F) (st : Streams F) (n m fuel : Nat) : Res (List (Nat × Nat × Int)) := do
  let es ← edgeLoop ar st q o.loops n m fuel [] 0
  let s ← sortEdges o (es.map (·.1), es.map (·.2), (List.range m).map fun i => weight o.lo o.hi (st.s2 i)) m
  .ok (s.1.zip (s.2.1.zip s.2.2))

/-- `getParams`, `setGTgraphParams` (init.c:135-143) and `graphGen`: the graph with `2 ^ scale` vertices and `factor` times as many edges -/
def rmat (ar : Arith F) (q : Par F) (st : Streams F) (scale factor fuel : Nat) : Res (List (Nat × Nat × Int)) :=
  graphGen ar getParams q st (2 ^ scale) (2 ^ scale * factor) fuel

end Verif.Model.Rmat
