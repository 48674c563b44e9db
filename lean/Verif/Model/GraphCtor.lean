import Verif.Model.Convert

/-!
# Constructors from a generated graph

Models `CSR(graph &)` (`CSR.h` 243-322) and `CSC(graph &)` (`CSC.h` 151-234). The graph is given by its three arrays
`start`, `end` and `w` (here one list of triples) and the number of vertices. The weights are taken as values of the
matrix. `std::sort` is a parameter. Output to the terminal is left out.
-/

namespace Verif.Conv

variable {V : Type}

/-- `simpleG.back().val += w` (`CSR.h` 270, 288) -/
def addBack (add : V → V → V) (out : List (Nat × Nat × V)) (w : V) : Res (List (Nat × Nat × V)) :=
  match out.getLast? with
  | none => .error .oob
  | some t => .ok (out.dropLast ++ [(t.1, t.2.1, add t.2.2 w)])

/-- the body of the loop over one group, `CSR.h` 269-275 and 287-293 -/
def joinNext (add : V → V → V) (curr : List ((Nat × Nat) × V)) (i : Nat) (out : List (Nat × Nat × V)) :
    Res (List (Nat × Nat × V)) := do
  let a ← rd curr i
  let b ← rd curr (i + 1)
  if a.1 = b.1 then addBack add out b.2 else .ok (out ++ [(b.1.1, b.1.2, b.2)])

/-- One group of edges with the same start: sort, then merge equal edges. `CSR.h` 265-276, 283-294, `CSC.h` 177-188,
195-205. -/
def joinGroup (add : V → V → V) (sortf : List ((Nat × Nat) × V) → List ((Nat × Nat) × V))
    (curr : List ((Nat × Nat) × V)) (out : List (Nat × Nat × V)) : Res (List (Nat × Nat × V)) := do
  let curr := sortf curr
  let t ← rd curr 0
  forRange 0 (curr.length - 1) (out ++ [(t.1.1, t.1.2, t.2)]) (joinNext add curr)

/-- `make_pair(make_pair(G.start[k], G.end[k]), G.w[k])` -/
def edgePair (edges : List (Nat × Nat × V)) (k : Nat) : Res ((Nat × Nat) × V) := do
  let t ← rd edges k
  .ok ((t.1, t.2.1), t.2.2)

/-- the test and the branch `CSR.h` 264-277: a new start closes the group -/
def closeGroup (add : V → V → V) (sortf : List ((Nat × Nat) × V) → List ((Nat × Nat) × V)) (same : Bool)
    (s : List (Nat × Nat × V) × List ((Nat × Nat) × V)) :
    Res (List (Nat × Nat × V) × List ((Nat × Nat) × V)) :=
  if same then .ok s
  else do
    let out ← joinGroup add sortf s.2 s.1
    .ok (out, [])

/-- `CSR.h` 260-294, `CSC.h` 172-205: edges in groups of equal start, parallel edges merged. -/
def simpleEdges (add : V → V → V) (sortf : List ((Nat × Nat) × V) → List ((Nat × Nat) × V))
    (edges : List (Nat × Nat × V)) : Res (List (Nat × Nat × V)) := do
  let e ← edgePair edges 0
  let s ← forRange 0 (edges.length - 1) (([] : List (Nat × Nat × V)), [e]) (fun k s => do
    let a ← rd edges k
    let b ← rd edges (k + 1)
    let s ← closeGroup add sortf (decide (a.1 = b.1)) s
    let e ← edgePair edges (k + 1)
    .ok (s.1, s.2 ++ [e]))
  joinGroup add sortf s.2 s.1

/-- `CSR.h` 300-321, `CSC.h` 212-233: placement by counting. `key` selects the row (CSR) or the column (CSC) of a
triple, `id` the other one. The result is the pointer, index and value array. -/
def placeTriples (dflt : V) (n : Nat) (key id : Nat × Nat × V → Nat) (ts : List (Nat × Nat × V)) :
    Res (List Nat × List Nat × List V) := do
  let ptr := List.replicate (n + 1) 0
  let ids := List.replicate ts.length 0
  let values := List.replicate ts.length dflt
  let work ← countKeys (fun k => do let t ← rd ts k; .ok (key t)) ts.length (List.replicate n 0)
  if ts.length > 0 then
    let (work, total) ← cumulativeSum work n
    let ptr ← wr ptr n total
    let ptr ← copyN work n ptr
    let (_, ids, values) ← forRange 0 ts.length (work, ids, values) (fun k (work, ids, values) => do
      let t ← rd ts k
      let last ← rd work (key t)
      let work ← wr work (key t) (last + 1)
      let ids ← wr ids last (id t)
      let values ← wr values last t.2.2
      .ok (work, ids, values))
    .ok (ptr, ids, values)
  else .ok (ptr, ids, values)

/-- `CSR(graph &)`, `CSR.h` 243-322. -/
def csrOfGraph (add : V → V → V) (sortf : List ((Nat × Nat) × V) → List ((Nat × Nat) × V)) (dflt : V) (n : Nat)
    (edges : List (Nat × Nat × V)) : Res (CSR V) := do
  let ts ← simpleEdges add sortf edges
  let (ptr, ids, values) ← placeTriples dflt n (·.1) (·.2.1) ts
  .ok { rows := n, cols := n, nnz := ts.length, rowptr := ptr, colids := ids, values := values, zerobased := true }

/-- `CSC(graph &)`, `CSC.h` 151-234. -/
def cscOfGraph (add : V → V → V) (sortf : List ((Nat × Nat) × V) → List ((Nat × Nat) × V)) (dflt : V) (n : Nat)
    (edges : List (Nat × Nat × V)) : Res (CSC V) := do
  let ts ← simpleEdges add sortf edges
  let (ptr, ids, values) ← placeTriples dflt n (·.2.1) (·.1) ts
  .ok { rows := n, cols := n, nnz := ts.length, colptr := ptr, rowids := ids, values := values }

end Verif.Conv
