import Verif.Csr

/-!
# Specification of submatrix extraction
-/

namespace Verif.Spec

variable {V : Type _}

/-- `C` is the submatrix `A(ri, ci)`: its entry in row `p` and column `q` is the entry of `A` in row `ri[p]` and column `ci[q]`. -/
structure IsSubmatrix (A : CSC V) (ri ci : List Nat) (C : CSC V) : Prop where
  wf : C.WF
  rows : C.rows = ri.length
  cols : C.cols = ci.length
  entries : ∀ q c, ci[q]? = some c → ∀ p v, (p, v) ∈ C.col q ↔ ∃ r, ri[p]? = some r ∧ (r, v) ∈ A.col c
  nodup : ∀ q < C.cols, (C.colRows q).Nodup

/-- The columns of `C` are the columns `ci` of `A`, each without the entries outside the rows `ri`. Unlike in the submatrix, the
entries keep their row numbers. -/
structure Selects (A : CSC V) (ri ci : List Nat) (C : CSC V) : Prop where
  rows : C.rows = ri.length
  cols : C.cols = ci.length
  entries : ∀ q c, ci[q]? = some c → C.col q = (A.col c).filter fun x => decide (x.1 ∈ ri)

/-- Some entry of `A` is in the rows `ri` and the columns `ci`. -/
def Meets (A : CSC V) (ri ci : List Nat) : Prop := ∃ c ∈ ci, ∃ r ∈ ri, r ∈ A.colRows c

end Verif.Spec
