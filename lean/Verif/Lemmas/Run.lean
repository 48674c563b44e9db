import Verif.Run
import Verif.Lemmas.Driver

/-! # Drivers: from the contract to `Computes` -/

namespace Verif.Model

open Spec

variable {V : Type} {alg : RowAlg V} {mul add : V → V → V} {A B M : CSR V} {exp : Nat → List (Nat × V)}

theorem not_starved {n K : Nat} {sch : Scheds} (h : Fair n K sch) : ¬ Starved n K sch := by
  rintro ⟨t, ht, hc⟩
  have := h t ht
  omega

theorem computes1p_num (hA : A.WF) (hB : B.WF) (hM : M.WF) (sh : Spec.Shapes A B M)
    (hc : Contract1 alg mul add A B M exp) (hrows : 0 < A.rows) (zb : Bool) {nt dflt : Nat}
    (hn : 0 < setNumThreads nt dflt) :
    Computes (spgemm1p alg mul add A B M zb nt dflt) A.rows (setNumThreads nt dflt)
      (ofRows A.rows B.cols zb exp) where
  safe := fun sch ho => (spgemm1p_spec hA hB hM sh hc hrows zb hn sch ho).imp (·.1) id
  live := ⟨stepBound exp A.rows, fun sch ho hf =>
    (spgemm1p_spec hA hB hM sh hc hrows zb hn sch ho).resolve_left (fun h => not_starved hf h.2)⟩

theorem computes1p (hA : A.WF) (hB : B.WF) (hM : M.WF) (sh : Spec.Shapes A B M)
    (hc : Contract alg mul add A B M exp) (hrows : 0 < A.rows) (zb : Bool) {nt dflt : Nat}
    (hn : 0 < setNumThreads nt dflt) :
    Computes (spgemm1p alg mul add A B M zb nt dflt) A.rows (setNumThreads nt dflt)
      (ofRows A.rows B.cols zb exp) :=
  computes1p_num hA hB hM sh hc.toContract1 hrows zb hn

theorem computes2p (hA : A.WF) (hB : B.WF) (hM : M.WF) (sh : Spec.Shapes A B M)
    (hc : Contract alg mul add A B M exp) (hrows : 0 < A.rows) (zb : Bool) {nt dflt : Nat}
    (hn : 0 < setNumThreads nt dflt) :
    Computes (spgemm2p alg mul add A B M zb nt dflt) A.rows (setNumThreads nt dflt)
      (ofRows A.rows B.cols zb exp) where
  safe := fun sch ho => (spgemm2p_spec hA hB hM sh hc hrows zb hn sch ho).imp (·.1) id
  live := ⟨stepBound exp A.rows, fun sch ho hf =>
    (spgemm2p_spec hA hB hM sh hc hrows zb hn sch ho).resolve_left (fun h => not_starved hf h.2)⟩

end Verif.Model
