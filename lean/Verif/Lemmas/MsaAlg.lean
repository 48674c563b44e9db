import Verif.Model.MsaAlg
import Verif.Lemmas.Msa
import Verif.Lemmas.Masked

/-! # MSA meets the contract of the drivers -/

namespace Verif.Model.Msa

variable {V : Type}

theorem fresh1_eq (n : Nat) : (fresh1 n : Acc1 V) = clean1 n := by
  unfold fresh1 clean1 mk1 tab
  simp [List.map_const', dflt]

theorem fresh2_eq (n : Nat) : (fresh2 n : Acc2 V) = clean2 n := by
  unfold fresh2 clean2 mk2 tab
  simp [List.map_const', dflt]

theorem freshS_eq (n : Nat) : freshS n = cleanS n := by
  unfold freshS cleanS mkS tab
  simp [List.map_const']

/-- Inputs on which MSA works. -/
structure Inputs (A B M : CSR V) : Prop where
  wfA : A.WF
  wfB : B.WF
  wfM : M.WF
  sh : Spec.Shapes A B M
  nodup : M.NodupRows

theorem Inputs.ok {A B M : CSR V} (h : Inputs A B M) {i : Nat} (hi : i < A.rows) : Ok A B M i :=
  ⟨h.wfA, h.wfB, h.wfM, h.sh, h.nodup i (h.sh.ma ▸ hi), hi⟩

variable {mul add : V → V → V} {A B M : CSR V}

theorem contract1 (h : Inputs A B M) : Contract msa1 mul add A B M (maskedRow mul add A B M) where
  bound := fun i hi => maskedRow_bound h.wfM (h.nodup i (h.sh.ma ▸ hi))
  num := fun _ => ⟨(· = clean1 B.cols), fresh1_eq _, by
    rintro i hi - - f - acc rfl
    exact ⟨_, numericRow1_eq (h.ok hi) mul add, rfl⟩⟩
  sym := fun _ => ⟨(· = cleanS B.cols), freshS_eq _, by
    rintro i hi - - acc rfl
    exact ⟨_, symbolicRow_eq (h.ok hi) mul add, rfl⟩⟩

theorem contract2 (h : Inputs A B M) : Contract msa2 mul add A B M (maskedRow mul add A B M) where
  bound := fun i hi => maskedRow_bound h.wfM (h.nodup i (h.sh.ma ▸ hi))
  num := fun _ => ⟨(· = clean2 B.cols), fresh2_eq _, by
    rintro i hi - - f - acc rfl
    exact ⟨_, numericRow2_eq (h.ok hi) mul add, rfl⟩⟩
  sym := fun _ => ⟨(· = cleanS B.cols), freshS_eq _, by
    rintro i hi - - acc rfl
    exact ⟨_, symbolicRow_eq (h.ok hi) mul add, rfl⟩⟩

theorem symC (h : Inputs A B M) (sorted : Bool) {i : Nat} (hi : i < A.rows) :
    (do let r ← symbolicRowC A B M i (cleanS B.cols)
        toCount r : Res (SAcc × Nat)) = .ok (cleanS B.cols, (complRow sorted mul add A B M i).length) := by
  rw [symbolicRowC_eq (h.ok hi) sorted mul add]
  simp [toCount]

theorem contract1C (h : Inputs A B M) (sorted : Bool) :
    Contract (msa1C sorted) mul add A B M (complRow sorted mul add A B M) where
  bound := fun i _ => complRow_bound
  num := fun _ => ⟨(· = clean1 B.cols), fresh1_eq _, by
    rintro i hi - - f - acc rfl
    exact ⟨_, numericRow1C_eq (h.ok hi) sorted mul add, rfl⟩⟩
  sym := fun _ => ⟨(· = cleanS B.cols), freshS_eq _, by
    rintro i hi - - acc rfl
    exact ⟨_, symC h sorted hi, rfl⟩⟩

theorem contract2C (h : Inputs A B M) (sorted : Bool) :
    Contract (msa2C sorted) mul add A B M (complRow sorted mul add A B M) where
  bound := fun i _ => complRow_bound
  num := fun _ => ⟨(· = clean2 B.cols), fresh2_eq _, by
    rintro i hi - - f - acc rfl
    exact ⟨_, numericRow2C_eq (h.ok hi) sorted mul add, rfl⟩⟩
  sym := fun _ => ⟨(· = cleanS B.cols), freshS_eq _, by
    rintro i hi - - acc rfl
    exact ⟨_, symC h sorted hi, rfl⟩⟩

end Verif.Model.Msa
