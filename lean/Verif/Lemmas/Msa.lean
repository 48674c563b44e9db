import Verif.Model.Msa
import Verif.Lemmas.Expected

/-! # Proofs about the MSA row algorithms -/

namespace Verif.Model.Msa

variable {V : Type _}

theorem not_mem_of_nodup_split {α : Type _} {ms pre post : List α} {a : α} (hn : ms.Nodup)
    (hl : ms = pre ++ a :: post) : a ∉ pre := by
  rw [hl, List.nodup_append] at hn
  intro h
  exact hn.2.2 a h a (by simp) rfl

/-- Expected accumulator entry for column `j` after the products `ps`. -/
def E (compl : Bool) (add : V → V → V) (ms : List Nat) (ps : List (Nat × V)) (j : Nat) : Entry V :=
  if (j ∈ ms) = (compl = true) then ⟨NOT_ALLOWED compl, none⟩ else
    match Spec.sum1 add (pick ps j) with
    | none => ⟨ALLOWED compl, none⟩
    | some v => ⟨INITIALIZED, some v⟩

/-- The entry of a clean accumulator. -/
def dflt : Entry V := ⟨255, none⟩

theorem E_nil_nil (compl : Bool) (add : V → V → V) : E compl add [] [] = fun _ => dflt := by
  funext j
  cases compl <;> simp [E, dflt, NOT_ALLOWED, ALLOWED, Spec.sum1]

/-- Is column `j` blocked by the mask? -/
def blocked (compl : Bool) (ms : List Nat) (j : Nat) : Prop := (j ∈ ms) = (compl = true)

theorem blocked_false {ms : List Nat} {j : Nat} : blocked false ms j ↔ j ∉ ms := by
  simp [blocked]

theorem blocked_true {ms : List Nat} {j : Nat} : blocked true ms j ↔ j ∈ ms := by
  simp [blocked]

theorem E_blocked {compl : Bool} {add : V → V → V} {ms : List Nat} {ps : List (Nat × V)} {j : Nat}
    (h : blocked compl ms j) : E compl add ms ps j = ⟨NOT_ALLOWED compl, none⟩ := by
  unfold blocked at h
  rw [E, if_pos h]

theorem E_none {compl : Bool} {add : V → V → V} {ms : List Nat} {ps : List (Nat × V)} {j : Nat}
    (h : ¬ blocked compl ms j) (hs : Spec.sum1 add (pick ps j) = none) :
    E compl add ms ps j = ⟨ALLOWED compl, none⟩ := by
  unfold blocked at h
  rw [E, if_neg h, hs]

theorem E_some {compl : Bool} {add : V → V → V} {ms : List Nat} {ps : List (Nat × V)} {j : Nat} {v : V}
    (h : ¬ blocked compl ms j) (hs : Spec.sum1 add (pick ps j) = some v) :
    E compl add ms ps j = ⟨INITIALIZED, some v⟩ := by
  unfold blocked at h
  rw [E, if_neg h, hs]

theorem E_snoc_ne {compl : Bool} {add : V → V → V} {ms : List Nat} {ps : List (Nat × V)} {c : Nat} {w : V}
    {j : Nat} (h : j ≠ c) : E compl add ms (ps ++ [(c, w)]) j = E compl add ms ps j := by
  have : ¬ (c = j) := fun h' => h h'.symm
  simp [E, pick_append, pick_cons, this]

theorem E_snoc_blocked {compl : Bool} {add : V → V → V} {ms : List Nat} {ps : List (Nat × V)}
    {c : Nat} {w : V} (h : blocked compl ms c) :
    E compl add ms (ps ++ [(c, w)]) = E compl add ms ps := by
  funext j
  by_cases hj : j = c
  · subst hj; rw [E_blocked h, E_blocked h]
  · exact E_snoc_ne hj

theorem E_snoc_none {compl : Bool} {add : V → V → V} {ms : List Nat} {ps : List (Nat × V)}
    {c : Nat} {w : V} (h : ¬ blocked compl ms c) (hs : Spec.sum1 add (pick ps c) = none) :
    E compl add ms (ps ++ [(c, w)]) = upd (E compl add ms ps) c ⟨INITIALIZED, some w⟩ := by
  funext j
  by_cases hj : j = c
  · subst hj
    rw [E_some h (v := w)]
    · simp
    · simp [pick_append, pick_cons, sum1_append_singleton, hs]
  · rw [E_snoc_ne hj, upd_ne _ _ hj]

theorem E_snoc_some {compl : Bool} {add : V → V → V} {ms : List Nat} {ps : List (Nat × V)}
    {c : Nat} {w : V} {v : V} (h : ¬ blocked compl ms c) (hs : Spec.sum1 add (pick ps c) = some v) :
    E compl add ms (ps ++ [(c, w)]) = upd (E compl add ms ps) c ⟨INITIALIZED, some (add v w)⟩ := by
  funext j
  by_cases hj : j = c
  · subst hj
    rw [E_some h (v := add v w)]
    · simp
    · simp [pick_append, pick_cons, sum1_append_singleton, hs]
  · rw [E_snoc_ne hj, upd_ne _ _ hj]

/-- Marking one more mask column. -/
theorem E_mask_snoc {compl : Bool} {add : V → V → V} {ms : List Nat} {c : Nat} (h : c ∉ ms) :
    E compl add (ms ++ [c]) [] = upd (E compl add ms []) c
      ⟨if compl then NOT_ALLOWED compl else ALLOWED compl, none⟩ := by
  funext j
  by_cases hj : j = c
  · subst hj
    cases compl <;> simp [E, Spec.sum1]
  · rw [upd_ne _ _ hj]
    simp [E, hj]

theorem E_mask_get {compl : Bool} {add : V → V → V} {ms : List Nat} {c : Nat} (h : c ∉ ms) :
    E compl add ms [] c = ⟨if compl then ALLOWED compl else NOT_ALLOWED compl, none⟩ := by
  cases compl <;> simp [E, h, Spec.sum1]

/-! ## Representations -/

/-- One-array accumulator with entries `F`. -/
def mk1 (n : Nat) (F : Nat → Entry V) (d : List Nat) : Acc1 V := ⟨tab n F, d⟩

/-- Two-array accumulator with entries `F`. -/
def mk2 (n : Nat) (F : Nat → Entry V) (d : List Nat) : Acc2 V :=
  ⟨tab n fun j => (F j).state, tab n fun j => (F j).value, d⟩

/-- Symbolic accumulator with states `S`. -/
def mkS (n : Nat) (S : Nat → Nat) (d : List Nat) : SAcc := ⟨tab n S, d⟩

theorem get1 {n c : Nat} {F : Nat → Entry V} {d : List Nat} (h : c < n) :
    (mk1 n F d).get c = .ok (F c) := by
  simp [mk1, Acc1.get, h, rd_tab]

theorem put1 {n c : Nat} {F : Nat → Entry V} {d : List Nat} {e : Entry V} (h : c < n) :
    (mk1 n F d).put c e = .ok (mk1 n (upd F c e) d) := by
  simp [mk1, Acc1.put, wr_tab h]

theorem getState2 {n c : Nat} {F : Nat → Entry V} {d : List Nat} (h : c < n) :
    (mk2 n F d).getState c = .ok (F c).state := by
  simp [mk2, Acc2.getState, h, rd_tab]

theorem getValue2 {n c : Nat} {F : Nat → Entry V} {d : List Nat} {v : V} (h : c < n)
    (hv : (F c).value = some v) : (mk2 n F d).getValue c = .ok v := by
  simp [mk2, Acc2.getValue, h, rd_tab, hv]

theorem rdValues2 {n c : Nat} {F : Nat → Entry V} {d : List Nat} {v : V} (h : c < n)
    (hv : (F c).value = some v) : rd (mk2 n F d).values c = .ok (some v) := by
  simp [mk2, h, rd_tab, hv]

theorem state_upd {F : Nat → Entry V} {c : Nat} {e : Entry V} :
    (fun j => (upd F c e j).state) = upd (fun j => (F j).state) c e.state := by
  funext j; by_cases h : j = c <;> simp [upd, h]

theorem value_upd {F : Nat → Entry V} {c : Nat} {e : Entry V} :
    (fun j => (upd F c e j).value) = upd (fun j => (F j).value) c e.value := by
  funext j; by_cases h : j = c <;> simp [upd, h]

theorem upd_self {α : Type _} {f : Nat → α} {c : Nat} {x : α} (h : f c = x) : upd f c x = f := by
  funext j; by_cases hj : j = c
  · subst hj; simp [h]
  · simp [upd_ne _ _ hj]

theorem putState2 {n c : Nat} {F : Nat → Entry V} {d : List Nat} {s : Nat} (h : c < n) :
    (mk2 n F d).putState c s = .ok (mk2 n (upd F c { F c with state := s }) d) := by
  simp only [mk2, Acc2.putState, wr_tab h, ok_bind, state_upd, value_upd]
  rw [upd_self (f := fun j => (F j).value) (c := c) rfl]

theorem putValue2 {n c : Nat} {F : Nat → Entry V} {d : List Nat} {v : Option V} (h : c < n) :
    (mk2 n F d).putValue c v = .ok (mk2 n (upd F c { F c with value := v }) d) := by
  simp only [mk2, Acc2.putValue, wr_tab h, ok_bind, state_upd, value_upd]
  rw [upd_self (f := fun j => (F j).state) (c := c) rfl]

theorem upd_upd {α : Type _} {f : Nat → α} {c : Nat} {x y : α} : upd (upd f c x) c y = upd f c y := by
  funext j; by_cases hj : j = c <;> simp [upd, hj]

/-! ## Marking the mask -/

theorem allow1 {n : Nat} {add : V → V → V} {ms : List Nat} (hn : ms.Nodup) (hlt : ∀ c ∈ ms, c < n) :
    ms.foldlM (fun acc c => Acc1.setAllowed false acc c) (mk1 n (E false add [] []) [])
      = .ok (mk1 n (E false add ms []) []) := by
  refine foldlM_desc (fun pre => mk1 n (E false add pre []) []) ms ?_
  intro pre a post hl
  have ha : a < n := hlt a (by simp [hl])
  have hap := not_mem_of_nodup_split hn hl
  simp only [Acc1.setAllowed, get1 ha, ok_bind, E_mask_snoc hap, E_mask_get hap]
  simp [put1 ha]

theorem block1 {n : Nat} {add : V → V → V} {ms : List Nat} (hn : ms.Nodup) (hlt : ∀ c ∈ ms, c < n) :
    ms.foldlM (fun acc c => Acc1.setNotAllowed true acc c) (mk1 n (E true add [] []) [])
      = .ok (mk1 n (E true add ms []) []) := by
  refine foldlM_desc (fun pre => mk1 n (E true add pre []) []) ms ?_
  intro pre a post hl
  have ha : a < n := hlt a (by simp [hl])
  have hap := not_mem_of_nodup_split hn hl
  simp only [Acc1.setNotAllowed, get1 ha, ok_bind, E_mask_snoc hap, E_mask_get hap]
  simp [put1 ha]

theorem allow2 {n : Nat} {add : V → V → V} {ms : List Nat} (hn : ms.Nodup) (hlt : ∀ c ∈ ms, c < n) :
    ms.foldlM (fun acc c => Acc2.setAllowed false acc c) (mk2 n (E false add [] []) [])
      = .ok (mk2 n (E false add ms []) []) := by
  refine foldlM_desc (fun pre => mk2 n (E false add pre []) []) ms ?_
  intro pre a post hl
  have ha : a < n := hlt a (by simp [hl])
  have hap := not_mem_of_nodup_split hn hl
  simp only [Acc2.setAllowed, getState2 ha, ok_bind, E_mask_snoc hap, E_mask_get hap]
  simp [putState2 ha, E_mask_get hap]

theorem block2 {n : Nat} {add : V → V → V} {ms : List Nat} (hn : ms.Nodup) (hlt : ∀ c ∈ ms, c < n) :
    ms.foldlM (fun acc c => Acc2.setNotAllowed true acc c) (mk2 n (E true add [] []) [])
      = .ok (mk2 n (E true add ms []) []) := by
  refine foldlM_desc (fun pre => mk2 n (E true add pre []) []) ms ?_
  intro pre a post hl
  have ha : a < n := hlt a (by simp [hl])
  have hap := not_mem_of_nodup_split hn hl
  simp only [Acc2.setNotAllowed, getState2 ha, ok_bind, E_mask_snoc hap, E_mask_get hap]
  simp [putState2 ha, E_mask_get hap]

/-! ## Accumulating -/

/-- products of visited triples -/
def pr (mul : V → V → V) (vs : List (Nat × V × V)) : List (Nat × V) :=
  vs.map fun x => (x.1, mul x.2.1 x.2.2)

theorem pr_snoc (mul : V → V → V) (vs : List (Nat × V × V)) (x : Nat × V × V) :
    pr mul (vs ++ [x]) = pr mul vs ++ [(x.1, mul x.2.1 x.2.2)] := by simp [pr]

theorem accumulate1 {n : Nat} {mul add : V → V → V} {ms : List Nat} {vs : List (Nat × V × V)}
    (hlt : ∀ x ∈ vs, x.1 < n) :
    vs.foldlM (fun acc x => (do
        let e ← Acc1.get acc x.1
        if e.state = ALLOWED false then
          acc.put x.1 { state := INITIALIZED, value := some (mul x.2.1 x.2.2) }
        else if e.state = INITIALIZED then do
          let v ← use e.value
          acc.put x.1 { e with value := some (add v (mul x.2.1 x.2.2)) }
        else .ok acc : Res (Acc1 V))) (mk1 n (E false add ms []) [])
      = .ok (mk1 n (E false add ms (pr mul vs)) []) := by
  refine foldlM_desc (fun pre => mk1 n (E false add ms (pr mul pre)) []) vs ?_
  intro pre a post hl
  have ha : a.1 < n := hlt a (by simp [hl])
  simp only [get1 ha, ok_bind, put1 ha, pr_snoc]
  by_cases hb : blocked false ms a.1
  · rw [E_snoc_blocked hb, E_blocked hb]
    simp [NOT_ALLOWED, ALLOWED, INITIALIZED]
  · cases hs : Spec.sum1 add (pick (pr mul pre) a.1) with
    | none =>
      rw [E_snoc_none hb hs, E_none hb hs]
      simp
    | some v =>
      rw [E_snoc_some hb hs, E_some hb hs]
      simp [ALLOWED, INITIALIZED]

theorem accumulate2 {n : Nat} {mul add : V → V → V} {ms : List Nat} {vs : List (Nat × V × V)}
    (hlt : ∀ x ∈ vs, x.1 < n) :
    vs.foldlM (fun acc x => (do
        let s ← Acc2.getState acc x.1
        if s = NOT_ALLOWED false then .ok acc
        else if s = ALLOWED false then do
          let acc ← acc.putValue x.1 (some (mul x.2.1 x.2.2))
          acc.putState x.1 INITIALIZED
        else do
          check (s == INITIALIZED)
          let v ← acc.getValue x.1
          acc.putValue x.1 (some (add v (mul x.2.1 x.2.2))) : Res (Acc2 V)))
          (mk2 n (E false add ms []) [])
      = .ok (mk2 n (E false add ms (pr mul vs)) []) := by
  refine foldlM_desc (fun pre => mk2 n (E false add ms (pr mul pre)) []) vs ?_
  intro pre a post hl
  have ha : a.1 < n := hlt a (by simp [hl])
  simp only [getState2 ha, ok_bind, pr_snoc]
  by_cases hb : blocked false ms a.1
  · rw [E_snoc_blocked hb, E_blocked hb]
    simp
  · cases hs : Spec.sum1 add (pick (pr mul pre) a.1) with
    | none =>
      rw [E_snoc_none hb hs, putValue2 ha, ok_bind, putState2 ha, E_none hb hs, upd_upd]
      simp [NOT_ALLOWED, ALLOWED]
    | some v =>
      have hv : (E false add ms (pr mul pre) a.1).value = some v := by rw [E_some hb hs]
      rw [E_snoc_some hb hs]
      simp only [getValue2 ha hv, ok_bind, putValue2 ha, E_some hb hs]
      simp [ALLOWED, NOT_ALLOWED, INITIALIZED]

/-- Dirty list of the complemented accumulators after the visits `vs`. -/
def dirtyOf (ms : List Nat) (vs : List (Nat × V × V)) : List Nat :=
  firsts ((vs.map (·.1)).filter (fun c => c ∉ ms))

theorem dirtyOf_nodup (ms : List Nat) (vs : List (Nat × V × V)) : (dirtyOf ms vs).Nodup := firsts_nodup _

theorem mem_dirtyOf {ms : List Nat} {vs : List (Nat × V × V)} {c : Nat} :
    c ∈ dirtyOf ms vs ↔ c ∉ ms ∧ ∃ x ∈ vs, x.1 = c := by
  simp [dirtyOf, mem_firsts]
  constructor
  · rintro ⟨⟨a, b, h⟩, h2⟩; exact ⟨h2, a, b, h⟩
  · rintro ⟨h2, a, b, h⟩; exact ⟨⟨a, b, h⟩, h2⟩

theorem sum1_pr_none {mul add : V → V → V} {vs : List (Nat × V × V)} {c : Nat} :
    Spec.sum1 add (pick (pr mul vs) c) = none ↔ ¬ ∃ x ∈ vs, x.1 = c := by
  rw [sum1_eq_none, pick_eq_nil]
  constructor
  · rintro h ⟨x, hx, hc⟩
    exact h (x.1, mul x.2.1 x.2.2) (List.mem_map.2 ⟨x, hx, rfl⟩) hc
  · intro h p hp hc
    obtain ⟨x, hx, rfl⟩ := List.mem_map.1 hp
    exact h ⟨x, hx, hc⟩

theorem dirtyOf_snoc_blocked {ms : List Nat} {vs : List (Nat × V × V)} {x : Nat × V × V}
    (h : x.1 ∈ ms) : dirtyOf ms (vs ++ [x]) = dirtyOf ms vs := by
  simp [dirtyOf, h]

theorem dirtyOf_snoc_old {ms : List Nat} {vs : List (Nat × V × V)} {x : Nat × V × V}
    (h : x.1 ∈ dirtyOf ms vs) : dirtyOf ms (vs ++ [x]) = dirtyOf ms vs := by
  have h1 := (mem_dirtyOf.1 h).1
  unfold dirtyOf at h ⊢
  rw [List.map_append, List.filter_append]
  simp only [List.map_cons, List.map_nil, List.filter_cons, h1, not_false_eq_true, decide_true,
    if_true, List.filter_nil]
  rw [firsts_append_singleton, if_pos h]

theorem dirtyOf_snoc_new {ms : List Nat} {vs : List (Nat × V × V)} {x : Nat × V × V}
    (h1 : x.1 ∉ ms) (h : x.1 ∉ dirtyOf ms vs) : dirtyOf ms (vs ++ [x]) = dirtyOf ms vs ++ [x.1] := by
  unfold dirtyOf at h ⊢
  rw [List.map_append, List.filter_append]
  simp only [List.map_cons, List.map_nil, List.filter_cons, h1, not_false_eq_true, decide_true,
    if_true, List.filter_nil]
  rw [firsts_append_singleton, if_neg h]

theorem accumulate1C {n : Nat} {mul add : V → V → V} {ms : List Nat} {vs : List (Nat × V × V)}
    (hlt : ∀ x ∈ vs, x.1 < n) :
    vs.foldlM (fun acc x => (do
        let e ← Acc1.get acc x.1
        if e.state = ALLOWED true then do
          let acc ← acc.put x.1 { e with value := some (mul x.2.1 x.2.2) }
          acc.setInitialized true x.1
        else if e.state = INITIALIZED then do
          let v ← use e.value
          acc.put x.1 { e with value := some (add v (mul x.2.1 x.2.2)) }
        else .ok acc : Res (Acc1 V))) (mk1 n (E true add ms []) [])
      = .ok (mk1 n (E true add ms (pr mul vs)) (dirtyOf ms vs)) := by
  refine foldlM_desc (fun pre => mk1 n (E true add ms (pr mul pre)) (dirtyOf ms pre)) vs ?_
  intro pre a post hl
  have ha : a.1 < n := hlt a (by simp [hl])
  simp only [get1 ha, ok_bind, put1 ha, pr_snoc]
  by_cases hb : blocked true ms a.1
  · rw [E_snoc_blocked hb, E_blocked hb, dirtyOf_snoc_blocked (blocked_true.1 hb)]
    simp [NOT_ALLOWED, ALLOWED, INITIALIZED]
  · have hm : a.1 ∉ ms := fun h => hb (blocked_true.2 h)
    cases hs : Spec.sum1 add (pick (pr mul pre) a.1) with
    | none =>
      have hd : a.1 ∉ dirtyOf ms pre := fun h => (sum1_pr_none.1 hs) (mem_dirtyOf.1 h).2
      rw [E_snoc_none hb hs, E_none hb hs, dirtyOf_snoc_new hm hd]
      simp [Acc1.setInitialized, get1 ha, put1 ha, upd_upd]
      rfl
    | some v =>
      have hd : a.1 ∈ dirtyOf ms pre := by
        refine mem_dirtyOf.2 ⟨hm, ?_⟩
        apply Classical.byContradiction
        intro h
        rw [sum1_pr_none.2 h] at hs
        simp at hs
      rw [E_snoc_some hb hs, E_some hb hs, dirtyOf_snoc_old hd]
      simp [ALLOWED, INITIALIZED]

theorem accumulate2C {n : Nat} {mul add : V → V → V} {ms : List Nat} {vs : List (Nat × V × V)}
    (hlt : ∀ x ∈ vs, x.1 < n) :
    vs.foldlM (fun acc x => (do
        let s ← Acc2.getState acc x.1
        if s = NOT_ALLOWED true then .ok acc
        else if s = ALLOWED true then do
          let acc ← acc.putValue x.1 (some (mul x.2.1 x.2.2))
          acc.setInitialized true x.1
        else do
          check (s == INITIALIZED)
          let v ← acc.getValue x.1
          acc.putValue x.1 (some (add v (mul x.2.1 x.2.2))) : Res (Acc2 V)))
          (mk2 n (E true add ms []) [])
      = .ok (mk2 n (E true add ms (pr mul vs)) (dirtyOf ms vs)) := by
  refine foldlM_desc (fun pre => mk2 n (E true add ms (pr mul pre)) (dirtyOf ms pre)) vs ?_
  intro pre a post hl
  have ha : a.1 < n := hlt a (by simp [hl])
  simp only [getState2 ha, ok_bind, pr_snoc]
  by_cases hb : blocked true ms a.1
  · rw [E_snoc_blocked hb, E_blocked hb, dirtyOf_snoc_blocked (blocked_true.1 hb)]
    simp
  · have hm : a.1 ∉ ms := fun h => hb (blocked_true.2 h)
    cases hs : Spec.sum1 add (pick (pr mul pre) a.1) with
    | none =>
      have hd : a.1 ∉ dirtyOf ms pre := fun h => (sum1_pr_none.1 hs) (mem_dirtyOf.1 h).2
      rw [E_snoc_none hb hs, dirtyOf_snoc_new hm hd]
      simp only [E_none hb hs, putValue2 ha, ok_bind, Acc2.setInitialized, getState2 ha, putState2 ha, upd_same,
        upd_upd]
      simp [NOT_ALLOWED, ALLOWED]
      rfl
    | some v =>
      have hd : a.1 ∈ dirtyOf ms pre := by
        refine mem_dirtyOf.2 ⟨hm, ?_⟩
        apply Classical.byContradiction
        intro h
        rw [sum1_pr_none.2 h] at hs
        simp at hs
      have hv : (E true add ms (pr mul pre) a.1).value = some v := by rw [E_some hb hs]
      rw [E_snoc_some hb hs, dirtyOf_snoc_old hd]
      simp only [getValue2 ha hv, ok_bind, putValue2 ha, E_some hb hs]
      simp [ALLOWED, NOT_ALLOWED, INITIALIZED]

/-! ## Clearing and gathering -/

/-- Entries after the columns `cs` have been cleared. -/
def cleared (F : Nat → Entry V) (cs : List Nat) (j : Nat) : Entry V := if j ∈ cs then dflt else F j

theorem cleared_nil (F : Nat → Entry V) : cleared F [] = F := by funext j; simp [cleared]

theorem cleared_snoc (F : Nat → Entry V) (cs : List Nat) (c : Nat) :
    cleared F (cs ++ [c]) = upd (cleared F cs) c dflt := by
  funext j; by_cases h : j = c <;> simp [cleared, upd, h]

/-- A default state comes with a default value. -/
def Tidy (F : Nat → Entry V) : Prop := ∀ j, (F j).state = 255 → F j = dflt

theorem tidy_E (compl : Bool) (add : V → V → V) (ms : List Nat) (ps : List (Nat × V)) :
    Tidy (E compl add ms ps) := by
  intro j h
  by_cases hb : blocked compl ms j
  · rw [E_blocked hb] at h ⊢; cases compl <;> simp_all [NOT_ALLOWED, dflt]
  · cases hs : Spec.sum1 add (pick ps j) with
    | none => rw [E_none hb hs] at h ⊢; cases compl <;> simp_all [ALLOWED, dflt]
    | some v => rw [E_some hb hs] at h; simp [INITIALIZED] at h

theorem tidy_cleared {F : Nat → Entry V} (h : Tidy F) (cs : List Nat) : Tidy (cleared F cs) := by
  intro j hj
  unfold cleared at hj ⊢
  by_cases hc : j ∈ cs
  · simp [hc]
  · simp only [hc, if_false] at hj ⊢; exact h j hj

theorem DEFAULT_eq (compl : Bool) : DEFAULT compl = 255 := by
  cases compl <;> simp [DEFAULT, NOT_ALLOWED, ALLOWED]

theorem clear1 {n c : Nat} {F : Nat → Entry V} {d : List Nat} {compl : Bool} (hF : Tidy F) (h : c < n) :
    (mk1 n F d).clear compl c = .ok (mk1 n (upd F c dflt) d) := by
  simp only [Acc1.clear, get1 h, ok_bind, DEFAULT_eq, put1 h]
  by_cases hs : (F c).state = 255
  · rw [if_pos hs, upd_self (hF c hs)]
  · rw [if_neg hs]; rfl

theorem clear2 {n c : Nat} {F : Nat → Entry V} {d : List Nat} {compl : Bool} (hF : Tidy F) (h : c < n) :
    (mk2 n F d).clear compl c = .ok (mk2 n (upd F c dflt) d) := by
  simp only [Acc2.clear, getState2 h, ok_bind, DEFAULT_eq, putState2 h, putValue2 h, upd_upd]
  by_cases hs : (F c).state = 255
  · simp only [hs, ne_eq, not_true, if_false]; rw [upd_self (hF c hs)]
  · simp only [hs, ne_eq, not_false_eq_true, if_true, upd_same]; rfl

theorem clears1 {n : Nat} {F : Nat → Entry V} {d cs : List Nat} {compl : Bool} (hF : Tidy F)
    (h : ∀ c ∈ cs, c < n) :
    cs.foldlM (fun acc c => Acc1.clear compl acc c) (mk1 n F d) = .ok (mk1 n (cleared F cs) d) := by
  have := foldlM_desc (f := fun acc c => Acc1.clear compl acc c)
    (fun pre => mk1 n (cleared F pre) d) cs (by
    intro pre a post hl
    show Acc1.clear compl _ a = _
    rw [clear1 (tidy_cleared hF pre) (h a (by simp [hl])), cleared_snoc])
  simpa only [cleared_nil] using this

theorem clears2 {n : Nat} {F : Nat → Entry V} {d cs : List Nat} {compl : Bool} (hF : Tidy F)
    (h : ∀ c ∈ cs, c < n) :
    cs.foldlM (fun acc c => Acc2.clear compl acc c) (mk2 n F d) = .ok (mk2 n (cleared F cs) d) := by
  have := foldlM_desc (f := fun acc c => Acc2.clear compl acc c)
    (fun pre => mk2 n (cleared F pre) d) cs (by
    intro pre a post hl
    show Acc2.clear compl _ a = _
    rw [clear2 (tidy_cleared hF pre) (h a (by simp [hl])), cleared_snoc])
  simpa only [cleared_nil] using this

/-- Pairs found in the accumulator at the columns `cs`. -/
def found (add : V → V → V) (ps : List (Nat × V)) (cs : List Nat) : List (Nat × V) :=
  cs.filterMap fun j => (Spec.sum1 add (pick ps j)).map fun v => (j, v)

@[simp] theorem found_nil (add : V → V → V) (ps : List (Nat × V)) : found add ps [] = [] := rfl

theorem found_snoc (add : V → V → V) (ps : List (Nat × V)) (cs : List Nat) (c : Nat) :
    found add ps (cs ++ [c]) = found add ps cs ++
      (match Spec.sum1 add (pick ps c) with | none => [] | some v => [(c, v)]) := by
  simp only [found, List.filterMap_append]
  congr 1
  cases h : Spec.sum1 add (pick ps c) <;> simp [h]

theorem collect1 {n : Nat} {add : V → V → V} {ms : List Nat} {ps : List (Nat × V)} (hn : ms.Nodup)
    (hlt : ∀ c ∈ ms, c < n) :
    ms.foldlM (fun (s : Acc1 V × List (Nat × V)) c => (do
        let e ← s.1.get c
        let out ← if e.state = INITIALIZED then do
            let v ← use e.value
            .ok (s.2 ++ [(c, v)])
          else .ok s.2
        let acc ← s.1.clear false c
        .ok (acc, out) : Res _)) (mk1 n (E false add ms ps) [], [])
      = .ok (mk1 n (cleared (E false add ms ps) ms) [], found add ps ms) := by
  have := foldlM_desc (f := fun (s : Acc1 V × List (Nat × V)) c => (do
        let e ← s.1.get c
        let out ← if e.state = INITIALIZED then do
            let v ← use e.value
            .ok (s.2 ++ [(c, v)])
          else .ok s.2
        let acc ← s.1.clear false c
        .ok (acc, out) : Res _))
    (fun pre => (mk1 n (cleared (E false add ms ps) pre) [], found add ps pre)) ms (by
    intro pre a post hl
    have ha : a < n := hlt a (by simp [hl])
    have hm : a ∈ ms := by simp [hl]
    have hap := not_mem_of_nodup_split hn hl
    have hb : ¬ blocked false ms a := by rw [blocked_false]; simp [hm]
    simp only [get1 ha, ok_bind, clear1 (tidy_cleared (tidy_E _ _ _ _) pre) ha, cleared_snoc, found_snoc]
    simp only [cleared, hap, if_false]
    cases hs : Spec.sum1 add (pick ps a) with
    | none => rw [E_none hb hs]; simp [ALLOWED, INITIALIZED]
    | some v => rw [E_some hb hs]; simp)
  simpa only [cleared_nil, found_nil] using this

theorem collect2 {n : Nat} {add : V → V → V} {ms : List Nat} {ps : List (Nat × V)} (hn : ms.Nodup)
    (hlt : ∀ c ∈ ms, c < n) :
    ms.foldlM (fun (s : Acc2 V × List (Nat × V)) c => (do
        let st ← s.1.getState c
        let out ← if st = INITIALIZED then do
            let v ← s.1.getValue c
            .ok (s.2 ++ [(c, v)])
          else .ok s.2
        let acc ← s.1.clear false c
        .ok (acc, out) : Res _)) (mk2 n (E false add ms ps) [], [])
      = .ok (mk2 n (cleared (E false add ms ps) ms) [], found add ps ms) := by
  have := foldlM_desc (f := fun (s : Acc2 V × List (Nat × V)) c => (do
        let st ← s.1.getState c
        let out ← if st = INITIALIZED then do
            let v ← s.1.getValue c
            .ok (s.2 ++ [(c, v)])
          else .ok s.2
        let acc ← s.1.clear false c
        .ok (acc, out) : Res _))
    (fun pre => (mk2 n (cleared (E false add ms ps) pre) [], found add ps pre)) ms (by
    intro pre a post hl
    have ha : a < n := hlt a (by simp [hl])
    have hm : a ∈ ms := by simp [hl]
    have hap := not_mem_of_nodup_split hn hl
    have hb : ¬ blocked false ms a := by rw [blocked_false]; simp [hm]
    have hc : cleared (E false add ms ps) pre a = E false add ms ps a := by simp [cleared, hap]
    simp only [getState2 ha, ok_bind, clear2 (tidy_cleared (tidy_E _ _ _ _) pre) ha, cleared_snoc,
      found_snoc]
    cases hs : Spec.sum1 add (pick ps a) with
    | none => rw [hc, E_none hb hs]; simp [ALLOWED, INITIALIZED]
    | some v =>
      have hv : (cleared (E false add ms ps) pre a).value = some v := by rw [hc, E_some hb hs]
      rw [getValue2 ha hv, hc, E_some hb hs]; simp)
  simpa only [cleared_nil, found_nil] using this

theorem gather1 {n : Nat} {add : V → V → V} {ms d : List Nat} {ps : List (Nat × V)} (sorted : Bool)
    (hn : d.Nodup) (hlt : ∀ c ∈ d, c < n)
    (hd : ∀ c ∈ d, c ∉ ms ∧ Spec.sum1 add (pick ps c) ≠ none) :
    (mk1 n (E true add ms ps) d).gather true sorted [] =
      .ok (mk1 n (cleared (E true add ms ps) d) [],
        found add ps (if sorted then d.mergeSort (· ≤ ·) else d)) := by
  unfold Acc1.gather
  generalize hk : (if sorted = true then (mk1 n (E true add ms ps) d).dirty.mergeSort (· ≤ ·)
    else (mk1 n (E true add ms ps) d).dirty) = keys
  have hperm : keys.Perm d := by
    rw [← hk]; cases sorted
    · exact List.Perm.refl _
    · exact List.mergeSort_perm _ _
  have hk' : (if sorted = true then d.mergeSort (· ≤ ·) else d) = keys := hk
  rw [hk']
  have := foldlM_desc (f := fun (s : Acc1 V × List (Nat × V)) c => (do
        let e ← s.1.get c
        let v ← use e.value
        let acc ← s.1.clear true c
        .ok (acc, s.2 ++ [(c, v)]) : Res _))
    (fun pre => (mk1 n (cleared (E true add ms ps) pre) keys, found add ps pre)) keys (by
    intro pre a post hl
    have had : a ∈ d := hperm.mem_iff.1 (by simp [hl])
    have ha : a < n := hlt a had
    have hap := not_mem_of_nodup_split (hperm.nodup_iff.2 hn) hl
    have hb : ¬ blocked true ms a := by rw [blocked_true]; exact (hd a had).1
    simp only [get1 ha, ok_bind, clear1 (tidy_cleared (tidy_E _ _ _ _) pre) ha, cleared_snoc, found_snoc]
    simp only [cleared, hap, if_false]
    cases hs : Spec.sum1 add (pick ps a) with
    | none => exact absurd hs (hd a had).2
    | some v => rw [E_some hb hs]; simp)
  rw [cleared_nil] at this
  simp only [mk1] at this ⊢
  simp only [found, List.filterMap_nil] at this
  erw [this]
  simp only [ok_bind]
  have hcl : cleared (E true add ms ps) keys = cleared (E true add ms ps) d := by
    funext j; simp only [cleared, hperm.mem_iff]
  rw [hcl]; rfl

theorem gather2 {n : Nat} {add : V → V → V} {ms d : List Nat} {ps : List (Nat × V)} (sorted : Bool)
    (hn : d.Nodup) (hlt : ∀ c ∈ d, c < n)
    (hd : ∀ c ∈ d, c ∉ ms ∧ Spec.sum1 add (pick ps c) ≠ none) :
    (mk2 n (E true add ms ps) d).gather true sorted [] =
      .ok (mk2 n (cleared (E true add ms ps) d) [],
        found add ps (if sorted then d.mergeSort (· ≤ ·) else d)) := by
  unfold Acc2.gather
  generalize hk : (if sorted = true then (mk2 n (E true add ms ps) d).dirty.mergeSort (· ≤ ·)
    else (mk2 n (E true add ms ps) d).dirty) = keys
  have hperm : keys.Perm d := by
    rw [← hk]; cases sorted
    · exact List.Perm.refl _
    · exact List.mergeSort_perm _ _
  have hk' : (if sorted = true then d.mergeSort (· ≤ ·) else d) = keys := hk
  rw [hk']
  have := foldlM_desc (f := fun (s : Acc2 V × List (Nat × V)) c => (do
        let v ← rd s.1.values c
        let v ← use v
        let acc ← s.1.clear true c
        .ok (acc, s.2 ++ [(c, v)]) : Res _))
    (fun pre => (mk2 n (cleared (E true add ms ps) pre) keys, found add ps pre)) keys (by
    intro pre a post hl
    have had : a ∈ d := hperm.mem_iff.1 (by simp [hl])
    have ha : a < n := hlt a had
    have hap := not_mem_of_nodup_split (hperm.nodup_iff.2 hn) hl
    have hb : ¬ blocked true ms a := by rw [blocked_true]; exact (hd a had).1
    have hc : cleared (E true add ms ps) pre a = E true add ms ps a := by simp [cleared, hap]
    cases hs : Spec.sum1 add (pick ps a) with
    | none => exact absurd hs (hd a had).2
    | some v =>
      have hv : (cleared (E true add ms ps) pre a).value = some v := by rw [hc, E_some hb hs]
      simp only [rdValues2 ha hv, ok_bind, use_some, clear2 (tidy_cleared (tidy_E _ _ _ _) pre) ha,
        cleared_snoc, found_snoc, hs])
  rw [cleared_nil] at this
  simp only [mk2] at this ⊢
  simp only [found, List.filterMap_nil] at this
  erw [this]
  simp only [ok_bind]
  have hcl : cleared (E true add ms ps) keys = cleared (E true add ms ps) d := by
    funext j; simp only [cleared, hperm.mem_iff]
  rw [hcl]; rfl

/-! ## The row theorems -/

/-- Clean accumulators. -/
def clean1 (n : Nat) : Acc1 V := mk1 n (fun _ => dflt) []
@[inherit_doc clean1] def clean2 (n : Nat) : Acc2 V := mk2 n (fun _ => dflt) []
@[inherit_doc clean1] def cleanS (n : Nat) : SAcc := mkS n (fun _ => 255) []

theorem cleared_all_false {add : V → V → V} {ms : List Nat} {ps : List (Nat × V)} :
    cleared (E false add ms ps) ms = fun _ => dflt := by
  funext j
  by_cases h : j ∈ ms
  · simp [cleared, h]
  · simp only [cleared, h, if_false]
    rw [E_blocked (blocked_false.2 h)]; rfl

theorem cleared_all_true {add : V → V → V} {ms d : List Nat} {ps : List (Nat × V)}
    (h : ∀ c, c ∉ ms → Spec.sum1 add (pick ps c) ≠ none → c ∈ d) :
    cleared (cleared (E true add ms ps) d) ms = fun _ => dflt := by
  funext j
  by_cases hm : j ∈ ms
  · simp [cleared, hm]
  · simp only [cleared, hm, if_false]
    by_cases hd : j ∈ d
    · simp [hd]
    · simp only [hd, if_false]
      have hb : ¬ blocked true ms j := by rw [blocked_true]; exact hm
      cases hs : Spec.sum1 add (pick ps j) with
      | none => rw [E_none hb hs]; rfl
      | some v => exact absurd (h j hm (by simp [hs])) hd


theorem pr_visits (mul : V → V → V) (A B : CSR V) (i : Nat) : pr mul (visits A B i) = prods mul A B i := rfl

theorem found_prods (mul add : V → V → V) (A B : CSR V) (i : Nat) (cs : List Nat) :
    found add (prods mul A B i) cs =
      cs.filterMap fun j => (Spec.dot mul add A B i j).map fun v => (j, v) := by
  unfold found; simp only [dot_eq]

/-- What the row theorems need. -/
structure Ok (A B M : CSR V) (row : Nat) : Prop where
  wfA : A.WF
  wfB : B.WF
  wfM : M.WF
  sh : Spec.Shapes A B M
  nodup : (M.rowCols row).Nodup
  lt : row < A.rows

theorem Ok.ltM {A B M : CSR V} {row : Nat} (h : Ok A B M row) : row < M.rows := h.sh.ma ▸ h.lt

theorem Ok.cols_lt {A B M : CSR V} {row : Nat} (h : Ok A B M row) : ∀ c ∈ M.rowCols row, c < B.cols :=
  fun _ hc => h.sh.mb ▸ CSR.rowCols_lt h.wfM hc

theorem numericRow1_eq {A B M : CSR V} {row : Nat} (h : Ok A B M row) (mul add : V → V → V) :
    numericRow1 mul add A B M row (clean1 B.cols) = .ok (clean1 B.cols, maskedRow mul add A B M row) := by
  unfold numericRow1 numericRow1With
  simp only [maskLoop_eq h.wfM h.ltM]
  have e0 : (clean1 B.cols : Acc1 V) = mk1 B.cols (E false add [] []) [] := by rw [E_nil_nil]; rfl
  rw [e0, allow1 h.nodup h.cols_lt]
  simp only [ok_bind]
  rw [nest_eq h.wfA h.wfB h.sh.ab h.lt _ _ (fun acc x => (do
        let e ← Acc1.get acc x.1
        if e.state = ALLOWED false then
          acc.put x.1 { state := INITIALIZED, value := some (mul x.2.1 x.2.2) }
        else if e.state = INITIALIZED then do
          let v ← use e.value
          acc.put x.1 { e with value := some (add v (mul x.2.1 x.2.2)) }
        else .ok acc : Res (Acc1 V))) (by
      intro j k s hj hk hk'
      simp only [rd_of_lt hj, rd_of_lt hk, rd_of_lt hk', ok_bind])]
  rw [accumulate1 (fun x hx => visits_lt h.wfB hx)]
  simp only [ok_bind]
  refine (collect1 h.nodup h.cols_lt).trans ?_
  rw [cleared_all_false, pr_visits, found_prods, E_nil_nil]
  rfl

theorem numericRow2_eq {A B M : CSR V} {row : Nat} (h : Ok A B M row) (mul add : V → V → V) :
    numericRow2 mul add A B M row (clean2 B.cols) = .ok (clean2 B.cols, maskedRow mul add A B M row) := by
  unfold numericRow2 numericRow2With
  simp only [maskLoop_eq h.wfM h.ltM]
  have e0 : (clean2 B.cols : Acc2 V) = mk2 B.cols (E false add [] []) [] := by rw [E_nil_nil]; rfl
  rw [e0, allow2 h.nodup h.cols_lt]
  simp only [ok_bind]
  rw [nest_eq h.wfA h.wfB h.sh.ab h.lt _ _ (fun acc x => (do
        let s ← Acc2.getState acc x.1
        if s = NOT_ALLOWED false then .ok acc
        else if s = ALLOWED false then do
          let acc ← acc.putValue x.1 (some (mul x.2.1 x.2.2))
          acc.putState x.1 INITIALIZED
        else do
          check (s == INITIALIZED)
          let v ← acc.getValue x.1
          acc.putValue x.1 (some (add v (mul x.2.1 x.2.2))) : Res (Acc2 V))) (by
      intro j k s hj hk hk'
      simp only [rd_of_lt hj, rd_of_lt hk, rd_of_lt hk', ok_bind])]
  rw [accumulate2 (fun x hx => visits_lt h.wfB hx)]
  simp only [ok_bind]
  refine (collect2 h.nodup h.cols_lt).trans ?_
  rw [cleared_all_false, pr_visits, found_prods, E_nil_nil]
  rfl

theorem dirtyOf_visits (A B M : CSR V) (i : Nat) :
    dirtyOf (M.rowCols i) (visits A B i) = complCols A B M i := rfl

theorem numericRow1C_eq {A B M : CSR V} {row : Nat} (h : Ok A B M row) (sorted : Bool)
    (mul add : V → V → V) :
    numericRow1C sorted mul add A B M row (clean1 B.cols) =
      .ok (clean1 B.cols, complRow sorted mul add A B M row) := by
  unfold numericRow1C numericRow1CWith
  simp only [maskLoop_eq h.wfM h.ltM]
  have e0 : (clean1 B.cols : Acc1 V) = mk1 B.cols (E true add [] []) [] := by rw [E_nil_nil]; rfl
  rw [e0, block1 h.nodup h.cols_lt]
  simp only [ok_bind]
  rw [nest_eq h.wfA h.wfB h.sh.ab h.lt _ _ (fun acc x => (do
        let e ← Acc1.get acc x.1
        if e.state = ALLOWED true then do
          let acc ← acc.put x.1 { e with value := some (mul x.2.1 x.2.2) }
          acc.setInitialized true x.1
        else if e.state = INITIALIZED then do
          let v ← use e.value
          acc.put x.1 { e with value := some (add v (mul x.2.1 x.2.2)) }
        else .ok acc : Res (Acc1 V))) (by
      intro j k s hj hk hk'
      simp only [rd_of_lt hj, rd_of_lt hk, rd_of_lt hk', ok_bind])]
  rw [accumulate1C (fun x hx => visits_lt h.wfB hx)]
  simp only [ok_bind]
  rw [gather1 sorted (dirtyOf_nodup _ _)]
  · simp only [ok_bind]
    rw [clears1 (tidy_cleared (tidy_E _ _ _ _) _) h.cols_lt, cleared_all_true]
    · rw [pr_visits, found_prods, dirtyOf_visits, E_nil_nil]
      rfl
    · intro c hc hs
      refine mem_dirtyOf.2 ⟨hc, ?_⟩
      apply Classical.byContradiction
      intro h; exact hs (sum1_pr_none.2 h)
  · intro c hc
    obtain ⟨_, x, hx, rfl⟩ := mem_dirtyOf.1 hc
    exact visits_lt h.wfB hx
  · intro c hc
    refine ⟨(mem_dirtyOf.1 hc).1, fun h => (sum1_pr_none.1 h) (mem_dirtyOf.1 hc).2⟩

theorem numericRow2C_eq {A B M : CSR V} {row : Nat} (h : Ok A B M row) (sorted : Bool)
    (mul add : V → V → V) :
    numericRow2C sorted mul add A B M row (clean2 B.cols) =
      .ok (clean2 B.cols, complRow sorted mul add A B M row) := by
  unfold numericRow2C numericRow2CWith
  simp only [maskLoop_eq h.wfM h.ltM]
  have e0 : (clean2 B.cols : Acc2 V) = mk2 B.cols (E true add [] []) [] := by rw [E_nil_nil]; rfl
  rw [e0, block2 h.nodup h.cols_lt]
  simp only [ok_bind]
  rw [nest_eq h.wfA h.wfB h.sh.ab h.lt _ _ (fun acc x => (do
        let s ← Acc2.getState acc x.1
        if s = NOT_ALLOWED true then .ok acc
        else if s = ALLOWED true then do
          let acc ← acc.putValue x.1 (some (mul x.2.1 x.2.2))
          acc.setInitialized true x.1
        else do
          check (s == INITIALIZED)
          let v ← acc.getValue x.1
          acc.putValue x.1 (some (add v (mul x.2.1 x.2.2))) : Res (Acc2 V))) (by
      intro j k s hj hk hk'
      simp only [rd_of_lt hj, rd_of_lt hk, rd_of_lt hk', ok_bind])]
  rw [accumulate2C (fun x hx => visits_lt h.wfB hx)]
  simp only [ok_bind]
  rw [gather2 sorted (dirtyOf_nodup _ _)]
  · simp only [ok_bind]
    rw [clears2 (tidy_cleared (tidy_E _ _ _ _) _) h.cols_lt, cleared_all_true]
    · rw [pr_visits, found_prods, dirtyOf_visits, E_nil_nil]
      rfl
    · intro c hc hs
      refine mem_dirtyOf.2 ⟨hc, ?_⟩
      apply Classical.byContradiction
      intro h; exact hs (sum1_pr_none.2 h)
  · intro c hc
    obtain ⟨_, x, hx, rfl⟩ := mem_dirtyOf.1 hc
    exact visits_lt h.wfB hx
  · intro c hc
    refine ⟨(mem_dirtyOf.1 hc).1, fun h => (sum1_pr_none.1 h) (mem_dirtyOf.1 hc).2⟩

/-! ## The symbolic rows -/

theorem getStateS {n c : Nat} {S : Nat → Nat} {d : List Nat} (h : c < n) :
    (mkS n S d).getState c = .ok (S c) := by
  simp [mkS, SAcc.getState, h, rd_tab]

theorem putStateS {n c s : Nat} {S : Nat → Nat} {d : List Nat} (h : c < n) :
    (mkS n S d).putState c s = .ok (mkS n (upd S c s) d) := by
  simp [mkS, SAcc.putState, wr_tab h]

theorem clearS {n c : Nat} {S : Nat → Nat} {d : List Nat} {compl : Bool} (h : c < n) :
    (mkS n S d).clear compl c = .ok (mkS n (upd S c 255) d) := by
  simp only [SAcc.clear, getStateS h, ok_bind, DEFAULT_eq, putStateS h]
  by_cases hs : S c = 255
  · rw [if_pos hs, upd_self hs]
  · rw [if_neg hs]

theorem clearsS {n : Nat} {S : Nat → Nat} {d cs : List Nat} {compl : Bool} (h : ∀ c ∈ cs, c < n) :
    cs.foldlM (fun acc c => SAcc.clear compl acc c) (mkS n S d) =
      .ok (mkS n (fun j => if j ∈ cs then 255 else S j) d) := by
  have := foldlM_desc (f := fun acc c => SAcc.clear compl acc c)
    (fun pre => mkS n (fun j => if j ∈ pre then 255 else S j) d) cs (by
    intro pre a post hl
    show SAcc.clear compl _ a = _
    rw [clearS (h a (by simp [hl]))]
    congr 2; funext j
    by_cases hj : j = a <;> simp [upd, hj])
  simpa using this

/-- Mask columns not yet hit are ALLOWED, everything else is NOT_ALLOWED. -/
def S1 (ms vs : List Nat) (j : Nat) : Nat := if j ∈ ms ∧ j ∉ vs then 0 else 255

theorem mem_snoc_ne {α : Type _} {l : List α} {a j : α} (h : j ≠ a) : j ∈ l ++ [a] ↔ j ∈ l := by simp [h]

theorem S1_snoc (ms vs : List Nat) (a : Nat) : S1 ms (vs ++ [a]) = upd (S1 ms vs) a 255 := by
  funext j
  by_cases hj : j = a
  · simp [upd, hj, S1]
  · simp only [upd, hj, S1, if_false, mem_snoc_ne hj]

theorem allowS {n : Nat} {ms : List Nat} (hn : ms.Nodup) (hlt : ∀ c ∈ ms, c < n) :
    ms.foldlM (fun acc c => SAcc.setAllowed false acc c) (cleanS n) = .ok (mkS n (S1 ms []) []) := by
  have := foldlM_desc (f := fun acc c => SAcc.setAllowed false acc c)
    (fun pre => mkS n (S1 pre []) []) ms (by
    intro pre a post hl
    have ha : a < n := hlt a (by simp [hl])
    have hap := not_mem_of_nodup_split hn hl
    simp only [SAcc.setAllowed, getStateS ha, ok_bind, putStateS ha]
    simp only [S1, hap, NOT_ALLOWED, ALLOWED]
    simp
    congr 1; funext j
    by_cases hj : j = a <;> simp [upd, hj, S1])
  refine Eq.trans ?_ this
  congr 2

theorem eraseS {n c : Nat} {S : Nat → Nat} {d : List Nat} {compl : Bool} (h : c < n) :
    (mkS n S d).erase compl c = .ok (mkS n (upd S c 255) d, decide (S c ≠ 255)) := by
  simp only [SAcc.erase, getStateS h, ok_bind, DEFAULT_eq, putStateS h]
  by_cases hs : S c = 255
  · rw [if_pos hs, upd_self hs]; simp [hs]
  · rw [if_neg hs]; simp [hs]

/-- Hits of the mask among the visited columns. -/
def hits (ms vs : List Nat) : List Nat := firsts (vs.filter (fun c => c ∈ ms))

theorem eraseLoop {n : Nat} {ms : List Nat} {vs : List (Nat × V × V)} (hlt : ∀ x ∈ vs, x.1 < n) :
    vs.foldlM (fun (s : SAcc × Nat) x => (do
        let r ← s.1.erase false x.1
        .ok (r.1, if r.2 then s.2 + 1 else s.2) : Res _)) (mkS n (S1 ms []) [], 0)
      = .ok (mkS n (S1 ms (vs.map (·.1))) [], (hits ms (vs.map (·.1))).length) := by
  refine foldlM_desc (fun pre => (mkS n (S1 ms (pre.map (·.1))) [], (hits ms (pre.map (·.1))).length)) vs ?_
  intro pre a post hl
  have ha : a.1 < n := hlt a (by simp [hl])
  simp only [eraseS ha, ok_bind, List.map_append, List.map_cons, List.map_nil]
  congr 2
  · rw [S1_snoc]
  · simp only [hits, List.filter_append]
    by_cases hm : a.1 ∈ ms
    · simp only [hm, decide_true, List.filter_cons_of_pos, List.filter_nil, firsts_append_singleton,
        mem_firsts, S1, List.mem_filter, and_true, true_and]
      by_cases hp : a.1 ∈ pre.map (·.1) <;> simp [hp]
    · simp [hm, S1]

theorem hits_length {ms vs : List Nat} (hn : ms.Nodup) :
    (hits ms vs).length = (ms.filter (fun c => c ∈ vs)).length := by
  apply List.Perm.length_eq
  apply (List.perm_ext_iff_of_nodup (firsts_nodup _) (hn.filter _)).2
  intro a
  rw [mem_firsts, List.mem_filter, List.mem_filter]
  simp [and_comm]

theorem dot_isSome {mul add : V → V → V} {A B : CSR V} {i j : Nat} :
    (Spec.dot mul add A B i j).isSome = decide (j ∈ (visits A B i).map (·.1)) := by
  rw [dot_eq, ← pr_visits]
  cases hs : Spec.sum1 add (pick (pr mul (visits A B i)) j) with
  | none =>
    have := sum1_pr_none.1 hs
    simp only [Option.isSome_none, Bool.false_eq, decide_eq_false_iff_not, List.mem_map]
    exact this
  | some v =>
    simp only [Option.isSome_some, Bool.true_eq, decide_eq_true_eq, List.mem_map]
    apply Classical.byContradiction
    intro h
    have := sum1_pr_none (mul := mul) (add := add) |>.2 h
    rw [this] at hs; simp at hs

theorem length_filterMap_map {α β γ : Type _} (l : List α) (f : α → Option β) (g : α → β → γ) :
    (l.filterMap fun a => (f a).map (g a)).length = (l.filter fun a => (f a).isSome).length := by
  induction l with
  | nil => rfl
  | cons a l ih =>
    cases h : f a <;> simp [h, ih]

theorem maskedRow_length (mul add : V → V → V) (A B M : CSR V) (i : Nat) :
    (maskedRow mul add A B M i).length =
      ((M.rowCols i).filter fun c => c ∈ (visits A B i).map (·.1)).length := by
  unfold maskedRow
  rw [length_filterMap_map]
  simp only [dot_isSome]

theorem symbolicRow_eq {A B M : CSR V} {row : Nat} (h : Ok A B M row) (mul add : V → V → V) :
    symbolicRow A B M row (cleanS B.cols) =
      .ok (cleanS B.cols, (maskedRow mul add A B M row).length) := by
  unfold symbolicRow symbolicRowWith
  simp only [maskLoop_eq h.wfM h.ltM]
  rw [allowS h.nodup h.cols_lt]
  simp only [ok_bind]
  rw [nest_eq h.wfA h.wfB h.sh.ab h.lt _ _ (fun (s : SAcc × Nat) x => (do
        let r ← s.1.erase false x.1
        .ok (r.1, if r.2 then s.2 + 1 else s.2) : Res _)) (by
      intro j k s hj hk hk'
      simp only [rd_of_lt hk, ok_bind])]
  rw [eraseLoop (fun x hx => visits_lt h.wfB hx)]
  simp only [ok_bind]
  rw [clearsS h.cols_lt]
  simp only [ok_bind]
  rw [maskedRow_length, hits_length h.nodup]
  have : (fun j => if j ∈ M.rowCols row then 255 else
      S1 (M.rowCols row) (List.map (fun x => x.fst) (visits A B row)) j) = fun _ => 255 := by
    funext j
    by_cases hj : j ∈ M.rowCols row <;> simp [hj, S1]
  rw [this]; rfl

/-- Visited columns are INITIALIZED. -/
def S2 (vs : List Nat) (j : Nat) : Nat := if j ∈ vs then 1 else 255

theorem S2_snoc (vs : List Nat) (a : Nat) : S2 (vs ++ [a]) = upd (S2 vs) a 1 := by
  funext j
  by_cases hj : j = a
  · simp [upd, hj, S2]
  · simp only [upd, hj, S2, if_false, mem_snoc_ne hj]

theorem initLoop {n : Nat} {vs : List (Nat × V × V)} (hlt : ∀ x ∈ vs, x.1 < n) :
    vs.foldlM (fun (s : SAcc × Int) x => (do
        let st ← s.1.getState x.1
        if st ≠ INITIALIZED then do
          let acc ← s.1.setInitialized true x.1
          .ok (acc, s.2 + 1)
        else .ok (s.1, s.2) : Res _)) (mkS n (S2 []) [], 0)
      = .ok (mkS n (S2 (vs.map (·.1))) (firsts (vs.map (·.1))), ((firsts (vs.map (·.1))).length : Int)) := by
  refine foldlM_desc (fun pre => (mkS n (S2 (pre.map (·.1))) (firsts (pre.map (·.1))),
    ((firsts (pre.map (·.1))).length : Int))) vs ?_
  intro pre a post hl
  have ha : a.1 < n := hlt a (by simp [hl])
  simp only [getStateS ha, ok_bind, List.map_append, List.map_cons, List.map_nil, firsts_append_singleton,
    mem_firsts, SAcc.setInitialized, putStateS ha]
  rw [S2_snoc]
  by_cases hp : a.1 ∈ pre.map (·.1)
  · have h1 : S2 (pre.map (·.1)) a.1 = 1 := by simp only [S2, hp, if_true]
    simp only [h1, hp, INITIALIZED, if_true, ne_eq, not_true, if_false]
    rw [upd_self h1]
  · have h1 : S2 (pre.map (·.1)) a.1 = 255 := by simp only [S2, hp, if_false]
    simp only [h1, hp, INITIALIZED, if_false, ALLOWED]
    simp
    rfl

theorem eraseLoopC {n : Nat} {ms vs d : List Nat} {k : Int} (hn : ms.Nodup) (hlt : ∀ x ∈ ms, x < n) :
    ms.foldlM (fun (s : SAcc × Int) c => (do
        let r ← s.1.erase true c
        .ok (r.1, if r.2 then s.2 - 1 else s.2) : Res _)) (mkS n (S2 vs) d, k)
      = .ok (mkS n (fun j => if j ∈ ms then 255 else S2 vs j) d,
          k - (ms.filter (fun c => c ∈ vs)).length) := by
  have := foldlM_desc (f := fun (s : SAcc × Int) c => (do
        let r ← s.1.erase true c
        .ok (r.1, if r.2 then s.2 - 1 else s.2) : Res _))
    (fun pre => (mkS n (fun j => if j ∈ pre then 255 else S2 vs j) d,
          k - (pre.filter (fun c => c ∈ vs)).length)) ms (by
    intro pre a post hl
    have ha : a < n := hlt a (by simp [hl])
    have hap := not_mem_of_nodup_split hn hl
    simp only [eraseS ha, ok_bind]
    congr 2
    · congr 1; funext j
      by_cases hj : j = a <;> simp [upd, hj]
    · by_cases hv : a ∈ vs
      · simp [hap, S2, hv, List.filter_append]; omega
      · simp [hap, S2, hv, List.filter_append])
  simpa using this

theorem firsts_split (ms vs : List Nat) (hn : ms.Nodup) :
    (firsts vs).length = (firsts (vs.filter (fun c => c ∉ ms))).length + (ms.filter (fun c => c ∈ vs)).length := by
  rw [← List.length_append]
  apply List.Perm.length_eq
  apply (List.perm_ext_iff_of_nodup (firsts_nodup _) _).2
  · intro a
    simp only [mem_firsts, List.mem_append, List.mem_filter, decide_eq_true_eq]
    by_cases h : a ∈ ms <;> simp [h]
  · rw [List.nodup_append]
    refine ⟨firsts_nodup _, hn.filter _, ?_⟩
    intro a ha b hb hab
    subst hab
    simp only [mem_firsts, List.mem_filter, decide_eq_true_eq] at ha hb
    exact ha.2 hb.1

theorem complRow_length (sorted : Bool) (mul add : V → V → V) (A B M : CSR V) (i : Nat) :
    (complRow sorted mul add A B M i).length = (complCols A B M i).length := by
  unfold complRow
  rw [length_filterMap_map]
  have hall : ∀ c ∈ complCols A B M i, (Spec.dot mul add A B i c).isSome := by
    intro c hc
    rw [dot_isSome]
    unfold complCols at hc
    rw [mem_firsts, List.mem_filter] at hc
    simpa using hc.1
  cases sorted
  · simp only [Bool.false_eq_true, if_false]
    rw [List.filter_eq_self.2 hall]
  · simp only [if_true]
    have hp := List.mergeSort_perm (complCols A B M i) (· ≤ ·)
    rw [List.filter_eq_self.2 (fun c hc => hall c (hp.mem_iff.1 hc)), hp.length_eq]

theorem symbolicRowC_eq {A B M : CSR V} {row : Nat} (h : Ok A B M row) (sorted : Bool) (mul add : V → V → V) :
    symbolicRowC A B M row (cleanS B.cols) =
      .ok (cleanS B.cols, ((complRow sorted mul add A B M row).length : Int)) := by
  unfold symbolicRowC
  rw [nest_eq h.wfA h.wfB h.sh.ab h.lt _ _ (fun (s : SAcc × Int) x => (do
        let st ← s.1.getState x.1
        if st ≠ INITIALIZED then do
          let acc ← s.1.setInitialized true x.1
          .ok (acc, s.2 + 1)
        else .ok (s.1, s.2) : Res _)) (by
      intro j k s hj hk hk'
      simp only [rd_of_lt hk, ok_bind])]
  have e0 : cleanS B.cols = mkS B.cols (S2 []) [] := by
    simp only [cleanS, mkS]; congr 1
  rw [e0, initLoop (fun x hx => visits_lt h.wfB hx)]
  simp only [ok_bind, maskLoop_eq h.wfM h.ltM]
  erw [eraseLoopC h.nodup h.cols_lt]
  simp only [ok_bind, SAcc.resetStates, mkS]
  have hd : ∀ c ∈ firsts ((visits A B row).map (·.1)), c < B.cols := by
    intro c hc
    rw [mem_firsts, List.mem_map] at hc
    obtain ⟨x, hx, rfl⟩ := hc
    exact visits_lt h.wfB hx
  erw [clearsS hd]
  simp only [ok_bind, mkS]
  rw [complRow_length, firsts_split (M.rowCols row) _ h.nodup]
  congr 2
  · congr 1
    apply tab_ext; intro j _
    by_cases hj : j ∈ M.rowCols row
    · simp [hj, S2]
    · simp only [hj, if_false, mem_firsts, S2, List.not_mem_nil]
      split <;> rfl
  · unfold complCols; omega

end Verif.Model.Msa
