import Verif.SpecValue
import Mathlib.Tactic.ByContra

/-! # Matrix objects own their memory -/

namespace Verif.MatObj
open Spec (Mat)

variable {V : Type}

/-- The pointers an object owns. -/
def own (o : Obj) : List (Option Nat) :=
  (if 0 < o.nnz then [o.ids, o.vals] else []) ++ (if 0 < o.maj then [o.ptr] else [])

/-- The pointers a variable owns. -/
def ownO : Option Obj → List (Option Nat)
  | some o => own o
  | none => []

/-- The pointers owned by all variables. -/
def owned (env : List (Option Obj)) : List (Option Nat) := env.flatMap ownO

/-- `L` lists the allocated addresses, each once. -/
structure Sep (h : Heap V) (L : List (Option Nat)) : Prop where
  nodup : L.Nodup
  mem : ∀ q, q ∈ L ↔ ∃ p b, q = some p ∧ h[p]? = some (some b)

theorem Sep.perm {h : Heap V} {L L' : List (Option Nat)} (s : Sep h L) (p : L.Perm L') : Sep h L' :=
  ⟨p.nodup_iff.1 s.nodup, fun q => by rw [← p.mem_iff]; exact s.mem q⟩

/-- Two memories agree on the addresses in `L`. -/
def Agree (h h' : Heap V) (L : List (Option Nat)) : Prop := ∀ p, some p ∈ L → h'[p]? = h[p]?

theorem Agree.trans {h h' h'' : Heap V} {L : List (Option Nat)} (a : Agree h h' L) (b : Agree h' h'' L) :
    Agree h h'' L := fun p hp => (b p hp).trans (a p hp)

theorem Agree.sub {h h' : Heap V} {L L' : List (Option Nat)} (a : Agree h h' L) (hs : ∀ q ∈ L', q ∈ L) :
    Agree h h' L' := fun p hp => a p (hs _ hp)

theorem Agree.refl (h : Heap V) (L : List (Option Nat)) : Agree h h L := fun _ _ => rfl

theorem Sep.lt {h : Heap V} {L : List (Option Nat)} (s : Sep h L) {p : Nat} (hp : some p ∈ L) : p < h.length := by
  obtain ⟨p', b, e, hb⟩ := (s.mem _).1 hp
  cases e
  exact (List.getElem?_eq_some_iff.1 hb).1

theorem alloc_sep {h : Heap V} {L : List (Option Nat)} (s : Sep h L) (b : Block V) :
    Sep (h ++ [some b]) (some h.length :: L) ∧ Agree h (h ++ [some b]) L ∧
      (h ++ [some b])[h.length]? = some (some b) := by
  refine ⟨⟨?_, ?_⟩, ?_, by simp⟩
  · refine List.nodup_cons.2 ⟨fun hp => ?_, s.nodup⟩
    exact absurd (s.lt hp) (Nat.lt_irrefl _)
  · intro q
    rw [List.mem_cons, s.mem]
    constructor
    · rintro (rfl | ⟨p, b', rfl, hb⟩)
      · exact ⟨_, b, rfl, by simp⟩
      · exact ⟨p, b', rfl, by
          rw [List.getElem?_append_left (List.getElem?_eq_some_iff.1 hb).1]; exact hb⟩
    · rintro ⟨p, b', rfl, hb⟩
      by_cases hp : p < h.length
      · rw [List.getElem?_append_left hp] at hb
        exact Or.inr ⟨p, b', rfl, hb⟩
      · left
        have : p < (h ++ [some b]).length := (List.getElem?_eq_some_iff.1 hb).1
        simp at this
        congr 1
        omega
  · intro p hp
    exact List.getElem?_append_left (s.lt hp)

theorem free_sep {h : Heap V} {L : List (Option Nat)} {q : Option Nat} (s : Sep h (q :: L)) :
    ∃ h', free h q = .ok h' ∧ Sep h' L ∧ Agree h h' L := by
  obtain ⟨p, b, rfl, hb⟩ := (s.mem q).1 (by simp)
  have hn := List.nodup_cons.1 s.nodup
  have hpl : p < h.length := (List.getElem?_eq_some_iff.1 hb).1
  refine ⟨h.set p none, by simp [free, hb], ⟨hn.2, fun q => ?_⟩, fun r hr => ?_⟩
  · constructor
    · intro hq
      obtain ⟨r, b', rfl, hr⟩ := (s.mem q).1 (by simp [hq])
      have : p ≠ r := by rintro rfl; exact hn.1 hq
      exact ⟨r, b', rfl, by rw [List.getElem?_set_ne this]; exact hr⟩
    · rintro ⟨r, b', rfl, hr⟩
      by_cases e : p = r
      · subst e
        simp [hpl] at hr
      · rw [List.getElem?_set_ne e] at hr
        have := (s.mem (some r)).2 ⟨r, b', rfl, hr⟩
        rcases List.mem_cons.1 this with e' | e'
        · exact absurd (Option.some.inj e').symm e
        · exact e'
  · have : p ≠ r := by rintro rfl; exact hn.1 hr
    exact List.getElem?_set_ne this

theorem set_sep {h : Heap V} {L : List (Option Nat)} {p : Nat} (s : Sep h (some p :: L)) (b : Block V) :
    Sep (h.set p (some b)) (some p :: L) ∧ Agree h (h.set p (some b)) L ∧
      (h.set p (some b))[p]? = some (some b) := by
  have hn := List.nodup_cons.1 s.nodup
  have hpl : p < h.length := s.lt (by simp)
  refine ⟨⟨s.nodup, fun q => ?_⟩, fun r hr => ?_, by simp [hpl]⟩
  · rw [s.mem]
    constructor
    · rintro ⟨r, b', rfl, hr⟩
      by_cases e : p = r
      · subst e; exact ⟨p, b, rfl, by simp [hpl]⟩
      · exact ⟨r, b', rfl, by rw [List.getElem?_set_ne e]; exact hr⟩
    · rintro ⟨r, b', rfl, hr⟩
      by_cases e : p = r
      · subst e
        obtain ⟨p', b2, e2, h2⟩ := (s.mem (some p)).1 (by simp)
        exact ⟨p', b2, e2, h2⟩
      · rw [List.getElem?_set_ne e] at hr; exact ⟨r, b', rfl, hr⟩
  · have : p ≠ r := by rintro rfl; exact hn.1 hr
    exact List.getElem?_set_ne this

/-- The object holds the value. -/
structure Holds (h : Heap V) (o : Obj) (m : Mat V) : Prop where
  maj : o.maj = m.maj
  min : o.min = m.min
  nnz : o.nnz = m.nnz
  zb : o.zb = m.zb
  idsLen : m.ids.length = m.nnz
  valsLen : m.vals.length = m.nnz
  ptrLen : m.ptr.length = (if m.maj = 0 then 0 else m.maj + 1)
  ids : 0 < m.nnz → ∃ p, o.ids = some p ∧ h[p]? = some (some (.ints m.ids))
  vals : 0 < m.nnz → ∃ p, o.vals = some p ∧ h[p]? = some (some (.vals m.vals))
  ptr : 0 < m.maj → ∃ p, o.ptr = some p ∧ h[p]? = some (some (.ints m.ptr))

theorem Holds.frame {h h' : Heap V} {o : Obj} {m : Mat V} (H : Holds h o m) (a : Agree h h' (own o)) :
    Holds h' o m := by
  refine { H with ids := fun hn => ?_, vals := fun hn => ?_, ptr := fun hn => ?_ }
  · obtain ⟨p, e, hp⟩ := H.ids hn
    exact ⟨p, e, by rw [a p (by unfold own; rw [H.nnz]; simp [hn, e])]; exact hp⟩
  · obtain ⟨p, e, hp⟩ := H.vals hn
    exact ⟨p, e, by rw [a p (by unfold own; rw [H.nnz]; simp [hn, e])]; exact hp⟩
  · obtain ⟨p, e, hp⟩ := H.ptr hn
    exact ⟨p, e, by rw [a p (by unfold own; rw [H.maj]; simp [hn, e])]; exact hp⟩

theorem makeEmpty_ok {h : Heap V} {o : Obj} {R : List (Option Nat)} (s : Sep h (own o ++ R)) :
    ∃ h', makeEmpty h o = .ok (h', ⟨0, 0, 0, o.ptr, o.ids, o.vals, o.zb⟩) ∧ Sep h' R ∧ Agree h h' R := by
  rcases o with ⟨maj, min, nnz, ptr, ids, vals, zb⟩
  unfold makeEmpty
  rcases Nat.eq_zero_or_pos nnz with rfl | hn
  · rcases Nat.eq_zero_or_pos maj with rfl | hm
    · exact ⟨h, rfl, s, Agree.refl _ _⟩
    · simp only [own, hm, if_true, List.cons_append, List.nil_append, Nat.lt_irrefl, if_false] at s
      obtain ⟨h1, e1, s1, a1⟩ := free_sep s
      exact ⟨h1, by simp only [gt_iff_lt, hm, if_true, Nat.lt_irrefl, if_false, e1, ok_bind], s1, a1⟩
  · rcases Nat.eq_zero_or_pos maj with rfl | hm
    · simp only [own, hn, if_true, List.cons_append, List.nil_append, Nat.lt_irrefl, if_false] at s
      obtain ⟨h1, e1, s1, a1⟩ := free_sep s
      obtain ⟨h2, e2, s2, a2⟩ := free_sep s1
      exact ⟨h2, by simp only [gt_iff_lt, hn, if_true, Nat.lt_irrefl, if_false, e1, e2, ok_bind], s2,
        (a1.sub (by simp +contextual)).trans a2⟩
    · simp only [own, hn, hm, if_true, List.cons_append, List.nil_append] at s
      obtain ⟨h1, e1, s1, a1⟩ := free_sep s
      obtain ⟨h2, e2, s2, a2⟩ := free_sep s1
      obtain ⟨h3, e3, s3, a3⟩ := free_sep s2
      exact ⟨h3, by simp only [gt_iff_lt, hn, hm, if_true, e1, e2, e3, ok_bind], s3,
        ((a1.sub (by simp +contextual)).trans (a2.sub (by simp +contextual))).trans a3⟩

theorem frees_ok {h : Heap V} {o : Obj} {R : List (Option Nat)} (s : Sep h (own o ++ R)) :
    ∃ h1, frees h o = .ok h1 ∧ Sep h1 R ∧ Agree h h1 R := by
  rcases o with ⟨maj, min, nnz, ptr, ids, vals, zb⟩
  unfold frees
  rcases Nat.eq_zero_or_pos nnz with rfl | hn
  · rcases Nat.eq_zero_or_pos maj with rfl | hm
    · exact ⟨h, rfl, s, Agree.refl _ _⟩
    · simp only [own, hm, if_true, List.cons_append, List.nil_append, Nat.lt_irrefl, if_false] at s
      obtain ⟨h1, e1, s1, a1⟩ := free_sep s
      exact ⟨h1, by simp only [gt_iff_lt, hm, Nat.lt_irrefl, if_false, if_true, ok_bind, e1], s1, a1⟩
  · rcases Nat.eq_zero_or_pos maj with rfl | hm
    · simp only [own, hn, if_true, List.cons_append, List.nil_append, Nat.lt_irrefl, if_false] at s
      obtain ⟨h1, e1, s1, a1⟩ := free_sep s
      obtain ⟨h2, e2, s2, a2⟩ := free_sep s1
      exact ⟨h2, by simp only [gt_iff_lt, hn, if_true, Nat.lt_irrefl, if_false, e1, e2, ok_bind], s2,
        (a1.sub (by simp +contextual)).trans a2⟩
    · simp only [own, hn, hm, if_true, List.cons_append, List.nil_append] at s
      obtain ⟨h1, e1, s1, a1⟩ := free_sep s
      obtain ⟨h2, e2, s2, a2⟩ := free_sep s1
      obtain ⟨h3, e3, s3, a3⟩ := free_sep s2
      exact ⟨h3, by simp only [gt_iff_lt, hn, hm, if_true, e1, e2, e3, ok_bind], s3,
        ((a1.sub (by simp +contextual)).trans (a2.sub (by simp +contextual))).trans a3⟩

theorem ints_of {h : Heap V} {p : Nat} {l : List Nat} (e : h[p]? = some (some (.ints l))) :
    ints h (some p) = .ok l := by simp [ints, e]

theorem vals_of {h : Heap V} {p : Nat} {l : List V} (e : h[p]? = some (some (.vals l))) :
    vals h (some p) = .ok l := by simp [vals, e]

theorem dupInts_ok {h : Heap V} {L : List (Option Nat)} (s : Sep h L) {q : Option Nat} {l : List Nat} {n : Nat}
    (hq : ∃ p, q = some p ∧ h[p]? = some (some (.ints l))) (hl : l.length = n) :
    ∃ h', dupInts h q n = .ok (h', some h.length) ∧ Sep h' (some h.length :: L) ∧ Agree h h' L ∧
      h'[h.length]? = some (some (.ints l)) := by
  obtain ⟨p, rfl, hp⟩ := hq
  obtain ⟨s1, a1, g1⟩ := alloc_sep s (.ints l)
  refine ⟨_, ?_, s1, a1, g1⟩
  simp [dupInts, ints_of hp, alloc, ← hl]

theorem dupVals_ok {h : Heap V} {L : List (Option Nat)} (s : Sep h L) {q : Option Nat} {l : List V} {n : Nat}
    (hq : ∃ p, q = some p ∧ h[p]? = some (some (.vals l))) (hl : l.length = n) :
    ∃ h', dupVals h q n = .ok (h', some h.length) ∧ Sep h' (some h.length :: L) ∧ Agree h h' L ∧
      h'[h.length]? = some (some (.vals l)) := by
  obtain ⟨p, rfl, hp⟩ := hq
  obtain ⟨s1, a1, g1⟩ := alloc_sep s (.vals l)
  refine ⟨_, ?_, s1, a1, g1⟩
  simp [dupVals, vals_of hp, alloc, ← hl]

/-- A cell that exists is in the list of owned addresses. -/
theorem Sep.mem_of {h : Heap V} {L : List (Option Nat)} (s : Sep h L) {p : Nat} {b : Block V}
    (e : h[p]? = some (some b)) : some p ∈ L := (s.mem _).2 ⟨p, b, rfl, e⟩

/-- The allocations and copies shared by the copy constructor and `operator=`. -/
theorem dup_ok {h : Heap V} {L : List (Option Nat)} (s : Sep h L) {r o : Obj} {m : Mat V} (H : Holds h r m)
    (hmaj : o.maj = r.maj) (hmin : o.min = r.min) (hnnz : o.nnz = r.nnz) (hzb : o.zb = r.zb) (c : Nat)
    (hc : 0 < c ↔ 0 < r.maj) :
    ∃ h' o', dup h o r c = .ok (h', o') ∧ Sep h' (own o' ++ L) ∧ Agree h h' L ∧ Holds h' o' m := by
  unfold dup
  rcases o with ⟨maj, min, nnz, ptr, ids, vals, zb⟩
  simp only at hmaj hmin hnnz hzb
  subst hmaj hmin hnnz hzb
  have hm' := H.maj
  have hn' := H.nnz
  by_cases hn : 0 < r.nnz
  · obtain ⟨h1, e1, s1, a1, g1⟩ := dupVals_ok s (H.vals (hn' ▸ hn)) (n := r.nnz) (by rw [H.valsLen, hn'])
    have hids : ∃ p, r.ids = some p ∧ h1[p]? = some (some (.ints m.ids)) := by
      obtain ⟨p, e, hp⟩ := H.ids (hn' ▸ hn)
      exact ⟨p, e, by rw [a1 p (s.mem_of hp)]; exact hp⟩
    obtain ⟨h2, e2, s2, a2, g2⟩ := dupInts_ok s1 hids (n := r.nnz) (by rw [H.idsLen, hn'])
    have g12 : h2[h.length]? = some (some (.vals m.vals)) := by rw [a2 _ (by simp)]; exact g1
    by_cases hm : 0 < r.maj
    · have hptr : ∃ p, r.ptr = some p ∧ h2[p]? = some (some (.ints m.ptr)) := by
        obtain ⟨p, e, hp⟩ := H.ptr (hm' ▸ hm)
        exact ⟨p, e, by
          rw [a2 p (List.mem_cons_of_mem _ (s.mem_of hp)), a1 p (s.mem_of hp)]; exact hp⟩
      obtain ⟨h3, e3, s3, a3, g3⟩ := dupInts_ok s2 hptr (n := r.maj + 1) (by
        rw [H.ptrLen, ← hm', if_neg (by omega)])
      refine ⟨h3, ⟨r.maj, r.min, r.nnz, some h2.length, some h1.length, some h.length, r.zb⟩,
        by simp only [gt_iff_lt, hn, hc.2 hm, if_true, e1, e2, e3, ok_bind], ?_, ?_, ?_⟩
      · simp only [own, hn, hm, if_true, List.cons_append, List.nil_append]
        refine s3.perm ?_
        exact (List.Perm.swap _ _ _).trans (List.Perm.cons _ (List.Perm.swap _ _ _))
      · exact (a1.trans (a2.sub (by simp +contextual))).trans (a3.sub (by simp +contextual))
      · refine { H with ids := fun _ => ⟨_, rfl, ?_⟩, vals := fun _ => ⟨_, rfl, ?_⟩, ptr := fun _ => ⟨_, rfl, g3⟩ }
        · rw [a3 _ (by simp)]; exact g2
        · rw [a3 _ (by simp)]; exact g12
    · refine ⟨h2, ⟨r.maj, r.min, r.nnz, ptr, some h1.length, some h.length, r.zb⟩,
        by simp only [gt_iff_lt, hn, mt hc.1 hm, if_true, if_false, e1, e2, ok_bind], ?_, ?_, ?_⟩
      · simp only [own, hn, hm, if_true, if_false, List.cons_append, List.nil_append, List.append_nil]
        exact s2
      · exact a1.trans (a2.sub (by simp +contextual))
      · exact { H with ids := fun _ => ⟨_, rfl, g2⟩, vals := fun _ => ⟨_, rfl, g12⟩,
                       ptr := fun hx => absurd (hm' ▸ hx) hm }
  · by_cases hm : 0 < r.maj
    · obtain ⟨h3, e3, s3, a3, g3⟩ := dupInts_ok s (H.ptr (hm' ▸ hm)) (n := r.maj + 1) (by
        rw [H.ptrLen, ← hm', if_neg (by omega)])
      refine ⟨h3, ⟨r.maj, r.min, r.nnz, some h.length, ids, vals, r.zb⟩,
        by simp only [gt_iff_lt, hn, hc.2 hm, if_true, if_false, e3, ok_bind], ?_, ?_, ?_⟩
      · simp only [own, hn, hm, if_true, if_false, List.cons_append, List.nil_append]
        exact s3
      · exact a3
      · exact { H with ids := fun hx => absurd (hn' ▸ hx) hn, vals := fun hx => absurd (hn' ▸ hx) hn,
                       ptr := fun _ => ⟨_, rfl, g3⟩ }
    · refine ⟨h, ⟨r.maj, r.min, r.nnz, ptr, ids, vals, r.zb⟩,
        by simp only [gt_iff_lt, hn, mt hc.1 hm, if_false, ok_bind], ?_, Agree.refl _ _, ?_⟩
      · simp only [own, hn, hm, if_false, List.nil_append]
        exact s
      · exact { H with ids := fun hx => absurd (hn' ▸ hx) hn, vals := fun hx => absurd (hn' ▸ hx) hn,
                       ptr := fun hx => absurd (hm' ▸ hx) hm }

/-! ## Variables -/

theorem owned_set (env : List (Option Obj)) (e : Option Obj) (x : Nat) (hx : x < env.length) :
    (owned (env.set x e)).Perm (ownO e ++ owned (env.set x none)) := by
  unfold owned
  rw [List.set_eq_take_append_cons_drop, List.set_eq_take_append_cons_drop, if_pos hx, if_pos hx]
  simp only [List.flatMap_append, List.flatMap_cons, ownO, List.nil_append]
  rw [← List.append_assoc, ← List.append_assoc]
  exact List.Perm.append_right _ List.perm_append_comm

theorem owned_get {env : List (Option Obj)} {x : Nat} {o : Obj} (hx : env[x]? = some (some o)) :
    (owned env).Perm (own o ++ owned (env.set x none)) := by
  obtain ⟨hl, e⟩ := List.getElem?_eq_some_iff.1 hx
  have := owned_set env (some o) x hl
  rw [← e, List.set_getElem_self, e] at this
  exact this

theorem mem_owned {env : List (Option Obj)} {x : Nat} {o : Obj} (hx : env[x]? = some (some o)) {q : Option Nat}
    (hq : q ∈ own o) : q ∈ owned env :=
  List.mem_flatMap.2 ⟨some o, List.mem_of_getElem? hx, hq⟩

theorem mem_owned_set {env : List (Option Obj)} {x y : Nat} {o : Obj} (hne : x ≠ y) (hy : env[y]? = some (some o))
    {q : Option Nat} (hq : q ∈ own o) : q ∈ owned (env.set x none) :=
  mem_owned (by rw [List.getElem?_set_ne hne]; exact hy) hq

/-- Memory and variables agree with the values. -/
structure Inv (k : Kind) (s : State V) (env : List (Option (Mat V))) : Prop where
  length : s.env.length = env.length
  dead : ∀ x : Nat, s.env[x]? = some none ↔ env[x]? = some none
  holds : ∀ (x : Nat) o m, s.env[x]? = some (some o) → env[x]? = some (some m) → Holds s.heap o m
  sep : Sep s.heap (owned s.env)
  cols : ∀ (x : Nat) m, env[x]? = some (some m) → k = .csr → (m.min = 0 ↔ m.maj = 0)

theorem Inv.init (k : Kind) : Inv (V := V) k ⟨[], []⟩ [] := by
  refine ⟨rfl, by simp, by simp, ⟨by simp [owned], by simp [owned]⟩, by simp⟩

/-- A live variable is live on both sides. -/
theorem Inv.get {k : Kind} {s : State V} {env : List (Option (Mat V))} (I : Inv k s env) {x : Nat} {m : Mat V}
    (hx : env[x]? = some (some m)) : ∃ o, s.env[x]? = some (some o) ∧ Holds s.heap o m := by
  have hl : x < s.env.length := by rw [I.length]; exact (List.getElem?_eq_some_iff.1 hx).1
  have e : s.env[x]? = some s.env[x] := List.getElem?_eq_getElem hl
  rcases h : s.env[x] with _ | o
  · rw [h] at e
    rw [(I.dead x).1 e] at hx
    simp at hx
  · rw [h] at e
    exact ⟨o, e, I.holds x o m e hx⟩

/-- A new variable. -/
theorem Inv.push {k : Kind} {s : State V} {env : List (Option (Mat V))} (I : Inv k s env) {h' : Heap V} {o : Obj}
    {m : Mat V} (hs : Sep h' (own o ++ owned s.env)) (ha : Agree s.heap h' (owned s.env)) (H : Holds h' o m)
    (hc : k = .csr → (m.min = 0 ↔ m.maj = 0)) : Inv k ⟨h', s.env ++ [some o]⟩ (env ++ [some m]) := by
  have hlen := I.length
  have key : ∀ x : Nat, x < env.length ∨ x = env.length ∨ env.length < x := by omega
  refine ⟨by simp [hlen], fun x => ?_, fun x o' m' ho hm => ?_, ?_, fun x m' hm => ?_⟩
  · rcases key x with h | h | h
    · simp only []
      rw [List.getElem?_append_left (by omega), List.getElem?_append_left h]
      exact I.dead x
    · subst h
      simp [← hlen]
    · simp only []
      rw [List.getElem?_eq_none (by simp; omega), List.getElem?_eq_none (by simp; omega)]
      simp
  · simp only [] at ho
    rcases key x with h | h | h
    · rw [List.getElem?_append_left (by omega)] at ho
      rw [List.getElem?_append_left h] at hm
      exact (I.holds x o' m' ho hm).frame (ha.sub fun q hq => mem_owned ho hq)
    · subst h
      rw [← hlen] at ho
      simp at ho hm
      subst ho hm
      exact H
    · rw [List.getElem?_eq_none (by simp; omega)] at ho
      simp at ho
  · refine hs.perm ?_
    simp only [owned, List.flatMap_append, List.flatMap_cons, List.flatMap_nil, ownO, List.append_nil]
    exact List.perm_append_comm
  · rcases key x with h | h | h
    · rw [List.getElem?_append_left h] at hm
      exact I.cols x m' hm
    · subst h
      simp at hm
      subst hm
      exact hc
    · rw [List.getElem?_eq_none (by simp; omega)] at hm
      simp at hm

/-- A changed variable. -/
theorem Inv.set {k : Kind} {s : State V} {env : List (Option (Mat V))} (I : Inv k s env) {x : Nat}
    {h' : Heap V} {e : Option Obj} {e' : Option (Mat V)} (hx : x < env.length)
    (hs : Sep h' (ownO e ++ owned (s.env.set x none))) (ha : Agree s.heap h' (owned (s.env.set x none)))
    (H : (e = none ∧ e' = none) ∨ ∃ o m, e = some o ∧ e' = some m ∧ Holds h' o m ∧ (k = .csr → (m.min = 0 ↔ m.maj = 0))) :
    Inv k ⟨h', s.env.set x e⟩ (env.set x e') := by
  have hlen := I.length
  have hx' : x < s.env.length := by omega
  refine ⟨by simp [hlen], fun y => ?_, fun y o' m' ho hm => ?_, ?_, fun y m' hm => ?_⟩
  · simp only []
    by_cases h : x = y
    · subst h
      rw [List.getElem?_set_self hx', List.getElem?_set_self hx]
      rcases H with ⟨rfl, rfl⟩ | ⟨o, m, rfl, rfl, _⟩ <;> simp
    · rw [List.getElem?_set_ne h, List.getElem?_set_ne h]
      exact I.dead y
  · simp only [] at ho
    by_cases h : x = y
    · subst h
      rw [List.getElem?_set_self hx'] at ho
      rw [List.getElem?_set_self hx] at hm
      rcases H with ⟨rfl, rfl⟩ | ⟨o, m, rfl, rfl, H, _⟩
      · simp at ho
      · simp at ho hm
        subst ho hm
        exact H
    · rw [List.getElem?_set_ne h] at ho hm
      exact (I.holds y o' m' ho hm).frame (ha.sub fun q hq => mem_owned_set h ho hq)
  · exact hs.perm (owned_set s.env e x hx').symm
  · by_cases h : x = y
    · subst h
      rw [List.getElem?_set_self hx] at hm
      rcases H with ⟨rfl, rfl⟩ | ⟨o, m, rfl, rfl, _, H⟩
      · simp at hm
      · simp at hm
        subst hm
        exact H
    · rw [List.getElem?_set_ne h] at hm
      exact I.cols y m' hm

theorem val_ok {env : List (Option (Mat V))} {x : Nat} {m : Mat V} (h : Spec.val env x = .ok m) :
    env[x]? = some (some m) := by
  unfold Spec.val at h
  split at h <;> simp_all

theorem var_of {env : List (Option Obj)} {x : Nat} {o : Obj} (h : env[x]? = some (some o)) : var env x = .ok o := by
  simp [var, h]

theorem own_def (o : Obj) : own o = (if 0 < o.nnz then [o.ids, o.vals] else []) ++ (if 0 < o.maj then [o.ptr] else []) :=
  rfl

theorem wr_ok {α : Type} {l l' : List α} {i : Nat} {x : α} (h : wr l i x = .ok l') :
    i < l.length ∧ l' = l.set i x := by
  unfold wr at h
  split at h
  · exact ⟨by assumption, (Except.ok.inj h).symm⟩
  · simp at h

theorem bind_eq_ok {α β : Type} {x : Res α} {f : α → Res β} {b : β} (h : (x >>= f) = .ok b) :
    ∃ a, x = .ok a ∧ f a = .ok b := by
  cases x with
  | error e => simp at h
  | ok a => exact ⟨a, rfl, h⟩

/-- Sized constructor. -/
theorem sized_ok {k : Kind} {dflt : V} {h : Heap V} {L : List (Option Nat)} (s : Sep h L) {nnz maj min : Nat}
    (hm : maj ≠ 0) (hk : k = .csc → nnz ≠ 0) :
    ∃ h' o, sized k dflt h nnz maj min = .ok (h', o) ∧ Sep h' (own o ++ L) ∧ Agree h h' L ∧
      Holds h' o ⟨maj, min, nnz, List.replicate (maj + 1) 0, List.replicate nnz 0, List.replicate nnz dflt, true⟩ := by
  unfold sized
  rw [check_of (decide_eq_true ⟨hm, hk⟩)]
  have hm' : 0 < maj := by omega
  obtain ⟨s1, a1, g1⟩ := alloc_sep s (.ints (List.replicate (maj + 1) 0))
  rcases Nat.eq_zero_or_pos nnz with rfl | hn
  · refine ⟨_, ⟨maj, min, 0, some h.length, none, none, true⟩, by simp [alloc], ?_, a1, ?_⟩
    · simp only [own, hm', if_true, Nat.lt_irrefl, if_false, List.nil_append, List.cons_append]
      exact s1
    · exact ⟨rfl, rfl, rfl, rfl, rfl, rfl, by simp [hm], by simp, by simp, fun _ => ⟨_, rfl, g1⟩⟩
  · obtain ⟨s2, a2, g2⟩ := alloc_sep s1 (.ints (List.replicate nnz 0))
    obtain ⟨s3, a3, g3⟩ := alloc_sep s2 (.vals (List.replicate nnz dflt))
    refine ⟨_, ⟨maj, min, nnz, _, _, _, true⟩, by simp only [alloc, ok_bind, gt_iff_lt, hn, if_true]; rfl, ?_, ?_, ?_⟩
    · simp only [own, hm', hn, if_true, List.cons_append, List.nil_append]
      refine s3.perm ?_
      exact (List.Perm.swap _ _ _)
    · exact (a1.trans (a2.sub (by simp +contextual))).trans (a3.sub (by simp +contextual))
    · refine ⟨rfl, rfl, rfl, rfl, by simp, by simp, by simp [hm], fun _ => ⟨_, rfl, ?_⟩, fun _ => ⟨_, rfl, g3⟩,
        fun _ => ⟨_, rfl, ?_⟩⟩
      · rw [a3 _ (by simp)]; exact g2
      · rw [a3 _ (by simp), a2 _ (by simp)]; exact g1

/-- A write into an allocated block. -/
theorem Sep.put {h : Heap V} {L : List (Option Nat)} (s : Sep h L) {p : Nat} {b : Block V}
    (hp : h[p]? = some (some b)) (b' : Block V) : Sep (h.set p (some b')) L := by
  have hm := s.mem_of hp
  have hperm := List.perm_cons_erase hm
  exact (set_sep (s.perm hperm) b').1.perm hperm.symm

theorem put_same {h : Heap V} {p : Nat} {b : Block V} (hp : h[p]? = some (some b)) (b' : Block V) :
    (h.set p (some b'))[p]? = some (some b') := by
  simp [(List.getElem?_eq_some_iff.1 hp).1]

/-- The pointers of one object differ from those of the others, and from each other. -/
theorem Sep.own {h : Heap V} {o : Obj} {R : List (Option Nat)} (s : Sep h (own o ++ R)) {q : Option Nat}
    (hq : q ∈ MatObj.own o) : q ∉ R :=
  fun hr => (List.nodup_append.1 s.nodup).2.2 _ hq _ hr rfl

theorem Sep.inner {h : Heap V} {o : Obj} {R : List (Option Nat)} (s : Sep h (MatObj.own o ++ R)) :
    (0 < o.nnz → o.ids ≠ o.vals) ∧ (0 < o.nnz → 0 < o.maj → o.ids ≠ o.ptr ∧ o.vals ≠ o.ptr) := by
  have hn := (List.nodup_append.1 s.nodup).1
  unfold MatObj.own at hn
  constructor
  · intro h1
    simp only [h1, if_true] at hn
    have := (List.nodup_append.1 hn).1
    simp at this
    exact this
  · intro h1 h2
    simp only [h1, h2, if_true] at hn
    simp at hn
    exact ⟨hn.1.2, hn.2⟩

theorem agree_set {h : Heap V} {L : List (Option Nat)} {p : Nat} {b : Option (Block V)} (hp : some p ∉ L) :
    Agree h (h.set p b) L := by
  intro r hr
  have : p ≠ r := by rintro rfl; exact hp hr
  exact List.getElem?_set_ne this

/-- One statement keeps memory and values in step. -/
theorem step_ok {k : Kind} {dflt : V} {s : State V} {env env' : List (Option (Mat V))} (I : Inv k s env) {op : Op V}
    (hop : ∀ nnz maj min, op = .sized nnz maj min → k = .csr → min ≠ 0)
    (hv : Spec.valStep k dflt env op = .ok env') :
    ∃ s', step k dflt s op = .ok s' ∧ Inv k s' env' := by
  cases op with
  | default =>
    obtain rfl := (Except.ok.inj hv)
    refine ⟨_, rfl, I.push (by simpa [own, default] using I.sep) (Agree.refl _ _) ?_ (by simp)⟩
    exact ⟨rfl, rfl, rfl, rfl, rfl, rfl, rfl, by simp, by simp, by simp⟩
  | sized nnz maj min =>
    obtain ⟨u, hc, hv⟩ := bind_eq_ok hv
    obtain rfl := (Except.ok.inj hv)
    have hc' : maj ≠ 0 ∧ (k = .csc → nnz ≠ 0) := by
      unfold check at hc
      split at hc
      · exact of_decide_eq_true (by assumption)
      · simp at hc
    obtain ⟨h', o, e, s1, a1, H⟩ := sized_ok (dflt := dflt) (min := min) I.sep hc'.1 hc'.2
    refine ⟨⟨h', s.env ++ [some o]⟩, by simp [step, e], I.push s1 a1 H ?_⟩
    intro hk
    have := hop _ _ _ rfl hk
    simp only []
    omega
  | copy src =>
    obtain ⟨m, hm, hv⟩ := bind_eq_ok hv
    obtain rfl := (Except.ok.inj hv)
    have hm := val_ok hm
    obtain ⟨r, hr, H⟩ := I.get hm
    obtain ⟨h', o', e, s1, a1, H1⟩ := dup_ok I.sep H (o := { r with ptr := none, ids := none, vals := none })
      rfl rfl rfl rfl r.maj Iff.rfl
    refine ⟨⟨h', s.env ++ [some o']⟩, ?_, I.push s1 a1 H1 (I.cols _ _ hm)⟩
    have e2 : copyCtor s.heap r = .ok (h', o') := e
    simp [step, var_of hr, e2]
  | assign dst src =>
    obtain ⟨m0, hm0, hv⟩ := bind_eq_ok hv
    obtain ⟨m, hm, hv⟩ := bind_eq_ok hv
    obtain rfl := (Except.ok.inj hv)
    have hm0 := val_ok hm0
    have hm := val_ok hm
    obtain ⟨o, ho, H0⟩ := I.get hm0
    obtain ⟨r, hr, H⟩ := I.get hm
    by_cases hds : dst = src
    · subst hds
      refine ⟨s, by simp [step, var_of hr], ?_⟩
      have : env.set dst (some m) = env := by
        obtain ⟨hl, e⟩ := List.getElem?_eq_some_iff.1 hm
        rw [← e, List.set_getElem_self]
      rw [this]
      exact I
    · have hx : dst < env.length := (List.getElem?_eq_some_iff.1 hm0).1
      have s0 := I.sep.perm (owned_get ho)
      obtain ⟨h1, e1, s1, a1⟩ := frees_ok s0
      have H' := H.frame (a1.sub fun q hq => mem_owned_set hds hr hq)
      have hcol : 0 < cols k r ↔ 0 < r.maj := by
        cases k with
        | csc => exact Iff.rfl
        | csr =>
          have h1 := I.cols _ _ hm rfl
          rw [← H.min, ← H.maj] at h1
          show 0 < r.min ↔ _
          omega
      obtain ⟨h2, o', e2, s2, a2, H2⟩ := dup_ok s1 H'
        (o := { o with nnz := r.nnz, maj := r.maj, min := r.min, zb := r.zb }) rfl rfl rfl rfl _ hcol
      refine ⟨⟨h2, s.env.set dst (some o')⟩, ?_, I.set hx s2 (a1.trans a2) (Or.inr ⟨o', m, rfl, rfl, H2, I.cols _ _ hm⟩)⟩
      have e3 : assign k s.heap o r = .ok (h2, o') := by
        rw [← e2]
        unfold assign
        rw [e1, ok_bind]
      simp [step, var_of ho, var_of hr, hds, e3]
  | makeEmpty x =>
    obtain ⟨m, hm, hv⟩ := bind_eq_ok hv
    obtain rfl := (Except.ok.inj hv)
    have hm := val_ok hm
    obtain ⟨o, ho, H⟩ := I.get hm
    obtain ⟨h1, e1, s1, a1⟩ := makeEmpty_ok (I.sep.perm (owned_get ho))
    refine ⟨⟨h1, s.env.set x (some ⟨0, 0, 0, o.ptr, o.ids, o.vals, o.zb⟩)⟩, by simp [step, var_of ho, e1],
      I.set (List.getElem?_eq_some_iff.1 hm).1 (by simpa [ownO, own] using s1) a1
        (Or.inr ⟨_, _, rfl, rfl, ?_, by simp⟩)⟩
    exact ⟨rfl, rfl, rfl, H.zb, rfl, rfl, rfl, by simp, by simp, by simp⟩
  | destroy x =>
    obtain ⟨m, hm, hv⟩ := bind_eq_ok hv
    obtain rfl := (Except.ok.inj hv)
    have hm := val_ok hm
    obtain ⟨o, ho, H⟩ := I.get hm
    obtain ⟨h1, e1, s1, a1⟩ := makeEmpty_ok (I.sep.perm (owned_get ho))
    exact ⟨⟨h1, s.env.set x none⟩, by simp [step, var_of ho, e1],
      I.set (List.getElem?_eq_some_iff.1 hm).1 (by simpa [ownO] using s1) a1 (Or.inl ⟨rfl, rfl⟩)⟩
  | setPtr x i v =>
    obtain ⟨m, hm, hv⟩ := bind_eq_ok hv
    obtain ⟨l, hl, hv⟩ := bind_eq_ok hv
    obtain rfl := (Except.ok.inj hv)
    have hm := val_ok hm
    obtain ⟨hil, rfl⟩ := wr_ok hl
    obtain ⟨o, ho, H⟩ := I.get hm
    have hmaj : 0 < m.maj := by
      have := H.ptrLen
      by_cases h0 : m.maj = 0
      · rw [if_pos h0] at this; omega
      · omega
    obtain ⟨p, ep, hp⟩ := H.ptr hmaj
    have s0 := I.sep.perm (owned_get ho)
    have hown : some p ∈ own o := by unfold own; rw [H.maj]; simp [hmaj, ep]
    have hin := s0.inner
    refine ⟨⟨s.heap.set p (some (.ints (m.ptr.set i v))), s.env.set x (some o)⟩, ?_, I.set
      (List.getElem?_eq_some_iff.1 hm).1 (s0.put hp _) (agree_set (s0.own hown))
        (Or.inr ⟨_, _, rfl, rfl, ?_, I.cols x m hm⟩)⟩
    · have : s.env.set x (some o) = s.env := by
        obtain ⟨hl, e⟩ := List.getElem?_eq_some_iff.1 ho
        rw [← e, List.set_getElem_self]
      rw [this]
      simp [step, var_of ho, putInts, ep, ints_of hp, hl]
    · refine { H with ptrLen := by simpa using H.ptrLen, ids := fun hn => ?_, vals := fun hn => ?_,
                      ptr := fun _ => ⟨p, ep, put_same hp _⟩ }
      · obtain ⟨q, eq, hq⟩ := H.ids hn
        have h1 := (hin.2 (by rw [H.nnz]; exact hn) (by rw [H.maj]; exact hmaj)).1
        rw [ep, eq] at h1
        exact ⟨q, eq, by rw [List.getElem?_set_ne (by rintro rfl; exact h1 rfl)]; exact hq⟩
      · obtain ⟨q, eq, hq⟩ := H.vals hn
        have h1 := (hin.2 (by rw [H.nnz]; exact hn) (by rw [H.maj]; exact hmaj)).2
        rw [ep, eq] at h1
        exact ⟨q, eq, by rw [List.getElem?_set_ne (by rintro rfl; exact h1 rfl)]; exact hq⟩
  | setId x i v =>
    obtain ⟨m, hm, hv⟩ := bind_eq_ok hv
    obtain ⟨l, hl, hv⟩ := bind_eq_ok hv
    obtain rfl := (Except.ok.inj hv)
    have hm := val_ok hm
    obtain ⟨hil, rfl⟩ := wr_ok hl
    obtain ⟨o, ho, H⟩ := I.get hm
    have hnnz : 0 < m.nnz := by rw [← H.idsLen]; omega
    obtain ⟨p, ep, hp⟩ := H.ids hnnz
    have s0 := I.sep.perm (owned_get ho)
    have hown : some p ∈ own o := by unfold own; rw [H.nnz]; simp [hnnz, ep]
    have hin := s0.inner
    refine ⟨⟨s.heap.set p (some (.ints (m.ids.set i v))), s.env.set x (some o)⟩, ?_, I.set
      (List.getElem?_eq_some_iff.1 hm).1 (s0.put hp _) (agree_set (s0.own hown))
        (Or.inr ⟨_, _, rfl, rfl, ?_, I.cols x m hm⟩)⟩
    · have : s.env.set x (some o) = s.env := by
        obtain ⟨hl, e⟩ := List.getElem?_eq_some_iff.1 ho
        rw [← e, List.set_getElem_self]
      rw [this]
      simp [step, var_of ho, putInts, ep, ints_of hp, hl]
    · refine { H with idsLen := by simpa using H.idsLen, ptr := fun hn => ?_, vals := fun hn => ?_,
                      ids := fun _ => ⟨p, ep, put_same hp _⟩ }
      · obtain ⟨q, eq, hq⟩ := H.vals hn
        have h1 := hin.1 (by rw [H.nnz]; exact hn)
        rw [ep, eq] at h1
        exact ⟨q, eq, by rw [List.getElem?_set_ne (by rintro rfl; exact h1 rfl)]; exact hq⟩
      · obtain ⟨q, eq, hq⟩ := H.ptr hn
        have h1 := (hin.2 (by rw [H.nnz]; exact hnnz) (by rw [H.maj]; exact hn)).1
        rw [ep, eq] at h1
        exact ⟨q, eq, by rw [List.getElem?_set_ne (by rintro rfl; exact h1 rfl)]; exact hq⟩
  | setVal x i v =>
    obtain ⟨m, hm, hv⟩ := bind_eq_ok hv
    obtain ⟨l, hl, hv⟩ := bind_eq_ok hv
    obtain rfl := (Except.ok.inj hv)
    have hm := val_ok hm
    obtain ⟨hil, rfl⟩ := wr_ok hl
    obtain ⟨o, ho, H⟩ := I.get hm
    have hnnz : 0 < m.nnz := by rw [← H.valsLen]; omega
    obtain ⟨p, ep, hp⟩ := H.vals hnnz
    have s0 := I.sep.perm (owned_get ho)
    have hown : some p ∈ own o := by unfold own; rw [H.nnz]; simp [hnnz, ep]
    have hin := s0.inner
    refine ⟨⟨s.heap.set p (some (.vals (m.vals.set i v))), s.env.set x (some o)⟩, ?_, I.set
      (List.getElem?_eq_some_iff.1 hm).1 (s0.put hp _) (agree_set (s0.own hown))
        (Or.inr ⟨_, _, rfl, rfl, ?_, I.cols x m hm⟩)⟩
    · have : s.env.set x (some o) = s.env := by
        obtain ⟨hl, e⟩ := List.getElem?_eq_some_iff.1 ho
        rw [← e, List.set_getElem_self]
      rw [this]
      simp [step, var_of ho, putVals, ep, vals_of hp, hl]
    · refine { H with valsLen := by simpa using H.valsLen, ids := fun hn => ?_, ptr := fun hn => ?_,
                      vals := fun _ => ⟨p, ep, put_same hp _⟩ }
      · obtain ⟨q, eq, hq⟩ := H.ids hn
        have h1 := hin.1 (by rw [H.nnz]; exact hn)
        rw [ep, eq] at h1
        exact ⟨q, eq, by rw [List.getElem?_set_ne (by rintro rfl; exact h1 rfl)]; exact hq⟩
      · obtain ⟨q, eq, hq⟩ := H.ptr hn
        have h1 := (hin.2 (by rw [H.nnz]; exact hnnz) (by rw [H.maj]; exact hn)).2
        rw [ep, eq] at h1
        exact ⟨q, eq, by rw [List.getElem?_set_ne (by rintro rfl; exact h1 rfl)]; exact hq⟩

theorem Inv.represents {k : Kind} {s : State V} {env : List (Option (Mat V))} (I : Inv k s env) :
    Spec.RepresentsVars s env := by
  have hown : ∀ (o : Obj) (p : Nat), some p ∈ own o ↔
      (0 < o.nnz ∧ (o.ids = some p ∨ o.vals = some p) ∨ 0 < o.maj ∧ o.ptr = some p) := by
    intro o p
    unfold own
    rw [List.mem_append]
    by_cases h1 : 0 < o.nnz <;> by_cases h2 : 0 < o.maj <;> simp [h1, h2, eq_comm]
  refine ⟨I.length, I.dead, fun x o m ho hm => ?_, fun p b hp => ?_, fun x y o r p ho hr h1 h2 => ?_⟩
  · have H := I.holds x o m ho hm
    refine ⟨H.maj, H.min, H.nnz, H.zb, fun hn => ⟨?_, ?_⟩, fun hn => ?_, H.idsLen, H.valsLen, H.ptrLen⟩
    · obtain ⟨p, e, hp⟩ := H.ids hn; rw [e, ints_of hp]
    · obtain ⟨p, e, hp⟩ := H.vals hn; rw [e, vals_of hp]
    · obtain ⟨p, e, hp⟩ := H.ptr hn; rw [e, ints_of hp]
  · obtain ⟨e, he, hq⟩ := List.mem_flatMap.1 (I.sep.mem_of hp)
    cases e with
    | none => simp [ownO] at hq
    | some o =>
      obtain ⟨x, hx, e⟩ := List.mem_iff_getElem.1 he
      exact ⟨x, o, by rw [List.getElem?_eq_getElem hx, e], (hown o p).1 hq⟩
  · by_contra hne
    have h1 := (hown o p).2 h1
    have h2 := (hown r p).2 h2
    exact (I.sep.perm (owned_get ho)).own h1 (mem_owned_set hne hr h2)

/-- A whole program. -/
theorem run_ok {k : Kind} {dflt : V} {ops : List (Op V)} {s : State V} {env env' : List (Option (Mat V))}
    (I : Inv k s env) (hop : ∀ nnz maj min, Op.sized nnz maj min ∈ ops → k = .csr → min ≠ 0)
    (hv : Spec.valRun k dflt ops env = .ok env') : ∃ s', run k dflt ops s = .ok s' ∧ Inv k s' env' := by
  induction ops generalizing s env with
  | nil =>
    obtain rfl := Except.ok.inj hv
    exact ⟨s, rfl, I⟩
  | cons op ops ih =>
    unfold Spec.valRun at hv
    rw [List.foldlM_cons] at hv
    obtain ⟨env1, h1, h2⟩ := bind_eq_ok hv
    obtain ⟨s1, e1, I1⟩ := step_ok I (fun a b c e => hop a b c (by simp [e])) h1
    obtain ⟨s2, e2, I2⟩ := ih I1 (fun a b c e => hop a b c (by simp [e])) h2
    refine ⟨s2, ?_, I2⟩
    unfold run
    rw [List.foldlM_cons, e1, ok_bind]
    exact e2

/-- When no variable is left, no memory is left. -/
theorem Inv.no_leak {k : Kind} {s : State V} {env : List (Option (Mat V))} (I : Inv k s env)
    (h : ∀ e ∈ env, e = none) (p : Nat) (b : Block V) : s.heap[p]? ≠ some (some b) := by
  intro hp
  obtain ⟨x, o, hx, -⟩ := I.represents.owner p b hp
  have hl : x < env.length := by rw [← I.length]; exact (List.getElem?_eq_some_iff.1 hx).1
  have e : env[x]? = some none := by
    rw [List.getElem?_eq_getElem hl, h _ (List.getElem_mem hl)]
  rw [(I.dead x).2 e] at hx
  simp at hx

end Verif.MatObj
