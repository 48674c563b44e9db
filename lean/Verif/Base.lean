/-!
# Outcomes, checked arrays and loops

Every model function returns a `Res`. The error outcomes keep the different ways
in which the C++ code can go wrong apart.
-/

namespace Verif

/-- Ways in which a run of the C++ code can go wrong. -/
inductive Err where
  /-- access outside the bounds of an array -/
  | oob
  /-- use of memory that was never written -/
  | uninit
  /-- a failing `assert` -/
  | assertion
  /-- a loop that never ends -/
  | diverge
  /-- use of memory after it was freed -/
  | freed
  /-- a division by zero -/
  | divzero
  deriving DecidableEq, Repr

/-- Outcome of a run: a result or an error. -/
abbrev Res := Except Err

deriving instance DecidableEq for Except

/-- Checked array read `a[i]`. -/
def rd {α : Type _} (a : List α) (i : Nat) : Res α :=
  match a[i]? with
  | some x => .ok x
  | none => .error .oob

/-- Checked array write `a[i] = x`. -/
def wr {α : Type _} (a : List α) (i : Nat) (x : α) : Res (List α) :=
  if i < a.length then .ok (a.set i x) else .error .oob

/-- `assert(b)` -/
def check (b : Bool) : Res Unit :=
  if b then .ok () else .error .assertion

/-- Use of a possibly unset value. -/
def use {α : Type _} (o : Option α) : Res α :=
  match o with
  | some x => .ok x
  | none => .error .uninit

/-- `for (i = lo; i < hi; ++i) body` -/
def forRange {σ : Type _} (lo hi : Nat) (s : σ) (body : Nat → σ → Res σ) : Res σ :=
  (List.range' lo (hi - lo)).foldlM (fun s i => body i s) s

/-- `for (p = lo; p != hi; ++p) body`. When `hi < lo` the pointer never meets the
end while it is inside the array, so the run leaves the array. -/
def forPtr {σ : Type _} (lo hi : Nat) (s : σ) (body : Nat → σ → Res σ) : Res σ :=
  if hi < lo then .error .oob else forRange lo hi s body

@[simp] theorem ok_bind {α β : Type _} (a : α) (f : α → Res β) :
    ((Except.ok a : Res α) >>= f) = f a := rfl

@[simp] theorem error_bind {α β : Type _} (e : Err) (f : α → Res β) :
    ((Except.error e : Res α) >>= f) = .error e := rfl

@[simp] theorem pure_eq_ok {α : Type _} (a : α) : (pure a : Res α) = .ok a := rfl

@[simp] theorem ok_map {α β : Type _} (a : α) (f : α → β) :
    (f <$> (Except.ok a : Res α)) = .ok (f a) := rfl

theorem rd_of_lt {α : Type _} {a : List α} {i : Nat} (h : i < a.length) : rd a i = .ok a[i] := by
  simp [rd, h]

theorem rd_eq_ok {α : Type _} {a : List α} {i : Nat} {x : α} : rd a i = .ok x ↔ a[i]? = some x := by
  unfold rd
  cases h : a[i]? <;> simp

theorem rd_of_getElem? {α : Type _} {a : List α} {i : Nat} {x : α} (h : a[i]? = some x) :
    rd a i = .ok x := rd_eq_ok.2 h

theorem rd_oob {α : Type _} {a : List α} {i : Nat} (h : a.length ≤ i) : rd a i = .error .oob := by
  simp [rd, h]

theorem wr_of_lt {α : Type _} {a : List α} {i : Nat} {x : α} (h : i < a.length) :
    wr a i x = .ok (a.set i x) := by
  simp [wr, h]

@[simp] theorem check_true : check true = .ok () := rfl

theorem check_of {b : Bool} (h : b = true) : check b = .ok () := by simp [h]

@[simp] theorem use_some {α : Type _} (x : α) : use (some x) = .ok x := rfl

/-! ## Loops -/

@[simp] theorem forRange_self {σ : Type _} (lo : Nat) (s : σ) (body : Nat → σ → Res σ) :
    forRange lo lo s body = .ok s := by simp [forRange]

theorem forRange_of_le {σ : Type _} {lo hi : Nat} (h : hi ≤ lo) (s : σ) (body : Nat → σ → Res σ) :
    forRange lo hi s body = .ok s := by
  have : hi - lo = 0 := by omega
  simp [forRange, this]

theorem forRange_step {σ : Type _} {lo hi : Nat} (h : lo < hi) (s : σ) (body : Nat → σ → Res σ) :
    forRange lo hi s body = (body lo s >>= fun s' => forRange (lo + 1) hi s' body) := by
  have : hi - lo = (hi - (lo + 1)) + 1 := by omega
  simp [forRange, this, List.range'_succ]

theorem forPtr_of_le {σ : Type _} {lo hi : Nat} (h : lo ≤ hi) (s : σ) (body : Nat → σ → Res σ) :
    forPtr lo hi s body = forRange lo hi s body := by
  have : ¬ hi < lo := by omega
  simp [forPtr, this]

/-- Prefix-invariant rule for monadic folds: it yields both success and the
invariant for the whole list. -/
theorem foldlM_inv {α σ : Type _} {f : σ → α → Res σ} (P : List α → σ → Prop) :
    ∀ (l : List α) (s : σ), P [] s →
    (∀ pre a post s, l = pre ++ a :: post → P pre s → ∃ s', f s a = .ok s' ∧ P (pre ++ [a]) s') →
    ∃ s', l.foldlM f s = .ok s' ∧ P l s' := by
  intro l
  suffices H : ∀ (post pre : List α) (s : σ), l = pre ++ post → P pre s →
      (∀ pre a post s, l = pre ++ a :: post → P pre s → ∃ s', f s a = .ok s' ∧ P (pre ++ [a]) s') →
      ∃ s', post.foldlM f s = .ok s' ∧ P l s' by
    intro s h0 hs
    exact H l [] s rfl h0 hs
  intro post
  induction post with
  | nil =>
    intro pre s hl hp _
    refine ⟨s, rfl, ?_⟩
    simpa [hl] using hp
  | cons a post ih =>
    intro pre s hl hp hs
    obtain ⟨s1, h1, hp1⟩ := hs pre a post s hl hp
    obtain ⟨s2, h2, hp2⟩ := ih (pre ++ [a]) s1 (by simp [hl]) hp1 hs
    exact ⟨s2, by simp [h1, h2], hp2⟩

/-- A monadic fold whose steps all succeed is a pure fold. -/
theorem foldlM_pure {α σ : Type _} {f : σ → α → Res σ} (g : σ → α → σ) (I : σ → Prop) :
    ∀ (l : List α) (s : σ), I s →
    (∀ a ∈ l, ∀ s, I s → f s a = .ok (g s a) ∧ I (g s a)) →
    l.foldlM f s = .ok (l.foldl g s) ∧ I (l.foldl g s) := by
  intro l
  induction l with
  | nil => intro s h _; exact ⟨rfl, h⟩
  | cons a l ih =>
    intro s h hs
    obtain ⟨h1, h2⟩ := hs a (by simp) s h
    have := ih (g s a) h2 (fun b hb => hs b (by simp [hb]))
    simpa [h1] using this

/-- A monadic fold whose state is a function of the processed prefix. -/
theorem foldlM_desc {α σ : Type _} {f : σ → α → Res σ} (D : List α → σ) (l : List α)
    (h : ∀ pre a post, l = pre ++ a :: post → f (D pre) a = .ok (D (pre ++ [a]))) :
    l.foldlM f (D []) = .ok (D l) := by
  obtain ⟨s', h1, h2⟩ := foldlM_inv (f := f) (fun pre s => s = D pre) l (D []) rfl (by
    intro pre a post s hl hs
    subst hs
    exact ⟨_, h pre a post hl, rfl⟩)
  rw [h1, h2]

theorem foldlM_congr {α σ : Type _} {f g : σ → α → Res σ} {l : List α} {s : σ}
    (h : ∀ a ∈ l, ∀ s, f s a = g s a) : l.foldlM f s = l.foldlM g s := by
  induction l generalizing s with
  | nil => rfl
  | cons a l ih =>
    simp only [List.foldlM_cons]
    rw [h a (by simp)]
    congr 1
    funext s'
    exact ih (fun b hb => h b (by simp [hb]))

/-- Loop rule: an indexed invariant. -/
theorem forRange_inv {σ : Type _} {body : Nat → σ → Res σ} (P : Nat → σ → Prop) (lo hi : Nat)
    (hle : lo ≤ hi) (s : σ) (h0 : P lo s)
    (hs : ∀ i s, lo ≤ i → i < hi → P i s → ∃ s', body i s = .ok s' ∧ P (i + 1) s') :
    ∃ s', forRange lo hi s body = .ok s' ∧ P hi s' := by
  induction hd : hi - lo generalizing lo s with
  | zero =>
    have : lo = hi := by omega
    subst this
    exact ⟨s, by simp, h0⟩
  | succ n ih =>
    have hlt : lo < hi := by omega
    obtain ⟨s1, h1, hp1⟩ := hs lo s (by omega) hlt h0
    obtain ⟨s2, h2, hp2⟩ := ih (lo + 1) (by omega) s1 hp1
      (fun i s hi1 hi2 hp => hs i s (by omega) hi2 hp) (by omega)
    exact ⟨s2, by rw [forRange_step hlt, h1]; simpa using h2, hp2⟩

theorem forRange_congr {σ : Type _} {f g : Nat → σ → Res σ} {lo hi : Nat} {s : σ}
    (h : ∀ i, lo ≤ i → i < hi → ∀ s, f i s = g i s) : forRange lo hi s f = forRange lo hi s g := by
  apply foldlM_congr
  intro a ha s
  rw [List.mem_range'_1] at ha
  exact h a ha.1 (by omega) s

/-! ## Tables: arrays described by a function -/

/-- The array of length `n` with entries `f 0, f 1, ...`. -/
def tab {α : Type _} (n : Nat) (f : Nat → α) : List α := (List.range n).map f

@[simp] theorem tab_length {α : Type _} (n : Nat) (f : Nat → α) : (tab n f).length = n := by
  simp [tab]

theorem tab_getElem? {α : Type _} {n i : Nat} {f : Nat → α} (h : i < n) :
    (tab n f)[i]? = some (f i) := by
  simp [tab, h]

theorem rd_tab {α : Type _} {n i : Nat} {f : Nat → α} (h : i < n) : rd (tab n f) i = .ok (f i) :=
  rd_of_getElem? (tab_getElem? h)

/-- Pointwise update of a function. -/
def upd {α : Type _} (f : Nat → α) (i : Nat) (x : α) : Nat → α := fun j => if j = i then x else f j

@[simp] theorem upd_same {α : Type _} (f : Nat → α) (i : Nat) (x : α) : upd f i x i = x := by
  simp [upd]

theorem upd_ne {α : Type _} (f : Nat → α) {i j : Nat} (x : α) (h : j ≠ i) : upd f i x j = f j := by
  simp [upd, h]

theorem tab_ext {α : Type _} {n : Nat} {f g : Nat → α} (h : ∀ i < n, f i = g i) :
    tab n f = tab n g := by
  unfold tab
  apply List.map_congr_left
  intro i hi
  exact h i (by simpa using hi)

theorem tab_set {α : Type _} {n i : Nat} {f : Nat → α} {x : α} :
    (tab n f).set i x = tab n (upd f i x) := by
  apply List.ext_getElem?
  intro j
  rw [List.getElem?_set]
  by_cases hj : j < n
  · rw [tab_getElem? hj, tab_getElem? hj]
    by_cases hij : i = j
    · subst hij; simp [hj]
    · simp [hij, upd_ne _ _ (Ne.symm hij)]
  · have h1 : (tab n f)[j]? = none := by simp [tab]; omega
    have h2 : (tab n (upd f i x))[j]? = none := by simp [tab]; omega
    rw [h1, h2]
    by_cases hij : i = j
    · subst hij; simp [hj]
    · simp [hij]

theorem wr_tab {α : Type _} {n i : Nat} {f : Nat → α} {x : α} (h : i < n) :
    wr (tab n f) i x = .ok (tab n (upd f i x)) := by
  rw [wr_of_lt (by simpa using h), tab_set]

/-- Every list is a table. -/
theorem eq_tab {α : Type _} (l : List α) (d : α) : l = tab l.length (fun i => l.getD i d) := by
  apply List.ext_getElem?
  intro i
  by_cases h : i < l.length
  · rw [tab_getElem? h]; simp [h]
  · have : (tab l.length (fun i => l.getD i d))[i]? = none := by simp [tab]; omega
    rw [this]; simp; omega

end Verif
