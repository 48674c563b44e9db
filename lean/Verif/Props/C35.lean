import Verif.HeapOps
import Verif.Lemmas.HeapAlg

/-! # C35: the merge heap -/

namespace Verif.Props

open Verif.Model.Heap Verif.Spec

theorem heapBuild_ok {cap : Nat} {es : List Ent} (hc : es.length ≤ cap) :
    ∃ es', heapBuild cap es = .ok ⟨cap, es'⟩ ∧ es'.Perm es ∧ IsHeap 0 es' := by
  unfold heapBuild
  have h1 : es.foldlM (fun (h : HP) e => h.append e.key e.runr e.loc) ⟨cap, []⟩ = .ok ⟨cap, es⟩ := by
    refine foldlM_desc (fun pre => (⟨cap, pre⟩ : HP)) es ?_
    intro pre a post he
    have : pre.length < cap := by
      rw [he] at hc; simp at hc; omega
    simp [HP.append, this]
  rw [h1]
  obtain ⟨es', k1, k2, k3⟩ := makeHeap_ok es
  exact ⟨es', by simp [HP.make, k1], k2, k3⟩

theorem _root_.Verif.Spec.HeapRun.of_perm {l l₂ : List Ent} {ops : List HeapOp} {l' : List Ent} (h : HeapRun l ops l') (p : l₂.Perm l) :
    HeapRun l₂ ops l' := by
  cases h with
  | nil q => exact .nil (p.trans q)
  | empty h => rw [p.eq_nil]; exact .empty h
  | pop q hm h => exact .pop (p.trans q) hm h
  | replace q hm h => exact .replace (p.trans q) hm h

theorem heapRun_ok (cap : Nat) (ops : List HeapOp) : ∀ {es : List Ent}, IsHeap 0 es →
    ∃ es', heapRun ⟨cap, es⟩ ops = .ok ⟨cap, es'⟩ ∧ HeapRun es ops es' ∧ IsHeap 0 es' := by
  induction ops with
  | nil => intro es h; exact ⟨es, rfl, .nil (.refl _), h⟩
  | cons op ops ih =>
    intro es h
    unfold heapRun
    cases es with
    | nil =>
      obtain ⟨es', h1, h2, h3⟩ := ih h
      refine ⟨es', ?_, .empty h2, h3⟩
      cases op <;> simpa [heapImpl] using h1
    | cons e r =>
      cases op with
      | pop =>
        obtain ⟨r', k1, k2, k3⟩ := pop_ok cap (h.replace e)
        obtain ⟨es', h1, h2, h3⟩ := ih k3
        exact ⟨es', by simp [heapImpl, k1, h1], .pop (.refl _) h.top (h2.of_perm k2.symm), h3⟩
      | replace e' =>
        obtain ⟨r', k1, k2, k3⟩ := sink_ok cap (h.replace e')
        obtain ⟨es', h1, h2, h3⟩ := ih k3
        exact ⟨es', by simp [heapImpl, setTop_ok, k1, h1], .replace (.refl _) h.top (h2.of_perm k2.symm), h3⟩

/-- C35: a heap built from any entries refines a multiset with a minimal top, for every sequence of pops and
root replacements (by larger, equal or smaller keys), and never touches memory outside its entries. -/
theorem C35_heap {cap : Nat} {es : List Ent} (hc : es.length ≤ cap) (ops : List HeapOp) :
    ∃ h', (do let h ← heapBuild cap es; heapRun h ops : Res HP) = .ok h' ∧ HeapRun es ops h'.es ∧
      ∀ e r, h'.es = e :: r → ∀ x ∈ r, e.key ≤ x.key := by
  obtain ⟨es1, h1, h2, h3⟩ := heapBuild_ok hc
  obtain ⟨es', k1, k2, k3⟩ := heapRun_ok cap ops h3
  refine ⟨⟨cap, es'⟩, by rw [h1]; exact k1, k2.of_perm h2.symm, ?_⟩
  intro e r he
  simp only at he
  rw [he] at k3
  exact k3.top

/-- A heap of six entries with ties. -/
def sample : List Ent := [⟨5, 0, 0⟩, ⟨3, 1, 4⟩, ⟨5, 2, 8⟩, ⟨1, 3, 12⟩, ⟨3, 4, 16⟩, ⟨9, 5, 20⟩]

example : ∃ h', (do let h ← heapBuild 6 sample; heapRun h [.replace ⟨7, 3, 13⟩, .pop, .pop] : Res HP) = .ok h' ∧
    HeapRun sample [.replace ⟨7, 3, 13⟩, .pop, .pop] h'.es ∧ ∀ e r, h'.es = e :: r → ∀ x ∈ r, e.key ≤ x.key :=
  C35_heap (by decide) _

example : ((do let h ← heapBuild 6 sample; heapRun h [.replace ⟨7, 3, 13⟩, .pop, .pop] : Res HP).toOption.map
    fun h => h.es.map (·.key)) = some [5, 5, 7, 9] := by decide +kernel

end Verif.Props
