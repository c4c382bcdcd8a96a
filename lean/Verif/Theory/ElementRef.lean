import Verif.Model.ElementRef
import Verif.Theory.Elements
import Verif.RefSpec

/-!
# Lemmas on element references
-/

set_option linter.unusedSectionVars false
set_option linter.unusedVariables false

namespace ICL.ElemRef
open Spec

section
variable {I V : Type} {o : IntervalOps ℤ I} {e : ElementOps ℤ I}

theorem cell_set_self {M : Mem} {i : Nat} {c c' : Cell} (h : cell M i = some c) : cell (M.set i (some c')) i = some c' := by
  have : i < M.length := by
    by_contra hn
    simp [cell, List.getElem?_eq_none (by omega : M.length ≤ i)] at h
  simp [cell, this]

theorem cell_set_ne {M : Mem} {i j : Nat} (hij : i ≠ j) (c : Option Cell) : cell (M.set i c) j = cell M j := by
  simp [cell, hij]

theorem cell_append {M : Mem} {i : Nat} {c : Cell} (h : cell M i = some c) (x : Option Cell) : cell (M ++ [x]) i = some c := by
  have : i < M.length := by
    by_contra hn
    simp [cell, List.getElem?_eq_none (by omega : M.length ≤ i)] at h
  rw [cell, List.getElem?_append_left this]
  exact h

/-- What a command that leaves `i` alone does to it: it may move. -/
theorem step_leaves {d : Dir I V} {i : Nat} {cmd : Cmd} (hl : Leaves i cmd) {M M' : Mem} (h : step o e d cmd M = some M')
    {c : Cell} (hc : cell M i = some c) : ∃ c', cell M' i = some c' ∧ c'.inter = c.inter := by
  cases cmd with
  | first | last =>
    simp only [step, Option.some.injEq] at h
    subst h
    exact ⟨c, cell_append hc _, rfl⟩
  | copy j | convert j =>
    simp only [step, Option.map_eq_some_iff] at h
    obtain ⟨_, _, rfl⟩ := h
    exact ⟨c, cell_append hc _, rfl⟩
  | assign j k =>
    simp only [step, Option.bind_eq_some_iff, Option.map_eq_some_iff] at h
    obtain ⟨_, _, _, _, rfl⟩ := h
    exact ⟨c, by rw [cell_set_ne hl]; exact hc, rfl⟩
  | incr j | decr j =>
    simp only [step, Option.bind_eq_some_iff, Option.map_eq_some_iff] at h
    obtain ⟨c1, h1, p, _, rfl⟩ := h
    by_cases hj : j = i
    · subst hj
      rw [hc] at h1
      cases h1
      exact ⟨_, cell_set_self hc, rfl⟩
    · exact ⟨c, by rw [cell_set_ne hj]; exact hc, rfl⟩
  | deref j =>
    simp only [step, deref, Option.map_eq_some_iff, Option.bind_eq_some_iff] at h
    obtain ⟨_, ⟨_, _, _, _, rfl⟩, rfl⟩ := h
    exact ⟨c, by rw [cell_set_ne hl]; exact hc, rfl⟩
  | destroy j =>
    simp only [step, Option.map_eq_some_iff] at h
    obtain ⟨_, _, rfl⟩ := h
    exact ⟨c, by rw [cell_set_ne hl]; exact hc, rfl⟩

theorem run_leaves {d : Dir I V} {i : Nat} {cs : List Cmd} (hl : ∀ c ∈ cs, Leaves i c) {M M' : Mem}
    (h : run o e d cs M = some M') {c : Cell} (hc : cell M i = some c) :
    ∃ c', cell M' i = some c' ∧ c'.inter = c.inter := by
  induction cs generalizing M c with
  | nil =>
    cases h
    exact ⟨c, hc, rfl⟩
  | cons cmd cs ih =>
    simp only [run, Option.bind_eq_some_iff] at h
    obtain ⟨M1, h1, h2⟩ := h
    obtain ⟨c1, hc1, hi1⟩ := step_leaves (hl cmd (by simp)) h1 hc
    obtain ⟨c2, hc2, hi2⟩ := ih (fun c hc => hl c (by simp [hc])) h2 hc1
    exact ⟨c2, hc2, hi2.trans hi1⟩

theorem step_spares {d : Dir I V} {i : Nat} {cmd : Cmd} (hl : Spares i cmd) {M M' : Mem} (h : step o e d cmd M = some M')
    {c : Cell} (hc : cell M i = some c) : ∃ c', cell M' i = some c' := by
  by_cases hd : cmd = .deref i
  · subst hd
    simp only [step, deref, Option.map_eq_some_iff, Option.bind_eq_some_iff] at h
    obtain ⟨_, ⟨c1, h1, _, _, rfl⟩, rfl⟩ := h
    exact ⟨_, cell_set_self h1⟩
  · have : Leaves i cmd := by
      cases cmd <;> simp_all [Leaves, Spares]
    obtain ⟨c', h', _⟩ := step_leaves this h hc
    exact ⟨c', h'⟩

theorem run_spares {d : Dir I V} {i : Nat} {cs : List Cmd} (hl : ∀ c ∈ cs, Spares i c) {M M' : Mem}
    (h : run o e d cs M = some M') {c : Cell} (hc : cell M i = some c) : ∃ c', cell M' i = some c' := by
  induction cs generalizing M c with
  | nil => cases h; exact ⟨c, hc⟩
  | cons cmd cs ih =>
    simp only [run, Option.bind_eq_some_iff] at h
    obtain ⟨M1, h1, h2⟩ := h
    obtain ⟨c1, hc1⟩ := step_spares (hl cmd (by simp)) h1 hc
    exact ih (fun c hc => hl c (by simp [hc])) h2 hc1

theorem deref_some {d : Dir I V} {i : Nat} {M M' : Mem} {r : Ref V} (h : deref d i M = some (r, M')) :
    ∃ c x, cell M i = some c ∧ ElemIt.deref d.elem d.segs c.pos = some x ∧ r = ⟨i, x.2⟩ ∧
      cell M' i = some { c with inter := some x.1 } ∧ read M' r = some x := by
  simp only [deref, Option.map_eq_some_iff, Option.bind_eq_some_iff, Prod.mk.injEq] at h
  obtain ⟨c, hc, x, hx, rfl, rfl⟩ := h
  refine ⟨c, x, hc, hx, rfl, cell_set_self hc, ?_⟩
  simp [read, cell_set_self hc]

/-- The positions that an iterator can have. -/
def ValidPos (o : IntervalOps ℤ I) (e : ElementOps ℤ I) (l : List (I × V)) (p : ElemIt) : Prop :=
  p = ElemIt.end_ l ∨ ∃ s, l[p.seg]? = some s ∧ 0 ≤ p.off ∧ p.off < lengthI o e s.1

def Valid (o : IntervalOps ℤ I) (e : ElementOps ℤ I) (l : List (I × V)) (M : Mem) : Prop :=
  ∀ i c, cell M i = some c → ValidPos o e l c.pos

theorem cell_append_iff {M : Mem} {i : Nat} {c : Cell} {x : Option Cell} (h : cell (M ++ [x]) i = some c) :
    cell M i = some c ∨ x = some c := by
  rw [cell, List.getElem?_append] at h
  split at h
  · exact .inl h
  · right
    by_cases h0 : i - M.length = 0
    · simpa [h0] using h
    · rw [List.getElem?_eq_none (by simp; omega)] at h
      cases h

theorem cell_set_iff {M : Mem} {i j : Nat} {c : Cell} {x : Option Cell} (h : cell (M.set j x) i = some c) :
    cell M i = some c ∨ x = some c := by
  by_cases hj : j = i
  · subst hj
    right
    by_cases hl : j < M.length
    · simpa [cell, hl] using h
    · simp [cell, List.getElem?_eq_none (by simp; omega : (M.set j x).length ≤ j)] at h
  · left
    rwa [cell_set_ne hj] at h

theorem validPos_begin (h : DiscreteClass o e) {l : List (I × V)} (hw : ∀ s ∈ l, o.Nonempty s.1) :
    ValidPos o e l ElemIt.begin := by
  cases l with
  | nil => exact .inl rfl
  | cons s l => exact .inr ⟨s, rfl, le_refl _, h.length_pos (hw s (by simp))⟩

theorem validPos_next (h : DiscreteClass o e) {l : List (I × V)} (hw : ∀ s ∈ l, o.Nonempty s.1) (k : Nat)
    (hk : k ≤ l.length) : ValidPos o e l ⟨k, 0⟩ := by
  by_cases hk' : k = l.length
  · exact .inl (by rw [hk']; rfl)
  · have hk2 : k < l.length := by omega
    exact .inr ⟨l[k], List.getElem?_eq_getElem hk2, le_refl _, h.length_pos (hw _ (List.getElem_mem hk2))⟩

theorem validPos_incr (h : DiscreteClass o e) {l : List (I × V)} (hw : ∀ s ∈ l, o.Nonempty s.1) {p q : ElemIt}
    (hp : ValidPos o e l p) (hq : ElemIt.incr o e mapSeg l p = some q) : ValidPos o e l q := by
  simp only [ElemIt.incr, Option.map_eq_some_iff] at hq
  obtain ⟨s, hs, rfl⟩ := hq
  have hlt : p.seg < l.length := (List.getElem?_eq_some_iff.1 hs).1
  split
  · rename_i hoff
    rcases hp with rfl | ⟨s', hs', h0, _⟩
    · simp [ElemIt.end_] at hlt
    · exact .inr ⟨s, hs, by simp only; omega, by simp only [mapSeg] at hoff ⊢; omega⟩
  · exact validPos_next h hw _ hlt

theorem validPos_decr (h : DiscreteClass o e) {l : List (I × V)} (hw : ∀ s ∈ l, o.Nonempty s.1) {p q : ElemIt}
    (hp : ValidPos o e l p) (hq : ElemIt.decr o e mapSeg l p = some q) : ValidPos o e l q := by
  unfold ElemIt.decr at hq
  split at hq
  · rename_i hoff
    cases hq
    rcases hp with rfl | ⟨s', hs', h0, h1⟩
    · simp [ElemIt.end_] at hoff
    · exact .inr ⟨s', hs', by simp only; omega, by simp only; omega⟩
  · split at hq
    · cases hq
    · simp only [Option.map_eq_some_iff] at hq
      obtain ⟨s, hs, rfl⟩ := hq
      have := h.length_pos (hw s (List.mem_of_getElem? hs))
      exact .inr ⟨s, hs, by simp only [mapSeg]; omega, by simp only [mapSeg]; omega⟩

theorem step_valid (h : DiscreteClass o e) {d : Dir I V} (hw : ∀ s ∈ d.segs, o.Nonempty s.1) {cmd : Cmd} {M M' : Mem}
    (hv : Valid o e d.segs M) (hs : step o e d cmd M = some M') : Valid o e d.segs M' := by
  intro i c hc
  cases cmd with
  | first =>
    cases hs
    rcases cell_append_iff hc with h1 | h1
    · exact hv i c h1
    · cases h1; exact validPos_begin h hw
  | last =>
    cases hs
    rcases cell_append_iff hc with h1 | h1
    · exact hv i c h1
    · cases h1; exact .inl rfl
  | copy j | convert j =>
    simp only [step, Option.map_eq_some_iff] at hs
    obtain ⟨c1, hc1, rfl⟩ := hs
    rcases cell_append_iff hc with h1 | h1
    · exact hv i c h1
    · have := hv j c1 hc1
      cases h1; exact this
  | assign j k =>
    simp only [step, Option.bind_eq_some_iff, Option.map_eq_some_iff] at hs
    obtain ⟨_, _, c1, hc1, rfl⟩ := hs
    rcases cell_set_iff hc with h1 | h1
    · exact hv i c h1
    · cases h1; exact hv k _ hc1
  | incr j =>
    simp only [step, Option.bind_eq_some_iff, Option.map_eq_some_iff] at hs
    obtain ⟨c1, hc1, p, hp, rfl⟩ := hs
    rcases cell_set_iff hc with h1 | h1
    · exact hv i c h1
    · cases h1; exact validPos_incr h hw (hv j c1 hc1) hp
  | decr j =>
    simp only [step, Option.bind_eq_some_iff, Option.map_eq_some_iff] at hs
    obtain ⟨c1, hc1, p, hp, rfl⟩ := hs
    rcases cell_set_iff hc with h1 | h1
    · exact hv i c h1
    · cases h1; exact validPos_decr h hw (hv j c1 hc1) hp
  | deref j =>
    simp only [step, deref, Option.map_eq_some_iff, Option.bind_eq_some_iff] at hs
    obtain ⟨_, ⟨c1, hc1, x, hx, rfl⟩, rfl⟩ := hs
    rcases cell_set_iff hc with h1 | h1
    · exact hv i c h1
    · cases h1; exact hv j c1 hc1
  | destroy j =>
    simp only [step, Option.map_eq_some_iff] at hs
    obtain ⟨_, _, rfl⟩ := hs
    rcases cell_set_iff hc with h1 | h1
    · exact hv i c h1
    · cases h1

theorem run_valid (h : DiscreteClass o e) {d : Dir I V} (hw : ∀ s ∈ d.segs, o.Nonempty s.1) {cs : List Cmd} {M M' : Mem}
    (hv : Valid o e d.segs M) (hs : run o e d cs M = some M') : Valid o e d.segs M' := by
  induction cs generalizing M with
  | nil => cases hs; exact hv
  | cons cmd cs ih =>
    simp only [run, Option.bind_eq_some_iff] at hs
    obtain ⟨M1, h1, h2⟩ := hs
    exact ih (step_valid h hw hv h1) h2

theorem valid_nil {l : List (I × V)} : Valid o e l [] := fun i c hc => by simp [cell] at hc

/-- The element at a valid position. -/
theorem deref_forward (h : DiscreteClass o e) {m : List (I × V)} {p : ElemIt} (hp : ValidPos o e m p) {x : ℤ × V}
    (hx : ElemIt.deref (ElemIt.fwd e mapSeg) m p = some x) : ∃ s ∈ m, o.Mem x.1 s.1 ∧ s.2 = x.2 := by
  simp only [ElemIt.deref, Option.map_eq_some_iff] at hx
  obtain ⟨s, hs, rfl⟩ := hx
  refine ⟨s, List.mem_of_getElem? hs, ?_, rfl⟩
  rcases hp with rfl | ⟨s', hs', h0, h1⟩
  · simp [ElemIt.end_] at hs
  · rw [hs] at hs'
    cases hs'
    rw [h.lengthI_eq] at h1
    simp only [ElemIt.fwd, mapSeg, h.mem_iff_full]
    omega

theorem deref_reverse (h : DiscreteClass o e) {m : List (I × V)} {p : ElemIt} (hp : ValidPos o e m.reverse p) {x : ℤ × V}
    (hx : ElemIt.deref (ElemIt.bwd e mapSeg) m.reverse p = some x) : ∃ s ∈ m, o.Mem x.1 s.1 ∧ s.2 = x.2 := by
  simp only [ElemIt.deref, Option.map_eq_some_iff] at hx
  obtain ⟨s, hs, rfl⟩ := hx
  refine ⟨s, by simpa using List.mem_of_getElem? hs, ?_, rfl⟩
  rcases hp with rfl | ⟨s', hs', h0, h1⟩
  · simp [ElemIt.end_] at hs
  · rw [hs] at hs'
    cases hs'
    rw [h.lengthI_eq] at h1
    simp only [ElemIt.bwd, mapSeg, h.mem_iff_full]
    omega

end
end ICL.ElemRef
