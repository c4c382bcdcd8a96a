import Verif.Model.Morphism
import Verif.SimSpec
import Verif.Theory.ElementOps
import Verif.Theory.ElementHistory
import Verif.Theory.MapBridge
import Verif.Theory.SetOps

/-!
# Lemmas on `atomize` and `cluster`
-/

set_option linter.unusedSectionVars false

namespace ICL
open Spec

section
variable {D I V S R : Type} [LinearOrder D] {o : IntervalOps D I} {e : ElementOps D I}

/-- The inner loop visits the elements in order, if `last` is not the greatest value of the domain. -/
theorem atomizeLoop_eq (s : Steps D) {last : D} (hz : ∃ z, last < z) (ins : R → D → R) :
    ∀ (xs : List D) (n : Nat) (x : D) (r : R), Enumerates xs (fun y => x ≤ y ∧ y ≤ last) → xs.length < n →
      atomizeLoop s.nx last ins n x r = some (xs.foldl ins r)
  | [], n + 1, x, r, hx, _ => by
    rw [atomizeLoop, if_neg]
    · rfl
    · intro hle
      exact absurd ((hx.2 x).2 ⟨le_refl _, hle⟩) (by simp)
  | a :: xs, n + 1, x, r, hx, hn => by
    have ha := (hx.2 a).1 (by simp)
    have hp := List.pairwise_cons.1 hx.1
    have hxa : x = a := by
      have h1 := (hx.2 x).2 ⟨le_refl _, le_trans ha.1 ha.2⟩
      rcases List.mem_cons.1 h1 with h1 | h1
      · exact h1
      · exact le_antisymm ha.1 (le_of_lt (hp.1 x h1))
    subst hxa
    obtain ⟨z, hz'⟩ := hz
    have hxz : x < z := lt_of_le_of_lt ha.2 hz'
    rw [atomizeLoop, if_pos ha.2, List.foldl_cons]
    refine atomizeLoop_eq s ⟨z, hz'⟩ ins xs n _ _ ⟨hp.2, fun y => ?_⟩ (by simpa using hn)
    show y ∈ xs ↔ s.nx x ≤ y ∧ y ≤ last
    rw [s.nx_le_iff hxz]
    constructor
    · intro hy
      exact ⟨hp.1 y hy, ((hx.2 y).1 (by simp [hy])).2⟩
    · rintro ⟨h1, h2⟩
      rcases List.mem_cons.1 ((hx.2 y).2 ⟨le_of_lt h1, h2⟩) with h3 | h3
      · exact absurd h3 (ne_of_gt h1)
      · exact h3

/-- If `last` is the greatest value and `++` returns a value that is not greater, the loop does not end. -/
theorem atomizeLoop_loops {nx : D → D} {last : D} (hm : ∀ z, z ≤ last) (ins : R → D → R) :
    ∀ (n : Nat) (x : D) (r : R), atomizeLoop nx last ins n x r = none
  | 0, _, _ => rfl
  | n + 1, x, r => by rw [atomizeLoop, if_pos (hm x)]; exact atomizeLoop_loops hm ins n _ _

/-- The outer loop. -/
theorem atomize_eq (s : Steps D) (h : DiscreteClass o e) {g : SegOps I V S} (ins : V → R → D → R) (el : S → List D) :
    ∀ (src : List S), (∀ i ∈ src, o.Nonempty (g.key i) ∧ ElementsOf o (g.key i) (el i) ∧ ∃ z, ∀ x, In o x (g.key i) → x < z) →
      ∃ N, ∀ n, N ≤ n → ∀ r, atomize s e g ins n r src = some (src.foldl (fun r i => (el i).foldl (ins (g.val i)) r) r)
  | [], _ => ⟨0, fun n _ r => rfl⟩
  | i :: src, hh => by
    obtain ⟨N, hN⟩ := atomize_eq s h ins el src fun j hj => hh j (by simp [hj])
    obtain ⟨h1, h2, z, hz⟩ := hh i (by simp)
    refine ⟨max N ((el i).length + 1), fun n hn r => ?_⟩
    have hlast : o.Mem (e.last (g.key i)) (g.key i) := by
      obtain ⟨x, hx⟩ := h1
      have := (h.mem_iff ⟨x, hx⟩ x).1 hx
      exact (h.mem_iff ⟨x, hx⟩ _).2 ⟨le_trans this.1 this.2, le_refl _⟩
    have e1 := atomizeLoop_eq s ⟨z, hz _ hlast⟩ (ins (g.val i)) (el i) n (e.first (g.key i)) r
      ⟨h2.1, fun y => by rw [h2.2]; exact h.mem_iff h1 y⟩ (by have := le_max_right N ((el i).length + 1); omega)
    unfold atomize
    rw [forEach, e1]
    exact hN n (le_trans (le_max_left _ _) hn) _

theorem foldl_sets (el : I → List D) : ∀ (src : List I) (r : List D), Ascending (fun x => x) r →
    Ascending (fun x => x) (src.foldl (fun r i => (el i).foldl ESet.add r) r) ∧
      ∀ y, y ∈ src.foldl (fun r i => (el i).foldl ESet.add r) r ↔ y ∈ r ∨ ∃ i ∈ src, y ∈ el i
  | [], r, hr => ⟨hr, fun y => by simp⟩
  | i :: src, r, hr => by
    obtain ⟨h1, h2⟩ := ESet.addSet_spec hr (el i)
    obtain ⟨i1, i2⟩ := foldl_sets el src _ h1
    refine ⟨i1, fun y => ?_⟩
    rw [List.foldl_cons]
    refine (i2 y).trans ?_
    rw [h2 y]
    simp only [List.mem_cons, exists_eq_or_imp]
    tauto

variable [DecidableEq V]

theorem foldl_insert (t : MapType V) (v : V) : ∀ (xs : List D) (r : List (D × V)), Ascending Prod.fst r →
    xs.Pairwise (· < ·) →
    ActsAll r (xs.foldl (fun r x => (EMap.insert t r x v).1) r) fun y a => if y ∈ xs then inserted t v a else a
  | [], r, hr, _ => ⟨hr, fun y => by simp⟩
  | x :: xs, r, hr, hp => by
    obtain ⟨h1, h2⟩ := (EMap.insert_acts (t := t) hr x v).1
    obtain ⟨p1, p2⟩ := List.pairwise_cons.1 hp
    obtain ⟨i1, i2⟩ := foldl_insert t v xs _ h1 p2
    refine ⟨i1, fun y => ?_⟩
    rw [List.foldl_cons, i2 y, h2 y]
    by_cases e : y = x
    · subst e
      have : y ∉ xs := fun h => lt_irrefl _ (p1 y h)
      simp [this]
    · simp [e]

theorem foldl_maps (h : o.Lawful) (t : MapType V) (el : I × V → List D) : ∀ (src : List (I × V)) (r : List (D × V)),
    Ascending Prod.fst r → WF o mapSeg src → (∀ s ∈ src, ElementsOf o s.1 (el s)) →
    ActsAll r (src.foldl (fun r s => (el s).foldl (fun r x => (EMap.insert t r x s.2).1) r) r) fun y a =>
      match valueAt o src y with
      | none => a
      | some v => inserted t v a
  | [], r, hr, _, _ => ⟨hr, fun y => by simp [valueAt]⟩
  | s :: src, r, hr, hw, he => by
    have hs := he s (by simp)
    obtain ⟨h1, h2⟩ := foldl_insert t s.2 (el s) r hr hs.1
    have w := wf_cons.1 hw
    obtain ⟨i1, i2⟩ := foldl_maps h t el src _ h1 w.2.1 fun s hs => he s (by simp [hs])
    refine ⟨i1, fun y => ?_⟩
    rw [List.foldl_cons, i2 y, h2 y]
    have hm : y ∈ el s ↔ o.contains s.1 y = true := hs.2 y
    unfold valueAt
    dsimp only
    rw [List.find?_cons]
    by_cases hy : o.contains s.1 y = true
    · have hn : src.find? (fun s => o.contains s.1 y) = none := by
        rw [List.find?_eq_none]
        intro u hu hc
        exact lt_irrefl _ (w.2.2 y y hy ⟨u, hu, hc⟩)
      rw [hn, hy, if_pos (hm.2 hy)]
      rfl
    · rw [if_neg fun hc => hy (hm.1 hc)]
      rw [Bool.not_eq_true] at hy
      rw [hy]

/-- `insert(segment)` for all segments of a map -/
theorem insertSegs_at (h : o.Lawful) (t : MapType V) {l r : List (I × V)} (hl : WF o mapSeg l) (hr : WF o mapSeg r) :
    ∃ l', forEach (fun l (s : I × V) => IMap.insert o t.cfg l s.1 s.2) l r = some l' ∧
      IMap.Pt o t.cfg.enriched True l l' (IMap.over o r fun _ => IMap.insF t.cfg) :=
  IMap.forEach_pt (ψ := fun _ => IMap.insF t.cfg) hr (fun l hl s _ => by
    obtain ⟨l', e, w, j, a⟩ := IMap.insert_at h t.cfg hl s.1 s.2
    exact ⟨l', e, pt_enriched w j a⟩) hl

/-- `add(interval)` for all intervals of a list -/
theorem addItvs_spec (h : o.Lawful) (st : Style) : ∀ (r l : List I), WF o setSeg l →
    ∃ l', forEach (fun l k => ISet.add o st l k) l r = some l' ∧ WF o setSeg l' ∧
      (st = .joining → Joined o setSeg l → Joined o setSeg l') ∧
      ∀ x, Dom o setSeg l' x ↔ Dom o setSeg l x ∨ ∃ k ∈ r, o.Mem x k
  | [], l, hl => ⟨l, rfl, hl, fun _ hj => hj, fun x => by simp⟩
  | k :: r, l, hl => by
    obtain ⟨l1, e1, s1⟩ := ISet.add_spec h st hl k
    obtain ⟨l2, e2, w2, j2, d2⟩ := addItvs_spec h st r l1 s1.wf
    refine ⟨l2, by rw [forEach, e1]; exact e2, w2, fun hs hj => j2 hs (s1.joined hs hj), fun x => ?_⟩
    rw [d2, s1.dom]
    simp only [List.mem_cons, exists_eq_or_imp, or_assoc]

end
end ICL
