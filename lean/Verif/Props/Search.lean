import Verif.Theory.Search
import Verif.Theory.SpecBridge
import Verif.Props.Compare
import Verif.Model.TreeSet

/-!
# C59: searches in trees of every shape

The overlap comparator `exclusive_less_than` of the containers is no strict weak order as soon as the key of a search takes
part. Nevertheless all searches and insertions in the tree of a container do what the models of the containers say,
whatever shape the tree has.
-/

set_option linter.unusedSectionVars false

namespace ICL.Props
open Spec

variable {D I V S : Type} [LinearOrder D] {o : IntervalOps D I} {g : SegOps I V S}

/-- The keys of the nodes are non-empty, disjoint and sorted. -/
def TreeWellFormed (o : IntervalOps D I) (g : SegOps I V S) (t : Shape S) : Prop := WellFormed o (t.toList.map g.key)

/-- All elements of `i` are less than those of `j`. -/
def WhollyBefore (o : IntervalOps D I) (i j : I) : Prop := ∀ x y, In o x i → In o y j → x < y

/-- Some element is in both intervals. -/
def Overlap (o : IntervalOps D I) (i j : I) : Prop := ∃ x, In o x i ∧ In o x j

theorem treeWellFormed_iff {t : Shape S} : TreeWellFormed o g t ↔ WF o g t.toList := by
  unfold TreeWellFormed WellFormed
  constructor
  · rintro ⟨h1, h2⟩
    exact ⟨fun s hs => h1 _ (List.mem_map_of_mem hs), List.pairwise_map.1 h2⟩
  · rintro ⟨h1, h2⟩
    refine ⟨fun i hi => ?_, List.pairwise_map.2 h2⟩
    obtain ⟨s, hs, rfl⟩ := List.mem_map.1 hi
    exact h1 s hs

/-- `[0,2)` and `[2,4)` both overlap `[1,3)`, but not each other: the comparator is no strict weak order. -/
theorem C59_no_weak_order : ∃ i j k : SItv ℤ,
    Shape.compare Ex.ro i k = some false ∧ Shape.compare Ex.ro k i = some false ∧
    Shape.compare Ex.ro j k = some false ∧ Shape.compare Ex.ro k j = some false ∧
    Shape.compare Ex.ro i j = some true :=
  ⟨Ex.r 0 2, Ex.r 2 4, Ex.r 1 3, by decide⟩

/-- On the nodes of a container it is a strict total order: the nodes are sorted by it, strictly. -/
theorem C59_sorted (h : IntervalClass o) (t : Shape S) (hw : TreeWellFormed o g t) :
    t.toList.Pairwise fun s u =>
      Shape.compare o (g.key s) (g.key u) = some true ∧ Shape.compare o (g.key u) (g.key s) = some false := by
  have hw := treeWellFormed_iff.1 hw
  refine hw.sorted.imp_of_mem fun {s u} hs hu hsu => ?_
  have ns := hw.nonempty s hs
  have nu := hw.nonempty u hu
  obtain ⟨a, ea, ha⟩ := Shape.compare_eq h.lawful ns nu
  obtain ⟨b, eb, hb⟩ := Shape.compare_eq h.lawful nu ns
  refine ⟨by rw [ea, ha.2 hsu], ?_⟩
  rw [eb]
  cases b with
  | false => rfl
  | true => exact absurd (hb.1 rfl) (Shape.not_before_of ns nu hsu)

/-- `lower_bound(k)`: the first node that is not wholly before `k` -/
theorem C59_lower_bound (h : IntervalClass o) (t : Shape S) (hw : TreeWellFormed o g t) (k : I) (hk : ∃ x, In o x k) :
    ∃ a b, t.lowerBound o g k = some (a, b) ∧ t.toList = a ++ b ∧ (∀ s ∈ a, WhollyBefore o (g.key s) k) ∧
      ∀ s ∈ b, ¬ WhollyBefore o (g.key s) k :=
  Shape.lowerBound_spec h.lawful hk t (treeWellFormed_iff.1 hw)

/-- `upper_bound(k)`: the first node that is wholly behind `k` -/
theorem C59_upper_bound (h : IntervalClass o) (t : Shape S) (hw : TreeWellFormed o g t) (k : I) (hk : ∃ x, In o x k) :
    ∃ a b, t.upperBound o g k = some (a, b) ∧ t.toList = a ++ b ∧ (∀ s ∈ a, ¬ WhollyBefore o k (g.key s)) ∧
      ∀ s ∈ b, WhollyBefore o k (g.key s) :=
  Shape.upperBound_spec h.lawful hk t (treeWellFormed_iff.1 hw)

/-- `equal_range(k)`: the nodes before it, those that overlap `k`, and those behind -/
theorem C59_equal_range (h : IntervalClass o) (t : Shape S) (hw : TreeWellFormed o g t) (k : I) (hk : ∃ x, In o x k) :
    ∃ a b c, t.equalRange o g k = some (a, b, c) ∧ t.toList = a ++ b ++ c ∧
      (∀ s ∈ a, WhollyBefore o (g.key s) k) ∧ (∀ s ∈ b, Overlap o (g.key s) k) ∧
      ∀ s ∈ c, WhollyBefore o k (g.key s) := by
  have hw := treeWellFormed_iff.1 hw
  obtain ⟨a, b, c, e, habc, ha, hb, hc⟩ := Shape.equalRange_spec' h.lawful hk t hw
  exact ⟨a, b, c, e, habc, ha, fun s hs =>
    (Shape.overlap_iff h.lawful (hw.nonempty s (by rw [habc]; simp [hs])) hk).1 (hb s hs), hc⟩

/-- `find(k)`: the first of the nodes that overlap `k` -/
theorem C59_find (h : IntervalClass o) (t : Shape S) (hw : TreeWellFormed o g t) (k : I) (hk : ∃ x, In o x k) :
    ∃ r, t.find o g k = some r ∧
      (r = none → ∀ s ∈ t.toList, ¬ Overlap o (g.key s) k) ∧
      ∀ s, r = some s → Overlap o (g.key s) k ∧ ∃ a b, t.toList = a ++ s :: b ∧ ∀ p ∈ a, ¬ Overlap o (g.key p) k := by
  have hw := treeWellFormed_iff.1 hw
  obtain ⟨a, b, e, hab, ha, hb⟩ := Shape.lowerBound_spec h.lawful hk t hw
  have hov : ∀ {s}, o.Before (g.key s) k → ¬ Overlap o (g.key s) k := fun hs ⟨x, h1, h2⟩ => lt_irrefl x (hs x x h1 h2)
  have hov' : ∀ {s}, o.Before k (g.key s) → ¬ Overlap o (g.key s) k :=
    fun hs ⟨x, h1, h2⟩ => lt_irrefl x (hs x x h2 h1)
  cases b with
  | nil =>
    refine ⟨none, by simp [Shape.find, e], fun _ s hs => ?_, by simp⟩
    rw [hab, List.append_nil] at hs
    exact hov (ha s hs)
  | cons f b =>
    have hfm : f ∈ t.toList := by rw [hab]; simp
    obtain ⟨d, ed, hd⟩ := Shape.compare_eq h.lawful hk (hw.nonempty f hfm)
    cases d with
    | true =>
      refine ⟨none, by simp [Shape.find, e, ed], fun _ s hs => ?_, by simp⟩
      rw [hab] at hs
      rcases List.mem_append.1 hs with hs | hs
      · exact hov (ha s hs)
      · exact hov' (Shape.before_first (hab ▸ hw) (hd.1 rfl) s hs)
    | false =>
      refine ⟨some f, by simp [Shape.find, e, ed], by simp, ?_⟩
      rintro s hs
      cases hs
      exact ⟨(Shape.overlap_iff h.lawful (hw.nonempty f hfm) hk).1 ⟨hb f (by simp), fun hh => by cases hd.2 hh⟩,
        a, b, hab, fun p hp => hov (ha p hp)⟩

/-- `insert(s)` puts the node in its place if it overlaps no other. Otherwise it changes nothing and returns one of those
that it overlaps. -/
theorem C59_insert (h : IntervalClass o) (t : Shape S) (hw : TreeWellFormed o g t) (s : S)
    (hk : ∃ x, In o x (g.key s)) :
    (∃ a c, t.insert o g s = some (a ++ s :: c, s, true) ∧ t.toList = a ++ c ∧
      (∀ p ∈ a, WhollyBefore o (g.key p) (g.key s)) ∧ ∀ q ∈ c, WhollyBefore o (g.key s) (g.key q)) ∨
    ∃ j ∈ t.toList, t.insert o g s = some (t.toList, j, false) ∧ Overlap o (g.key j) (g.key s) :=
  Shape.insert_spec h.lawful hk t (treeWellFormed_iff.1 hw)

/-- `insert(hint, s)` does the same, whatever the hint is. If the node overlaps several nodes, the iterator it returns can
refer to another one of them. -/
theorem C59_insert_hint (h : IntervalClass o) (t : Shape S) (hw : TreeWellFormed o g t) (n : Nat) (s : S)
    (hk : ∃ x, In o x (g.key s)) :
    (t.insertHint o g n s).map Prod.fst = (t.insert o g s).map Prod.fst ∧
    (t.insertHint o g n s).map (fun r => r.2.2) = (t.insert o g s).map (fun r => r.2.2) ∧
    ∃ l j b, t.insertHint o g n s = some (l, j, b) ∧ j ∈ l ∧ (b = true → j = s) ∧
      (b = false → Overlap o (g.key j) (g.key s)) := by
  have hw := treeWellFormed_iff.1 hw
  have h1 := Shape.insertHint_spec h.lawful n hk t hw
  obtain ⟨e1, e2⟩ := h1.unique hw hk (Shape.insert_spec h.lawful hk t hw)
  refine ⟨e1, e2, ?_⟩
  rcases h1 with ⟨a, c, e, -⟩ | ⟨j, hj, e, hx⟩
  · exact ⟨_, s, true, e, by simp, fun _ => rfl, by simp⟩
  · exact ⟨_, j, false, e, hj, by simp, fun _ => hx⟩

/-- `equal_range` and `insert` of the models of the containers are those of every tree with the same nodes, for empty keys
as well: then the assertion of the comparator fails unless the container is empty. -/
theorem C59_models (h : IntervalClass o) (t : Shape S) (hw : TreeWellFormed o g t) :
    (∀ k, t.equalRange o g k = equalRange o g t.toList k) ∧
    ∀ s, (t.insert o g s).map Prod.fst = stdInsert o g t.toList s := by
  have hw := treeWellFormed_iff.1 hw
  refine ⟨Shape.equalRange_eq h.lawful t hw, fun s => ?_⟩
  by_cases hk : o.Nonempty (g.key s)
  · obtain ⟨a, b, c, e, habc, ha, hb, hc⟩ := equalRange_spec h.lawful hw hk
    have h2 : Shape.Inserts o g t.toList s (if b = [] then some (a ++ s :: c, s, true) else some (t.toList, s, false)) ∨
        b ≠ [] := by
      by_cases hbn : b = []
      · subst hbn
        exact .inl (.inl ⟨a, c, by simp, by simpa using habc, ha, hc⟩)
      · exact .inr hbn
    have h1 := Shape.insert_spec h.lawful hk t hw
    unfold stdInsert
    rw [e]
    cases b with
    | nil =>
      have h2 := h2.resolve_right (by simp)
      rw [(Shape.Inserts.unique hw hk h1 h2).1]; simp
    | cons f b =>
      have hf : f ∈ t.toList := by rw [habc]; simp
      have h3 : Shape.Inserts o g t.toList s (some (t.toList, f, false)) := .inr ⟨f, hf, rfl, hb f (by simp)⟩
      rw [(Shape.Inserts.unique hw hk h1 h3).1]; simp
  · have hk' : o.isEmpty (g.key s) = true := by
      rw [← Bool.not_eq_false, ← nonempty_iff h.lawful]; exact hk
    cases t with
    | leaf => simp [Shape.insert, Shape.upperBound, Shape.toList, stdInsert, equalRange, cmpOk]
    | node l u r =>
      simp [Shape.insert, Shape.upperBound, Shape.toList, Shape.compare, stdInsert, equalRange, cmpOk, hk']

/-- The same for `find`, `lower_bound` and `upper_bound`. -/
theorem C59_models_search (h : IntervalClass o) (t : Shape S) (hw : TreeWellFormed o g t) (k : I) :
    t.find o g k = findI o g t.toList k ∧
    (t.lowerBound o g k).map (fun r => r.2.head?) = lowerBound o g t.toList k ∧
    (t.upperBound o g k).map (fun r => r.2) = (equalRange o g t.toList k).map fun r => r.2.2 := by
  have hw' := treeWellFormed_iff.1 hw
  by_cases hk : o.Nonempty k
  · obtain ⟨a, b, c, e, habc, ha, hb, hc⟩ := equalRange_spec h.lawful hw' hk
    obtain ⟨a1, b1, e1, h1, ha1, hb1⟩ := Shape.lowerBound_spec h.lawful hk t hw'
    obtain ⟨a2, b2, e2, h2, ha2, hb2⟩ := Shape.upperBound_spec h.lawful hk t hw'
    have hne : ∀ s ∈ t.toList, o.Nonempty (g.key s) := hw'.nonempty
    have u1 : a1 = a ∧ b1 = b ++ c := by
      refine Shape.split_unique (P := fun s => o.Before (g.key s) k) (by rw [← h1, habc, List.append_assoc]) ha1 hb1 ha ?_
      intro s hs hbf
      rcases List.mem_append.1 hs with hs | hs
      · exact ((Shape.overlap_iff h.lawful (hne s (by rw [habc]; simp [hs])) hk).2 (hb s hs)).1 hbf
      · exact Shape.not_before_of hk (hne s (by rw [habc]; simp [hs])) (hc s hs) hbf
    have u2 : a2 = a ++ b ∧ b2 = c := by
      refine Shape.split_unique (P := fun s => ¬ o.Before k (g.key s)) (by rw [← h2, habc]) ha2 (fun s hs => not_not.2 (hb2 s hs))
        ?_ (fun s hs => not_not.2 (hc s hs))
      intro s hs hbf
      rcases List.mem_append.1 hs with hs | hs
      · exact Shape.not_before_of hk (hne s (by rw [habc]; simp [hs])) hbf (ha s hs)
      · exact ((Shape.overlap_iff h.lawful (hne s (by rw [habc]; simp [hs])) hk).2 (hb s hs)).2 hbf
    refine ⟨?_, by simp [e1, e, lowerBound, u1.2], by simp [e2, e, u2.2]⟩
    simp only [Shape.find, findI, e1, e, u1.2]
    cases b with
    | nil =>
      cases c with
      | nil => simp
      | cons f c =>
        obtain ⟨d, ed, hd⟩ := Shape.compare_eq h.lawful hk (hne f (by rw [habc]; simp))
        simp [ed, hd.2 (hc f (by simp))]
    | cons f b =>
      obtain ⟨d, ed, hd⟩ := Shape.compare_eq h.lawful hk (hne f (by rw [habc]; simp))
      have : d = false := by
        rw [← Bool.not_eq_true]
        exact fun hh => ((Shape.overlap_iff h.lawful (hne f (by rw [habc]; simp)) hk).2 (hb f (by simp))).2 (hd.1 hh)
      simp [ed, this]
  · have hk' : o.isEmpty k = true := by
      rw [← Bool.not_eq_false, ← nonempty_iff h.lawful]; exact hk
    cases t with
    | leaf => simp [Shape.find, Shape.lowerBound, Shape.upperBound, Shape.toList, findI, lowerBound, equalRange, cmpOk]
    | node l u r =>
      simp [Shape.find, Shape.lowerBound, Shape.upperBound, Shape.toList, Shape.compare, findI, lowerBound, equalRange, cmpOk, hk']

/-- A hinted insertion into a tree whose nodes have addresses is the one of `Model/Tree.lean` (C41, C43), for one of the
choices that this model leaves open. -/
theorem C59_models_address (h : IntervalClass o) (t : Tree S) (sh : Shape (Nat × S)) (hsh : sh.toList = t.nodes)
    (hw : TreeWellFormed o (Tree.nodeSeg g) sh) (n : Nat) (s : S) (hk : ∃ x, In o x (g.key s)) :
    ∃ pick l j b, sh.insertHint o (Tree.nodeSeg g) n (t.fresh, s) = some (l, j, b) ∧
      Tree.insert o g pick s t = some ((some j.1, b), ⟨l, if b then t.fresh + 1 else t.fresh⟩) := by
  have hw' := treeWellFormed_iff.1 hw
  obtain ⟨a, b, c, e, habc, ha, hb, hc⟩ := equalRange_spec (g := Tree.nodeSeg g) h.lawful hw' hk
  have h1 := Shape.insertHint_spec (g := Tree.nodeSeg g) (s := (t.fresh, s)) h.lawful n hk sh hw'
  rw [hsh] at e habc
  cases b with
  | nil =>
    have h2 : Shape.Inserts o (Tree.nodeSeg g) sh.toList (t.fresh, s) (some (a ++ (t.fresh, s) :: c, (t.fresh, s), true)) :=
      .inl ⟨a, c, rfl, by simpa [hsh] using habc, ha, hc⟩
    obtain ⟨u1, u2⟩ := Shape.Inserts.unique (s := (t.fresh, s)) hw' hk h1 h2
    rcases h1 with ⟨a', c', e', -⟩ | ⟨j, hj, e', -⟩
    · refine ⟨0, _, _, _, e', ?_⟩
      rw [e'] at u1
      simp only [Option.map_some, Option.some.injEq] at u1
      simp [Tree.insert, e, u1]
    · rw [e'] at u2; simp at u2
  | cons f b =>
    have h2 : Shape.Inserts o (Tree.nodeSeg g) sh.toList (t.fresh, s) (some (sh.toList, f, false)) :=
      .inr ⟨f, by rw [hsh, habc]; simp, rfl, hb f (by simp)⟩
    obtain ⟨u1, u2⟩ := Shape.Inserts.unique (s := (t.fresh, s)) hw' hk h1 h2
    rcases h1 with ⟨a', c', e', -⟩ | ⟨j, hj, e', hx⟩
    · rw [e'] at u2; simp at u2
    · have hjb : j ∈ f :: b := by
        rw [hsh, habc] at hj
        obtain ⟨x, hx1, hx2⟩ := hx
        rcases List.mem_append.1 hj with hj | hj
        · rcases List.mem_append.1 hj with hj | hj
          · exact absurd (ha j hj x x hx1 hx2) (lt_irrefl x)
          · exact hj
        · exact absurd (hc j hj x x hx2 hx1) (lt_irrefl x)
      obtain ⟨i, hi, rfl⟩ := List.getElem_of_mem hjb
      refine ⟨i, _, _, _, e', ?_⟩
      have hi' : i % (b.length + 1) = i := Nat.mod_eq_of_lt (by simpa using hi)
      simp only [Tree.insert, e, Option.map_some, hi', List.getD_eq_getElem?_getD, List.getElem?_eq_getElem hi, Option.getD_some]
      simp [hsh]

example : let t : Tree (SItv ℤ) := ⟨[(7, Ex.r 0 2), (3, Ex.r 2 4), (4, Ex.r 6 9)], 8⟩
    let sh : Shape (Nat × SItv ℤ) := .node (.node .leaf (7, Ex.r 0 2) .leaf) (3, Ex.r 2 4) (.node .leaf (4, Ex.r 6 9) .leaf)
    sh.toList = t.nodes ∧ TreeWellFormed Ex.ro (Tree.nodeSeg setSeg) sh ∧
    sh.insertHint Ex.ro (Tree.nodeSeg setSeg) 2 (8, Ex.r 1 3) = some (t.nodes, (3, Ex.r 2 4), false) ∧
    Tree.insert Ex.ro setSeg 1 (Ex.r 1 3) t = some ((some 3, false), t) ∧
    sh.insertHint Ex.ro (Tree.nodeSeg setSeg) 2 (8, Ex.r 4 5) =
      some ([(7, Ex.r 0 2), (3, Ex.r 2 4), (8, Ex.r 4 5), (4, Ex.r 6 9)], (8, Ex.r 4 5), true) := by
  exact ⟨rfl, wellFormed_ro _ (by decide) (by decide), by decide, by rfl, by decide⟩

/-- Two trees with the same nodes, and searches that overlap two of the three nodes -/
example :
    let t : Shape (SItv ℤ) := .node .leaf (Ex.r 0 2) (.node (.node .leaf (Ex.r 2 4) .leaf) (Ex.r 6 9) .leaf)
    let u : Shape (SItv ℤ) := .node (.node .leaf (Ex.r 0 2) .leaf) (Ex.r 2 4) (.node .leaf (Ex.r 6 9) .leaf)
    TreeWellFormed Ex.ro setSeg t ∧ t.toList = u.toList ∧
    t.equalRange Ex.ro setSeg (Ex.r 1 3) = some ([], [Ex.r 0 2, Ex.r 2 4], [Ex.r 6 9]) ∧
    u.equalRange Ex.ro setSeg (Ex.r 1 3) = some ([], [Ex.r 0 2, Ex.r 2 4], [Ex.r 6 9]) ∧
    t.insert Ex.ro setSeg (Ex.r 1 3) = some (t.toList, Ex.r 2 4, false) ∧
    t.insertHint Ex.ro setSeg 0 (Ex.r 1 3) = some (t.toList, Ex.r 0 2, false) ∧
    t.insertHint Ex.ro setSeg 1 (Ex.r 4 5) = some ([Ex.r 0 2, Ex.r 2 4, Ex.r 4 5, Ex.r 6 9], Ex.r 4 5, true) := by
  refine ⟨wellFormed_ro _ (by decide) (by decide), ?_⟩
  decide

end ICL.Props
