import Verif.Model.Observers
import Verif.Theory.Observe
import Verif.IterSpec
import Mathlib.Algebra.BigOperators.Group.List.Basic
import Mathlib.Data.Int.SuccPred

/-!
# Lemmas on the elements of containers with integer domains
-/

set_option linter.unusedSectionVars false

namespace ICL

section
variable {I V S : Type} {o : IntervalOps ℤ I} {e : ElementOps ℤ I} {g : SegOps I V S}

/-- The elements of a segment, given by an offset. -/
def segE (o : IntervalOps ℤ I) (e : ElementOps ℤ I) (g : SegOps I V S) (elem : S → ℤ → ℤ × V) (s : S) : List (ℤ × V) :=
  (List.range (lengthI o e (g.key s)).toNat).map fun k : Nat => elem s (k : ℤ)

/-- The elements of a sequence of segments. -/
def allE (o : IntervalOps ℤ I) (e : ElementOps ℤ I) (g : SegOps I V S) (elem : S → ℤ → ℤ × V) (l : List S) : List (ℤ × V) :=
  l.flatMap (segE o e g elem)

theorem allE_cons (elem : S → ℤ → ℤ × V) (s : S) (l : List S) :
    allE o e g elem (s :: l) = segE o e g elem s ++ allE o e g elem l := rfl

theorem DiscreteClass.lastNext_int (h : DiscreteClass o e) (i : I) : e.lastNext i = e.last i + 1 := by
  have h1 := h.lastNext_full i (e.last i)
  have h2 := h.lastNext_full i (e.last i + 1)
  omega

theorem DiscreteClass.nonempty_le (h : DiscreteClass o e) {i : I} (hi : o.Nonempty i) : e.first i ≤ e.last i := by
  obtain ⟨x, hx⟩ := hi
  have := (h.mem_iff_full i x).1 hx
  omega

theorem DiscreteClass.lengthI_eq (h : DiscreteClass o e) (i : I) :
    lengthI o e i = max 0 (e.last i - e.first i + 1) := by
  unfold lengthI
  rw [h.lastNext_int]
  split
  · rename_i he
    rw [h.cls.lawful.isEmpty_iff] at he
    have := he (e.first i)
    rw [h.mem_iff_full] at this
    omega
  · rename_i he
    have : o.Nonempty i := (nonempty_iff h.cls.lawful).2 (by simpa using he)
    have := h.nonempty_le this
    omega

theorem DiscreteClass.length_pos (h : DiscreteClass o e) {i : I} (hi : o.Nonempty i) : 0 < lengthI o e i := by
  have := h.nonempty_le hi
  rw [h.lengthI_eq]
  omega

theorem mem_segE_fwd (h : DiscreteClass o e) (s : S) (x : ℤ) (v : V) :
    (x, v) ∈ segE o e g (ElemIt.fwd e g) s ↔ o.Mem x (g.key s) ∧ g.val s = v := by
  simp only [segE, List.mem_map, List.mem_range, ElemIt.fwd, Prod.mk.injEq, h.mem_iff_full, h.lengthI_eq]
  constructor
  · rintro ⟨k, h1, rfl, h2⟩
    exact ⟨by omega, h2⟩
  · rintro ⟨h1, h2⟩
    exact ⟨(x - e.first (g.key s)).toNat, by omega, by omega, h2⟩

theorem mem_allE_fwd (h : DiscreteClass o e) (l : List S) (x : ℤ) (v : V) :
    (x, v) ∈ allE o e g (ElemIt.fwd e g) l ↔ ∃ s ∈ l, o.Mem x (g.key s) ∧ g.val s = v := by
  simp only [allE, List.mem_flatMap, mem_segE_fwd h]

theorem sorted_segE (s : S) : ((segE o e g (ElemIt.fwd e g) s).map Prod.fst).Pairwise (· < ·) := by
  simp only [segE, List.map_map, List.pairwise_map, Function.comp_apply, ElemIt.fwd]
  refine List.pairwise_lt_range.imp ?_
  intro a b hab
  omega

theorem sorted_allE (h : DiscreteClass o e) {l : List S} (hl : WF o g l) :
    ((allE o e g (ElemIt.fwd e g) l).map Prod.fst).Pairwise (· < ·) := by
  induction l with
  | nil => simp [allE]
  | cons s l ih =>
    have hw := wf_cons.1 hl
    rw [allE_cons, List.map_append, List.pairwise_append]
    refine ⟨sorted_segE s, ih hw.2.1, ?_⟩
    intro x hx y hy
    obtain ⟨⟨x, v⟩, hx', rfl⟩ := List.mem_map.1 hx
    obtain ⟨⟨y, w⟩, hy', rfl⟩ := List.mem_map.1 hy
    obtain ⟨t, ht, hy'⟩ := (mem_allE_fwd h _ _ _).1 hy'
    exact hw.2.2 x y ((mem_segE_fwd h _ _ _).1 hx').1 ⟨t, ht, hy'.1⟩

theorem length_segE (h : DiscreteClass o e) (elem : S → ℤ → ℤ × V) (s : S) :
    ((segE o e g elem s).length : ℤ) = lengthI o e (g.key s) := by
  simp only [segE, List.length_map, List.length_range, h.lengthI_eq]
  omega

theorem foldl_add {A : Type} (f : A → ℤ) (l : List A) (a : ℤ) :
    l.foldl (fun n s => n + f s) a = a + (l.map f).sum := by
  induction l generalizing a with
  | nil => simp
  | cons s l ih => simp [ih, Int.add_assoc]

theorem length_allE (h : DiscreteClass o e) (elem : S → ℤ → ℤ × V) (l : List S) :
    ((allE o e g elem l).length : ℤ) = (l.map fun s => lengthI o e (g.key s)).sum := by
  induction l with
  | nil => simp [allE]
  | cons s l ih => simp [allE_cons, length_segE h, ih]

theorem length_eq (h : DiscreteClass o e) (elem : S → ℤ → ℤ × V) (l : List S) :
    length o e g l = (allE o e g elem l).length := by
  rw [length_allE h, length, foldl_add]; simp

theorem cardinality_eq (h : DiscreteClass o e) (elem : S → ℤ → ℤ × V) (l : List S) :
    cardinality o e g l = (allE o e g elem l).length := length_eq h elem l

/-! ### Reverse -/

theorem segE_bwd (h : DiscreteClass o e) {s : S} (hs : o.Nonempty (g.key s)) :
    segE o e g (ElemIt.bwd e g) s = (segE o e g (ElemIt.fwd e g) s).reverse := by
  have hn := h.nonempty_le hs
  have hl := h.lengthI_eq (g.key s)
  apply List.ext_getElem
  · simp [segE]
  · intro k h1 h2
    simp only [segE, List.length_map, List.length_range, List.length_reverse] at h1 h2
    simp only [segE, List.getElem_map, List.getElem_range, List.getElem_reverse, List.length_map, List.length_range,
      ElemIt.fwd, ElemIt.bwd, Prod.mk.injEq, and_true]
    omega

theorem allE_bwd (h : DiscreteClass o e) {l : List S} (hl : ∀ s ∈ l, o.Nonempty (g.key s)) :
    allE o e g (ElemIt.bwd e g) l.reverse = (allE o e g (ElemIt.fwd e g) l).reverse := by
  induction l with
  | nil => simp [allE]
  | cons s l ih =>
    rw [allE_cons, List.reverse_append, ← ih fun t ht => hl t (by simp [ht]), ← segE_bwd h (hl s (by simp)),
      List.reverse_cons]
    simp [allE]

/-! ### Loops -/

open Spec in
theorem forward_seg (elem : S → ℤ → ℤ × V) {l : List S} {p : Nat} {s : S} (hp : l[p]? = some s)
    {rest : List (ℤ × V)}
    (hr : Forward (ElemIt.deref elem l) (ElemIt.incr o e g l) (ElemIt.end_ l) ⟨p + 1, 0⟩ rest) (m k : Nat)
    (hk : (k : ℤ) + m + 1 = lengthI o e (g.key s)) :
    Forward (ElemIt.deref elem l) (ElemIt.incr o e g l) (ElemIt.end_ l) ⟨p, k⟩
      ((List.range' k (m + 1)).map (fun j : Nat => elem s (j : ℤ)) ++ rest) := by
  have hlt : p < l.length := by
    rcases lt_or_ge p l.length with h | h
    · exact h
    · rw [List.getElem?_eq_none h] at hp; exact absurd hp (by simp)
  have hne : ∀ j : ℤ, (⟨p, j⟩ : ElemIt) ≠ ElemIt.end_ l := by
    intro j hj
    have := congrArg ElemIt.seg hj
    simp only [ElemIt.end_] at this
    omega
  induction m generalizing k with
  | zero =>
    refine .step (hne _) (by simp [ElemIt.deref, hp]) (it' := ⟨p + 1, 0⟩) ?_ (by simpa using hr)
    simp only [ElemIt.incr, hp, Option.map_some]
    rw [if_neg (by omega)]
  | succ m ih =>
    rw [List.range'_succ, List.map_cons, List.cons_append]
    refine .step (hne _) (by simp [ElemIt.deref, hp]) (it' := ⟨p, ((k + 1 : Nat) : ℤ)⟩) ?_ (ih (k + 1) (by push_cast; omega))
    simp only [ElemIt.incr, hp, Option.map_some]
    rw [if_pos (by omega)]
    simp

open Spec in
theorem forward_all (h : DiscreteClass o e) (elem : S → ℤ → ℤ × V) (pre suf : List S)
    (hs : ∀ s ∈ suf, o.Nonempty (g.key s)) :
    Forward (ElemIt.deref elem (pre ++ suf)) (ElemIt.incr o e g (pre ++ suf)) (ElemIt.end_ (pre ++ suf))
      ⟨pre.length, 0⟩ (allE o e g elem suf) := by
  induction suf generalizing pre with
  | nil =>
    have : (⟨pre.length, 0⟩ : ElemIt) = ElemIt.end_ (pre ++ []) := by simp [ElemIt.end_]
    rw [this]; exact .done
  | cons s suf ih =>
    have hr := ih (pre ++ [s]) fun t ht => hs t (by simp [ht])
    simp only [List.append_assoc, List.singleton_append, List.length_append, List.length_singleton] at hr
    have hpos := h.length_pos (hs s (by simp))
    have := forward_seg (o := o) (e := e) (g := g) elem (l := pre ++ s :: suf) (p := pre.length) (s := s) (by simp) hr
      ((lengthI o e (g.key s)).toNat - 1) 0 (by omega)
    rw [allE_cons, segE, List.range_eq_range']
    rw [show (lengthI o e (g.key s)).toNat - 1 + 1 = (lengthI o e (g.key s)).toNat by omega] at this
    exact this

open Spec in
theorem backward_seg (elem : S → ℤ → ℤ × V) {l : List S} {p : Nat} {s : S} (hp : l[p]? = some s)
    {rest : List (ℤ × V)}
    (hr : Backward (ElemIt.deref elem l) (ElemIt.decr o e g l) ElemIt.begin ⟨p, 0⟩ rest) (m : Nat) :
    Backward (ElemIt.deref elem l) (ElemIt.decr o e g l) ElemIt.begin ⟨p, m⟩
      (((List.range m).map (fun j : Nat => elem s (j : ℤ))).reverse ++ rest) := by
  induction m with
  | zero => simpa using hr
  | succ m ih =>
    rw [List.range_succ, List.map_append, List.reverse_append]
    refine .step ?_ (it' := ⟨p, m⟩) ?_ (by simp [ElemIt.deref, hp]) (by simpa using ih)
    · intro hj
      have := congrArg ElemIt.off hj
      simp only [ElemIt.begin] at this
      omega
    · simp only [ElemIt.decr]
      rw [if_pos (by omega)]
      simp

open Spec in
theorem backward_all (h : DiscreteClass o e) (elem : S → ℤ → ℤ × V) (l : List S)
    (hs : ∀ s ∈ l, o.Nonempty (g.key s)) (n : Nat) (hn : n ≤ l.length) :
    Backward (ElemIt.deref elem l) (ElemIt.decr o e g l) ElemIt.begin ⟨n, 0⟩ (allE o e g elem (l.take n)).reverse := by
  induction n with
  | zero => simp only [List.take_zero, allE, List.flatMap_nil, List.reverse_nil]; exact .done
  | succ n ih =>
    have hlt : n < l.length := by omega
    have hp : l[n]? = some l[n] := List.getElem?_eq_getElem hlt
    have hpos := h.length_pos (hs l[n] (by simp))
    have hb := backward_seg (o := o) (e := e) (g := g) elem hp (ih (by omega)) ((lengthI o e (g.key l[n])).toNat - 1)
    have hsg : segE o e g elem l[n] =
        (List.range ((lengthI o e (g.key l[n])).toNat - 1)).map (fun j : Nat => elem l[n] (j : ℤ)) ++
          [elem l[n] (lengthI o e (g.key l[n]) - 1)] := by
      have hc : (lengthI o e (g.key l[n])).toNat = (lengthI o e (g.key l[n])).toNat - 1 + 1 := by omega
      unfold segE
      rw [hc, List.range_succ, List.map_append, List.map_singleton]
      simp only [Nat.add_sub_cancel]
      congr 3
      omega
    rw [List.take_succ_eq_append_getElem hlt]
    rw [show allE o e g elem (l.take n ++ [l[n]]) = allE o e g elem (l.take n) ++ segE o e g elem l[n] by
      unfold allE; rw [List.flatMap_append]; simp only [List.flatMap_cons, List.flatMap_nil, List.append_nil], hsg]
    simp only [List.reverse_append, List.reverse_singleton, List.cons_append]
    refine .step ?_ (it' := ⟨n, lengthI o e (g.key l[n]) - 1⟩) ?_ (by simp [ElemIt.deref, hp]) ?_
    · intro hj
      have := congrArg ElemIt.seg hj
      simp [ElemIt.begin] at this
    · simp [ElemIt.decr, hp]
    · rw [show (lengthI o e (g.key l[n]) - 1) = (((lengthI o e (g.key l[n])).toNat - 1 : Nat) : ℤ) by omega]
      exact hb

/-! ### Distance -/

theorem DiscreteClass.distanceI_before (h : DiscreteClass o e) {i j : I} (hi : o.Nonempty i) (hj : o.Nonempty j)
    (hb : o.Before i j) : distanceI o e i j = lengthI o e (o.innerComplement i j) := by
  have h1 := h.nonempty_le hi
  have h2 := h.nonempty_le hj
  have h3 := hb (e.last i) (e.first j) ((h.mem_iff_full _ _).2 (by omega)) ((h.mem_iff_full _ _).2 (by omega))
  have e1 : o.isEmpty i = false := (nonempty_iff h.cls.lawful).1 hi
  have e2 : o.isEmpty j = false := (nonempty_iff h.cls.lawful).1 hj
  have hm : ∀ x, (e.first (o.innerComplement i j) ≤ x ∧ x ≤ e.last (o.innerComplement i j)) ↔
      (e.last i < x ∧ x < e.first j) := by
    intro x
    rw [← h.mem_iff_full, h.cls.lawful.mem_innerComplement]
    simp only [h.mem_iff_full]
    constructor
    · rintro ⟨_, _, ⟨h4, h5⟩ | ⟨h4, h5⟩⟩
      · exact ⟨h4 _ (by omega), h5 _ (by omega)⟩
      · have := h4 (e.first j) (by omega)
        have := h5 (e.last i) (by omega)
        omega
    · rintro ⟨h4, h5⟩
      exact ⟨⟨e.first i, (h.mem_iff_full _ _).2 (by omega)⟩, ⟨e.first j, (h.mem_iff_full _ _).2 (by omega)⟩,
        Or.inl ⟨fun y hy => by omega, fun y hy => by omega⟩⟩
  rw [h.lengthI_eq]
  simp only [distanceI, e1, e2, Bool.or_self, Bool.false_eq_true, if_false, h3, if_true]
  have a1 := hm (e.first (o.innerComplement i j))
  have a2 := hm (e.last (o.innerComplement i j))
  have a3 := hm (e.last i + 1)
  have a4 := hm (e.first j - 1)
  omega

theorem distanceLoop_add {A : Type} (d : A → A → ℤ) (l : List A) (a : ℤ) :
    distanceLoop d a l = a + distanceLoop d 0 l := by
  induction l generalizing a with
  | nil => simp [distanceLoop]
  | cons s l ih =>
    cases l with
    | nil => simp [distanceLoop]
    | cons t l =>
      simp only [distanceLoop]
      rw [ih, ih (0 + d s t)]
      omega

theorem distance_gaps (h : DiscreteClass o e) {l : List I} (hl : WF o setSeg l) :
    distance o e setSeg l = cardinality o e setSeg (ISet.gaps o l) := by
  induction l with
  | nil => rfl
  | cons s l ih =>
    cases l with
    | nil => rfl
    | cons t l =>
      have hw := wf_cons.1 hl
      have hw2 := wf_cons.1 hw.2.1
      have := ih hw.2.1
      rw [cardinality, foldl_add] at this ⊢
      simp only [distance, distanceLoop, ISet.gaps] at this ⊢
      rw [distanceLoop_add, this, List.map_cons, List.sum_cons,
        h.distanceI_before hw.1 hw2.1 fun x y hx hy => hw.2.2 x y hx ⟨t, by simp, hy⟩]
      simp only [setSeg_key, cardinalityI, lengthI, Int.zero_add]
      rfl

theorem sorted_gaps (h : DiscreteClass o e) {l : List I} (hl : WF o setSeg l) :
    ((allE o e setSeg (ElemIt.fwd e setSeg) (ISet.gaps o l)).map Prod.fst).Pairwise (· < ·) := by
  induction l with
  | nil => simp [ISet.gaps, allE]
  | cons s l ih =>
    cases l with
    | nil => simp [ISet.gaps, allE]
    | cons t l =>
      have hw := wf_cons.1 hl
      have hw2 := wf_cons.1 hw.2.1
      rw [ISet.gaps, allE_cons, List.map_append, List.pairwise_append]
      refine ⟨sorted_segE _, ih hw.2.1, ?_⟩
      intro x hx y hy
      obtain ⟨⟨x, v⟩, hx', rfl⟩ := List.mem_map.1 hx
      obtain ⟨⟨y, w⟩, hy', rfl⟩ := List.mem_map.1 hy
      obtain ⟨u, hu, hy'⟩ := (mem_allE_fwd h _ _ _).1 hy'
      obtain ⟨_, b, _, hb, _, hby, _⟩ := (dom_gaps h.cls.lawful hw.2.1 y).1 ⟨u, hu, hy'.1⟩
      have hx2 := ((mem_segE_fwd h _ _ _).1 hx').1
      rw [setSeg_key, h.cls.lawful.mem_innerComplement] at hx2
      obtain ⟨c, hc, hcb⟩ := first_dom_le h.cls.lawful hw.2.1 hb
      obtain ⟨a, ha⟩ := hw.1
      have hac := hw.2.2 a c ha ⟨t, by simp, hc⟩
      rcases hx2 with ⟨_, _, ⟨h1, h2⟩ | ⟨h1, h2⟩⟩
      · have := h2 c hc
        simp only at this ⊢
        omega
      · have := h1 c hc
        have := h2 a ha
        simp only at this ⊢
        omega

end
end ICL
