import Verif.Theory.TwinSeg
import Verif.Model.MapQuery
import Verif.Props.Custom

/-!
# Independence of the interval class: C62

A program computes the same with each interval class: if the operands of two runs have the same elements, the
containers have the same elements and the same segments.
-/

set_option linter.unusedSectionVars false

namespace ICL.Props
open Spec

variable {D I J V : Type} [LinearOrder D] {o₁ : IntervalOps D I} {o₂ : IntervalOps D J} [DecidableEq I] [DecidableEq J]
  [DecidableEq V] {E₁ : Option (ElemFns D I)} {E₂ : Option (ElemFns D J)}

/-! ## Sets -/

/-- The sets of one program have pairwise the same segments, for all three classes of interval sets. -/
theorem C62_sets (h1 : SetClass o₁ E₁) (h2 : SetClass o₂ E₂) {st : Style} {s : List I} {t : List J}
    (h : TwinSets o₁ o₂ E₁ E₂ st s t) : TwinSegments o₁ o₂ s t := (TwinSets.good h1 h2 h).2.2

/-- They have the same elements, and the same number of segments (`iterative_size`). -/
theorem C62_elements (h1 : SetClass o₁ E₁) (h2 : SetClass o₂ E₂) {st : Style} {s : List I} {t : List J}
    (h : TwinSets o₁ o₂ E₁ E₂ st s t) : (∀ x, Elem o₁ s x ↔ Elem o₂ t x) ∧ s.length = t.length :=
  ⟨twin_dom (C62_sets h1 h2 h), (C62_sets h1 h2 h).length_eq⟩

/-- No run goes on without the other. -/
theorem C62_progress (h1 : SetClass o₁ E₁) (h2 : SetClass o₂ E₂) {st : Style} {s : List I} {t : List J}
    (h : TwinSets o₁ o₂ E₁ E₂ st s t) {c : SetOp D I} {c' : SetOp D J} (hc : SameSetCall o₁ o₂ c c')
    (p1 : c.Pre o₁ E₁ s) (p2 : c'.Pre o₂ E₂ t) : ∃ s' t', c.run o₁ E₁ st s = some s' ∧ c'.run o₂ E₂ st t = some t' ∧
      TwinSets o₁ o₂ E₁ E₂ st s' t' := by
  have g := TwinSets.good h1 h2 h
  obtain ⟨s', e1, _⟩ := SetOp.run_spec h1 g.1 c p1
  obtain ⟨t', e2, _⟩ := SetOp.run_spec h2 g.2.1 c' p2
  exact ⟨s', t', e1, e2, .op h hc p1 p2 e1 e2⟩

theorem C62_progress2 (h1 : SetClass o₁ E₁) (h2 : SetClass o₂ E₂) {st st' : Style} {s u : List I} {t v : List J}
    (h : TwinSets o₁ o₂ E₁ E₂ st s t) (h' : TwinSets o₁ o₂ E₁ E₂ st' u v) {c : SetOp2 I} {c' : SetOp2 J}
    (hc : SameSetCall2 c c') (p1 : c.Pre st st') : ∃ s' t', c.run o₁ st st' s u = some s' ∧
      c'.run o₂ st st' t v = some t' ∧ TwinSets o₁ o₂ E₁ E₂ st s' t' := by
  have g := TwinSets.good h1 h2 h
  have g' := TwinSets.good h1 h2 h'
  have p2 : c'.Pre st st' := by cases hc <;> exact p1
  obtain ⟨s', e1, _⟩ := SetOp2.run_spec h1.cls g.1 g'.1 c p1
  obtain ⟨t', e2, _⟩ := SetOp2.run_spec h2.cls g.2.1 g'.2.1 c' p2
  exact ⟨s', t', e1, e2, .op2 h h' hc e1 e2⟩

/-- Every set of a program can be computed with another interval class that has all the intervals: `f` gives for each interval
one of the other class. -/
theorem C62_translate (h1 : SetClass o₁ E₁) (h2 : SetClass o₂ E₂) (f : I → J) (hf : ∀ i, SameItv o₁ o₂ i (f i))
    (hE : E₁ = none ∨ ∀ x, HasElem o₁ E₁ x ∧ HasElem o₂ E₂ x) {st : Style} {s : List I} (hr : Reachable o₁ E₁ st s) :
    ∃ t, TwinSets o₁ o₂ E₁ E₂ st s t := by
  have elem : ∀ {x : D} {l l' : List I} {c : SetOp D I} {k : ElemFns D I → Option (List I)}, c.run o₁ E₁ st l = some l' →
      c.run o₁ E₁ st l = E₁.bind k → HasElem o₁ E₁ x ∧ HasElem o₂ E₂ x := by
    intro x l l' c k e ek
    rcases hE with rfl | hE
    · rw [ek] at e; cases e
    · exact hE x
  induction hr with
  | empty st => exact ⟨[], .empty st⟩
  | @op st l l' c hr e ih =>
    obtain ⟨t, ht⟩ := ih (by
      intro x l l' c k e ek
      rcases hE with rfl | hE
      · rw [ek] at e; cases e
      · exact hE x)
    have fin : ∀ {c' : SetOp D J}, SameSetCall o₁ o₂ c c' → c.Pre o₁ E₁ l → c'.Pre o₂ E₂ t →
        ∃ t, TwinSets o₁ o₂ E₁ E₂ st l' t := by
      intro c' hc p1 p2
      obtain ⟨s', t', e1, _, h'⟩ := C62_progress h1 h2 ht hc p1 p2
      rw [e1] at e; cases e; exact ⟨t', h'⟩
    cases c with
    | add k => exact fin (.add (hf k)) trivial trivial
    | addHint n k => exact fin (.addHint n n (hf k)) trivial trivial
    | subtract k => exact fin (.subtract (hf k)) trivial trivial
    | inter orc k => exact fin (.inter orc (fun _ _ => 0) (hf k)) trivial trivial
    | flip k =>
      have hp : (SetOp.flip k : SetOp D I).Pre o₁ E₁ l := by
        by_cases he : o₁.isEmpty k = true
        · simp only [SetOp.run] at e
          rw [ISet.flipSeg_empty h1.cls.lawful st l he] at e
          split at e
          · right; simpa using ‹l.isEmpty = true›
          · cases e
        · exact Or.inl (by simpa using he)
      refine fin (.flip (hf k)) hp ?_
      rcases hp with hp | rfl
      · exact .inl (by rw [← same_isEmpty h1.cls.lawful h2.cls.lawful (hf k)]; exact hp)
      · exact .inr ((twin_nil_iff (C62_sets h1 h2 ht)).1 rfl)
    | addE x => exact fin (.addE x) (elem e rfl).1 (elem e rfl).2
    | subE x => exact fin (.subE x) (elem e rfl).1 (elem e rfl).2
    | interE x => exact fin (.interE x) (elem e rfl).1 (elem e rfl).2
    | flipE x => exact fin (.flipE x) (elem e rfl).1 (elem e rfl).2
    | clear => exact fin .clear trivial trivial
    | eraseRange i j => exact fin (.eraseRange i j) trivial trivial
    | join => exact fin .join trivial trivial
  | @op2 st st' l r l' c _ _ e ih ih' =>
    have hel : ∀ (st : Style) {x : D} {l l' : List I} {c : SetOp D I} {k : ElemFns D I → Option (List I)},
        c.run o₁ E₁ st l = some l' → c.run o₁ E₁ st l = E₁.bind k → HasElem o₁ E₁ x ∧ HasElem o₂ E₂ x := by
      intro st x l l' c k e ek
      rcases hE with rfl | hE
      · rw [ek] at e; cases e
      · exact hE x
    obtain ⟨t, ht⟩ := ih (hel st)
    obtain ⟨u, hu⟩ := ih' (hel st')
    have fin : ∀ {c' : SetOp2 J}, SameSetCall2 c c' → ∃ t, TwinSets o₁ o₂ E₁ E₂ st l' t := by
      intro c' hc
      obtain ⟨s', t', e1, _, h'⟩ := C62_progress2 h1 h2 ht hu hc (SetOp2.pre_of_run e)
      rw [e1] at e; cases e; exact ⟨t', h'⟩
    cases c with
    | add orc => exact fin (.add orc fun _ _ => 0)
    | sub => exact fin .sub
    | inter orc => exact fin (.inter orc fun _ _ => 0)
    | flip orc => exact fin (.flip orc fun _ _ => 0)
    | assign orc => exact fin (.assign orc fun _ _ => 0)
    | copy => exact fin .copy
    | domain orc => exact fin (.domain orc fun _ _ => 0)
    | between orc => exact fin (.between orc fun _ _ => 0)

/-! ## Comparisons -/

private theorem nonempty_twin (h1 : IntervalClass o₁) (h2 : IntervalClass o₂) {i : I} {j : J} (hi : ∃ x, In o₁ x i)
    (h : SameItv o₁ o₂ i j) : o₁.isEmpty i = false ∧ o₂.isEmpty j = false := by
  obtain ⟨x, hx⟩ := hi
  refine ⟨?_, ?_⟩ <;> rw [← Bool.not_eq_true]
  · rw [C01_isEmpty h1]; exact fun hn => hn x hx
  · rw [C01_isEmpty h2]; exact fun hn => hn x ((h x).1 hx)

private theorem eq_twin (h1 : IntervalClass o₁) (h2 : IntervalClass o₂) {i i' : I} {j j' : J} (hi : ∃ x, In o₁ x i)
    (hi' : ∃ x, In o₁ x i') (h : SameItv o₁ o₂ i j) (h' : SameItv o₁ o₂ i' j') : o₁.eq i i' = o₂.eq j j' := by
  have n := nonempty_twin h1 h2 hi h
  have n' := nonempty_twin h1 h2 hi' h'
  rw [Bool.eq_iff_iff, C01_eq h1 i i' n.1 n'.1, C01_eq h2 j j' n.2 n'.2]
  exact forall_congr' fun x => iff_congr (h x) (h' x)

private theorem less_twin (h1 : IntervalClass o₁) (h2 : IntervalClass o₂) {i i' : I} {j j' : J}
    (h : SameItv o₁ o₂ i j) (h' : SameItv o₁ o₂ i' j') : o₁.less i i' = o₂.less j j' := by
  have e : ∀ x, In o₁ x i ↔ In o₂ x j := h
  have e' : ∀ x, In o₁ x i' ↔ In o₂ x j' := h'
  rw [Bool.eq_iff_iff, C05_less h1, C05_less h2]
  simp only [e, e']

/-- `operator ==` gives the same for both classes. -/
theorem C62_equal (h1 : SetClass o₁ E₁) (h2 : SetClass o₂ E₂) {st : Style} {s s' : List I} {t t' : List J}
    (h : TwinSets o₁ o₂ E₁ E₂ st s t) (h' : TwinSets o₁ o₂ E₁ E₂ st s' t') :
    eqC o₁ setSeg s s' = eqC o₂ setSeg t t' := by
  have n := (TwinSets.good h1 h2 h).1.1.nonempty
  have n' := (TwinSets.good h1 h2 h').1.1.nonempty
  have H := C62_sets h1 h2 h
  have H' := C62_sets h1 h2 h'
  clear h h'
  unfold TwinSegments at H H'
  induction H generalizing s' t' with
  | nil => cases H' <;> rfl
  | cons a _ ih =>
    cases H' with
    | nil => rfl
    | cons b hb =>
      simp only [eqC]
      rw [ih (fun s hs => n s (by simp [hs])) (fun s hs => n' s (by simp [hs])) hb]
      have : o₁.eq (setSeg.key _) (setSeg.key _) = o₂.eq (setSeg.key _) (setSeg.key _) :=
        eq_twin h1.cls h2.cls (n _ (by simp)) (n' _ (by simp)) a b
      rw [this]

/-- `operator <` gives the same for both classes. -/
theorem C62_less (h1 : SetClass o₁ E₁) (h2 : SetClass o₂ E₂) {st : Style} {s s' : List I} {t t' : List J}
    (h : TwinSets o₁ o₂ E₁ E₂ st s t) (h' : TwinSets o₁ o₂ E₁ E₂ st s' t') (reversed : Bool) :
    lexLess (setSegLess o₁ reversed) s s' = lexLess (setSegLess o₂ reversed) t t' := by
  have H := C62_sets h1 h2 h
  have H' := C62_sets h1 h2 h'
  clear h h'
  unfold TwinSegments at H H'
  induction H generalizing s' t' with
  | nil => cases H' <;> rfl
  | cons a _ ih =>
    cases H' with
    | nil => rfl
    | cons b hb =>
      simp only [lexLess, setSegLess, IntervalOps.greater, ih hb, less_twin h1.cls h2.cls a b, less_twin h1.cls h2.cls b a]
      rfl

/-! ## Maps -/

/-- The maps of one program have the same value at every element. -/
theorem C62_maps (h1 : SetClass o₁ E₁) (h2 : SetClass o₂ E₂) {t : MapType V} (hN : Neutral t) {m : List (I × V)}
    {n : List (J × V)} (h : TwinMaps o₁ o₂ E₁ E₂ t m n) (x : D) : valueAt o₁ m x = valueAt o₂ n x :=
  twinVals_of_segments ((TwinMaps.good h1 h2 h).2.2 hN) x

/-- The segments of the maps, joining or split, have pairwise the same elements and the same value. -/
theorem C62_map_segments (h1 : SetClass o₁ E₁) (h2 : SetClass o₂ E₂) {t : MapType V} (hN : Neutral t)
    {m : List (I × V)} {n : List (J × V)} (h : TwinMaps o₁ o₂ E₁ E₂ t m n) : TwinMapSegments o₁ o₂ m n :=
  (TwinMaps.good h1 h2 h).2.2 hN

/-- No run goes on without the other. -/
theorem C62_map_progress (h1 : SetClass o₁ E₁) (h2 : SetClass o₂ E₂) {t : MapType V} {m : List (I × V)}
    {n : List (J × V)} (h : TwinMaps o₁ o₂ E₁ E₂ t m n) {c : MapOp D I V} {c' : MapOp D J V} (hc : SameMapCall o₁ o₂ c c')
    (p1 : c.Pre o₁ E₁ t m) (p2 : c'.Pre o₂ E₂ t n) : ∃ m' n', c.run o₁ E₁ t m = some m' ∧ c'.run o₂ E₂ t n = some n' ∧
      TwinMaps o₁ o₂ E₁ E₂ t m' n' := by
  have g := TwinMaps.good h1 h2 h
  obtain ⟨m', e1, _⟩ := MapOp.run_good h1 g.1 c p1
  obtain ⟨n', e2, _⟩ := MapOp.run_good h2 g.2.1 c' p2
  exact ⟨m', n', e1, e2, .op h hc p1 p2 e1 e2⟩

theorem C62_map_progress2 (h1 : SetClass o₁ E₁) (h2 : SetClass o₂ E₂) {t t' : MapType V} (hN : Neutral t') {m u : List (I × V)}
    {n v : List (J × V)} (h : TwinMaps o₁ o₂ E₁ E₂ t m n) (h' : TwinMaps o₁ o₂ E₁ E₂ t' u v) {c : MapOp2 I V} {c' : MapOp2 J V}
    (hc : SameMapCall2 c c') : ∃ m' n', c.run o₁ t m u = some m' ∧ c'.run o₂ t n v = some n' ∧
      TwinMaps o₁ o₂ E₁ E₂ t m' n' := by
  have g := TwinMaps.good h1 h2 h
  have g' := TwinMaps.good h1 h2 h'
  obtain ⟨m', e1, _⟩ := MapOp2.run_good h1.cls.lawful g.1 g'.1.wf c
  obtain ⟨n', e2, _⟩ := MapOp2.run_good h2.cls.lawful g.2.1 g'.2.1.wf c'
  exact ⟨m', n', e1, e2, .op2 h h' hN hc e1 e2⟩

theorem C62_map_progress3 (h1 : SetClass o₁ E₁) (h2 : SetClass o₂ E₂) {t : MapType V} {st : Style} {m : List (I × V)}
    {n : List (J × V)} {u : List I} {v : List J} (h : TwinMaps o₁ o₂ E₁ E₂ t m n) (h' : TwinSets o₁ o₂ E₁ E₂ st u v)
    {c : MapOp3 I V} {c' : MapOp3 J V} (hc : SameMapCall3 c c') : ∃ m' n', c.run o₁ t m u = some m' ∧
      c'.run o₂ t n v = some n' ∧ TwinMaps o₁ o₂ E₁ E₂ t m' n' := by
  have g := TwinMaps.good h1 h2 h
  have g' := TwinSets.good h1 h2 h'
  obtain ⟨m', e1, _⟩ := MapOp3.run_good h1.cls.lawful g.1 g'.1.1 c
  obtain ⟨n', e2, _⟩ := MapOp3.run_good h2.cls.lawful g.2.1 g'.2.1.1 c'
  exact ⟨m', n', e1, e2, .op3 h h' hc e1 e2⟩

/-- Every operation on a map has a counterpart for another interval class that has all the intervals. A predicate on segments needs a
counterpart that tells them apart by their elements. -/
theorem C62_map_translate (h1 : SetClass o₁ E₁) (h2 : SetClass o₂ E₂) (f : I → J) (hf : ∀ i, SameItv o₁ o₂ i (f i))
    (hE : ∀ x, HasElem o₁ E₁ x → HasElem o₂ E₂ x) {t : MapType V} (hN : Neutral t) {m : List (I × V)}
    {n : List (J × V)} (h : TwinMaps o₁ o₂ E₁ E₂ t m n) (c : MapOp D I V) (p1 : c.Pre o₁ E₁ t m)
    (hq : ∀ p, c = .eraseIf p → ∃ q : J × V → Bool, ∀ i j v, SameItv o₁ o₂ i j → p (i, v) = q (j, v)) :
    ∃ c' m' n', SameMapCall o₁ o₂ c c' ∧ c.run o₁ E₁ t m = some m' ∧ c'.run o₂ E₂ t n = some n' ∧
      TwinMaps o₁ o₂ E₁ E₂ t m' n' := by
  have fin : ∀ {c' : MapOp D J V}, SameMapCall o₁ o₂ c c' → c'.Pre o₂ E₂ t n → ∃ c' m' n', SameMapCall o₁ o₂ c c' ∧
      c.run o₁ E₁ t m = some m' ∧ c'.run o₂ E₂ t n = some n' ∧ TwinMaps o₁ o₂ E₁ E₂ t m' n' := by
    intro c' hc p2
    obtain ⟨m', n', e⟩ := C62_map_progress h1 h2 h hc p1 p2
    exact ⟨c', m', n', hc, e⟩
  cases c with
  | add k v => exact fin (.add v (hf k)) trivial
  | addHint i k v => exact fin (.addHint i i v (hf k)) trivial
  | subtract k v => exact fin (.subtract v (hf k)) trivial
  | insert k v => exact fin (.insert v (hf k)) trivial
  | insertHint i b k v => exact fin (.insertHint i i b b v (hf k)) trivial
  | set k v => exact fin (.set v (hf k)) trivial
  | erase k v => exact fin (.erase v (hf k)) trivial
  | eraseKeys k => exact fin (.eraseKeys (hf k)) trivial
  | inter orc k v => exact fin (.inter orc (fun _ _ => 0) v (hf k)) trivial
  | interKeys orc k => exact fin (.interKeys orc (fun _ _ => 0) (hf k)) trivial
  | flip orc k v =>
    refine fin (.flip orc (fun _ _ => 0) v (hf k)) ?_
    rcases p1 with hp | hp | rfl
    · exact .inl (by rw [← same_isEmpty h1.cls.lawful h2.cls.lawful (hf k)]; exact hp)
    · exact .inr (.inl hp)
    · exact .inr (.inr (List.forall₂_nil_left_iff.1 (C62_map_segments h1 h2 hN h)))
  | addE x v => exact fin (.addE x v) (hE x p1)
  | subE x v => exact fin (.subE x v) (hE x p1)
  | insertE x v => exact fin (.insertE x v) (hE x p1)
  | setE x v => exact fin (.setE x v) (hE x p1)
  | eraseE x v => exact fin (.eraseE x v) (hE x p1)
  | eraseKey x => exact fin (.eraseKey x) (hE x p1)
  | interE orc x v => exact fin (.interE orc (fun _ _ => 0) x v) (hE x p1)
  | interKey x => exact fin (.interKey x) (hE x p1)
  | flipE orc x v => exact fin (.flipE orc (fun _ _ => 0) x v) (hE x p1)
  | clear => exact fin .clear trivial
  | eraseRange i j => exact fin (.eraseRange i j) trivial
  | eraseIf p =>
    obtain ⟨q, hpq⟩ := hq p rfl
    exact fin (.eraseIf p q hpq) trivial
  | join => exact fin .join trivial
  | absorbIdentities => exact fin .absorbIdentities trivial

/-- `operator ==` of maps gives the same for both classes. -/
theorem C62_map_equal (h1 : SetClass o₁ E₁) (h2 : SetClass o₂ E₂) {t : MapType V} (hN : Neutral t)
    {m m' : List (I × V)} {n n' : List (J × V)} (h : TwinMaps o₁ o₂ E₁ E₂ t m n)
    (h' : TwinMaps o₁ o₂ E₁ E₂ t m' n') : eqC o₁ mapSeg m m' = eqC o₂ mapSeg n n' := by
  have w := (TwinMaps.good h1 h2 h).1.wf.nonempty
  have w' := (TwinMaps.good h1 h2 h').1.wf.nonempty
  have H := C62_map_segments h1 h2 hN h
  have H' := C62_map_segments h1 h2 hN h'
  clear h h'
  unfold TwinMapSegments at H H'
  induction H generalizing m' n' with
  | nil => cases H' <;> rfl
  | cons a _ ih =>
    cases H' with
    | nil => rfl
    | cons b hb =>
      simp only [eqC]
      rw [ih (fun s hs => w s (by simp [hs])) (fun s hs => w' s (by simp [hs])) hb]
      have : o₁.eq (mapSeg.key _) (mapSeg.key _) = o₂.eq (mapSeg.key _) (mapSeg.key _) :=
        eq_twin h1.cls h2.cls (w _ (by simp)) (w' _ (by simp)) a.1 b.1
      rw [this]
      simp only [mapSeg, a.2, b.2]
      rfl

/-! ## Examples -/

/-- `discrete_interval<int>` -/
abbrev diFns : ElemFns ℤ (DItv ℤ) := ⟨(discreteE stepsInt).singleton, .exact (discreteE stepsInt).unitTrail⟩

theorem di_set_class : SetClass Ex.di (some diFns) :=
  ⟨Ex.di_cls, fun e he => by
    cases he; exact ⟨.discrete (.discrete stepsInt 0), .discrete (.discrete stepsInt 0)⟩⟩

/-- `[a,b)` as a `discrete_interval` -/
abbrev asDiscrete (i : SItv ℤ) : DItv ℤ := ⟨i.lo, i.up, .rightOpen⟩

theorem asDiscrete_same (i : SItv ℤ) : SameItv Ex.ro Ex.di i (asDiscrete i) := fun x =>
  (C01_contains_right_open 0 i.lo i.up x).trans (C01_in_discrete stepsInt 0 0 i.lo i.up x).2.2.2.1.symm

theorem ex_elem (x : ℤ) : HasElem Ex.ro (some exE) x ∧ HasElem Ex.di (some diFns) x := by
  refine ⟨⟨exE, rfl, ?_, ?_⟩, ⟨diFns, rfl, ?_, ?_⟩⟩
  · simp [rightOpenOps, rightOpenE, rightOpenSingleton, Asym.isEmpty, stepsInt]
  · simp [rightOpenOps, rightOpenE, rightOpenSingleton, Asym.isEmpty, stepsInt, Lookup.key]
  · simp [discreteOps, discreteE, dynSingleton, Disc.isEmpty, Bounds.closed, stepsInt]
  · simp [discreteOps, discreteE, dynSingleton, Disc.isEmpty, Bounds.closed, Lookup.key, stepsInt]

/-- Every set that a program computes with `right_open_interval<int>` it also computes with `discrete_interval<int>`. -/
example {st : Style} {s : List (SItv ℤ)} (hr : Reachable Ex.ro (some exE) st s) :
    ∃ t, TwinSets Ex.ro Ex.di (some exE) (some diFns) st s t ∧ TwinSegments Ex.ro Ex.di s t := by
  obtain ⟨t, h⟩ := C62_translate ex_cls di_set_class asDiscrete asDiscrete_same (.inr ex_elem) hr
  exact ⟨t, h, C62_sets ex_cls di_set_class h⟩

/-- `{} += [0,5)`, `-= [2,3)`, `+= 7`, with `[0,4]` and `(1,2]` for the second class: `{[0,2) [3,5) [7,8)}` and
`{[0,1] (2,4] [7,7]}`. -/
example : TwinSets Ex.ro Ex.di (some exE) (some diFns) .joining [Ex.r 0 2, Ex.r 3 5, Ex.r 7 8]
    [⟨0, 1, .closed⟩, ⟨2, 4, .leftOpen⟩, ⟨7, 7, .closed⟩] := by
  refine .op (.op (.op (.empty _) (.add (k := Ex.r 0 5) (k' := ⟨0, 4, .closed⟩) ?_) trivial trivial (s' := [Ex.r 0 5])
      (t' := [⟨0, 4, .closed⟩]) (by decide) (by decide))
    (.subtract (k := Ex.r 2 3) (k' := ⟨1, 2, .leftOpen⟩) ?_) trivial trivial (s' := [Ex.r 0 2, Ex.r 3 5])
      (t' := [⟨0, 1, .closed⟩, ⟨2, 4, .leftOpen⟩]) (by decide) (by decide))
    (.addE 7) (ex_elem 7).1 (ex_elem 7).2 (by decide) (by decide)
  · intro x
    refine (C01_contains_right_open 0 0 5 x).trans (Iff.trans ?_ (C01_in_discrete stepsInt 0 0 0 4 x).2.2.1.symm)
    omega
  · intro x
    refine (C01_contains_right_open 0 2 3 x).trans (Iff.trans ?_ (C01_in_discrete stepsInt 0 0 1 2 x).2.2.2.2.1.symm)
    omega

/-- `{} += ([0,5), 1)`, `+= ([3,8), 1)`, with `[0,4]` and `(2,7]` for the second class. -/
example : TwinMaps Ex.ro Ex.di (some exE) (some diFns) (exMap true true false)
      [(Ex.r 0 3, 1), (Ex.r 3 5, 2), (Ex.r 5 8, 1)] [(⟨0, 2, .closed⟩, 1), (⟨2, 4, .leftOpen⟩, 2), (⟨4, 7, .leftOpen⟩, 1)] ∧
    Neutral (exMap true true false) := by
  refine ⟨.op (.op (.empty _) (.add (k := Ex.r 0 5) (k' := ⟨0, 4, .closed⟩) 1 ?_) trivial trivial (m' := [(Ex.r 0 5, 1)])
      (n' := [(⟨0, 4, .closed⟩, 1)]) (by decide) (by decide))
    (.add (k := Ex.r 3 8) (k' := ⟨2, 7, .leftOpen⟩) 1 ?_) trivial trivial (by decide) (by decide), numeric_neutral (W := ℤ) true true false true⟩
  · intro x
    refine (C01_contains_right_open 0 0 5 x).trans (Iff.trans ?_ (C01_in_discrete stepsInt 0 0 0 4 x).2.2.1.symm)
    omega
  · intro x
    refine (C01_contains_right_open 0 3 8 x).trans (Iff.trans ?_ (C01_in_discrete stepsInt 0 0 2 7 x).2.2.2.2.1.symm)
    omega

/-- For a `split_interval_map`, and `-= ([3,5), 1)` afterwards: three segments with the same value. -/
example : TwinMaps Ex.ro Ex.di (some exE) (some diFns) (exMap false true false)
      [(Ex.r 0 3, 1), (Ex.r 3 5, 1), (Ex.r 5 8, 1)] [(⟨0, 2, .closed⟩, 1), (⟨2, 4, .leftOpen⟩, 1), (⟨4, 7, .leftOpen⟩, 1)] ∧
    Neutral (exMap false true false) := by
  refine ⟨.op (.op (.op (.empty _) (.add (k := Ex.r 0 5) (k' := ⟨0, 4, .closed⟩) 1 ?_) trivial trivial (m' := [(Ex.r 0 5, 1)])
      (n' := [(⟨0, 4, .closed⟩, 1)]) (by decide) (by decide))
    (.add (k := Ex.r 3 8) (k' := ⟨2, 7, .leftOpen⟩) 1 ?_) trivial trivial (m' := [(Ex.r 0 3, 1), (Ex.r 3 5, 2), (Ex.r 5 8, 1)])
      (n' := [(⟨0, 2, .closed⟩, 1), (⟨2, 4, .leftOpen⟩, 2), (⟨4, 7, .leftOpen⟩, 1)]) (by decide) (by decide))
    (.subtract (k := Ex.r 3 5) (k' := ⟨2, 4, .leftOpen⟩) 1 ?_) trivial trivial (by decide) (by decide),
    numeric_neutral (W := ℤ) false true false true⟩
  · intro x
    refine (C01_contains_right_open 0 0 5 x).trans (Iff.trans ?_ (C01_in_discrete stepsInt 0 0 0 4 x).2.2.1.symm)
    omega
  · intro x
    refine (C01_contains_right_open 0 3 8 x).trans (Iff.trans ?_ (C01_in_discrete stepsInt 0 0 2 7 x).2.2.2.2.1.symm)
    omega
  · intro x
    refine (C01_contains_right_open 0 3 5 x).trans (Iff.trans ?_ (C01_in_discrete stepsInt 0 0 2 4 x).2.2.2.2.1.symm)
    omega

end ICL.Props
