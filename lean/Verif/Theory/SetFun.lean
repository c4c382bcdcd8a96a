import Verif.Theory.Lookup
import Mathlib.Logic.Relation

/-!
# Functions on interval sets: what they do to elements and segments
-/

set_option linter.unusedSectionVars false
set_option linter.unusedVariables false
set_option linter.unusedSimpArgs false

namespace ICL

variable {D I V S : Type} [LinearOrder D] {o : IntervalOps D I} {g : SegOps I V S}

/-- `z` lies between `x` and `y` (inclusive, in either order). -/
def Btw (x y z : D) : Prop := min x y ≤ z ∧ z ≤ max x y

theorem btw_left (x y : D) : Btw x y x := ⟨min_le_left _ _, le_max_left _ _⟩
theorem btw_right (x y : D) : Btw x y y := ⟨min_le_right _ _, le_max_right _ _⟩
theorem Btw.symm {x y z : D} (h : Btw x y z) : Btw y x z := by
  unfold Btw at *; rwa [min_comm, max_comm]
theorem btw_self {x z : D} : Btw x x z ↔ z = x := by
  unfold Btw; rw [min_self, max_self]
  exact ⟨fun h => le_antisymm h.2 h.1, fun h => ⟨le_of_eq h.symm, le_of_eq h⟩⟩
theorem btw_iff_of_le {x y z : D} (h : x ≤ y) : Btw x y z ↔ x ≤ z ∧ z ≤ y := by
  unfold Btw; rw [min_eq_left h, max_eq_right h]

/-- No border of the interval `k` lies between `x` and `y`. -/
def TogI (o : IntervalOps D I) (k : I) (x y : D) : Prop := ∀ z, Btw x y z → (o.Mem z k ↔ o.Mem x k)

/-- No border of a segment of `l` lies between `x` and `y`. -/
def Tog (o : IntervalOps D I) (l : List I) (x y : D) : Prop := ∀ s ∈ l, TogI o s x y

theorem tog_nil (x y : D) : Tog o ([] : List I) x y := by simp [Tog]
theorem tog_cons {s : I} {l : List I} {x y : D} :
    Tog o (s :: l) x y ↔ TogI o s x y ∧ Tog o l x y := by simp [Tog]

section
variable (h : o.Lawful)
include h

theorem mem_btw {i : I} {x y z : D} (hx : o.Mem x i) (hy : o.Mem y i) (hz : Btw x y z) : o.Mem z i :=
  mem_between h hx hy hz.1 hz.2

theorem same_btw {l : List S} {x y z : D} (hs : Same o g l x y) (hz : Btw x y z) :
    Same o g l x z := by
  obtain ⟨s, hs, hx, hy⟩ := hs
  exact ⟨s, hs, hx, mem_btw h hx hy hz⟩

theorem tog_of_same {l : List I} (hl : WF o setSeg l) {x y : D} (hs : Same o setSeg l x y) :
    Tog o l x y := by
  obtain ⟨s, hs, hx, hy⟩ := hs
  intro t ht z hz
  have hzs : o.Mem z s := mem_btw h hx hy hz
  constructor
  · intro hzt
    have := hl.unique ht hs hzt hzs
    rw [this]; exact hx
  · intro hxt
    have := hl.unique ht hs hxt hx
    rw [this]; exact hzs

omit h in
theorem same_of_tog {l : List I} {x y : D} (ht : Tog o l x y) (hx : Dom o setSeg l x) :
    Same o setSeg l x y := by
  obtain ⟨s, hs, hx⟩ := hx
  exact ⟨s, hs, hx, (ht s hs y (btw_right x y)).2 hx⟩

theorem same_iff_tog {l : List I} (hl : WF o setSeg l) {x y : D} :
    Same o setSeg l x y ↔ Tog o l x y ∧ Dom o setSeg l x :=
  ⟨fun hs => ⟨tog_of_same h hl hs, hs.left⟩, fun ⟨h1, h2⟩ => same_of_tog h1 h2⟩

omit h in
theorem tog_free {l : List I} {x y : D} (hx : ¬ Dom o setSeg l x) :
    Tog o l x y ↔ ∀ z, Btw x y z → ¬ Dom o setSeg l z := by
  constructor
  · rintro ht z hz ⟨s, hs, hzs⟩
    exact hx ⟨s, hs, (ht s hs z hz).1 hzs⟩
  · intro hn s hs z hz
    constructor
    · exact fun hzs => absurd ⟨s, hs, hzs⟩ (hn z hz)
    · exact fun hxs => absurd ⟨s, hs, hxs⟩ hx

omit h in
theorem splitSpec_iff_aux {l : List I} {k : I} {x y : D} : SplitSpec o l k x y ↔
    (Same o setSeg l x y ∧ TogI o k x y) ∨
    (o.Mem x k ∧ o.Mem y k ∧ ∀ z, Btw x y z → ¬ Dom o setSeg l z) := by
  unfold SplitSpec GapSame TogI Btw
  simp only [and_imp]

theorem splitSpec_iff {l : List I} (hl : WF o setSeg l) {k : I} {x y : D} : SplitSpec o l k x y ↔
    Tog o l x y ∧ TogI o k x y ∧ (Dom o setSeg l x ∨ o.Mem x k) := by
  rw [splitSpec_iff_aux]
  constructor
  · rintro (⟨h1, h2⟩ | ⟨h1, h2, h3⟩)
    · exact ⟨tog_of_same h hl h1, h2, Or.inl h1.left⟩
    · refine ⟨(tog_free (h3 x (btw_left x y))).2 h3, ?_, Or.inr h1⟩
      intro z hz
      exact iff_of_true (mem_btw h h1 h2 hz) h1
  · rintro ⟨h1, h2, h3⟩
    by_cases hd : Dom o setSeg l x
    · exact Or.inl ⟨same_of_tog h1 hd, h2⟩
    · have hx := h3.resolve_left hd
      exact Or.inr ⟨hx, (h2 y (btw_right x y)).2 hx, (tog_free hd).1 h1⟩

theorem AddSpec.tog {l l' : List I} {k : I} (hl : WF o setSeg l)
    (hs : AddSpec o .splitting l k l') (x y : D) : Tog o l' x y ↔ Tog o l x y ∧ TogI o k x y := by
  by_cases hd : Dom o setSeg l' x
  · have := (same_iff_tog h hs.wf (x := x) (y := y))
    rw [hs.splitting rfl, splitSpec_iff h hl] at this
    have hd' := (hs.dom x).1 hd
    simp only [hd, hd', and_true] at this
    exact this.symm
  · rw [tog_free hd]
    have hd' : ¬ Dom o setSeg l x ∧ ¬ o.Mem x k := by
      rw [hs.dom] at hd; tauto
    rw [tog_free hd'.1]
    unfold TogI
    constructor
    · intro hn
      refine ⟨fun z hz hc => hn z hz ((hs.dom z).2 (Or.inl hc)), fun z hz => ?_⟩
      exact iff_of_false (fun hc => hn z hz ((hs.dom z).2 (Or.inr hc))) hd'.2
    · rintro ⟨h1, h2⟩ z hz hc
      rcases (hs.dom z).1 hc with hc | hc
      · exact h1 z hz hc
      · exact hd'.2 ((h2 z hz).1 hc)

omit h in
/-- Elements linked by a chain in which neighbours share a segment of `l` or are both in `k`. -/
theorem AddSpec.linked {l l' : List I} {k : I} (hl : WF o setSeg l)
    (hs : AddSpec o .separating l k l') (x y : D) : Same o setSeg l' x y ↔
      Relation.TransGen (fun x y => Same o setSeg l x y ∨ (o.Mem x k ∧ o.Mem y k)) x y := by
  constructor
  · rw [hs.separating rfl]
    have hr : ∀ x, Reach o l k x → ∃ z, o.Mem z k ∧
        Relation.TransGen (fun x y => Same o setSeg l x y ∨ (o.Mem x k ∧ o.Mem y k)) x z := by
      rintro x (hx | ⟨s, hs, hx, z, hz, hzk⟩)
      · exact ⟨x, hx, .single (Or.inr ⟨hx, hx⟩)⟩
      · exact ⟨z, hzk, .single (Or.inl ⟨s, hs, hx, hz⟩)⟩
    have hr' : ∀ x, Reach o l k x → ∃ z, o.Mem z k ∧
        Relation.TransGen (fun x y => Same o setSeg l x y ∨ (o.Mem x k ∧ o.Mem y k)) z x := by
      rintro x (hx | ⟨s, hs, hx, z, hz, hzk⟩)
      · exact ⟨x, hx, .single (Or.inr ⟨hx, hx⟩)⟩
      · exact ⟨z, hzk, .single (Or.inl ⟨s, hs, hz, hx⟩)⟩
    rintro (h1 | ⟨h1, h2⟩)
    · exact .single (Or.inl h1)
    · obtain ⟨z, hz, hxz⟩ := hr x h1
      obtain ⟨w, hw, hwy⟩ := hr' y h2
      exact (hxz.tail (Or.inr ⟨hz, hw⟩)).trans hwy
  · intro ht
    have hone : ∀ x y, (Same o setSeg l x y ∨ (o.Mem x k ∧ o.Mem y k)) → Same o setSeg l' x y := by
      intro x y hxy
      rw [hs.separating rfl]
      rcases hxy with hxy | ⟨hx, hy⟩
      · exact Or.inl hxy
      · exact Or.inr ⟨Or.inl hx, Or.inl hy⟩
    induction ht with
    | single h1 => exact hone _ _ h1
    | tail _ h1 ih => exact Same.trans hs.wf ih (hone _ _ h1)

end

/-! ### Union -/

theorem transGen_of {α : Type} {r p : α → α → Prop}
    (hrp : ∀ a b, r a b → Relation.TransGen p a b) {x y : α} (hr : Relation.TransGen r x y) :
    Relation.TransGen p x y := by
  induction hr with
  | single h1 => exact hrp _ _ h1
  | tail _ h1 ih => exact ih.trans (hrp _ _ h1)

/-- Elements linked by a chain in which neighbours share a segment of `l` or a segment of `r`. -/
def Linked (o : IntervalOps D I) (l r : List I) (x y : D) : Prop :=
  Relation.TransGen (fun x y => Same o setSeg l x y ∨ Same o setSeg r x y) x y

/-- Result of the union of two interval sets. -/
structure UnionSpec (o : IntervalOps D I) (st : Style) (l r l' : List I) : Prop where
  wf : WF o setSeg l'
  dom : ∀ x, Dom o setSeg l' x ↔ Dom o setSeg l x ∨ Dom o setSeg r x
  joined : st = .joining → Joined o setSeg l → Joined o setSeg l'
  separating : st = .separating → ∀ x y, Same o setSeg l' x y ↔ Linked o l r x y
  splitting : st = .splitting → ∀ x y, Tog o l' x y ↔ Tog o l x y ∧ Tog o r x y

theorem transGen_same {l : List I} (hl : WF o setSeg l) {x y : D} :
    Relation.TransGen (Same o setSeg l) x y ↔ Same o setSeg l x y := by
  constructor
  · intro ht
    induction ht with
    | single h1 => exact h1
    | tail _ h1 ih => exact Same.trans hl ih h1
  · exact .single

section
variable (h : o.Lawful)
include h

/-- A loop whose body adds one segment. -/
theorem fold_add (st : Style) (f : List I → I → Option (List I))
    (hf : ∀ l, WF o setSeg l → ∀ k, ∃ l', f l k = some l' ∧ AddSpec o st l k l')
    (r : List I) {l : List I} (hl : WF o setSeg l) :
    ∃ l', ISet.fold f l r = some l' ∧ UnionSpec o st l r l' := by
  induction r generalizing l with
  | nil =>
    refine ⟨l, rfl, hl, by simp, fun _ hj => hj, ?_, ?_⟩
    · intro _ x y
      unfold Linked
      simp only [same_nil, or_false]
      exact (transGen_same hl).symm
    · intro _ x y; simp [tog_nil]
  | cons k r ih =>
    obtain ⟨l1, e1, s1⟩ := hf l hl k
    obtain ⟨l2, e2, s2⟩ := ih s1.wf
    refine ⟨l2, by simp [ISet.fold, e1, e2], s2.wf, ?_, ?_, ?_, ?_⟩
    · intro x; rw [s2.dom, s1.dom, dom_cons, setSeg_key, or_assoc]
    · exact fun h1 h2 => s2.joined h1 (s1.joined h1 h2)
    · intro hst x y
      subst hst
      rw [s2.separating rfl]
      unfold Linked
      constructor
      · refine transGen_of ?_
        rintro x y (hxy | hxy)
        · rw [s1.linked hl] at hxy
          refine transGen_of ?_ hxy
          intro a b hab
          refine .single ?_
          rw [same_cons]
          simp only [setSeg_key]
          tauto
        · exact .single (Or.inr (by rw [same_cons]; exact Or.inr hxy))
      · refine transGen_of ?_
        intro a b hab
        refine .single ?_
        rw [same_cons] at hab
        simp only [setSeg_key] at hab
        rw [s1.separating rfl]
        unfold Reach
        tauto
    · intro hst x y
      subst hst
      rw [s2.splitting rfl, s1.tog h hl, tog_cons, and_assoc]

/-- `object += operand`. -/
theorem ISet.addSet_spec (st : Style) (oracle : List I → I → Nat) {l : List I}
    (hl : WF o setSeg l) (r : List I) :
    ∃ l', ISet.addSet o st oracle l r = some l' ∧ UnionSpec o st l r l' :=
  fold_add h st _ (fun l hl k => ISet.addHint_spec h st _ hl k) r hl

/-! ### Difference -/

/-- Result of the difference of two interval sets. -/
structure DiffSpec (o : IntervalOps D I) (l r l' : List I) : Prop where
  wf : WF o setSeg l'
  same : ∀ x y, Same o setSeg l' x y ↔
    Same o setSeg l x y ∧ ∀ z, Btw x y z → ¬ Dom o setSeg r z

theorem fold_sub (r : List I) {l : List I} (hl : WF o setSeg l) :
    ∃ l', ISet.fold (fun l k => ISet.subtract o l k) l r = some l' ∧ DiffSpec o l r l' := by
  induction r generalizing l with
  | nil => exact ⟨l, rfl, hl, by simp⟩
  | cons k r ih =>
    obtain ⟨l1, e1, s1⟩ := ISet.subtract_spec h hl k
    obtain ⟨l2, e2, s2⟩ := ih s1.wf
    refine ⟨l2, by simp [ISet.fold, e1, e2], s2.wf, ?_⟩
    intro x y
    rw [s2.same, s1.same, and_assoc]
    refine and_congr_right fun _ => ?_
    simp only [dom_cons, setSeg_key, Btw, and_imp, not_or]
    constructor
    · rintro ⟨h1, h2⟩ z hz1 hz2; exact ⟨h1 z hz1 hz2, h2 z hz1 hz2⟩
    · intro h1; exact ⟨fun z hz1 hz2 => (h1 z hz1 hz2).1, fun z hz1 hz2 => (h1 z hz1 hz2).2⟩

omit h in
theorem DiffSpec.dom {l r l' : List I} (hs : DiffSpec o l r l') (x : D) :
    Dom o setSeg l' x ↔ Dom o setSeg l x ∧ ¬ Dom o setSeg r x := by
  rw [← same_self, hs.same, same_self]
  simp only [btw_self]
  constructor
  · rintro ⟨h1, h2⟩; exact ⟨h1, h2 x rfl⟩
  · rintro ⟨h1, h2⟩; exact ⟨h1, fun z hz => hz ▸ h2⟩

theorem DiffSpec.joined {l r l' : List I} (hl : WF o setSeg l) (hs : DiffSpec o l r l')
    (hj : Joined o setSeg l) : Joined o setSeg l' := by
  rw [joined_iff h hs.wf]
  rw [joined_iff h hl] at hj
  intro x y v hxy hm
  have hd : ∀ z, x ≤ z → z ≤ y → Dom o setSeg l z ∧ ¬ Dom o setSeg r z :=
    fun z h1 h2 => (hs.dom z).1 (hm z h1 h2).dom
  rw [hs.same]
  simp only [btw_iff_of_le hxy, and_imp]
  exact ⟨hj x y v hxy fun z h1 h2 => (setMaps_iff h).2 (hd z h1 h2).1, fun z h1 h2 => (hd z h1 h2).2⟩

/-- `object -= operand`. -/
theorem ISet.subSet_spec {l r : List I} (hl : WF o setSeg l) (hr : WF o setSeg r) :
    ∃ l', ISet.subSet o l r = some l' ∧ DiffSpec o l r l' := by
  obtain ⟨res, e, hn, hs⟩ := commonRange_spec h hr hl
  unfold ISet.subSet
  rw [e]
  cases res with
  | none =>
    refine ⟨l, by simp, hl, fun x y => ?_⟩
    constructor
    · intro hxy
      exact ⟨hxy, fun z hz hc => hn rfl z hc (same_btw h hxy hz).right⟩
    · exact fun hxy => hxy.1
  | some t =>
    obtain ⟨p, c, q⟩ := t
    obtain ⟨rfl, h1, h2⟩ := hs p c q rfl
    obtain ⟨l', e', s'⟩ := fold_sub h c hl
    refine ⟨l', by simp only [Option.bind_eq_bind, Option.bind_some, e'], s'.wf, fun x y => ?_⟩
    rw [s'.same]
    refine and_congr_right fun hxy => ?_
    simp only [dom_append, not_or]
    constructor
    · intro h3 z hz
      have hzl := (same_btw h hxy hz).right
      refine ⟨⟨fun hp => lt_irrefl _ (h1 z z hp hzl), h3 z hz⟩, fun hq => lt_irrefl _ (h2 z z hzl hq)⟩
    · exact fun h3 z hz => (h3 z hz).1.2

/-! ### Intersection -/

/-- Result of adding the intersection of `l` and `r` to `sec`, for pieces that are disjoint from
`sec`: `p` are the pieces that were added. -/
structure Pieces (o : IntervalOps D I) (l : List I) (k : I) (p : List I) : Prop where
  wf : WF o setSeg p
  same : ∀ x y, Same o setSeg p x y ↔ Same o setSeg l x y ∧ o.Mem x k ∧ o.Mem y k

/-- The pieces of the intersection of `l` with `k`. -/
def pieces (o : IntervalOps D I) (l : List I) (k : I) : List I :=
  (l.map fun s => o.inter s k).filter fun i => !o.isEmpty i

theorem pieces_spec {l : List I} (hl : WF o setSeg l) (k : I) : Pieces o l k (pieces o l k) := by
  unfold pieces
  induction l with
  | nil => exact ⟨by simpa using wf_nil, by simp⟩
  | cons s l ih =>
    have hw := wf_cons.1 hl
    have ih := ih hw.2.1
    have hsub : ∀ x, Dom o setSeg ((l.map fun s => o.inter s k).filter fun i => !o.isEmpty i) x →
        Dom o setSeg l x := by
      intro x hx
      rw [← same_self, ih.same, same_self] at hx
      exact hx.1
    rw [List.map_cons, List.filter_cons]
    cases he : o.isEmpty (o.inter s k) with
    | true =>
      simp only [Bool.not_true, Bool.false_eq_true, if_false]
      refine ⟨ih.wf, fun x y => ?_⟩
      rw [ih.same, same_cons]
      rw [h.isEmpty_iff] at he
      simp only [h.mem_inter] at he
      have := he x
      simp only [setSeg_key]
      tauto
    | false =>
      simp only [Bool.not_false, if_true]
      have hne := (nonempty_iff h).2 he
      refine ⟨wf_cons.2 ⟨hne, ih.wf, ?_⟩, fun x y => ?_⟩
      · intro x y hx hy
        simp only [setSeg_key, h.mem_inter] at hx
        exact hw.2.2 x y hx.1 (hsub y hy)
      · rw [same_cons, same_cons, ih.same]
        simp only [setSeg_key, h.mem_inter]
        tauto

theorem sectionLoop_eq (st : Style) (oracle : List I → I → Nat) (sec nodes : List I) (k : I) :
    ISet.sectionLoop o st oracle sec nodes k =
      ISet.fold (fun sec i => ISet.addHint o st (oracle sec i) sec i) sec (pieces o nodes k) := by
  unfold ISet.sectionLoop pieces
  induction nodes generalizing sec with
  | nil => rfl
  | cons s nodes ih =>
    rw [ISet.fold, List.map_cons, List.filter_cons]
    cases he : o.isEmpty (o.inter s k) with
    | true => simp only [if_true, Option.bind_eq_bind, Option.bind_some, ih]; simp
    | false =>
      simp only [Bool.not_false, if_true, Bool.false_eq_true, if_false, ISet.fold]
      congr 1
      funext l
      exact ih l

/-- `add_intersection(section, object, segment)` adds the pieces to the section. -/
theorem ISet.addInterSeg_spec (st : Style) (oracle : List I → I → Nat) {sec l : List I}
    (hsec : WF o setSeg sec) (hl : WF o setSeg l) (k : I) :
    ∃ sec' p, ISet.addInterSeg o st oracle sec l k = some sec' ∧ Pieces o l k p ∧
      UnionSpec o st sec p sec' := by
  cases he : o.isEmpty k with
  | true =>
    have hk := (h.isEmpty_iff k).1 he
    refine ⟨sec, [], by simp [ISet.addInterSeg, he], ⟨wf_nil, by simp [hk]⟩, ?_⟩
    obtain ⟨_, e, hs⟩ := ISet.addSet_spec h st oracle hsec ([] : List I)
    simp only [ISet.addSet, ISet.fold, Option.some.injEq] at e
    rw [← e] at hs
    exact hs
  | false =>
    obtain ⟨a, b, c, e, rfl, h1, h2, h3⟩ := equalRange_spec h hl ((nonempty_iff h).2 he)
    have hb : WF o setSeg b := (wf_append.1 (wf_append.1 hl).1).2.1
    obtain ⟨sec', e', hs⟩ := ISet.addSet_spec h st oracle hsec (pieces o b k)
    have hp := pieces_spec h hb k
    refine ⟨sec', pieces o b k, ?_, ⟨hp.wf, ?_⟩, hs⟩
    · unfold ISet.addInterSeg
      rw [he, e]
      simp only [Option.bind_eq_bind, Option.bind_some, Bool.false_eq_true, if_false,
        sectionLoop_eq h, ← e']
      rfl
    · intro x y
      rw [hp.same, same_append, same_append]
      constructor
      · tauto
      · rintro ⟨(h4 | h4) | h4, h5, h6⟩
        · obtain ⟨s, hs, hx, _⟩ := h4
          exact absurd (h1 s hs x x hx h5) (lt_irrefl _)
        · exact ⟨h4, h5, h6⟩
        · obtain ⟨s, hs, hx, _⟩ := h4
          exact absurd (h3 s hs x x h5 hx) (lt_irrefl _)

/-- Result of the intersection of two interval sets. -/
structure InterSpec (o : IntervalOps D I) (st : Style) (l r l' : List I) : Prop where
  wf : WF o setSeg l'
  dom : ∀ x, Dom o setSeg l' x ↔ Dom o setSeg l x ∧ Dom o setSeg r x
  joined : st = .joining → Joined o setSeg l'
  same : st ≠ .joining → ∀ x y, Same o setSeg l' x y ↔ Same o setSeg l x y ∧ Same o setSeg r x y

omit h in
theorem Pieces.dom {l p : List I} {k : I} (hp : Pieces o l k p) (x : D) :
    Dom o setSeg p x ↔ Dom o setSeg l x ∧ o.Mem x k := by
  rw [← same_self, hp.same, same_self]; tauto

/-- Union with a disjoint set: no segments are combined. -/
theorem UnionSpec.same_disjoint {st : Style} {l r l' : List I} (hl : WF o setSeg l)
    (hr : WF o setSeg r) (hs : UnionSpec o st l r l') (hst : st ≠ .joining)
    (hd : ∀ x, Dom o setSeg l x → ¬ Dom o setSeg r x) (x y : D) :
    Same o setSeg l' x y ↔ Same o setSeg l x y ∨ Same o setSeg r x y := by
  cases st with
  | joining => exact absurd rfl hst
  | separating =>
    rw [hs.separating rfl]
    constructor
    · intro ht
      induction ht with
      | single h1 => exact h1
      | tail _ h1 ih =>
        rcases ih with ih | ih <;> rcases h1 with h1 | h1
        · exact Or.inl (ih.trans hl h1)
        · exact absurd h1.left (hd _ ih.right)
        · exact absurd ih.right (hd _ h1.left)
        · exact Or.inr (ih.trans hr h1)
    · exact fun h1 => .single h1
  | splitting =>
    rw [same_iff_tog h hs.wf, hs.splitting rfl, hs.dom]
    constructor
    · rintro ⟨⟨h1, h2⟩, h3 | h3⟩
      · exact Or.inl (same_of_tog h1 h3)
      · exact Or.inr (same_of_tog h2 h3)
    · have key : ∀ {l r : List I}, WF o setSeg l → WF o setSeg r →
          (∀ x, Dom o setSeg l x → ¬ Dom o setSeg r x) → Same o setSeg l x y →
          Tog o l x y ∧ Tog o r x y := by
        intro l r hl hr hd hxy
        refine ⟨tog_of_same h hl hxy, (tog_free (hd x hxy.left)).2 fun z hz => ?_⟩
        exact hd z (same_btw h hxy hz).right
      rintro (h1 | h1)
      · exact ⟨key hl hr hd h1, Or.inl h1.left⟩
      · exact ⟨(key hr hl (fun x h2 h3 => hd x h3 h2) h1).symm, Or.inr h1.left⟩

/-- The loop of `add_intersection(section, object, operand)`. -/
theorem fold_addInter (st : Style) (oracle : List I → I → Nat) {l : List I} (hl : WF o setSeg l)
    (r : List I) (hr : WF o setSeg r) {sec : List I} (hsec : WF o setSeg sec)
    (hdis : ∀ x, Dom o setSeg sec x → Dom o setSeg r x → ¬ Dom o setSeg l x) :
    ∃ l', ISet.fold (fun sec k => ISet.addInterSeg o st oracle sec l k) sec r = some l' ∧
      WF o setSeg l' ∧
      (∀ x, Dom o setSeg l' x ↔ Dom o setSeg sec x ∨ (Dom o setSeg l x ∧ Dom o setSeg r x)) ∧
      (st = .joining → Joined o setSeg sec → Joined o setSeg l') ∧
      (st ≠ .joining → ∀ x y, Same o setSeg l' x y ↔ Same o setSeg sec x y ∨
        (Same o setSeg l x y ∧ Same o setSeg r x y)) := by
  induction r generalizing sec with
  | nil => exact ⟨sec, rfl, hsec, by simp, fun _ hj => hj, by simp⟩
  | cons k r ih =>
    have hw := wf_cons.1 hr
    obtain ⟨s1, p, e1, hp, u1⟩ := ISet.addInterSeg_spec h st oracle hsec hl k
    have hd1 : ∀ x, Dom o setSeg sec x → ¬ Dom o setSeg p x := by
      intro x h1 h2
      rw [hp.dom] at h2
      exact hdis x h1 (by simp [h2.2]) h2.1
    obtain ⟨l', e', w', d', j', s'⟩ := ih hw.2.1 u1.wf (by
      intro x h1 h2 h3
      rw [u1.dom, hp.dom] at h1
      rcases h1 with h1 | h1
      · exact hdis x h1 (by simp [h2]) h3
      · exact lt_irrefl _ (hw.2.2 x x h1.2 h2))
    refine ⟨l', by simp [ISet.fold, e1, e'], w', ?_, ?_, ?_⟩
    · intro x
      rw [d', u1.dom, hp.dom, dom_cons, setSeg_key]; tauto
    · exact fun hst hj => j' hst (u1.joined hst hj)
    · intro hst x y
      rw [s' hst, u1.same_disjoint h hsec hp.wf hst hd1, hp.same, same_cons]
      simp only [setSeg_key]
      tauto

/-- `object &= operand`. -/
theorem ISet.interSet_spec (st : Style) (oracle : List I → I → Nat) {l r : List I}
    (hl : WF o setSeg l) (hr : WF o setSeg r) :
    ∃ l', ISet.interSet o st oracle l r = some l' ∧ InterSpec o st l r l' := by
  obtain ⟨res, e, hn, hs⟩ := commonRange_spec h hr hl
  unfold ISet.interSet ISet.addInter
  rw [e]
  cases res with
  | none =>
    refine ⟨[], by simp, wf_nil, ?_, fun _ => joined_nil, ?_⟩
    · intro x; simp only [dom_nil, false_iff]; exact fun ⟨h1, h2⟩ => hn rfl x h2 h1
    · intro _ x y
      simp only [same_nil, false_iff]
      exact fun ⟨h1, h2⟩ => hn rfl x h2.left h1.left
  | some t =>
    obtain ⟨p, c, q⟩ := t
    obtain ⟨rfl, h1, h2⟩ := hs p c q rfl
    obtain ⟨l', e', w', d', j', s'⟩ := fold_addInter h st oracle hl c
      (wf_append.1 (wf_append.1 hr).1).2.1 wf_nil (by simp)
    refine ⟨l', by simp only [Option.bind_eq_bind, Option.bind_some, e'], w', ?_,
      fun hst => j' hst joined_nil, ?_⟩
    · intro x
      rw [d', dom_append, dom_append]
      simp only [dom_nil, false_or]
      constructor
      · tauto
      · rintro ⟨h3, (h4 | h4) | h4⟩
        · exact absurd (h1 x x h4 h3) (lt_irrefl _)
        · exact ⟨h3, h4⟩
        · exact absurd (h2 x x h3 h4) (lt_irrefl _)
    · intro hst x y
      rw [s' hst, same_append, same_append]
      simp only [same_nil, false_or]
      constructor
      · tauto
      · rintro ⟨h3, (h4 | h4) | h4⟩
        · exact absurd (h1 x x h4.left h3.left) (lt_irrefl _)
        · exact ⟨h3, h4⟩
        · exact absurd (h2 x x h3.left h4.left) (lt_irrefl _)

/-- `object &= segment`. -/
theorem ISet.interSeg_spec (st : Style) (oracle : List I → I → Nat) {l : List I}
    (hl : WF o setSeg l) (k : I) :
    ∃ l', ISet.interSeg o st oracle l k = some l' ∧ WF o setSeg l' ∧
      (∀ x, Dom o setSeg l' x ↔ Dom o setSeg l x ∧ o.Mem x k) ∧
      (st = .joining → Joined o setSeg l') ∧
      (st ≠ .joining → ∀ x y, Same o setSeg l' x y ↔ Same o setSeg l x y ∧ o.Mem x k ∧ o.Mem y k) := by
  obtain ⟨l', p, e, hp, u⟩ := ISet.addInterSeg_spec h st oracle (wf_nil (o := o) (g := setSeg)) hl k
  refine ⟨l', e, u.wf, ?_, fun hst => u.joined hst joined_nil, ?_⟩
  · intro x; rw [u.dom, hp.dom]; simp
  · intro hst x y
    rw [u.same_disjoint h wf_nil hp.wf hst (by simp), hp.same]; simp

/-- `intersects(left, right)`. -/
theorem ISet.intersects_spec (st : Style) (oracle : List I → I → Nat) {l r : List I}
    (hl : WF o setSeg l) (hr : WF o setSeg r) :
    ∃ b, ISet.intersects o st oracle l r = some b ∧
      (b = true ↔ ∃ x, Dom o setSeg l x ∧ Dom o setSeg r x) := by
  have loop : ∀ c : List I, ∃ b, ISet.intersectsLoop o st oracle [] l c = some b ∧
      (b = true ↔ ∃ x, Dom o setSeg l x ∧ Dom o setSeg c x) := by
    intro c
    induction c with
    | nil => exact ⟨false, rfl, by simp⟩
    | cons k c ih =>
      obtain ⟨l', e, w, d, _⟩ := ISet.interSeg_spec h st oracle hl k
      unfold ISet.interSeg at e
      cases l' with
      | nil =>
        obtain ⟨b, eb, hb⟩ := ih
        refine ⟨b, by simp [ISet.intersectsLoop, e, eb], ?_⟩
        rw [hb]
        simp only [dom_nil, false_iff] at d
        constructor
        · rintro ⟨x, h1, h2⟩; exact ⟨x, h1, by simp [h2]⟩
        · rintro ⟨x, h1, h2⟩
          rw [dom_cons, setSeg_key] at h2
          rcases h2 with h2 | h2
          · exact absurd ⟨h1, h2⟩ (d x)
          · exact ⟨x, h1, h2⟩
      | cons s l' =>
        refine ⟨true, by simp [ISet.intersectsLoop, e], ?_⟩
        simp only [true_iff]
        obtain ⟨x, hx⟩ := w.nonempty s (by simp)
        have := (d x).1 ⟨s, by simp, hx⟩
        exact ⟨x, this.1, by rw [dom_cons]; exact Or.inl this.2⟩
  obtain ⟨res, e, hn, hs⟩ := commonRange_spec h hr hl
  unfold ISet.intersects
  rw [e]
  cases res with
  | none =>
    refine ⟨false, by simp, ?_⟩
    simp only [Bool.false_eq_true, false_iff]
    rintro ⟨x, h1, h2⟩; exact hn rfl x h2 h1
  | some t =>
    obtain ⟨p, c, q⟩ := t
    obtain ⟨rfl, h1, h2⟩ := hs p c q rfl
    obtain ⟨b, eb, hb⟩ := loop c
    refine ⟨b, by simp only [Option.bind_eq_bind, Option.bind_some, eb], ?_⟩
    rw [hb]
    constructor
    · rintro ⟨x, h3, h4⟩; exact ⟨x, h3, by simp [h4]⟩
    · rintro ⟨x, h3, h4⟩
      rw [dom_append, dom_append] at h4
      rcases h4 with (h4 | h4) | h4
      · exact absurd (h1 x x h4 h3) (lt_irrefl _)
      · exact ⟨x, h3, h4⟩
      · exact absurd (h2 x x h3 h4) (lt_irrefl _)

end
end ICL
