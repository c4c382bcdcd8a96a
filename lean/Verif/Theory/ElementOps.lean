import Verif.Theory.ElementMap

/-!
# What the operations of containers of elements do to single keys
-/

set_option linter.unusedSectionVars false
set_option linter.unusedSimpArgs false

namespace ICL
open Spec

variable {D V : Type} [LinearOrder D]

/-- `m'` is a map that differs from `m` at the key `x` only, as `h` says. -/
def Acts (m m' : List (D × V)) (x : D) (h : Option V → Option V) : Prop :=
  Ascending Prod.fst m' ∧ ∀ y, valueOf m' y = if y = x then h (valueOf m y) else valueOf m y

/-- `m'` is a map whose values are made of those of `m` by `h`. -/
def ActsAll (m m' : List (D × V)) (h : D → Option V → Option V) : Prop :=
  Ascending Prod.fst m' ∧ ∀ y, valueOf m' y = h y (valueOf m y)

namespace EMap
variable [DecidableEq V] {t : MapType V} {m r sec : List (D × V)}

theorem absorbable_iff (v : V) : IMap.absorbable t.cfg v = true ↔ Ignored t v := by
  simp [IMap.absorbable, Ignored]

theorem acts_id (hm : Ascending Prod.fst m) (x : D) {h : Option V → Option V} (hh : h (valueOf m x) = valueOf m x) :
    Acts m m x h :=
  ⟨hm, fun y => by split_ifs with e; · rw [e, hh]
                   · rfl⟩

theorem acts_erase (hm : Ascending Prod.fst m) (x : D) {h : Option V → Option V} (hh : h (valueOf m x) = none) :
    Acts m (StdTree.erase Prod.fst m x) x h := by
  obtain ⟨h1, h2⟩ := valueOf_erase hm x
  refine ⟨h1, fun y => ?_⟩
  rw [h2]
  split_ifs with e
  · rw [e, hh]
  · rfl

theorem acts_modify (hm : Ascending Prod.fst m) (x : D) {h : Option V → Option V} {f : V → V}
    (hh : h (valueOf m x) = (valueOf m x).map f) :
    Acts m (StdTree.modify Prod.fst m x fun s => (s.1, f s.2)) x h := by
  obtain ⟨h1, h2⟩ := valueOf_modify hm x f
  refine ⟨h1, fun y => ?_⟩
  rw [h2]
  split_ifs with e
  · rw [e, hh]
  · rfl

theorem combineAt_acts (f : Combiner V) (hm : Ascending Prod.fst m) (x : D) (v : V) :
    Acts m (combineAt t f m x v) x fun a => a.bind fun u => stored t (f.apply u v) := by
  unfold combineAt
  rw [find_valueOf hm]
  cases hv : valueOf m x with
  | none => exact acts_id hm x (by rw [hv]; rfl)
  | some u =>
    simp only [Option.map_some]
    split_ifs with ha
    · exact acts_erase hm x (by rw [hv]; simp [stored, (absorbable_iff _).1 ha])
    · refine acts_modify hm x (f := fun u => f.apply u v) ?_
      have : ¬ Ignored t (f.apply u v) := fun h => ha ((absorbable_iff _).2 h)
      rw [hv]; simp [stored, this]

theorem addC_acts (f : Combiner V) (hm : Ascending Prod.fst m) (x : D) (v : V) :
    Acts m (addC t f m x v) x (combined t f v) := by
  unfold addC
  split_ifs with ha
  · refine acts_id hm x ?_
    rw [absorbable_iff] at ha
    cases valueOf m x <;> simp [combined, ha]
  · rw [absorbable_iff] at ha
    obtain ⟨h1, h2, h3, h4⟩ := valueOf_insert hm x (f.version v)
    have hc := combineAt_acts (t := t) f hm x v
    revert h1 h2 h3 h4
    rcases StdTree.insert Prod.fst m (x, f.version v) with ⟨m', b⟩
    intro h1 h2 h3 h4
    cases b with
    | true =>
      have hn := h3.1 rfl
      refine ⟨h1, fun y => ?_⟩
      simp only at h2 ⊢
      rw [h2]
      split_ifs with e
      · subst e; simp [hn, combined, ha]
      · rfl
    | false =>
      have he : m' = m := h4 rfl
      subst he
      refine ⟨hc.1, fun y => ?_⟩
      rw [hc.2]
      split_ifs with e
      · subst e
        cases hv : valueOf m' y with
        | none => exact absurd (h3.2 hv) (by simp)
        | some u => simp [combined, ha]
      · rfl

theorem addHintC_acts (f : Combiner V) (hm : Ascending Prod.fst m) (x : D) (v : V) :
    Acts m (addHintC t f m x v) x fun a =>
      if Ignored t v then a else stored t (f.apply (a.getD t.cfg.ident) v) := by
  unfold addHintC
  by_cases ha : IMap.absorbable t.cfg v = true
  · rw [if_pos ha]
    refine acts_id hm x ?_
    rw [absorbable_iff] at ha
    simp [ha]
  · rw [if_neg ha]
    rw [absorbable_iff] at ha
    obtain ⟨h1, h2, h3, h4⟩ := valueOf_insert hm x t.cfg.ident
    have hc := combineAt_acts (t := t) f h1 x v
    refine ⟨hc.1, fun y => ?_⟩
    rw [hc.2, h2]
    split_ifs with e
    · subst e; simp [ha]
    · rfl

theorem subtract_acts (hm : Ascending Prod.fst m) (x : D) (v : V) :
    Acts m (subtract t m x v) x (subtractedElem t v) := by
  unfold subtract
  split_ifs with hc
  · have h := addC_acts (t := t) t.minus hm x v
    refine ⟨h.1, fun y => ?_⟩
    rw [h.2]; simp only [Bool.and_eq_true] at hc; simp [subtractedElem, hc]
  · have h := combineAt_acts (t := t) t.minus hm x v
    refine ⟨h.1, fun y => ?_⟩
    unfold subC
    rw [h.2]; simp only [Bool.and_eq_true] at hc; simp [subtractedElem, hc]

theorem insert_acts (hm : Ascending Prod.fst m) (x : D) (v : V) :
    Acts m (insert t m x v).1 x (inserted t v) ∧
    ((insert t m x v).2 = true ↔ Ignored t v ∨ valueOf m x = none) ∧
    ((insert t m x v).2 = false → (insert t m x v).1 = m) := by
  unfold insert
  split_ifs with ha
  · rw [absorbable_iff] at ha
    refine ⟨acts_id hm x ?_, by simp [ha], by simp⟩
    cases valueOf m x <;> simp [inserted, stored, ha]
  · rw [absorbable_iff] at ha
    obtain ⟨h1, h2, h3, h4⟩ := valueOf_insert hm x v
    refine ⟨⟨h1, fun y => ?_⟩, by rw [h3]; simp [ha], h4⟩
    rw [h2]
    split_ifs with e
    · subst e; cases valueOf m y <;> simp [inserted, stored, ha]
    · rfl

theorem eraseKey_acts (hm : Ascending Prod.fst m) (x : D) : Acts m (eraseKey m x) x fun _ => none := by
  unfold eraseKey
  rw [find_valueOf hm]
  cases hv : valueOf m x with
  | none => exact acts_id hm x (by rw [hv])
  | some u => exact acts_erase hm x rfl

theorem erasePair_acts (hm : Ascending Prod.fst m) (x : D) (v : V) :
    Acts m (erasePair t m x v).1 x (erased t v) ∧
    (erasePair t m x v).2 = if ¬ Ignored t v ∧ valueOf m x = some v then 1 else 0 := by
  unfold erasePair
  rw [find_valueOf hm]
  by_cases ha : IMap.absorbable t.cfg v = true
  · rw [if_pos ha]
    rw [absorbable_iff] at ha
    exact ⟨acts_id hm x (by cases valueOf m x <;> simp [erased, ha]), by simp [ha]⟩
  · rw [if_neg ha]
    rw [absorbable_iff] at ha
    cases hv : valueOf m x with
    | none => exact ⟨acts_id hm x (by rw [hv]; rfl), by simp⟩
    | some u =>
      simp only [Option.map_some]
      by_cases e : v = u
      · subst e
        simp only [if_true]
        exact ⟨acts_erase hm x (by rw [hv]; simp [erased, ha]), by simp [ha]⟩
      · simp only [e, if_false]
        have e' : ¬ u = v := fun h => e h.symm
        exact ⟨acts_id hm x (by rw [hv]; simp [erased, ha, e']), by simp [e']⟩

theorem flip_acts (ht : t.cfg.total = false) (hm : Ascending Prod.fst m) (x : D) (v : V) :
    Acts m (flip t m x v) x (flippedElem t v) := by
  unfold flip
  simp only [ht, Bool.false_eq_true, if_false]
  obtain ⟨h1, h2, h3⟩ := insert_acts (t := t) hm x v
  revert h1 h2 h3
  rcases insert t m x v with ⟨m', b⟩
  intro h1 h2 h3
  cases b with
  | true =>
    refine ⟨h1.1, fun y => ?_⟩
    simp only at h1 ⊢
    rw [h1.2]
    split_ifs with e
    · subst e
      rcases h2.1 rfl with h | h
      · cases valueOf m y <;> simp [inserted, flippedElem, h]
      · rw [h]; rfl
    · rfl
  | false =>
    have he : m' = m := h3 rfl
    subst he
    have hn : ¬ (Ignored t v ∨ valueOf m' x = none) := fun h => absurd (h2.2 h) (by simp)
    simp only [not_or] at hn
    obtain ⟨hi, hn⟩ := hn
    obtain ⟨u, hu⟩ := Option.ne_none_iff_exists'.1 hn
    simp only
    split_ifs with hs hab hab
    · obtain ⟨g1, g2⟩ := valueOf_modify hm x fun u => t.unsect u v
      rw [find_valueOf g1, g2] at hab
      simp only [if_true, hu, Option.map_some, Bool.and_eq_true, decide_eq_true_eq, Option.some.injEq] at hab
      obtain ⟨g3, g4⟩ := valueOf_erase g1 x
      refine ⟨g3, fun y => ?_⟩
      rw [g4, g2]
      split_ifs with e
      · subst e; rw [hu]; simp only [flippedElem, hi, hs, if_true, if_false, Bool.false_eq_true]; simp [stored, Ignored, hab]
      · rfl
    · obtain ⟨g1, g2⟩ := valueOf_modify hm x fun u => t.unsect u v
      rw [find_valueOf g1, g2] at hab
      simp only [if_true, hu, Option.map_some, Bool.and_eq_true, decide_eq_true_eq, Option.some.injEq] at hab
      refine ⟨g1, fun y => ?_⟩
      rw [g2]
      split_ifs with e
      · subst e; rw [hu]; simp only [flippedElem, hi, hs, if_true, if_false, Bool.false_eq_true]; simp [stored, Ignored, hab]
      · rfl
    · exact acts_erase hm x (by rw [hu]; simp only [flippedElem, hi, hs, if_true, if_false, Bool.false_eq_true]; simp [stored, Ignored, hab])
    · exact acts_modify hm x (f := fun _ => t.cfg.ident)
        (by rw [hu]; simp only [flippedElem, hi, hs, if_true, if_false, Bool.false_eq_true]; simp [stored, Ignored, hab])

theorem bracket_acts (hm : Ascending Prod.fst m) (x : D) (v : V) :
    Acts m (bracket t m x v) x fun _ => some v := by
  unfold bracket
  obtain ⟨h1, h2, -, -⟩ := valueOf_insert hm x t.cfg.ident
  obtain ⟨g1, g2⟩ := valueOf_modify h1 x fun _ => v
  refine ⟨g1, fun y => ?_⟩
  rw [g2, h2, h2]
  by_cases e : y = x <;> simp [e]

/-- The operations with a map as operand act on the keys of the operand. -/
theorem map_acts {g : List (D × V) → D → V → List (D × V)} {h : V → Option V → Option V}
    (hg : ∀ m, Ascending Prod.fst m → ∀ x v, Acts m (g m x v) x (h v))
    (hm : Ascending Prod.fst m) (hr : Ascending Prod.fst r) :
    ActsAll m (r.foldl (fun m s => g m s.1 s.2) m) fun y a =>
      match valueOf r y with
      | none => a
      | some v => h v a :=
  foldl_valueOf (fun m hm x v => hg m hm x v) hr hm

theorem addMap_acts (hm : Ascending Prod.fst m) (hr : Ascending Prod.fst r) :
    ActsAll m (addMap t m r) fun y a => match valueOf r y with | none => a | some v => addedHint t v a :=
  map_acts (fun _ hm x v => addHintC_acts t.plus hm x v) hm hr

theorem subMap_acts (hm : Ascending Prod.fst m) (hr : Ascending Prod.fst r) :
    ActsAll m (subMap t m r) fun y a => match valueOf r y with | none => a | some v => subtractedElem t v a :=
  map_acts (fun _ hm x v => subtract_acts hm x v) hm hr

theorem insertMap_acts (hm : Ascending Prod.fst m) (hr : Ascending Prod.fst r) :
    ActsAll m (insertMap t m r) fun y a => match valueOf r y with | none => a | some v => inserted t v a :=
  map_acts (g := fun m x v => (insert t m x v).1) (fun _ hm x v => (insert_acts hm x v).1) hm hr

theorem eraseMap_acts (hm : Ascending Prod.fst m) (hr : Ascending Prod.fst r) :
    ActsAll m (eraseMap t m r) fun y a => match valueOf r y with | none => a | some v => erased t v a :=
  map_acts (g := fun m x v => (erasePair t m x v).1) (fun _ hm x v => (erasePair_acts hm x v).1) hm hr

theorem eraseSet_acts (hm : Ascending Prod.fst m) (l : List D) :
    ActsAll m (eraseSet m l) fun y a => if y ∈ l then none else a :=
  foldl_keys (g := eraseKey) (h := fun _ _ => none) (fun _ _ => rfl) (fun _ hm x => eraseKey_acts hm x) l hm

theorem subSet_acts (hm : Ascending Prod.fst m) {l : List D} (hl : Ascending (fun x => x) l) :
    ActsAll m (subSet m l) fun y a => if y ∈ l then none else a := by
  have hc := StdTree.commonRange_spec hl hm
  unfold subSet
  revert hc
  cases StdTree.commonRange Prod.fst (fun x => x) l m with
  | none =>
    intro hc
    refine ⟨hm, fun y => ?_⟩
    dsimp only
    split_ifs with hy
    · exact (valueOf_eq_none hm).2 fun s hs e => hc y hy s hs e.symm
    · rfl
  | some com =>
    rintro ⟨h1, h2, h3⟩
    obtain ⟨g1, g2⟩ := eraseSet_acts hm com
    refine ⟨g1, fun y => ?_⟩
    have : com.foldl eraseKey m = eraseSet m com := rfl
    simp only
    rw [this, g2 y]
    by_cases hy : y ∈ com
    · simp [hy, h2 y hy]
    · by_cases hl : y ∈ l
      · simp only [hy, hl, if_false, if_true]
        exact (valueOf_eq_none hm).2 fun s hs e => hy (h3 y hl s hs e.symm)
      · simp [hy, hl]

theorem addInterPair_acts (ht : t.cfg.total = false) (hs : Ascending Prod.fst sec) (hm : Ascending Prod.fst m)
    (x : D) (v : V) :
    Acts sec (addInterPair t sec m x v) x fun a =>
      match valueOf m x with
      | none => a
      | some u => combined t t.sect v (combined t t.plus u a) := by
  unfold addInterPair
  simp only [ht, Bool.false_eq_true, if_false]
  rw [find_valueOf hm]
  cases valueOf m x with
  | none => exact acts_id hs x rfl
  | some u =>
    simp only [Option.map_some]
    have h1 := addC_acts (t := t) t.plus hs x u
    have h2 := addC_acts (t := t) t.sect h1.1 x v
    refine ⟨h2.1, fun y => ?_⟩
    rw [h2.2, h1.2]
    split_ifs <;> rfl

theorem addInterMap_acts (ht : t.cfg.total = false) (hs : Ascending Prod.fst sec) (hm : Ascending Prod.fst m)
    (hr : Ascending Prod.fst r) :
    ActsAll sec (addInterMap t sec m r) fun y a =>
      match valueOf m y, valueOf r y with
      | some u, some v => combined t t.sect v (combined t t.plus u a)
      | _, _ => a := by
  induction r generalizing sec with
  | nil =>
    refine ⟨hs, fun y => ?_⟩
    have : valueOf ([] : List (D × V)) y = none := rfl
    dsimp only
    rw [this]
    cases valueOf m y <;> rfl
  | cons s r ih =>
    obtain ⟨r1, r2⟩ := StdTree.asc_cons.1 hr
    have h1 := addInterPair_acts ht hs hm s.1 s.2
    obtain ⟨i1, i2⟩ := ih h1.1 r2
    refine ⟨i1, fun y => ?_⟩
    have : addInterMap t sec m (s :: r) = addInterMap t (addInterPair t sec m s.1 s.2) m r := rfl
    rw [this, i2 y, h1.2 y]
    dsimp only
    by_cases hy : y = s.1
    · subst hy
      have e1 : valueOf r s.1 = none := (valueOf_eq_none r2).2 fun a ha => (r1 a ha).ne'
      have e2 : valueOf (s :: r) s.1 = some s.2 := (valueOf_eq_some hr).2 (List.mem_cons_self ..)
      rw [e1, e2]
      cases valueOf m s.1 <;> simp
    · have e : valueOf (s :: r) y = valueOf r y := by
        unfold valueOf
        rw [List.find?_cons_of_neg]
        simpa using fun e => hy e.symm
      rw [e]; simp [hy]

theorem addInterKey_acts (hs : Ascending Prod.fst sec) (hm : Ascending Prod.fst m) (x : D) :
    Acts sec (addInterKey t sec m x) x fun a =>
      match valueOf m x with
      | none => a
      | some u => added t u a := by
  unfold addInterKey
  rw [find_valueOf hm]
  cases valueOf m x with
  | none => exact acts_id hs x rfl
  | some u => exact addC_acts (t := t) t.plus hs x u

theorem addInterKeys_acts (hm : Ascending Prod.fst m) {l : List D} (hl : Ascending (fun x => x) l)
    (hs : Ascending Prod.fst sec) :
    ActsAll sec (l.foldl (fun sec x => addInterKey t sec m x) sec) fun y a =>
      if y ∈ l then match valueOf m y with | none => a | some u => added t u a else a := by
  induction l generalizing sec with
  | nil => exact ⟨hs, fun y => by simp⟩
  | cons s l ih =>
    obtain ⟨r1, r2⟩ := StdTree.asc_cons.1 hl
    have h1 := addInterKey_acts (t := t) hs hm s
    obtain ⟨i1, i2⟩ := ih r2 h1.1
    refine ⟨i1, fun y => ?_⟩
    rw [List.foldl_cons, i2 y, h1.2 y]
    by_cases hy : y = s
    · subst hy
      have : y ∉ l := fun h => lt_irrefl _ (r1 y h)
      simp [this]
    · simp [hy]

theorem andSet_acts (hm : Ascending Prod.fst m) {l : List D} (hl : Ascending (fun x => x) l) :
    Ascending Prod.fst (andSet t m l) ∧ ∀ y, valueOf (andSet t m l) y =
      if y ∈ l then (valueOf m y).bind fun u => added t u none else none := by
  have hc := StdTree.commonRange_spec hl hm
  unfold andSet
  revert hc
  cases StdTree.commonRange Prod.fst (fun x => x) l m with
  | none =>
    intro hc
    refine ⟨StdTree.asc_nil, fun y => ?_⟩
    split_ifs with hy
    · rw [(valueOf_eq_none hm).2 fun s hs e => hc y hy s hs e.symm]; rfl
    · rfl
  | some com =>
    rintro ⟨h1, h2, h3⟩
    obtain ⟨g1, g2⟩ := addInterKeys_acts (t := t) hm h1 (sec := []) StdTree.asc_nil
    refine ⟨g1, fun y => ?_⟩
    simp only
    rw [g2 y]
    have en : valueOf ([] : List (D × V)) y = none := rfl
    rw [en]
    by_cases hy : y ∈ com
    · simp only [hy, h2 y hy, if_true]
      cases valueOf m y <;> rfl
    · by_cases hl : y ∈ l
      · rw [(valueOf_eq_none hm).2 fun s hs e => hy (h3 y hl s hs e.symm)]; simp [hy]
      · simp [hy, hl]

/-- A total enricher: all values become the identity element. -/
theorem flip_total (ht : t.cfg.total = true) (ha : t.cfg.absorbs = false) (hm : Ascending Prod.fst m) (x : D) (v : V) :
    Ascending Prod.fst (flip t m x v) ∧ ∀ y, valueOf (flip t m x v) y =
      if y = x ∨ (valueOf m y).isSome = true then some t.cfg.ident else none := by
  unfold flip
  simp only [ht, ha, Bool.false_eq_true, if_false, if_true]
  obtain ⟨h1, h2⟩ := addC_acts (t := t) t.plus hm x v
  obtain ⟨g1, g2⟩ := valueOf_map (fun _ => t.cfg.ident) h1
  refine ⟨g1, fun y => ?_⟩
  have : add t m x v = addC t t.plus m x v := rfl
  rw [this, g2, h2]
  by_cases e : y = x
  · subst e
    cases valueOf m y <;> simp [combined, stored, Ignored, ha]
  · cases valueOf m y <;> simp [e]

theorem flipFold_total (ht : t.cfg.total = true) (ha : t.cfg.absorbs = false) (hr : Ascending Prod.fst r)
    (hm : Ascending Prod.fst m) :
    Ascending Prod.fst (r.foldl (fun m s => flip t m s.1 s.2) m) ∧
    ∀ y, (valueOf (r.foldl (fun m s => flip t m s.1 s.2) m) y).isSome = true ↔
      (valueOf r y).isSome = true ∨ (valueOf m y).isSome = true := by
  induction r generalizing m with
  | nil => exact ⟨hm, fun y => by simp [valueOf]⟩
  | cons s r ih =>
    obtain ⟨r1, r2⟩ := StdTree.asc_cons.1 hr
    obtain ⟨h1, h2⟩ := flip_total ht ha hm s.1 s.2
    obtain ⟨i1, i2⟩ := ih r2 h1
    refine ⟨i1, fun y => ?_⟩
    rw [List.foldl_cons, i2 y, h2 y]
    by_cases hy : y = s.1
    · subst hy
      have e2 : valueOf (s :: r) s.1 = some s.2 := (valueOf_eq_some hr).2 (List.mem_cons_self ..)
      rw [e2]; simp
    · have e : valueOf (s :: r) y = valueOf r y := by
        unfold valueOf
        rw [List.find?_cons_of_neg]
        simpa using fun e => hy e.symm
      rw [e]; cases valueOf m y <;> simp [hy]

theorem flipMap_total (ht : t.cfg.total = true) (ha : t.cfg.absorbs = false) (hr : Ascending Prod.fst r)
    (hm : Ascending Prod.fst m) :
    Ascending Prod.fst (flipMap t m r) ∧ ∀ y, valueOf (flipMap t m r) y =
      if (valueOf m y).isSome = true ∨ (valueOf r y).isSome = true then some t.cfg.ident else none := by
  unfold flipMap
  simp only [ht, ha, Bool.false_eq_true, if_false, if_true]
  obtain ⟨h1, h2⟩ := flipFold_total ht ha hr hm
  obtain ⟨g1, g2⟩ := valueOf_map (fun _ => t.cfg.ident) h1
  refine ⟨g1, fun y => ?_⟩
  rw [g2]
  have := h2 y
  revert this
  cases valueOf (r.foldl (fun m s => flip t m s.1 s.2) m) y <;> intro this <;>
    simp only [Option.isSome_none, Option.isSome_some, Bool.false_eq_true, false_iff, true_iff] at this
  · rw [if_neg (by tauto)]; rfl
  · rw [if_pos (by tauto)]; rfl

theorem ofRange_asc (l : List (D × V)) : Ascending Prod.fst (ofRange l) := by
  have : ∀ (l m : List (D × V)), Ascending Prod.fst m →
      Ascending Prod.fst (l.foldl (fun m s => (StdTree.insert Prod.fst m s).1) m) := by
    intro l
    induction l with
    | nil => exact fun m hm => hm
    | cons s l ih => exact fun m hm => ih _ (StdTree.insert_spec hm s).1
  exact this l [] StdTree.asc_nil

theorem ofRange_value (l : List (D × V)) (x : D) : valueOf (ofRange l) x = valueOf l x := by
  have : ∀ (l m : List (D × V)), Ascending Prod.fst m →
      valueOf (l.foldl (fun m s => (StdTree.insert Prod.fst m s).1) m) x =
        match valueOf m x with | none => valueOf l x | some v => some v := by
    intro l
    induction l with
    | nil => intro m hm; cases e : valueOf m x <;> simp [valueOf, e] <;> simpa [valueOf] using e
    | cons s l ih =>
      intro m hm
      obtain ⟨h1, h2, -, -⟩ := valueOf_insert hm s.1 s.2
      rw [List.foldl_cons, ih _ h1, h2 x]
      by_cases e : x = s.1
      · subst e
        have e2 : valueOf (s :: l) s.1 = some s.2 := by
          unfold valueOf; rw [List.find?_cons_of_pos (by simp)]; rfl
        rw [e2]
        cases valueOf m s.1 <;> simp
      · have e2 : valueOf (s :: l) x = valueOf l x := by
          unfold valueOf
          rw [List.find?_cons_of_neg]
          simpa using fun h => e h.symm
        rw [e2]; simp [e]
  rw [ofRange, this l [] StdTree.asc_nil]; rfl

end EMap
end ICL
