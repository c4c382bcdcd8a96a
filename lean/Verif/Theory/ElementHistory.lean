import Verif.Model.ElementHistory
import Verif.Theory.ElementOps
import Verif.Theory.MapQuery

/-!
# Sets of elements, histories of containers of elements, equality and order
-/

set_option linter.unusedSectionVars false
set_option linter.unusedSimpArgs false

namespace ICL
open Spec

variable {D V : Type} [LinearOrder D]

namespace ESet
variable {s r sec : List D}

theorem find_eq (hs : Ascending (fun x => x) s) (x : D) : find s x = if x ∈ s then some x else none := by
  apply Option.ext
  intro y
  unfold find
  rw [StdTree.find_eq_some hs]
  split_ifs with h
  · simp only [Option.some.injEq]
    constructor
    · rintro ⟨-, e⟩; exact e.symm
    · rintro rfl; exact ⟨h, rfl⟩
  · simp only [reduceCtorEq, iff_false]
    rintro ⟨h1, rfl⟩; exact h h1

theorem contains_iff (hs : Ascending (fun x => x) s) (x : D) : contains s x = true ↔ x ∈ s := by
  unfold contains; rw [find_eq hs]; split_ifs with h <;> simp [h]

theorem add_spec (hs : Ascending (fun x => x) s) (x : D) :
    Ascending (fun x => x) (add s x) ∧ ∀ y, y ∈ add s x ↔ y ∈ s ∨ y = x := by
  obtain ⟨h1, h2, -, -⟩ := StdTree.insert_spec hs x
  refine ⟨h1, fun y => ?_⟩
  unfold add
  rw [h2]
  by_cases hx : x ∈ s
  · constructor
    · rintro (h | ⟨h, -⟩)
      · exact Or.inl h
      · exact Or.inr h
    · rintro (h | rfl)
      · exact Or.inl h
      · exact Or.inl hx
  · have : ∀ b ∈ s, b ≠ x := fun b hb e => hx (e ▸ hb)
    simp [this]
    tauto

theorem subtract_spec (hs : Ascending (fun x => x) s) (x : D) :
    Ascending (fun x => x) (subtract s x) ∧ ∀ y, y ∈ subtract s x ↔ y ∈ s ∧ y ≠ x :=
  StdTree.erase_spec hs x

theorem flip_spec (hs : Ascending (fun x => x) s) (x : D) :
    Ascending (fun x => x) (flip s x) ∧ ∀ y, y ∈ flip s x ↔ Xor (y ∈ s) (y = x) := by
  obtain ⟨h1, h2, h3, h4⟩ := StdTree.insert_spec hs x
  have e := StdTree.erase_spec hs x
  unfold flip
  revert h1 h2 h3 h4
  rcases StdTree.insert (fun x => x) s x with ⟨s', b⟩
  intro h1 h2 h3 h4
  cases b with
  | true =>
    have h3 := h3.1 rfl
    refine ⟨h1, fun y => ?_⟩
    simp only at h2 ⊢
    rw [h2]
    by_cases hy : y = x
    · subst hy
      have : y ∉ s := fun h => h3 y h rfl
      simp [this, Xor, h3]
      exact h3
    · simp [hy, Xor]
  | false =>
    have h4 : s' = s := h4 rfl
    subst h4
    have h3 : x ∈ s' := by
      by_contra hc
      exact absurd (h3.2 fun b hb e => hc (e ▸ hb)) (by simp)
    refine ⟨e.1, fun y => ?_⟩
    simp only
    rw [e.2]
    by_cases hy : y = x
    · subst hy; simp [Xor, h3]
    · simp [hy, Xor]

theorem addSet_spec (hs : Ascending (fun x => x) s) (r : List D) :
    Ascending (fun x => x) (addSet s r) ∧ ∀ y, y ∈ addSet s r ↔ y ∈ s ∨ y ∈ r := by
  induction r generalizing s with
  | nil => exact ⟨hs, fun y => by simp [addSet]⟩
  | cons x r ih =>
    obtain ⟨h1, h2⟩ := add_spec hs x
    obtain ⟨i1, i2⟩ := ih h1
    refine ⟨i1, fun y => ?_⟩
    have : addSet s (x :: r) = addSet (add s x) r := rfl
    rw [this, i2, h2, List.mem_cons]; tauto

theorem subSet_spec (hs : Ascending (fun x => x) s) (r : List D) :
    Ascending (fun x => x) (subSet s r) ∧ ∀ y, y ∈ subSet s r ↔ y ∈ s ∧ y ∉ r := by
  induction r generalizing s with
  | nil => exact ⟨hs, fun y => by simp [subSet]⟩
  | cons x r ih =>
    obtain ⟨h1, h2⟩ := subtract_spec hs x
    obtain ⟨i1, i2⟩ := ih h1
    refine ⟨i1, fun y => ?_⟩
    have : subSet s (x :: r) = subSet (subtract s x) r := rfl
    rw [this, i2, h2, List.mem_cons]; tauto

theorem flipSet_spec (hs : Ascending (fun x => x) s) (hr : Ascending (fun x => x) r) :
    Ascending (fun x => x) (flipSet s r) ∧ ∀ y, y ∈ flipSet s r ↔ Xor (y ∈ s) (y ∈ r) := by
  induction r generalizing s with
  | nil => exact ⟨hs, fun y => by simp [flipSet, Xor]⟩
  | cons x r ih =>
    obtain ⟨r1, r2⟩ := StdTree.asc_cons.1 hr
    obtain ⟨h1, h2⟩ := flip_spec hs x
    obtain ⟨i1, i2⟩ := ih h1 r2
    refine ⟨i1, fun y => ?_⟩
    have : flipSet s (x :: r) = flipSet (flip s x) r := rfl
    rw [this, i2, h2, List.mem_cons]
    have : y = x → y ∉ r := fun e h => lt_irrefl _ (e ▸ r1 y h)
    unfold Xor; tauto

theorem addInterKey_spec (hs : Ascending (fun x => x) s) (hc : Ascending (fun x => x) sec) (x : D) :
    Ascending (fun x => x) (addInterKey sec s x) ∧
    ∀ y, y ∈ addInterKey sec s x ↔ y ∈ sec ∨ y = x ∧ x ∈ s := by
  unfold addInterKey
  rw [find_eq hs]
  by_cases h : x ∈ s
  · rw [if_pos h]
    obtain ⟨h1, h2⟩ := add_spec hc x
    exact ⟨h1, fun y => by simp only; rw [h2]; simp [h]⟩
  · rw [if_neg h]
    exact ⟨hc, fun y => by simp [h]⟩

theorem andKey_spec (hs : Ascending (fun x => x) s) (x : D) :
    Ascending (fun x => x) (andKey s x) ∧ ∀ y, y ∈ andKey s x ↔ y ∈ s ∧ y = x := by
  obtain ⟨h1, h2⟩ := addInterKey_spec hs (sec := []) StdTree.asc_nil x
  refine ⟨h1, fun y => ?_⟩
  unfold andKey
  rw [h2]
  constructor
  · rintro (h | ⟨rfl, h⟩)
    · cases h
    · exact ⟨h, rfl⟩
  · rintro ⟨h, rfl⟩; exact Or.inr ⟨rfl, h⟩

theorem addInterKeys_spec (hs : Ascending (fun x => x) s) (hc : Ascending (fun x => x) sec) (l : List D) :
    Ascending (fun x => x) (l.foldl (fun sec x => addInterKey sec s x) sec) ∧
    ∀ y, y ∈ l.foldl (fun sec x => addInterKey sec s x) sec ↔ y ∈ sec ∨ y ∈ l ∧ y ∈ s := by
  induction l generalizing sec with
  | nil => exact ⟨hc, fun y => by simp⟩
  | cons x l ih =>
    obtain ⟨h1, h2⟩ := addInterKey_spec hs hc x
    obtain ⟨i1, i2⟩ := ih h1
    refine ⟨i1, fun y => ?_⟩
    rw [List.foldl_cons, i2, h2, List.mem_cons]
    constructor
    · rintro ((h | ⟨rfl, h⟩) | h) <;> tauto
    · rintro (h | ⟨rfl | h, h'⟩) <;> tauto

theorem andSet_spec (hs : Ascending (fun x => x) s) (hr : Ascending (fun x => x) r) :
    Ascending (fun x => x) (andSet s r) ∧ ∀ y, y ∈ andSet s r ↔ y ∈ s ∧ y ∈ r := by
  have hc := StdTree.commonRange_spec hr hs
  unfold andSet
  revert hc
  cases StdTree.commonRange (fun x => x) (fun x => x) r s with
  | none =>
    intro hc
    refine ⟨StdTree.asc_nil, fun y => ?_⟩
    simp only [List.not_mem_nil, false_iff]
    rintro ⟨h1, h2⟩
    exact hc y h2 y h1 rfl
  | some com =>
    rintro ⟨h1, h2, h3⟩
    obtain ⟨g1, g2⟩ := addInterKeys_spec hs (sec := []) StdTree.asc_nil com
    refine ⟨g1, fun y => ?_⟩
    simp only
    rw [g2]
    simp only [List.not_mem_nil, false_or]
    constructor
    · rintro ⟨h, h'⟩; exact ⟨h', h2 y h⟩
    · rintro ⟨h, h'⟩; exact ⟨h3 y h' y h rfl, h⟩

theorem ext (hs : Ascending (fun x => x) s) (hr : Ascending (fun x => x) r) (h : ∀ x, x ∈ s ↔ x ∈ r) : s = r :=
  StdTree.asc_ext hs hr h

end ESet

theorem StdTree.asc_eraseRange {S : Type} {key : S → D} {m : List S} (hm : Ascending key m) (i j : Nat) :
    Ascending key (m.take i ++ m.drop (max i j)) := by
  have : (m.take i ++ m.drop (max i j)).Sublist m := by
    conv_rhs => rw [← List.take_append_drop i m]
    refine List.Sublist.append (List.Sublist.refl _) ?_
    have e : max i j = i + (max i j - i) := by omega
    rw [e, ← List.drop_drop]
    exact List.drop_sublist _ _
  exact List.Pairwise.sublist this hm

theorem ESOp.asc {s : List D} (hs : Ascending (fun x => x) s) (c : ESOp D) : Ascending (fun x => x) (c.run s) := by
  cases c with
  | add x => exact (ESet.add_spec hs x).1
  | subtract x => exact (ESet.subtract_spec hs x).1
  | andKey x => exact (ESet.andKey_spec hs x).1
  | flip x => exact (ESet.flip_spec hs x).1
  | clear => exact StdTree.asc_nil
  | eraseRange i j => exact StdTree.asc_eraseRange hs i j

theorem ESReachable.asc {s : List D} (h : ESReachable s) : Ascending (fun x => x) s := by
  induction h with
  | empty => exact StdTree.asc_nil
  | op c _ ih => exact ESOp.asc ih c
  | op2 c _ _ ih ir =>
    cases c with
    | add => exact (ESet.addSet_spec ih _).1
    | sub => exact (ESet.subSet_spec ih _).1
    | inter => exact (ESet.andSet_spec ih ir).1
    | flip => exact (ESet.flipSet_spec ih ir).1

/-- Every ascending list is a set that a program can produce. -/
theorem ESReachable.of_asc {s : List D} (h : Ascending (fun x => x) s) : ESReachable s := by
  suffices ∀ r : List D, ESReachable (ESet.addSet [] r) by
    have h1 := this s
    obtain ⟨g1, g2⟩ := ESet.addSet_spec (s := []) StdTree.asc_nil s
    rwa [ESet.ext g1 h fun x => by rw [g2]; simp] at h1
  intro r
  have : ∀ (r s : List D), ESReachable s → ESReachable (ESet.addSet s r) := by
    intro r
    induction r with
    | nil => exact fun s hs => hs
    | cons x r ih => exact fun s hs => ih _ (.op (.add x) hs)
  exact this r [] .empty

section
variable [DecidableEq V] {t : MapType V} {m r : List (D × V)}

namespace EMap

theorem andPair_acts (ht : t.cfg.total = false) (hm : Ascending Prod.fst m) (x : D) (v : V) :
    Ascending Prod.fst (andPair t m x v) ∧ ∀ y, valueOf (andPair t m x v) y =
      if y = x then (valueOf m y).bind fun u => sectioned t u v else none := by
  unfold andPair
  simp only [ht, Bool.false_eq_true, if_false]
  obtain ⟨h1, h2⟩ := addInterPair_acts (t := t) ht (sec := []) StdTree.asc_nil hm x v
  refine ⟨h1, fun y => ?_⟩
  rw [h2 y]
  have en : valueOf ([] : List (D × V)) y = none := rfl
  rw [en]
  by_cases e : y = x
  · subst e; simp only [if_true]; cases valueOf m y <;> rfl
  · simp [e]

/-- The values of the intersection of partial maps. -/
theorem andMap_acts (ht : t.cfg.total = false) (hm : Ascending Prod.fst m) (hr : Ascending Prod.fst r) :
    Ascending Prod.fst (andMap t m r) ∧ ∀ y, valueOf (andMap t m r) y =
      (valueOf m y).bind fun u => (valueOf r y).bind fun v => sectioned t u v := by
  unfold andMap
  simp only [ht, Bool.false_eq_true, if_false]
  obtain ⟨h1, h2⟩ := addInterMap_acts (t := t) ht (sec := []) StdTree.asc_nil hm hr
  refine ⟨h1, fun y => ?_⟩
  rw [h2 y]
  have en : valueOf ([] : List (D × V)) y = none := rfl
  rw [en]
  dsimp only
  cases valueOf m y <;> cases valueOf r y <;> rfl

theorem andKey_acts (hm : Ascending Prod.fst m) (x : D) :
    Ascending Prod.fst (andKey t m x) ∧ ∀ y, valueOf (andKey t m x) y =
      if y = x then (valueOf m y).bind fun u => added t u none else none := by
  unfold andKey
  obtain ⟨h1, h2⟩ := addInterKey_acts (t := t) (sec := []) StdTree.asc_nil hm x
  refine ⟨h1, fun y => ?_⟩
  rw [h2 y]
  have en : valueOf ([] : List (D × V)) y = none := rfl
  rw [en]
  by_cases e : y = x
  · subst e; simp only [if_true]; cases valueOf m y <;> rfl
  · simp [e]

theorem flipMap_acts (ht : t.cfg.total = false) (hm : Ascending Prod.fst m) (hr : Ascending Prod.fst r) :
    ActsAll m (flipMap t m r) fun y a => match valueOf r y with | none => a | some v => flippedElem t v a := by
  unfold flipMap
  simp only [ht, Bool.false_eq_true, if_false]
  exact map_acts (fun _ hm x v => flip_acts ht hm x v) hm hr

theorem flip_asc (hm : Ascending Prod.fst m) (x : D) (v : V) : Ascending Prod.fst (flip t m x v) := by
  cases ht : t.cfg.total with
  | false => exact (flip_acts ht hm x v).1
  | true =>
    cases ha : t.cfg.absorbs with
    | false => exact (flip_total ht ha hm x v).1
    | true => unfold flip; simp only [ht, ha, if_true]; exact StdTree.asc_nil

theorem flipMap_asc (hm : Ascending Prod.fst m) (hr : Ascending Prod.fst r) : Ascending Prod.fst (flipMap t m r) := by
  cases ht : t.cfg.total with
  | false => exact (flipMap_acts ht hm hr).1
  | true =>
    cases ha : t.cfg.absorbs with
    | false => exact (flipMap_total ht ha hr hm).1
    | true => unfold flipMap; simp only [ht, ha, if_true]; exact StdTree.asc_nil

theorem andPair_asc (hm : Ascending Prod.fst m) (x : D) (v : V) : Ascending Prod.fst (andPair t m x v) := by
  cases ht : t.cfg.total with
  | false => exact (andPair_acts ht hm x v).1
  | true => unfold andPair; simp only [ht, if_true]; exact (addC_acts t.plus hm x v).1

theorem andMap_asc (hm : Ascending Prod.fst m) (hr : Ascending Prod.fst r) : Ascending Prod.fst (andMap t m r) := by
  cases ht : t.cfg.total with
  | false => exact (andMap_acts ht hm hr).1
  | true => unfold andMap; simp only [ht, if_true]; exact (addMap_acts hm hr).1

end EMap

theorem EOp.asc (hm : Ascending Prod.fst m) (c : EOp D V) (hc : Ascending (fun x => x) c.operand) :
    Ascending Prod.fst (c.run t m) := by
  cases c with
  | add x v => exact (EMap.addC_acts t.plus hm x v).1
  | addHint x v => exact (EMap.addHintC_acts t.plus hm x v).1
  | subtract x v => exact (EMap.subtract_acts hm x v).1
  | insert x v => exact (EMap.insert_acts hm x v).1.1
  | erase x v => exact (EMap.erasePair_acts hm x v).1.1
  | eraseKey x => exact (EMap.eraseKey_acts hm x).1
  | eraseSet r => exact (EMap.eraseSet_acts hm r).1
  | subSet r => exact (EMap.subSet_acts hm hc).1
  | inter x v => exact EMap.andPair_asc hm x v
  | interKey x => exact (EMap.andKey_acts hm x).1
  | interSet r => exact (EMap.andSet_acts hm hc).1
  | flip x v => exact EMap.flip_asc hm x v
  | bracket x v => exact (EMap.bracket_acts hm x v).1
  | clear => exact StdTree.asc_nil
  | eraseRange i j => exact StdTree.asc_eraseRange hm i j

theorem EOp2.asc (hm : Ascending Prod.fst m) (hr : Ascending Prod.fst r) (c : EOp2) :
    Ascending Prod.fst (c.run t m r) := by
  cases c with
  | add => exact (EMap.addMap_acts hm hr).1
  | sub => exact (EMap.subMap_acts hm hr).1
  | insert => exact (EMap.insertMap_acts hm hr).1
  | erase => exact (EMap.eraseMap_acts hm hr).1
  | inter => exact EMap.andMap_asc hm hr
  | flip => exact EMap.flipMap_asc hm hr

theorem EReachable.asc (h : EReachable t m) : Ascending Prod.fst m := by
  induction h with
  | range t l => exact EMap.ofRange_asc l
  | op c _ hc ih => exact EOp.asc ih c hc.asc
  | op2 c _ _ ih ir => exact EOp2.asc ih ir c

theorem EAbsorbing.reachable (h : EAbsorbing t m) : EReachable t m := by
  induction h with
  | empty => exact .range _ []
  | op c _ _ hc ih => exact .op c ih hc
  | op2 c _ hr ih => exact .op2 c ih hr

/-! ## Identity elements -/

theorem noIdentity_valueOf (hm : Ascending Prod.fst m) :
    NoIdentity t m ↔ ∀ x w, valueOf m x = some w → ¬ Ignored t w := by
  constructor
  · intro h x w hw; exact h _ ((valueOf_eq_some hm).1 hw)
  · intro h s hs; exact h s.1 s.2 ((valueOf_eq_some hm).2 hs)

theorem stored_ne {v w : V} (h : stored t v = some w) : ¬ Ignored t w := by
  unfold stored at h
  split_ifs at h with hi
  cases h; exact hi

theorem combined_ne {f : Combiner V} (hf : ∀ v, v ≠ t.cfg.ident → f.version v ≠ t.cfg.ident) {v : V} {a : Option V}
    (ha : ∀ u, a = some u → ¬ Ignored t u) {w : V} (h : combined t f v a = some w) : ¬ Ignored t w := by
  cases a with
  | none =>
    unfold combined at h
    split_ifs at h with hi
    cases h
    rintro ⟨h1, h2⟩
    exact hf v (fun e => hi ⟨h1, e⟩) h2
  | some u =>
    unfold combined at h
    split_ifs at h with hi
    · cases h; exact ha _ rfl
    · exact stored_ne h

theorem subtractedElem_ne (hv : Versions t) {v : V} {a : Option V} (ha : ∀ u, a = some u → ¬ Ignored t u) {w : V}
    (h : subtractedElem t v a = some w) : ¬ Ignored t w := by
  unfold subtractedElem at h
  split_ifs at h with hc
  · exact combined_ne (hv.minus_ne hc.1 hc.2) ha h
  · obtain ⟨u, -, h⟩ := Option.bind_eq_some_iff.1 h
    exact stored_ne h

theorem inserted_ne {v : V} {a : Option V} (ha : ∀ u, a = some u → ¬ Ignored t u) {w : V}
    (h : inserted t v a = some w) : ¬ Ignored t w := by
  cases a with
  | none => exact stored_ne h
  | some u => cases h; exact ha _ rfl

theorem erased_ne {v : V} {a : Option V} (ha : ∀ u, a = some u → ¬ Ignored t u) {w : V}
    (h : erased t v a = some w) : ¬ Ignored t w := by
  cases a with
  | none => cases h
  | some u =>
    have : w = u := by
      unfold erased at h
      split_ifs at h <;> simp_all
    rw [this]; exact ha _ rfl

theorem flippedElem_ne {v : V} {a : Option V} (ha : ∀ u, a = some u → ¬ Ignored t u) {w : V}
    (h : flippedElem t v a = some w) : ¬ Ignored t w := by
  cases a with
  | none => exact stored_ne h
  | some u =>
    unfold flippedElem at h
    split_ifs at h
    · cases h; exact ha _ rfl
    · exact stored_ne h
    · exact stored_ne h

theorem addedHint_ne {v : V} {a : Option V} (ha : ∀ u, a = some u → ¬ Ignored t u) {w : V}
    (h : addedHint t v a = some w) : ¬ Ignored t w := by
  unfold addedHint at h
  split_ifs at h
  · exact ha _ h
  · exact stored_ne h

theorem Acts.noIdentity {m' : List (D × V)} {x : D} {h : Option V → Option V} (p : Acts m m' x h)
    (hm : Ascending Prod.fst m) (hn : NoIdentity t m)
    (hh : ∀ a : Option V, (∀ u, a = some u → ¬ Ignored t u) → ∀ w, h a = some w → ¬ Ignored t w) : NoIdentity t m' := by
  rw [noIdentity_valueOf p.1]
  rw [noIdentity_valueOf hm] at hn
  intro y w hw
  rw [p.2] at hw
  split_ifs at hw
  · exact hh _ (hn y) w hw
  · exact hn y w hw

theorem ActsAll.noIdentity {m' : List (D × V)} {g : V → Option V → Option V}
    (p : ActsAll m m' fun y a => match valueOf r y with | none => a | some v => g v a)
    (hm : Ascending Prod.fst m) (hn : NoIdentity t m)
    (hh : ∀ v (a : Option V), (∀ u, a = some u → ¬ Ignored t u) → ∀ w, g v a = some w → ¬ Ignored t w) :
    NoIdentity t m' := by
  rw [noIdentity_valueOf p.1]
  rw [noIdentity_valueOf hm] at hn
  intro y w hw
  rw [p.2] at hw
  dsimp only at hw
  cases hr : valueOf r y with
  | none => rw [hr] at hw; exact hn y w hw
  | some v => rw [hr] at hw; exact hh _ _ (hn y) w hw

theorem NoIdentity.sublist {m' : List (D × V)} (hn : NoIdentity t m) (h : ∀ s ∈ m', s ∈ m) : NoIdentity t m' :=
  fun s hs => hn s (h s hs)

theorem noIdentity_nil' : NoIdentity t ([] : List (D × V)) := fun _ hs => by cases hs

theorem added_none_ne (hv : Versions t) {u w : V} (h : added t u none = some w) : ¬ Ignored t w :=
  combined_ne hv.plus_ne (fun _ hu => by cases hu) h

theorem EOp.noIdentity (hv : Versions t) (hm : Ascending Prod.fst m) (hn : NoIdentity t m) (c : EOp D V)
    (hb : c.absorbing = true) (hc : Ascending (fun x => x) c.operand) : NoIdentity t (c.run t m) := by
  cases c with
  | add x v => exact (EMap.addC_acts t.plus hm x v).noIdentity hm hn fun a ha w hw => combined_ne hv.plus_ne ha hw
  | addHint x v => exact (EMap.addHintC_acts t.plus hm x v).noIdentity hm hn fun a ha w hw => addedHint_ne ha hw
  | subtract x v => exact (EMap.subtract_acts hm x v).noIdentity hm hn fun a ha w hw => subtractedElem_ne hv ha hw
  | insert x v => exact (EMap.insert_acts hm x v).1.noIdentity hm hn fun a ha w hw => inserted_ne ha hw
  | erase x v => exact (EMap.erasePair_acts hm x v).1.noIdentity hm hn fun a ha w hw => erased_ne ha hw
  | eraseKey x => exact (EMap.eraseKey_acts hm x).noIdentity hm hn fun a ha w hw => by cases hw
  | eraseSet r =>
    obtain ⟨h1, h2⟩ := EMap.eraseSet_acts hm r
    refine (noIdentity_valueOf h1).2 fun y w hw => ?_
    rw [h2 y] at hw
    dsimp only at hw
    split_ifs at hw
    exact (noIdentity_valueOf hm).1 hn y w hw
  | subSet r =>
    obtain ⟨h1, h2⟩ := EMap.subSet_acts hm hc
    refine (noIdentity_valueOf h1).2 fun y w hw => ?_
    rw [h2 y] at hw
    dsimp only at hw
    split_ifs at hw
    exact (noIdentity_valueOf hm).1 hn y w hw
  | inter x v =>
    cases ht : t.cfg.total with
    | false =>
      obtain ⟨h1, h2⟩ := EMap.andPair_acts ht hm x v
      refine (noIdentity_valueOf h1).2 fun y w hw => ?_
      rw [h2 y] at hw
      split_ifs at hw
      obtain ⟨u, -, hw⟩ := Option.bind_eq_some_iff.1 hw
      exact combined_ne hv.sect_ne (fun _ h => added_none_ne hv h) hw
    | true =>
      unfold EOp.run EMap.andPair
      simp only [ht, if_true]
      exact (EMap.addC_acts t.plus hm x v).noIdentity hm hn fun a ha w hw => combined_ne hv.plus_ne ha hw
  | interKey x =>
    obtain ⟨h1, h2⟩ := EMap.andKey_acts (t := t) hm x
    refine (noIdentity_valueOf h1).2 fun y w hw => ?_
    rw [h2 y] at hw
    split_ifs at hw
    obtain ⟨u, -, hw⟩ := Option.bind_eq_some_iff.1 hw
    exact added_none_ne hv hw
  | interSet r =>
    obtain ⟨h1, h2⟩ := EMap.andSet_acts (t := t) hm hc
    refine (noIdentity_valueOf h1).2 fun y w hw => ?_
    rw [h2 y] at hw
    split_ifs at hw
    obtain ⟨u, -, hw⟩ := Option.bind_eq_some_iff.1 hw
    exact added_none_ne hv hw
  | flip x v =>
    cases ht : t.cfg.total with
    | false => exact (EMap.flip_acts ht hm x v).noIdentity hm hn fun a ha w hw => flippedElem_ne ha hw
    | true =>
      cases ha : t.cfg.absorbs with
      | true => unfold EOp.run EMap.flip; simp only [ht, ha, if_true]; exact noIdentity_nil'
      | false => exact fun s _ hs => by have := hs.1; rw [ha] at this; cases this
  | bracket x v => cases hb
  | clear => exact noIdentity_nil'
  | eraseRange i j =>
    refine NoIdentity.sublist hn fun s hs => ?_
    rcases List.mem_append.1 hs with h | h
    · exact List.mem_of_mem_take h
    · exact List.mem_of_mem_drop h

theorem EOp2.noIdentity (hv : Versions t) (hm : Ascending Prod.fst m) (hr : Ascending Prod.fst r)
    (hn : NoIdentity t m) (c : EOp2) : NoIdentity t (c.run t m r) := by
  cases c with
  | add => exact (EMap.addMap_acts hm hr).noIdentity hm hn fun v a ha w hw => addedHint_ne ha hw
  | sub => exact (EMap.subMap_acts hm hr).noIdentity hm hn fun v a ha w hw => subtractedElem_ne hv ha hw
  | insert => exact (EMap.insertMap_acts hm hr).noIdentity hm hn fun v a ha w hw => inserted_ne ha hw
  | erase => exact (EMap.eraseMap_acts hm hr).noIdentity hm hn fun v a ha w hw => erased_ne ha hw
  | inter =>
    cases ht : t.cfg.total with
    | false =>
      obtain ⟨h1, h2⟩ := EMap.andMap_acts ht hm hr
      refine (noIdentity_valueOf h1).2 fun y w hw => ?_
      rw [h2 y] at hw
      obtain ⟨u, -, hw⟩ := Option.bind_eq_some_iff.1 hw
      obtain ⟨v, -, hw⟩ := Option.bind_eq_some_iff.1 hw
      exact combined_ne hv.sect_ne (fun _ h => added_none_ne hv h) hw
    | true =>
      unfold EOp2.run EMap.andMap
      simp only [ht, if_true]
      exact (EMap.addMap_acts hm hr).noIdentity hm hn fun v a ha w hw => addedHint_ne ha hw
  | flip =>
    cases ht : t.cfg.total with
    | false => exact (EMap.flipMap_acts ht hm hr).noIdentity hm hn fun v a ha w hw => flippedElem_ne ha hw
    | true =>
      cases ha : t.cfg.absorbs with
      | true => unfold EOp2.run EMap.flipMap; simp only [ht, ha, if_true]; exact noIdentity_nil'
      | false => exact fun s _ hs => by have := hs.1; rw [ha] at this; cases this

theorem EAbsorbing.noIdentity (h : EAbsorbing t m) (hv : Versions t) : NoIdentity t m := by
  induction h with
  | empty => exact noIdentity_nil'
  | op c hb h hc ih => exact EOp.noIdentity hv h.reachable.asc ih c hb hc.asc
  | op2 c h hr ih => exact EOp2.noIdentity hv h.reachable.asc hr.asc ih c

end

/-! ## Equality, order, distinct equality -/

theorem zip_all_eq {S : Type} [DecidableEq S] (l r : List S) :
    (decide (l.length = r.length) && (l.zip r).all fun p => decide (p.1 = p.2)) = true ↔ l = r := by
  induction l generalizing r with
  | nil => cases r <;> simp
  | cons s l ih =>
    cases r with
    | nil => simp
    | cons s' r =>
      have := ih r
      simp only [Bool.and_eq_true, decide_eq_true_eq, List.zip_cons_cons, List.all_cons, List.length_cons,
        Nat.add_right_cancel_iff, List.cons.injEq] at this ⊢
      rw [← this]; tauto

section
variable [DecidableEq V] {t : MapType V}

theorem nextProton_filter (l : List (D × V)) :
    (EMap.nextProton t l).filter (fun s => decide (s.2 ≠ t.cfg.ident)) = l.filter fun s => decide (s.2 ≠ t.cfg.ident) := by
  unfold EMap.nextProton
  induction l with
  | nil => rfl
  | cons s l ih =>
    by_cases h : s.2 = t.cfg.ident
    · rw [List.dropWhile_cons_of_pos (by simpa using h), ih, List.filter_cons_of_neg (by simpa using h)]
    · rw [List.dropWhile_cons_of_neg (by simpa using h)]

theorem nextProton_head (l : List (D × V)) : ∀ s l', EMap.nextProton t l = s :: l' → s.2 ≠ t.cfg.ident := by
  intro s l' h
  unfold EMap.nextProton at h
  have := List.head_dropWhile_not (l := l) (fun s : D × V => decide (s.2 = t.cfg.ident)) (by rw [h]; simp)
  simp only [h, List.head_cons] at this
  simpa using this

theorem nextProton_length (l : List (D × V)) : (EMap.nextProton t l).length ≤ l.length :=
  (List.dropWhile_sublist _).length_le

theorem distinctLoop_iff (n : Nat) (l r : List (D × V))
    (hl : ∀ s l', l = s :: l' → s.2 ≠ t.cfg.ident) (hr : ∀ s l', r = s :: l' → s.2 ≠ t.cfg.ident)
    (hn : l.length + r.length ≤ n) :
    EMap.distinctLoop t n l r = true ↔
      l.filter (fun s => decide (s.2 ≠ t.cfg.ident)) = r.filter fun s => decide (s.2 ≠ t.cfg.ident) := by
  induction n generalizing l r with
  | zero =>
    have h1 : l = [] := List.length_eq_zero_iff.1 (by omega)
    have h2 : r = [] := List.length_eq_zero_iff.1 (by omega)
    subst h1 h2; simp [EMap.distinctLoop]
  | succ n ih =>
    cases l with
    | nil =>
      cases r with
      | nil => simp [EMap.distinctLoop]
      | cons s' r => have := hr _ _ rfl; simp [EMap.distinctLoop, this]
    | cons s l =>
      have h1 := hl _ _ rfl
      cases r with
      | nil => simp [EMap.distinctLoop, h1]
      | cons s' r =>
        have h2 := hr _ _ rfl
        rw [List.filter_cons_of_pos (by simpa using h1), List.filter_cons_of_pos (by simpa using h2), List.cons.injEq]
        unfold EMap.distinctLoop
        have e : s = s' ↔ s.1 = s'.1 ∧ s.2 = s'.2 := Prod.ext_iff
        have l1 := nextProton_length (t := t) l
        have l2 := nextProton_length (t := t) r
        simp only [List.length_cons] at hn
        split_ifs with hc
        · rw [ih _ _ (nextProton_head l) (nextProton_head r) (by omega), nextProton_filter, nextProton_filter, e]
          simp [hc]
        · rw [e]; simp [hc]

theorem isDistinctEqual_iff {l r : List (D × V)} (hl : Ascending Prod.fst l) (hr : Ascending Prod.fst r) :
    EMap.isDistinctEqual t l r = true ↔
      ∀ x v, v ≠ t.cfg.ident → (valueOf l x = some v ↔ valueOf r x = some v) := by
  unfold EMap.isDistinctEqual
  have l1 := nextProton_length (t := t) l
  have l2 := nextProton_length (t := t) r
  rw [distinctLoop_iff _ _ _ (nextProton_head l) (nextProton_head r) (by omega), nextProton_filter, nextProton_filter]
  constructor
  · intro h x v hv
    rw [valueOf_eq_some hl, valueOf_eq_some hr]
    have := congrArg ((x, v) ∈ ·) h
    simpa [List.mem_filter, hv] using this
  · intro h
    refine StdTree.asc_ext (List.Pairwise.sublist (List.filter_sublist) hl) (List.Pairwise.sublist (List.filter_sublist) hr) ?_
    rintro ⟨x, v⟩
    simp only [List.mem_filter, decide_eq_true_eq]
    constructor
    · rintro ⟨h1, h2⟩
      exact ⟨(valueOf_eq_some hr).1 ((h x v h2).1 ((valueOf_eq_some hl).2 h1)), h2⟩
    · rintro ⟨h1, h2⟩
      exact ⟨(valueOf_eq_some hl).1 ((h x v h2).2 ((valueOf_eq_some hr).2 h1)), h2⟩

end
end ICL
