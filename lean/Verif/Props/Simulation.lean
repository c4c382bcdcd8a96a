import Verif.SimSpec
import Verif.Props.MapOps
import Verif.Props.ElementMap
import Verif.Props.Observers
import Verif.Props.Compare
import Verif.Props.MapLaws

/-!
# C34: interval containers behave as containers of elements
-/

set_option linter.unusedSectionVars false
set_option linter.unusedVariables false

namespace ICL.Props
open Spec

variable {D I V : Type} [LinearOrder D] {o : IntervalOps D I} [DecidableEq V] [DecidableEq I]

/-! ## Lemmas -/

theorem mapRep_iff {m : List (I × V)} {e : List (D × V)} :
    MapRep o m e ↔ MapWellFormed o m ∧ Ascending Prod.fst e ∧ ∀ x, valueAt o m x = valueOf e x := by
  unfold MapRep
  refine and_congr_right fun hm => and_congr_right fun he => ?_
  simp only [← valueAt_assoc hm, ← valueOf_eq_some he]
  exact ⟨fun h x => Option.ext fun v => h x v, fun h x v => by rw [h x]⟩

theorem in_iff {k : I} {xs : List D} (hx : ElementsOf o k xs) (x : D) : In o x k ↔ x ∈ xs := (hx.2 x).symm

theorem setRep_asc {s : List I} {e : List D} (h : SetRep o s e) : Ascending (fun x => x) e := h.2.1

theorem setRep_iff {s : List I} {e : List D} :
    SetRep o s e ↔ WellFormed o s ∧ Ascending (fun x => x) e ∧ ∀ x, x ∈ e ↔ Elem o s x := Iff.rfl

theorem rep_noIdentity {t : MapType V} {m : List (I × V)} {e : List (D × V)} (r : MapRep o m e)
    (hn : NoIdentity t m) (x : D) (v : V) (hv : valueOf e x = some v) : ¬ Ignored t v := by
  have h := (mapRep_iff.1 r).2.2 x
  rw [hv] at h
  obtain ⟨s, hs, -, rfl⟩ := (valueAt_assoc r.1 x v).1 h
  exact hn s hs

/-- A loop over elements, each round of which acts on one key. -/
theorem fold_acts {g : List (D × V) → D → List (D × V)} {f : Option V → Option V}
    (hg : ∀ m, Ascending Prod.fst m → ∀ x, Acts m (g m x) x f) {xs : List D} (hx : xs.Pairwise (· < ·))
    {e : List (D × V)} (he : Ascending Prod.fst e) :
    ActsAll e (xs.foldl g e) fun y a => if y ∈ xs then f a else a := by
  induction xs generalizing e with
  | nil => exact ⟨he, fun y => by simp⟩
  | cons x xs ih =>
    obtain ⟨h1, h2⟩ := List.pairwise_cons.1 hx
    have h3 := hg e he x
    obtain ⟨i1, i2⟩ := ih h2 h3.1
    refine ⟨i1, fun y => ?_⟩
    rw [List.foldl_cons, i2 y, h3.2 y]
    by_cases hy : y = x
    · subst hy
      have : y ∉ xs := fun h => lt_irrefl _ (h1 y h)
      simp [this]
    · simp [hy]

/-- One step of the simulation: an operation on the segment of the keys in `k`. -/
theorem rep_step {m' : List (I × V)} {m : List (I × V)} {e e' : List (D × V)} {k : I} {xs : List D}
    {f : Option V → Option V} {f' : Option V → Option V} (r : MapRep o m e) (hx : ElementsOf o k xs) (hw : MapWellFormed o m')
    (h1 : ∀ x, In o x k → valueAt o m' x = f (valueAt o m x)) (h2 : ∀ x, ¬ In o x k → valueAt o m' x = valueAt o m x)
    (ha : ActsAll e e' fun y a => if y ∈ xs then f' a else a) (hf : ∀ x, f (valueOf e x) = f' (valueOf e x)) :
    MapRep o m' e' := by
  obtain ⟨-, -, hv⟩ := mapRep_iff.1 r
  refine mapRep_iff.2 ⟨hw, ha.1, fun x => ?_⟩
  rw [ha.2 x]
  dsimp only
  by_cases hk : In o x k
  · rw [h1 x hk, hv, if_pos ((hx.2 x).2 hk), hf]
  · rw [h2 x hk, hv, if_neg fun h => hk ((hx.2 x).1 h)]

/-- One step of the simulation: an operation with a map as operand. -/
theorem rep_step2 {m' m n : List (I × V)} {e e' f : List (D × V)} {g g' : V → Option V → Option V}
    (r : MapRep o m e) (rn : MapRep o n f) (hw : MapWellFormed o m')
    (h1 : ∀ x v, valueAt o n x = some v → valueAt o m' x = g v (valueAt o m x))
    (h2 : ∀ x, valueAt o n x = none → valueAt o m' x = valueAt o m x)
    (ha : ActsAll e e' fun y a => match valueOf f y with | none => a | some v => g' v a)
    (hg : ∀ x v, valueOf f x = some v → g v (valueOf e x) = g' v (valueOf e x)) : MapRep o m' e' := by
  obtain ⟨-, -, hv⟩ := mapRep_iff.1 r
  obtain ⟨-, -, hv'⟩ := mapRep_iff.1 rn
  refine mapRep_iff.2 ⟨hw, ha.1, fun x => ?_⟩
  rw [ha.2 x]
  have e1 := hv' x
  revert e1
  cases hf : valueOf f x with
  | none => intro e1; simp only [hf]; rw [h2 x e1, hv]
  | some v => intro e1; simp only [hf]; rw [h1 x v e1, hv, hg x v hf]

theorem subtracted_elem {t : MapType V} (hF : Faithful t) (v : V) {a : Option V} (ha : ∀ u, a = some u → ¬ Ignored t u) :
    subtracted t v a = subtractedElem t v a := by
  unfold subtractedElem
  by_cases hc : t.cfg.total = true ∧ t.invertible = true
  · rw [if_pos hc]
    cases a with
    | none => simp [subtracted, hc]
    | some u => rfl
  · rw [if_neg hc]
    cases a with
    | none => simp [subtracted, hc]
    | some u =>
      simp only [subtracted, combined, Option.bind_some]
      by_cases hi : Ignored t v
      · rw [if_pos hi, hi.2, hF.minus_ident, stored, if_neg (ha u rfl)]
      · rw [if_neg hi]

theorem added_none {t : MapType V} (hF : Faithful t) (v : V) : added t v none = stored t v := by
  simp only [added, combined, stored, hF.version]

theorem added_bind {t : MapType V} (hF : Faithful t) {a : Option V} (ha : ∀ u, a = some u → ¬ Ignored t u) :
    (a.bind fun u => added t u none) = a := by
  cases a with
  | none => rfl
  | some u => simp [added_none hF, stored, ha u rfl]

theorem flipped_elem {t : MapType V} (hF : Faithful t) {v : V} (hv : ¬ Ignored t v) (u : V) :
    flipped t u v = flippedElem t v (some u) := by
  simp only [flipped, flippedElem, if_neg hv, stored, hF.version]
  by_cases hs : t.setLike = true
  · simp only [hs, if_true, hF.unsect_comm hs v u]
  · simp only [hs]; rfl

theorem valueOf_pairs {xs : List D} (v : V) (y : D) :
    valueOf (xs.map fun x => (x, v)) y = if y ∈ xs then some v else none := by
  induction xs with
  | nil => rfl
  | cons x xs ih =>
    unfold valueOf at *
    by_cases e : x = y
    · subst e; simp
    · have e' : ¬ y = x := fun h => e h.symm
      simp only [List.map_cons, List.mem_cons, e', false_or]
      rw [List.find?_cons_of_neg (by simpa using e)]
      exact ih

theorem asc_pairs {xs : List D} (hx : xs.Pairwise (· < ·)) (v : V) : Ascending Prod.fst (xs.map fun x => (x, v)) := by
  unfold Ascending; rw [List.pairwise_map]; exact hx

theorem mapRep_nil : MapRep o ([] : List (I × V)) [] := mapRep_iff.2 ⟨mapWellFormed_iff.2 wf_nil, .nil, fun _ => rfl⟩

/-- The elements of a right-open interval. -/
theorem elementsOf_r (a b : ℤ) (xs : List ℤ) (hb : a ≤ b)
    (h : xs = (List.range (b - a).toNat).map fun k : Nat => a + (k : ℤ)) :
    ElementsOf Ex.ro (Ex.r a b) xs := by
  subst h
  refine ⟨?_, fun x => ?_⟩
  · rw [List.pairwise_map]
    exact List.pairwise_lt_range.imp fun h => by omega
  · simp only [List.mem_map, List.mem_range, In, rightOpenOps, Bool.and_eq_true, decide_eq_true_eq]
    constructor
    · rintro ⟨k, hk, rfl⟩; omega
    · intro hx; exact ⟨(x - a).toNat, by omega, by omega⟩

theorem setClass_none (h : IntervalClass o) : SetClass o none := ⟨h, fun e he => by cases he⟩

/-! ## Operations on sets

`xs` are the elements of the interval `k`. -/

section
variable {s r : List I} {e f : List D} {k : I} {xs : List D}

/-- `s.add(k)` and `e.insert(x)` for all `x` in `k` -/
theorem C34_set_add (h : IntervalClass o) (st : Style) (hs : SetRep o s e) (hx : ElementsOf o k xs) :
    ∃ s', ISet.add o st s k = some s' ∧ SetRep o s' (xs.foldl ESet.add e) := by
  obtain ⟨s', h1, h2, h3⟩ := C08_add h st hs.1 k
  obtain ⟨g1, g2⟩ := ESet.addSet_spec (setRep_asc hs) xs
  refine ⟨s', h1, h2, g1, fun y => ?_⟩
  rw [h3, ← hs.2.2, in_iff hx]; exact g2 y

/-- `s.subtract(k)` and `e.erase(x)` for all `x` in `k` -/
theorem C34_set_subtract (h : IntervalClass o) (hs : SetRep o s e) (hx : ElementsOf o k xs) :
    ∃ s', ISet.subtract o s k = some s' ∧ SetRep o s' (xs.foldl ESet.subtract e) := by
  obtain ⟨s', h1, h2, h3⟩ := C09_subtract h hs.1 k
  obtain ⟨g1, g2⟩ := ESet.subSet_spec (setRep_asc hs) xs
  refine ⟨s', h1, h2, g1, fun y => ?_⟩
  rw [h3, ← hs.2.2, in_iff hx]; exact g2 y

/-- `s.flip(k)` and `flip(e, x)` for all `x` in `k`, if `k` is not empty -/
theorem C34_set_flip (h : IntervalClass o) (st : Style) (hs : SetRep o s e) (hx : ElementsOf o k xs) (hk : xs ≠ []) :
    ∃ s', ISet.flipSeg o st s k = some s' ∧ SetRep o s' (xs.foldl ESet.flip e) := by
  have hk' : o.isEmpty k = false := by
    rw [Bool.eq_false_iff]
    intro he
    obtain ⟨x, hx'⟩ := List.exists_mem_of_ne_nil xs hk
    exact (h.lawful.isEmpty_iff k).1 he x ((hx.2 x).1 hx')
  obtain ⟨s', h1, h2, h3⟩ := C11_flip h st hs.1 k hk'
  obtain ⟨g1, g2⟩ := ESet.flipSet_spec (setRep_asc hs) hx.1
  refine ⟨s', h1, h2, g1, fun y => ?_⟩
  rw [h3, ← hs.2.2, in_iff hx]; exact g2 y

/-- `s &= k` and `e &= { x | x in k }` -/
theorem C34_set_intersect_interval (h : IntervalClass o) (st : Style) (oracle : List I → I → Nat) (hs : SetRep o s e)
    (hx : ElementsOf o k xs) :
    ∃ s', ISet.interSeg o st oracle s k = some s' ∧ SetRep o s' (ESet.andSet e xs) := by
  obtain ⟨s', h1, h2, h3⟩ := C10_intersection_interval h st oracle hs.1 k
  obtain ⟨g1, g2⟩ := ESet.andSet_spec (setRep_asc hs) hx.1
  refine ⟨s', h1, h2, g1, fun y => ?_⟩
  rw [h3, ← hs.2.2, in_iff hx]; exact g2 y

/-- `s += r` -/
theorem C34_set_union (h : IntervalClass o) (st : Style) (oracle : List I → I → Nat) (hs : SetRep o s e)
    (hr : SetRep o r f) : ∃ s', ISet.addSet o st oracle s r = some s' ∧ SetRep o s' (ESet.addSet e f) := by
  obtain ⟨s', h1, h2, h3⟩ := C08_union h st oracle hs.1 hr.1
  obtain ⟨g1, g2⟩ := ESet.addSet_spec (setRep_asc hs) f
  refine ⟨s', h1, h2, g1, fun y => ?_⟩
  rw [h3, ← hs.2.2, ← hr.2.2]; exact g2 y

/-- `s -= r` -/
theorem C34_set_difference (h : IntervalClass o) (hs : SetRep o s e) (hr : SetRep o r f) :
    ∃ s', ISet.subSet o s r = some s' ∧ SetRep o s' (ESet.subSet e f) := by
  obtain ⟨s', h1, h2, h3⟩ := C09_difference h hs.1 hr.1
  obtain ⟨g1, g2⟩ := ESet.subSet_spec (setRep_asc hs) f
  refine ⟨s', h1, h2, g1, fun y => ?_⟩
  rw [h3, ← hs.2.2, ← hr.2.2]; exact g2 y

/-- `s &= r` -/
theorem C34_set_intersection (h : IntervalClass o) (st : Style) (oracle : List I → I → Nat) (hs : SetRep o s e)
    (hr : SetRep o r f) : ∃ s', ISet.interSet o st oracle s r = some s' ∧ SetRep o s' (ESet.andSet e f) := by
  obtain ⟨s', h1, h2, h3⟩ := C10_intersection h st oracle hs.1 hr.1
  obtain ⟨g1, g2⟩ := ESet.andSet_spec (setRep_asc hs) (setRep_asc hr)
  refine ⟨s', h1, h2, g1, fun y => ?_⟩
  rw [h3, ← hs.2.2, ← hr.2.2]; exact g2 y

/-- `s ^= r` -/
theorem C34_set_symmetric_difference (h : IntervalClass o) (st : Style) (oracle : List I → I → Nat) (hs : SetRep o s e)
    (hr : SetRep o r f) : ∃ s', ISet.flipSet o st oracle s r = some s' ∧ SetRep o s' (ESet.flipSet e f) := by
  obtain ⟨s', h1, h2, h3⟩ := C11_symmetric_difference h st oracle hs.1 hr.1
  obtain ⟨g1, g2⟩ := ESet.flipSet_spec (setRep_asc hs) (setRep_asc hr)
  refine ⟨s', h1, h2, g1, fun y => ?_⟩
  rw [h3, ← hs.2.2, ← hr.2.2]; exact g2 y

/-- The same program on interval sets and on sets of elements: the results have the same elements. -/
theorem C34_sets (h : IntervalClass o) {st : Style} (hp : SetPrograms o st s e) : SetRep o s e := by
  induction hp with
  | empty => exact ⟨wellFormed_iff.2 wf_nil, .nil, fun x => by simp [Elem]⟩
  | add k xs _ hx hr ih => obtain ⟨_, h1, h2⟩ := C34_set_add h st ih hx; rw [hr] at h1; cases h1; exact h2
  | subtract k xs _ hx hr ih => obtain ⟨_, h1, h2⟩ := C34_set_subtract h ih hx; rw [hr] at h1; cases h1; exact h2
  | @flip s s' e k xs _ hx hr ih =>
    by_cases hk : xs = []
    · subst hk
      have he : o.isEmpty k = true := (h.lawful.isEmpty_iff k).2 fun x hx' => (List.not_mem_nil ((hx.2 x).2 hx')).elim
      rw [C11_flip_empty h st s k he] at hr
      split_ifs at hr with hs
      cases hr; rw [← hs]; exact ih
    · obtain ⟨_, h1, h2⟩ := C34_set_flip h st ih hx hk; rw [hr] at h1; cases h1; exact h2
  | inter oracle k xs _ hx hr ih =>
    obtain ⟨_, h1, h2⟩ := C34_set_intersect_interval h st oracle ih hx; rw [hr] at h1; cases h1; exact h2
  | addSet oracle _ _ hr i1 i2 =>
    obtain ⟨_, h1, h2⟩ := C34_set_union h st oracle i1 i2; rw [hr] at h1; cases h1; exact h2
  | subSet _ _ hr i1 i2 => obtain ⟨_, h1, h2⟩ := C34_set_difference h i1 i2; rw [hr] at h1; cases h1; exact h2
  | interSet oracle _ _ hr i1 i2 =>
    obtain ⟨_, h1, h2⟩ := C34_set_intersection h st oracle i1 i2; rw [hr] at h1; cases h1; exact h2
  | flipSet oracle _ _ hr i1 i2 =>
    obtain ⟨_, h1, h2⟩ := C34_set_symmetric_difference h st oracle i1 i2; rw [hr] at h1; cases h1; exact h2

end

/-! ## Operations on maps -/

section
variable {t : MapType V} {m n : List (I × V)} {e f : List (D × V)} {k : I} {v : V} {xs : List D}

/-- `m.add({k, v})` and `e.add({x, v})` for all `x` in `k` -/
theorem C34_add (h : IntervalClass o) (t : MapType V) (r : MapRep o m e) (hx : ElementsOf o k xs) (v : V) :
    ∃ m', IMap.addSeg o t m k v = some m' ∧ MapRep o m' (xs.foldl (fun e x => EMap.add t e x v) e) := by
  obtain ⟨m', h1, h2, h3, h4⟩ := C18_add h t r.1 k v
  exact ⟨m', h1, rep_step r hx h2 h3 h4 (fold_acts (fun _ hm x => EMap.addC_acts t.plus hm x v) hx.1 r.2.1)
    fun _ => rfl⟩

/-- `m.subtract({k, v})` and `e.subtract({x, v})` for all `x` in `k` -/
theorem C34_subtract (h : IntervalClass o) (hF : Faithful t) (r : MapRep o m e) (hn : NoIdentity t m)
    (hx : ElementsOf o k xs) (v : V) :
    ∃ m', IMap.subSeg o t m k v = some m' ∧ MapRep o m' (xs.foldl (fun e x => EMap.subtract t e x v) e) := by
  obtain ⟨m', h1, h2, h3, h4⟩ := C19_subtract h t r.1 k v
  exact ⟨m', h1, rep_step r hx h2 h3 h4 (fold_acts (fun _ hm x => EMap.subtract_acts hm x v) hx.1 r.2.1)
    fun x => subtracted_elem hF v fun u hu => rep_noIdentity r hn x u hu⟩

/-- `m.insert({k, v})` and `e.insert({x, v})` for all `x` in `k` -/
theorem C34_insert (h : IntervalClass o) (t : MapType V) (r : MapRep o m e) (hx : ElementsOf o k xs) (v : V) :
    ∃ m', IMap.insert o t.cfg m k v = some m' ∧
      MapRep o m' (xs.foldl (fun e x => (EMap.insert t e x v).1) e) := by
  obtain ⟨m', h1, h2, h3, h3', h4⟩ := C20_insert h t r.1 k v
  refine ⟨m', h1, rep_step r hx h2 (f := inserted t v) (fun x hk => ?_) h4
    (fold_acts (fun _ hm x => (EMap.insert_acts hm x v).1) hx.1 r.2.1) fun _ => rfl⟩
  cases hv : valueAt o m x with
  | none => exact h3' x hk hv
  | some u => exact h3 x u hv

/-- `m.set({k, v})` and `e[x] = v` for all `x` in `k`, if the maps do not absorb `v` -/
theorem C34_set (h : IntervalClass o) (t : MapType V) (r : MapRep o m e) (hx : ElementsOf o k xs) {v : V}
    (hv : ¬ Ignored t v) :
    ∃ m', IMap.setAt o t.cfg m k v = some m' ∧ MapRep o m' (xs.foldl (fun e x => EMap.bracket t e x v) e) := by
  obtain ⟨m', h1, h2, h3, h4⟩ := C20_set h t r.1 k v
  exact ⟨m', h1, rep_step r hx h2 (f := fun _ => stored t v) h3 h4
    (fold_acts (fun _ hm x => EMap.bracket_acts hm x v) hx.1 r.2.1) fun _ => by simp [stored, hv]⟩

/-- `m.erase({k, v})` and `e.erase({x, v})` for all `x` in `k` -/
theorem C34_erase (h : IntervalClass o) (t : MapType V) (r : MapRep o m e) (hx : ElementsOf o k xs) (v : V) :
    ∃ m', IMap.eraseSeg o t.cfg m k v = some m' ∧
      MapRep o m' (xs.foldl (fun e x => (EMap.erasePair t e x v).1) e) := by
  obtain ⟨m', h1, h2, h3, h4⟩ := C21_erase_segment h t r.1 k v
  classical
  have key : ∀ x, valueAt o m' x = if In o x k then erased t v (valueAt o m x) else valueAt o m x := by
    intro x
    by_cases hv : Ignored t v
    · rw [h3 hv]; cases valueAt o m x <;> simp [erased, hv]
    · apply Option.ext
      intro w
      rw [valueAt_assoc h2, h4 hv, ← valueAt_assoc r.1]
      by_cases hk : In o x k
      · rw [if_pos hk]
        cases valueAt o m x with
        | none => simp [erased]
        | some u =>
          simp only [erased, if_neg hv, Option.some.injEq, hk, true_and]
          by_cases hu : u = v
          · simp only [hu, if_true, reduceCtorEq, iff_false]; rintro ⟨rfl, h⟩; exact h rfl
          · simp only [hu, if_false, Option.some.injEq]
            exact ⟨fun h => h.1, fun h => ⟨h, fun hw => hu (h.trans hw)⟩⟩
      · simp [hk]
  exact ⟨m', h1, rep_step r hx h2 (fun x hk => by rw [key, if_pos hk]) (fun x hk => by rw [key, if_neg hk])
    (fold_acts (fun _ hm x => (EMap.erasePair_acts hm x v).1) hx.1 r.2.1) fun _ => rfl⟩

/-- `m.erase(k)` and `e.erase(x)` for all `x` in `k` -/
theorem C34_erase_keys (h : IntervalClass o) (r : MapRep o m e) (hx : ElementsOf o k xs) :
    ∃ m', IMap.eraseItv o m k = some m' ∧ MapRep o m' (xs.foldl EMap.eraseKey e) := by
  obtain ⟨m', h1, h2, h3⟩ := C21_erase_interval h r.1 k
  classical
  have key : ∀ x, valueAt o m' x = if In o x k then none else valueAt o m x := by
    intro x
    apply Option.ext
    intro w
    rw [valueAt_assoc h2, h3, ← valueAt_assoc r.1]
    by_cases hk : In o x k <;> simp [hk]
  exact ⟨m', h1, rep_step r hx h2 (f := fun _ => none) (fun x hk => by rw [key, if_pos hk])
    (fun x hk => by rw [key, if_neg hk]) (fold_acts (fun _ hm x => EMap.eraseKey_acts hm x) hx.1 r.2.1) fun _ => rfl⟩

/-- `m.flip({k, v})` and `e.flip({x, v})` for all `x` in `k`, if `k` is not empty and the maps do not absorb `v` -/
theorem C34_flip (h : IntervalClass o) (hF : Faithful t) (oracle : List (I × V) → I → Nat) (r : MapRep o m e)
    (hn : NoIdentity t m) (hx : ElementsOf o k xs) (hk : xs ≠ []) (hv : ¬ Ignored t v) :
    ∃ m', IMap.flipSeg o t oracle m k v = some m' ∧ MapRep o m' (xs.foldl (fun e x => EMap.flip t e x v) e) := by
  cases ht : t.cfg.total with
  | false =>
    obtain ⟨y, hy⟩ := List.exists_mem_of_ne_nil xs hk
    obtain ⟨m', h1, h2, h3, h3', h4⟩ := C23_flip_segment h hF.toNeutral ht oracle r.1 hn k ⟨y, (hx.2 y).1 hy⟩ v
    refine ⟨m', h1, rep_step r hx h2 (f := flippedElem t v) (fun x hk => ?_) h4
      (fold_acts (fun _ hm x => EMap.flip_acts ht hm x v) hx.1 r.2.1) fun _ => rfl⟩
    cases hv' : valueAt o m x with
    | none => rw [h3 x hk hv', added_none hF]; rfl
    | some u => rw [h3' x u hk hv', flipped_elem hF hv]
  | true =>
    obtain ⟨m', h1, h2, h3, h4⟩ := C23_flip_segment_total h hF.toNeutral ht oracle r.1 k v
    refine ⟨m', h1, ?_⟩
    cases ha : t.cfg.absorbs with
    | true =>
      have : xs.foldl (fun e x => EMap.flip t e x v) e = [] := by
        have hf : ∀ (e : List (D × V)) x, EMap.flip t e x v = [] := fun e x => by simp [EMap.flip, ht, ha]
        rcases List.eq_nil_or_concat xs with h0 | ⟨l, x, rfl⟩
        · exact (hk h0).elim
        · rw [List.concat_eq_append, List.foldl_append]; exact hf _ _
      rw [this, h3 ha]
      exact mapRep_iff.2 ⟨h3 ha ▸ h2, .nil, fun x => rfl⟩
    | false =>
      obtain ⟨g1, g2⟩ := EMap.flipFold_total ht ha (asc_pairs hx.1 v) r.2.1
      rw [List.foldl_map] at g1 g2
      have h5 : ∀ (xs : List D) (e : List (D × V)), xs ≠ [] → Ascending Prod.fst e → ∀ y w,
          valueOf (xs.foldl (fun e x => EMap.flip t e x v) e) y = some w → w = t.cfg.ident := by
        intro xs
        induction xs with
        | nil => exact fun e h => (h rfl).elim
        | cons x xs ih =>
          intro e _ he y w hw
          obtain ⟨q1, q2⟩ := EMap.flip_total ht ha he x v
          cases xs with
          | nil =>
            simp only [List.foldl_cons, List.foldl_nil, q2 y] at hw
            split_ifs at hw; exact (Option.some.inj hw).symm
          | cons x' xs => exact ih _ (by simp) q1 y w hw
      refine mapRep_iff.2 ⟨h2, g1, fun x => Option.ext fun w => ?_⟩
      have g3 : (valueOf (xs.foldl (fun e x => EMap.flip t e x v) e) x).isSome = true ↔ _ := g2 x
      have hkx : Key o m x ↔ (valueOf e x).isSome = true := by
        rw [← valueAt_key r.1, (mapRep_iff.1 r).2.2]; cases valueOf e x <;> simp
      rw [valueAt_assoc h2, h4 ha, hkx, in_iff hx]
      rw [valueOf_pairs] at g3
      have g4 := h5 xs e hk r.2.1 x
      clear * - g3 g4
      generalize valueOf (xs.foldl (fun e x => EMap.flip t e x v) e) x = a at g3 g4 ⊢
      cases a with
      | none => by_cases hxs : x ∈ xs <;> simp_all
      | some u =>
        have hu : u = t.cfg.ident := g4 u rfl
        subst hu
        have : x ∈ xs ∨ (valueOf e x).isSome = true := by
          by_cases hxs : x ∈ xs
          · exact .inl hxs
          · simpa [hxs] using g3.1 rfl
        rw [Option.some.injEq]
        exact ⟨fun h => h.1.symm, fun h => ⟨h.symm, this.symm⟩⟩

/-- `m &= {k, v}` and `e &= { (x, v) | x in k }` -/
theorem C34_intersect_segment (h : IntervalClass o) (hF : Faithful t) (oracle : List (I × V) → I → Nat)
    (r : MapRep o m e) (hn : NoIdentity t m) (hx : ElementsOf o k xs) (v : V) :
    ∃ m', IMap.addInterSeg o t oracle [] m k v = some m' ∧
      MapRep o m' (EMap.andMap t e (xs.map fun x => (x, v))) := by
  have hv := (mapRep_iff.1 r).2.2
  cases ht : t.cfg.total with
  | false =>
    obtain ⟨m', h1, h2, h3, h4⟩ := C23_intersect_segment h hF.toVersions ht oracle r.1 k v
    obtain ⟨g1, g2⟩ := EMap.andMap_acts ht r.2.1 (asc_pairs hx.1 v)
    refine ⟨m', h1, mapRep_iff.2 ⟨h2, g1, fun x => ?_⟩⟩
    rw [g2, valueOf_pairs]
    by_cases hk : In o x k
    · rw [h3 x hk, hv, if_pos ((hx.2 x).2 hk)]; rfl
    · rw [h4 x hk, if_neg fun h => hk ((hx.2 x).1 h)]; cases valueOf e x <;> rfl
  | true =>
    obtain ⟨m', h1, h2, h3, h4⟩ := C23_intersect_segment_total h hF.toNeutral ht oracle r.1 k v
    obtain ⟨g1, g2⟩ := EMap.addMap_acts (t := t) r.2.1 (asc_pairs hx.1 v)
    have e1 : EMap.andMap t e (xs.map fun x => (x, v)) = EMap.addMap t e (xs.map fun x => (x, v)) := by
      simp [EMap.andMap, ht]
    refine ⟨m', h1, mapRep_iff.2 ⟨h2, e1 ▸ g1, fun x => ?_⟩⟩
    have hb := added_bind hF (a := valueOf e x) fun u hu => rep_noIdentity r hn x u hu
    rw [e1, g2]
    simp only [valueOf_pairs]
    by_cases hk : In o x k
    · rw [h3 x hk, hv, hb, if_pos ((hx.2 x).2 hk)]; exact (addedHint_eq hF.toNeutral v).symm
    · rw [h4 x hk, hv, hb, if_neg fun h => hk ((hx.2 x).1 h)]

/-- `m &= k` and `e &= { x | x in k }` -/
theorem C34_intersect_interval (h : IntervalClass o) (hF : Faithful t) (oracle : List (I × V) → I → Nat)
    (r : MapRep o m e) (hx : ElementsOf o k xs) :
    ∃ m', IMap.addInterItv o t oracle [] m k = some m' ∧ MapRep o m' (EMap.andSet t e xs) := by
  obtain ⟨m', h1, h2, h3, h4⟩ := C23_intersect_interval h hF.toNeutral oracle r.1 k
  obtain ⟨g1, g2⟩ := EMap.andSet_acts (t := t) r.2.1 hx.1
  refine ⟨m', h1, mapRep_iff.2 ⟨h2, g1, fun x => ?_⟩⟩
  rw [g2]
  by_cases hk : In o x k
  · rw [h3 x hk, (mapRep_iff.1 r).2.2, if_pos ((hx.2 x).2 hk)]
  · rw [h4 x hk, if_neg fun h => hk ((hx.2 x).1 h)]

/-- `m += n` -/
theorem C34_add_map (h : IntervalClass o) (hF : Faithful t) (oracle : List (I × V) → I → Nat) (r : MapRep o m e)
    (rn : MapRep o n f) (hn : NoIdentity t m) :
    ∃ m', IMap.addMap o t oracle m n = some m' ∧ MapRep o m' (EMap.addMap t e f) := by
  obtain ⟨m', h1, h2, h3, h4⟩ := C23_add h hF.toNeutral oracle r.1 rn.1 hn
  exact ⟨m', h1, rep_step2 r rn h2 h3 h4 (EMap.addMap_acts r.2.1 rn.2.1)
    fun x v _ => (addedHint_eq hF.toNeutral v).symm⟩

/-- `m -= n` -/
theorem C34_subtract_map (h : IntervalClass o) (hF : Faithful t) (r : MapRep o m e) (rn : MapRep o n f)
    (hn : NoIdentity t m) : ∃ m', IMap.subMap o t m n = some m' ∧ MapRep o m' (EMap.subMap t e f) := by
  obtain ⟨m', h1, h2, h3, h4⟩ := C23_subtract h t r.1 rn.1
  exact ⟨m', h1, rep_step2 r rn h2 h3 h4 (EMap.subMap_acts r.2.1 rn.2.1)
    fun x v _ => subtracted_elem hF v fun u hu => rep_noIdentity r hn x u hu⟩

/-- `insert(m, n)` -/
theorem C34_insert_map (h : IntervalClass o) (t : MapType V) (oracle : List (I × V) → I → Nat) (r : MapRep o m e)
    (rn : MapRep o n f) : ∃ m', IMap.insertMap o t oracle m n = some m' ∧ MapRep o m' (EMap.insertMap t e f) := by
  obtain ⟨m', h1, h2, h3, h4⟩ := C23_insert h t oracle r.1 rn.1
  exact ⟨m', h1, rep_step2 r rn h2 h3 h4 (EMap.insertMap_acts r.2.1 rn.2.1) fun _ _ _ => rfl⟩

/-- `erase(m, n)` -/
theorem C34_erase_map (h : IntervalClass o) (t : MapType V) (r : MapRep o m e) (rn : MapRep o n f) :
    ∃ m', IMap.eraseMap o t m n = some m' ∧ MapRep o m' (EMap.eraseMap t e f) := by
  obtain ⟨m', h1, h2, h3, h4⟩ := C23_erase h t r.1 rn.1
  exact ⟨m', h1, rep_step2 r rn h2 h3 h4 (EMap.eraseMap_acts r.2.1 rn.2.1) fun _ _ _ => rfl⟩

/-- `m &= n` -/
theorem C34_intersect_map (h : IntervalClass o) (hF : Faithful t) (oracle : List (I × V) → I → Nat) (r : MapRep o m e)
    (rn : MapRep o n f) (hn : NoIdentity t m) :
    ∃ m', IMap.addInterMap o t oracle [] m n = some m' ∧ MapRep o m' (EMap.andMap t e f) := by
  have hv := (mapRep_iff.1 r).2.2
  have hv' := (mapRep_iff.1 rn).2.2
  cases ht : t.cfg.total with
  | false =>
    obtain ⟨m', h1, h2, h3, h4⟩ := C23_intersect h hF.toVersions ht oracle r.1 rn.1
    obtain ⟨g1, g2⟩ := EMap.andMap_acts ht r.2.1 rn.2.1
    refine ⟨m', h1, mapRep_iff.2 ⟨h2, g1, fun x => ?_⟩⟩
    rw [g2]
    have a1 := h3 x
    have a2 := h4 x
    rw [hv, hv'] at a1 a2
    cases he : valueOf e x with
    | none => rw [a2 (Or.inl he)]; rfl
    | some u =>
      cases hf : valueOf f x with
      | none => rw [a2 (Or.inr hf)]; rfl
      | some w => rw [a1 u w he hf]; rfl
  | true =>
    obtain ⟨m', h1, h2, h3⟩ := C23_intersect_total h hF.toNeutral ht oracle r.1 rn.1
    obtain ⟨g1, g2⟩ := EMap.addMap_acts (t := t) r.2.1 rn.2.1
    have e1 : EMap.andMap t e f = EMap.addMap t e f := by simp [EMap.andMap, ht]
    refine ⟨m', h1, mapRep_iff.2 ⟨h2, e1 ▸ g1, fun x => ?_⟩⟩
    have hb := added_bind hF (a := valueOf e x) fun u hu => rep_noIdentity r hn x u hu
    rw [e1, g2, h3, hv, hv']
    dsimp only
    cases valueOf f x with
    | none => exact hb
    | some w => simp only [hb]; exact (addedHint_eq hF.toNeutral w).symm

/-- `m ^= n` -/
theorem C34_flip_map (h : IntervalClass o) (hF : Faithful t) (oracle : List (I × V) → I → Nat) (r : MapRep o m e)
    (rn : MapRep o n f) (hm : NoIdentity t m) (hn : NoIdentity t n) :
    ∃ m', IMap.flipMap o t oracle m n = some m' ∧ MapRep o m' (EMap.flipMap t e f) := by
  have hv := (mapRep_iff.1 r).2.2
  cases ht : t.cfg.total with
  | false =>
    obtain ⟨m', h1, h2, h3, h3', h4⟩ := C23_flip h hF.toNeutral ht oracle r.1 rn.1 hm
    refine ⟨m', h1, rep_step2 r rn h2 (g := flippedElem t) (fun x v hx => ?_) h4 (EMap.flipMap_acts ht r.2.1 rn.2.1)
      fun _ _ _ => rfl⟩
    have hi : ¬ Ignored t v := by
      obtain ⟨s, hs, -, rfl⟩ := (valueAt_assoc rn.1 x v).1 hx
      exact hn s hs
    cases hv' : valueAt o m x with
    | none => rw [h3 x v hv' hx, added_none hF]; rfl
    | some u => rw [h3' x u v hv' hx, flipped_elem hF hi]
  | true =>
    obtain ⟨m', h1, h2, h3, h4⟩ := C23_flip_total h hF.toNeutral ht oracle r.1 rn.1
    refine ⟨m', h1, ?_⟩
    cases ha : t.cfg.absorbs with
    | true =>
      have : EMap.flipMap t e f = [] := by simp [EMap.flipMap, ht, ha]
      rw [this]
      exact mapRep_iff.2 ⟨h2, .nil, fun x => by rw [h3 ha]; rfl⟩
    | false =>
      obtain ⟨g1, g2⟩ := EMap.flipMap_total ht ha rn.2.1 r.2.1
      refine mapRep_iff.2 ⟨h2, g1, fun x => Option.ext fun w => ?_⟩
      rw [valueAt_assoc h2, h4 ha, g2, ← valueAt_key r.1, ← valueAt_key rn.1, hv, (mapRep_iff.1 rn).2.2]
      cases valueOf e x <;> cases valueOf f x <;> simp [eq_comm]

/-- `m -= s` for a set of keys -/
theorem C34_erase_set (h : IntervalClass o) {s : List I} {f : List D} (r : MapRep o m e) (rs : SetRep o s f) :
    ∃ m', IMap.eraseSet o m s = some m' ∧ MapRep o m' (EMap.subSet e f) := by
  obtain ⟨m', h1, h2, h3, h4⟩ := C23_erase_set h r.1 rs.1
  obtain ⟨g1, g2⟩ := EMap.subSet_acts r.2.1 (setRep_asc rs)
  refine ⟨m', h1, mapRep_iff.2 ⟨h2, g1, fun x => ?_⟩⟩
  rw [g2]
  dsimp only
  by_cases hx : Elem o s x
  · rw [h3 x hx, if_pos ((rs.2.2 x).2 hx)]
  · rw [h4 x hx, if_neg fun h => hx ((rs.2.2 x).1 h), (mapRep_iff.1 r).2.2]

/-- `m &= s` for a set of keys -/
theorem C34_intersect_set (h : IntervalClass o) (hF : Faithful t) (oracle : List (I × V) → I → Nat) {s : List I}
    {f : List D} (r : MapRep o m e) (rs : SetRep o s f) :
    ∃ m', IMap.addInterSet o t oracle [] m s = some m' ∧ MapRep o m' (EMap.andSet t e f) := by
  obtain ⟨m', h1, h2, h3, h4⟩ := C23_intersect_set h hF.toNeutral oracle r.1 rs.1
  obtain ⟨g1, g2⟩ := EMap.andSet_acts (t := t) r.2.1 (setRep_asc rs)
  refine ⟨m', h1, mapRep_iff.2 ⟨h2, g1, fun x => ?_⟩⟩
  rw [g2]
  by_cases hx : Elem o s x
  · rw [h3 x hx, if_pos ((rs.2.2 x).2 hx), (mapRep_iff.1 r).2.2]
  · rw [h4 x hx, if_neg fun h => hx ((rs.2.2 x).1 h)]

theorem programs_reachable_sets {st : Style} {s : List I} {f : List D} (h : SetPrograms o st s f) :
    Reachable o none st s := by
  induction h with
  | empty => exact .empty st
  | add k xs _ _ hr ih => exact .op (.add k) ih hr
  | subtract k xs _ _ hr ih => exact .op (.subtract k) ih hr
  | flip k xs _ _ hr ih => exact .op (.flip k) ih hr
  | inter oracle k xs _ _ hr ih => exact .op (.inter oracle k) ih hr
  | addSet oracle _ _ hr i1 i2 => exact .op2 (.add oracle) i1 i2 hr
  | subSet _ _ hr i1 i2 => exact .op2 .sub i1 i2 hr
  | interSet oracle _ _ hr i1 i2 => exact .op2 (.inter oracle) i1 i2 hr
  | flipSet oracle _ _ hr i1 i2 => exact .op2 (.flip oracle) i1 i2 hr

theorem programs_reachable (h : MapPrograms o t m e) : MReachable o none t m := by
  induction h with
  | empty => exact .empty t
  | add k v xs _ _ hr ih => exact .op (.add k v) ih hr
  | subtract k v xs _ _ hr ih => exact .op (.subtract k v) ih hr
  | insert k v xs _ _ hr ih => exact .op (.insert k v) ih hr
  | erase k v xs _ _ hr ih => exact .op (.erase k v) ih hr
  | eraseKeys k xs _ _ hr ih => exact .op (.eraseKeys k) ih hr
  | set k v xs _ _ _ hr ih => exact .op (.set k v) ih hr
  | flip oracle k v xs _ _ _ _ hr ih => exact .op (.flip oracle k v) ih hr
  | inter oracle k v xs _ _ hr ih => exact .op (.inter oracle k v) ih hr
  | interKeys oracle k xs _ _ hr ih => exact .op (.interKeys oracle k) ih hr
  | addMap oracle _ _ hr i1 i2 => exact .op2 (.add oracle) i1 i2 hr
  | subMap _ _ hr i1 i2 => exact .op2 .sub i1 i2 hr
  | insertMap oracle _ _ hr i1 i2 => exact .op2 (.insert oracle) i1 i2 hr
  | eraseMap _ _ hr i1 i2 => exact .op2 .erase i1 i2 hr
  | interMap oracle _ _ hr i1 i2 => exact .op2 (.inter oracle) i1 i2 hr
  | flipMap oracle _ _ hr i1 i2 => exact .op2 (.flip oracle) i1 i2 hr
  | eraseSet _ hs hr ih => exact .op3 .erase ih (programs_reachable_sets hs) hr
  | interSet oracle _ hs hr ih => exact .op3 (.inter oracle) ih (programs_reachable_sets hs) hr

/-- A map that a program produces stores no value that it should have absorbed. -/
theorem C34_no_identity (h : IntervalClass o) (hF : Faithful t) (hp : MapPrograms o t m e) : NoIdentity t m :=
  noIdentity_iff.2 (((programs_reachable hp).good (setClass_none h)).noIdent hF.toNeutral)

/-- The same program on interval maps and on maps of elements: the results consist of the same associations. -/
theorem C34_maps (h : IntervalClass o) (hF : Faithful t) (hp : MapPrograms o t m e) : MapRep o m e := by
  induction hp with
  | empty => exact mapRep_nil
  | add k v xs _ hx hr ih => obtain ⟨_, h1, h2⟩ := C34_add h t ih hx v; rw [hr] at h1; cases h1; exact h2
  | subtract k v xs hp hx hr ih =>
    obtain ⟨_, h1, h2⟩ := C34_subtract h hF ih (C34_no_identity h hF hp) hx v; rw [hr] at h1; cases h1; exact h2
  | insert k v xs _ hx hr ih => obtain ⟨_, h1, h2⟩ := C34_insert h t ih hx v; rw [hr] at h1; cases h1; exact h2
  | erase k v xs _ hx hr ih => obtain ⟨_, h1, h2⟩ := C34_erase h t ih hx v; rw [hr] at h1; cases h1; exact h2
  | eraseKeys k xs _ hx hr ih => obtain ⟨_, h1, h2⟩ := C34_erase_keys h ih hx; rw [hr] at h1; cases h1; exact h2
  | set k v xs _ hx hv hr ih => obtain ⟨_, h1, h2⟩ := C34_set h t ih hx hv; rw [hr] at h1; cases h1; exact h2
  | flip oracle k v xs hp hx hk hv hr ih =>
    obtain ⟨_, h1, h2⟩ := C34_flip h hF oracle ih (C34_no_identity h hF hp) hx hk hv
    rw [hr] at h1; cases h1; exact h2
  | inter oracle k v xs hp hx hr ih =>
    obtain ⟨_, h1, h2⟩ := C34_intersect_segment h hF oracle ih (C34_no_identity h hF hp) hx v
    rw [hr] at h1; cases h1; exact h2
  | interKeys oracle k xs _ hx hr ih =>
    obtain ⟨_, h1, h2⟩ := C34_intersect_interval h hF oracle ih hx; rw [hr] at h1; cases h1; exact h2
  | addMap oracle hp _ hr i1 i2 =>
    obtain ⟨_, h1, h2⟩ := C34_add_map h hF oracle i1 i2 (C34_no_identity h hF hp); rw [hr] at h1; cases h1; exact h2
  | subMap hp _ hr i1 i2 =>
    obtain ⟨_, h1, h2⟩ := C34_subtract_map h hF i1 i2 (C34_no_identity h hF hp); rw [hr] at h1; cases h1; exact h2
  | insertMap oracle _ _ hr i1 i2 =>
    obtain ⟨_, h1, h2⟩ := C34_insert_map h t oracle i1 i2; rw [hr] at h1; cases h1; exact h2
  | eraseMap _ _ hr i1 i2 => obtain ⟨_, h1, h2⟩ := C34_erase_map h t i1 i2; rw [hr] at h1; cases h1; exact h2
  | interMap oracle hp _ hr i1 i2 =>
    obtain ⟨_, h1, h2⟩ := C34_intersect_map h hF oracle i1 i2 (C34_no_identity h hF hp)
    rw [hr] at h1; cases h1; exact h2
  | flipMap oracle hp hq hr i1 i2 =>
    obtain ⟨_, h1, h2⟩ := C34_flip_map h hF oracle i1 i2 (C34_no_identity h hF hp) (C34_no_identity h hF hq)
    rw [hr] at h1; cases h1; exact h2
  | eraseSet _ hs hr ih =>
    obtain ⟨_, h1, h2⟩ := C34_erase_set h ih (C34_sets h hs); rw [hr] at h1; cases h1; exact h2
  | interSet oracle _ hs hr ih =>
    obtain ⟨_, h1, h2⟩ := C34_intersect_set h hF oracle ih (C34_sets h hs); rw [hr] at h1; cases h1; exact h2

/-! ## Observers -/

/-- The map of elements is determined by the interval map. -/
theorem C34_unique (r : MapRep o m e) (r' : MapRep o m f) : e = f :=
  (C33_ext r.2.1 r'.2.1).2 fun x => by rw [← (mapRep_iff.1 r).2.2, ← (mapRep_iff.1 r').2.2]

/-- `m(x)` is `e(x)`. -/
theorem C34_select {lk : Lookup D I} (h : LookupClass o lk) (t : MapType V) (r : MapRep o m e) (x : D)
    (hx : o.isEmpty (lk.key x) = false) :
    IMap.select o lk t.cfg.ident m x = some (EMap.select t e x) := by
  obtain ⟨v, h1, h2⟩ := C14_select h r.1 t.cfg.ident x hx
  rw [h1, C33_select t r.2.1, ← (mapRep_iff.1 r).2.2]
  rcases h2 with h2 | ⟨h2, rfl⟩
  · rw [(valueAt_assoc r.1 x v).2 h2]; rfl
  · rw [← valueAt_key r.1, not_not] at h2; rw [h2]; rfl

/-- `contains(m, x)` is `contains(e, x)`, for partial maps. -/
theorem C34_contains_key {lk : Lookup D I} (h : LookupClass o lk) (r : MapRep o m e) (x : D)
    (hx : o.isEmpty (lk.key x) = false) :
    IMap.containsKey o false lk m x = some (EMap.containsKey e x) := by
  obtain ⟨b, h1, h2⟩ := C14_map_contains_key h r.1 x hx
  rw [h1, Option.some.injEq, Bool.eq_iff_iff, h2, C33_contains_key r.2.1, ← valueAt_key r.1, (mapRep_iff.1 r).2.2]
  simp only [← valueOf_eq_some r.2.1, Option.ne_none_iff_exists']

/-- `contains(m, {x, v})` is `contains(e, {x, v})`. -/
theorem C34_contains_pair {lk : Lookup D I} (h : LookupClass o lk) (r : MapRep o m e) (x : D)
    (hx : o.isEmpty (lk.key x) = false) (v : V) :
    IMap.containsPair o lk m x v = some (EMap.containsPair e x v) := by
  obtain ⟨b, h1, h2⟩ := C14_map_contains_pair h r.1 x hx v
  rw [h1, Option.some.injEq, Bool.eq_iff_iff, h2, C33_contains_pair r.2.1]
  exact r.2.2 x v

/-- `is_element_equal(m, n)` is `e == f`. -/
theorem C34_is_element_equal (h : IntervalClass o) (r : MapRep o m e) (rn : MapRep o n f) :
    isElementEqual o mapSeg mapSeg atomicCompare m n = some (EMap.eq e f) := by
  obtain ⟨b, h1, h2⟩ := C25_is_element_equal_maps h r.1 rn.1
  rw [h1, Option.some.injEq, Bool.eq_iff_iff, h2, C38_eq_map r.2.1 rn.2.1]
  simp only [r.2.2, rn.2.2, ← valueOf_eq_some r.2.1, ← valueOf_eq_some rn.2.1]
  try exact ⟨fun h x => Option.ext fun v => h x v, fun h x v => by rw [h x]⟩

/-- `m == n` of `interval_map`s is `e == f`. -/
theorem C34_equal (h : IntervalClass o) (r : MapRep o m e) (rn : MapRep o n f) (jm : MapFullyJoined o m)
    (jn : MapFullyJoined o n) : eqC o mapSeg m n = EMap.eq e f := by
  obtain ⟨b, h1, h2⟩ := C25_is_element_equal_maps h r.1 rn.1
  have h3 := C34_is_element_equal h r rn
  rw [h1, Option.some.injEq] at h3
  rw [← h3, Bool.eq_iff_iff, h2, C31_map_eq_joined h r.1 rn.1 jm jn]

/-- `within(m, n)` and `contains(n, m)` are `within(e, f)`. -/
theorem C34_within (h : IntervalClass o) (r : MapRep o m e) (rn : MapRep o n f) :
    withinC o mapSeg mapSeg atomicCompare m n = some (EMap.within e f) := by
  obtain ⟨b, h1, h2⟩ := C25_contains_maps h rn.1 r.1
  rw [h1, Option.some.injEq, Bool.eq_iff_iff, h2, C38_within_map r.2.1 rn.2.1]
  simp only [r.2.2, rn.2.2]
  exact ⟨fun h s hs => h s.1 s.2 hs, fun h x v hs => h _ hs⟩

/-- `contains(m, s)` for a set of keys -/
theorem C34_contains_set (h : IntervalClass o) {s : List I} {f : List D} (r : MapRep o m e) (rs : SetRep o s f) :
    withinC o setSeg mapSeg (fun _ _ => .equal) s m = some (EMap.withinSet f e) := by
  obtain ⟨b, h1, h2⟩ := C25_map_contains_set h r.1 rs.1
  rw [h1, Option.some.injEq, Bool.eq_iff_iff, h2, C38_within_keys r.2.1 (setRep_asc rs)]
  simp only [← rs.2.2, ← r.2.2]
  refine forall₂_congr fun x _ => ?_
  rw [← valueAt_key r.1, Option.ne_none_iff_exists']
  simp only [valueAt_assoc r.1]

/-- `intersects(m, s)` for a set of keys, for partial maps -/
theorem C34_intersects_set (h : IntervalClass o) (hF : Faithful t) (ht : t.cfg.total = false)
    (oracle : List (I × V) → I → Nat) {s : List I} {f : List D} (r : MapRep o m e) (rs : SetRep o s f)
    (hn : NoIdentity t m) : IMap.intersectsSet o t oracle m s = some (EMap.intersectsSet t e f) := by
  obtain ⟨b, h1, h2⟩ := C23_intersects_set h hF.toNeutral oracle r.1 rs.1 hn
  rw [h1, Option.some.injEq, Bool.eq_iff_iff, h2, C33_intersects_set ht r.2.1 (setRep_asc rs)]
  refine exists_congr fun x => ?_
  rw [← rs.2.2, ← valueAt_key r.1, Option.ne_none_iff_exists']
  simp only [valueAt_assoc r.1, r.2.2]
  exact ⟨fun ⟨a, v, b⟩ => ⟨v, b, a⟩, fun ⟨v, b, a⟩ => ⟨a, v, b⟩⟩

/-- `domain(m)` as a set of elements -/
theorem C34_domain (h : IntervalClass o) (st : Style) (oracle : List I → I → Nat) (r : MapRep o m e) :
    ∃ s, IMap.domain o st oracle m = some s ∧ SetRep o s (EMap.domain [] e) := by
  obtain ⟨s, h1, h2, h3⟩ := C29_map_domain h st oracle r.1
  obtain ⟨g1, g2⟩ := C33_domain (m := e) (s := []) .nil
  refine ⟨s, h1, h2, g1, fun x => ?_⟩
  rw [g2, h3, ← valueAt_key r.1, Option.ne_none_iff_exists']
  simp only [valueAt_assoc r.1, r.2.2, List.not_mem_nil, false_or]

end

section
variable {s r : List I} {e f : List D}

/-- `contains(s, x)` is `contains(e, x)`. -/
theorem C34_set_contains {lk : Lookup D I} (h : LookupClass o lk) (hs : SetRep o s e) (x : D)
    (hx : o.isEmpty (lk.key x) = false) :
    containsE o setSeg lk s x = some (ESet.contains e x) := by
  obtain ⟨b, h1, h2⟩ := C14_contains_element h hs.1 x hx
  rw [h1, Option.some.injEq, Bool.eq_iff_iff, h2, C38_contains (setRep_asc hs), hs.2.2]

/-- `is_element_equal(s, r)` is `e == f`. -/
theorem C34_set_is_element_equal (h : IntervalClass o) (hs : SetRep o s e) (hr : SetRep o r f) :
    isElementEqual o setSeg setSeg (fun _ _ => .equal) s r = some (ESet.eq e f) := by
  obtain ⟨b, h1, h2⟩ := C25_is_element_equal_sets h hs.1 hr.1
  rw [h1, Option.some.injEq, Bool.eq_iff_iff, h2, C38_eq (setRep_asc hs) (setRep_asc hr)]
  simp only [hs.2.2, hr.2.2]

/-- `s == r` of `interval_set`s is `e == f`. -/
theorem C34_set_equal (h : IntervalClass o) (hs : SetRep o s e) (hr : SetRep o r f) (js : FullyJoined o s)
    (jr : FullyJoined o r) : eqC o setSeg s r = ESet.eq e f := by
  have ws := wellFormed_iff.1 hs.1
  have wr := wellFormed_iff.1 hr.1
  rw [Bool.eq_iff_iff, eqC_joined h.lawful ws wr ((fullyJoined_iff h.lawful ws).1 js) ((fullyJoined_iff h.lawful wr).1 jr),
    C38_eq (setRep_asc hs) (setRep_asc hr)]
  simp only [hs.2.2, hr.2.2, maps_unit]
  exact ⟨fun h x => h x (), fun h x _ => h x⟩

/-- `inclusion_compare(s, r)`, hence `within` and `contains`, is `inclusion_compare(e, f)`. -/
theorem C34_set_inclusion_compare (h : IntervalClass o) (hs : SetRep o s e) (hr : SetRep o r f) :
    inclusionCompare o setSeg setSeg (fun _ _ => .equal) s r = ESet.inclusionCompare e f := by
  obtain ⟨b, h1, h2, h3⟩ := C25_inclusion_compare_sets h hs.1 hr.1
  obtain ⟨c, g1, g2, g3⟩ := C38_inclusion_compare (setRep_asc hs) (setRep_asc hr)
  rw [h1, g1, Option.some.injEq]
  simp only [hs.2.2, hr.2.2] at g2 g3
  have e1 : b.sub = c.sub := Bool.eq_iff_iff.2 (h2.trans g2.symm)
  have e2 : b.sup = c.sup := Bool.eq_iff_iff.2 (h3.trans g3.symm)
  cases b; cases c; simp only at e1 e2; rw [e1, e2]

/-- `intersects(s, r)` is `intersects(e, f)`. -/
theorem C34_set_intersects (h : IntervalClass o) (st : Style) (oracle : List I → I → Nat) (hs : SetRep o s e)
    (hr : SetRep o r f) : ISet.intersects o st oracle s r = some (ESet.intersects e f) := by
  obtain ⟨b, h1, h2⟩ := C10_intersects h st oracle hs.1 hr.1
  rw [h1, Option.some.injEq, Bool.eq_iff_iff, h2, C38_intersects (setRep_asc hs) (setRep_asc hr)]
  simp only [hs.2.2, hr.2.2]

end

section
variable {I : Type} {o : IntervalOps ℤ I} [DecidableEq I] {e : ElementOps ℤ I}

/-- Element iteration over the interval map runs through the map of elements, forward and backward, and its `size` is the
number of them. -/
theorem C34_iteration (h : DiscreteClass o e) {m : List (I × V)} {f : List (ℤ × V)} (r : MapRep o m f) :
    Forward (ElemIt.deref (ElemIt.fwd e mapSeg) m) (ElemIt.incr o e mapSeg m) (ElemIt.end_ m) ElemIt.begin f ∧
    Backward (ElemIt.deref (ElemIt.fwd e mapSeg) m) (ElemIt.decr o e mapSeg m) ElemIt.begin (ElemIt.end_ m) f.reverse ∧
    size o e mapSeg m = f.length := by
  obtain ⟨xs, h1, h2, h3, h4, -, -, h5, -⟩ := C28_map h r.1
  have : xs = f := StdTree.asc_ext (key := Prod.fst) (List.pairwise_map.1 h1) r.2.1 fun s => by
    rw [← r.2.2 s.1 s.2]; exact h2 s.1 s.2
  subst this
  exact ⟨h3, h4, h5⟩

/-- Element iteration over the interval set -/
theorem C34_set_iteration (h : DiscreteClass o e) {s : List I} {f : List ℤ} (r : SetRep o s f) :
    Forward (ElemIt.deref (ElemIt.fwd e setSeg) s) (ElemIt.incr o e setSeg s) (ElemIt.end_ s) ElemIt.begin
      (f.map fun x => (x, ())) ∧
    Backward (ElemIt.deref (ElemIt.fwd e setSeg) s) (ElemIt.decr o e setSeg s) ElemIt.begin (ElemIt.end_ s)
      (f.reverse.map fun x => (x, ())) ∧
    size o e setSeg s = f.length := by
  obtain ⟨xs, ⟨h1, h2⟩, h3, h4, -, -, h5, -⟩ := C28_set h r.1
  have : xs = f := StdTree.asc_ext (key := fun x => x) h1 r.2.1 fun x => by rw [h2]; exact (r.2.2 x).symm
  subst this
  exact ⟨h3, h4, h5⟩

end

/-! ## The conditions on the functors -/

/-- Sums of numbers, and differences of unsigned numbers that do not wrap around; unions of sets; unions of bit sets. -/
theorem C34_faithful {W α : Type} [DecidableEq W] [AddGroup W] [DecidableEq α] {n : Nat} (joining absorbs total signed : Bool) :
    Faithful (.numeric (V := W) joining absorbs total signed) ∧ Faithful (.unsigned joining absorbs total) ∧
    Faithful (.collector (α := α) joining absorbs total) ∧ Faithful (.bits (n := n) joining absorbs total) where
  left := { numeric_neutral joining absorbs total signed with
    version := fun _ => rfl
    minus_ident := fun u => sub_zero u
    unsect_comm := fun h => by cases h }
  right := ⟨
    { unsigned_neutral joining absorbs total with
      version := fun _ => rfl
      minus_ident := fun u => Nat.sub_zero u
      unsect_comm := fun h => by cases h },
    { collector_neutral joining absorbs total with
      version := fun _ => rfl
      minus_ident := fun u => Finset.sdiff_empty
      unsect_comm := fun _ u v => symmDiff_comm u v },
    { bits_neutral joining absorbs total with
      version := fun _ => rfl
      minus_ident := fun u => by simp [MapType.bits, Combiner.bitSubtract]
      unsect_comm := fun h => by cases h }⟩

/-- Without them the claim is false. Maxima of integers: the interval map ignores the subtraction of the identity element
`0`, the map of elements replaces `3` by the minimum of `3` and `0` and drops it. And `+=` of a map stores
the maximum of `0` and `-1`, where the addition of the segment stores `-1`. -/
theorem C34_counterexample_maxima :
    MapRep Ex.ro [(Ex.r 5 7, (3 : ℤ))] [(5, 3), (6, 3)] ∧
    IMap.subSeg Ex.ro exMax [(Ex.r 5 7, 3)] (Ex.r 5 7) 0 = some [(Ex.r 5 7, 3)] ∧
    [(5 : ℤ), 6].foldl (fun e x => EMap.subtract exMax e x 0) [(5, 3), (6, 3)] = [] ∧
    ¬ Faithful exMax := by
  refine ⟨?_, by decide, by decide, fun h => absurd (h.minus_ident 3) (by decide)⟩
  obtain ⟨m', h1, h2⟩ := C34_add Ex.ro_cls exMax mapRep_nil (elementsOf_r 5 7 [5, 6] (by decide) (by decide)) 3
  have : some m' = some [(Ex.r 5 7, 3)] := by rw [← h1]; decide
  cases this
  exact h2

/-- A flip by the identity element: the partial absorber erases the segments, the map of elements is not changed. -/
theorem C34_counterexample_flip_identity :
    IMap.flipSeg Ex.ro (exMap true true false) (fun _ _ => 0) [(Ex.r 5 7, 3)] (Ex.r 5 7) 0 = some [] ∧
    [(5 : ℤ), 6].foldl (fun e x => EMap.flip (exMap true true false) e x 0) [(5, 3), (6, 3)] = [(5, 3), (6, 3)] := by
  decide

/-- A flip with an empty interval clears a total absorber, and fails for a partial map (`C15_flip_empty`). -/
theorem C34_counterexample_flip_empty :
    IMap.flipSeg Ex.ro (exMap true true true) (fun _ _ => 0) [(Ex.r 5 7, 3)] (Ex.r 2 2) 1 = some [] := by decide

/-- `intersects(m, n)`: for interval maps the intersection is not empty; for maps of elements there is a common key. -/
theorem C34_counterexample_intersects :
    IMap.intersectsMap Ex.ro exCollect false (fun _ _ => 0) [(Ex.r 1 2, {1, 2})] [(Ex.r 1 2, {5})] = some false ∧
    EMap.intersectsMap exCollect [((1 : ℤ), {1, 2})] [(1, {5})] = true := by decide

/-- A program: `{} += ([0,3), 1)`, `+= ([2,5), 2)`, `-= ([1,3), 1)`, and the elements. -/
theorem ex_programs :
    MapPrograms Ex.ro (exMap true true false) [(Ex.r 0 1, 1), (Ex.r 2 5, 2)] [(0, 1), (2, 2), (3, 2), (4, 2)] := by
  have h0 : MapPrograms Ex.ro (exMap true true false) [] [] := .empty
  have h1 : MapPrograms Ex.ro (exMap true true false) [(Ex.r 0 3, 1)] [(0, 1), (1, 1), (2, 1)] :=
    .add (Ex.r 0 3) 1 [0, 1, 2] h0 (elementsOf_r _ _ _ (by decide) (by decide)) (by decide)
  have h2 : MapPrograms Ex.ro (exMap true true false) [(Ex.r 0 2, 1), (Ex.r 2 3, 3), (Ex.r 3 5, 2)]
      [(0, 1), (1, 1), (2, 3), (3, 2), (4, 2)] :=
    .add (Ex.r 2 5) 2 [2, 3, 4] h1 (elementsOf_r _ _ _ (by decide) (by decide)) (by decide)
  have h3 : IMap.subSeg Ex.ro (exMap true true false) [(Ex.r 0 2, 1), (Ex.r 2 3, 3), (Ex.r 3 5, 2)] (Ex.r 1 3) 1 =
      some [(Ex.r 0 1, 1), (Ex.r 2 5, 2)] := by decide
  exact .subtract (Ex.r 1 3) 1 [1, 2] h2 (elementsOf_r _ _ _ (by decide) (by decide)) h3

/-- A program on sets, and `m &= s`. -/
theorem ex_set_programs : SetPrograms Ex.ro .joining [Ex.r 0 2, Ex.r 3 4] [0, 1, 3] ∧
    MapPrograms Ex.ro (exMap true true false) [(Ex.r 0 1, 1), (Ex.r 3 4, 2)] [(0, 1), (3, 2)] := by
  have h1 : SetPrograms Ex.ro .joining [Ex.r 0 4] [0, 1, 2, 3] :=
    .add (Ex.r 0 4) [0, 1, 2, 3] .empty (elementsOf_r _ _ _ (by decide) (by decide)) (by decide)
  have h2 : SetPrograms Ex.ro .joining [Ex.r 0 2, Ex.r 3 4] [0, 1, 3] :=
    .flip (Ex.r 2 3) [2] h1 (elementsOf_r _ _ _ (by decide) (by decide)) (by decide)
  exact ⟨h2, .interSet (fun _ _ => 0) ex_programs h2 (by decide)⟩

example : MapRep Ex.ro [(Ex.r 0 1, 1), (Ex.r 2 5, 2)] [(0, (1 : ℤ)), (2, 2), (3, 2), (4, 2)] ∧
    SetRep Ex.ro [Ex.r 0 2, Ex.r 3 4] [0, 1, 3] ∧ NoIdentity (exMap true true false) [(Ex.r 0 1, 1), (Ex.r 2 5, 2)] :=
  ⟨C34_maps Ex.ro_cls (C34_faithful (α := ℤ) (n := 1) true true false true).1 ex_programs,
    C34_sets Ex.ro_cls ex_set_programs.1,
    C34_no_identity Ex.ro_cls (C34_faithful (α := ℤ) (n := 1) true true false true).1 ex_programs⟩

end ICL.Props
