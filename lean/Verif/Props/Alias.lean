import Verif.Theory.AliasExact
import Verif.Props.MapOps

/-!
# C40: the operand is the object itself

`a += a`, `a -= a`, `a ^= a`, `insert(m, m)`, `erase(m, m)`, `set(m, *it)`.
-/

set_option linter.unusedSectionVars false
set_option linter.unusedVariables false

namespace ICL.Props
open Spec

section sets
variable {D I : Type} [LinearOrder D] {o : IntervalOps D I}

/-! ## Interval sets -/

/-- `a += a` and `insert(a, a)` do nothing. -/
theorem C40_set_add_self (h : IntervalClass o) (st : Style) {s : List I} (hs : WellFormed o s)
    (hj : st = .joining → FullyJoined o s) : ISet.addSelf o st s = .ok s :=
  ISet.addSelf_ok h.lawful st (wellFormed_iff.1 hs) fun e => (fullyJoined_iff h.lawful (wellFormed_iff.1 hs)).1 (hj e)

/-- `a -= a` and `erase(a, a)` leave an empty set, and so does `a ^= a`. -/
theorem C40_set_subtract_self [DecidableEq I] (h : IntervalClass o) (st : Style) {s : List I} (hs : WellFormed o s) :
    ISet.subSelf o s = .ok [] ∧ ISet.flipSelf o st s = .ok [] :=
  ⟨ISet.subSelf_ok h.lawful (wellFormed_iff.1 hs), ISet.flipSelf_ok h.lawful st (wellFormed_iff.1 hs)⟩

example : WellFormed Ex.ro [Ex.r 0 2, Ex.r 5 9] ∧ FullyJoined Ex.ro [Ex.r 0 2, Ex.r 5 9] := by
  have hw : WellFormed Ex.ro [Ex.r 0 2, Ex.r 5 9] := wellFormed_ro _ (by decide) (by decide)
  refine ⟨hw, (fullyJoined_iff Ex.ro_cls.lawful (wellFormed_iff.1 hw)).2 (joined_of (by decide))⟩

example : ISet.addSelf Ex.ro .joining [Ex.r 0 2, Ex.r 5 9] = .ok [Ex.r 0 2, Ex.r 5 9] ∧
    ISet.addSelf Ex.ro .splitting [Ex.r 0 2, Ex.r 2 9] = .ok [Ex.r 0 2, Ex.r 2 9] ∧
    ISet.subSelf Ex.ro [Ex.r 0 2, Ex.r 2 9] = .ok [] ∧
    ISet.flipSelf Ex.ro .separating [Ex.r 0 2, Ex.r 2 9] = .ok [] := by decide

end sets

section maps
variable {D I V : Type} [LinearOrder D] {o : IntervalOps D I} [DecidableEq V]

/-! ## Interval maps -/

/-- `insert(m, m)` does nothing. -/
theorem C40_map_insert_self (h : IntervalClass o) (t : MapType V) {m : List (I × V)} (hm : MapWellFormed o m)
    (hj : t.cfg.joining = true → MapFullyJoined o m) : IMap.insertSelf o t m = .ok m :=
  IMap.insertSelf_ok h.lawful (mapWellFormed_iff.1 hm)
    fun e => (mapFullyJoined_iff h.lawful (mapWellFormed_iff.1 hm)).1 (hj e)

/-- `erase(m, m)` leaves an empty map. -/
theorem C40_map_erase_self [DecidableEq I] (h : IntervalClass o) (t : MapType V) {m : List (I × V)}
    (hm : MapWellFormed o m) (hi : NoIdentity t m) : IMap.eraseSelf o t m = .ok [] :=
  IMap.eraseSelf_ok h.lawful (mapWellFormed_iff.1 hm) fun s hs => by
    rw [Bool.eq_false_iff, Ne, absorbable_iff]; exact hi s hs

example : MapWellFormed Ex.ro [(Ex.r 0 2, 1), (Ex.r 2 4, 2), (Ex.r 6 9, (1 : ℤ))] ∧
    IMap.insertSelf Ex.ro (exMap true true false) [(Ex.r 0 2, 1), (Ex.r 2 4, 2), (Ex.r 6 9, 1)] =
      .ok [(Ex.r 0 2, 1), (Ex.r 2 4, 2), (Ex.r 6 9, 1)] ∧
    IMap.eraseSelf Ex.ro (exMap true true false) [(Ex.r 0 2, 1), (Ex.r 2 4, 2), (Ex.r 6 9, 1)] = .ok [] :=
  ⟨wellFormed_ro _ (by decide) (by decide), by decide, by decide⟩

/-- `m ^= m` on a partial map that absorbs identities leaves an empty map: if values are sets, the symmetric
difference of a value with itself must be the identity element. -/
theorem C40_map_flip_self_partial [DecidableEq I] (h : IntervalClass o) (t : MapType V) (ht : t.cfg.total = false)
    (ha : t.cfg.absorbs = true) (oracle : List (I × V) → I → Nat) {m : List (I × V)} (hm : MapWellFormed o m)
    (hf : t.setLike = true → ∀ s ∈ m, t.unsect s.2 s.2 = t.cfg.ident) : IMap.flipSelf o t oracle m = .ok [] :=
  IMap.flipSelf_ok h.lawful ht oracle (mapWellFormed_iff.1 hm) fun s hs => by
    unfold IMap.absorbable IMap.flipValue
    split_ifs with hl
    · simp [ha, hf hl s hs]
    · simp [ha]

example : IMap.flipSelf Ex.ro (exMap true true false) (fun _ _ => 0) [(Ex.r 0 2, 1), (Ex.r 2 4, 2)] = .ok [] := by
  decide

/-- The segments of `m` stay what they are if the value `u` of each of them is replaced by `f u`, one after the
other: no segment then has the value of a neighbour that it touches. -/
def StaysApart (o : IntervalOps D I) (f : V → V) (m : List (I × V)) : Prop :=
  ∀ p s t q, m = p ++ s :: t :: q → (f s.2 ≠ t.2 ∧ f s.2 ≠ f t.2) ∨
    ∃ z, (∀ x, In o x s.1 → x < z) ∧ ∀ y, In o y t.1 → z < y

theorem StaysApart.apart (h : IntervalClass o) {f : V → V} {m : List (I × V)} (hm : MapWellFormed o m)
    (ha : StaysApart o f m) : IMap.Apart o f m := by
  intro p s t q e ht
  have hw := mapWellFormed_iff.1 hm
  rw [e] at hw
  have hw1 := wf_cons.1 (wf_append.1 hw).2.1
  have hb : o.Before s.1 t.1 := fun x y hx hy => hw1.2.2 x y hx ⟨t, by simp, hy⟩
  rw [h.lawful.touches_iff s.1 t.1 hw1.1 (hw1.2.1.nonempty t (by simp)) hb] at ht
  exact (ha p s t q e).resolve_right ht

/-- `m += m` combines the value of each segment with itself, if no combination is absorbed and, on an `interval_map`,
no segment gets the value of a neighbour that it touches. -/
theorem C40_map_add_self_partial (h : IntervalClass o) (t : MapType V) {m : List (I × V)} (hm : MapWellFormed o m)
    (hi : NoIdentity t m) (hs : ∀ s ∈ m, ¬ Ignored t (t.plus.apply s.2 s.2))
    (hj : t.cfg.joining = true → StaysApart o (fun u => t.plus.apply u u) m) :
    IMap.addSelf o t m = .ok (m.map fun s => (s.1, t.plus.apply s.2 s.2)) :=
  IMap.addSelf_ok h.lawful (mapWellFormed_iff.1 hm)
    (fun s hs => by rw [Bool.eq_false_iff, Ne, absorbable_iff]; exact hi s hs)
    (fun s hx => by rw [Bool.eq_false_iff, Ne, absorbable_iff]; exact hs s hx)
    fun e => (hj e).apart h hm

/-- `{[0,2) -> 1, [2,4) -> 3} += itself` is `{[0,2) -> 2, [2,4) -> 6}`. -/
example : MapWellFormed Ex.ro [(Ex.r 0 2, 1), (Ex.r 2 4, (3 : ℤ))] ∧
    StaysApart Ex.ro (fun u => (exMap true true false).plus.apply u u) [(Ex.r 0 2, 1), (Ex.r 2 4, 3)] ∧
    IMap.addSelf Ex.ro (exMap true true false) [(Ex.r 0 2, 1), (Ex.r 2 4, 3)] =
      .ok [(Ex.r 0 2, 2), (Ex.r 2 4, 6)] := by
  refine ⟨wellFormed_ro _ (by decide) (by decide), ?_, by decide⟩
  intro p s t q e
  left
  match p, e with
  | [], e =>
    simp only [List.nil_append, List.cons.injEq] at e
    obtain ⟨rfl, rfl, _⟩ := e
    decide
  | [_], e => simp at e
  | _ :: _ :: p, e => simp at e

theorem staysApart_iff (h : IntervalClass o) {f : V → V} {m : List (I × V)} (hm : MapWellFormed o m) :
    StaysApart o f m ↔ IMap.Apart o f m := by
  refine ⟨fun ha => ha.apart h hm, fun ha p s t q e => ?_⟩
  have hw := mapWellFormed_iff.1 hm
  rw [e] at hw
  have hw1 := wf_cons.1 (wf_append.1 hw).2.1
  have hb : o.Before s.1 t.1 := fun x y hx hy => hw1.2.2 x y hx ⟨t, by simp, hy⟩
  by_cases ht : o.touches s.1 t.1 = true
  · exact Or.inl (ha p s t q e ht)
  · right
    rw [h.lawful.touches_iff s.1 t.1 hw1.1 (hw1.2.1.nonempty t (by simp)) hb] at ht
    exact not_not.1 ht

/-- `C40_map_add_self_partial` names all the maps on which `m += m` combines the value of each segment with itself:
on all others the result is another one, or none at all. -/
theorem C40_map_add_self_exact (h : IntervalClass o) (t : MapType V) {m : List (I × V)} (hm : MapWellFormed o m)
    (hi : NoIdentity t m) :
    IMap.addSelf o t m = .ok (m.map fun s => (s.1, t.plus.apply s.2 s.2)) ↔
      (∀ s ∈ m, ¬ Ignored t (t.plus.apply s.2 s.2)) ∧
        (t.cfg.joining = true → StaysApart o (fun u => t.plus.apply u u) m) := by
  rw [IMap.addSelf_exact h.lawful (mapWellFormed_iff.1 hm)
    (fun s hs => by rw [Bool.eq_false_iff, Ne, absorbable_iff]; exact hi s hs), staysApart_iff h hm]
  refine and_congr (forall₂_congr fun s hs => ?_) Iff.rfl
  rw [Bool.eq_false_iff, Ne, absorbable_iff]

/-- `m -= m`: see `C40_map_add_self_exact`. -/
theorem C40_map_subtract_self_exact (h : IntervalClass o) (t : MapType V) {m : List (I × V)}
    (hm : MapWellFormed o m) (hi : NoIdentity t m) :
    IMap.subSelf o t m = .ok (m.map fun s => (s.1, t.minus.apply s.2 s.2)) ↔
      (∀ s ∈ m, ¬ Ignored t (t.minus.apply s.2 s.2)) ∧
        (t.cfg.joining = true → StaysApart o (fun u => t.minus.apply u u) m) := by
  rw [IMap.subSelf_exact h.lawful (mapWellFormed_iff.1 hm)
    (fun s hs => by rw [Bool.eq_false_iff, Ne, absorbable_iff]; exact hi s hs), staysApart_iff h hm]
  refine and_congr (forall₂_congr fun s hs => ?_) Iff.rfl
  rw [Bool.eq_false_iff, Ne, absorbable_iff]

example : NoIdentity (exMap true true false) [(Ex.r 0 1, 1), (Ex.r 1 2, (2 : ℤ))] ∧
    MapWellFormed Ex.ro [(Ex.r 0 1, 1), (Ex.r 1 2, (2 : ℤ))] ∧
    IMap.addSelf Ex.ro (exMap true true false) [(Ex.r 0 1, 1), (Ex.r 1 2, 2)] ≠
      .ok [(Ex.r 0 1, 2), (Ex.r 1 2, 4)] := by
  refine ⟨fun s hs => ?_, wellFormed_ro _ (by decide) (by decide), by decide⟩
  simp only [List.mem_cons, List.not_mem_nil, or_false] at hs
  rcases hs with rfl | rfl <;> exact fun e => absurd e.2 (by decide)

/-- `m += m` does nothing, on all maps, if the combination of a value with itself is that value, as for maxima,
minima, and unions of sets. -/
theorem C40_map_add_self_idempotent (h : IntervalClass o) (t : MapType V) (hp : ∀ u, t.plus.apply u u = u)
    {m : List (I × V)} (hm : MapWellFormed o m) (hi : NoIdentity t m)
    (hj : t.cfg.joining = true → MapFullyJoined o m) : IMap.addSelf o t m = .ok m := by
  have := C40_map_add_self_partial h t hm hi (fun s hs => by rw [hp]; exact hi s hs) fun e p s q r em => by
    rcases hj e p s q r em with h1 | h1
    · left; simpa [hp] using h1
    · exact Or.inr h1
  rw [this]
  simp [hp]

example : ∀ u, exMax.plus.apply u u = u := fun u => show (if u < u then u else u) = u by simp

/-- `m -= m` combines the value of each segment with itself by the inverse functor, if no combination is absorbed and,
on an `interval_map`, no segment gets the value of a neighbour that it touches. -/
theorem C40_map_subtract_self_partial (h : IntervalClass o) (t : MapType V) {m : List (I × V)}
    (hm : MapWellFormed o m) (hi : NoIdentity t m) (hs : ∀ s ∈ m, ¬ Ignored t (t.minus.apply s.2 s.2))
    (hj : t.cfg.joining = true → StaysApart o (fun u => t.minus.apply u u) m) :
    IMap.subSelf o t m = .ok (m.map fun s => (s.1, t.minus.apply s.2 s.2)) :=
  IMap.subSelf_ok h.lawful (mapWellFormed_iff.1 hm)
    (fun s hs => by rw [Bool.eq_false_iff, Ne, absorbable_iff]; exact hi s hs)
    (fun s hx => by rw [Bool.eq_false_iff, Ne, absorbable_iff]; exact hs s hx)
    fun e => (hj e).apart h hm

/-- A split_interval_map that does not absorb identities: `{[0,2) -> 1, [2,4) -> 3} -= itself`. -/
example : IMap.subSelf Ex.ro (exMap false false false) [(Ex.r 0 2, 1), (Ex.r 2 4, 3)] =
    .ok [(Ex.r 0 2, 0), (Ex.r 2 4, 0)] := by decide

/-! ### What goes wrong -/

/-- `m += m` can yield a wrong map: `{[0,1) -> 1, [1,2) -> 2} += itself`. The first segment gets the value 2 and is joined
with the second, whose value is then never doubled. -/
theorem C40_counterexample_add :
    IMap.addSelf Ex.ro (exMap true true false) [(Ex.r 0 1, 1), (Ex.r 1 2, 2)] = .ok [(Ex.r 0 2, 2)] ∧
    IMap.addMap Ex.ro (exMap true true false) (fun _ _ => 0) [(Ex.r 0 1, 1), (Ex.r 1 2, 2)]
      [(Ex.r 0 1, 1), (Ex.r 1 2, 2)] = some [(Ex.r 0 1, 2), (Ex.r 1 2, 4)] := by decide

/-- `m -= m` on a non-empty map that absorbs identities (as the default traits do) goes on with an iterator to an
erased segment, if the first value minus itself is the identity element. -/
theorem C40_counterexample_subtract (h : IntervalClass o) (t : MapType V) (ha : t.cfg.absorbs = true) {s : I × V}
    {m : List (I × V)} (hm : MapWellFormed o (s :: m)) (hi : s.2 ≠ t.cfg.ident)
    (hs : t.minus.apply s.2 s.2 = t.cfg.ident) : IMap.subSelf o t (s :: m) = .error .dangling :=
  IMap.subSelf_dangling h.lawful (mapWellFormed_iff.1 hm) (by simp [IMap.absorbable, hi])
    (by simp [IMap.absorbable, ha, hs])

example : IMap.subSelf Ex.ro (exMap true true false) [(Ex.r 0 1, 1)] = .error .dangling := by decide

/-- `m -= m` on an interval_map that does not absorb identities: the second segment of `{[0,1) -> 1, [1,2) -> 2}` is
joined with the first, and the loop goes on with an iterator to it. -/
theorem C40_counterexample_subtract_join :
    IMap.subSelf Ex.ro (exMap true false false) [(Ex.r 0 1, 1), (Ex.r 1 2, 2)] = .error .dangling := by decide

/-- `m ^= m` on an interval_map that does not absorb identities: `{[0,1) -> 1, [1,2) -> 0}`. The first segment gets the
value 0 and is joined with the second, which the loop has yet to visit. -/
theorem C40_counterexample_flip :
    IMap.flipSelf Ex.ro (exMap true false false) (fun _ _ => 0) [(Ex.r 0 1, 1), (Ex.r 1 2, 0)] =
      .error .dangling := by decide

/-- `m.set(*it)`, where `it` is an iterator of `m`: the segment is erased before it is inserted, whatever the map
is. -/
theorem C40_counterexample_set (h : IntervalClass o) (t : MapType V) [DecidableEq I] {z : Zip (I × V)}
    (hm : MapWellFormed o z.toList) : IMap.setNode o t z = .error .dangling :=
  IMap.setNode_dangling h.lawful (mapWellFormed_iff.1 hm)

example : MapWellFormed Ex.ro (Zip.toList ⟨[(Ex.r 0 1, 1)], (Ex.r 1 2, 2), [(Ex.r 4 5, (1 : ℤ))]⟩) :=
  wellFormed_ro _ (by decide) (by decide)

end maps
end ICL.Props
