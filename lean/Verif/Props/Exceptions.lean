import Verif.ThrowSpec
import Verif.Theory.ThrowMapRun
import Verif.Props.MapOps

/-!
# C39: exceptions

What is in a container after one of its functions has been left by an exception: allocation of a node has failed, or
a functor that combines associated values has thrown (it leaves any value `junk` where it was applied).
-/

set_option linter.unusedSectionVars false
set_option linter.unusedVariables false

namespace ICL.Props
open Spec

section sets
variable {D I : Type} [LinearOrder D] {o : IntervalOps D I} [DecidableEq I]

/-! ## Interval sets -/

/-- If no exception is thrown, the operations have the result that they have in the model without exceptions. -/
theorem C39_set_result (E : Option (ElemFns D I)) (st st' : Style) (s r : List I) :
    (∀ c : SetOp D I, (c.runX o E st s).result = c.run o E st s) ∧
    ∀ c : SetOp2 I, (c.runX o st st' s r).result = c.run o st st' s r :=
  ⟨SetOp.runX_result E st s, SetOp2.runX_result st st' s r⟩

/-- Every interval set stays well-formed, and every `interval_set` fully joined, if any operations of its history have
been left by exceptions. -/
theorem C39_set_invariant {E : Option (ElemFns D I)} (h : SetClass o E) {st : Style} {s : List I}
    (hr : XReachable o E st s) : WellFormed o s ∧ (st = .joining → FullyJoined o s) :=
  ⟨wellFormed_iff.2 (hr.good h).1, fun hj => (fullyJoined_iff h.cls.lawful (hr.good h).1).2 ((hr.good h).2 hj)⟩

/-- A split_interval_set: `+= [0,9)`; `+= [3,5)` is left by an exception, `[0,3)` is lost; `+= [4,6)`. -/
theorem ex_xreachable : XReachable Ex.ro (some exE) .splitting [Ex.r 3 4, Ex.r 4 6, Ex.r 6 9] :=
  .op (.add (Ex.r 4 6)) (.op (.add (Ex.r 3 5)) (.op (.add (Ex.r 0 9)) (.empty _)
    (l' := [Ex.r 0 9]) (Or.inl (by decide))) (l' := [Ex.r 3 9]) (Or.inr (by decide))) (Or.inl (by decide))

example : WellFormed Ex.ro [Ex.r 3 4, Ex.r 4 6, Ex.r 6 9] := (C39_set_invariant ex_cls ex_xreachable).1

theorem good_iff (h : IntervalClass o) {st : Style} {s : List I} (hs : WellFormed o s)
    (hj : st = .joining → FullyJoined o s) : Good o st s :=
  ⟨wellFormed_iff.1 hs, fun e => (fullyJoined_iff h.lawful (wellFormed_iff.1 hs)).1 (hj e)⟩

theorem Good.spec (h : IntervalClass o) {st : Style} {s : List I} (hg : Good o st s) :
    WellFormed o s ∧ (st = .joining → FullyJoined o s) :=
  ⟨wellFormed_iff.2 hg.1, fun hj => (fullyJoined_iff h.lawful hg.1).2 (hg.2 hj)⟩

/-- `interval_set` and `separate_interval_set`: `add` and `insert`, with or without a hint, do nothing if they are
left by an exception. -/
theorem C39_set_add_strong (h : IntervalClass o) {st : Style} (hst : st ≠ .splitting) {s : List I}
    (hs : WellFormed o s) (hj : st = .joining → FullyJoined o s) (k : I) (n : Nat) :
    Strong (ISet.addX o st s k) s ∧ Strong (ISet.addHintX o st n s k) s :=
  ⟨fun m hm => (addX_thrown h.lawful st (good_iff h hs hj) k hm).1 hst,
    fun m hm => (addHintX_thrown h.lawful st n (good_iff h hs hj) k hm).1 hst⟩

example : WellFormed Ex.ro [Ex.r 0 2, Ex.r 5 9] ∧
    LeavesBehind (ISet.addX Ex.ro .separating [Ex.r 0 2, Ex.r 5 9] (Ex.r 1 6)) [Ex.r 0 2, Ex.r 5 9] := by
  refine ⟨?_, by unfold LeavesBehind; decide⟩
  exact ex_wf.1

/-- All interval sets, `add` and `insert`: no element is there that was in neither operand; no element of the
added interval is lost, and no element of an interval that does not overlap it. -/
theorem C39_set_add (h : IntervalClass o) (st : Style) {s : List I} (hs : WellFormed o s)
    (hj : st = .joining → FullyJoined o s) (k : I) {m : List I}
    (hm : LeavesBehind (ISet.addX o st s k) m ∨ ∃ n, LeavesBehind (ISet.addHintX o st n s k) m) :
    WellFormed o m ∧ (st = .joining → FullyJoined o m) ∧ (∀ x, Elem o m x → Elem o s x ∨ In o x k) ∧
    ∀ x, Aside o s k x ∨ (Elem o s x ∧ In o x k) → Elem o m x := by
  have key : Leaves o st (fun x => Dom o setSeg s x ∨ o.Mem x k) (Spared o s k) m := by
    rcases hm with hm | ⟨n, hm⟩
    · exact (addX_thrown h.lawful st (good_iff h hs hj) k hm).2
    · exact (addHintX_thrown h.lawful st n (good_iff h hs hj) k hm).2
  obtain ⟨h1, h2⟩ := Good.spec h key.good
  refine ⟨h1, h2, key.upper, fun x hx => key.lower x ?_⟩
  rcases hx with ⟨i, hi, h3, h4⟩ | hx
  · exact Or.inl ⟨i, hi, h4, h3⟩
  · exact Or.inr hx

/-- `{[0,9), [12,15)} += [3,5)`, a split_interval_set. -/
example : LeavesBehind (ISet.addX Ex.ro .splitting [Ex.r 0 9, Ex.r 12 15] (Ex.r 3 5)) [Ex.r 3 9, Ex.r 12 15] ∧
    Aside Ex.ro [Ex.r 0 9, Ex.r 12 15] (Ex.r 3 5) 13 := by
  refine ⟨by unfold LeavesBehind; decide, Ex.r 12 15, by decide, by simp only [In]; decide, fun y h1 h2 => ?_⟩
  simp [In, Ex.ro, rightOpenOps, Ex.r] at h1 h2
  omega

/-- Addition to a split_interval_set can lose elements that are not in the added interval: it does not have the strong
guarantee. -/
theorem C39_counterexample_split_add :
    LeavesBehind (ISet.addX Ex.ro .splitting [Ex.r 0 9] (Ex.r 3 5)) [Ex.r 3 9] ∧
    Elem Ex.ro [Ex.r 0 9] 0 ∧ ¬ Elem Ex.ro [Ex.r 3 9] 0 ∧ ¬ In Ex.ro 0 (Ex.r 3 5) := by
  refine ⟨by unfold LeavesBehind; decide, ⟨Ex.r 0 9, by simp, by simp only [In]; decide⟩, ?_, by simp only [In]; decide⟩
  rintro ⟨i, hi, h1⟩
  simp only [List.mem_singleton] at hi
  subst hi
  revert h1
  simp only [In]; decide

/-- `subtract` and `erase`: no element is there that was not, no element of the subtracted interval is left, and no
interval that does not overlap it is lost. -/
theorem C39_set_subtract (h : IntervalClass o) (st : Style) {s : List I} (hs : WellFormed o s)
    (hj : st = .joining → FullyJoined o s) (k : I) {m : List I}
    (hm : LeavesBehind (ISet.subtractX o s k) m) :
    WellFormed o m ∧ (st = .joining → FullyJoined o m) ∧ (∀ x, Elem o m x → Elem o s x ∧ ¬ In o x k) ∧
    ∀ x, Aside o s k x → Elem o m x := by
  have key := subtractX_thrown h.lawful (good_iff h hs hj) k hm
  obtain ⟨h1, h2⟩ := Good.spec h key.good
  exact ⟨h1, h2, key.upper, fun x ⟨i, hi, h3, h4⟩ => key.lower x ⟨i, hi, h4, h3⟩⟩

/-- `{[0,9), [12,15)} -= [3,5)`: both residuals of `[0,9)` are lost. No interval set has the strong guarantee for
subtraction. -/
theorem C39_counterexample_subtract :
    LeavesBehind (ISet.subtractX Ex.ro [Ex.r 0 9, Ex.r 12 15] (Ex.r 3 5)) [Ex.r 12 15] ∧
    Elem Ex.ro [Ex.r 0 9, Ex.r 12 15] 0 ∧ ¬ Elem Ex.ro [Ex.r 12 15] 0 := by
  refine ⟨by unfold LeavesBehind; decide, ⟨Ex.r 0 9, by simp, by simp only [In]; decide⟩, ?_⟩
  rintro ⟨i, hi, h1⟩
  simp only [List.mem_singleton] at hi
  subst hi
  revert h1
  simp only [In]; decide

/-- Intersection, and assignment from a set of the same type, do nothing if they are left by an exception. -/
theorem C39_set_inter_strong (E : Option (ElemFns D I)) (st st' : Style) (s r : List I)
    (oracle : List I → I → Nat) (k : I) (x : D) :
    Strong ((SetOp.inter oracle k : SetOp D I).runX o E st s) s ∧ Strong ((SetOp.interE x : SetOp D I).runX o E st s) s ∧
    Strong ((SetOp2.inter oracle).runX o st st' s r) s ∧ Strong (SetOp2.copy.runX o st st' s r) s := by
  refine ⟨fun m hm => ?_, fun m hm => ?_, fun m hm => ?_, fun m hm => ?_⟩ <;> unfold LeavesBehind at hm
  · simpa [SetOp.runX] using hm
  · simp only [SetOp.runX, Run.mem_thrown_bind, Run.thrown_ofOption, strongX_thrown, List.mem_singleton,
      List.not_mem_nil, false_or] at hm
    exact hm.choose_spec.2
  · simpa [SetOp2.runX] using hm
  · simpa [SetOp2.runX] using hm

example : LeavesBehind ((SetOp2.inter fun _ _ => 0).runX Ex.ro .joining .joining [Ex.r 0 9] [Ex.r 1 2, Ex.r 3 4])
    [Ex.r 0 9] := by unfold LeavesBehind; decide

/-- `flip` of an interval: no element is there that was in neither operand. -/
theorem C39_set_flip {E : Option (ElemFns D I)} (h : SetClass o E) {st : Style} {s : List I} (hs : WellFormed o s)
    (hj : st = .joining → FullyJoined o s) (k : I) {m : List I}
    (hm : LeavesBehind ((SetOp.flip k : SetOp D I).runX o E st s) m) :
    WellFormed o m ∧ (st = .joining → FullyJoined o m) ∧ ∀ x, Elem o m x → Elem o s x ∨ In o x k := by
  have key := SetOp.runX_bounded h (good_iff h.cls hs hj) _ hm
  obtain ⟨h1, h2⟩ := Good.spec h.cls key.1
  exact ⟨h1, h2, key.2⟩

/-- `{[2,3), [5,6)} ^= [1,9)`: `[2,3)` and `[5,6)` are gone, `[1,2)` has been added, `[3,5)` and `[6,9)` have not. -/
example : LeavesBehind ((SetOp.flip (Ex.r 1 9) : SetOp ℤ (SItv ℤ)).runX Ex.ro (some exE) .separating
    [Ex.r 2 3, Ex.r 5 6]) [Ex.r 1 2] := by unfold LeavesBehind; decide

/-- `+=`, `^=`, `-=` with an interval set: no element is there that was in neither operand (`-=`: in the object). -/
theorem C39_set_binary (h : IntervalClass o) {st st' : Style} {s r : List I} (hs : WellFormed o s)
    (hj : st = .joining → FullyJoined o s) (hr : WellFormed o r) (oracle : List I → I → Nat) {m : List I} :
    (LeavesBehind ((SetOp2.add oracle).runX o st st' s r) m ∨ LeavesBehind ((SetOp2.flip oracle).runX o st st' s r) m →
      WellFormed o m ∧ (st = .joining → FullyJoined o m) ∧ ∀ x, Elem o m x → Elem o s x ∨ Elem o r x) ∧
    (LeavesBehind (SetOp2.sub.runX o st st' s r) m →
      WellFormed o m ∧ (st = .joining → FullyJoined o m) ∧ ∀ x, Elem o m x → Elem o s x) := by
  have hg := good_iff h hs hj
  have hr' : Good o .separating r := ⟨wellFormed_iff.1 hr, by simp⟩
  have spec : ∀ {P : D → Prop}, Bounded o st P m →
      WellFormed o m ∧ (st = .joining → FullyJoined o m) ∧ ∀ x, Elem o m x → P x := by
    intro P hb
    obtain ⟨h1, h2⟩ := Good.spec h hb.1
    exact ⟨h1, h2, hb.2⟩
  constructor
  · rintro (hm | hm)
    · exact spec (SetOp2.runX_bounded (st' := .separating) h hg hr' (.add oracle) hm)
    · exact spec (SetOp2.runX_bounded (st' := .separating) h hg hr' (.flip oracle) hm)
  · intro hm
    exact spec (SetOp2.runX_bounded (st' := .separating) h hg hr' .sub hm)

/-- `{[0,9)} += {[3,5), [12,15)}`, a split_interval_set: the first interval is done, the second is not. -/
example : LeavesBehind ((SetOp2.add fun _ _ => 0).runX Ex.ro .splitting .joining [Ex.r 0 9] [Ex.r 3 5, Ex.r 12 15])
    [Ex.r 0 3, Ex.r 3 5, Ex.r 5 9] := by unfold LeavesBehind; decide

end sets

section maps
variable {D I V : Type} [LinearOrder D] {o : IntervalOps D I} [DecidableEq V]

/-! ## Interval maps -/

/-- If no exception is thrown, the operations have the result that they have in the model without exceptions. -/
theorem C39_map_result [DecidableEq I] (E : Option (ElemFns D I)) (t : MapType V) (junk : V) (m n : List (I × V))
    (r : List I) :
    (∀ c : MapOp D I V, (c.runX o junk E t m).result = c.run o E t m) ∧
    (∀ c : MapOp2 I V, (c.runX o junk t m n).result = c.run o t m n) ∧
    ∀ c : MapOp3 I V, (c.runX o t m r).result = c.run o t m r :=
  ⟨MapOp.runX_result E t m, MapOp2.runX_result t m n, MapOp3.runX_result t m r⟩

/-- Every interval map stays well-formed, if any operations of its history have been left by exceptions. -/
theorem C39_map_invariant [DecidableEq I] {E : Option (ElemFns D I)} (h : SetClass o E) {t : MapType V}
    {m : List (I × V)} (hr : MXReachable o E t m) : MapWellFormed o m :=
  mapWellFormed_iff.2 (hr.wf h)

/-- `+= ([0,9), 1)`; `+= ([3,5), 2)` is left by the functor, which leaves the value 1 unchanged; `-= ([4,6), 1)`. -/
theorem ex_mxreachable : MXReachable Ex.ro (some exE) (exMap true true false)
    [(Ex.r 0 3, 1), (Ex.r 3 4, 1), (Ex.r 6 9, 1)] :=
  .op 0 (.subtract (Ex.r 4 6) 1) (.op 1 (.add (Ex.r 3 5) 2) (.op 0 (.add (Ex.r 0 9) 1) (.empty _)
    (l' := [(Ex.r 0 9, 1)]) (Or.inl (by decide))) (l' := [(Ex.r 0 3, 1), (Ex.r 3 5, 1), (Ex.r 5 9, 1)])
      (Or.inr (by decide))) (Or.inl (by decide))

example : MapWellFormed Ex.ro [(Ex.r 0 3, 1), (Ex.r 3 4, 1), (Ex.r 6 9, 1)] :=
  C39_map_invariant (t := exMap true true false) ex_cls ex_mxreachable

theorem aside_clear {s : List (I × V)} {k : I} {x : D} {w : V} (hx : AssocAside o s k x w) :
    IMap.Clear o s k x w :=
  let ⟨p, hp, h1, h2, h3⟩ := hx
  ⟨p, hp, h3, h1, h2⟩

theorem addX_ignored {junk : V} {c : MapCfg V} {f : Combiner V} {s m : List (I × V)} {k : I} {v : V}
    (hm : m ∈ (IMap.addCX o junk c f s k v).thrown) : IMap.absorbable c v = false := by
  by_contra hv
  unfold IMap.addCX at hm
  split at hm
  · simp at hm
  · rw [if_pos (by simpa using hv)] at hm
    simp at hm

theorem addHintX_ignored {junk : V} {c : MapCfg V} {f : Combiner V} {n : Nat} {s m : List (I × V)} {k : I} {v : V}
    (hm : m ∈ (IMap.addHintCX o junk c f n s k v).thrown) : IMap.absorbable c v = false := by
  by_contra hv
  unfold IMap.addHintCX at hm
  split at hm
  · simp at hm
  · rw [if_pos (by simpa using hv)] at hm
    simp at hm

theorem subX_ignored {junk : V} {c : MapCfg V} {f : Combiner V} {s m : List (I × V)} {k : I} {v : V}
    (hm : m ∈ (IMap.subCX o junk c f s k v).thrown) : IMap.absorbable c v = false := by
  by_contra hv
  unfold IMap.subCX at hm
  split at hm
  · simp at hm
  · rw [if_pos (by simpa using hv)] at hm
    simp at hm

theorem insertX_ignored {c : MapCfg V} {s m : List (I × V)} {k : I} {v : V}
    (hm : m ∈ (IMap.insertX o c s k v).thrown) : IMap.absorbable c v = false := by
  by_contra hv
  unfold IMap.insertX at hm
  split at hm
  · simp at hm
  · rw [if_pos (by simpa using hv)] at hm
    simp at hm

theorem addB_spec {t : MapType V} {f : Combiner V} {v junk : V} {s : List (I × V)} (hs : WF o mapSeg s) {k : I}
    (hv : IMap.absorbable t.cfg v = false) {x : D} {w : V} (hb : IMap.AddB o t.cfg f v junk s k x w) :
    Assoc o s x w ∨ (In o x k ∧ (combined t f v (valueAt o s x) = some w ∨ (Key o s x ∧ junk = w))) := by
  rcases hb with hb | ⟨hk, ⟨hd, rfl⟩ | ⟨u, hu, he⟩ | ⟨hd, rfl⟩⟩
  · exact Or.inl hb
  · refine Or.inr ⟨hk, Or.inl ?_⟩
    rw [valueAt_none.2 hd, combined_eq]
    simp [IMap.addF, hv]
  · refine Or.inr ⟨hk, Or.inl ?_⟩
    rw [(valueAt_some hs).2 hu, combined_eq]
    rw [IMap.upd] at he
    simpa [IMap.addF, IMap.keep, hv] using he
  · exact Or.inr ⟨hk, Or.inr ⟨hd, rfl⟩⟩

/-- `add`: every association that is there was there before, or is the right one after the addition, or is a
value that the functor has left at an element where it was applied; no segment that does not overlap the operand is
lost. -/
theorem C39_map_add (h : IntervalClass o) (t : MapType V) (junk : V) {s : List (I × V)} (hs : MapWellFormed o s)
    (k : I) (v : V) {m : List (I × V)} (hm : LeavesBehind (IMap.addSegX o junk t s k v) m) :
    MapWellFormed o m ∧
    (∀ x w, Assoc o m x w → Assoc o s x w ∨
      (In o x k ∧ (added t v (valueAt o s x) = some w ∨ (Key o s x ∧ junk = w)))) ∧
    ∀ x w, AssocAside o s k x w → Assoc o m x w := by
  have hw := mapWellFormed_iff.1 hs
  have key := IMap.addCX_thrown h.lawful hw hm
  exact ⟨mapWellFormed_iff.2 key.wf, fun x w hx => addB_spec hw (addX_ignored hm) (key.upper x w hx),
    fun x w hx => key.lower x w (aside_clear hx)⟩

/-- `{[0,9) -> 1, [12,15) -> 1} += ([3,11), 2)`: the functor throws on the last node to be changed; on the way
the state after every single step can be left behind. -/
example : LeavesBehind (IMap.addSegX Ex.ro 7 (exMap true true false) [(Ex.r 0 9, 1), (Ex.r 12 15, 1)] (Ex.r 3 11) 2)
    [(Ex.r 0 3, 1), (Ex.r 3 9, 7), (Ex.r 12 15, 1)] := by unfold LeavesBehind; decide

/-- `add` with a hint: as `add`, but the functor can leave its value at any element of the operand. -/
theorem C39_map_add_hint (h : IntervalClass o) (t : MapType V) (junk : V) (n : Nat) {s : List (I × V)}
    (hs : MapWellFormed o s) (k : I) (v : V) {m : List (I × V)}
    (hm : LeavesBehind (IMap.addSegHintX o junk t n s k v) m) :
    MapWellFormed o m ∧
    (∀ x w, Assoc o m x w → Assoc o s x w ∨ (In o x k ∧ (added t v (valueAt o s x) = some w ∨ junk = w))) ∧
    ∀ x w, AssocAside o s k x w → Assoc o m x w := by
  have hw := mapWellFormed_iff.1 hs
  have key := IMap.addHintCX_thrown h.lawful hw hm
  refine ⟨mapWellFormed_iff.2 key.wf, fun x w hx => ?_, fun x w hx => key.lower x w (aside_clear hx)⟩
  rcases key.upper x w hx with h1 | ⟨h1, h2⟩
  · rcases addB_spec hw (addHintX_ignored hm) h1 with h2 | ⟨h2, h3 | h3⟩
    · exact Or.inl h2
    · exact Or.inr ⟨h2, Or.inl h3⟩
    · exact Or.inr ⟨h2, Or.inr h3.2⟩
  · exact Or.inr ⟨h1, Or.inr h2⟩

example : LeavesBehind (IMap.addSegHintX Ex.ro 7 (exMap true true false) 0 [(Ex.r 0 2, 1)] (Ex.r 3 5) 2)
    [(Ex.r 0 2, 1), (Ex.r 3 5, 7)] := by unfold LeavesBehind; decide

/-- `subtract` -/
theorem C39_map_subtract (h : IntervalClass o) (t : MapType V) (junk : V) {s : List (I × V)}
    (hs : MapWellFormed o s) (k : I) (v : V) {m : List (I × V)}
    (hm : LeavesBehind (IMap.subSegX o junk t s k v) m) :
    MapWellFormed o m ∧
    (∀ x w, Assoc o m x w → Assoc o s x w ∨
      (In o x k ∧ (subtracted t v (valueAt o s x) = some w ∨ (Key o s x ∧ junk = w)))) ∧
    ∀ x w, AssocAside o s k x w → Assoc o m x w := by
  have hw := mapWellFormed_iff.1 hs
  unfold LeavesBehind IMap.subSegX at hm
  split at hm
  · rename_i hc
    rw [Bool.and_eq_true] at hc
    have key := IMap.addCX_thrown h.lawful hw hm
    refine ⟨mapWellFormed_iff.2 key.wf, fun x w hx => ?_, fun x w hx => key.lower x w (aside_clear hx)⟩
    have := addB_spec hw (addX_ignored hm) (key.upper x w hx)
    rcases this with h1 | ⟨h1, h2 | h2⟩
    · exact Or.inl h1
    · refine Or.inr ⟨h1, Or.inl ?_⟩
      cases hva : valueAt o s x with
      | none => rw [hva] at h2; simpa [subtracted, hc.1, hc.2] using h2
      | some u => rw [hva] at h2; exact h2
    · exact Or.inr ⟨h1, Or.inr h2⟩
  · have key := IMap.subCX_thrown h.lawful hw hm
    have hv := subX_ignored hm
    refine ⟨mapWellFormed_iff.2 key.wf, fun x w hx => ?_, fun x w hx => key.lower x w (aside_clear hx)⟩
    rcases key.upper x w hx with h1 | ⟨h1, ⟨u, hu, he⟩ | ⟨hd, rfl⟩⟩
    · exact Or.inl h1
    · refine Or.inr ⟨h1, Or.inl ?_⟩
      rw [(valueAt_some hw).2 hu]
      show combined t t.minus v (some u) = some w
      rw [combined_eq]
      rw [IMap.upd] at he
      simpa [IMap.addF, IMap.keep, hv] using he
    · exact Or.inr ⟨h1, Or.inr ⟨hd, rfl⟩⟩

example : LeavesBehind (IMap.subSegX Ex.ro 7 (exMap true true false) [(Ex.r 0 9, 1), (Ex.r 12 15, 1)] (Ex.r 3 13) 1)
    [(Ex.r 0 3, 1), (Ex.r 12 13, 1)] := by unfold LeavesBehind; decide

/-- `insert`, with or without a hint: nothing is lost; an association that is new is one of the inserted. -/
theorem C39_map_insert (h : IntervalClass o) (t : MapType V) {s : List (I × V)} (hs : MapWellFormed o s)
    (k : I) (v : V) {m : List (I × V)}
    (hm : LeavesBehind (IMap.insertX o t.cfg s k v) m ∨
      ∃ n p, LeavesBehind (IMap.insertHintX o t.cfg n p s k v) m) :
    MapWellFormed o m ∧
    (∀ x w, Assoc o m x w → Assoc o s x w ∨ (In o x k ∧ ¬ Key o s x ∧ w = v)) ∧
    ∀ x w, Assoc o s x w → Assoc o m x w := by
  have key : MLeaves o (IMap.InsB o v s k) (Maps o mapSeg s) m := by
    rcases hm with hm | ⟨n, p, hm⟩
    · exact IMap.insertX_thrown h.lawful (mapWellFormed_iff.1 hs) hm
    · exact IMap.insertHintX_thrown h.lawful (mapWellFormed_iff.1 hs) hm
  refine ⟨mapWellFormed_iff.2 key.wf, fun x w hx => ?_, key.lower⟩
  rcases key.upper x w hx with h1 | ⟨h1, h2, h3⟩
  · exact Or.inl h1
  · exact Or.inr ⟨h1, h2, h3.symm⟩

/-- `{[2,4) -> 1, [6,8) -> 1}.insert([0,9), 5)`: one gap has been filled, two have not. -/
example : LeavesBehind (IMap.insertX Ex.ro (exMap true true false).cfg [(Ex.r 2 4, 1), (Ex.r 6 8, 1)] (Ex.r 0 9) 5)
    [(Ex.r 0 2, 5), (Ex.r 2 4, 1), (Ex.r 6 8, 1)] := by unfold LeavesBehind; decide

/-- `erase`, of a segment or of an interval: nothing is there that was not, nothing to be erased is left, and no
segment that does not overlap the operand is lost. -/
theorem C39_map_erase (h : IntervalClass o) (t : MapType V) {s : List (I × V)} (hs : MapWellFormed o s)
    (k : I) (v : V) {m : List (I × V)}
    (hm : LeavesBehind (IMap.eraseSegX o t.cfg s k v) m ∨ LeavesBehind (IMap.eraseItvX o s k) m) :
    MapWellFormed o m ∧ (∀ x w, Assoc o m x w → Assoc o s x w ∧ ¬ In o x k) ∧
    ∀ x w, AssocAside o s k x w → Assoc o m x w := by
  have key : MLeaves o (fun x w => Maps o mapSeg s x w ∧ ¬ o.Mem x k) (IMap.Clear o s k) m := by
    rcases hm with hm | hm
    · exact IMap.eraseSegX_thrown h.lawful (mapWellFormed_iff.1 hs) hm
    · exact IMap.eraseItvX_thrown h.lawful (mapWellFormed_iff.1 hs) hm
  exact ⟨mapWellFormed_iff.2 key.wf, key.upper, fun x w hx => key.lower x w (aside_clear hx)⟩

example : LeavesBehind (IMap.eraseItvX Ex.ro [(Ex.r 0 9, (1 : ℤ)), (Ex.r 12 15, 1)] (Ex.r 3 5))
    [(Ex.r 0 3, 1), (Ex.r 12 15, 1)] := by unfold LeavesBehind; decide

/-- `set`: the old values of the operand's elements are gone, or its new value is there. -/
theorem C39_map_set (h : IntervalClass o) (t : MapType V) {s : List (I × V)} (hs : MapWellFormed o s)
    (k : I) (v : V) {m : List (I × V)} (hm : LeavesBehind (IMap.setAtX o t.cfg s k v) m) :
    MapWellFormed o m ∧
    (∀ x w, Assoc o m x w → (Assoc o s x w ∧ ¬ In o x k) ∨ (In o x k ∧ w = v)) ∧
    ∀ x w, AssocAside o s k x w → Assoc o m x w := by
  have key := IMap.setAtX_thrown h.lawful (mapWellFormed_iff.1 hs) hm
  refine ⟨mapWellFormed_iff.2 key.wf, fun x w hx => ?_, fun x w hx => key.lower x w (aside_clear hx)⟩
  rcases key.upper x w hx with h1 | h1
  · exact Or.inl h1
  · exact Or.inr ⟨h1.1, h1.2.symm⟩

/-- `{[0,9) -> 1}.set([0,9), 2)`: the map is empty. `set` does not have the strong guarantee. -/
theorem C39_counterexample_set :
    LeavesBehind (IMap.setAtX Ex.ro (exMap true true false).cfg [(Ex.r 0 9, 1)] (Ex.r 0 9) 2) [] := by
  unfold LeavesBehind; decide

variable [DecidableEq I]

/-- Intersections do nothing if they are left by an exception. -/
theorem C39_map_inter_strong (E : Option (ElemFns D I)) (t : MapType V) (junk : V) (s n : List (I × V)) (r : List I)
    (oracle : List (I × V) → I → Nat) (k : I) (v : V) :
    Strong ((MapOp.inter oracle k v : MapOp D I V).runX o junk E t s) s ∧
    Strong ((MapOp.interKeys oracle k : MapOp D I V).runX o junk E t s) s ∧
    Strong ((MapOp2.inter oracle).runX o junk t s n) s ∧ Strong ((MapOp3.inter oracle).runX o t s r) s := by
  refine ⟨fun m hm => ?_, fun m hm => ?_, fun m hm => ?_, fun m hm => ?_⟩ <;> unfold LeavesBehind at hm
  · simpa [MapOp.runX] using hm
  · simpa [MapOp.runX] using hm
  · simpa [MapOp2.runX] using hm
  · simpa [MapOp3.runX] using hm

example : LeavesBehind ((MapOp2.inter fun _ _ => 0).runX Ex.ro 0 (exMap true true false) [(Ex.r 0 9, 1)] [(Ex.r 1 2, 2)])
    [(Ex.r 0 9, 1)] := by unfold LeavesBehind; decide

/-- `+=`, `-=`, `insert`, `erase`, and `^=` of a partial map, with an interval map: at elements that are not in the
operand there is no value that was not there before. -/
theorem C39_map_binary (h : IntervalClass o) (t : MapType V) (junk : V) {s r : List (I × V)} (hs : MapWellFormed o s)
    (hr : MapWellFormed o r) (c : MapOp2 I V) (hc : t.cfg.total = false ∨ ∀ oracle, c ≠ .flip oracle)
    {m : List (I × V)} (hm : LeavesBehind (c.runX o junk t s r) m) :
    MapWellFormed o m ∧ ∀ x w, Assoc o m x w → Assoc o s x w ∨ Key o r x := by
  have key := MapOp2.runX_bounded h.lawful (mapWellFormed_iff.1 hs) (mapWellFormed_iff.1 hr) c hm
  refine ⟨mapWellFormed_iff.2 key.1, fun x w hx => ?_⟩
  rcases key.2 x w hx with h1 | h1 | ⟨⟨oracle, h1⟩, h2, _⟩
  · exact Or.inl h1
  · exact Or.inr h1
  · rcases hc with hc | hc
    · rw [hc] at h2; cases h2
    · exact absurd h1 (hc oracle)

example : LeavesBehind ((MapOp2.add fun _ _ => 0).runX Ex.ro 7 (exMap true true false)
    [(Ex.r 0 9, 1)] [(Ex.r 0 2, 1), (Ex.r 4 6, 1)]) [(Ex.r 0 2, 2), (Ex.r 2 4, 1), (Ex.r 4 6, 7), (Ex.r 6 9, 1)] := by
  unfold LeavesBehind; decide

/-- `^=` of a total map: no key is there that was in neither operand. -/
theorem C39_map_flip_total (h : IntervalClass o) (t : MapType V) (junk : V) {s r : List (I × V)}
    (hs : MapWellFormed o s) (hr : MapWellFormed o r) (oracle : List (I × V) → I → Nat)
    {m : List (I × V)} (hm : LeavesBehind ((MapOp2.flip oracle).runX o junk t s r) m) :
    MapWellFormed o m ∧ ∀ x, Key o m x → Key o s x ∨ Key o r x := by
  have key := MapOp2.runX_bounded h.lawful (mapWellFormed_iff.1 hs) (mapWellFormed_iff.1 hr) (.flip oracle) hm
  refine ⟨mapWellFormed_iff.2 key.1, fun x hx => ?_⟩
  obtain ⟨w, hw⟩ := dom_iff.1 (key_iff.1 hx)
  rcases key.2 x w hw with h1 | h1 | ⟨_, _, h1⟩
  · exact Or.inl h1.dom
  · exact Or.inr h1
  · exact Or.inl h1

example : LeavesBehind ((MapOp2.flip fun _ _ => 0).runX Ex.ro 7 (exMap true false true)
    [(Ex.r 0 9, 1), (Ex.r 12 15, 1)] [(Ex.r 10 11, 1)]) [(Ex.r 0 9, 0), (Ex.r 10 11, 7), (Ex.r 12 15, 1)] := by
  unfold LeavesBehind; decide

/-- `flip` of a segment: at elements outside of it nothing is there that was not there before; in a total map, whose
values `flip` replaces, no key. -/
theorem C39_map_flip {E : Option (ElemFns D I)} (h : SetClass o E) (t : MapType V) (junk : V) {s : List (I × V)}
    (hs : MapWellFormed o s) (oracle : List (I × V) → I → Nat) (k : I) (v : V) {m : List (I × V)}
    (hm : LeavesBehind ((MapOp.flip oracle k v : MapOp D I V).runX o junk E t s) m) :
    MapWellFormed o m ∧
    (t.cfg.total = false → ∀ x w, Assoc o m x w → Assoc o s x w ∨ In o x k) ∧
    ∀ x, Key o m x → Key o s x ∨ In o x k := by
  have key := MapOp.runX_bounded h (mapWellFormed_iff.1 hs) _ hm
  refine ⟨mapWellFormed_iff.2 key.1, fun ht x w hx => ?_, fun x hx => ?_⟩
  · rcases key.2 x w hx with h1 | h1 | ⟨h1, _⟩
    · exact Or.inl h1
    · exact Or.inr h1
    · rw [MapOp.FlipsTotal, ht] at h1; cases h1
  · obtain ⟨w, hw⟩ := dom_iff.1 (key_iff.1 hx)
    rcases key.2 x w hw with h1 | h1 | ⟨_, h1⟩
    · exact Or.inl h1.dom
    · exact Or.inr h1
    · exact Or.inl h1

example : LeavesBehind ((MapOp.flip (fun _ _ => 0) (Ex.r 1 4) 1 : MapOp ℤ (SItv ℤ) ℤ).runX Ex.ro 7 (some exE)
    (exMap true true false) [(Ex.r 2 3, 1), (Ex.r 5 6, 1)]) [(Ex.r 2 3, 1), (Ex.r 5 6, 1)] := by
  unfold LeavesBehind; decide

/-- `erase` with an interval set: nothing is there that was not. -/
theorem C39_map_erase_set (h : IntervalClass o) (t : MapType V) {s : List (I × V)} {r : List I}
    (hs : MapWellFormed o s) {m : List (I × V)} (hm : LeavesBehind ((MapOp3.erase : MapOp3 I V).runX o t s r) m) :
    MapWellFormed o m ∧ ∀ x w, Assoc o m x w → Assoc o s x w := by
  have key := MapOp3.runX_bounded h.lawful (mapWellFormed_iff.1 hs) .erase hm
  exact ⟨mapWellFormed_iff.2 key.1, key.2⟩

example : LeavesBehind ((MapOp3.erase : MapOp3 (SItv ℤ) ℤ).runX Ex.ro (exMap true true false) [(Ex.r 0 9, 1)]
    [Ex.r 1 2, Ex.r 4 5]) [(Ex.r 0 1, 1), (Ex.r 2 4, 1)] := by unfold LeavesBehind; decide

/-- `erase_if`: an exception of the predicate leaves the segments that have not been erased so far. -/
theorem C39_map_erase_if (p : I × V → Bool) {s m : List (I × V)} (hm : LeavesBehind (IMap.eraseIfX p [] s) m) :
    ∃ a b, s = a ++ b ∧ m = a.filter (fun q => !p q) ++ b := by
  have key : ∀ (l kept : List (I × V)), m ∈ (IMap.eraseIfX p kept l).thrown →
      ∃ a b, l = a ++ b ∧ m = kept.reverse ++ a.filter (fun q => !p q) ++ b := by
    intro l
    induction l with
    | nil => intro kept hm; simp [IMap.eraseIfX] at hm
    | cons q l ih =>
      intro kept hm
      simp only [IMap.eraseIfX, Run.mem_thrown_bind, Run.thrown_mayThrow, List.mem_singleton] at hm
      rcases hm with rfl | ⟨_, _, hm⟩
      · exact ⟨[], q :: l, rfl, by simp⟩
      · split at hm
        · rename_i hq
          obtain ⟨a, b, rfl, rfl⟩ := ih kept hm
          exact ⟨q :: a, b, rfl, by simp [hq]⟩
        · rename_i hq
          obtain ⟨a, b, rfl, rfl⟩ := ih (q :: kept) hm
          exact ⟨q :: a, b, rfl, by simp [hq]⟩
  obtain ⟨a, b, h1, h2⟩ := key s [] hm
  exact ⟨a, b, h1, by simpa using h2⟩

example : LeavesBehind (IMap.eraseIfX (fun q : SItv ℤ × ℤ => decide (q.2 = 1)) []
    [(Ex.r 0 1, 1), (Ex.r 2 4, 2), (Ex.r 5 6, 1)]) [(Ex.r 2 4, 2), (Ex.r 5 6, 1)] := by unfold LeavesBehind; decide

/-- An `interval_map` need not be joined after an exception, even if the functor has not changed anything:
`{[0,9) -> 1} += ([3,5), 2)`. -/
theorem C39_counterexample_joined :
    LeavesBehind (IMap.addSegX Ex.ro 1 (exMap true true false) [(Ex.r 0 9, 1)] (Ex.r 3 5) 2)
      [(Ex.r 0 3, 1), (Ex.r 3 5, 1), (Ex.r 5 9, 1)] ∧
    ¬ MapFullyJoined Ex.ro [(Ex.r 0 3, (1 : ℤ)), (Ex.r 3 5, 1), (Ex.r 5 9, 1)] := by
  refine ⟨by unfold LeavesBehind; decide, fun hj => ?_⟩
  rcases hj [] _ _ _ rfl with h1 | ⟨z, h1, h2⟩
  · exact h1 rfl
  · have h1 := h1 2 (by simp only [In]; decide)
    have h2 := h2 3 (by simp only [In]; decide)
    omega

/-- A map that absorbs identity elements can hold one after an exception: `{} += ([0,2), 5)` with a hint (as in
`m += n`), the functor has not changed anything. -/
theorem C39_counterexample_identity :
    LeavesBehind (IMap.addSegHintX Ex.ro 0 (exMap true true false) 0 [] (Ex.r 0 2) 5) [(Ex.r 0 2, 0)] ∧
    (exMap true true false).cfg.absorbs = true ∧ (exMap true true false).cfg.ident = 0 := by
  refine ⟨by unfold LeavesBehind; decide, rfl, rfl⟩

end maps
end ICL.Props
