import Verif.Model.Overflow
import Verif.Theory.HintedAdd

/-!
# Lemmas on values of a bounded type
-/

set_option linter.unusedSectionVars false
set_option linter.unusedVariables false

namespace ICL.IMap
open Spec
variable {D I V : Type} [LinearOrder D] {o : IntervalOps D I} [DecidableEq V] {R : V → Prop} [DecidablePred R]

/-- All values are within the bounds. -/
def AllR (R : V → Prop) (l : List (I × V)) : Prop := ∀ s ∈ l, R s.2

theorem chk_pos {v : V} (hv : R v) : chk R v = some v := if_pos hv

theorem combineR_eq (f : Combiner V) (s : I × V) (v : V) :
    combineR R f s v = if R (f.apply s.2 v) then some (combine f s v) else none := by
  unfold combineR chk combine
  split_ifs <;> rfl

variable {c : MapCfg V} {f : Combiner V} {v : V}

theorem gapInsertR_eq (hv : R (f.version v)) (left : List (I × V)) (k : I) (right : List (I × V)) :
    gapInsertR o R c f left k v right = gapInsert o c f left k v right := by
  unfold gapInsertR gapInsert
  rw [chk_pos hv]
  rfl

theorem gapInsertAtR_eq (hv : R (f.version v)) (left : List (I × V)) (cur : I × V) (right : List (I × V)) (k : I) :
    gapInsertAtR o R c f left cur right k v = gapInsertAt o c f left cur right k v := by
  unfold gapInsertAtR gapInsertAt
  simp only [gapInsertR_eq hv]

theorem addLeadGapR_eq (hv : R (f.version v)) (first : Option (I × V)) (left : List (I × V)) (cur : I × V)
    (right : List (I × V)) (k : I) :
    addLeadGapR o R c f first left cur right k v = addLeadGap o c f first left cur right k v := by
  unfold addLeadGapR addLeadGap
  simp only [gapInsertR_eq hv]

theorem addSegmentR_eq (hv : R (f.version v)) (left : List (I × V)) (cur : I × V) (right : List (I × V)) (k : I) :
    addSegmentR o R c f left cur right k v =
      if R (f.apply cur.2 v) then addSegment o c f left cur right k v else none := by
  unfold addSegmentR addSegment
  rw [addLeadGapR_eq hv, combineR_eq]
  cases addLeadGap o c f (some cur) left cur right k v with
  | none => simp
  | some l => split_ifs <;> simp

theorem addMain_last {left : List (I × V)} {rest : I} {cur : I × V} {mid post : List (I × V)}
    {x : List (I × V) × (I × V) × I} (e : addMain o c f v left rest cur mid post = some x) :
    x.2.1 = (cur :: mid).getLast (by simp) := by
  induction mid generalizing left rest cur with
  | nil => unfold addMain at e; obtain rfl := Option.some.inj e; rfl
  | cons nxt more ih =>
    unfold addMain at e
    cases hs : addSegment o c f left cur (nxt :: more ++ post) rest v with
    | none => rw [hs] at e; cases e
    | some l =>
      simp only [hs, Option.bind_eq_bind, Option.bind_some] at e
      rw [ih e]
      simp

theorem addMainR_eq (hv : R (f.version v)) (left : List (I × V)) (rest : I) (cur : I × V) (mid post : List (I × V)) :
    addMainR o R c f v left rest cur mid post =
      if ∀ s ∈ (cur :: mid).dropLast, R (f.apply s.2 v) then addMain o c f v left rest cur mid post else none := by
  induction mid generalizing left rest cur with
  | nil => simp [addMainR, addMain]
  | cons nxt more ih =>
    unfold addMainR addMain
    rw [addSegmentR_eq hv]
    simp only [List.dropLast_cons_cons, List.forall_mem_cons]
    by_cases h1 : R (f.apply cur.2 v)
    · simp only [h1, if_true, true_and]
      cases addSegment o c f left cur (nxt :: more ++ post) rest v with
      | none => simp
      | some l =>
        simp only [Option.bind_eq_bind, Option.bind_some]
        exact ih _ _ _
    · simp [h1]

theorem addRearR_eq (hv : R (f.version v)) (left : List (I × V)) (cur : I × V) (post : List (I × V)) (k : I) :
    addRearR o R c f v left cur post k =
      if R (f.apply cur.2 v) then addRear o c f v left cur post k else none := by
  unfold addRearR addRear
  rw [addLeadGapR_eq hv]
  cases addLeadGap o c f none left cur post k v with
  | none => simp
  | some l =>
    simp only [Option.bind_eq_bind, Option.bind_some, combineR_eq, gapInsertAtR_eq hv]
    by_cases h1 : R (f.apply cur.2 v)
    · simp only [h1, if_true, Option.bind_some]
      generalize insertAt o mapSeg _ _ post = w
      cases w with
      | none => rfl
      | some z =>
        dsimp only
        cases (if c.joining = true then joinRight o mapSeg z else some z) <;> rfl
    · simp only [h1, if_false, Option.bind_none]
      generalize insertAt o mapSeg _ _ post = w
      cases w with
      | none => simp
      | some z =>
        dsimp only
        cases (if c.joining = true then joinRight o mapSeg z else some z) <;> simp

theorem addFront_val {left : List (I × V)} {cur : I × V} {right : List (I × V)} {k : I}
    {x : List (I × V) × (I × V)} (e : addFront o left cur right k = some x) : x.2.2 = cur.2 := by
  unfold addFront at e
  dsimp only at e
  split_ifs at e
  · obtain rfl := Option.some.inj e; rfl
  · cases hz : insertAt o mapSeg left (o.rightSubtract cur.1 k, cur.2)
        ((o.leftSubtract cur.1 (o.rightSubtract cur.1 k), cur.2) :: right) with
    | none => simp [hz] at e
    | some z =>
      simp only [hz, Option.bind_eq_bind, Option.bind_some, Option.pure_def, Option.some.injEq] at e
      subst e; rfl

/-- The values that are combined, in terms of those before `add_front`. -/
theorem forall_split {P : V → Prop} {g cur : I × V} {b : List (I × V)} (e : cur.2 = g.2) :
    (∀ s ∈ g :: b, P s.2) ↔
      (∀ s ∈ (cur :: b).dropLast, P s.2) ∧ P ((cur :: b).getLast (by simp)).2 := by
  have h1 : (∀ s ∈ g :: b, P s.2) ↔ ∀ s ∈ cur :: b, P s.2 := by simp [e]
  rw [h1]
  have h2 := List.dropLast_append_getLast (l := cur :: b) (by simp)
  conv_lhs => rw [← h2]
  simp only [List.mem_append, List.mem_singleton]
  constructor
  · intro hh
    exact ⟨fun s hs => hh s (Or.inl hs), hh _ (Or.inr rfl)⟩
  · rintro ⟨h3, h4⟩ s (hs | rfl)
    · exact h3 s hs
    · exact h4

theorem addOverR_eq (hv : R (f.version v)) (a : List (I × V)) (g : I × V) (b post : List (I × V)) (k : I) :
    addOverR o R c f a g b post k v =
      if ∀ s ∈ g :: b, R (f.apply s.2 v) then addOver o c f a g b post k v else none := by
  unfold addOverR addOver
  cases hf : addFront o a.reverse g (b ++ post) k with
  | none => simp
  | some x =>
    obtain ⟨left, cur⟩ := x
    have hc : cur.2 = g.2 := addFront_val hf
    simp only [Option.bind_eq_bind, Option.bind_some, addMainR_eq hv]
    rw [if_congr (forall_split (P := fun u => R (f.apply u v)) hc) rfl rfl]
    by_cases h1 : ∀ s ∈ (cur :: b).dropLast, R (f.apply s.2 v)
    · rw [if_congr (and_iff_right h1) rfl rfl]
      simp only [if_pos h1]
      cases hm : addMain o c f v left k cur b post with
      | none => simp
      | some y =>
        obtain ⟨left', cur', rest⟩ := y
        have := addMain_last hm
        dsimp only at this
        simp only [Option.bind_some, addRearR_eq hv, this]
    · rw [if_neg h1, if_neg fun hh => h1 hh.1]
      rfl

theorem subMain_last {left : List (I × V)} {cur : I × V} {mid post : List (I × V)}
    {x : List (I × V) × (I × V)} (e : subMain o c f v left cur mid post = some x) :
    x.2 = (cur :: mid).getLast (by simp) := by
  induction mid generalizing left cur with
  | nil => unfold subMain at e; obtain rfl := Option.some.inj e; rfl
  | cons nxt more ih =>
    unfold subMain at e
    cases hs : handleLeftCombined o c left (combine f cur v) (nxt :: more ++ post) with
    | none => rw [hs] at e; cases e
    | some l =>
      simp only [hs, Option.bind_eq_bind, Option.bind_some] at e
      rw [ih e]
      simp

theorem subMainR_eq (left : List (I × V)) (cur : I × V) (mid post : List (I × V)) :
    subMainR o R c f v left cur mid post =
      if ∀ s ∈ (cur :: mid).dropLast, R (f.apply s.2 v) then subMain o c f v left cur mid post else none := by
  induction mid generalizing left cur with
  | nil => simp [subMainR, subMain]
  | cons nxt more ih =>
    unfold subMainR subMain
    rw [combineR_eq]
    simp only [List.dropLast_cons_cons, List.forall_mem_cons]
    by_cases h1 : R (f.apply cur.2 v)
    · simp only [h1, if_true, true_and, Option.bind_eq_bind, Option.bind_some]
      cases handleLeftCombined o c left (combine f cur v) (nxt :: more ++ post) with
      | none => simp
      | some l =>
        simp only [Option.bind_some]
        exact ih _ _
    · simp [h1]

theorem subRearR_eq (left : List (I × V)) (cur : I × V) (post : List (I × V)) (k : I) :
    subRearR o R c f v left cur post k =
      if R (f.apply cur.2 v) then subRear o c f v left cur post k else none := by
  unfold subRearR subRear
  simp only [combineR_eq]
  by_cases h1 : R (f.apply cur.2 v)
  · simp only [h1, if_true, Option.bind_eq_bind, Option.bind_some]
  · simp only [h1, if_false, Option.bind_eq_bind, Option.bind_none]
    split_ifs
    · rfl
    · simp

/-- The loops of `subtract`. -/
theorem subOverR_eq (left : List (I × V)) (g cur : I × V) (hc : cur.2 = g.2) (b post : List (I × V)) (k : I) :
    (do let (left, cur) ← subMainR o R c f v left cur b post
        subRearR o R c f v left cur post k) =
      if ∀ s ∈ g :: b, R (f.apply s.2 v) then
        (do let (left, cur) ← subMain o c f v left cur b post
            subRear o c f v left cur post k)
      else none := by
  simp only [Option.bind_eq_bind, subMainR_eq]
  rw [if_congr (forall_split (P := fun u => R (f.apply u v)) hc) rfl rfl]
  by_cases h1 : ∀ s ∈ (cur :: b).dropLast, R (f.apply s.2 v)
  · rw [if_congr (and_iff_right h1) rfl rfl]
    simp only [if_pos h1]
    cases hm : subMain o c f v left cur b post with
    | none => simp
    | some y =>
      obtain ⟨left', cur'⟩ := y
      have := subMain_last hm
      dsimp only at this
      simp only [Option.bind_some, subRearR_eq, this]
  · rw [if_neg h1, if_neg fun hh => h1 hh.1]
    rfl

section
variable (h : o.Lawful)
include h

theorem allR_iff {l : List (I × V)} (hl : WF o mapSeg l) :
    AllR R l ↔ ∀ x u, valueAt o l x = some u → R u := by
  constructor
  · intro ha x u hu
    obtain ⟨s, hs, -, rfl⟩ := (valueAt_some hl).1 hu
    exact ha s hs
  · intro hh s hs
    obtain ⟨x, hx⟩ := hl.nonempty s hs
    exact hh x s.2 ((valueAt_some hl).2 ⟨s, hs, hx, rfl⟩)

/-- Which values an update must not take out of bounds. -/
theorem allR_upd {fill : Option V} {l l' : List (I × V)} {k : I} (hl : WF o mapSeg l)
    (hs : UpdSpec o c (upd c f v) fill l k l') (ha : AllR R l) (hi : R c.ident) :
    AllR R l' ↔ (∀ s ∈ l, (∃ x, o.Mem x s.1 ∧ o.Mem x k) → R (f.apply s.2 v)) ∧
      ((∃ x, o.Mem x k ∧ ¬ Dom o mapSeg l x) → ∀ w, fill = some w → R w) := by
  rw [allR_iff h hs.wf]
  have hx := updSpec_at h hl hs
  constructor
  · intro hh
    refine ⟨fun s hm hxx => ?_, ?_⟩
    · obtain ⟨x, h1, h2⟩ := hxx
      have hv : valueAt o l x = some s.2 := (valueAt_some hl).2 ⟨s, hm, h1, rfl⟩
      have := hx x
      rw [if_pos (show o.contains k x = true from h2), hv] at this
      simp only [upd] at this
      split_ifs at this with hab
      · unfold absorbable at hab
        simp only [Bool.and_eq_true, decide_eq_true_eq] at hab
        rw [hab.2]; exact hi
      · exact hh x _ this
    · rintro ⟨x, h1, h2⟩ w rfl
      have := hx x
      rw [if_pos (show o.contains k x = true from h1), valueAt_none.2 h2] at this
      exact hh x _ this
  · rintro ⟨h1, h2⟩ x u hu
    rw [hx] at hu
    split_ifs at hu with hk
    · cases hv : valueAt o l x with
      | none =>
        rw [hv] at hu
        exact h2 ⟨x, hk, valueAt_none.1 hv⟩ u hu
      | some w =>
        rw [hv] at hu
        simp only [upd] at hu
        split_ifs at hu
        obtain rfl := Option.some.inj hu
        obtain ⟨s, hs, hm, rfl⟩ := (valueAt_some hl).1 hv
        exact h1 s hs ⟨x, hm, hk⟩
    · exact (allR_iff h hl).1 ha x u hu

/-- The nodes that overlap `k`. -/
theorem range_forall {P : V → Prop} {a : List (I × V)} {g : I × V} {b p : List (I × V)} {k : I}
    (hr : Range o mapSeg a g b p k) :
    (∀ s ∈ g :: b, P s.2) ↔ ∀ s ∈ a ++ g :: b ++ p, (∃ x, o.Mem x s.1 ∧ o.Mem x k) → P s.2 := by
  constructor
  · intro hh s hs hx
    obtain ⟨x, h1, h2⟩ := hx
    rcases List.mem_append.1 hs with hs | hs
    · rcases List.mem_append.1 hs with hs | hs
      · exact absurd (hr.before x x ⟨s, hs, h1⟩ h2) (lt_irrefl _)
      · exact hh s hs
    · exact absurd (hr.after x x h2 ⟨s, hs, h1⟩) (lt_irrefl _)
  · exact fun hh s hs => hh s (by simp only [List.mem_append]; exact .inl (.inr hs)) (hr.overlap s hs)

/-- `add` fails exactly if a value that it stores is out of bounds, or the value for the gaps, which is computed
even if there are none. -/
theorem addCR_iff {l : List (I × V)} (hl : WF o mapSeg l) (ha : AllR R l) (hi : R c.ident) (k : I) (v : V)
    (y : List (I × V)) :
    addCR o R c f l k v = some y ↔ addC o c f l k v = some y ∧ AllR R y ∧
      (o.Nonempty k → absorbable c v = false → R (f.version v)) := by
  classical
  by_cases hk : o.Nonempty k
  swap
  · have he : o.isEmpty k = true := by
      rw [← Bool.not_eq_false]; intro hf; exact hk ((nonempty_iff h).2 hf)
    unfold addCR addC
    simp only [he, if_true, Option.some.injEq]
    refine ⟨fun e => ⟨e, e ▸ ha, fun hn => absurd hn hk⟩, fun e => e.1⟩
  cases hab : absorbable c v with
  | true =>
    unfold addCR addC
    simp only [hab, if_true, ite_self, Option.some.injEq]
    exact ⟨fun e => ⟨e, e ▸ ha, fun _ hn => by simp at hn⟩, fun e => e.1⟩
  | false =>
    by_cases hver : R (f.version v)
    swap
    · have : addCR o R c f l k v = none := by
        unfold addCR
        rw [isEmpty_false h hk, hab]
        simp [chk, hver]
      rw [this]
      simp [hk, hver]
    simp only [hk, hver, implies_true, and_true]
    obtain ⟨l', el, -, hs⟩ := addC_spec h c f hl k v
    have hs := hs hab
    have key := allR_upd h hl hs ha hi
    have hfill : ∀ w, some (f.version v) = some w → R w := fun w e => Option.some.inj e ▸ hver
    rw [and_iff_left (fun _ => hfill)] at key
    have eqn : addCR o R c f l k v = if ∀ s ∈ l, (∃ x, o.Mem x s.1 ∧ o.Mem x k) → R (f.apply s.2 v)
        then addC o c f l k v else none := by
      unfold addCR addC
      rw [isEmpty_false h hk, hab, chk_pos hver]
      simp only [Bool.false_eq_true, if_false, Option.bind_eq_bind, Option.bind_some]
      rcases range_cases h hl hk with ⟨a, p, e, rfl, h1, h2⟩ | ⟨a, g, b, p, e, rfl, hr⟩
      · rw [if_pos]
        · simp only [e, Option.bind_some]
        · intro s hs hx
          obtain ⟨x, hx1, hx2⟩ := hx
          rcases List.mem_append.1 hs with hs | hs
          · exact absurd (h1 x x ⟨s, hs, hx1⟩ hx2) (lt_irrefl _)
          · exact absurd (h2 x x hx2 ⟨s, hs, hx1⟩) (lt_irrefl _)
      · simp only [e, Option.bind_some, addOverR_eq hver]
        rw [if_congr (range_forall h (P := fun u => R (f.apply u v)) hr) rfl rfl]
    rw [eqn, el]
    split_ifs with hc
    · simp only [Option.some.injEq]
      exact ⟨fun e => ⟨e, e ▸ key.2 hc⟩, fun e => e.1⟩
    · simp only [Option.some.injEq, false_iff, not_and]
      rintro rfl hA
      exact hc (key.1 hA)

/-- `subtract`, for maps that do not store what is missing. -/
theorem subCR_iff {l : List (I × V)} (hl : WF o mapSeg l) (ha : AllR R l) (hi : R c.ident) (k : I) (v : V)
    (y : List (I × V)) :
    subCR o R c f l k v = some y ↔ subC o c f l k v = some y ∧ AllR R y := by
  classical
  by_cases hk : o.Nonempty k
  swap
  · have he : o.isEmpty k = true := by
      rw [← Bool.not_eq_false]; intro hf; exact hk ((nonempty_iff h).2 hf)
    unfold subCR subC
    simp only [he, if_true, Option.some.injEq]
    exact ⟨fun e => ⟨e, e ▸ ha⟩, fun e => e.1⟩
  cases hab : absorbable c v with
  | true =>
    unfold subCR subC
    simp only [hab, if_true, ite_self, Option.some.injEq]
    exact ⟨fun e => ⟨e, e ▸ ha⟩, fun e => e.1⟩
  | false =>
    obtain ⟨l', el, -, hs⟩ := subC_spec h c f hl k v
    have hs := hs hab
    have key := allR_upd h hl hs ha hi
    rw [and_iff_left (fun _ w e => by cases e)] at key
    have eqn : subCR o R c f l k v = if ∀ s ∈ l, (∃ x, o.Mem x s.1 ∧ o.Mem x k) → R (f.apply s.2 v)
        then subC o c f l k v else none := by
      unfold subCR subC
      rw [isEmpty_false h hk, hab]
      simp only [Bool.false_eq_true, if_false]
      rcases range_cases h hl hk with ⟨a, p, e, rfl, h1, h2⟩ | ⟨a, g, b, p, e, rfl, hr⟩
      · rw [if_pos]
        · simp only [e, Option.bind_eq_bind, Option.bind_some]
        · intro s hs hx
          obtain ⟨x, hx1, hx2⟩ := hx
          rcases List.mem_append.1 hs with hs | hs
          · exact absurd (h1 x x ⟨s, hs, hx1⟩ hx2) (lt_irrefl _)
          · exact absurd (h2 x x hx2 ⟨s, hs, hx1⟩) (lt_irrefl _)
      · rw [← if_congr (range_forall h (P := fun u => R (f.apply u v)) hr) rfl rfl]
        simp only [e, Option.bind_eq_bind, Option.bind_some]
        cases hf : addFront o a.reverse g (b ++ p) k with
        | none => simp
        | some x =>
          obtain ⟨left, cur⟩ := x
          exact subOverR_eq left g cur (addFront_val hf) b p k
    rw [eqn, el]
    split_ifs with hc
    · simp only [Option.some.injEq]
      exact ⟨fun e => ⟨e, e ▸ key.2 hc⟩, fun e => e.1⟩
    · simp only [Option.some.injEq, false_iff, not_and]
      rintro rfl hA
      exact hc (key.1 hA)

/-- `add` with a hint. -/
theorem addHintCR_iff {l : List (I × V)} (hl : WF o mapSeg l) (hn : NoIdent c l) (ha : AllR R l) (hi : R c.ident)
    (n : Nat) (k : I) (v : V) (hver : R (f.version v)) (y : List (I × V)) :
    addHintCR o R c f n l k v = some y ↔ addHintC o c f n l k v = some y ∧ AllR R y := by
  classical
  by_cases hk : o.Nonempty k
  swap
  · have he : o.isEmpty k = true := by
      rw [← Bool.not_eq_false]; intro hf; exact hk ((nonempty_iff h).2 hf)
    unfold addHintCR addHintC
    simp only [he, if_true, Option.some.injEq]
    exact ⟨fun e => ⟨e, e ▸ ha⟩, fun e => e.1⟩
  cases hab : absorbable c v with
  | true =>
    unfold addHintCR addHintC
    simp only [hab, if_true, ite_self, Option.some.injEq]
    exact ⟨fun e => ⟨e, e ▸ ha⟩, fun e => e.1⟩
  | false =>
    obtain ⟨l', el, -, hs⟩ := addHintC_gen h c f n hl k v
    obtain ⟨up, u, hs, hup, hu1, hu2⟩ := hs hab
    obtain rfl := hup hn
    have key := allR_upd h hl hs ha hi
    have eqn : addHintCR o R c f n l k v =
        if (∀ s ∈ l, (∃ x, o.Mem x s.1 ∧ o.Mem x k) → R (f.apply s.2 v)) ∧
          ((∃ x, o.Mem x k ∧ ¬ Dom o mapSeg l x) → R u)
        then addHintC o c f n l k v else none := by
      unfold addHintCR addHintC
      rw [isEmpty_false h hk, hab]
      simp only [Bool.false_eq_true, if_false]
      rcases range_cases h hl hk with ⟨a, p, e, rfl, h1, h2⟩ | ⟨a, g, b, p, e, rfl, hr⟩
      · have hd : ∀ x, Dom o mapSeg (a ++ p) x → ¬ o.Mem x k := by
          rintro x ⟨s, hs, hx1⟩ hx2
          rcases List.mem_append.1 hs with hs | hs
          · exact absurd (h1 x x ⟨s, hs, hx1⟩ hx2) (lt_irrefl _)
          · exact absurd (h2 x x hx2 ⟨s, hs, hx1⟩) (lt_irrefl _)
        have hu := hu1 hd
        have hcond : ((∀ s ∈ a ++ p, (∃ x, o.Mem x s.1 ∧ o.Mem x k) → R (f.apply s.2 v)) ∧
          ((∃ x, o.Mem x k ∧ ¬ Dom o mapSeg (a ++ p) x) → R u)) ↔ R (f.apply c.ident v) := by
          rw [hu]
          obtain ⟨x, hx⟩ := hk
          refine ⟨fun hh => hh.2 ⟨x, hx, fun hy => hd x hy hx⟩, fun hh => ⟨fun s hs hxx => ?_, fun _ => hh⟩⟩
          obtain ⟨z, hz1, hz2⟩ := hxx
          exact absurd hz2 (hd z ⟨s, hs, hz1⟩)
        rw [if_congr hcond rfl rfl]
        simp only [e, Option.bind_eq_bind, Option.bind_some, chk]
        split_ifs <;> simp
      · have hu : u = f.version v := hu2 (by
          obtain ⟨x, hx1, hx2⟩ := hr.overlap g (by simp)
          exact ⟨x, ⟨g, by simp, hx1⟩, hx2⟩)
        have hcond : ((∀ s ∈ a ++ g :: b ++ p, (∃ x, o.Mem x s.1 ∧ o.Mem x k) → R (f.apply s.2 v)) ∧
          ((∃ x, o.Mem x k ∧ ¬ Dom o mapSeg (a ++ g :: b ++ p) x) → R u)) ↔ ∀ s ∈ g :: b, R (f.apply s.2 v) := by
          rw [range_forall h (P := fun u => R (f.apply u v)) hr, and_iff_left (fun _ => hu ▸ hver)]
        rw [if_congr hcond rfl rfl]
        simp only [e, Option.bind_eq_bind, Option.bind_some, combineR_eq, addOverR_eq hver]
        by_cases h3 : (o.eq ((g :: b).getD (n % (b.length + 1)) g).1 k &&
            decide (((g :: b).getD (n % (b.length + 1)) g).2 = c.ident)) = true
        · have hm : (g :: b).getD (n % (b.length + 1)) g ∈ g :: b := by
            have hlt : n % (b.length + 1) < (g :: b).length := Nat.mod_lt _ (by simp)
            rw [List.getD_eq_getElem?_getD, List.getElem?_eq_getElem hlt]
            exact List.getElem_mem hlt
          have hc2 : (∀ s ∈ g :: b, R (f.apply s.2 v)) ↔
              R (f.apply ((g :: b).getD (n % (b.length + 1)) g).2 v) := by
            refine ⟨fun hh => hh _ hm, fun hh s hs => ?_⟩
            generalize (g :: b).getD (n % (b.length + 1)) g = q at *
            have hq : q ∈ a ++ g :: b ++ p := List.mem_append.2 (.inl (List.mem_append.2 (.inr hm)))
            have hs' : s ∈ a ++ g :: b ++ p := List.mem_append.2 (.inl (List.mem_append.2 (.inr hs)))
            obtain ⟨x, hx1, hx2⟩ := hr.overlap s hs
            have he := (h.eq_iff _ _ (hl.nonempty q hq) hk).1 (Bool.and_eq_true_iff.1 h3).1
            have e1 := (valueAt_some hl).2 ⟨s, hs', hx1, rfl⟩
            have e2 := (valueAt_some hl).2 ⟨q, hq, (he x).2 hx2, rfl⟩
            have : s.2 = q.2 := Option.some.inj (e1.symm.trans e2)
            rw [this]; exact hh
          simp only [if_pos h3]
          by_cases h4 : R (f.apply ((g :: b).getD (n % (b.length + 1)) g).2 v)
          · rw [if_pos (hc2.2 h4)]
            simp only [if_pos h4, Option.bind_some]
          · rw [if_neg (fun hh => h4 (hc2.1 hh))]
            simp only [if_neg h4, Option.bind_none]
        · simp only [if_neg h3]
    rw [eqn, el]
    rw [show ((∃ x, o.Mem x k ∧ ¬ Dom o mapSeg l x) → ∀ w, some u = some w → R w) ↔
      ((∃ x, o.Mem x k ∧ ¬ Dom o mapSeg l x) → R u) by simp] at key
    split_ifs with hc
    · simp only [Option.some.injEq]
      exact ⟨fun e => ⟨e, e ▸ key.2 hc⟩, fun e => e.1⟩
    · simp only [Option.some.injEq, false_iff, not_and]
      rintro rfl hA
      exact hc (key.1 hA)

omit h in
theorem forEach_out {N : List (I × V) → Prop} {g : List (I × V) → I × V → Option (List (I × V))} {r : List (I × V)}
    (hg : ∀ l, WF o mapSeg l → N l → ∀ s ∈ r, ∃ l', g l s = some l' ∧ WF o mapSeg l' ∧ N l' ∧
      ∀ x, ¬ o.Mem x s.1 → valueAt o l' x = valueAt o l x) :
    ∀ l, WF o mapSeg l → N l → ∀ y, forEach g l r = some y →
      WF o mapSeg y ∧ ∀ x, ¬ Dom o mapSeg r x → valueAt o y x = valueAt o l x := by
  induction r with
  | nil =>
    intro l hl _ y e
    obtain rfl := Option.some.inj e
    exact ⟨hl, fun _ _ => rfl⟩
  | cons s r ih =>
    intro l hl hn y e
    obtain ⟨l1, e1, w1, n1, o1⟩ := hg l hl hn s (by simp)
    simp only [forEach, e1, Option.bind_eq_bind, Option.bind_some] at e
    obtain ⟨a, b⟩ := ih (fun l hl hn s hs => hg l hl hn s (by simp [hs])) l1 w1 n1 y e
    refine ⟨a, fun x hx => ?_⟩
    rw [dom_cons] at hx
    rw [b x (fun hh => hx (.inr hh)), o1 x (fun hh => hx (.inl hh))]

/-- A loop over disjoint segments: its intermediate results have values of the first and the last map only. -/
theorem forEachR_iff {N : List (I × V) → Prop} {g gR : List (I × V) → I × V → Option (List (I × V))}
    {r : List (I × V)} (hr : WF o mapSeg r)
    (hg : ∀ l, WF o mapSeg l → N l → ∀ s ∈ r, ∃ l', g l s = some l' ∧ WF o mapSeg l' ∧ N l' ∧
      ∀ x, ¬ o.Mem x s.1 → valueAt o l' x = valueAt o l x)
    (hR : ∀ l, WF o mapSeg l → N l → AllR R l → ∀ s ∈ r, ∀ y, gR l s = some y ↔ g l s = some y ∧ AllR R y)
    {l : List (I × V)} (hl : WF o mapSeg l) (hn : N l) (ha : AllR R l) (y : List (I × V)) :
    forEach gR l r = some y ↔ forEach g l r = some y ∧ AllR R y := by
  induction r generalizing l with
  | nil =>
    simp only [forEach, Option.some.injEq]
    exact ⟨fun e => ⟨e, e ▸ ha⟩, fun e => e.1⟩
  | cons s r ih =>
    obtain ⟨l1, e1, w1, n1, o1⟩ := hg l hl hn s (by simp)
    have hr' : WF o mapSeg r :=
      ⟨fun q hq => hr.nonempty q (by simp [hq]), (List.pairwise_cons.1 hr.sorted).2⟩
    have ih := @ih hr' (fun l hl hn s hs => hg l hl hn s (by simp [hs]))
      (fun l hl hn ha s hs => hR l hl hn ha s (by simp [hs]))
    have h1 := hR l hl hn ha s (by simp) l1
    simp only [forEach, e1, Option.bind_eq_bind, Option.bind_some]
    constructor
    · intro e
      cases h2 : gR l s with
      | none => rw [h2] at e; cases e
      | some z =>
        obtain ⟨h3, h4⟩ := (hR l hl hn ha s (by simp) z).1 h2
        obtain rfl := Option.some.inj (e1.symm.trans h3)
        rw [h2] at e
        exact (ih w1 n1 h4).1 e
    · rintro ⟨e, hy⟩
      obtain ⟨wy, oy⟩ := forEach_out (fun l hl hn s hs => hg l hl hn s (by simp [hs])) l1 w1 n1 y e
      have a1 : AllR R l1 := by
        rw [allR_iff h w1]
        intro x u hu
        by_cases hx : o.Mem x s.1
        · have hd : ¬ Dom o mapSeg r x := by
            rintro ⟨q, hq, hx'⟩
            exact absurd ((List.pairwise_cons.1 hr.sorted).1 q hq x x hx hx') (lt_irrefl _)
          rw [← oy x hd] at hu
          exact (allR_iff h wy).1 hy x u hu
        · rw [o1 x hx] at hu
          exact (allR_iff h hl).1 ha x u hu
      rw [h1.2 ⟨e1, a1⟩]
      exact (ih w1 n1 a1).2 ⟨e, hy⟩

end

end ICL.IMap
