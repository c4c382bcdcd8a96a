import Verif.Theory.MapAdd

/-!
# Addition with a hint and subtraction of a segment: interval maps
-/

set_option linter.unusedSectionVars false
set_option linter.unusedSimpArgs false
set_option linter.unusedVariables false

namespace ICL

variable {D I V : Type} [LinearOrder D] {o : IntervalOps D I}

namespace IMap
variable [DecidableEq V]

/-- A map that absorbs identities stores none. -/
def NoIdent (c : MapCfg V) (l : List (I × V)) : Prop := ∀ s ∈ l, absorbable c s.2 = false

section
variable (h : o.Lawful)
include h

/-- A node with the same elements as `k` is the only one that overlaps with `k`. -/
theorem range_eq {a : List (I × V)} {g : I × V} {b p : List (I × V)} {k : I}
    (hr : Range o mapSeg a g b p k) {t : I × V} (ht : t ∈ g :: b) (he : o.eq t.1 k = true) :
    b = [] ∧ t = g ∧ ∀ x, o.Mem x g.1 ↔ o.Mem x k := by
  have hwm : WF o mapSeg (g :: b) := (wf_append.1 (wf_append.1 hr.wf).1).2.1
  have hkn : o.Nonempty k := by
    obtain ⟨x, _, hxk⟩ := hr.overlap t ht
    exact ⟨x, hxk⟩
  have hmem := (h.eq_iff t.1 k (hwm.nonempty t ht) hkn).1 he
  have hall : ∀ s ∈ g :: b, s = t := by
    intro s hs
    obtain ⟨x, hx, hxk⟩ := hr.overlap s hs
    exact hwm.unique hs ht hx ((hmem x).2 hxk)
  have hb : b = [] := by
    cases b with
    | nil => rfl
    | cons b0 b =>
      have e1 := hall g (by simp)
      have e2 := hall b0 (by simp)
      have hw := wf_cons.1 hwm
      obtain ⟨x, hx⟩ := hw.1
      have := hw.2.2 x x hx (by rw [dom_cons, e2, ← e1]; exact Or.inl hx)
      exact absurd this (lt_irrefl _)
  subst hb
  have : g = t := hall g (by simp)
  subst this
  exact ⟨rfl, rfl, hmem⟩

/-- `add(hint, segment)`: as `add(segment)`, but a segment that overlaps with nothing gets the value
`identity ⊕ v` instead of the version of `v`. -/
theorem addHintC_gen (c : MapCfg V) (f : Combiner V) (oracle : Nat) {l : List (I × V)}
    (hl : WF o mapSeg l) (k : I) (v : V) :
    ∃ l', addHintC o c f oracle l k v = some l' ∧
      (absorbable c v = true → l' = l) ∧
      (absorbable c v = false → ∃ up u, UpdSpec o c up (some u) l k l' ∧
        (NoIdent c l → up = upd c f v) ∧
        ((∀ x, Dom o mapSeg l x → ¬ o.Mem x k) → u = f.apply c.ident v) ∧
        ((∃ x, Dom o mapSeg l x ∧ o.Mem x k) → u = f.version v)) := by
  unfold addHintC
  by_cases hk : o.Nonempty k
  · rw [isEmpty_false h hk]
    simp only [Bool.false_eq_true, if_false]
    cases hv : absorbable c v with
    | true => exact ⟨l, by simp, by simp, by simp⟩
    | false =>
      simp only [Bool.false_eq_true, if_false]
      rcases range_cases h hl hk with ⟨a, p, e, rfl, h1, h2⟩ | ⟨a, g, b, p, e, rfl, hr⟩
      · obtain ⟨l', e', hs⟩ := insertFree_spec h c (upd c f v) (u := f.apply c.ident v) hl hk h1 h2
        refine ⟨l', by simp only [e, Option.bind_eq_bind, Option.bind_some]; exact e', by simp,
          fun _ => ⟨_, _, hs, fun _ => rfl, fun _ => rfl, ?_⟩⟩
        rintro ⟨x, hx, hxk⟩
        rw [dom_append] at hx
        rcases hx with hx | hx
        · exact absurd (h1 x x hx hxk) (lt_irrefl _)
        · exact absurd (h2 x x hxk hx) (lt_irrefl _)
      · simp only [e, Option.bind_eq_bind, Option.bind_some]
        have hov : ∃ x, Dom o mapSeg (a ++ g :: b ++ p) x ∧ o.Mem x k := by
          obtain ⟨x, hx, hxk⟩ := hr.overlap g (by simp)
          exact ⟨x, by simp only [dom_append, dom_cons]; exact Or.inl (Or.inr (Or.inl hx)), hxk⟩
        have hfill : ((∀ x, Dom o mapSeg (a ++ g :: b ++ p) x → ¬ o.Mem x k) →
            f.version v = f.apply c.ident v) := by
          intro hno
          obtain ⟨x, hx, hxk⟩ := hov
          exact absurd hxk (hno x hx)
        split
        · rename_i hcond
          simp only [Bool.and_eq_true, decide_eq_true_eq] at hcond
          have hmem : (g :: b).getD (oracle % (b.length + 1)) g ∈ g :: b := by
            rw [List.getD_eq_getElem?_getD]
            cases hq : (g :: b)[oracle % (b.length + 1)]? with
            | none => simp
            | some t => simpa using List.mem_of_getElem? hq
          obtain ⟨rfl, hfg, hgk⟩ := range_eq h hr hmem hcond.1
          have hgid : g.2 = c.ident := by rw [← hfg]; exact hcond.2
          simp only [List.length_nil, Nat.zero_add, Nat.mod_one, List.take_zero, List.reverse_nil,
            List.nil_append, List.drop_one, List.tail_cons, List.getD_cons_zero, List.drop_succ_cons,
            List.drop_zero]
          have hw1 := wf_append.1 hr.wf
          have hw2 := wf_append.1 hw1.1
          have hw3 := wf_cons.1 hw2.2.1
          have hwz : WF o mapSeg (Zip.toList ⟨a.reverse, combine f g v, p⟩) := by
            have := hr.wf
            simp only [Zip.toList, List.reverse_reverse]
            simp only [List.append_assoc, List.cons_append, List.nil_append] at this
            have h1 := wf_append.1 this
            have h2 := wf_cons.1 h1.2.1
            rw [wf_append, wf_cons]
            refine ⟨h1.1, ⟨h2.1, h2.2.1, h2.2.2⟩, fun x y hx hy => h1.2.2 x y hx ?_⟩
            rw [dom_cons] at hy ⊢
            exact hy
          obtain ⟨z, e', hwz', hj, hjo⟩ := handleInserted_spec h c hwz
          refine ⟨z.toList, by simp [e'], by simp, fun _ => ⟨fun u => some (f.apply u v), f.version v,
            ⟨hwz', fun x y w hd => ?_, fun hc hjl => hjo hc ?_ ?_⟩, fun hn => ?_, hfill, fun _ => rfl⟩⟩
          · rw [hj x y w hd, eff_range h hr]
            simp only [Zip.toList, joint_append, joint_reverse, joint_cons, combine, Eff, joint_nil,
              or_false, dom_cons, dom_nil, mapSeg_key, Option.some.injEq]
            have hx := hgk x
            have hy := hgk y
            have hb := btw_left x y
            constructor
            · rintro (h1 | h1 | h1)
              · exact Or.inl h1
              · exact Or.inr (Or.inr (Or.inl ⟨hx.1 h1.1, hy.1 h1.2.1,
                  Or.inl ⟨g.2, ⟨h1.1, h1.2.1, rfl⟩, h1.2.2⟩⟩))
              · exact Or.inr (Or.inl h1)
            · rintro (h1 | h1 | (⟨h1, h2, (⟨u, ⟨h3, h4, rfl⟩, h5⟩ | ⟨_, h3⟩)⟩ | ⟨h1, h2⟩))
              · exact Or.inl h1
              · exact Or.inr (Or.inr h1)
              · exact Or.inr (Or.inl ⟨h3, h4, h5⟩)
              · exact absurd (hx.2 h1) (h3 x hb)
              · exact absurd (hx.1 h2.1) (h1 x hb)
          · exact joined_reverse.2 (hjl.mono (by simp +contextual))
          · exact hjl.mono (by simp +contextual)
          · have hab : c.absorbs = false := by
              have := hn g (by simp)
              simpa [absorbable, hgid] using this
            funext u
            simp [upd, absorbable, hab]
        · obtain ⟨l', e', hs⟩ := addOver_spec h c f hv hr
          exact ⟨l', e', by simp, fun _ => ⟨_, _, hs, fun _ => rfl, hfill, fun _ => rfl⟩⟩
  · rw [(empty_iff h).2 hk]
    refine ⟨l, by simp, by simp, fun _ => ⟨_, f.apply c.ident v, updSpec_empty h c _ _ hl hk, fun _ => rfl, fun _ => rfl, ?_⟩⟩
    rintro ⟨x, _, hx⟩
    exact absurd ⟨x, hx⟩ hk

theorem addHintC_spec (c : MapCfg V) (f : Combiner V) (oracle : Nat) {l : List (I × V)}
    (hl : WF o mapSeg l) (hn : NoIdent c l) (k : I) (v : V) :
    ∃ l', addHintC o c f oracle l k v = some l' ∧
      (absorbable c v = true → l' = l) ∧
      (absorbable c v = false → ∃ u, UpdSpec o c (upd c f v) (some u) l k l' ∧
        ((∀ x, Dom o mapSeg l x → ¬ o.Mem x k) → u = f.apply c.ident v) ∧
        ((∃ x, Dom o mapSeg l x ∧ o.Mem x k) → u = f.version v)) := by
  obtain ⟨l', e, h1, h2⟩ := addHintC_gen h c f oracle hl k v
  refine ⟨l', e, h1, fun hv => ?_⟩
  obtain ⟨up, u, hs, hu, h3⟩ := h2 hv
  obtain rfl := hu hn
  exact ⟨u, hs, h3⟩

/-! ### Subtraction -/

/-- `handle_succeeded_combined`. -/
theorem handleSucceededCombined_spec (c : MapCfg V) {left : List (I × V)} {cur next : I × V}
    {right : List (I × V)} (hw : WF o mapSeg (left.reverse ++ cur :: next :: right)) :
    ∃ l, handleSucceededCombined o c left cur next right = some l ∧ WF o mapSeg l ∧
      (∀ x y w, Dg c x y → (Joint o l x y w ↔ Joint o left x y w ∨ Joint o (next :: right) x y w ∨
        (absorbable c cur.2 = false ∧ o.Mem x cur.1 ∧ o.Mem y cur.1 ∧ cur.2 = w))) ∧
      (c.joining = true → Joined o mapSeg left → Joined o mapSeg right → Joined o mapSeg l) := by
  have hw1 := wf_append.1 hw
  have hw2 := wf_cons.1 hw1.2.1
  have hw3 := wf_cons.1 hw2.2.1
  have hlc : ∀ x y, Dom o mapSeg left x → o.Mem y cur.1 → x < y :=
    fun x y hx hy => hw1.2.2 x y (by simpa using hx) (by rw [dom_cons]; exact Or.inl hy)
  unfold handleSucceededCombined
  cases ha : absorbable c cur.2 with
  | true =>
    have hwz : WF o mapSeg (Zip.toList ⟨left, next, right⟩) := by
      simp only [Zip.toList]
      exact wf_append.2 ⟨hw1.1, hw2.2.1, fun x y hx hy => hw1.2.2 x y hx (by rw [dom_cons]; exact Or.inr hy)⟩
    simp only [if_true]
    cases hc : c.joining with
    | false =>
      refine ⟨_, rfl, hwz, fun x y w hd => ?_, by simp⟩
      simp only [Zip.toList, joint_append, joint_reverse, joint_cons]
      clear * -
      grind
    | true =>
      obtain ⟨z, e, hwz', hm, hzl, _, hjn, hjo⟩ := joinRight_spec h mapSeg_lawful hwz
      refine ⟨z.toList, by simp [e], hwz', fun x y w hd => ?_, fun _ hjl hjr => ?_⟩
      · rw [jointEq_of_maps hc hm x y w hd]
        simp only [Zip.toList, joint_append, joint_reverse, joint_cons]
        clear * -
        grind
      · simp only [Zip.toList] at hwz' ⊢
        rw [joined_append h hwz']
        refine ⟨joined_reverse.2 (hzl ▸ hjl), hjo hjr, ?_⟩
        intro p q hp hq
        simp only [List.head?_cons, Option.some.injEq] at hq
        subst hq
        have hp' : p ∈ left := by have := List.mem_of_getLast? hp; rw [hzl] at this; simpa using this
        have hpn := hw1.1.nonempty p (by simpa using hp')
        rw [hjn p hpn fun x y hx hy => hw1.2.2 x y ⟨p, by simpa using hp', hx⟩
          (by rw [dom_cons, dom_cons]; exact Or.inr (Or.inl hy))]
        refine joinable_false_of_touches h (not_touches_of_between h hpn hw2.1 hw3.1 ?_ ?_)
        · intro x y hx hy; exact hlc x y ⟨p, hp', hx⟩ hy
        · intro x y hx hy; exact hw2.2.2 x y hx (by rw [dom_cons]; exact Or.inl hy)
  | false =>
    simp only [Bool.false_eq_true, if_false]
    obtain ⟨l1, e1, hl1, hj1, hjo1⟩ := joinedLeft_spec h c (next :: right) hw1.1 hw2.1 hlc
    have hwz : WF o mapSeg (Zip.toList ⟨l1, next, right⟩) := by
      simp only [Zip.toList]
      refine wf_append.2 ⟨hl1, hw2.2.1, fun x y hx hy => ?_⟩
      rw [dom_reverse, hj1.dom, dom_cons] at hx
      rcases hx with hx | hx
      · exact hw2.2.2 x y hx hy
      · exact hw1.2.2 x y (by simpa using hx) (by rw [dom_cons]; exact Or.inr hy)
    obtain ⟨z, e2, hw', hj2, hjo2⟩ := handleInserted_spec h c hwz
    refine ⟨z.toList, ?_, hw', fun x y w hd => ?_, fun hc hjl hjr => hjo2 hc (hjo1 hc hjl) hjr⟩
    · cases hc : c.joining with
      | false =>
        simp only [hc, Bool.false_eq_true, if_false, Option.some.injEq] at e1
        subst e1
        simp only [handleInserted, hc, Bool.false_eq_true, if_false, Option.some.injEq] at e2
        simp [e2]
      | true =>
        simp only [hc, if_true] at e1
        simp only [handleInserted, hc, if_true] at e2
        cases hz : joinLeft o mapSeg ⟨left, cur, next :: right⟩ with
        | none => rw [hz] at e1; simp at e1
        | some z0 =>
          rw [hz] at e1
          simp only [Option.map_some, Option.some.injEq] at e1
          simp only [if_true, Option.bind_eq_bind, Option.bind_some, e1, e2, Option.map_some]
    · rw [hj2 x y w hd]
      simp only [Zip.toList, joint_append, joint_reverse]
      rw [hj1 x y w hd]
      simp only [joint_cons]
      clear * -
      grind

/-- The state of `subtract_main`/`subtract_rear`. -/
structure SInv (o : IntervalOps D I) (left : List (I × V)) (cur : I × V) (mid post : List (I × V))
    (k : I) : Prop where
  wfl : WF o mapSeg left.reverse
  wfr : WF o mapSeg (cur :: mid ++ post)
  sep : ∀ x y, Dom o mapSeg left x → Dom o mapSeg (cur :: mid ++ post) y → x < y
  overlap : ∀ s ∈ cur :: mid, ∃ x, o.Mem x s.1 ∧ o.Mem x k
  front : ∀ x, o.Mem x cur.1 → ∃ y, o.Mem y k ∧ y ≤ x

/-- A step of `subtract_main`. -/
theorem eff_cons_none {up : V → Option V} {cur : I × V} {mid : List (I × V)} {k : I}
    (hc : ∀ x, o.Mem x cur.1 → o.Mem x k) (x y : D) (w : V) :
    Eff o up none (cur :: mid) k x y w ↔
      (o.Mem x cur.1 ∧ o.Mem y cur.1 ∧ up cur.2 = some w) ∨ Eff o up none mid k x y w := by
  simp only [Eff, joint_cons, reduceCtorEq, false_and, or_false]
  constructor
  · rintro (⟨hx, hy, u, (⟨h1, h2, rfl⟩ | h1), hu⟩ | ⟨hn, (h1 | h1)⟩)
    · exact Or.inl ⟨h1, h2, hu⟩
    · exact Or.inr (Or.inl ⟨hx, hy, u, h1, hu⟩)
    · exact absurd (hc x h1.1) (hn x (btw_left x y))
    · exact Or.inr (Or.inr ⟨hn, h1⟩)
  · rintro (⟨h1, h2, hu⟩ | ⟨hx, hy, u, h1, hu⟩ | ⟨hn, h1⟩)
    · exact Or.inl ⟨hc x h1, hc y h2, cur.2, Or.inl ⟨h1, h2, rfl⟩, hu⟩
    · exact Or.inl ⟨hx, hy, u, Or.inr h1, hu⟩
    · exact Or.inr ⟨hn, Or.inr h1⟩

/-- `subtract_rear`. -/
theorem subRear_spec (c : MapCfg V) (f : Combiner V) (v : V)
    {left : List (I × V)} {cur : I × V} {post : List (I × V)} {k : I}
    (hk : o.Nonempty k) (hi : SInv o left cur [] post k) :
    ∃ l, subRear o c f v left cur post k = some l ∧ WF o mapSeg l ∧
      (∀ x y w, Dg c x y → (Joint o l x y w ↔ Joint o left x y w ∨ Joint o post x y w ∨
        Eff o (upd c f v) none [cur] k x y w)) ∧
      (c.joining = true → Joined o mapSeg left → Joined o mapSeg (cur :: post) → Joined o mapSeg l) := by
  have hwr : WF o mapSeg (cur :: post) := by simpa using hi.wfr
  have hwr' := wf_cons.1 hwr
  simp only [mapSeg_key] at hwr'
  have hsep : ∀ x y, Dom o mapSeg left x → Dom o mapSeg (cur :: post) y → x < y := by
    simpa using hi.sep
  have heff := eff_last h (up := upd c f v) (fill := none) hwr'.1 hk hi.front
  have hlc : ∀ x y, Dom o mapSeg left x → o.Mem y cur.1 → x < y :=
    fun x y hx hy => hsep x y hx (by simp [hy])
  unfold subRear
  dsimp only
  cases he2 : o.isEmpty (o.leftSubtract cur.1 k) with
  | true =>
    simp only [if_true]
    rw [h.isEmpty_iff] at he2
    have hwz : WF o mapSeg (Zip.toList ⟨left, combine f cur v, post⟩) := by
      simp only [Zip.toList]
      rw [wf_append, wf_cons]
      refine ⟨hi.wfl, ⟨hwr'.1, hwr'.2.1, hwr'.2.2⟩, fun x y hx hy => ?_⟩
      exact hsep x y (by simpa using hx) (by rw [dom_cons] at hy ⊢; exact hy)
    obtain ⟨l, e, hw, hj, hjo⟩ := handleCombined_spec h c hwz
    refine ⟨l, e, hw, fun x y w hd => ?_, fun hc hjl hjr => hjo hc hjl (hjr.mono (by simp +contextual))⟩
    rw [hj x y w hd, heff x y w]
    have hsub : ∀ x, o.Mem x cur.1 → o.Mem x k := by
      intro x hx
      rcases (mem_rightResid h hk hi.front x).2 hx with h1 | h1
      · exact h1
      · exact absurd h1 (he2 x)
    have hno := he2 x
    simp only [upd_eq, combine, reduceCtorEq, and_false, false_or]
    have h1 := hsub x
    have h2 := hsub y
    clear * - h1 h2 hno
    grind
  | false =>
    simp only [Bool.false_eq_true, if_false]
    have hne : o.Nonempty (o.leftSubtract cur.1 k) := (nonempty_iff h).2 he2
    have hrr := h.mem_leftSubtract cur.1 k
    have hc' := fun x => (mem_rightResid h hk hi.front x).1
    obtain ⟨w, hwc, hwr0⟩ := hi.overlap cur (by simp)
    have hne' : o.Nonempty (o.rightSubtract cur.1 (o.leftSubtract cur.1 k)) :=
      ⟨w, (hc' w).2 ⟨hwc, hwr0⟩⟩
    have hcrr : ∀ x y, o.Mem x (o.rightSubtract cur.1 (o.leftSubtract cur.1 k)) →
        o.Mem y (o.leftSubtract cur.1 k) → x < y :=
      fun x y hx hy => ((hrr y).1 hy).2 x ((hc' x).1 hx).2
    have hrp : ∀ x y, o.Mem x (o.leftSubtract cur.1 k) → Dom o mapSeg post y → x < y :=
      fun x y hx hy => hwr'.2.2 x y ((hrr x).1 hx).1 hy
    have hwn : WF o mapSeg ((o.leftSubtract cur.1 k, cur.2) :: post) := by
      rw [wf_cons]; exact ⟨hne, hwr'.2.1, hrp⟩
    rw [insertAt_eq h]
    rotate_left
    · intro p hp
      rcases List.mem_cons.1 hp with rfl | hp
      · exact hne'
      · exact hi.wfl.nonempty p (by simpa using hp)
    · exact hwr'.2.1.nonempty
    · exact hne
    · intro x y hx hy
      rw [dom_cons] at hx
      rcases hx with hx | hx
      · exact hcrr x y hx hy
      · exact hlc x y hx ((hrr y).1 hy).1
    · exact hrp
    simp only [Option.bind_eq_bind, Option.bind_some]
    have hwz : WF o mapSeg (left.reverse ++ combine f (o.rightSubtract cur.1 (o.leftSubtract cur.1 k), cur.2) v
        :: (o.leftSubtract cur.1 k, cur.2) :: post) := by
      simp only [combine]
      rw [wf_append]
      refine ⟨hi.wfl, ?_, fun x y hx hy => ?_⟩
      · rw [wf_cons]
        refine ⟨hne', hwn, fun x y hx hy => ?_⟩
        rw [dom_cons] at hy
        rcases hy with hy | hy
        · exact hcrr x y hx hy
        · exact hwr'.2.2 x y ((hc' x).1 hx).1 hy
      · rw [dom_reverse] at hx
        simp only [dom_cons, mapSeg_key, hc'] at hy
        rcases hy with hy | hy | hy
        · exact hlc x y hx hy.1
        · exact hlc x y hx ((hrr y).1 hy).1
        · exact hsep x y hx (by simp [hy])
    obtain ⟨l, e, hw, hj, hjo⟩ := handleSucceededCombined_spec h c hwz
    refine ⟨l, e, hw, fun x y w hd => ?_, fun hc hjl hjr => hjo hc hjl (hjr.mono (by simp +contextual))⟩
    rw [hj x y w hd, heff x y w]
    simp only [combine, upd_eq, hc', joint_cons, reduceCtorEq, and_false, false_or]
    clear * -
    grind

/-- A step of `subtract_main`. -/
theorem sub_step (c : MapCfg V) (f : Combiner V) (v : V)
    {left : List (I × V)} {cur nxt : I × V} {more post : List (I × V)} {k : I}
    (hi : SInv o left cur (nxt :: more) post k) :
    ∃ l2, handleLeftCombined o c left (combine f cur v) (nxt :: more ++ post) = some l2 ∧
      (∀ x, o.Mem x cur.1 → o.Mem x k) ∧ SInv o l2 nxt more post k ∧
      (∀ x y w, Dg c x y → (Joint o l2 x y w ↔ Joint o left x y w ∨
        (o.Mem x cur.1 ∧ o.Mem y cur.1 ∧ upd c f v cur.2 = some w))) ∧
      (c.joining = true → Joined o mapSeg left → Joined o mapSeg l2) := by
  have hwr := hi.wfr
  rw [List.cons_append] at hwr
  have hwr' := wf_cons.1 hwr
  simp only [mapSeg_key] at hwr'
  obtain ⟨w0, hwn0, hwk0⟩ := hi.overlap nxt (by simp)
  have hck : ∀ x, o.Mem x cur.1 → o.Mem x k := by
    intro x hx
    obtain ⟨y, hy, hyx⟩ := hi.front x hx
    exact h.convex k y x w0 hy hwk0 hyx (hwr'.2.2 x w0 hx (by simp [hwn0])).le
  obtain ⟨l2, e2, hw2, hj2, hjo2⟩ := handleLeftCombined_spec h c (left := left) (s := combine f cur v)
    (nxt :: more ++ post) hi.wfl hwr'.1 (fun x y hx hy => hi.sep x y hx (by simp; exact Or.inl hy))
  have hj : ∀ x y w, Dg c x y → (Joint o l2 x y w ↔ Joint o left x y w ∨
      (o.Mem x cur.1 ∧ o.Mem y cur.1 ∧ upd c f v cur.2 = some w)) := by
    intro x y w hd
    rw [hj2 x y w hd, upd_eq]
    simp only [combine]
    clear * -
    grind
  have hi' : SInv o l2 nxt more post k := by
    refine ⟨hw2, hwr'.2.1, ?_, ?_, ?_⟩
    · intro x y hx hy
      obtain ⟨u, hu⟩ := dom_iff_joint.1 hx
      rcases (hj x x u (dg_self c x)).1 hu with hx | hx
      · exact hi.sep x y hx.left (by rw [List.cons_append, dom_cons]; exact Or.inr hy)
      · exact hwr'.2.2 x y hx.1 hy
    · intro s hs
      exact hi.overlap s (by simp only [List.mem_cons] at hs ⊢; tauto)
    · intro x hx
      obtain ⟨u, hu⟩ := hwr'.1
      exact ⟨u, hck u hu, (hwr'.2.2 u x hu (by simp [hx])).le⟩
  exact ⟨l2, e2, hck, hi', hj, hjo2⟩

/-- `subtract_main` followed by `subtract_rear`. -/
theorem subMainRear_spec (c : MapCfg V) (f : Combiner V) (v : V)
    {left : List (I × V)} {cur : I × V} {mid post : List (I × V)} {k : I}
    (hk : o.Nonempty k) (hi : SInv o left cur mid post k) :
    ∃ l, (do
        let (left, cur) ← subMain o c f v left cur mid post
        subRear o c f v left cur post k) = some l ∧ WF o mapSeg l ∧
      (∀ x y w, Dg c x y → (Joint o l x y w ↔ Joint o left x y w ∨ Joint o post x y w ∨
        Eff o (upd c f v) none (cur :: mid) k x y w)) ∧
      (c.joining = true → Joined o mapSeg left → Joined o mapSeg (cur :: mid ++ post) →
        Joined o mapSeg l) := by
  induction mid generalizing left cur with
  | nil => simpa [subMain] using subRear_spec h c f v hk hi
  | cons nxt more ih =>
    obtain ⟨l2, e2, hck, hi', hj, hjo2⟩ := sub_step h c f v hi
    obtain ⟨l, e, hw, hjl, hjo⟩ := ih hi'
    refine ⟨l, ?_, hw, fun x y w hd => ?_, fun hc hjl hjr => ?_⟩
    · simp only [subMain, Option.bind_eq_bind, Option.bind_some, e2]
      simpa using e
    · rw [hjl x y w hd, hj x y w hd, eff_cons_none h hck x y w]
      clear * -
      grind
    · exact hjo hc (hjo2 hc hjl) (hjr.mono (by simp +contextual))

/-- `subtract(segment)`: the values of the elements of `k` are combined with `v`, and removed if the result is
absorbed. -/
theorem subC_spec (c : MapCfg V) (f : Combiner V) {l : List (I × V)} (hl : WF o mapSeg l) (k : I) (v : V) :
    ∃ l', subC o c f l k v = some l' ∧
      (absorbable c v = true → l' = l) ∧
      (absorbable c v = false → UpdSpec o c (upd c f v) none l k l') := by
  unfold subC
  by_cases hk : o.Nonempty k
  · rw [isEmpty_false h hk]
    simp only [Bool.false_eq_true, if_false]
    cases hv : absorbable c v with
    | true => exact ⟨l, by simp, by simp, by simp⟩
    | false =>
      simp only [Bool.false_eq_true, if_false]
      rcases range_cases h hl hk with ⟨a, p, e, rfl, h1, h2⟩ | ⟨a, g, b, p, e, rfl, hr⟩
      · refine ⟨a ++ p, by simp only [e, Option.bind_eq_bind, Option.bind_some], by simp, fun _ =>
          ⟨hl, fun x y w _ => ?_, fun _ hj => hj⟩⟩
        rw [eff_free _ h]
        · simp
        · intro x hx hxk
          rw [dom_append] at hx
          rcases hx with hx | hx
          · exact absurd (h1 x x hx hxk) (lt_irrefl _)
          · exact absurd (h2 x x hxk hx) (lt_irrefl _)
      · obtain ⟨left, cur, e1, hi, hj1, hjo1⟩ := addFront_spec h hr
        obtain ⟨l', e', hw, hj, hjo⟩ := subMainRear_spec h c f v hk
          ⟨hi.wfl, hi.wfr, hi.sep, hi.overlap, hi.front⟩
        refine ⟨l', ?_, by simp, fun _ => ⟨hw, fun x y w hd => ?_, fun hc hjl => hjo hc (hjo1 hjl).1 (hjo1 hjl).2⟩⟩
        · simp only [e, e1, Option.bind_eq_bind, Option.bind_some]
          exact e'
        · rw [hj x y w hd, eff_range h hr]
          have := eff_front h (up := upd c f v) (fill := none) hr hi hj1 x y w
          clear * - this
          grind
  · rw [(empty_iff h).2 hk]
    exact ⟨l, by simp, by simp, fun _ => updSpec_empty h c _ _ hl hk⟩

end
end IMap
end ICL
