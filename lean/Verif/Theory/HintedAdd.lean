import Verif.Theory.MapPlain
import Verif.Theory.MapBridge

/-!
# Hinted additions to interval maps, for all functors
-/

set_option linter.unusedSectionVars false
set_option linter.unusedVariables false

namespace ICL
open Spec IMap

variable {D I V : Type} [LinearOrder D] {o : IntervalOps D I} [DecidableEq V]

namespace IMap

section
variable (h : o.Lawful)
include h

/-- The values after `add(hint, segment)`. -/
theorem addHint_at (t : MapType V) (n : Nat) {l : List (I × V)} (hl : WF o mapSeg l) (hn : NoIdent t.cfg l) (k : I)
    (v : V) : ∃ l' u, addHint o t n l k v = some l' ∧ WF o mapSeg l' ∧
      (t.cfg.joining = true → Joined o mapSeg l → Joined o mapSeg l') ∧
      ((∀ x, Dom o mapSeg l x → ¬ o.Mem x k) → u = t.plus.apply t.cfg.ident v) ∧
      ((∃ x, Dom o mapSeg l x ∧ o.Mem x k) → u = t.plus.version v) ∧
      ∀ x, valueAt o l' x = if o.contains k x then (if absorbable t.cfg v then valueAt o l x else
        match valueAt o l x with | none => some u | some w => keep t.cfg (t.plus.apply w v)) else valueAt o l x := by
  obtain ⟨l', e, h1, h2⟩ := addHintC_gen h t.cfg t.plus n hl k v
  cases hv : absorbable t.cfg v with
  | true =>
    obtain rfl := h1 hv
    by_cases hd : ∃ x, Dom o mapSeg l' x ∧ o.Mem x k
    · exact ⟨l', t.plus.version v, e, hl, fun _ hj => hj, fun hx => absurd hd (by simpa using hx), fun _ => rfl,
        fun x => by simp⟩
    · exact ⟨l', t.plus.apply t.cfg.ident v, e, hl, fun _ hj => hj, fun _ => rfl, fun hx => absurd hx hd,
        fun x => by simp⟩
  | false =>
    obtain ⟨up, u, hs, hup, hu1, hu2⟩ := h2 hv
    refine ⟨l', u, e, hs.wf, hs.joined, hu1, hu2, fun x => ?_⟩
    rw [updSpec_at h hl hs, hup hn]
    cases o.contains k x <;> cases valueAt o l x <;> simp [upd, keep]

/-- The values after `add(hint, segment)` with a segment that overlaps with nothing. -/
theorem addHint_apart (t : MapType V) (n : Nat) {l : List (I × V)} (hl : WF o mapSeg l) (k : I)
    (v : V) (hd : ∀ x, Dom o mapSeg l x → ¬ o.Mem x k) : ∃ l', addHint o t n l k v = some l' ∧ WF o mapSeg l' ∧
      (t.cfg.joining = true → Joined o mapSeg l → Joined o mapSeg l') ∧
      ∀ x, valueAt o l' x = if o.contains k x then
        (if absorbable t.cfg v then none else some (t.plus.apply t.cfg.ident v)) else valueAt o l x := by
  obtain ⟨l', e, h1, h2⟩ := addHintC_gen h t.cfg t.plus n hl k v
  have hx : ∀ x, o.contains k x = true → valueAt o l x = none := fun x hx => valueAt_none.2 fun hy => hd x hy hx
  cases hv : absorbable t.cfg v with
  | true =>
    obtain rfl := h1 hv
    refine ⟨l', e, hl, fun _ hj => hj, fun x => ?_⟩
    cases hc : o.contains k x <;> simp [hx x, hc]
  | false =>
    obtain ⟨up, u, hs, hup, hu1, hu2⟩ := h2 hv
    refine ⟨l', e, hs.wf, hs.joined, fun x => ?_⟩
    rw [updSpec_at h hl hs, hu1 hd]
    cases hc : o.contains k x <;> simp [hx x, hc]

/-- The values after adding a map that has no keys in common with the object. -/
theorem addMap_apart (t : MapType V) (oracle : List (I × V) → I → Nat) {l r : List (I × V)} (hl : WF o mapSeg l)
    (hr : WF o mapSeg r) (hd : ∀ x, Dom o mapSeg l x → ¬ Dom o mapSeg r x) :
    ∃ l', addMap o t oracle l r = some l' ∧ WF o mapSeg l' ∧
      (t.cfg.joining = true → Joined o mapSeg l → Joined o mapSeg l') ∧
      ∀ x, valueAt o l' x = match valueAt o r x with
        | none => valueAt o l x
        | some v => if absorbable t.cfg v then none else some (t.plus.apply t.cfg.ident v) := by
  unfold addMap
  induction r generalizing l with
  | nil => exact ⟨l, rfl, hl, fun _ hj => hj, fun x => by simp [valueAt_nil]⟩
  | cons s r ih =>
    have hw := wf_cons.1 hr
    obtain ⟨l1, e1, w1, j1, v1⟩ := addHint_apart h t (oracle l s.1) hl s.1 s.2
      fun x hx hk => hd x hx ((dom_cons _ _ _).2 (.inl hk))
    have d1 : ∀ x, Dom o mapSeg l1 x → ¬ Dom o mapSeg r x := by
      intro x hx hy
      have h1 : valueAt o l1 x ≠ none := fun hn => valueAt_none.1 hn hx
      rw [v1] at h1
      cases hc : o.contains s.1 x with
      | true => exact lt_irrefl _ (hw.2.2 x x hc hy)
      | false =>
        rw [hc] at h1
        simp only [Bool.false_eq_true, if_false] at h1
        exact hd x (by by_contra hn; exact h1 (valueAt_none.2 hn)) ((dom_cons _ _ _).2 (.inr hy))
    obtain ⟨l2, e2, w2, j2, v2⟩ := ih w1 hw.2.1 d1
    refine ⟨l2, by simp only [forEach, e1, Option.bind_eq_bind, Option.bind_some]; exact e2, w2,
      fun hj h0 => j2 hj (j1 hj h0), fun x => ?_⟩
    rw [v2, v1, valueAt_cons]
    cases hc : o.contains s.1 x with
    | false => simp
    | true =>
      have : valueAt o r x = none := valueAt_none.2 fun hy => lt_irrefl _ (hw.2.2 x x hc hy)
      simp [this]

/-- Conversion to an interval map, for all functors. -/
theorem assign_at (t : MapType V) (ht : t.cfg.joining = true) (oracle : List (I × V) → I → Nat)
    {src : List (I × V)} (hw : WF o mapSeg src) : ∃ l', assign o t oracle src = some l' ∧ WF o mapSeg l' ∧
      Joined o mapSeg l' ∧ ∀ x, valueAt o l' x = (valueAt o src x).bind fun v =>
        if absorbable t.cfg v then none else some (t.plus.apply t.cfg.ident v) := by
  unfold assign
  simp only [ht, if_true]
  obtain ⟨l', e, w, j, v⟩ := addMap_apart h t oracle wf_nil hw (fun x hx => by simp at hx)
  refine ⟨l', e, w, j ht joined_nil, fun x => ?_⟩
  rw [v]
  cases valueAt o src x <;> simp [valueAt_nil]

/-- What an addition to the identity element yields is not absorbed. -/
def HintSafe (t : MapType V) : Prop :=
  ∀ v, absorbable t.cfg v = false → absorbable t.cfg (t.plus.apply t.cfg.ident v) = false

/-- Well-formed and free of identity elements. -/
def Clean (o : IntervalOps D I) (c : MapCfg V) (l : List (I × V)) : Prop := WF o mapSeg l ∧ NoIdent c l

omit h in
theorem clean_nil (c : MapCfg V) : Clean o c [] := ⟨wf_nil, noIdent_nil _⟩

omit h in
theorem Clean.pt {c : MapCfg V} {N : Prop} {l l' : List (I × V)} {r : Option (List (I × V))}
    {φ : D → Option V → Option V} (hl : Clean o c l) (p : ∃ l', r = some l' ∧ Pt o c N l l' φ) (hN : N)
    (e : r = some l') : Clean o c l' := by
  obtain ⟨l1, e1, p⟩ := p
  rw [e] at e1; cases e1
  exact ⟨p.wf, p.noIdent hN hl.2⟩

omit h in
theorem Clean.each {c : MapCfg V} {S : Type} {f : List (I × V) → S → Option (List (I × V))}
    {l l' : List (I × V)} {r : List S} (hl : Clean o c l) (e : forEach f l r = some l')
    (hf : ∀ l l' s, Clean o c l → f l s = some l' → Clean o c l') : Clean o c l' := by
  induction r generalizing l with
  | nil => cases e; exact hl
  | cons s r ih =>
    obtain ⟨l1, e1, e2⟩ := Option.bind_eq_some_iff.1 e
    exact ih (hf _ _ _ hl e1) e2

variable {t : MapType V} {l l' : List (I × V)}

theorem addHint_clean (hv : Versions t) (hs : HintSafe t) {n : Nat} {k : I} {v : V} (hl : Clean o t.cfg l)
    (e : addHint o t n l k v = some l') : Clean o t.cfg l' := by
  obtain ⟨l1, u, e1, w, -, hu1, hu2, hx⟩ := addHint_at h t n hl.1 hl.2 k v
  rw [e] at e1; cases e1
  refine ⟨w, (noIdent_iff w).2 fun x w hw => ?_⟩
  have hn := (noIdent_iff hl.1).1 hl.2 x
  rw [hx] at hw
  split at hw
  · split at hw
    · exact hn w hw
    · rename_i ha
      rw [Bool.not_eq_true] at ha
      split at hw
      · cases hw
        by_cases hd : ∃ x, Dom o mapSeg l x ∧ o.Mem x k
        · rw [hu2 hd]
          rw [absorbable_false_iff] at ha ⊢
          exact fun hi => hv.plus_ne v (fun hh => ha ⟨hi.1, hh⟩) hi.2
        · rw [hu1 fun x hx hk => hd ⟨x, hx, hk⟩]
          exact hs v ha
      · exact keep_ne hw
  · exact hn w hw

variable (hv : Versions t) (hs : HintSafe t)
include hv hs

theorem addMap_clean {oracle : List (I × V) → I → Nat} {r : List (I × V)} (hl : Clean o t.cfg l)
    (e : addMap o t oracle l r = some l') : Clean o t.cfg l' :=
  hl.each e fun _ _ _ hl e => addHint_clean h hv hs hl e

/-- The values after adding a map. -/
theorem addMap_any {oracle : List (I × V) → I → Nat} {r : List (I × V)} (hl : Clean o t.cfg l) (hr : WF o mapSeg r) :
    ∃ l', addMap o t oracle l r = some l' ∧ WF o mapSeg l' ∧
      (t.cfg.joining = true → Joined o mapSeg l → Joined o mapSeg l') ∧
      (∀ x, ¬ Dom o mapSeg r x → valueAt o l' x = valueAt o l x) ∧
      ∀ s ∈ r, ∀ x, o.Mem x s.1 → ∃ u, ((∀ y, Dom o mapSeg l y → ¬ o.Mem y s.1) → u = t.plus.apply t.cfg.ident s.2) ∧
        ((∃ y, Dom o mapSeg l y ∧ o.Mem y s.1) → u = t.plus.version s.2) ∧
        valueAt o l' x = if absorbable t.cfg s.2 then valueAt o l x else
          match valueAt o l x with | none => some u | some w => keep t.cfg (t.plus.apply w s.2) := by
  induction r generalizing l with
  | nil => exact ⟨l, rfl, hl.1, fun _ hj => hj, fun _ _ => rfl, fun s hs => by cases hs⟩
  | cons s r ih =>
    have hw := wf_cons.1 hr
    obtain ⟨l1, u, e1, w1, j1, u1, u2, v1⟩ := addHint_at h t (oracle l s.1) hl.1 hl.2 s.1 s.2
    have c1 := addHint_clean h hv hs hl e1
    obtain ⟨l2, e2, w2, j2, v2, v3⟩ := ih c1 hw.2.1
    have out : ∀ x, ¬ o.Mem x s.1 → valueAt o l1 x = valueAt o l x := by
      intro x hx
      rw [v1, if_neg (show ¬ o.contains _ _ = true from hx)]
    have dom : ∀ x, ¬ o.Mem x s.1 → (Dom o mapSeg l1 x ↔ Dom o mapSeg l x) := by
      intro x hx
      have := out x hx
      rw [← not_iff_not, ← valueAt_none, ← valueAt_none, this]
    refine ⟨l2, by simp only [addMap, forEach, e1, Option.bind_eq_bind, Option.bind_some]; exact e2, w2,
      fun hj h0 => j2 hj (j1 hj h0), fun x hx => ?_, fun s' hs' x hx => ?_⟩
    · rw [dom_cons, not_or] at hx
      rw [v2 x hx.2, out x hx.1]
    · rcases List.mem_cons.1 hs' with rfl | hs'
      · refine ⟨u, u1, u2, ?_⟩
        rw [v2 x fun hd => lt_irrefl _ (hw.2.2 x x hx hd), v1, if_pos (show o.contains _ _ = true from hx)]
      · have hno : ∀ y, o.Mem y s'.1 → ¬ o.Mem y s.1 := fun y hy hc =>
          lt_irrefl _ (hw.2.2 y y hc ⟨s', hs', hy⟩)
        obtain ⟨u', a1, a2, a3⟩ := v3 s' hs' x hx
        refine ⟨u', fun hd => a1 fun y hy hk => hd y ((dom y (hno y hk)).1 hy) hk, ?_, ?_⟩
        · rintro ⟨y, hy, hk⟩
          exact a2 ⟨y, (dom y (hno y hk)).2 hy, hk⟩
        · rw [a3, out x (hno x hx)]

theorem addInterSeg_clean {oracle : List (I × V) → I → Nat} {sec m : List (I × V)} {k : I} {v : V}
    (hl : Clean o t.cfg sec) (hm : WF o mapSeg m) (e : addInterSeg o t oracle sec m k v = some l') :
    Clean o t.cfg l' := by
  cases ht : t.cfg.total with
  | false => exact hl.pt (addInterSeg_ptv h t ht oracle hl.1 hm k v) hv e
  | true =>
    unfold addInterSeg at e
    simp only [ht, if_true] at e
    obtain ⟨l1, e1, e2⟩ := Option.bind_eq_some_iff.1 e
    have h1 := addMap_clean h hv hs hl e1
    exact h1.pt (addSeg_ptv h t h1.1 k v) hv e2

theorem addInterMap_clean {oracle : List (I × V) → I → Nat} {sec m r : List (I × V)}
    (hl : Clean o t.cfg sec) (hm : WF o mapSeg m) (hr : WF o mapSeg r)
    (e : addInterMap o t oracle sec m r = some l') : Clean o t.cfg l' := by
  cases ht : t.cfg.total with
  | false => exact hl.pt (addInterMap_ptv h t ht oracle hl.1 hm hr) hv e
  | true =>
    unfold addInterMap at e
    simp only [ht, if_true] at e
    obtain ⟨l1, e1, e2⟩ := Option.bind_eq_some_iff.1 e
    exact addMap_clean h hv hs (addMap_clean h hv hs hl e1) e2

theorem addInterItv_clean {oracle : List (I × V) → I → Nat} {sec m : List (I × V)} {k : I}
    (hl : Clean o t.cfg sec) (e : addInterItv o t oracle sec m k = some l') : Clean o t.cfg l' := by
  unfold addInterItv at e
  split at e
  · cases e; exact hl
  · obtain ⟨⟨a, b, c⟩, -, e2⟩ := Option.bind_eq_some_iff.1 e
    refine hl.each e2 fun l l' s hl e => ?_
    unfold restrictStep at e
    dsimp only at e
    split at e
    · cases e; exact hl
    · exact addHint_clean h hv hs hl e

theorem addInterSet_clean {oracle : List (I × V) → I → Nat} {sec m : List (I × V)} {r : List I}
    (hl : Clean o t.cfg sec) (e : addInterSet o t oracle sec m r = some l') : Clean o t.cfg l' := by
  unfold addInterSet at e
  obtain ⟨res, -, e2⟩ := Option.bind_eq_some_iff.1 e
  cases res with
  | none => cases e2; exact hl
  | some pcq => exact hl.each e2 fun _ _ _ hl e => addInterItv_clean h hv hs hl e

omit hv hs in
theorem eraseSet_clean {r : List I} {c : MapCfg V} (hl : Clean o c l) (e : eraseSet o l r = some l') :
    Clean o c l' := by
  unfold eraseSet at e
  obtain ⟨res, -, e2⟩ := Option.bind_eq_some_iff.1 e
  cases res with
  | none => cases e2; exact hl
  | some pcq => exact hl.each e2 fun l l' s hl e => hl.pt (eraseItv_pt h c hl.1 s) trivial e

omit hs in
theorem flipLoop_clean [DecidableEq I] {v : V} {post mid : List (I × V)} {m m1 : List (I × V)} {span span1 : I}
    {er er1 : List I} {ins ins1 : List (I × V)} (hm : Clean o t.cfg m)
    (e : flipLoop o t v post m span er ins mid = some (m1, span1, er1, ins1)) : Clean o t.cfg m1 := by
  induction mid generalizing m span er ins with
  | nil => cases e; exact hm
  | cons cov mid ih =>
    unfold flipLoop at e
    dsimp only at e
    obtain ⟨⟨er2, ins2⟩, -, e⟩ := Option.bind_eq_some_iff.1 e
    obtain ⟨m2, e2, e⟩ := Option.bind_eq_some_iff.1 e
    have h2 := hm.pt (addSeg_ptv h t hm.1 _ v) hv e2
    split at e
    · exact ih h2 e
    · cases e

theorem flipSeg_clean [DecidableEq I] {oracle : List (I × V) → I → Nat} {k : I} {v : V} (hl : Clean o t.cfg l)
    (ha : t.cfg.absorbs = true) (e : flipSeg o t oracle l k v = some l') : Clean o t.cfg l' := by
  unfold flipSeg at e
  simp only [ha, if_true] at e
  split at e
  · cases e; exact clean_nil _
  · obtain ⟨⟨a, b, c⟩, -, e⟩ := Option.bind_eq_some_iff.1 e
    obtain ⟨⟨m1, sp, er, ins⟩, e1, e⟩ := Option.bind_eq_some_iff.1 e
    obtain ⟨m2, e2, e⟩ := Option.bind_eq_some_iff.1 e
    obtain ⟨m3, e3, e⟩ := Option.bind_eq_some_iff.1 e
    have h1 := flipLoop_clean h hv hl e1
    have h2 := h1.pt (addSeg_ptv h t h1.1 _ v) hv e2
    exact addMap_clean h hv hs (eraseSet_clean h h2 e3) e

theorem flipMap_clean [DecidableEq I] {oracle : List (I × V) → I → Nat} {r : List (I × V)} (hl : Clean o t.cfg l)
    (ha : t.cfg.absorbs = true) (e : flipMap o t oracle l r = some l') : Clean o t.cfg l' := by
  have hadd : ∀ l l' (s : I × V), Clean o t.cfg l → addSeg o t l s.1 s.2 = some l' → Clean o t.cfg l' :=
    fun l l' s hl e => hl.pt (addSeg_ptv h t hl.1 _ _) hv e
  unfold flipMap at e
  simp only [ha, if_true] at e
  split at e
  · cases e; exact clean_nil _
  · obtain ⟨res, -, e⟩ := Option.bind_eq_some_iff.1 e
    cases res with
    | none => exact addMap_clean h hv hs hl e
    | some pcq =>
      obtain ⟨m1, e1, e⟩ := Option.bind_eq_some_iff.1 e
      obtain ⟨m2, e2, e⟩ := Option.bind_eq_some_iff.1 e
      exact ((hl.each e1 hadd).each e2 fun _ _ _ hl e => flipSeg_clean h hv hs hl ha e).each e hadd

end
end IMap

/-- No absorbing map with such a functor stores the identity element. -/
theorem MReachable.clean [DecidableEq I] {E : Option (ElemFns D I)} (h : SetClass o E) {t : MapType V} {l : List (I × V)}
    (hr : MReachable o E t l) (hv : Versions t) (hs : HintSafe t) (ha : t.cfg.absorbs = true) : Clean o t.cfg l := by
  have hL := h.cls.lawful
  induction hr with
  | empty => exact clean_nil _
  | @op t l l' c hr e ih =>
    have hl := ih hv hs ha
    by_cases hp : c.plain t = true
    · exact ⟨((MReachable.op c hr e).good h).wf, c.plain_noIdent h hv hl.1 hl.2 hp e⟩
    · cases c with
      | addHint n k v => exact addHint_clean hL hv hs hl e
      | interKeys oracle k => exact addInterItv_clean hL hv hs (clean_nil _) e
      | flip oracle k v => exact flipSeg_clean hL hv hs hl ha e
      | flipE oracle x v =>
        obtain ⟨f, -, e⟩ := Option.bind_eq_some_iff.1 e
        exact flipSeg_clean hL hv hs hl ha e
      | inter oracle k v => exact addInterSeg_clean hL hv hs (clean_nil _) hl.1 e
      | interE oracle x v =>
        obtain ⟨f, -, e⟩ := Option.bind_eq_some_iff.1 e
        exact addInterSeg_clean hL hv hs (clean_nil _) hl.1 e
      | _ => exact absurd rfl hp
  | @op2 t t' l r l' c hr hr' e ih _ =>
    have hl := ih hv hs ha
    have wr := (hr'.good h).wf
    cases c with
    | add oracle => exact addMap_clean hL hv hs hl e
    | sub => exact hl.pt (subMap_ptv hL t hl.1 wr) hv e
    | insert oracle => exact hl.pt (insertMap_pt hL t oracle hl.1 wr) trivial e
    | erase => exact hl.pt (eraseMap_pt hL t hl.1 wr) trivial e
    | inter oracle => exact addInterMap_clean hL hv hs (clean_nil _) hl.1 wr e
    | flip oracle => exact flipMap_clean hL hv hs hl ha e
  | @op3 t st l r l' c hr hr' e ih =>
    have hl := ih hv hs ha
    cases c with
    | erase => exact eraseSet_clean hL hl e
    | inter oracle => exact addInterSet_clean hL hv hs (clean_nil _) e
  | @assign t t' r l' oracle hr hA e ih =>
    cases ht : t.cfg.joining with
    | true =>
      unfold IMap.assign at e
      simp only [ht, if_true] at e
      exact addMap_clean hL hv hs (clean_nil _) e
    | false =>
      have wr := (hr.good h).wf
      rw [assign_split hL t ht oracle wr] at e
      cases e
      obtain ⟨h1, h2, h3, h4, h5, h6, h7⟩ := hA.ident
      have hv' : Versions t' := by
        refine ⟨?_, ?_, ?_⟩
        · rw [h1, h4]; exact hv.plus_ne
        · rw [h1, h3, h5, h7]; exact hv.minus_ne
        · rw [h1, h6]; exact hv.sect_ne
      have hs' : HintSafe t' := by
        intro v hv
        rw [hA.absorbable] at hv ⊢
        rw [h4, h1]
        exact hs v hv
      obtain ⟨-, q⟩ := ih hv' hs' (by rw [h2]; exact ha)
      exact ⟨wr, fun s hs => by rw [← hA.absorbable]; exact q s hs⟩

end ICL
