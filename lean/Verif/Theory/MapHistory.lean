import Verif.Model.MapHistory
import Verif.Theory.MapFlip
import Verif.Theory.SetHistory

/-!
# Invariants of the reachable interval maps
-/

set_option linter.unusedSectionVars false
set_option linter.unusedVariables false

namespace ICL
open Spec IMap

variable {D I V : Type} [LinearOrder D] {o : IntervalOps D I} [DecidableEq I] [DecidableEq V]

/-- The invariant of interval maps. -/
structure MGood (o : IntervalOps D I) (t : MapType V) (l : List (I × V)) : Prop where
  wf : WF o mapSeg l
  joined : t.cfg.joining = true → Joined o mapSeg l
  noIdent : Regular t → NoIdent t.cfg l

theorem mgood_nil (t : MapType V) : MGood o t [] := ⟨wf_nil, fun _ => joined_nil, fun _ => noIdent_nil _⟩

theorem MGood.pt {t : MapType V} {l l' : List (I × V)} {N : Prop} {φ : D → Option V → Option V}
    (hl : MGood o t l) (hp : Pt o t.cfg N l l' φ) (hN : Regular t → N) : MGood o t l' :=
  ⟨hp.wf, fun hj => hp.joined hj (hl.joined hj), fun hr => hp.noIdent (hN hr) (hl.noIdent hr)⟩

theorem MGood.subset {t : MapType V} {l l' : List (I × V)} (hl : MGood o t l) (hs : l'.Sublist l) :
    MGood o t l' :=
  ⟨⟨fun s hs' => hl.1.nonempty s (hs.subset hs'), hl.1.sorted.sublist hs⟩,
    fun hj => (hl.2 hj).mono fun s h => hs.subset h, fun hr s h => hl.3 hr s (hs.subset h)⟩

/-- What an operation makes of a well-formed map: a well-formed one, which is fully joined and free of identity
elements if the map has been so. -/
structure Keeps (o : IntervalOps D I) (t : MapType V) (l l' : List (I × V)) : Prop where
  wf : WF o mapSeg l'
  joined : t.cfg.joining = true → Joined o mapSeg l → Joined o mapSeg l'
  noIdent : Regular t → NoIdent t.cfg l → NoIdent t.cfg l'

theorem Keeps.good {t : MapType V} {l l' : List (I × V)} (hk : Keeps o t l l') (hl : MGood o t l) : MGood o t l' :=
  ⟨hk.wf, fun hj => hk.joined hj (hl.joined hj), fun hr => hk.noIdent hr (hl.noIdent hr)⟩

theorem Keeps.pt {t : MapType V} {l l' : List (I × V)} {N : Prop} {φ : D → Option V → Option V}
    (hp : Pt o t.cfg N l l' φ) (hN : Regular t → N) : Keeps o t l l' :=
  ⟨hp.wf, hp.joined, fun hr => hp.noIdent (hN hr)⟩

theorem Keeps.of_good {t : MapType V} {l l' : List (I × V)} (hl : MGood o t l') : Keeps o t l l' :=
  ⟨hl.wf, fun hj _ => hl.joined hj, fun hr _ => hl.noIdent hr⟩

theorem Keeps.subset {t : MapType V} {l l' : List (I × V)} (hl : WF o mapSeg l) (hs : l'.Sublist l) :
    Keeps o t l l' :=
  ⟨⟨fun s hs' => hl.nonempty s (hs.subset hs'), hl.sorted.sublist hs⟩,
    fun _ hj => hj.mono fun s h => hs.subset h, fun _ hn s h => hn s (hs.subset h)⟩

theorem sublist_range {α : Type} (l : List α) (i j : Nat) : (l.take i ++ l.drop (max i j)).Sublist l := by
  have h1 : (l.drop (max i j)).Sublist (l.drop i) := by
    rw [show max i j = i + (max i j - i) by omega, ← List.drop_drop]
    exact List.drop_sublist _ _
  calc l.take i ++ l.drop (max i j) |>.Sublist (l.take i ++ l.drop i) := List.Sublist.append_left h1 _
    _ = l := List.take_append_drop i l

/-- What is required of a call: `flip` on a partial map does not allow an empty interval, and element operations
need an element with a one-element interval. -/
def MapOp.Pre (o : IntervalOps D I) (E : Option (ElemFns D I)) (t : MapType V) (l : List (I × V)) :
    MapOp D I V → Prop
  | .flip _ k _ => o.isEmpty k = false ∨ t.cfg.total = true ∨ l = []
  | .addE x _ | .subE x _ | .insertE x _ | .setE x _ | .eraseE x _ | .eraseKey x | .interE _ x _ | .interKey x
  | .flipE _ x _ => HasElem o E x
  | _ => True

theorem findE_valueAt (h : o.Lawful) {lk : Lookup D I} (hk : LookupClass o lk) {m : List (I × V)}
    (hm : WF o mapSeg m) {x : D} (hx : o.isEmpty (lk.key x) = false) :
    ∃ r, findE o mapSeg lk m x = some r ∧ r.map Prod.snd = valueAt o m x := by
  obtain ⟨r, e, h2⟩ := findE_spec h (hk.lawfulAt hx) hm
  refine ⟨r, e, ?_⟩
  cases r with
  | none => rw [eq_comm]; exact valueAt_none.2 (by rintro ⟨s, hs, hx⟩; cases (h2 s).2 ⟨hs, hx⟩)
  | some s => rw [eq_comm]; exact (valueAt_some hm).2 ⟨s, ((h2 s).1 rfl).1, ((h2 s).1 rfl).2, rfl⟩

/-- `flip(segment)` does nothing to an empty map if the segment is empty. -/
theorem flipSeg_nil (h : o.Lawful) (t : MapType V) (ht : t.cfg.total = false) (oracle : List (I × V) → I → Nat)
    {k : I} (hk : o.isEmpty k = true) (v : V) : flipSeg o t oracle [] k v = some [] := by
  unfold flipSeg
  have he : equalRange o mapSeg ([] : List (I × V)) k = some ([], [], []) := by
    simp [equalRange, cmpOk]
  have ha : addSeg o t [] k v = some [] := by simp [addSeg, addC, hk]
  have hs : eraseSet o ([] : List (I × V)) [] = some [] := by
    simp [eraseSet, commonRange]
  simp only [ht, Bool.false_eq_true, if_false, he, flipLoop, ha, hs, Option.bind_eq_bind, Option.bind_some]
  rfl

theorem MapOp.run_keeps {E : Option (ElemFns D I)} (h : SetClass o E) {t : MapType V} {l : List (I × V)}
    (hl : WF o mapSeg l) (c : MapOp D I V) (hc : c.Pre o E t l) :
    ∃ l', c.run o E t l = some l' ∧ Keeps o t l l' := by
  have hL := h.cls.lawful
  have hflip : ∀ oracle k v, o.isEmpty k = false ∨ t.cfg.total = true ∨ l = [] →
      ∃ l', flipSeg o t oracle l k v = some l' ∧ Keeps o t l l' := by
    intro oracle k v hk
    cases ht : t.cfg.total with
    | true =>
      obtain ⟨l', e, p⟩ := flipSeg_total_pt hL t ht oracle hl k v
      exact ⟨l', e, Keeps.pt p id⟩
    | false =>
      cases he : o.isEmpty k with
      | false =>
        obtain ⟨l', e, p⟩ := flipSeg_pt hL t ht oracle hl ((nonempty_iff hL).2 he) v
        exact ⟨l', e, Keeps.pt p id⟩
      | true =>
        rcases hk with hk | hk | rfl
        · rw [he] at hk; cases hk
        · rw [ht] at hk; cases hk
        · exact ⟨[], flipSeg_nil hL t ht oracle he v, Keeps.of_good (mgood_nil t)⟩
  have hinter : ∀ oracle k v, ∃ l', addInterSeg o t oracle [] l k v = some l' ∧ Keeps o t l l' := by
    intro oracle k v
    cases ht : t.cfg.total with
    | true =>
      obtain ⟨l', e, p⟩ := addInterSeg_total_pt hL t ht oracle wf_nil hl k v
      exact ⟨l', e, Keeps.of_good ((mgood_nil t).pt p id)⟩
    | false =>
      obtain ⟨l', e, p⟩ := addInterSeg_pt hL t ht oracle wf_nil hl k v
      exact ⟨l', e, Keeps.of_good ((mgood_nil t).pt p id)⟩
  have hadd : ∀ k v, ∃ l', addSeg o t l k v = some l' ∧ Keeps o t l l' := by
    intro k v
    obtain ⟨l', e, p⟩ := addSeg_pt hL t hl k v
    exact ⟨l', e, Keeps.pt p id⟩
  have hsub : ∀ k v, ∃ l', subSeg o t l k v = some l' ∧ Keeps o t l l' := by
    intro k v
    obtain ⟨l', e, p⟩ := subSeg_pt hL t hl k v
    exact ⟨l', e, Keeps.pt p id⟩
  have hins : ∀ k v, ∃ l', IMap.insert o t.cfg l k v = some l' ∧ Keeps o t l l' := by
    intro k v
    obtain ⟨l', e, p⟩ := insert_pt hL t.cfg hl k v
    exact ⟨l', e, Keeps.pt p fun _ => trivial⟩
  have hset : ∀ k v, ∃ l', setAt o t.cfg l k v = some l' ∧ Keeps o t l l' := by
    intro k v
    obtain ⟨l', e, p⟩ := setAt_pt hL t.cfg hl k v
    exact ⟨l', e, Keeps.pt p fun _ => trivial⟩
  have hera : ∀ k v, ∃ l', eraseSeg o t.cfg l k v = some l' ∧ Keeps o t l l' := by
    intro k v
    obtain ⟨l', e, p⟩ := eraseSeg_pt hL t.cfg hl k v
    exact ⟨l', e, Keeps.pt p fun _ => trivial⟩
  have herk : ∀ k, ∃ l', eraseItv o l k = some l' ∧ Keeps o t l l' := by
    intro k
    obtain ⟨l', e, p⟩ := eraseItv_pt hL t.cfg hl k
    exact ⟨l', e, Keeps.pt p fun _ => trivial⟩
  cases c with
  | add k v => exact hadd k v
  | addHint n k v =>
    obtain ⟨l', e, p⟩ := addHint_pt hL t n hl k v
    exact ⟨l', e, Keeps.pt p id⟩
  | subtract k v => exact hsub k v
  | insert k v => exact hins k v
  | insertHint n b k v =>
    obtain ⟨l', e, p⟩ := insertHint_pt hL t.cfg n b hl k v
    exact ⟨l', e, Keeps.pt p fun _ => trivial⟩
  | set k v => exact hset k v
  | erase k v => exact hera k v
  | eraseKeys k => exact herk k
  | inter oracle k v => exact hinter oracle k v
  | interKeys oracle k =>
    obtain ⟨l', e, p⟩ := addInterItv_pt hL t oracle wf_nil hl k
    exact ⟨l', e, Keeps.of_good ((mgood_nil t).pt p id)⟩
  | flip oracle k v => exact hflip oracle k v hc
  | addE x v =>
    obtain ⟨e, rfl, hx1, hx2⟩ := hc
    exact hadd (e.sing x) v
  | subE x v =>
    obtain ⟨e, rfl, hx1, hx2⟩ := hc
    exact hsub (e.sing x) v
  | insertE x v =>
    obtain ⟨e, rfl, hx1, hx2⟩ := hc
    exact hins (e.sing x) v
  | setE x v =>
    obtain ⟨e, rfl, hx1, hx2⟩ := hc
    exact hset (e.sing x) v
  | eraseE x v =>
    obtain ⟨e, rfl, hx1, hx2⟩ := hc
    exact hera (e.sing x) v
  | eraseKey x =>
    obtain ⟨e, rfl, hx1, hx2⟩ := hc
    exact herk (e.sing x)
  | interE oracle x v =>
    obtain ⟨e, rfl, hx1, hx2⟩ := hc
    exact hinter oracle (e.sing x) v
  | interKey x =>
    obtain ⟨e, rfl, hx1, hx2⟩ := hc
    have hm := (h.elem e rfl).1.mem hx1
    obtain ⟨l', e', p⟩ := addInterKey_pt hL t e.sing e.lookup (m := l) wf_nil x
      (fun y => by rw [Bool.eq_iff_iff, decide_eq_true_iff]; exact hm y)
      (findE_valueAt hL (h.elem e rfl).2 hl hx2)
    exact ⟨l', e', Keeps.of_good ((mgood_nil t).pt p id)⟩
  | flipE oracle x v =>
    obtain ⟨e, rfl, hx1, hx2⟩ := hc
    have hm := (h.elem e rfl).1.mem hx1
    exact hflip oracle (e.sing x) v (Or.inl hx1)
  | clear => exact ⟨[], rfl, Keeps.of_good (mgood_nil t)⟩
  | eraseRange i j => exact ⟨_, rfl, Keeps.subset hl (sublist_range l i j)⟩
  | eraseIf p => exact ⟨_, rfl, Keeps.subset hl List.filter_sublist⟩
  | join =>
    obtain ⟨l', e, h1, h2, h3⟩ := joinAll_spec hL mapSeg_lawful hl
    refine ⟨l', e, h1, fun _ _ => h3, fun hr hn => ?_⟩
    rw [noIdent_iff h1]
    intro x v hv
    rw [valueAt_some h1, h2, ← valueAt_some hl] at hv
    exact (noIdent_iff hl).1 hn x v hv
  | absorbIdentities =>
    refine ⟨_, rfl, Keeps.subset hl ?_⟩
    unfold IMap.absorbIdentities IMap.eraseIf
    split
    · exact List.Sublist.refl _
    · exact List.filter_sublist

theorem MapOp2.run_keeps (h : o.Lawful) {t : MapType V} {l r : List (I × V)} (hl : WF o mapSeg l)
    (hr : WF o mapSeg r) (c : MapOp2 I V) : ∃ l', c.run o t l r = some l' ∧ Keeps o t l l' := by
  cases c with
  | add oracle =>
    obtain ⟨l', e, p⟩ := addMap_pt h t oracle hl hr
    exact ⟨l', e, Keeps.pt p id⟩
  | sub =>
    obtain ⟨l', e, p⟩ := subMap_pt h t hl hr
    exact ⟨l', e, Keeps.pt p id⟩
  | insert oracle =>
    obtain ⟨l', e, p⟩ := insertMap_pt h t oracle hl hr
    exact ⟨l', e, Keeps.pt p fun _ => trivial⟩
  | erase =>
    obtain ⟨l', e, p⟩ := eraseMap_pt h t hl hr
    exact ⟨l', e, Keeps.pt p fun _ => trivial⟩
  | inter oracle =>
    cases ht : t.cfg.total with
    | true =>
      obtain ⟨l', e, p⟩ := addInterMap_total_pt h t ht oracle wf_nil hl hr
      exact ⟨l', e, Keeps.of_good ((mgood_nil t).pt p id)⟩
    | false =>
      obtain ⟨l', e, p⟩ := addInterMap_pt h t ht oracle wf_nil hl hr
      exact ⟨l', e, Keeps.of_good ((mgood_nil t).pt p id)⟩
  | flip oracle =>
    cases ht : t.cfg.total with
    | true =>
      obtain ⟨l', e, p⟩ := flipMap_total_pt h t ht oracle hl hr
      exact ⟨l', e, Keeps.pt p id⟩
    | false =>
      obtain ⟨l', e, p⟩ := flipMap_pt h t ht oracle hl hr
      exact ⟨l', e, Keeps.pt p id⟩

theorem MapOp3.run_keeps (h : o.Lawful) {t : MapType V} {l : List (I × V)} {r : List I} (hl : WF o mapSeg l)
    (hr : WF o setSeg r) (c : MapOp3 I V) : ∃ l', c.run o t l r = some l' ∧ Keeps o t l l' := by
  cases c with
  | erase =>
    obtain ⟨l', e, p⟩ := eraseSet_pt h t.cfg hl hr
    exact ⟨l', e, Keeps.pt p fun _ => trivial⟩
  | inter oracle =>
    obtain ⟨l', e, p⟩ := addInterSet_pt h t oracle wf_nil hl hr
    exact ⟨l', e, Keeps.of_good ((mgood_nil t).pt p id)⟩

theorem MapOp.run_good {E : Option (ElemFns D I)} (h : SetClass o E) {t : MapType V} {l : List (I × V)}
    (hl : MGood o t l) (c : MapOp D I V) (hc : c.Pre o E t l) :
    ∃ l', c.run o E t l = some l' ∧ MGood o t l' :=
  let ⟨l', e, k⟩ := MapOp.run_keeps h hl.wf c hc
  ⟨l', e, k.good hl⟩

theorem MapOp2.run_good (h : o.Lawful) {t : MapType V} {l r : List (I × V)} (hl : MGood o t l)
    (hr : WF o mapSeg r) (c : MapOp2 I V) : ∃ l', c.run o t l r = some l' ∧ MGood o t l' :=
  let ⟨l', e, k⟩ := MapOp2.run_keeps h hl.wf hr c
  ⟨l', e, k.good hl⟩

theorem MapOp3.run_good (h : o.Lawful) {t : MapType V} {l : List (I × V)} {r : List I} (hl : MGood o t l)
    (hr : WF o setSeg r) (c : MapOp3 I V) : ∃ l', c.run o t l r = some l' ∧ MGood o t l' :=
  let ⟨l', e, k⟩ := MapOp3.run_keeps h hl.wf hr c
  ⟨l', e, k.good hl⟩

theorem MapType.Alike.ident {t t' : MapType V} (h : t.Alike t') : t'.cfg.ident = t.cfg.ident ∧
    t'.cfg.absorbs = t.cfg.absorbs ∧ t'.cfg.total = t.cfg.total ∧ t'.plus = t.plus ∧ t'.minus = t.minus ∧
    t'.sect = t.sect ∧ t'.invertible = t.invertible := by
  unfold MapType.Alike at h
  rw [h]; exact ⟨rfl, rfl, rfl, rfl, rfl, rfl, rfl⟩

theorem MapType.Alike.absorbable {t t' : MapType V} (h : t.Alike t') (v : V) :
    absorbable t'.cfg v = absorbable t.cfg v := by
  obtain ⟨h1, h2, _⟩ := h.ident
  unfold IMap.absorbable; rw [h1, h2]

theorem MapType.Alike.regular {t t' : MapType V} (h : t.Alike t') (hr : Regular t) : Regular t' := by
  obtain ⟨h1, h2, h3, h4, h5, h6, h7⟩ := h.ident
  refine ⟨⟨?_, ?_, ?_⟩, ?_⟩
  · rw [h1, h4]; exact hr.plus_ne
  · rw [h1, h3, h5, h7]; exact hr.minus_ne
  · rw [h1, h6]; exact hr.sect_ne
  · rw [h1, h4]; exact hr.plus_ident

theorem assign_good (h : o.Lawful) {t t' : MapType V} (oracle : List (I × V) → I → Nat) {r : List (I × V)}
    (hr : MGood o t' r) (ha : t.Alike t') : ∃ l', assign o t oracle r = some l' ∧ MGood o t l' := by
  cases ht : t.cfg.joining with
  | true =>
    obtain ⟨l', e, w, j, v, n⟩ := assign_join h t ht oracle hr.wf
    exact ⟨l', e, ⟨w, fun _ => j, n⟩⟩
  | false =>
    refine ⟨r, assign_split h t ht oracle hr.wf, ⟨hr.wf, fun hj => (by rw [ht] at hj; cases hj), fun hr' s hs => ?_⟩⟩
    rw [← ha.absorbable]
    exact hr.noIdent (ha.regular hr') s hs

/-- An operation that terminates keeps the invariant, also if its operand has no one-element interval. -/
theorem MapOp.keeps_of_run {E : Option (ElemFns D I)} (h : SetClass o E) {t : MapType V} {l l' : List (I × V)}
    (hl : WF o mapSeg l) (c : MapOp D I V) (e : c.run o E t l = some l') : Keeps o t l l' := by
  have hL := h.cls.lawful
  have use : ∀ (c : MapOp D I V), c.run o E t l = some l' → c.Pre o E t l → Keeps o t l l' := by
    intro c e hp
    obtain ⟨l2, h1, h2⟩ := MapOp.run_keeps h hl c hp
    rw [h1] at e; cases e; exact h2
  have hflip : ∀ oracle k v, (MapOp.flip oracle k v : MapOp D I V).run o E t l = some l' → Keeps o t l l' := by
    intro oracle k v e
    refine use _ e ?_
    by_contra hc
    simp only [MapOp.Pre, not_or] at hc
    obtain ⟨h1, h2, h3⟩ := hc
    rw [Bool.not_eq_false] at h1
    rw [Bool.not_eq_true] at h2
    simp only [MapOp.run, flipSeg, h2, Bool.false_eq_true, if_false] at e
    have : equalRange o mapSeg l k = none := by
      unfold equalRange cmpOk
      cases l with
      | nil => exact absurd rfl h3
      | cons s l => simp [h1]
    rw [this] at e
    cases e
  cases c with
  | flip oracle k v => exact hflip oracle k v e
  | addE x v =>
    obtain ⟨f, rfl, e1⟩ := Option.bind_eq_some_iff.1 e
    exact use (.add (f.sing x) v) e1 trivial
  | subE x v =>
    obtain ⟨f, rfl, e1⟩ := Option.bind_eq_some_iff.1 e
    exact use (.subtract (f.sing x) v) e1 trivial
  | insertE x v =>
    obtain ⟨f, rfl, e1⟩ := Option.bind_eq_some_iff.1 e
    exact use (.insert (f.sing x) v) e1 trivial
  | setE x v =>
    obtain ⟨f, rfl, e1⟩ := Option.bind_eq_some_iff.1 e
    exact use (.set (f.sing x) v) e1 trivial
  | eraseE x v =>
    obtain ⟨f, rfl, e1⟩ := Option.bind_eq_some_iff.1 e
    exact use (.erase (f.sing x) v) e1 trivial
  | eraseKey x =>
    obtain ⟨f, rfl, e1⟩ := Option.bind_eq_some_iff.1 e
    exact use (.eraseKeys (f.sing x)) e1 trivial
  | interE oracle x v =>
    obtain ⟨f, rfl, e1⟩ := Option.bind_eq_some_iff.1 e
    exact use (.inter oracle (f.sing x) v) e1 trivial
  | interKey x =>
    obtain ⟨f, rfl, e1⟩ := Option.bind_eq_some_iff.1 e
    simp only [addInterKey, Option.bind_eq_bind] at e1
    obtain ⟨r, _, e2⟩ := Option.bind_eq_some_iff.1 e1
    cases r with
    | none => cases e2; exact Keeps.of_good (mgood_nil t)
    | some s =>
      obtain ⟨l2, e3, p⟩ := addSeg_pt hL t (wf_nil (o := o) (g := mapSeg)) (f.sing x) s.2
      rw [show addSeg o t [] (f.sing x) s.2 = some l' from e2] at e3
      cases e3
      exact Keeps.of_good ((mgood_nil t).pt p id)
  | flipE oracle x v =>
    obtain ⟨f, rfl, e1⟩ := Option.bind_eq_some_iff.1 e
    exact hflip oracle (f.sing x) v e1
  | _ => exact use _ e trivial

theorem MapOp.good_of_run {E : Option (ElemFns D I)} (h : SetClass o E) {t : MapType V} {l l' : List (I × V)}
    (hl : MGood o t l) (c : MapOp D I V) (e : c.run o E t l = some l') : MGood o t l' :=
  (MapOp.keeps_of_run h hl.wf c e).good hl

theorem MReachable.good {E : Option (ElemFns D I)} (h : SetClass o E) {t : MapType V} {l : List (I × V)}
    (hr : MReachable o E t l) : MGood o t l := by
  have hL := h.cls.lawful
  induction hr with
  | empty t => exact mgood_nil t
  | @op t l l' c _ e ih =>
    exact MapOp.good_of_run h ih c e
  | op2 c _ _ e ih1 ih2 =>
    obtain ⟨l'', e', g⟩ := MapOp2.run_good hL ih1 ih2.wf c
    rw [e] at e'; cases e'; exact g
  | op3 c _ hs e ih =>
    obtain ⟨l'', e', g⟩ := MapOp3.run_good hL ih (hs.good h).1 c
    rw [e] at e'; cases e'; exact g
  | assign oracle _ ha e ih =>
    obtain ⟨l'', e', g⟩ := assign_good hL oracle ih ha
    rw [e] at e'; cases e'; exact g

end ICL
