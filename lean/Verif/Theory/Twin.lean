import Verif.TwinSpec

/-!
# One program, two interval classes

What the operations of interval containers do is determined by the elements of the operands; so runs of one program
with two interval classes keep step.
-/

set_option linter.unusedSectionVars false
set_option linter.unusedVariables false

namespace ICL
open Spec

variable {D I J V : Type} [LinearOrder D] {o₁ : IntervalOps D I} {o₂ : IntervalOps D J}

theorem Btw.of_le {x y : D} {P : D → Prop} (h : x ≤ y) : (∀ z, Btw x y z → P z) ↔ ∀ z, x ≤ z → z ≤ y → P z := by
  simp only [btw_iff_of_le h, and_imp]

/-! ## Sets -/

theorem twin_same {l : List I} {m : List J} (h : TwinSegments o₁ o₂ l m) (x y : D) :
    Same o₁ setSeg l x y ↔ Same o₂ setSeg m x y := by
  induction h with
  | nil => simp
  | cons h1 _ ih => rw [same_cons, same_cons, ih]; exact or_congr_left (and_congr (h1 x) (h1 y))

theorem twin_dom {l : List I} {m : List J} (h : TwinSegments o₁ o₂ l m) (x : D) :
    Dom o₁ setSeg l x ↔ Dom o₂ setSeg m x := by
  rw [← same_self, ← same_self, twin_same h]

theorem twin_tog {l : List I} {m : List J} (h : TwinSegments o₁ o₂ l m) (x y : D) : Tog o₁ l x y ↔ Tog o₂ m x y := by
  induction h with
  | nil => simp [Tog]
  | cons h1 _ ih =>
    rw [tog_cons, tog_cons, ih]
    exact and_congr_left fun _ => forall_congr' fun z => imp_congr_right fun _ => iff_congr (h1 z) (h1 x)

theorem twin_reach {l : List I} {m : List J} (h : TwinSegments o₁ o₂ l m) {k : I} {k' : J} (hk : SameItv o₁ o₂ k k') (x : D) :
    Reach o₁ l k x ↔ Reach o₂ m k' x := by
  have e : ∀ {K : Type} (o : IntervalOps D K) (l : List K) (k : K), Reach o l k x ↔
      o.Mem x k ∨ ∃ z, Same o setSeg l x z ∧ o.Mem z k := by
    intro K o l k
    unfold Reach Same
    refine or_congr_right ⟨?_, ?_⟩
    · rintro ⟨s, hs, hx, z, hz, hk⟩; exact ⟨z, ⟨s, hs, hx, hz⟩, hk⟩
    · rintro ⟨z, ⟨s, hs, hx, hz⟩, hk⟩; exact ⟨s, hs, hx, z, hz, hk⟩
  rw [e, e]
  refine or_congr (hk x) (exists_congr fun z => and_congr (twin_same h x z) (hk z))

theorem twin_of_same {l : List I} {m : List J} (hl : WF o₁ setSeg l) (hm : WF o₂ setSeg m)
    (h : ∀ x y, Same o₁ setSeg l x y ↔ Same o₂ setSeg m x y) : TwinSegments o₁ o₂ l m :=
  forall2_of_same hl hm h

theorem same_comm {g : SegOps I V I} {l : List I} {x y : D} : Same o₁ g l x y ↔ Same o₁ g l y x :=
  exists_congr fun s => and_congr_right fun _ => and_comm

theorem twin_of_dom (h1 : o₁.Lawful) (h2 : o₂.Lawful) {l : List I} {m : List J} (hl : WF o₁ setSeg l) (hm : WF o₂ setSeg m)
    (jl : Joined o₁ setSeg l) (jm : Joined o₂ setSeg m) (h : ∀ x, Dom o₁ setSeg l x ↔ Dom o₂ setSeg m x) :
    TwinSegments o₁ o₂ l m := by
  have key : ∀ x y, x ≤ y → (Same o₁ setSeg l x y ↔ Same o₂ setSeg m x y) := by
    intro x y hxy
    rw [joined_same_iff h1 hl jl hxy, joined_same_iff h2 hm jm hxy]
    simp only [setMaps_iff h1, setMaps_iff h2, h]
  refine twin_of_same hl hm fun x y => ?_
  rcases le_total x y with hxy | hxy
  · exact key x y hxy
  · rw [same_comm, key y x hxy, same_comm]

variable [DecidableEq I] [DecidableEq J]

section
variable (h1 : o₁.Lawful) (h2 : o₂.Lawful) {st : Style} {l l' : List I} {m m' : List J} (hl : Good o₁ st l)
  (hm : Good o₂ st m) (ht : TwinSegments o₁ o₂ l m)
include h1 h2 hl hm ht

theorem twin_add {k : I} {k' : J} (hk : SameItv o₁ o₂ k k') (s1 : AddSpec o₁ st l k l') (s2 : AddSpec o₂ st m k' m') :
    TwinSegments o₁ o₂ l' m' := by
  cases st with
  | joining =>
    refine twin_of_dom h1 h2 s1.wf s2.wf (s1.joined rfl (hl.2 rfl)) (s2.joined rfl (hm.2 rfl)) fun x => ?_
    rw [s1.dom, s2.dom, twin_dom ht]; exact or_congr_right (hk x)
  | separating =>
    refine twin_of_same s1.wf s2.wf fun x y => ?_
    rw [s1.separating rfl, s2.separating rfl, twin_same ht, twin_reach ht hk, twin_reach ht hk]
  | splitting =>
    refine twin_of_same s1.wf s2.wf fun x y => ?_
    rw [same_iff_tog h1 s1.wf, same_iff_tog h2 s2.wf, s1.tog h1 hl.1, s2.tog h2 hm.1, s1.dom, s2.dom, twin_dom ht,
      twin_tog ht]
    refine and_congr (and_congr_right fun _ => ?_) (or_congr_right (hk x))
    exact forall_congr' fun z => imp_congr_right fun _ => iff_congr (hk z) (hk x)

theorem twin_sub {k : I} {k' : J} (hk : SameItv o₁ o₂ k k') (s1 : SubSpec o₁ l k l') (s2 : SubSpec o₂ m k' m') :
    TwinSegments o₁ o₂ l' m' := by
  refine twin_of_same s1.wf s2.wf fun x y => ?_
  rw [s1.same, s2.same, twin_same ht]
  exact and_congr_right fun _ => forall_congr' fun z => imp_congr_right fun _ => imp_congr_right fun _ => not_congr (hk z)

theorem twin_flip {k : I} {k' : J} (hk : SameItv o₁ o₂ k k') (s1 : FlipSpec o₁ st l k l') (s2 : FlipSpec o₂ st m k' m') :
    TwinSegments o₁ o₂ l' m' := by
  have hk : ∀ x, o₁.Mem x k ↔ o₂.Mem x k' := hk
  by_cases hst : st = .joining
  · refine twin_of_dom h1 h2 s1.wf s2.wf (s1.joined hst (hl.2 hst)) (s2.joined hst (hm.2 hst)) fun x => ?_
    rw [s1.dom, s2.dom, twin_dom ht, hk]
  · refine twin_of_same s1.wf s2.wf fun x y => ?_
    rw [s1.same hst, s2.same hst]
    simp only [twin_same ht, twin_dom ht, hk]

theorem twin_union {r : List I} {r' : List J} (hr : TwinSegments o₁ o₂ r r')
    (s1 : UnionSpec o₁ st l r l') (s2 : UnionSpec o₂ st m r' m') : TwinSegments o₁ o₂ l' m' := by
  cases st with
  | joining =>
    refine twin_of_dom h1 h2 s1.wf s2.wf (s1.joined rfl (hl.2 rfl)) (s2.joined rfl (hm.2 rfl)) fun x => ?_
    rw [s1.dom, s2.dom, twin_dom ht, twin_dom hr]
  | separating =>
    refine twin_of_same s1.wf s2.wf fun x y => ?_
    rw [s1.separating rfl, s2.separating rfl]
    unfold Linked
    simp only [twin_same ht, twin_same hr]
  | splitting =>
    refine twin_of_same s1.wf s2.wf fun x y => ?_
    rw [same_iff_tog h1 s1.wf, same_iff_tog h2 s2.wf, s1.splitting rfl, s2.splitting rfl, s1.dom, s2.dom, twin_dom ht,
      twin_tog ht, twin_dom hr, twin_tog hr]

theorem twin_sym {r : List I} {r' : List J} (hr : TwinSegments o₁ o₂ r r')
    (s1 : SymSpec o₁ st l r l') (s2 : SymSpec o₂ st m r' m') : TwinSegments o₁ o₂ l' m' := by
  by_cases hst : st = .joining
  · refine twin_of_dom h1 h2 s1.wf s2.wf (s1.joined hst (hl.2 hst)) (s2.joined hst (hm.2 hst)) fun x => ?_
    rw [s1.dom, s2.dom, twin_dom ht, twin_dom hr]
  · refine twin_of_same s1.wf s2.wf fun x y => ?_
    rw [s1.same hst, s2.same hst]
    simp only [twin_same ht, twin_dom ht, twin_same hr, twin_dom hr]

theorem twin_inter {r : List I} {r' : List J} (hr : TwinSegments o₁ o₂ r r')
    (s1 : InterSpec o₁ st l r l') (s2 : InterSpec o₂ st m r' m') : TwinSegments o₁ o₂ l' m' := by
  by_cases hst : st = .joining
  · refine twin_of_dom h1 h2 s1.wf s2.wf (s1.joined hst) (s2.joined hst) fun x => ?_
    rw [s1.dom, s2.dom, twin_dom ht, twin_dom hr]
  · refine twin_of_same s1.wf s2.wf fun x y => ?_
    rw [s1.same hst, s2.same hst]
    simp only [twin_same ht, twin_same hr]

end

theorem twin_sing {E₁ : Option (ElemFns D I)} {E₂ : Option (ElemFns D J)} (h1 : SetClass o₁ E₁) (h2 : SetClass o₂ E₂)
    {e₁ : ElemFns D I} {e₂ : ElemFns D J} (he1 : E₁ = some e₁) (he2 : E₂ = some e₂) {x : D}
    (hx1 : o₁.isEmpty (e₁.sing x) = false) (hx2 : o₂.isEmpty (e₂.sing x) = false) :
    SameItv o₁ o₂ (e₁.sing x) (e₂.sing x) := fun y =>
  ((h1.elem e₁ he1).1.mem hx1 y).trans ((h2.elem e₂ he2).1.mem hx2 y).symm

theorem same_isEmpty (h1 : o₁.Lawful) (h2 : o₂.Lawful) {k : I} {k' : J} (hk : SameItv o₁ o₂ k k') :
    o₁.isEmpty k = o₂.isEmpty k' := by
  rw [Bool.eq_iff_iff, h1.isEmpty_iff, h2.isEmpty_iff]
  exact forall_congr' fun x => not_congr (hk x)

theorem twin_nil_iff {l : List I} {m : List J} (h : TwinSegments o₁ o₂ l m) : l = [] ↔ m = [] := by
  cases h <;> simp

/-- One operation. -/
theorem twin_run {E₁ : Option (ElemFns D I)} {E₂ : Option (ElemFns D J)} (h1 : SetClass o₁ E₁) (h2 : SetClass o₂ E₂)
    {st : Style} {l : List I} {m : List J} (hl : Good o₁ st l) (hm : Good o₂ st m) (ht : TwinSegments o₁ o₂ l m)
    {c : SetOp D I} {c' : SetOp D J} (hc : SameSetCall o₁ o₂ c c') (p1 : c.Pre o₁ E₁ l) (p2 : c'.Pre o₂ E₂ m)
    {l' : List I} {m' : List J} (e1 : c.run o₁ E₁ st l = some l') (e2 : c'.run o₂ E₂ st m = some m') :
    TwinSegments o₁ o₂ l' m' := by
  have L1 := h1.cls.lawful
  have L2 := h2.cls.lawful
  have hadd : ∀ {l : List I} {m : List J} {k k' l' m'}, Good o₁ st l → Good o₂ st m → TwinSegments o₁ o₂ l m →
      SameItv o₁ o₂ k k' → ISet.add o₁ st l k = some l' →
      ISet.add o₂ st m k' = some m' → TwinSegments o₁ o₂ l' m' := by
    intro l m k k' l' m' hl hm ht hk e1 e2
    obtain ⟨a, ea, sa⟩ := ISet.add_spec L1 st hl.1 k
    obtain ⟨b, eb, sb⟩ := ISet.add_spec L2 st hm.1 k'
    rw [ea] at e1; rw [eb] at e2; cases e1; cases e2
    exact twin_add L1 L2 hl hm ht hk sa sb
  have hsub : ∀ {k k' l' m'}, SameItv o₁ o₂ k k' → ISet.subtract o₁ l k = some l' →
      ISet.subtract o₂ m k' = some m' → TwinSegments o₁ o₂ l' m' := by
    intro k k' l' m' hk e1 e2
    obtain ⟨a, ea, sa⟩ := ISet.subtract_spec L1 hl.1 k
    obtain ⟨b, eb, sb⟩ := ISet.subtract_spec L2 hm.1 k'
    rw [ea] at e1; rw [eb] at e2; cases e1; cases e2
    exact twin_sub L1 L2 hl hm ht hk sa sb
  cases hc with
  | add hk => exact hadd hl hm ht hk e1 e2
  | @addHint n n' k k' hk =>
    obtain ⟨a, ea, sa⟩ := ISet.addHint_spec L1 st n hl.1 k
    obtain ⟨b, eb, sb⟩ := ISet.addHint_spec L2 st n' hm.1 k'
    simp only [SetOp.run, ea, eb] at e1 e2; cases e1; cases e2
    exact twin_add L1 L2 hl hm ht hk sa sb
  | subtract hk => exact hsub hk e1 e2
  | @inter orc orc' k k' hk =>
    have hk' : ∀ x, o₁.Mem x k ↔ o₂.Mem x k' := hk
    obtain ⟨a, ea, wa, da, ja, sa⟩ := ISet.interSeg_spec L1 st orc hl.1 k
    obtain ⟨b, eb, wb, db, jb, sb⟩ := ISet.interSeg_spec L2 st orc' hm.1 k'
    simp only [SetOp.run, ea, eb] at e1 e2; cases e1; cases e2
    by_cases hst : st = .joining
    · exact twin_of_dom L1 L2 wa wb (ja hst) (jb hst) fun x => by rw [da, db, twin_dom ht, hk']
    · exact twin_of_same wa wb fun x y => by rw [sa hst, sb hst, twin_same ht, hk', hk']
  | @flip k k' hk =>
    rcases p1 with p1 | rfl
    · obtain ⟨a, ea, sa⟩ := ISet.flipSeg_spec L1 st hl.1 ((nonempty_iff L1).2 p1)
      obtain ⟨b, eb, sb⟩ := ISet.flipSeg_spec L2 st hm.1 ((nonempty_iff L2).2 ((same_isEmpty L1 L2 hk).symm.trans p1))
      simp only [SetOp.run, ea, eb] at e1 e2; cases e1; cases e2
      exact twin_flip L1 L2 hl hm ht hk sa sb
    · obtain rfl : m = [] := (twin_nil_iff ht).1 rfl
      obtain ⟨a, ea, ga, sa⟩ := SetOp.run_spec h1 hl (.flip k) (.inr rfl)
      obtain ⟨b, eb, gb, sb⟩ := SetOp.run_spec h2 hm (.flip k') (.inr rfl)
      rw [ea] at e1; rw [eb] at e2; cases e1; cases e2
      cases he : o₁.isEmpty k with
      | true =>
        have he' := (same_isEmpty L1 L2 hk).symm.trans he
        simp only [SetOp.run] at ea eb
        rw [ISet.flipSeg_empty L1 st [] he] at ea
        rw [ISet.flipSeg_empty L2 st [] he'] at eb
        cases ea; cases eb; exact .nil
      | false =>
        obtain ⟨a, ea', sa⟩ := ISet.flipSeg_spec L1 st hl.1 ((nonempty_iff L1).2 he)
        obtain ⟨b, eb', sb⟩ := ISet.flipSeg_spec L2 st hm.1 ((nonempty_iff L2).2 ((same_isEmpty L1 L2 hk).symm.trans he))
        simp only [SetOp.run, ea', eb'] at ea eb; cases ea; cases eb
        exact twin_flip L1 L2 hl hm ht hk sa sb
  | addE x =>
    obtain ⟨f, hf, hx1, _⟩ := p1; obtain ⟨f', hf', hx1', _⟩ := p2
    have hk := twin_sing h1 h2 hf hf' hx1 hx1'
    subst hf hf'
    exact hadd hl hm ht hk e1 e2
  | subE x =>
    obtain ⟨f, hf, hx1, _⟩ := p1; obtain ⟨f', hf', hx1', _⟩ := p2
    have hk := twin_sing h1 h2 hf hf' hx1 hx1'
    subst hf hf'
    exact hsub hk e1 e2
  | interE x =>
    obtain ⟨f, hf, hx1, hx2⟩ := p1; obtain ⟨f', hf', hx1', hx2'⟩ := p2
    have hk := twin_sing h1 h2 hf hf' hx1 hx1'
    obtain ⟨r, er, hr⟩ := containsE_spec L1 ((h1.elem f hf).2.lawfulAt hx2) hl.1
    obtain ⟨r', er', hr'⟩ := containsE_spec L2 ((h2.elem f' hf').2.lawfulAt hx2') hm.1
    obtain rfl : r = r' := by rw [Bool.eq_iff_iff, hr, hr', twin_dom ht]
    subst hf hf'
    simp only [SetOp.run, Option.bind_some, ISet.addInterE, er, er', Option.bind_eq_bind] at e1 e2
    cases r with
    | false => cases e1; cases e2; exact .nil
    | true => exact hadd (good_nil st) (good_nil st) .nil hk e1 e2
  | flipE x =>
    obtain ⟨f, hf, hx1, hx2⟩ := p1; obtain ⟨f', hf', hx1', hx2'⟩ := p2
    have hk := twin_sing h1 h2 hf hf' hx1 hx1'
    obtain ⟨r, er, hr⟩ := containsE_spec L1 ((h1.elem f hf).2.lawfulAt hx2) hl.1
    obtain ⟨r', er', hr'⟩ := containsE_spec L2 ((h2.elem f' hf').2.lawfulAt hx2') hm.1
    obtain rfl : r = r' := by rw [Bool.eq_iff_iff, hr, hr', twin_dom ht]
    subst hf hf'
    simp only [SetOp.run, Option.bind_some, ISet.flipE, er, er', Option.bind_eq_bind] at e1 e2
    cases r with
    | false => exact hadd hl hm ht hk e1 e2
    | true => exact hsub hk e1 e2
  | clear => cases e1; cases e2; exact .nil
  | eraseRange i j =>
    cases e1; cases e2
    exact List.rel_append (List.forall₂_take i ht) (List.forall₂_drop (max i j) ht)
  | join =>
    obtain ⟨a, ea, wa, va, ja⟩ := joinAll_spec L1 setSeg_lawful hl.1
    obtain ⟨b, eb, wb, vb, jb⟩ := joinAll_spec L2 setSeg_lawful hm.1
    simp only [SetOp.run, ea, eb] at e1 e2; cases e1; cases e2
    refine twin_of_dom L1 L2 wa wb ja jb fun x => ?_
    have d1 := va x (); have d2 := vb x ()
    rw [maps_unit, maps_unit] at d1 d2
    rw [d1, d2, twin_dom ht]

/-- The gaps between neighbours. -/
theorem twin_gaps (h1 : o₁.Lawful) (h2 : o₂.Lawful) {l : List I} {m : List J} (hl : WF o₁ setSeg l) (hm : WF o₂ setSeg m)
    (ht : TwinSegments o₁ o₂ l m) : TwinSegments o₁ o₂ (ISet.gaps o₁ l) (ISet.gaps o₂ m) := by
  clear hl hm
  induction ht with
  | nil => exact .nil
  | @cons s t l m hst ht ih =>
    cases ht with
    | nil => exact .nil
    | @cons s' t' l m hst' ht =>
      have e : ∀ x, o₁.Mem x s ↔ o₂.Mem x t := hst
      have e' : ∀ x, o₁.Mem x s' ↔ o₂.Mem x t' := hst'
      refine .cons (fun x => ?_) ih
      show o₁.Mem x _ ↔ o₂.Mem x _
      rw [h1.mem_innerComplement, h2.mem_innerComplement]
      unfold IntervalOps.Nonempty
      simp only [e, e']

/-- One operation with a set operand. -/
theorem twin_run2 (h1 : IntervalClass o₁) (h2 : IntervalClass o₂)
    {st st' : Style} {l r : List I} {m s : List J} (hl : Good o₁ st l) (hm : Good o₂ st m) (hr : Good o₁ st' r)
    (hs : Good o₂ st' s) (ht : TwinSegments o₁ o₂ l m) (hrs : TwinSegments o₁ o₂ r s)
    {c : SetOp2 I} {c' : SetOp2 J} (hc : SameSetCall2 c c')
    {l' : List I} {m' : List J} (e1 : c.run o₁ st st' l r = some l') (e2 : c'.run o₂ st st' m s = some m') :
    TwinSegments o₁ o₂ l' m' := by
  have L1 := h1.lawful
  have L2 := h2.lawful
  cases hc with
  | add orc orc' =>
    obtain ⟨a, ea, sa⟩ := ISet.addSet_spec L1 st orc hl.1 r
    obtain ⟨b, eb, sb⟩ := ISet.addSet_spec L2 st orc' hm.1 s
    simp only [SetOp2.run, ea, eb] at e1 e2; cases e1; cases e2
    exact twin_union L1 L2 hl hm ht hrs sa sb
  | sub =>
    obtain ⟨a, ea, sa⟩ := ISet.subSet_spec L1 hl.1 hr.1
    obtain ⟨b, eb, sb⟩ := ISet.subSet_spec L2 hm.1 hs.1
    simp only [SetOp2.run, ea, eb] at e1 e2; cases e1; cases e2
    exact twin_of_same sa.wf sb.wf fun x y => by rw [sa.same, sb.same]; simp only [twin_same ht, twin_dom hrs]
  | inter orc orc' =>
    obtain ⟨a, ea, sa⟩ := ISet.interSet_spec L1 st orc hl.1 hr.1
    obtain ⟨b, eb, sb⟩ := ISet.interSet_spec L2 st orc' hm.1 hs.1
    simp only [SetOp2.run, ea, eb] at e1 e2; cases e1; cases e2
    exact twin_inter L1 L2 hl hm ht hrs sa sb
  | flip orc orc' =>
    obtain ⟨a, ea, sa⟩ := ISet.flipSet_spec L1 st orc hl.1 hr.1
    obtain ⟨b, eb, sb⟩ := ISet.flipSet_spec L2 st orc' hm.1 hs.1
    simp only [SetOp2.run, ea, eb] at e1 e2; cases e1; cases e2
    exact twin_sym L1 L2 hl hm ht hrs sa sb
  | assign orc orc' =>
    obtain ⟨a, ea, wa, da, ja, na⟩ := ISet.assign_spec L1 st orc hr.1
    obtain ⟨b, eb, wb, db, jb, nb⟩ := ISet.assign_spec L2 st orc' hs.1
    simp only [SetOp2.run, ea, eb] at e1 e2; cases e1; cases e2
    by_cases hst : st = .joining
    · exact twin_of_dom L1 L2 wa wb (ja hst) (jb hst) fun x => by rw [da, db, twin_dom hrs]
    · rw [na hst, nb hst]; exact hrs
  | copy =>
    have hp := SetOp2.pre_of_run e1
    simp only [SetOp2.Pre] at hp
    simp only [SetOp2.run, hp, if_true] at e1 e2; cases e1; cases e2; exact hrs
  | domain orc orc' =>
    obtain ⟨a, ea, sa⟩ := ISet.addSet_spec L1 st orc (wf_nil (o := o₁) (g := setSeg)) r
    obtain ⟨b, eb, sb⟩ := ISet.addSet_spec L2 st orc' (wf_nil (o := o₂) (g := setSeg)) s
    simp only [SetOp2.run, ISet.domain, ea, eb] at e1 e2; cases e1; cases e2
    exact twin_union L1 L2 (good_nil st) (good_nil st) .nil hrs sa sb
  | between orc orc' =>
    obtain ⟨a, ea, sa⟩ := ISet.addSet_spec L1 st orc (wf_nil (o := o₁) (g := setSeg)) (ISet.gaps o₁ r)
    obtain ⟨b, eb, sb⟩ := ISet.addSet_spec L2 st orc' (wf_nil (o := o₂) (g := setSeg)) (ISet.gaps o₂ s)
    simp only [SetOp2.run, ISet.between, ea, eb] at e1 e2; cases e1; cases e2
    exact twin_union L1 L2 (good_nil st) (good_nil st) .nil (twin_gaps L1 L2 hr.1 hs.1 hrs) sa sb

theorem TwinSets.good {E₁ : Option (ElemFns D I)} {E₂ : Option (ElemFns D J)} (h1 : SetClass o₁ E₁) (h2 : SetClass o₂ E₂)
    {st : Style} {l : List I} {m : List J} (h : TwinSets o₁ o₂ E₁ E₂ st l m) :
    Good o₁ st l ∧ Good o₂ st m ∧ TwinSegments o₁ o₂ l m := by
  induction h with
  | empty st => exact ⟨good_nil st, good_nil st, .nil⟩
  | op _ hc p1 p2 e1 e2 ih =>
    exact ⟨SetOp.run_good h1 ih.1 e1, SetOp.run_good h2 ih.2.1 e2, twin_run h1 h2 ih.1 ih.2.1 ih.2.2 hc p1 p2 e1 e2⟩
  | op2 _ _ hc e1 e2 ih ih' =>
    refine ⟨?_, ?_, twin_run2 h1.cls h2.cls ih.1 ih.2.1 ih'.1 ih'.2.1 ih.2.2 ih'.2.2 hc e1 e2⟩
    · obtain ⟨a, ea, ga, _⟩ := SetOp2.run_spec h1.cls ih.1 ih'.1 _ (SetOp2.pre_of_run e1)
      rw [ea] at e1; cases e1; exact ga
    · obtain ⟨a, ea, ga, _⟩ := SetOp2.run_spec h2.cls ih.2.1 ih'.2.1 _ (SetOp2.pre_of_run e2)
      rw [ea] at e2; cases e2; exact ga

end ICL
