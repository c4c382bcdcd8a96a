import Verif.Theory.Program

/-!
# Every step of a program, and every program, follows the specification
-/

set_option linter.unusedSectionVars false
set_option linter.unusedVariables false

namespace ICL
open Spec IMap Classical

variable {D I V : Type} [LinearOrder D] {o : IntervalOps D I} [DecidableEq I] [DecidableEq V]

/-- The store holds the contents. -/
structure Holds (o : IntervalOps D I) (τ : VarTypes V) (σ : Store I V) (α : Contents D V) : Prop where
  good : ∀ a, Good o (τ.set a) (σ.set a)
  elems : ∀ a S, α.set a = some S → HasElems o (σ.set a) S
  mgood : ∀ m, MGood o (τ.map m) (σ.map m)
  isFun : ∀ m f, α.map m = some f → IsFun o (σ.map m) f

/-- What the classes of the program have to fulfil. -/
structure Setting (o : IntervalOps D I) (E : Option (ElemFns D I)) (τ : VarTypes V) (ρ : Remains I V) : Prop where
  cls : SetClass o E
  neutral : ∀ m, Neutral (τ.map m)
  version : ∀ m v, (τ.map m).plus.version v = v
  setLeft : ∀ st l, Good o st l → Good o st (ρ.set st l)
  mapLeft : ∀ m l, MGood o (τ.map m) l → MGood o (τ.map m) (ρ.map (τ.map m) l)

variable {E : Option (ElemFns D I)} {τ : VarTypes V} {ρ : Remains I V} {σ : Store I V} {α : Contents D V}

theorem Holds.putSet (hh : Holds o τ σ α) {a : Nat} {l : List I} {S : Option (D → Prop)} (hl : Good o (τ.set a) l)
    (hS : ∀ S₀, S = some S₀ → HasElems o l S₀) : Holds o τ (σ.putSet a l) (α.putSet a S) where
  good n := by
    simp only [Store.putSet]
    split
    · subst n; exact hl
    · exact hh.good n
  elems n T hT := by
    simp only [Store.putSet, Contents.putSet] at hT ⊢
    by_cases hn : n = a
    · rw [if_pos hn] at hT ⊢; exact hS T hT
    · rw [if_neg hn] at hT ⊢; exact hh.elems n T hT
  mgood := hh.mgood
  isFun := hh.isFun

theorem Holds.putMap (hh : Holds o τ σ α) {m : Nat} {l : List (I × V)} {f : Option (D → Option V)}
    (hl : MGood o (τ.map m) l) (hf : ∀ f₀, f = some f₀ → IsFun o l f₀) :
    Holds o τ (σ.putMap m l) (α.putMap m f) where
  good := hh.good
  elems := hh.elems
  mgood n := by
    simp only [Store.putMap]
    split
    · subst n; exact hl
    · exact hh.mgood n
  isFun n g hg := by
    simp only [Store.putMap, Contents.putMap] at hg ⊢
    by_cases hn : n = m
    · rw [if_pos hn] at hg ⊢; exact hf g hg
    · rw [if_neg hn] at hg ⊢; exact hh.isFun n g hg

/-- Forgetting a content. -/
theorem Holds.forget (hh : Holds o τ σ α) (a : Nat) : Holds o τ σ (α.putSet a none) where
  good := hh.good
  elems n T hT := by
    simp only [Contents.putSet] at hT
    by_cases hn : n = a
    · rw [if_pos hn] at hT; cases hT
    · rw [if_neg hn] at hT; exact hh.elems n T hT
  mgood := hh.mgood
  isFun := hh.isFun

theorem Holds.forgetIf (hh : Holds o τ σ α) (r : Bool) (a : Nat) : Holds o τ σ (α.moved r a) := by
  unfold Contents.moved
  split
  · exact hh.forget a
  · exact hh

theorem Holds.forgetMapIf (hh : Holds o τ σ α) (r : Bool) (m : Nat) : Holds o τ σ (α.movedMap r m) := by
  unfold Contents.movedMap
  split
  · refine ⟨hh.good, hh.elems, hh.mgood, fun n g hg => ?_⟩
    simp only [Contents.putMap] at hg
    by_cases hn : n = m
    · rw [if_pos hn] at hg; cases hg
    · rw [if_neg hn] at hg; exact hh.isFun n g hg
  · exact hh

theorem Holds.put1 (hh : Holds o τ σ α) {a : Nat} {l : List I} {S : D → Prop} (hl : Good o (τ.set a) l)
    (hS : HasElems o l S) : Holds o τ (σ.putSet a l) (α.putSet a (some S)) :=
  hh.putSet hl fun S₀ e => by cases e; exact hS

theorem Holds.putM1 (hh : Holds o τ σ α) {m : Nat} {l : List (I × V)} {f : D → Option V}
    (hl : MGood o (τ.map m) l) (hf : IsFun o l f) : Holds o τ (σ.putMap m l) (α.putMap m (some f)) :=
  hh.putMap hl fun f₀ e => by cases e; exact hf

/-- The contents of a store. -/
theorem Holds.key (hh : Holds o τ σ α) {m : Nat} {f : D → Option V} (hf : α.map m = some f) (x : D) :
    Key o (σ.map m) x ↔ f x ≠ none := by
  rw [← hh.isFun m f hf x]
  exact (valueAt_key (mapWellFormed_iff.2 (hh.mgood m).wf) x).symm

theorem Holds.assoc (hh : Holds o τ σ α) {m : Nat} {f : D → Option V} (hf : α.map m = some f) (x : D) (v : V) :
    Assoc o (σ.map m) x v ↔ f x = some v := by
  rw [← hh.isFun m f hf x]
  exact (valueAt_assoc (mapWellFormed_iff.2 (hh.mgood m).wf) x v).symm

theorem bool_answer {r : Option Bool} {P : Prop} [Decidable P] (hr : ∃ b, r = some b ∧ (b = true ↔ P)) :
    r.map (Answer.bool (V := V)) = some (.bool (decide P)) := by
  obtain ⟨b, rfl, hb⟩ := hr
  simp only [Option.map_some, Option.some.injEq, Answer.bool.injEq]
  rw [Bool.eq_iff_iff, hb, decide_eq_true_iff]

theorem decide_bool {b : Bool} {P : Prop} [Decidable P] (hb : b = true ↔ P) : (Answer.bool b : Answer V) = .bool (decide P) := by
  rw [show b = decide P by rw [Bool.eq_iff_iff, hb, decide_eq_true_iff]]

theorem wf_isEmpty_iff {W S : Type} {g : SegOps I W S} {l : List S} (hl : WF o g l) :
    l.isEmpty = true ↔ ∀ x, ¬ Dom o g l x := by
  cases l with
  | nil => simp
  | cons s l =>
    simp only [List.isEmpty_cons, Bool.false_eq_true, false_iff, not_forall, not_not]
    obtain ⟨x, hx⟩ := hl.1 s (List.mem_cons_self ..)
    exact ⟨x, s, List.mem_cons_self .., hx⟩

theorem answer_ok (hs : Setting o E τ ρ) (hh : Holds o τ σ α) {q : Query D I V} {r : Answer V}
    (hq : answer o E τ α q = some r) : ask o E τ σ q = some r := by
  have h := hs.cls
  have ws := fun a => wellFormed_iff.2 (hh.good a).1
  have wm := fun m => mapWellFormed_iff.2 (hh.mgood m).wf
  cases q <;> simp only [answer, Option.bind_eq_bind, Option.bind_eq_some_iff, pure, Option.some.injEq] at hq
  case contains a x =>
    obtain ⟨S, eS, hq⟩ := hq
    obtain ⟨⟨e, rfl, h1, h2⟩, rfl⟩ := allowed_some hq
    obtain ⟨b, e1, e2⟩ := Props.C14_contains_element (h.elem e rfl).2 (ws a) x h2
    exact bool_answer ⟨b, e1, e2.trans (hh.elems a S eS x)⟩
  case containsItv a k =>
    obtain ⟨S, eS, rfl⟩ := hq
    obtain ⟨b, e1, e2⟩ := Props.C14_contains_interval h.cls (ws a) k
    exact bool_answer ⟨b, e1, e2.trans (forall_congr' fun x => imp_congr_right fun _ => hh.elems a S eS x)⟩
  case containsSet a b =>
    obtain ⟨S, eS, T, eT, rfl⟩ := hq
    obtain ⟨b', e1, e2⟩ := Props.C25_contains_sets h.cls (ws a) (ws b)
    exact bool_answer ⟨b', e1, e2.trans (forall_congr' fun x => imp_congr (hh.elems b T eT x) (hh.elems a S eS x))⟩
  case within a b =>
    obtain ⟨S, eS, T, eT, rfl⟩ := hq
    obtain ⟨b', e1, e2⟩ := Props.C25_within_sets h.cls (ws a) (ws b)
    exact bool_answer ⟨b', e1, e2.trans (forall_congr' fun x => imp_congr (hh.elems a S eS x) (hh.elems b T eT x))⟩
  case intersectsItv a k =>
    obtain ⟨S, eS, rfl⟩ := hq
    obtain ⟨b, e1, e2⟩ := Props.C10_intersects_interval h.cls (ws a) k
    exact bool_answer ⟨b, e1, e2.trans (exists_congr fun x => and_congr_left' (hh.elems a S eS x))⟩
  case intersects a b oracle =>
    obtain ⟨S, eS, T, eT, rfl⟩ := hq
    obtain ⟨b', e1, e2⟩ := Props.C10_intersects h.cls (τ.set a) oracle (ws a) (ws b)
    exact bool_answer ⟨b', e1, e2.trans (exists_congr fun x => and_congr (hh.elems a S eS x) (hh.elems b T eT x))⟩
  case isEmpty a =>
    obtain ⟨S, eS, rfl⟩ := hq
    exact congrArg some (decide_bool
      ((wf_isEmpty_iff (hh.good a).1).trans (forall_congr' fun x => not_congr (hh.elems a S eS x))))
  case elementEqual a b =>
    obtain ⟨S, eS, T, eT, rfl⟩ := hq
    obtain ⟨b', e1, e2⟩ := Props.C25_is_element_equal_sets h.cls (ws a) (ws b)
    exact bool_answer ⟨b', e1, e2.trans (forall_congr' fun x => iff_congr (hh.elems a S eS x) (hh.elems b T eT x))⟩
  case equal a b =>
    obtain ⟨S, eS, T, eT, hq⟩ := hq
    obtain ⟨⟨ja, jb⟩, rfl⟩ := allowed_some hq
    refine congrArg some (decide_bool ?_)
    rw [eqC_joined h.cls.lawful (hh.good a).1 (hh.good b).1 ((hh.good a).2 ja) ((hh.good b).2 jb)]
    have : ∀ (l : List I) x (u : Unit), Maps o setSeg l x u ↔ Elem o l x := fun l x u => Props.elem_maps l x u
    simp only [this]
    exact ⟨fun e x => (hh.elems a S eS x).symm.trans ((e x ()).trans (hh.elems b T eT x)),
      fun e x _ => (hh.elems a S eS x).trans ((e x).trans (hh.elems b T eT x).symm)⟩
  case select m x =>
    obtain ⟨f, ef, hq⟩ := hq
    obtain ⟨⟨e, rfl, h1, h2⟩, rfl⟩ := allowed_some hq
    obtain ⟨v, e1, e2⟩ := Props.C14_select (h.elem e rfl).2 (wm m) (τ.map m).cfg.ident x h2
    simp only [ask, Option.bind_some, e1, Option.map_some, Option.some.injEq, Answer.value.injEq]
    rcases e2 with e2 | ⟨e2, rfl⟩
    · rw [(hh.assoc ef x v).1 e2]; rfl
    · rw [hh.key ef, not_not] at e2
      rw [e2]; rfl
  case hasKey m x =>
    obtain ⟨f, ef, hq⟩ := hq
    obtain ⟨⟨e, rfl, h1, h2⟩, rfl⟩ := allowed_some hq
    refine bool_answer ?_
    cases ht : (τ.map m).cfg.total with
    | true => exact ⟨true, rfl, by simp⟩
    | false =>
      obtain ⟨b, e1, e2⟩ := Props.C14_map_contains_key (h.elem e rfl).2 (wm m) x h2
      exact ⟨b, e1, by rw [e2, hh.key ef]; simp⟩
  case hasPair m x v =>
    obtain ⟨f, ef, hq⟩ := hq
    obtain ⟨⟨e, rfl, h1, h2⟩, rfl⟩ := allowed_some hq
    obtain ⟨b, e1, e2⟩ := Props.C14_map_contains_pair (h.elem e rfl).2 (wm m) x h2 v
    exact bool_answer ⟨b, e1, e2.trans (hh.assoc ef x v)⟩
  case hasKeys m k =>
    obtain ⟨f, ef, rfl⟩ := hq
    refine bool_answer ?_
    cases ht : (τ.map m).cfg.total with
    | true => exact ⟨true, rfl, by simp⟩
    | false =>
      obtain ⟨b, e1, e2⟩ := Props.C14_map_contains_interval h.cls (wm m) k
      exact ⟨b, e1, by rw [e2]; simp only [hh.key ef]; simp⟩
  case hasSegment m k v =>
    obtain ⟨f, ef, rfl⟩ := hq
    obtain ⟨b, e1, e2⟩ := Props.C14_map_contains_segment h.cls (wm m) k v
    exact bool_answer ⟨b, e1, e2.trans (forall_congr' fun x => imp_congr_right fun _ => hh.assoc ef x v)⟩
  case hasSet m a =>
    obtain ⟨f, ef, S, eS, hq⟩ := hq
    obtain ⟨ht, rfl⟩ := allowed_some hq
    obtain ⟨b, e1, e2⟩ := Props.C25_map_contains_set h.cls (wm m) (ws a)
    exact bool_answer ⟨b, e1, e2.trans (forall_congr' fun x => imp_congr (hh.elems a S eS x) (hh.key ef x))⟩
  case hasMap m n =>
    obtain ⟨f, ef, g, eg, hq⟩ := hq
    obtain ⟨ht, rfl⟩ := allowed_some hq
    obtain ⟨b, e1, e2⟩ := Props.C25_contains_maps h.cls (wm m) (wm n)
    exact bool_answer ⟨b, e1, e2.trans (forall_congr' fun x => forall_congr' fun v =>
      imp_congr (hh.assoc eg x v) (hh.assoc ef x v))⟩
  case mapIsEmpty m =>
    obtain ⟨f, ef, rfl⟩ := hq
    refine congrArg some (decide_bool ((wf_isEmpty_iff (hh.mgood m).wf).trans (forall_congr' fun x => ?_)))
    rw [← key_iff, hh.key ef, not_not]
  case mapElementEqual m n =>
    obtain ⟨f, ef, g, eg, rfl⟩ := hq
    obtain ⟨b, e1, e2⟩ := Props.C25_is_element_equal_maps h.cls (wm m) (wm n)
    refine bool_answer ⟨b, e1, e2.trans (forall_congr' fun x => ?_)⟩
    simp only [hh.assoc ef, hh.assoc eg]
    exact ⟨fun e => Option.ext fun v => e v, fun e v => by rw [e]⟩
  case mapEqual m n =>
    obtain ⟨f, ef, g, eg, hq⟩ := hq
    obtain ⟨⟨ja, jb⟩, rfl⟩ := allowed_some hq
    refine congrArg some (decide_bool ?_)
    rw [Props.C22_canonical h.cls (wm m) (wm n) ((mapFullyJoined_iff h.cls.lawful (hh.mgood m).wf).2 ((hh.mgood m).joined ja))
      ((mapFullyJoined_iff h.cls.lawful (hh.mgood n).wf).2 ((hh.mgood n).joined jb))]
    exact forall_congr' fun x => by rw [hh.isFun m f ef, hh.isFun n g eg]

theorem applySet_ok (hs : Setting o E τ ρ) (hh : Holds o τ σ α) {a b : Nat} {T S' : D → Prop} {c : SetOp2 I}
    (hT : α.set b = some T) (hc : setStep2 (τ.set a = τ.set b) (a = b) (α.set a) T c = some S') :
    ∃ l', applySet o τ σ a b c = some l' ∧ Good o (τ.set a) l' ∧ HasElems o l' S' := by
  unfold applySet
  by_cases hab : a = b
  · subst hab
    rw [if_pos rfl]
    rw [hT, eq_self a] at hc
    exact setStep2_self hs.cls.cls (hh.good a) (hh.elems a T hT) hc
  · rw [if_neg hab]
    exact setStep2_other hs.cls.cls (hh.good a) (hh.good b) (hh.elems a) (hh.elems b T hT) hc

theorem setStep2_op (same self : Prop) (S T : D → Prop) (c : SetBin) (oracle : List I → I → Nat) :
    setStep2 same self (some S) T (c.op oracle) = some (setBin S T c) := by
  cases c <;> rfl

theorem setBin_comm {c : SetBin} (hc : c ≠ .sub) (S T : D → Prop) : setBin S T c = setBin T S c := by
  cases c with
  | sub => exact absurd rfl hc
  | add => exact funext fun x => propext or_comm
  | inter => exact funext fun x => propext and_comm
  | flip => exact funext fun x => propext (by simp only [setBin]; rw [xor_comm])

theorem applyMap_ok (hs : Setting o E τ ρ) (hh : Holds o τ σ α) {m n : Nat} {f g f' : D → Option V} {c : MapOp2 I V}
    (ef : α.map m = some f) (eg : α.map n = some g) (hc : mapStep2 (τ.map m) (m = n) f g c = some f') :
    ∃ l', applyMap o τ σ m n c = some l' ∧ MGood o (τ.map m) l' ∧ IsFun o l' f' := by
  unfold applyMap
  by_cases hmn : m = n
  · subst hmn
    rw [if_pos rfl]
    rw [ef] at eg; cases eg
    rw [eq_self m] at hc
    exact mapStep2_self hs.cls.cls (hs.neutral m) (hs.version m) (hh.mgood m) (hh.isFun m f ef) hc
  · rw [if_neg hmn]
    exact mapStep2_other hs.cls.cls (hs.neutral m) (hs.version m) (hh.mgood m) (hh.isFun m f ef) (hh.mgood n).wf
      (hh.isFun n g eg) hc

/-- Exchange of the operands of a commutative operator. -/
theorem mapStep2_comm {t : MapType V} (hN : Neutral t) (hv : ∀ v, t.plus.version v = v) {l r : List (I × V)}
    {f g f' : D → Option V} (hl : MGood o t l) (hf : IsFun o l f) (hr : MGood o t r) (hg : IsFun o r g) {c : SetBin}
    (hc : Commutes t c) (oracle : List (I × V) → I → Nat) {self : Prop}
    (e : mapStep2 t self f g (c.mapOp oracle) = some f') : mapStep2 t self g f (c.mapOp oracle) = some f' := by
  have bf := added_back hN hv hl hf
  have bg := added_back hN hv hr hg
  have hadd : (∀ u v, t.plus.apply u v = t.plus.apply v u) → onKeys f (added t) g = onKeys g (added t) f := by
    intro hc
    funext x
    have bf := bf x
    have bg := bg x
    unfold onKeys
    cases h1 : f x <;> cases h2 : g x <;> simp only [h1, h2, Option.bind_some, Option.bind_none] at bf bg ⊢
    · exact bg.symm
    · exact bf
    · simp only [added, combined, stored]
      rename_i u v
      have hu : ¬ Ignored t u := by
        rintro hi
        simp [added, combined, hi] at bf
      have hv : ¬ Ignored t v := by
        rintro hi
        simp [added, combined, hi] at bg
      simp [hu, hv, hc u v]
  cases c with
  | sub => exact hc.elim
  | add =>
    simp only [SetBin.mapOp, mapStep2] at e ⊢
    rw [hadd hc]; exact e
  | inter =>
    simp only [SetBin.mapOp, mapStep2, Commutes] at e hc ⊢
    cases ht : t.cfg.total with
    | true =>
      simp only [ht, if_true] at e hc ⊢
      rw [hadd hc]; exact e
    | false =>
      simp only [ht, Bool.false_eq_true, if_false] at e hc ⊢
      rw [← e]
      congr 1
      funext x
      cases f x <;> cases g x <;> simp [hc]
  | flip =>
    simp only [SetBin.mapOp, mapStep2, Commutes] at e hc ⊢
    obtain ⟨hs, rfl⟩ := allowed_some e
    unfold allowed
    rw [if_pos hs]
    congr 1
    cases ht : t.cfg.total with
    | true =>
      simp only [if_true]
      funext x
      simp only [flipTotal]
      by_cases hP : t.cfg.absorbs = false ∧ (g x ≠ none ∨ f x ≠ none)
      · rw [if_pos hP, if_pos ⟨hP.1, hP.2.symm⟩]
      · rw [if_neg hP, if_neg fun hh => hP ⟨hh.1, hh.2.symm⟩]
    | false =>
      simp only [ht, Bool.false_eq_true, if_false, false_or] at hc ⊢
      funext x
      have bf := bf x
      have bg := bg x
      unfold onKeys
      cases h1 : f x <;> cases h2 : g x <;> simp only [h1, h2, Option.bind_some, Option.bind_none] at bf bg ⊢
      · exact bg.symm
      · exact bf
      · exact hc _ _

theorem step_ok (hs : Setting o E τ ρ) (hh : Holds o τ σ α) {act : Act D I V} {α' : Contents D V} {r : Answer V}
    (ha : specStep o E τ α act = some (α', r)) :
    ∃ σ', step o E τ ρ σ act = some (σ', r) ∧ Holds o τ σ' α' := by
  have h := hs.cls
  have ws := fun a => wellFormed_iff.2 (hh.good a).1
  have wm := fun m => mapWellFormed_iff.2 (hh.mgood m).wf
  cases act with
  | set a c =>
    have key : ∀ S', (∃ l', c.run o E (τ.set a) (σ.set a) = some l' ∧ Good o (τ.set a) l' ∧ HasElems o l' S') →
        some (α.putSet a (some S'), Answer.done) = some (α', r) →
        ∃ σ', step o E τ ρ σ (.set a c) = some (σ', r) ∧ Holds o τ σ' α' := by
      rintro S' ⟨l', e1, e2, e3⟩ e
      simp only [Option.some.injEq, Prod.mk.injEq] at e
      obtain ⟨rfl, rfl⟩ := e
      exact ⟨_, by simp only [step, e1, Option.map_some], hh.put1 e2 e3⟩
    by_cases hc : c = .clear
    · subst hc
      exact key _ (clear_ok (o := o) (τ.set a) (σ.set a)) ha
    · have ha' : ((α.set a).bind fun S => (setStep o E S c).bind fun S' =>
          some (α.putSet a (some S'), Answer.done)) = some (α', r) := by
        cases c <;> first | exact absurd rfl hc | exact ha
      obtain ⟨S, eS, ha'⟩ := Option.bind_eq_some_iff.1 ha'
      obtain ⟨S', eS', ha'⟩ := Option.bind_eq_some_iff.1 ha'
      exact key S' (setStep_ok h (hh.good a) (hh.elems a S eS) eS') ha'
  | set2 a b c =>
    simp only [specStep, Option.bind_eq_bind, Option.bind_eq_some_iff, pure, Option.some.injEq, Prod.mk.injEq] at ha
    obtain ⟨T, eT, S', eS', rfl, rfl⟩ := ha
    obtain ⟨l', e1, e2, e3⟩ := applySet_ok hs hh eT eS'
    exact ⟨_, by simp only [step, e1, Option.map_some], hh.put1 e2 e3⟩
  | setBin d a b ra rb c oracle =>
    simp only [specStep, Option.bind_eq_bind, Option.bind_eq_some_iff] at ha
    obtain ⟨S, eS, T, eT, ha⟩ := ha
    obtain ⟨⟨hd, hab⟩, e⟩ := allowed_some ha
    simp only [Prod.mk.injEq] at e
    obtain ⟨rfl, rfl⟩ := e
    simp only [step]
    rw [if_pos ⟨hd, hab⟩]
    by_cases hr : (c != .sub && !ra && rb) = true
    · -- the right operand is the object
      simp only [hr, if_true, Bool.or_true]
      have hr' : c ≠ .sub ∧ ra = false ∧ rb = true := by
        simpa [and_assoc] using hr
      obtain ⟨hcs, rfl, rfl⟩ := hr'
      have hc : setStep2 (τ.set b = τ.set a) (b = a) (α.set b) S (c.op oracle) = some (setBin S T c) := by
        rw [eT, setStep2_op, setBin_comm hcs]
      obtain ⟨l', e1, e2, e3⟩ := applySet_ok hs hh eS hc
      refine ⟨_, by rw [e1]; rfl, ?_⟩
      have h1 : Holds o τ (σ.putSet b (ρ.set (τ.set b) l')) (α.putSet b none) :=
        hh.putSet (hs.setLeft _ _ e2) fun _ e => by cases e
      have h2 : (α.moved false a).moved true b = α.putSet b none := by simp [Contents.moved]
      rw [h2]
      exact h1.put1 (by rw [hd, hab]; exact e2) e3
    · rw [Bool.not_eq_true] at hr
      simp only [hr, Bool.or_false, Bool.false_eq_true, if_false]
      cases ra with
      | true =>
        simp only [if_true]
        have hc : setStep2 (τ.set a = τ.set b) (a = b) (α.set a) T (c.op oracle) = some (setBin S T c) := by
          rw [eS, setStep2_op]
        obtain ⟨l', e1, e2, e3⟩ := applySet_ok hs hh eT hc
        refine ⟨_, by rw [e1]; rfl, ?_⟩
        have h1 : Holds o τ (σ.putSet a (ρ.set (τ.set a) l')) (α.putSet a none) :=
          hh.putSet (hs.setLeft _ _ e2) fun _ e => by cases e
        have h2 : α.moved true a = α.putSet a none := by simp [Contents.moved]
        rw [h2]
        exact (h1.forgetIf rb b).put1 (by rw [hd]; exact e2) e3
      | false =>
        simp only [Bool.false_eq_true, if_false]
        have hc : setStep2 (τ.set a = τ.set b) False (some S) T (c.op oracle) = some (setBin S T c) := setStep2_op ..
        obtain ⟨l', e1, e2, e3⟩ := setStep2_other hs.cls.cls (hh.good a) (hh.good b)
          (fun S₀ e => by cases e; exact hh.elems a S eS) (hh.elems b T eT) hc
        refine ⟨_, by rw [e1]; rfl, ?_⟩
        exact ((hh.forgetIf false a).forgetIf rb b).put1 (by rw [hd]; exact e2) e3
  | setMove a b =>
    simp only [specStep, Option.bind_eq_bind, Option.bind_eq_some_iff] at ha
    obtain ⟨S, eS, ha⟩ := ha
    obtain ⟨hab, e⟩ := allowed_some ha
    simp only [Prod.mk.injEq] at e
    obtain ⟨rfl, rfl⟩ := e
    refine ⟨_, by rw [step, if_pos hab], ?_⟩
    have h1 : Holds o τ (σ.putSet b (ρ.set (τ.set b) (σ.set b))) (α.putSet b none) :=
      hh.putSet (hs.setLeft _ _ (hh.good b)) fun _ e => by cases e
    exact h1.put1 (by rw [hab]; exact hh.good b) (hh.elems b S eS)
  | setSwap a b =>
    simp only [specStep] at ha
    obtain ⟨hab, e⟩ := allowed_some ha
    simp only [Prod.mk.injEq] at e
    obtain ⟨rfl, rfl⟩ := e
    refine ⟨_, by rw [step, if_pos hab], ?_⟩
    exact (hh.putSet (by rw [hab]; exact hh.good b) (hh.elems b)).putSet (by rw [← hab]; exact hh.good a) (hh.elems a)
  | map m c =>
    have key : ∀ f', (∃ l', c.run o E (τ.map m) (σ.map m) = some l' ∧ MGood o (τ.map m) l' ∧ IsFun o l' f') →
        some (α.putMap m (some f'), Answer.done) = some (α', r) →
        ∃ σ', step o E τ ρ σ (.map m c) = some (σ', r) ∧ Holds o τ σ' α' := by
      rintro S' ⟨l', e1, e2, e3⟩ e
      simp only [Option.some.injEq, Prod.mk.injEq] at e
      obtain ⟨rfl, rfl⟩ := e
      exact ⟨_, by simp only [step, e1, Option.map_some], hh.putM1 e2 e3⟩
    by_cases hc : c = .clear
    · subst hc
      exact key _ ⟨[], rfl, mgood_nil _, fun x => rfl⟩ ha
    · have ha' : ((α.map m).bind fun f => (mapStep o (τ.map m) E f c).bind fun f' =>
          some (α.putMap m (some f'), Answer.done)) = some (α', r) := by
        cases c <;> first | exact absurd rfl hc | exact ha
      obtain ⟨f, ef, ha'⟩ := Option.bind_eq_some_iff.1 ha'
      obtain ⟨f', ef', ha'⟩ := Option.bind_eq_some_iff.1 ha'
      exact key f' (mapStep_ok h (hs.neutral m) (hs.version m) (hh.mgood m) (hh.isFun m f ef) ef') ha'
  | map2 m n c =>
    simp only [specStep, Option.bind_eq_bind, Option.bind_eq_some_iff, pure, Option.some.injEq, Prod.mk.injEq] at ha
    obtain ⟨f, ef, g, eg, f', ef', rfl, rfl⟩ := ha
    obtain ⟨l', e1, e2, e3⟩ := applyMap_ok hs hh ef eg ef'
    exact ⟨_, by simp only [step, e1, Option.map_some], hh.putM1 e2 e3⟩
  | map3 m a c =>
    simp only [specStep, Option.bind_eq_bind, Option.bind_eq_some_iff, pure, Option.some.injEq, Prod.mk.injEq] at ha
    obtain ⟨f, ef, S, eS, rfl, rfl⟩ := ha
    obtain ⟨l', e1, e2, e3⟩ := mapStep3_ok h.cls (hs.neutral m) (hs.version m) (hh.mgood m) (hh.isFun m f ef)
      (hh.good a).1 (hh.elems a S eS) c
    exact ⟨_, by simp only [step, e1, Option.map_some], hh.putM1 e2 e3⟩
  | mapBin d m n rm rn c oracle =>
    simp only [specStep, Option.bind_eq_bind, Option.bind_eq_some_iff] at ha
    obtain ⟨f, ef, g, eg, f', ef', ha⟩ := ha
    obtain ⟨⟨hd, hmn, hcom⟩, e⟩ := allowed_some ha
    simp only [Prod.mk.injEq] at e
    obtain ⟨rfl, rfl⟩ := e
    simp only [step]
    by_cases hr : (c != .sub && !rm && rn) = true
    · -- the right operand is the object
      simp only [hr, if_true, Bool.or_true]
      have hr' : c ≠ .sub ∧ rm = false ∧ rn = true := by
        simpa [and_assoc] using hr
      obtain ⟨hcs, rfl, rfl⟩ := hr'
      have hc : mapStep2 (τ.map n) (n = m) g f (c.mapOp oracle) = some f' := by
        have := mapStep2_comm (hs.neutral m) (hs.version m) (hh.mgood m) (hh.isFun m f ef)
          (by rw [hmn]; exact hh.mgood n) (hh.isFun n g eg) (hcom rfl rfl hcs) oracle ef'
        rw [← hmn]
        simpa [eq_comm] using this
      obtain ⟨l', e1, e2, e3⟩ := applyMap_ok hs hh eg ef hc
      refine ⟨_, by rw [e1]; rfl, ?_⟩
      have h1 : Holds o τ (σ.putMap n (ρ.map (τ.map n) l')) (α.putMap n none) :=
        hh.putMap (hs.mapLeft _ _ e2) fun _ e => by cases e
      have h2 : (α.movedMap false m).movedMap true n = α.putMap n none := by simp [Contents.movedMap]
      rw [h2]
      exact h1.putM1 (by rw [hd, hmn]; exact e2) e3
    · rw [Bool.not_eq_true] at hr
      simp only [hr, Bool.or_false, Bool.false_eq_true, if_false]
      cases rm with
      | true =>
        simp only [if_true]
        have hc : mapStep2 (τ.map m) (m = n) f g (c.mapOp oracle) = some f' := by simpa using ef'
        obtain ⟨l', e1, e2, e3⟩ := applyMap_ok hs hh ef eg hc
        refine ⟨_, by rw [e1]; rfl, ?_⟩
        have h1 : Holds o τ (σ.putMap m (ρ.map (τ.map m) l')) (α.putMap m none) :=
          hh.putMap (hs.mapLeft _ _ e2) fun _ e => by cases e
        have h2 : α.movedMap true m = α.putMap m none := by simp [Contents.movedMap]
        rw [h2]
        exact (h1.forgetMapIf rn n).putM1 (by rw [hd]; exact e2) e3
      | false =>
        simp only [Bool.false_eq_true, if_false]
        obtain ⟨l', e1, e2, e3⟩ := mapStep2_other hs.cls.cls (hs.neutral m) (hs.version m) (hh.mgood m)
          (hh.isFun m f ef) (hh.mgood n).wf (hh.isFun n g eg) ef'
        refine ⟨_, by rw [e1]; rfl, ?_⟩
        exact ((hh.forgetMapIf false m).forgetMapIf rn n).putM1 (by rw [hd]; exact e2) e3
  | mapCopy m n oracle =>
    simp only [specStep, Option.bind_eq_bind, Option.bind_eq_some_iff] at ha
    obtain ⟨f, ef, ha⟩ := ha
    obtain ⟨hal, e⟩ := allowed_some ha
    simp only [Prod.mk.injEq] at e
    obtain ⟨rfl, rfl⟩ := e
    simp only [step]
    by_cases hj : (τ.map m).cfg.joining = (τ.map n).cfg.joining
    · have ht : τ.map n = τ.map m := by
        rw [hal, ← hj]
      rw [if_pos hj]
      exact ⟨_, rfl, hh.putM1 (by rw [← ht]; exact hh.mgood n) (hh.isFun n f ef)⟩
    · rw [if_neg hj]
      obtain ⟨l', e1, g⟩ := assign_good h.cls.lawful oracle (hh.mgood n) hal
      refine ⟨_, by rw [e1]; rfl, hh.putM1 g fun x => ?_⟩
      cases ht : (τ.map m).cfg.joining with
      | false =>
        rw [assign_split h.cls.lawful _ ht oracle (hh.mgood n).wf] at e1
        cases e1
        exact hh.isFun n f ef x
      | true =>
        obtain ⟨l'', e2, _, _, v, _⟩ := assign_join h.cls.lawful _ ht oracle (hh.mgood n).wf
        rw [e1] at e2; cases e2
        rw [v (hs.neutral m), hh.isFun n f ef]
        have hb := added_back (hs.neutral n) (hs.version n) (hh.mgood n) (hh.isFun n f ef) x
        have hp : (τ.map n).plus = (τ.map m).plus := by rw [hal]
        cases hx : f x with
        | none => rfl
        | some u =>
          have hn := (hh.mgood n).noIdent (hs.neutral n)
          rw [noIdent_iff (hh.mgood n).wf] at hn
          have hu := hn x u (by rw [hh.isFun n f ef, hx])
          rw [hal.absorbable] at hu
          simp [addF, hu, hs.version m]
  | mapMove m n =>
    simp only [specStep, Option.bind_eq_bind, Option.bind_eq_some_iff] at ha
    obtain ⟨f, ef, ha⟩ := ha
    obtain ⟨hmn, e⟩ := allowed_some ha
    simp only [Prod.mk.injEq] at e
    obtain ⟨rfl, rfl⟩ := e
    refine ⟨_, rfl, ?_⟩
    have h1 : Holds o τ (σ.putMap n (ρ.map (τ.map n) (σ.map n))) (α.putMap n none) :=
      hh.putMap (hs.mapLeft _ _ (hh.mgood n)) fun _ e => by cases e
    exact h1.putM1 (by rw [hmn]; exact hh.mgood n) (hh.isFun n f ef)
  | mapSwap m n =>
    simp only [specStep] at ha
    obtain ⟨hmn, e⟩ := allowed_some ha
    simp only [Prod.mk.injEq] at e
    obtain ⟨rfl, rfl⟩ := e
    refine ⟨_, rfl, ?_⟩
    exact (hh.putMap (by rw [hmn]; exact hh.mgood n) (hh.isFun n)).putMap (by rw [← hmn]; exact hh.mgood m) (hh.isFun m)
  | domain a m oracle =>
    simp only [specStep, Option.bind_eq_bind, Option.bind_eq_some_iff, pure, Option.some.injEq, Prod.mk.injEq] at ha
    obtain ⟨f, ef, rfl, rfl⟩ := ha
    obtain ⟨l', e1, p⟩ := ISet.addSet_spec h.cls.lawful (τ.set a) oracle (wf_nil (o := o) (g := setSeg))
      ((σ.map m).map Prod.fst)
    obtain ⟨l'', e2, w, d⟩ := Props.C29_map_domain h.cls (τ.set a) oracle (wm m)
    have : l'' = l' := by
      have : IMap.domain o (τ.set a) oracle (σ.map m) = some l' := e1
      rw [e2] at this; exact Option.some.inj this
    subst this
    exact ⟨_, by simp only [step, e2, Option.map_some], hh.put1 ⟨p.wf, fun hj => p.joined hj joined_nil⟩
      fun x => (d x).trans (hh.key ef x)⟩
  | between a m oracle =>
    simp only [specStep, Option.bind_eq_bind, Option.bind_eq_some_iff, pure, Option.some.injEq, Prod.mk.injEq] at ha
    obtain ⟨f, ef, rfl, rfl⟩ := ha
    obtain ⟨l', e1, p⟩ := ISet.addSet_spec h.cls.lawful (τ.set a) oracle (wf_nil (o := o) (g := setSeg))
      (ISet.gaps o ((σ.map m).map Prod.fst))
    obtain ⟨l'', e2, w, d⟩ := Props.C29_map_between h.cls (τ.set a) oracle (wm m)
    have : l'' = l' := by
      have : IMap.between o (τ.set a) oracle (σ.map m) = some l' := e1
      rw [e2] at this; exact Option.some.inj this
    subst this
    refine ⟨_, by simp only [step, e2, Option.map_some], hh.put1 ⟨p.wf, fun hj => p.joined hj joined_nil⟩
      fun x => (d x).trans ?_⟩
    simp only [hh.key ef, not_not]
  | ask q =>
    simp only [specStep, Option.map_eq_some_iff, Prod.mk.injEq] at ha
    obtain ⟨r', e, rfl, rfl⟩ := ha
    exact ⟨σ, by simp only [step, answer_ok hs hh e, Option.map_some], hh⟩

theorem play_ok (hs : Setting o E τ ρ) (client : List (Answer V) → Act D I V) (n : Nat) {σ : Store I V}
    {α : Contents D V} (hh : Holds o τ σ α) (got : List (Answer V)) {α' : Contents D V} {tr : List (Answer V)}
    (hp : play (specStep o E τ) client n α got = some (α', tr)) :
    ∃ σ', play (step o E τ ρ) client n σ got = some (σ', tr) ∧ Holds o τ σ' α' := by
  induction n generalizing σ α got with
  | zero =>
    simp only [play, Option.some.injEq, Prod.mk.injEq] at hp ⊢
    obtain ⟨rfl, rfl⟩ := hp
    exact ⟨σ, ⟨rfl, rfl⟩, hh⟩
  | succ n ih =>
    simp only [play, Option.bind_eq_bind, Option.bind_eq_some_iff] at hp
    obtain ⟨⟨α₁, r⟩, e, hp⟩ := hp
    obtain ⟨σ₁, e1, hh₁⟩ := step_ok hs hh e
    obtain ⟨σ', e2, hh'⟩ := ih hh₁ _ hp
    refine ⟨σ', ?_, hh'⟩
    simp only [play, e1, Option.bind_eq_bind, Option.bind_some, e2]

theorem plainly_step (α : Contents D V) (act : Act D I V) :
    specStep o E τ α act.plainly = specStep o E τ α act := by
  cases act with
  | set a c => cases c <;> rfl
  | set2 a b c => cases c <;> rfl
  | map m c => cases c <;> rfl
  | map2 m n c => cases c <;> rfl
  | map3 m a c => cases c <;> rfl
  | mapBin d m n rm rn c oracle => cases c <;> rfl
  | ask q => cases q <;> rfl
  | _ => rfl

theorem plainly_play {client client' : List (Answer V) → Act D I V}
    (hc : ∀ got, (client got).plainly = (client' got).plainly) (n : Nat) (α : Contents D V) (got : List (Answer V)) :
    play (specStep o E τ) client n α got = play (specStep o E τ) client' n α got := by
  induction n generalizing α got with
  | zero => rfl
  | succ n ih =>
    simp only [play, ih]
    rw [← plainly_step α (client got), hc, plainly_step]

theorem allowed_eq {A : Type} {P Q : Prop} {a b : A} (h1 : allowed P a = some b) {a' b' : A}
    (h2 : allowed Q a' = some b') (h : a = a') : b = b' := by
  rw [(allowed_some h1).2, (allowed_some h2).2, h]

/-- Apart from what is allowed, the classes make no difference. -/
theorem alike_step {τ' : VarTypes V} (ht : ∀ m, (τ.map m).Alike (τ'.map m)) (α : Contents D V) (act : Act D I V)
    {r r' : Contents D V × Answer V} (h1 : specStep o E τ α act = some r) (h2 : specStep o E τ' α act = some r') :
    r = r' := by
  have hm : ∀ m, ∃ j, τ'.map m = { τ.map m with cfg := { (τ.map m).cfg with joining := j } } := fun m => ⟨_, ht m⟩
  cases act with
  | set a c =>
    have : specStep o E τ α (.set a c) = specStep o E τ' α (.set a c) := by cases c <;> rfl
    rw [this, h2] at h1; exact (Option.some.inj h1).symm
  | set2 a b c =>
    simp only [specStep, Option.bind_eq_bind, Option.bind_eq_some_iff, pure, Option.some.injEq] at h1 h2
    obtain ⟨T, eT, S, eS, rfl⟩ := h1
    obtain ⟨T', eT', S', eS', rfl⟩ := h2
    rw [eT] at eT'; cases eT'
    suffices S = S' by rw [this]
    cases c <;> simp only [setStep2] at eS eS' <;>
      first | exact allowed_eq eS eS' rfl | (rw [eS] at eS'; exact Option.some.inj eS')
  | setBin d a b ra rb c oracle =>
    simp only [specStep, Option.bind_eq_bind, Option.bind_eq_some_iff] at h1 h2
    obtain ⟨S, eS, T, eT, h1⟩ := h1
    obtain ⟨S', eS', T', eT', h2⟩ := h2
    rw [eS] at eS'; cases eS'
    rw [eT] at eT'; cases eT'
    exact allowed_eq h1 h2 rfl
  | setMove a b =>
    simp only [specStep, Option.bind_eq_bind, Option.bind_eq_some_iff] at h1 h2
    obtain ⟨S, eS, h1⟩ := h1
    obtain ⟨S', eS', h2⟩ := h2
    rw [eS] at eS'; cases eS'
    exact allowed_eq h1 h2 rfl
  | setSwap a b => exact allowed_eq h1 h2 rfl
  | map m c =>
    have : specStep o E τ α (.map m c) = specStep o E τ' α (.map m c) := by
      obtain ⟨j, hj⟩ := hm m
      cases c <;> simp only [specStep, hj] <;> rfl
    rw [this, h2] at h1; exact (Option.some.inj h1).symm
  | map2 m n c =>
    have : specStep o E τ α (.map2 m n c) = specStep o E τ' α (.map2 m n c) := by
      obtain ⟨j, hj⟩ := hm m
      cases c <;> simp only [specStep, hj] <;> rfl
    rw [this, h2] at h1; exact (Option.some.inj h1).symm
  | map3 m a c => rw [show specStep o E τ α (.map3 m a c) = specStep o E τ' α (.map3 m a c) from rfl, h2] at h1
                  exact (Option.some.inj h1).symm
  | mapBin d m n rm rn c oracle =>
    simp only [specStep, Option.bind_eq_bind, Option.bind_eq_some_iff] at h1 h2
    obtain ⟨f, ef, g, eg, f₁, e1, h1⟩ := h1
    obtain ⟨f', ef', g', eg', f₂, e2, h2⟩ := h2
    rw [ef] at ef'; cases ef'
    rw [eg] at eg'; cases eg'
    have : f₁ = f₂ := by
      obtain ⟨j, hj⟩ := hm m
      rw [hj] at e2
      have : mapStep2 (τ.map m) (m = n ∧ (rm = true ∨ rn = true)) f g (c.mapOp oracle) = some f₂ := by
        rw [← e2]; cases c <;> rfl
      rw [e1] at this; exact Option.some.inj this
    exact allowed_eq h1 h2 (by rw [this])
  | mapCopy m n oracle =>
    simp only [specStep, Option.bind_eq_bind, Option.bind_eq_some_iff] at h1 h2
    obtain ⟨S, eS, h1⟩ := h1
    obtain ⟨S', eS', h2⟩ := h2
    rw [eS] at eS'; cases eS'
    exact allowed_eq h1 h2 rfl
  | mapMove m n =>
    simp only [specStep, Option.bind_eq_bind, Option.bind_eq_some_iff] at h1 h2
    obtain ⟨S, eS, h1⟩ := h1
    obtain ⟨S', eS', h2⟩ := h2
    rw [eS] at eS'; cases eS'
    exact allowed_eq h1 h2 rfl
  | mapSwap m n => exact allowed_eq h1 h2 rfl
  | domain a m oracle => rw [show specStep o E τ α (.domain a m oracle) = specStep o E τ' α (.domain a m oracle) from rfl, h2] at h1
                         exact (Option.some.inj h1).symm
  | between a m oracle => rw [show specStep o E τ α (.between a m oracle) = specStep o E τ' α (.between a m oracle) from rfl, h2] at h1
                          exact (Option.some.inj h1).symm
  | ask q =>
    simp only [specStep, Option.map_eq_some_iff] at h1 h2
    obtain ⟨b, e1, rfl⟩ := h1
    obtain ⟨b', e2, rfl⟩ := h2
    suffices b = b' by rw [this]
    cases q with
    | equal a b =>
      simp only [answer, Option.bind_eq_bind, Option.bind_eq_some_iff] at e1 e2
      obtain ⟨S, eS, T, eT, h1⟩ := e1
      obtain ⟨S', eS', T', eT', h2⟩ := e2
      rw [eS] at eS'; cases eS'
      rw [eT] at eT'; cases eT'
      exact allowed_eq h1 h2 rfl
    | mapEqual a b =>
      simp only [answer, Option.bind_eq_bind, Option.bind_eq_some_iff] at e1 e2
      obtain ⟨S, eS, T, eT, h1⟩ := e1
      obtain ⟨S', eS', T', eT', h2⟩ := e2
      rw [eS] at eS'; cases eS'
      rw [eT] at eT'; cases eT'
      exact allowed_eq h1 h2 rfl
    | select m x =>
      obtain ⟨j, hj⟩ := hm m
      simp only [answer, hj] at e1 e2
      rw [e1] at e2; exact Option.some.inj e2
    | hasKey m x =>
      obtain ⟨j, hj⟩ := hm m
      simp only [answer, hj] at e1 e2
      rw [e1] at e2; exact Option.some.inj e2
    | hasKeys m x =>
      obtain ⟨j, hj⟩ := hm m
      simp only [answer, hj] at e1 e2
      rw [e1] at e2; exact Option.some.inj e2
    | hasSet m a =>
      obtain ⟨j, hj⟩ := hm m
      simp only [answer, hj] at e1 e2
      rw [e1] at e2; exact Option.some.inj e2
    | hasMap m n =>
      obtain ⟨j, hj⟩ := hm m
      simp only [answer, hj] at e1 e2
      rw [e1] at e2; exact Option.some.inj e2
    | _ =>
      simp only [answer] at e1 e2
      rw [e1] at e2; exact Option.some.inj e2

theorem alike_play {τ' : VarTypes V} (ht : ∀ m, (τ.map m).Alike (τ'.map m)) (client : List (Answer V) → Act D I V)
    (n : Nat) (α : Contents D V) (got : List (Answer V)) {r r' : Contents D V × List (Answer V)}
    (h1 : play (specStep o E τ) client n α got = some r) (h2 : play (specStep o E τ') client n α got = some r') :
    r = r' := by
  induction n generalizing α got with
  | zero =>
    simp only [play, Option.some.injEq] at h1 h2
    rw [← h1, ← h2]
  | succ n ih =>
    simp only [play, Option.bind_eq_bind, Option.bind_eq_some_iff] at h1 h2
    obtain ⟨⟨α₁, r₁⟩, e1, h1⟩ := h1
    obtain ⟨⟨α₂, r₂⟩, e2, h2⟩ := h2
    have := alike_step ht α _ e1 e2
    cases this
    exact ih _ _ h1 h2

theorem setting_of (h : SetClass o E) (hN : ∀ m, Neutral (τ.map m)) (hv : ∀ m v, (τ.map m).plus.version v = v)
    (hρ : LeavesValid o ρ) : Setting o E τ ρ where
  cls := h
  neutral := hN
  version := hv
  setLeft st l hl := by
    have hL := h.cls.lawful
    obtain ⟨a, b⟩ := hρ.set st l (wellFormed_iff.2 hl.1) fun hj => (fullyJoined_iff hL hl.1).2 (hl.2 hj)
    have a := wellFormed_iff.1 a
    exact ⟨a, fun hj => (fullyJoined_iff hL a).1 (b hj)⟩
  mapLeft m l hl := by
    have hL := h.cls.lawful
    obtain ⟨a, b, c⟩ := hρ.map (τ.map m) l (mapWellFormed_iff.2 hl.wf)
      (fun hj => (mapFullyJoined_iff hL hl.wf).2 (hl.joined hj)) (noIdentity_iff.2 (hl.noIdent (hN m)))
    have a := mapWellFormed_iff.1 a
    exact ⟨a, fun hj => (mapFullyJoined_iff hL a).1 (b hj), fun _ => noIdentity_iff.1 c⟩

theorem holds_empty : Holds o τ ⟨fun _ => [], fun _ => []⟩ Contents.empty where
  good a := good_nil _
  elems a S e := by cases e; exact fun x => by simp [Elem]
  mgood m := mgood_nil _
  isFun m f e := by cases e; exact fun x => rfl

end ICL
