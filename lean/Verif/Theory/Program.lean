import Verif.ProgSpec
import Verif.Props.MapOps
import Verif.Props.Alias

/-!
# The steps of a program do what the specification says
-/

set_option linter.unusedSectionVars false
set_option linter.unusedVariables false

namespace ICL
open Spec IMap Classical

variable {D I V : Type} [LinearOrder D] {o : IntervalOps D I} [DecidableEq I]

/-- The set `l` has the elements `S`. -/
def HasElems (o : IntervalOps D I) (l : List I) (S : D → Prop) : Prop := ∀ x, Elem o l x ↔ S x

/-- The map `l` is the function `f`. -/
def IsFun (o : IntervalOps D I) (l : List (I × V)) (f : D → Option V) : Prop := ∀ x, valueAt o l x = f x

theorem allowed_some {A : Type} {P : Prop} {a b : A} (h : allowed P a = some b) : P ∧ b = a := by
  unfold allowed at h
  split at h
  · cases h; exact ⟨‹_›, rfl⟩
  · cases h

theorem isEmpty_of_in (h : o.Lawful) {k : I} (hk : ∃ x, In o x k) : o.isEmpty k = false := by
  by_contra hn
  rw [Bool.not_eq_false] at hn
  obtain ⟨x, hx⟩ := hk
  exact (h.isEmpty_iff k).1 hn x hx

theorem setStep_ok {E : Option (ElemFns D I)} (h : SetClass o E) {st : Style} {l : List I} (hl : Good o st l)
    {S S' : D → Prop} (hS : HasElems o l S) {c : SetOp D I} (hc : setStep o E S c = some S') :
    ∃ l', c.run o E st l = some l' ∧ Good o st l' ∧ HasElems o l' S' := by
  have use : c.Pre o E l → (∀ l', c.Effect o l l' → HasElems o l' S') →
      ∃ l', c.run o E st l = some l' ∧ Good o st l' ∧ HasElems o l' S' := by
    intro hp he
    obtain ⟨l', h1, h2, h3⟩ := SetOp.run_spec h hl c hp
    exact ⟨l', h1, h2, he l' h3⟩
  unfold HasElems at *
  cases c <;> simp only [setStep] at hc
  case add k => cases hc; exact use trivial fun l' e x => (e x).trans (or_congr_left (hS x))
  case addHint n k => cases hc; exact use trivial fun l' e x => (e x).trans (or_congr_left (hS x))
  case subtract k => cases hc; exact use trivial fun l' e x => (e x).trans (and_congr_left' (hS x))
  case inter n k => cases hc; exact use trivial fun l' e x => (e x).trans (and_congr_left' (hS x))
  case flip k =>
    obtain ⟨hk, rfl⟩ := allowed_some hc
    refine use (Or.inl (isEmpty_of_in h.cls.lawful hk)) fun l' e x => (e x).trans ?_
    have := hS x
    rw [elem_iff] at this
    rw [this]; rfl
  case addE a =>
    obtain ⟨ha, rfl⟩ := allowed_some hc
    exact use ha fun l' e x => (e x).trans (or_congr_left (hS x))
  case subE a =>
    obtain ⟨ha, rfl⟩ := allowed_some hc
    exact use ha fun l' e x => (e x).trans (and_congr_left' (hS x))
  case interE a =>
    obtain ⟨ha, rfl⟩ := allowed_some hc
    exact use ha fun l' e x => (e x).trans (and_congr_left' (hS x))
  case flipE a =>
    obtain ⟨ha, rfl⟩ := allowed_some hc
    refine use ha fun l' e x => (e x).trans ?_
    have := hS x
    rw [elem_iff] at this
    rw [this]; rfl
  case clear => cases hc; exact use trivial fun l' e x => ⟨fun hh => e x hh, False.elim⟩
  case eraseRange i j => cases hc
  case join => cases hc; exact use trivial fun l' e x => (e x).trans (hS x)

theorem clear_ok {E : Option (ElemFns D I)} (st : Style) (l : List I) :
    ∃ l', (SetOp.clear (D := D)).run o E st l = some l' ∧ Good o st l' ∧ HasElems o l' fun _ => False :=
  ⟨[], rfl, good_nil st, fun x => by simp [Elem]⟩

/-- Operations with another set. -/
theorem setStep2_other (h : IntervalClass o) {st st' : Style} {l r : List I} (hl : Good o st l) (hr : Good o st' r)
    {S : Option (D → Prop)} {T S' : D → Prop} (hS : ∀ S₀, S = some S₀ → HasElems o l S₀) (hT : HasElems o r T)
    {self : Prop} {c : SetOp2 I} (hc : setStep2 (st = st') self S T c = some S') :
    ∃ l', c.run o st st' l r = some l' ∧ Good o st l' ∧ HasElems o l' S' := by
  have use : c.Pre st st' → (∀ l', c.Effect o l r l' → HasElems o l' S') →
      ∃ l', c.run o st st' l r = some l' ∧ Good o st l' ∧ HasElems o l' S' := by
    intro hp he
    obtain ⟨l', h1, h2, h3⟩ := SetOp2.run_spec h hl hr c hp
    exact ⟨l', h1, h2, he l' h3⟩
  unfold HasElems at *
  have hT' : ∀ x, Dom o setSeg r x ↔ T x := hT
  cases c <;> simp only [setStep2] at hc
  case add n =>
    obtain ⟨S₀, e, rfl⟩ := Option.map_eq_some_iff.1 hc
    exact use trivial fun l' e' x => (e' x).trans (or_congr (hS _ e x) (hT x))
  case sub =>
    obtain ⟨S₀, e, rfl⟩ := Option.map_eq_some_iff.1 hc
    exact use trivial fun l' e' x => (e' x).trans (and_congr (hS _ e x) (not_congr (hT x)))
  case inter n =>
    obtain ⟨S₀, e, rfl⟩ := Option.map_eq_some_iff.1 hc
    exact use trivial fun l' e' x => (e' x).trans (and_congr (hS _ e x) (hT x))
  case flip n =>
    obtain ⟨S₀, e, rfl⟩ := Option.map_eq_some_iff.1 hc
    refine use trivial fun l' e' x => (e' x).trans ?_
    have := hS _ e x
    rw [elem_iff] at this
    rw [this, hT']; rfl
  case assign n =>
    obtain ⟨_, rfl⟩ := allowed_some hc
    exact use trivial fun l' e' x => (e' x).trans (hT x)
  case copy =>
    obtain ⟨hp, rfl⟩ := allowed_some hc
    exact use hp fun l' e' x => (e' x).trans (hT x)
  case domain n =>
    obtain ⟨_, rfl⟩ := allowed_some hc
    exact use trivial fun l' e' x => (e' x).trans (hT x)
  case between n =>
    obtain ⟨_, rfl⟩ := allowed_some hc
    refine use trivial fun l' e' x => (e' x).trans ?_
    simp only [hT']

/-- Operations of a set with itself. -/
theorem setStep2_self (h : IntervalClass o) {st : Style} {l : List I} (hl : Good o st l) {S S' : D → Prop}
    (hS : HasElems o l S) {same : Prop} {c : SetOp2 I} (hc : setStep2 same True (some S) S c = some S') :
    ∃ l', c.runSelf o st l = some l' ∧ Good o st l' ∧ HasElems o l' S' := by
  unfold HasElems at *
  cases c <;> simp only [setStep2, Option.map_some, Option.some.injEq] at hc
  case add n =>
    subst hc
    refine ⟨l, ?_, hl, fun x => (hS x).trans (by simp [setBin])⟩
    rw [SetOp2.runSelf, ISet.addSelf_ok h.lawful st hl.1 hl.2]; rfl
  case sub =>
    subst hc
    refine ⟨[], ?_, good_nil st, fun x => by simp [setBin, Elem]⟩
    rw [SetOp2.runSelf, ISet.subSelf_ok h.lawful hl.1]; rfl
  case inter n =>
    subst hc
    obtain ⟨l', h1, h2⟩ := ISet.interSet_spec h.lawful st n hl.1 hl.1
    refine ⟨l', h1, ⟨h2.wf, h2.joined⟩, fun x => (h2.dom x).trans ?_⟩
    have := hS x
    rw [elem_iff] at this
    simp [setBin, this]
  case flip n =>
    subst hc
    refine ⟨[], ?_, good_nil st, fun x => by simp [setBin, Elem, Xor]⟩
    rw [SetOp2.runSelf, ISet.flipSelf_ok h.lawful st hl.1]; rfl
  case copy =>
    obtain ⟨_, rfl⟩ := allowed_some hc
    exact ⟨l, rfl, hl, hS⟩
  all_goals
    obtain ⟨hn, _⟩ := allowed_some hc
    exact absurd trivial hn

section maps
variable [DecidableEq V] {t : MapType V} {l : List (I × V)} {f : D → Option V}

/-- A changed map. -/
theorem ok_of_pt (hN : Neutral t) (hl : MGood o t l) (hf : IsFun o l f) {N : Prop} (hNN : Neutral t → N)
    {φ : D → Option V → Option V} {l' : List (I × V)} (p : Pt o t.cfg N l l' φ) {g : D → Option V}
    (hg : ∀ x, φ x (f x) = g x) : MGood o t l' ∧ IsFun o l' g :=
  ⟨hl.pt p hNN, fun x => by rw [p.at_ (hNN hN) (hl.noIdent hN), hf x, hg]⟩

/-- A new map. -/
theorem ok_of_new (hN : Neutral t) {φ : D → Option V → Option V} {l' : List (I × V)}
    (p : Pt o t.cfg (Regular t) [] l' φ) {g : D → Option V} (hg : ∀ x, φ x none = g x) : MGood o t l' ∧ IsFun o l' g :=
  ⟨(mgood_nil t).pt p id, fun x => by rw [p.at_ hN (noIdent_nil _), valueAt_nil, hg]⟩

theorem on_part {k : I} {P : D → Prop} (hP : ∀ x, In o x k ↔ P x) (ψ : Option V → Option V) (x : D) :
    on o k (fun _ => ψ) x (f x) = onPart P ψ f x := by
  unfold on onPart
  have := hP x
  unfold In at this
  by_cases hx : P x
  · rw [if_pos (this.2 hx), if_pos hx]
  · rw [if_neg (fun hh => hx (this.1 hh)), if_neg hx]

theorem over_keys {r : List (I × V)} {g : D → Option V} (hr : IsFun o r g) (ψ : V → Option V → Option V) (x : D) :
    over o r (fun _ => ψ) x (f x) = onKeys g ψ f x := by
  unfold over onKeys
  dsimp only
  rw [hr x]
  cases g x <;> rfl

/-- On a map that is free of identity elements, adding a value of the map to nothing gives the value. -/
theorem added_back (hN : Neutral t) (hv : ∀ v, t.plus.version v = v) (hl : MGood o t l) (hf : IsFun o l f) (x : D) :
    (f x).bind (fun u => added t u none) = f x := by
  have hn := hl.noIdent hN
  cases hx : f x with
  | none => rfl
  | some u =>
    have hu : absorbable t.cfg u = false := by
      rw [noIdent_iff hl.wf] at hn
      exact hn x u (by rw [hf x, hx])
    simp [added_eq, addF, hu, hv]

section
variable (h : IntervalClass o) (hN : Neutral t) (hl : MGood o t l) (hf : IsFun o l f) {k : I} {P : D → Prop}
  (hP : ∀ x, In o x k ↔ P x)
include h hN hl hf hP

theorem add_ok (v : V) : ∃ l', addSeg o t l k v = some l' ∧ MGood o t l' ∧ IsFun o l' (onPart P (added t v) f) := by
  obtain ⟨l', e, p⟩ := addSeg_pt h.lawful t hl.wf k v
  exact ⟨l', e, ok_of_pt hN hl hf id p fun x => by rw [on_part hP]; simp only [onPart, added_eq]⟩

theorem addHint_ok (n : Nat) (v : V) :
    ∃ l', addHint o t n l k v = some l' ∧ MGood o t l' ∧ IsFun o l' (onPart P (added t v) f) := by
  obtain ⟨l', e, p⟩ := addHint_pt h.lawful t n hl.wf k v
  exact ⟨l', e, ok_of_pt hN hl hf id p fun x => by rw [on_part hP]; simp only [onPart, added_eq]⟩

theorem sub_ok (v : V) :
    ∃ l', subSeg o t l k v = some l' ∧ MGood o t l' ∧ IsFun o l' (onPart P (subtracted t v) f) := by
  obtain ⟨l', e, p⟩ := subSeg_pt h.lawful t hl.wf k v
  exact ⟨l', e, ok_of_pt hN hl hf id p fun x => by rw [on_part hP]; simp only [onPart, subtracted_eq]⟩

theorem insert_ok (v : V) :
    ∃ l', IMap.insert o t.cfg l k v = some l' ∧ MGood o t l' ∧ IsFun o l' (onPart P (inserted t v) f) := by
  obtain ⟨l', e, p⟩ := insert_pt h.lawful t.cfg hl.wf k v
  exact ⟨l', e, ok_of_pt hN hl hf (fun _ => trivial) p fun x => by rw [on_part hP]; simp only [onPart, inserted_eq]⟩

theorem insertHint_ok (n : Nat) (b : Bool) (v : V) :
    ∃ l', insertHint o t.cfg n b l k v = some l' ∧ MGood o t l' ∧ IsFun o l' (onPart P (inserted t v) f) := by
  obtain ⟨l', e, p⟩ := insertHint_pt h.lawful t.cfg n b hl.wf k v
  exact ⟨l', e, ok_of_pt hN hl hf (fun _ => trivial) p fun x => by rw [on_part hP]; simp only [onPart, inserted_eq]⟩

theorem set_ok (v : V) :
    ∃ l', setAt o t.cfg l k v = some l' ∧ MGood o t l' ∧ IsFun o l' (onPart P (fun _ => stored t v) f) := by
  obtain ⟨l', e, p⟩ := setAt_pt h.lawful t.cfg hl.wf k v
  exact ⟨l', e, ok_of_pt hN hl hf (fun _ => trivial) p fun x => by rw [on_part hP]; simp only [onPart, stored_eq]⟩

theorem erase_ok (v : V) :
    ∃ l', eraseSeg o t.cfg l k v = some l' ∧ MGood o t l' ∧ IsFun o l' (onPart P (erased t v) f) := by
  obtain ⟨l', e, p⟩ := eraseSeg_pt h.lawful t.cfg hl.wf k v
  exact ⟨l', e, ok_of_pt hN hl hf (fun _ => trivial) p fun x => by rw [on_part hP]; simp only [onPart, erased_eq]⟩

theorem eraseKeys_ok :
    ∃ l', eraseItv o l k = some l' ∧ MGood o t l' ∧ IsFun o l' (onPart P (fun _ => none) f) := by
  obtain ⟨l', e, p⟩ := eraseItv_pt h.lawful t.cfg hl.wf k
  exact ⟨l', e, ok_of_pt hN hl hf (fun _ => trivial) p fun x => by rw [on_part hP]⟩

theorem interKeys_ok (hv : ∀ v, t.plus.version v = v) (oracle : List (I × V) → I → Nat) :
    ∃ l', addInterItv o t oracle [] l k = some l' ∧ MGood o t l' ∧ IsFun o l' (onPart (¬ P ·) (fun _ => none) f) := by
  obtain ⟨l', e, p⟩ := addInterItv_pt h.lawful t oracle wf_nil hl.wf k
  obtain ⟨l'', e', w, a, b⟩ := Props.C23_intersect_interval h hN oracle (mapWellFormed_iff.2 hl.wf) k
  rw [e] at e'; cases e'
  refine ⟨l', e, (mgood_nil t).pt p id, fun x => ?_⟩
  have := added_back hN hv hl hf x
  unfold onPart
  by_cases hx : P x
  · rw [a x ((hP x).2 hx), hf x, this]; simp [hx]
  · rw [b x (fun hh => hx ((hP x).1 hh))]; simp [hx]

theorem inter_ok (hv : ∀ v, t.plus.version v = v) (oracle : List (I × V) → I → Nat) (v : V) :
    ∃ l', addInterSeg o t oracle [] l k v = some l' ∧ MGood o t l' ∧ IsFun o l' (interPart t P v f) := by
  have hw := mapWellFormed_iff.2 hl.wf
  cases ht : t.cfg.total with
  | true =>
    obtain ⟨l', e, p⟩ := addInterSeg_total_pt h.lawful t ht oracle wf_nil hl.wf k v
    obtain ⟨l'', e', w, a, b⟩ := Props.C23_intersect_segment_total h hN ht oracle hw k v
    rw [e] at e'; cases e'
    refine ⟨l', e, (mgood_nil t).pt p id, fun x => ?_⟩
    have := added_back hN hv hl hf x
    unfold interPart onPart
    by_cases hx : P x
    · rw [a x ((hP x).2 hx), hf x, this]; simp [hx, ht]
    · rw [b x (fun hh => hx ((hP x).1 hh)), hf x, this]; simp [hx, ht]
  | false =>
    obtain ⟨l', e, p⟩ := addInterSeg_pt h.lawful t ht oracle wf_nil hl.wf k v
    obtain ⟨l'', e', w, a, b⟩ := Props.C23_intersect_segment h hN.toVersions ht oracle hw k v
    rw [e] at e'; cases e'
    refine ⟨l', e, (mgood_nil t).pt p id, fun x => ?_⟩
    unfold interPart
    by_cases hx : P x
    · rw [a x ((hP x).2 hx), hf x]; simp [hx, ht]
    · rw [b x (fun hh => hx ((hP x).1 hh))]; simp [hx, ht]

theorem flip_ok (oracle : List (I × V) → I → Nat) (v : V) {f' : D → Option V} (hc : flipPart t P v f = some f') :
    ∃ l', flipSeg o t oracle l k v = some l' ∧ MGood o t l' ∧ IsFun o l' f' := by
  have hw := mapWellFormed_iff.2 hl.wf
  unfold flipPart at hc
  cases ht : t.cfg.total with
  | true =>
    simp only [ht, if_true, Option.some.injEq] at hc
    subst hc
    obtain ⟨l', e, p⟩ := flipSeg_total_pt h.lawful t ht oracle hl.wf k v
    obtain ⟨l'', e', w, a, b⟩ := Props.C23_flip_segment_total h hN ht oracle hw k v
    rw [e] at e'; cases e'
    refine ⟨l', e, hl.pt p id, fun x => ?_⟩
    unfold flipTotal
    cases ha : t.cfg.absorbs with
    | true => rw [a ha]; simp [valueAt_nil]
    | false =>
      have hb := b ha x
      have hk : Key o l x ↔ f x ≠ none := by rw [← hf x]; exact (valueAt_key hw x).symm
      by_cases hx : f x ≠ none ∨ P x
      · rw [if_pos ⟨rfl, hx⟩, valueAt_assoc w, hb]
        exact ⟨rfl, hx.imp hk.2 (hP x).2⟩
      · rw [if_neg (fun hh => hx hh.2), valueAt_none]
        rintro ⟨s, hs, hxs⟩
        have := (hb s.2).1 ⟨s, hs, hxs, rfl⟩
        exact hx (this.2.imp hk.1 (hP x).1)
  | false =>
    simp only [ht, Bool.false_eq_true, if_false] at hc
    obtain ⟨⟨y, hy⟩, rfl⟩ := allowed_some hc
    have hk : ∃ x, In o x k := ⟨y, (hP y).2 hy⟩
    obtain ⟨l', e, p⟩ := flipSeg_pt h.lawful t ht oracle hl.wf hk v
    refine ⟨l', e, ok_of_pt hN hl hf id p fun x => ?_⟩
    rw [on_part hP]
    unfold onPart
    congr 1
    cases f x with
    | none => simp [flipF, flippedWith, added_eq]
    | some u => simp [flippedWith, flipped_eq hN]

end

theorem mapStep_ok {E : Option (ElemFns D I)} (h : SetClass o E) (hN : Neutral t) (hv : ∀ v, t.plus.version v = v)
    (hl : MGood o t l) (hf : IsFun o l f) {c : MapOp D I V} {f' : D → Option V}
    (hc : mapStep o t E f c = some f') : ∃ l', c.run o E t l = some l' ∧ MGood o t l' ∧ IsFun o l' f' := by
  have hi : ∀ k x, In o x k ↔ In o x k := fun _ _ => Iff.rfl
  have he : ∀ e, E = some e → ∀ a, o.isEmpty (e.sing a) = false → ∀ x, In o x (e.sing a) ↔ x = a :=
    fun e hE a ha x => (h.elem e hE).1.mem ha x
  cases c <;> simp only [mapStep] at hc
  case add k v => cases hc; exact add_ok h.cls hN hl hf (hi k) v
  case addHint n k v => cases hc; exact addHint_ok h.cls hN hl hf (hi k) n v
  case subtract k v => cases hc; exact sub_ok h.cls hN hl hf (hi k) v
  case insert k v => cases hc; exact insert_ok h.cls hN hl hf (hi k) v
  case insertHint n b k v => cases hc; exact insertHint_ok h.cls hN hl hf (hi k) n b v
  case set k v => cases hc; exact set_ok h.cls hN hl hf (hi k) v
  case erase k v => cases hc; exact erase_ok h.cls hN hl hf (hi k) v
  case eraseKeys k => cases hc; exact eraseKeys_ok h.cls hN hl hf (hi k)
  case inter n k v => cases hc; exact inter_ok h.cls hN hl hf (hi k) hv n v
  case interKeys n k => cases hc; exact interKeys_ok h.cls hN hl hf (hi k) hv n
  case flip n k v => exact flip_ok h.cls hN hl hf (hi k) n v hc
  case addE a v =>
    obtain ⟨⟨e, rfl, h1, h2⟩, rfl⟩ := allowed_some hc
    exact add_ok h.cls hN hl hf (he e rfl a h1) v
  case subE a v =>
    obtain ⟨⟨e, rfl, h1, h2⟩, rfl⟩ := allowed_some hc
    exact sub_ok h.cls hN hl hf (he e rfl a h1) v
  case insertE a v =>
    obtain ⟨⟨e, rfl, h1, h2⟩, rfl⟩ := allowed_some hc
    exact insert_ok h.cls hN hl hf (he e rfl a h1) v
  case setE a v =>
    obtain ⟨⟨e, rfl, h1, h2⟩, rfl⟩ := allowed_some hc
    exact set_ok h.cls hN hl hf (he e rfl a h1) v
  case eraseE a v =>
    obtain ⟨⟨e, rfl, h1, h2⟩, rfl⟩ := allowed_some hc
    exact erase_ok h.cls hN hl hf (he e rfl a h1) v
  case eraseKey a =>
    obtain ⟨⟨e, rfl, h1, h2⟩, rfl⟩ := allowed_some hc
    exact eraseKeys_ok h.cls hN hl hf (he e rfl a h1)
  case interE n a v =>
    obtain ⟨⟨e, rfl, h1, h2⟩, rfl⟩ := allowed_some hc
    exact inter_ok h.cls hN hl hf (he e rfl a h1) hv n v
  case interKey a =>
    obtain ⟨⟨e, rfl, h1, h2⟩, rfl⟩ := allowed_some hc
    have hm := he e rfl a h1
    obtain ⟨l', e', p⟩ := addInterKey_pt h.cls.lawful t e.sing e.lookup (m := l) wf_nil a
      (fun y => by rw [Bool.eq_iff_iff, decide_eq_true_iff]; exact hm y)
      (findE_valueAt h.cls.lawful (h.elem e rfl).2 hl.wf h2)
    refine ⟨l', e', ok_of_new hN p fun x => ?_⟩
    have hb := added_back hN hv hl hf x
    have h3 := hm x
    unfold In at h3
    unfold on over onPart
    dsimp only
    by_cases hx : x = a
    · rw [if_pos (h3.2 hx), if_neg (by simpa using hx), hf x]
      cases hfx : f x with
      | none => rfl
      | some u => rw [hfx] at hb; simpa [added_eq] using hb
    · rw [if_neg (fun hh => hx (h3.1 hh)), if_pos (by simpa using hx)]
  case flipE n a v =>
    obtain ⟨_, e1, e2⟩ := Option.bind_eq_some_iff.1 hc
    obtain ⟨⟨e, rfl, h1, h2⟩, _⟩ := allowed_some e1
    exact flip_ok h.cls hN hl hf (he e rfl a h1) n v e2
  case clear => cases hc; exact ⟨[], rfl, mgood_nil t, fun x => rfl⟩
  case eraseRange => cases hc
  case eraseIf => cases hc
  case join =>
    cases hc
    obtain ⟨l', e, g⟩ := MapOp.run_good h hl .join trivial
    obtain ⟨l'', e', w, a, _⟩ := Props.C30_join_map h.cls (mapWellFormed_iff.2 hl.wf)
    have : l'' = l' := by simpa [MapOp.run, e'] using e
    subst this
    exact ⟨l'', e, g, fun x => (a x).trans (hf x)⟩
  case absorbIdentities =>
    cases hc
    obtain ⟨l', e, g⟩ := MapOp.run_good h hl .absorbIdentities trivial
    refine ⟨l', e, g, fun x => ?_⟩
    obtain ⟨w, _, a⟩ := IMap.absorbIdentities_spec h.cls.lawful t hl.wf
    have e2 : l' = absorbIdentities t l := by simpa [MapOp.run] using e.symm
    subst e2
    rw [a]
    cases ha : t.cfg.absorbs with
    | true =>
      have hn := hl.noIdent hN
      rw [noIdent_iff hl.wf] at hn
      dsimp only
      rw [← hf x]
      cases hx : valueAt o l x with
      | none => simp
      | some u =>
        have := hn x u hx
        simp only [absorbable, ha, Bool.true_and, decide_eq_false_iff_not] at this
        simp [this, Option.filter]
    | false => simp [hf x]

theorem mapStep2_other (h : IntervalClass o) (hN : Neutral t) (hv : ∀ v, t.plus.version v = v)
    (hl : MGood o t l) (hf : IsFun o l f) {r : List (I × V)} {g : D → Option V} (hr : WF o mapSeg r) (hg : IsFun o r g)
    {self : Prop} {c : MapOp2 I V} {f' : D → Option V}
    (hc : mapStep2 t self f g c = some f') : ∃ l', c.run o t l r = some l' ∧ MGood o t l' ∧ IsFun o l' f' := by
  have wl := mapWellFormed_iff.2 hl.wf
  have wr := mapWellFormed_iff.2 hr
  cases c <;> simp only [mapStep2] at hc
  case add n =>
    obtain ⟨_, rfl⟩ := allowed_some hc
    obtain ⟨l', e, p⟩ := addMap_pt h.lawful t n hl.wf hr
    exact ⟨l', e, ok_of_pt hN hl hf id p fun x => by rw [over_keys hg]; simp only [onKeys, added_eq]⟩
  case sub =>
    obtain ⟨_, rfl⟩ := allowed_some hc
    obtain ⟨l', e, p⟩ := subMap_pt h.lawful t hl.wf hr
    exact ⟨l', e, ok_of_pt hN hl hf id p fun x => by rw [over_keys hg]; simp only [onKeys, subtracted_eq]⟩
  case insert n =>
    cases hc
    obtain ⟨l', e, p⟩ := insertMap_pt h.lawful t n hl.wf hr
    exact ⟨l', e, ok_of_pt hN hl hf (fun _ => trivial) p fun x => by rw [over_keys hg]; simp only [onKeys, inserted_eq]⟩
  case erase =>
    cases hc
    obtain ⟨l', e, p⟩ := eraseMap_pt h.lawful t hl.wf hr
    exact ⟨l', e, ok_of_pt hN hl hf (fun _ => trivial) p fun x => by rw [over_keys hg]; simp only [onKeys, erased_eq]⟩
  case inter n =>
    cases ht : t.cfg.total with
    | true =>
      simp only [ht, if_true, Option.some.injEq] at hc
      subst hc
      obtain ⟨l', e, p⟩ := addInterMap_total_pt h.lawful t ht n wf_nil hl.wf hr
      obtain ⟨l'', e', w, a⟩ := Props.C23_intersect_total h hN ht n wl wr
      rw [e] at e'; cases e'
      refine ⟨l', e, (mgood_nil t).pt p id, fun x => ?_⟩
      have hb := added_back hN hv hl hf x
      rw [a x, hf x, hg x, hb]
      unfold onKeys
      cases g x <;> rfl
    | false =>
      simp only [ht, Bool.false_eq_true, if_false, Option.some.injEq] at hc
      subst hc
      obtain ⟨l', e, p⟩ := addInterMap_pt h.lawful t ht n wf_nil hl.wf hr
      obtain ⟨l'', e', w, a, b⟩ := Props.C23_intersect h hN.toVersions ht n wl wr
      rw [e] at e'; cases e'
      refine ⟨l', e, (mgood_nil t).pt p id, fun x => ?_⟩
      have hfx := hf x
      have hgx := hg x
      cases h1 : f x with
      | none => rw [b x (Or.inl (hfx.trans h1))]; simp [h1]
      | some u =>
        cases h2 : g x with
        | none => rw [b x (Or.inr (hgx.trans h2))]; simp [h2]
        | some v => rw [a x u v (hfx.trans h1) (hgx.trans h2)]; simp [h1, h2]
  case flip n =>
    obtain ⟨_, rfl⟩ := allowed_some hc
    cases ht : t.cfg.total with
    | true =>
      simp only [if_true]
      obtain ⟨l', e, p⟩ := flipMap_total_pt h.lawful t ht n hl.wf hr
      obtain ⟨l'', e', w, a, b⟩ := Props.C23_flip_total h hN ht n wl wr
      rw [e] at e'; cases e'
      refine ⟨l', e, hl.pt p id, fun x => ?_⟩
      unfold flipTotal
      cases ha : t.cfg.absorbs with
      | true => rw [a ha]; simp [valueAt_nil]
      | false =>
        have hb := b ha x
        have hk : Key o l x ↔ f x ≠ none := by rw [← hf x]; exact (valueAt_key wl x).symm
        have hk' : Key o r x ↔ g x ≠ none := by rw [← hg x]; exact (valueAt_key wr x).symm
        by_cases hx : f x ≠ none ∨ g x ≠ none
        · rw [if_pos ⟨rfl, hx⟩, valueAt_assoc w, hb]
          exact ⟨rfl, hx.imp hk.2 hk'.2⟩
        · rw [if_neg (fun hh => hx hh.2), valueAt_none]
          rintro ⟨s, hs, hxs⟩
          have := (hb s.2).1 ⟨s, hs, hxs, rfl⟩
          exact hx (this.2.imp hk.1 hk'.1)
    | false =>
      simp only [Bool.false_eq_true, if_false]
      obtain ⟨l', e, p⟩ := flipMap_pt h.lawful t ht n hl.wf hr
      refine ⟨l', e, ok_of_pt hN hl hf id p fun x => ?_⟩
      rw [over_keys hg]
      unfold onKeys
      cases g x with
      | none => rfl
      | some v =>
        cases f x with
        | none => simp [flipF, flippedWith, added_eq]
        | some u => simp [flippedWith, flipped_eq hN]

theorem mapStep2_self (h : IntervalClass o) (hN : Neutral t) (hv : ∀ v, t.plus.version v = v)
    (hl : MGood o t l) (hf : IsFun o l f) {c : MapOp2 I V} {f' : D → Option V}
    (hc : mapStep2 t True f f c = some f') : ∃ l', c.runSelf o t l = some l' ∧ MGood o t l' ∧ IsFun o l' f' := by
  have wl := mapWellFormed_iff.2 hl.wf
  have hn : NoIdentity t l := noIdentity_iff.2 (hl.noIdent hN)
  have hj := fun hh => (mapFullyJoined_iff h.lawful hl.wf).2 (hl.joined hh)
  have hni : ∀ x u, f x = some u → ¬ Ignored t u := by
    intro x u hx hi
    have := hl.noIdent hN
    rw [noIdent_iff hl.wf] at this
    have := this x u (by rw [hf x, hx])
    rw [← Bool.not_eq_true, absorbable_iff] at this
    exact this hi
  cases c with
  | add n =>
    simp only [mapStep2] at hc
    obtain ⟨hp, rfl⟩ := allowed_some hc
    have hp := hp trivial
    refine ⟨l, ?_, hl, fun x => ?_⟩
    · rw [MapOp2.runSelf, Props.C40_map_add_self_idempotent h t hp wl hn hj]; rfl
    · rw [hf x]
      unfold onKeys
      cases hx : f x with
      | none => rfl
      | some u =>
        have := hni x u hx
        simp [added, combined, stored, this, hp]
  | sub =>
    simp only [mapStep2] at hc
    obtain ⟨hp, _⟩ := allowed_some hc
    exact absurd trivial hp
  | insert n =>
    simp only [mapStep2, Option.some.injEq] at hc
    subst hc
    refine ⟨l, ?_, hl, fun x => ?_⟩
    · rw [MapOp2.runSelf, Props.C40_map_insert_self h t wl hj]; rfl
    · rw [hf x]
      unfold onKeys
      cases hx : f x with
      | none => rfl
      | some u => rfl
  | erase =>
    simp only [mapStep2, Option.some.injEq] at hc
    subst hc
    refine ⟨[], ?_, mgood_nil t, fun x => ?_⟩
    · rw [MapOp2.runSelf, Props.C40_map_erase_self h t wl hn]; rfl
    · rw [valueAt_nil]
      unfold onKeys
      cases hx : f x with
      | none => rfl
      | some u =>
        have := hni x u hx
        simp [erased, this]
  | inter n => exact mapStep2_other h hN hv hl hf hl.wf hf hc
  | flip n =>
    simp only [mapStep2] at hc
    obtain ⟨hp, _⟩ := allowed_some hc
    exact absurd trivial hp

theorem mapStep3_ok (h : IntervalClass o) (hN : Neutral t) (hv : ∀ v, t.plus.version v = v)
    (hl : MGood o t l) (hf : IsFun o l f) {r : List I} {S : D → Prop} (hr : WF o setSeg r) (hS : HasElems o r S)
    (c : MapOp3 I V) : ∃ l', c.run o t l r = some l' ∧ MGood o t l' ∧ IsFun o l' (mapStep3 f S c) := by
  obtain ⟨l', e, g⟩ := MapOp3.run_good h.lawful hl hr c
  refine ⟨l', e, g, fun x => ?_⟩
  have hx := hS x
  have wl := mapWellFormed_iff.2 hl.wf
  have wr := wellFormed_iff.2 hr
  cases c with
  | erase =>
    obtain ⟨l'', e', w, a, b⟩ := Props.C23_erase_set h wl wr
    have : l'' = l' := by simpa [MapOp3.run, e'] using e
    subst this
    simp only [mapStep3, onPart]
    by_cases hs : S x
    · rw [a x (hx.2 hs), if_pos hs]
    · rw [b x (fun hh => hs (hx.1 hh)), if_neg hs, hf x]
  | inter n =>
    obtain ⟨l'', e', w, a, b⟩ := Props.C23_intersect_set h hN n wl wr
    have : l'' = l' := by simpa [MapOp3.run, e'] using e
    subst this
    have hb := added_back hN hv hl hf x
    simp only [mapStep3, onPart]
    by_cases hs : S x
    · rw [a x (hx.2 hs), hf x, hb]; simp [hs]
    · rw [b x (fun hh => hs (hx.1 hh))]; simp [hs]

end maps
end ICL
