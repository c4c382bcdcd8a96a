import Verif.Theory.TwinMap

/-!
# One program with split maps, two interval classes

The operations of maps that do not join keep the segments of the two runs alike.
-/

set_option linter.unusedSectionVars false
set_option linter.unusedVariables false

namespace ICL
open Spec IMap

variable {D I J V S T W : Type} [LinearOrder D] {o₁ : IntervalOps D I} {o₂ : IntervalOps D J}

/-! ### Segments -/

theorem twin_joint {l : List (I × V)} {m : List (J × V)} (h : TwinMapSegments o₁ o₂ l m) (x y : D) (w : V) :
    Joint o₁ l x y w ↔ Joint o₂ m x y w := by
  induction h with
  | nil => simp
  | cons h1 _ ih =>
    rw [joint_cons, joint_cons, ih, h1.2]
    exact or_congr_left (and_congr (h1.1 x) (and_congr_left fun _ => h1.1 y))

theorem twin_of_joint {l : List (I × V)} {m : List (J × V)} (hl : WF o₁ mapSeg l) (hm : WF o₂ mapSeg m)
    (h : ∀ x y w, Joint o₁ l x y w ↔ Joint o₂ m x y w) : TwinMapSegments o₁ o₂ l m :=
  forall2_of_same_maps hl hm (fun x y => by simp only [joint_iff_same, h])
    fun x w => by rw [← joint_self, ← joint_self, h]

theorem twin_mdom {l : List (I × V)} {m : List (J × V)} (h : TwinMapSegments o₁ o₂ l m) (x : D) :
    Dom o₁ mapSeg l x ↔ Dom o₂ mapSeg m x := by
  rw [dom_iff_joint, dom_iff_joint]; simp only [twin_joint h]

theorem twin_keys {l : List (I × V)} {m : List (J × V)} (h : TwinMapSegments o₁ o₂ l m) :
    TwinSegments o₁ o₂ (l.map Prod.fst) (m.map Prod.fst) := by
  unfold TwinSegments
  rw [List.forall₂_map_left_iff, List.forall₂_map_right_iff]
  exact h.imp fun a b hab => hab.1

/-! ### Searching -/

/-- The keys of two nodes have the same elements. -/
def SameKey (o₁ : IntervalOps D I) (o₂ : IntervalOps D J) (g : SegOps I W S) (g' : SegOps J W T) (s : S) (t : T) : Prop :=
  SameItv o₁ o₂ (g.key s) (g'.key t)

theorem same_neLess (h1 : o₁.Lawful) (h2 : o₂.Lawful) {i k : I} {j k' : J} (hi : o₁.Nonempty i) (hk : o₁.Nonempty k)
    (hij : SameItv o₁ o₂ i j) (hkk : SameItv o₁ o₂ k k') : o₁.neLess i k = o₂.neLess j k' := by
  have e : ∀ x, o₁.Mem x i ↔ o₂.Mem x j := hij
  have e' : ∀ x, o₁.Mem x k ↔ o₂.Mem x k' := hkk
  have hj : o₂.Nonempty j := hi.imp fun x => (e x).1
  have hk' : o₂.Nonempty k' := hk.imp fun x => (e' x).1
  rw [Bool.eq_iff_iff, h1.neLess_iff _ _ hi hk, h2.neLess_iff _ _ hj hk']
  unfold IntervalOps.Before
  simp only [e, e']

theorem forall2_while {R : S → T → Prop} {l : List S} {m : List T} (h : List.Forall₂ R l m) {p : S → Bool} {q : T → Bool}
    (hp : ∀ s ∈ l, ∀ t, R s t → p s = q t) : List.Forall₂ R (l.takeWhile p) (m.takeWhile q) ∧
      List.Forall₂ R (l.dropWhile p) (m.dropWhile q) := by
  induction h with
  | nil => exact ⟨.nil, .nil⟩
  | @cons s t l m hst h ih =>
    have e := hp s (by simp) t hst
    have ih := ih fun s hs => hp s (by simp [hs])
    rw [List.takeWhile_cons, List.takeWhile_cons, List.dropWhile_cons, List.dropWhile_cons, ← e]
    cases p s
    · exact ⟨.nil, .cons hst h⟩
    · exact ⟨.cons hst ih.1, ih.2⟩

theorem twin_cut (h1 : o₁.Lawful) (h2 : o₂.Lawful) {g : SegOps I W S} {g' : SegOps J W T} {R : S → T → Prop}
    (hR : ∀ s t, R s t → SameKey o₁ o₂ g g' s t) {l : List S} {m : List T} (hl : ∀ s ∈ l, o₁.Nonempty (g.key s))
    (ht : List.Forall₂ R l m) {i k : I} {j k' : J} (hi : o₁.Nonempty i) (hk : o₁.Nonempty k)
    (hij : SameItv o₁ o₂ i j) (hkk : SameItv o₁ o₂ k k') :
    List.Forall₂ R (l.takeWhile fun s => o₁.neLess (g.key s) i) (m.takeWhile fun s => o₂.neLess (g'.key s) j) ∧
    List.Forall₂ R ((l.dropWhile fun s => o₁.neLess (g.key s) i).takeWhile fun s => !o₁.neLess k (g.key s))
      ((m.dropWhile fun s => o₂.neLess (g'.key s) j).takeWhile fun s => !o₂.neLess k' (g'.key s)) ∧
    List.Forall₂ R ((l.dropWhile fun s => o₁.neLess (g.key s) i).dropWhile fun s => !o₁.neLess k (g.key s))
      ((m.dropWhile fun s => o₂.neLess (g'.key s) j).dropWhile fun s => !o₂.neLess k' (g'.key s)) := by
  obtain ⟨a, b⟩ := forall2_while ht (p := fun s => o₁.neLess (g.key s) i) (q := fun s => o₂.neLess (g'.key s) j)
    fun s hs t hst => same_neLess h1 h2 (hl s hs) hi (hR s t hst) hij
  refine ⟨a, forall2_while b fun s hs t hst => ?_⟩
  rw [same_neLess h1 h2 hk (hl s (List.dropWhile_subset _ hs)) hkk (hR s t hst)]

theorem twin_equalRange (h1 : o₁.Lawful) (h2 : o₂.Lawful) {g : SegOps I W S} {g' : SegOps J W T} {R : S → T → Prop}
    (hR : ∀ s t, R s t → SameKey o₁ o₂ g g' s t) {l : List S} {m : List T} (hl : ∀ s ∈ l, o₁.Nonempty (g.key s))
    (ht : List.Forall₂ R l m) {k : I} {k' : J} (hk : o₁.Nonempty k) (hkk : SameItv o₁ o₂ k k')
    {a b c : List S} {a' b' c' : List T} (e1 : equalRange o₁ g l k = some (a, b, c))
    (e2 : equalRange o₂ g' m k' = some (a', b', c')) :
    List.Forall₂ R a a' ∧ List.Forall₂ R b b' ∧ List.Forall₂ R c c' := by
  unfold equalRange at e1 e2
  split at e1 <;> cases e1
  split at e2 <;> cases e2
  exact twin_cut h1 h2 hR hl ht hk hk hkk hkk

theorem forall2_getLastD {R : S → T → Prop} {l : List S} {m : List T} {s : S} {t : T} (h : List.Forall₂ R l m) (hst : R s t) :
    R (l.getLastD s) (m.getLastD t) := by
  induction h generalizing s t with
  | nil => exact hst
  | cons h _ ih => rw [List.getLastD_cons, List.getLastD_cons]; exact ih h

theorem twin_commonRange (h1 : o₁.Lawful) (h2 : o₂.Lawful) {g : SegOps I W S} {g' : SegOps J W T} {R : S → T → Prop}
    (hR : ∀ s t, R s t → SameKey o₁ o₂ g g' s t) {r : List S} {s : List T} (hr : ∀ s ∈ r, o₁.Nonempty (g.key s))
    (hrs : List.Forall₂ R r s) {l : List I} {m : List J} (hl : ∀ i ∈ l, o₁.Nonempty i) (hlm : TwinSegments o₁ o₂ l m)
    {x : Option (List S × List S × List S)} {y : Option (List T × List T × List T)}
    (e1 : commonRange o₁ g r l = some x) (e2 : commonRange o₂ g' s m = some y) :
    (x = none ∧ y = none) ∨ ∃ a b c a' b' c', x = some (a, b, c) ∧ y = some (a', b', c') ∧
      List.Forall₂ R a a' ∧ List.Forall₂ R b b' ∧ List.Forall₂ R c c' := by
  unfold commonRange at e1 e2
  cases hrs with
  | nil => cases e1; cases e2; exact .inl ⟨rfl, rfl⟩
  | @cons f1 f1' r s hf hrs =>
    cases hlm with
    | nil => cases e1; cases e2; exact .inl ⟨rfl, rfl⟩
    | @cons f2 f2' l m hf2 hlm =>
      have hlast1 : SameItv o₁ o₂ (g.key (r.getLastD f1)) (g'.key (s.getLastD f1')) := hR _ _ (forall2_getLastD hrs hf)
      have hlast2 : SameItv o₁ o₂ (l.getLastD f2) (m.getLastD f2') := forall2_getLastD hlm hf2
      have n2 := hl f2 (by simp)
      have nl2 := hl _ (getLastD_mem f2 l)
      have n1 := hr f1 (by simp)
      have nl1 := hr _ (getLastD_mem f1 r)
      simp only at e1 e2
      split at e1
      · cases e1
      split at e2
      · cases e2
      rw [same_neLess h1 h2 nl1 n2 hlast1 hf2] at e1
      split at e2
      · rename_i hc; rw [if_pos hc] at e1; cases e1; cases e2; exact .inl ⟨rfl, rfl⟩
      rename_i hc
      rw [if_neg hc, same_neLess h1 h2 nl2 n1 hlast2 (hR _ _ hf)] at e1
      split at e2
      · rename_i hc; rw [if_pos hc] at e1; cases e1; cases e2; exact .inl ⟨rfl, rfl⟩
      rename_i hc
      rw [if_neg hc] at e1
      split at e1 <;> cases e1
      split at e2 <;> cases e2
      exact .inr ⟨_, _, _, _, _, _, rfl, rfl, twin_cut h1 h2 hR hr (.cons hf hrs) n2 nl2 hf2 hlast2⟩

theorem twin_forEach {R : S → T → Prop} {A B : Type} {Q : A → B → Prop} {f : A → S → Option A} {f' : B → T → Option B}
    {l : List S} {m : List T} (ht : List.Forall₂ R l m)
    (hf : ∀ a b s t, s ∈ l → Q a b → R s t → ∀ a' b', f a s = some a' → f' b t = some b' → Q a' b')
    {a a' : A} {b b' : B} (hab : Q a b) (e1 : forEach f a l = some a') (e2 : forEach f' b m = some b') : Q a' b' := by
  induction ht generalizing a b with
  | nil => cases e1; cases e2; exact hab
  | @cons s t l m hst ht ih =>
    simp only [forEach, Option.bind_eq_bind, Option.bind_eq_some_iff] at e1 e2
    obtain ⟨a1, e1, e1'⟩ := e1
    obtain ⟨b1, e2, e2'⟩ := e2
    exact ih (fun a b s t hs => hf a b s t (by simp [hs])) (hf a b s t (by simp) hab hst _ _ e1 e2) e1' e2'

/-! ### Operations on one segment -/

variable [DecidableEq V]

/-- The maps of the two runs. -/
structure Alike (o₁ : IntervalOps D I) (o₂ : IntervalOps D J) (l : List (I × V)) (m : List (J × V)) : Prop where
  left : WF o₁ mapSeg l
  right : WF o₂ mapSeg m
  segs : TwinMapSegments o₁ o₂ l m

theorem alike_nil : Alike o₁ o₂ ([] : List (I × V)) [] := ⟨wf_nil, wf_nil, .nil⟩

theorem same_eff {l : List (I × V)} {m : List (J × V)} (ht : TwinMapSegments o₁ o₂ l m) {k : I} {k' : J}
    (hk : SameItv o₁ o₂ k k') (up : V → Option V) (fill : Option V) (x y : D) (w : V) :
    Eff o₁ up fill l k x y w ↔ Eff o₂ up fill m k' x y w := by
  have hk : ∀ x, o₁.Mem x k ↔ o₂.Mem x k' := hk
  unfold Eff
  simp only [hk, twin_joint ht, twin_mdom ht]

theorem same_fill {l : List (I × V)} {m : List (J × V)} (ht : TwinMapSegments o₁ o₂ l m) {k : I} {k' : J}
    (hk : SameItv o₁ o₂ k k') (v : V) (x y : D) (w : V) : Fill o₁ v l k x y w ↔ Fill o₂ v m k' x y w := by
  have hk : ∀ x, o₁.Mem x k ↔ o₂.Mem x k' := hk
  unfold Fill
  simp only [hk, twin_joint ht, twin_mdom ht]

section
variable (h1 : o₁.Lawful) (h2 : o₂.Lawful) {c : MapCfg V} (hj : c.joining = false) {l l' : List (I × V)}
  {m m' : List (J × V)} (ht : Alike o₁ o₂ l m) {k : I} {k' : J} (hk : SameItv o₁ o₂ k k')
include h1 h2 hj ht hk

theorem UpdSpec.alike {up : V → Option V} {fill : Option V} (a : UpdSpec o₁ c up fill l k l')
    (b : UpdSpec o₂ c up fill m k' m') : Alike o₁ o₂ l' m' :=
  ⟨a.wf, b.wf, twin_of_joint a.wf b.wf fun x y w => by
    rw [a.joint x y w (fun hc => by rw [hj] at hc; cases hc), b.joint x y w (fun hc => by rw [hj] at hc; cases hc),
      same_eff ht.segs hk]⟩

theorem InsSpec.alike {v : V} (a : InsSpec o₁ c v l k l') (b : InsSpec o₂ c v m k' m') : Alike o₁ o₂ l' m' :=
  ⟨a.wf, b.wf, twin_of_joint a.wf b.wf fun x y w => by
    rw [a.joint x y w (fun hc => by rw [hj] at hc; cases hc), b.joint x y w (fun hc => by rw [hj] at hc; cases hc),
      same_fill ht.segs hk]⟩

omit hj in
theorem EraSpec.alike {P : V → Bool} (a : EraSpec o₁ P l k l') (b : EraSpec o₂ P m k' m') : Alike o₁ o₂ l' m' :=
  ⟨a.wf, b.wf, twin_of_joint a.wf b.wf fun x y w => by
    have hk : ∀ x, o₁.Mem x k ↔ o₂.Mem x k' := hk
    rw [a.joint, b.joint, twin_joint ht.segs]; simp only [hk]⟩

theorem alike_addC {f : Combiner V} {v : V} (e1 : addC o₁ c f l k v = some l') (e2 : addC o₂ c f m k' v = some m') :
    Alike o₁ o₂ l' m' := by
  obtain ⟨a, ea, a1, a2⟩ := addC_spec h1 c f ht.left k v
  obtain ⟨b, eb, b1, b2⟩ := addC_spec h2 c f ht.right k' v
  rw [ea] at e1; rw [eb] at e2; cases e1; cases e2
  cases hv : absorbable c v with
  | true => rw [a1 hv, b1 hv]; exact ht
  | false => exact UpdSpec.alike h1 h2 hj ht hk (a2 hv) (b2 hv)

theorem alike_subC {f : Combiner V} {v : V} (e1 : subC o₁ c f l k v = some l') (e2 : subC o₂ c f m k' v = some m') :
    Alike o₁ o₂ l' m' := by
  obtain ⟨a, ea, a1, a2⟩ := subC_spec h1 c f ht.left k v
  obtain ⟨b, eb, b1, b2⟩ := subC_spec h2 c f ht.right k' v
  rw [ea] at e1; rw [eb] at e2; cases e1; cases e2
  cases hv : absorbable c v with
  | true => rw [a1 hv, b1 hv]; exact ht
  | false => exact UpdSpec.alike h1 h2 hj ht hk (a2 hv) (b2 hv)

theorem alike_addHintC {f : Combiner V} {n n' : Nat} {v : V} (n1 : NoIdent c l) (n2 : NoIdent c m)
    (e1 : addHintC o₁ c f n l k v = some l') (e2 : addHintC o₂ c f n' m k' v = some m') : Alike o₁ o₂ l' m' := by
  obtain ⟨a, ea, a1, a2⟩ := addHintC_spec h1 c f n ht.left n1 k v
  obtain ⟨b, eb, b1, b2⟩ := addHintC_spec h2 c f n' ht.right n2 k' v
  rw [ea] at e1; rw [eb] at e2; cases e1; cases e2
  cases hv : absorbable c v with
  | true => rw [a1 hv, b1 hv]; exact ht
  | false =>
    obtain ⟨u, su, u1, u2⟩ := a2 hv
    obtain ⟨u', su', u1', u2'⟩ := b2 hv
    have hk' : ∀ x, o₁.Mem x k ↔ o₂.Mem x k' := hk
    obtain rfl : u = u' := by
      by_cases hd : ∃ x, Dom o₁ mapSeg l x ∧ o₁.Mem x k
      · rw [u2 hd, u2' (by simpa only [twin_mdom ht.segs, hk'] using hd)]
      · have hd1 : ∀ x, Dom o₁ mapSeg l x → ¬ o₁.Mem x k := fun x hx hc => hd ⟨x, hx, hc⟩
        rw [u1 hd1, u1' (by simpa only [twin_mdom ht.segs, hk'] using hd1)]
    exact UpdSpec.alike h1 h2 hj ht hk su su'

theorem alike_insert {v : V} (e1 : IMap.insert o₁ c l k v = some l') (e2 : IMap.insert o₂ c m k' v = some m') :
    Alike o₁ o₂ l' m' := by
  obtain ⟨a, ea, a1, a2⟩ := insert_spec h1 c ht.left k v
  obtain ⟨b, eb, b1, b2⟩ := insert_spec h2 c ht.right k' v
  rw [ea] at e1; rw [eb] at e2; cases e1; cases e2
  cases hv : absorbable c v with
  | true => rw [a1 hv, b1 hv]; exact ht
  | false => exact InsSpec.alike h1 h2 hj ht hk (a2 hv) (b2 hv)

theorem alike_insertHint {n n' : Nat} {p p' : Bool} {v : V} (e1 : insertHint o₁ c n p l k v = some l')
    (e2 : insertHint o₂ c n' p' m k' v = some m') : Alike o₁ o₂ l' m' := by
  obtain ⟨a, ea, a1, a2⟩ := insertHint_spec h1 c n p ht.left k v
  obtain ⟨b, eb, b1, b2⟩ := insertHint_spec h2 c n' p' ht.right k' v
  rw [ea] at e1; rw [eb] at e2; cases e1; cases e2
  cases hv : absorbable c v with
  | true => rw [a1 hv, b1 hv]; exact ht
  | false => exact InsSpec.alike h1 h2 hj ht hk (a2 hv) (b2 hv)

omit hj in
theorem alike_eraseSeg {v : V} (e1 : eraseSeg o₁ c l k v = some l') (e2 : eraseSeg o₂ c m k' v = some m') :
    Alike o₁ o₂ l' m' := by
  obtain ⟨a, ea, a1, a2⟩ := eraseSeg_spec h1 c ht.left k v
  obtain ⟨b, eb, b1, b2⟩ := eraseSeg_spec h2 c ht.right k' v
  rw [ea] at e1; rw [eb] at e2; cases e1; cases e2
  cases hv : absorbable c v with
  | true => rw [a1 hv, b1 hv]; exact ht
  | false => exact EraSpec.alike h1 h2 ht hk (a2 hv) (b2 hv)

omit hj in
theorem alike_eraseItv (e1 : eraseItv o₁ l k = some l') (e2 : eraseItv o₂ m k' = some m') : Alike o₁ o₂ l' m' := by
  obtain ⟨a, ea, sa⟩ := eraseItv_spec h1 ht.left k
  obtain ⟨b, eb, sb⟩ := eraseItv_spec h2 ht.right k'
  rw [ea] at e1; rw [eb] at e2; cases e1; cases e2
  exact EraSpec.alike h1 h2 ht hk sa sb

theorem alike_setAt {v : V} (e1 : setAt o₁ c l k v = some l') (e2 : setAt o₂ c m k' v = some m') :
    Alike o₁ o₂ l' m' := by
  simp only [setAt, Option.bind_eq_bind, Option.bind_eq_some_iff] at e1 e2
  obtain ⟨a, ea, e1⟩ := e1
  obtain ⟨b, eb, e2⟩ := e2
  exact alike_insert h1 h2 hj (alike_eraseItv h1 h2 ht hk ea eb) hk e1 e2

end

theorem alike_filter {l : List (I × V)} {m : List (J × V)} (ht : Alike o₁ o₂ l m) {p : I × V → Bool} {q : J × V → Bool}
    (hpq : ∀ i j v, SameItv o₁ o₂ i j → p (i, v) = q (j, v)) :
    TwinMapSegments o₁ o₂ (l.filter p) (m.filter q) := by
  have hs := ht.segs
  clear ht
  unfold TwinMapSegments at hs ⊢
  induction hs with
  | nil => exact .nil
  | @cons a b _ _ hab _ ih =>
    have e : p a = q b := by
      have := hpq a.1 b.1 a.2 hab.1
      rw [show b = (b.1, a.2) by rw [hab.2]]; exact this
    rw [List.filter_cons, List.filter_cons, e]
    cases q b
    · exact ih
    · exact .cons hab ih

theorem Alike.noIdent {c : MapCfg V} {l : List (I × V)} {m : List (J × V)} (ht : Alike o₁ o₂ l m) (hn : NoIdent c l) :
    NoIdent c m := by
  intro s hs
  obtain ⟨x, hx⟩ := ht.right.nonempty s hs
  obtain ⟨r, hr, _, _, e⟩ := (twin_joint ht.segs x x s.2).2 ⟨s, hs, hx, hx, rfl⟩
  rw [← e]; exact hn r hr

/-! ### Operations on maps -/

section
variable (h1 : o₁.Lawful) (h2 : o₂.Lawful) {t : MapType V} (hr : Regular t) (hj : t.cfg.joining = false)
  {l l' : List (I × V)} {m m' : List (J × V)}
include h1 h2

theorem alike_addHint (hr : Regular t) (hj : t.cfg.joining = false) (ht : Alike o₁ o₂ l m) (hn : NoIdent t.cfg l) {k : I} {k' : J}
    (hk : SameItv o₁ o₂ k k') {n n' : Nat} {v : V} (e1 : addHint o₁ t n l k v = some l')
    (e2 : addHint o₂ t n' m k' v = some m') : Alike o₁ o₂ l' m' ∧ NoIdent t.cfg l' := by
  refine ⟨alike_addHintC h1 h2 hj ht hk hn (ht.noIdent hn) e1 e2, ?_⟩
  obtain ⟨a, ea, pa⟩ := addHint_pt h1 t n ht.left k v
  rw [ea] at e1; cases e1; exact pa.noIdent hr hn

theorem alike_addSeg (hr : Regular t) (hj : t.cfg.joining = false) (ht : Alike o₁ o₂ l m) (hn : NoIdent t.cfg l) {k : I} {k' : J}
    (hk : SameItv o₁ o₂ k k') {v : V} (e1 : addSeg o₁ t l k v = some l')
    (e2 : addSeg o₂ t m k' v = some m') : Alike o₁ o₂ l' m' ∧ NoIdent t.cfg l' := by
  refine ⟨alike_addC h1 h2 hj ht hk e1 e2, ?_⟩
  obtain ⟨a, ea, pa⟩ := addSeg_pt h1 t ht.left k v
  rw [ea] at e1; cases e1; exact pa.noIdent hr hn

theorem alike_subSeg (hj : t.cfg.joining = false) (ht : Alike o₁ o₂ l m) {k : I} {k' : J} (hk : SameItv o₁ o₂ k k') {v : V}
    (e1 : subSeg o₁ t l k v = some l') (e2 : subSeg o₂ t m k' v = some m') : Alike o₁ o₂ l' m' := by
  unfold subSeg at e1 e2
  split at e1
  · rename_i hc; rw [if_pos hc] at e2; exact alike_addC h1 h2 hj ht hk e1 e2
  · rename_i hc; rw [if_neg hc] at e2; exact alike_subC h1 h2 hj ht hk e1 e2

theorem alike_addMap (hr : Regular t) (hj : t.cfg.joining = false) (ht : Alike o₁ o₂ l m) (hn : NoIdent t.cfg l)
    {r : List (I × V)} {s : List (J × V)} (hrs : TwinMapSegments o₁ o₂ r s) {orc orc'}
    (e1 : addMap o₁ t orc l r = some l') (e2 : addMap o₂ t orc' m s = some m') : Alike o₁ o₂ l' m' ∧ NoIdent t.cfg l' :=
  twin_forEach (Q := fun l m => Alike o₁ o₂ l m ∧ NoIdent t.cfg l) hrs
    (fun a b s u _ hq hsu a' b' e1 e2 => by
      rw [← hsu.2] at e2
      exact alike_addHint h1 h2 hr hj hq.1 hq.2 hsu.1 e1 e2) ⟨ht, hn⟩ e1 e2

theorem alike_addSegs (hr : Regular t) (hj : t.cfg.joining = false) (ht : Alike o₁ o₂ l m) (hn : NoIdent t.cfg l)
    {r : List (I × V)} {s : List (J × V)} (hrs : TwinMapSegments o₁ o₂ r s)
    (e1 : forEach (fun m s => addSeg o₁ t m s.1 s.2) l r = some l')
    (e2 : forEach (fun m s => addSeg o₂ t m s.1 s.2) m s = some m') : Alike o₁ o₂ l' m' ∧ NoIdent t.cfg l' :=
  twin_forEach (Q := fun l m => Alike o₁ o₂ l m ∧ NoIdent t.cfg l) hrs
    (fun a b s u _ hq hsu a' b' e1 e2 => by
      rw [← hsu.2] at e2
      exact alike_addSeg h1 h2 hr hj hq.1 hq.2 hsu.1 e1 e2) ⟨ht, hn⟩ e1 e2

theorem alike_subMap (hj : t.cfg.joining = false) (ht : Alike o₁ o₂ l m)
    {r : List (I × V)} {s : List (J × V)} (hrs : TwinMapSegments o₁ o₂ r s)
    (e1 : subMap o₁ t l r = some l') (e2 : subMap o₂ t m s = some m') : Alike o₁ o₂ l' m' :=
  twin_forEach hrs (fun a b s u _ hq hsu a' b' e1 e2 => by
      rw [← hsu.2] at e2
      exact alike_subSeg h1 h2 hj hq hsu.1 e1 e2) ht e1 e2

theorem alike_insertMap (hj : t.cfg.joining = false) (ht : Alike o₁ o₂ l m)
    {r : List (I × V)} {s : List (J × V)} (hrs : TwinMapSegments o₁ o₂ r s) {orc orc'}
    (e1 : insertMap o₁ t orc l r = some l') (e2 : insertMap o₂ t orc' m s = some m') : Alike o₁ o₂ l' m' :=
  twin_forEach hrs (fun a b s u _ hq hsu a' b' e1 e2 => by
      rw [← hsu.2] at e2
      exact alike_insertHint h1 h2 hj hq hsu.1 e1 e2) ht e1 e2

/-- The part of the operand that may overlap the map. -/
theorem alike_common {R : S → T → Prop} {g : SegOps I W S} {g' : SegOps J W T}
    (hR : ∀ s t, R s t → SameKey o₁ o₂ g g' s t) {r : List S} {s : List T} (hr : ∀ s ∈ r, o₁.Nonempty (g.key s))
    (hrs : List.Forall₂ R r s) (ht : Alike o₁ o₂ l m)
    {x : Option (List S × List S × List S)} {y : Option (List T × List T × List T)}
    (e1 : commonRange o₁ g r (l.map Prod.fst) = some x) (e2 : commonRange o₂ g' s (m.map Prod.fst) = some y) :
    (x = none ∧ y = none) ∨ ∃ a b c a' b' c', x = some (a, b, c) ∧ y = some (a', b', c') ∧
      List.Forall₂ R a a' ∧ List.Forall₂ R b b' ∧ List.Forall₂ R c c' :=
  twin_commonRange h1 h2 hR hr hrs (by
    intro i hi
    obtain ⟨s, hs, rfl⟩ := List.mem_map.1 hi
    exact ht.left.nonempty s hs) (twin_keys ht.segs) e1 e2

theorem alike_eraseMap (ht : Alike o₁ o₂ l m) {r : List (I × V)} {s : List (J × V)}
    (hn : ∀ s ∈ r, o₁.Nonempty s.1) (hrs : TwinMapSegments o₁ o₂ r s)
    (e1 : eraseMap o₁ t l r = some l') (e2 : eraseMap o₂ t m s = some m') : Alike o₁ o₂ l' m' := by
  simp only [eraseMap, Option.bind_eq_bind, Option.bind_eq_some_iff] at e1 e2
  obtain ⟨x, ex, e1⟩ := e1
  obtain ⟨y, ey, e2⟩ := e2
  rcases alike_common h1 h2 (g := mapSeg) (g' := mapSeg) (fun s t hst => hst.1) hn hrs ht ex ey with
    ⟨rfl, rfl⟩ | ⟨a, b, c, a', b', c', rfl, rfl, _, hb, _⟩
  · cases e1; cases e2; exact ht
  · exact twin_forEach hb (fun a b s u _ hq hsu a' b' e1 e2 => by
      rw [← hsu.2] at e2
      exact alike_eraseSeg h1 h2 hq hsu.1 e1 e2) ht e1 e2

theorem alike_eraseSet (ht : Alike o₁ o₂ l m) {r : List I} {s : List J}
    (hn : ∀ i ∈ r, o₁.Nonempty i) (hrs : TwinSegments o₁ o₂ r s)
    (e1 : eraseSet o₁ l r = some l') (e2 : eraseSet o₂ m s = some m') : Alike o₁ o₂ l' m' := by
  simp only [eraseSet, Option.bind_eq_bind, Option.bind_eq_some_iff] at e1 e2
  obtain ⟨x, ex, e1⟩ := e1
  obtain ⟨y, ey, e2⟩ := e2
  rcases alike_common h1 h2 (g := setSeg) (g' := setSeg) (fun s t hst => hst) hn hrs ht ex ey with
    ⟨rfl, rfl⟩ | ⟨a, b, c, a', b', c', rfl, rfl, _, hb, _⟩
  · cases e1; cases e2; exact ht
  · exact twin_forEach hb (fun a b s u _ hq hsu a' b' e1 e2 => alike_eraseItv h1 h2 hq hsu e1 e2) ht e1 e2

theorem same_inter {i k : I} {j k' : J} (hi : SameItv o₁ o₂ i j) (hk : SameItv o₁ o₂ k k') :
    SameItv o₁ o₂ (o₁.inter i k) (o₂.inter j k') := fun x =>
  (h1.mem_inter i k x).trans ((and_congr (hi x) (hk x)).trans (h2.mem_inter j k' x).symm)

theorem same_rightSubtract {i k : I} {j k' : J} (hi : SameItv o₁ o₂ i j) (hk : SameItv o₁ o₂ k k') :
    SameItv o₁ o₂ (o₁.rightSubtract i k) (o₂.rightSubtract j k') := fun x =>
  (h1.mem_rightSubtract i k x).trans ((and_congr (hi x) (forall_congr' fun y => imp_congr_left (hk y))).trans
    (h2.mem_rightSubtract j k' x).symm)

theorem same_leftSubtract {i k : I} {j k' : J} (hi : SameItv o₁ o₂ i j) (hk : SameItv o₁ o₂ k k') :
    SameItv o₁ o₂ (o₁.leftSubtract i k) (o₂.leftSubtract j k') := fun x =>
  (h1.mem_leftSubtract i k x).trans ((and_congr (hi x) (forall_congr' fun y => imp_congr_left (hk y))).trans
    (h2.mem_leftSubtract j k' x).symm)

theorem alike_range (ht : Alike o₁ o₂ l m) {k : I} {k' : J} (hk : SameItv o₁ o₂ k k') (hne : o₁.isEmpty k = false)
    {a b c : List (I × V)} {a' b' c' : List (J × V)} (e1 : equalRange o₁ mapSeg l k = some (a, b, c))
    (e2 : equalRange o₂ mapSeg m k' = some (a', b', c')) :
    TwinMapSegments o₁ o₂ a a' ∧ TwinMapSegments o₁ o₂ b b' ∧ TwinMapSegments o₁ o₂ c c' :=
  twin_equalRange h1 h2 (g := mapSeg) (g' := mapSeg) (fun s t hst => hst.1) ht.left.nonempty ht.segs
    ((nonempty_iff h1).2 hne) hk e1 e2

variable [DecidableEq I] [DecidableEq J]

theorem alike_addInterSeg (hr : Regular t) (hj : t.cfg.joining = false) {sec sec' : List (I × V)} {sed sed' : List (J × V)}
    (hs : Alike o₁ o₂ sec sed) (hn : NoIdent t.cfg sec) (ht : Alike o₁ o₂ l m) {k : I} {k' : J} (hk : SameItv o₁ o₂ k k')
    {v : V} {orc orc'} (e1 : addInterSeg o₁ t orc sec l k v = some sec') (e2 : addInterSeg o₂ t orc' sed m k' v = some sed') :
    Alike o₁ o₂ sec' sed' ∧ NoIdent t.cfg sec' := by
  cases htt : t.cfg.total with
  | true =>
    simp only [addInterSeg, htt, if_true, Option.bind_eq_bind, Option.bind_eq_some_iff] at e1 e2
    obtain ⟨a, ea, e1⟩ := e1
    obtain ⟨b, eb, e2⟩ := e2
    obtain ⟨ha, na⟩ := alike_addMap h1 h2 hr hj hs hn ht.segs ea eb
    exact alike_addSeg h1 h2 hr hj ha na hk e1 e2
  | false =>
    refine ⟨?_, ?_⟩
    · have hke := same_isEmpty h1 h2 hk
      simp only [addInterSeg, htt, Bool.false_eq_true, if_false, ← hke] at e1 e2
      split at e1
      · rename_i hc; rw [if_pos hc] at e2; cases e1; cases e2; exact hs
      rename_i hc
      rw [if_neg hc] at e2
      simp only [Option.bind_eq_bind, Option.bind_eq_some_iff, Prod.exists] at e1 e2
      obtain ⟨a, b, c, ea, e1⟩ := e1
      obtain ⟨a', b', c', ea', e2⟩ := e2
      have hb := (alike_range h1 h2 ht hk (by simpa using hc) ea ea').2.1
      refine twin_forEach hb (fun x y s u _ hq hsu x' y' e1 e2 => ?_) hs e1 e2
      have hi := same_inter h1 h2 hsu.1 hk
      simp only [sectionStep, ← same_isEmpty h1 h2 hi, ← hsu.2] at e1 e2
      split at e1
      · rename_i hc; rw [if_pos hc] at e2; cases e1; cases e2; exact hq
      rename_i hc
      rw [if_neg hc] at e2
      simp only [Option.bind_eq_bind, Option.bind_eq_some_iff] at e1 e2
      obtain ⟨p, ep, e1⟩ := e1
      obtain ⟨q, eq, e2⟩ := e2
      exact alike_addC h1 h2 hj (alike_addC h1 h2 hj hq hi ep eq) hi e1 e2
    · obtain ⟨a, ea, pa⟩ := addInterSeg_pt h1 t htt orc hs.left ht.left k v
      rw [ea] at e1; cases e1; exact pa.noIdent hr hn

theorem alike_addInterMap (hr : Regular t) (hj : t.cfg.joining = false) (ht : Alike o₁ o₂ l m)
    {r : List (I × V)} {s : List (J × V)} (hn : ∀ s ∈ r, o₁.Nonempty s.1) (hrs : TwinMapSegments o₁ o₂ r s)
    {orc orc'} (e1 : addInterMap o₁ t orc [] l r = some l') (e2 : addInterMap o₂ t orc' [] m s = some m') :
    Alike o₁ o₂ l' m' := by
  cases htt : t.cfg.total with
  | true =>
    simp only [addInterMap, htt, if_true, Option.bind_eq_bind, Option.bind_eq_some_iff] at e1 e2
    obtain ⟨a, ea, e1⟩ := e1
    obtain ⟨b, eb, e2⟩ := e2
    obtain ⟨ha, na⟩ := alike_addMap h1 h2 hr hj alike_nil (noIdent_nil _) ht.segs ea eb
    exact (alike_addMap h1 h2 hr hj ha na hrs e1 e2).1
  | false =>
    simp only [addInterMap, htt, Bool.false_eq_true, if_false, Option.bind_eq_bind, Option.bind_eq_some_iff] at e1 e2
    obtain ⟨x, ex, e1⟩ := e1
    obtain ⟨y, ey, e2⟩ := e2
    rcases alike_common h1 h2 (g := mapSeg) (g' := mapSeg) (fun s t hst => hst.1) hn hrs ht ex ey with
      ⟨rfl, rfl⟩ | ⟨a, b, c, a', b', c', rfl, rfl, _, hb, _⟩
    · cases e1; cases e2; exact alike_nil
    · exact (twin_forEach (Q := fun l m => Alike o₁ o₂ l m ∧ NoIdent t.cfg l) hb
        (fun a b s u _ hq hsu a' b' e1 e2 => by
          rw [← hsu.2] at e2
          exact alike_addInterSeg h1 h2 hr hj hq.1 hq.2 ht hsu.1 e1 e2) ⟨alike_nil, noIdent_nil _⟩ e1 e2).1

theorem alike_addInterItv (hr : Regular t) (hj : t.cfg.joining = false) {sec sec' : List (I × V)} {sed sed' : List (J × V)}
    (hs : Alike o₁ o₂ sec sed) (hn : NoIdent t.cfg sec) (ht : Alike o₁ o₂ l m) {k : I} {k' : J} (hk : SameItv o₁ o₂ k k')
    {orc orc'} (e1 : addInterItv o₁ t orc sec l k = some sec') (e2 : addInterItv o₂ t orc' sed m k' = some sed') :
    Alike o₁ o₂ sec' sed' ∧ NoIdent t.cfg sec' := by
  have hke := same_isEmpty h1 h2 hk
  simp only [addInterItv, ← hke] at e1 e2
  split at e1
  · rename_i hc; rw [if_pos hc] at e2; cases e1; cases e2; exact ⟨hs, hn⟩
  rename_i hc
  rw [if_neg hc] at e2
  simp only [Option.bind_eq_bind, Option.bind_eq_some_iff, Prod.exists] at e1 e2
  obtain ⟨a, b, c, ea, e1⟩ := e1
  obtain ⟨a', b', c', ea', e2⟩ := e2
  have hb := (alike_range h1 h2 ht hk (by simpa using hc) ea ea').2.1
  refine twin_forEach (Q := fun l m => Alike o₁ o₂ l m ∧ NoIdent t.cfg l) hb
    (fun x y s u _ hq hsu x' y' e1 e2 => ?_) ⟨hs, hn⟩ e1 e2
  have hi := same_inter h1 h2 hsu.1 hk
  simp only [restrictStep, ← same_isEmpty h1 h2 hi, ← hsu.2] at e1 e2
  split at e1
  · rename_i hc; rw [if_pos hc] at e2; cases e1; cases e2; exact hq
  rename_i hc
  rw [if_neg hc] at e2
  exact alike_addHint h1 h2 hr hj hq.1 hq.2 hi e1 e2

theorem alike_addInterSet (hr : Regular t) (hj : t.cfg.joining = false) (ht : Alike o₁ o₂ l m)
    {r : List I} {s : List J} (hn : ∀ i ∈ r, o₁.Nonempty i) (hrs : TwinSegments o₁ o₂ r s)
    {orc orc'} (e1 : addInterSet o₁ t orc [] l r = some l') (e2 : addInterSet o₂ t orc' [] m s = some m') :
    Alike o₁ o₂ l' m' := by
  simp only [addInterSet, Option.bind_eq_bind, Option.bind_eq_some_iff] at e1 e2
  obtain ⟨x, ex, e1⟩ := e1
  obtain ⟨y, ey, e2⟩ := e2
  rcases alike_common h1 h2 (g := setSeg) (g' := setSeg) (fun s t hst => hst) hn hrs ht ex ey with
    ⟨rfl, rfl⟩ | ⟨a, b, c, a', b', c', rfl, rfl, _, hb, _⟩
  · cases e1; cases e2; exact alike_nil
  · exact (twin_forEach (Q := fun l m => Alike o₁ o₂ l m ∧ NoIdent t.cfg l) hb
      (fun a b s u _ hq hsu a' b' e1 e2 => alike_addInterItv h1 h2 hr hj hq.1 hq.2 ht hsu e1 e2)
      ⟨alike_nil, noIdent_nil _⟩ e1 e2).1

/-! ### Symmetric difference -/

theorem alike_neutralize (hj : t.cfg.joining = false) (ht : Alike o₁ o₂ l m) (e1 : neutralize o₁ t l = some l')
    (e2 : neutralize o₂ t m = some m') : TwinMapSegments o₁ o₂ l' m' := by
  simp only [neutralize, hj, Bool.false_eq_true, if_false, Option.some.injEq] at e1 e2
  subst e1 e2
  unfold TwinMapSegments
  rw [List.forall₂_map_left_iff, List.forall₂_map_right_iff]
  exact ht.segs.imp fun a b hab => ⟨hab.1, rfl⟩

theorem alike_flipLoop (hr : Regular t) (hj : t.cfg.joining = false) {v : V} {post mid : List (I × V)} {post' mid' : List (J × V)}
    (hmid : TwinMapSegments o₁ o₂ mid mid') (ht : Alike o₁ o₂ l m) (hn : NoIdent t.cfg l) {span : I} {span' : J}
    (hsp : SameItv o₁ o₂ span span') {er : List I} {er' : List J} (g1 : Good o₁ .joining er) (g2 : Good o₂ .joining er')
    (her : TwinSegments o₁ o₂ er er') {ins : List (I × V)} {ins' : List (J × V)} (hins : Alike o₁ o₂ ins ins')
    {x : List (I × V) × I × List I × List (I × V)} {y : List (J × V) × J × List J × List (J × V)}
    (e1 : flipLoop o₁ t v post l span er ins mid = some x) (e2 : flipLoop o₂ t v post' m span' er' ins' mid' = some y) :
    Alike o₁ o₂ x.1 y.1 ∧ NoIdent t.cfg x.1 ∧ SameItv o₁ o₂ x.2.1 y.2.1 ∧ Good o₁ .joining x.2.2.1 ∧
      TwinSegments o₁ o₂ x.2.2.1 y.2.2.1 ∧ TwinMapSegments o₁ o₂ x.2.2.2 y.2.2.2 := by
  induction hmid generalizing l m span span' er er' ins ins' with
  | nil => cases e1; cases e2; exact ⟨ht, hn, hsp, g1, her, hins.segs⟩
  | @cons cov cov' mid mid' hc hmid ih =>
    rw [flipLoop] at e1 e2
    simp only [Option.bind_eq_bind, Option.bind_eq_some_iff, Prod.exists] at e1 e2
    obtain ⟨p, q, ec, l1, el, e1⟩ := e1
    obtain ⟨p', q', ec', m1, em, e2⟩ := e2
    split at e1
    swap
    · cases e1
    split at e2
    swap
    · cases e2
    obtain ⟨a1, a2⟩ := alike_addSeg h1 h2 hr hj ht hn (same_rightSubtract h1 h2 hsp hc.1) el em
    have hi := same_inter h1 h2 hsp hc.1
    have key : Good o₁ .joining p ∧ Good o₂ .joining p' ∧ TwinSegments o₁ o₂ p p' ∧ Alike o₁ o₂ q q' := by
      unfold flipCommon at ec ec'
      rw [← same_isEmpty h1 h2 hi, ← hc.2] at ec'
      split at ec
      · rename_i hcc; rw [if_pos hcc] at ec'; cases ec; cases ec'; exact ⟨g1, g2, her, hins⟩
      rename_i hcc
      rw [if_neg hcc] at ec'
      simp only [Option.bind_eq_bind, Option.bind_eq_some_iff, Option.pure_def, Option.some.injEq, Prod.mk.injEq] at ec ec'
      obtain ⟨_, ep, _, eq, rfl, rfl⟩ := ec
      obtain ⟨_, ep', _, eq', rfl, rfl⟩ := ec'
      obtain ⟨a, ea, sa⟩ := ISet.add_spec h1 .joining g1.1 (o₁.inter span cov.1)
      obtain ⟨b, eb, sb⟩ := ISet.add_spec h2 .joining g2.1 (o₂.inter span' cov'.1)
      rw [ea] at ep; rw [eb] at ep'; cases ep; cases ep'
      exact ⟨⟨sa.wf, fun _ => sa.joined rfl (g1.2 rfl)⟩, ⟨sb.wf, fun _ => sb.joined rfl (g2.2 rfl)⟩,
        twin_add h1 h2 g1 g2 her hi sa sb, alike_addC h1 h2 hj hins hi eq eq'⟩
    exact ih a1 a2 (same_leftSubtract h1 h2 hsp hc.1) key.1 key.2.1 key.2.2.1 key.2.2.2 e1 e2

theorem alike_flipSeg (hr : Regular t) (hj : t.cfg.joining = false) (htt : t.cfg.total = false) (ht : Alike o₁ o₂ l m)
    (hn : NoIdent t.cfg l) {k : I} {k' : J} (hk : SameItv o₁ o₂ k k') (hne : o₁.isEmpty k = false ∨ l = []) {v : V} {orc orc'}
    (e1 : flipSeg o₁ t orc l k v = some l') (e2 : flipSeg o₂ t orc' m k' v = some m') :
    Alike o₁ o₂ l' m' ∧ NoIdent t.cfg l' := by
  simp only [flipSeg, htt, Bool.false_eq_true, if_false, Option.bind_eq_bind, Option.bind_eq_some_iff, Prod.exists] at e1 e2
  obtain ⟨a, b, c, ea, m1, sp, er, ins, ef, m2, es, m3, ee, e1⟩ := e1
  obtain ⟨a', b', c', ea', m1', sp', er', ins', ef', m2', es', m3', ee', e2⟩ := e2
  have hb : TwinMapSegments o₁ o₂ b b' := by
    rcases hne with hne | rfl
    · exact (alike_range h1 h2 ht hk hne ea ea').2.1
    · obtain rfl : m = [] := by cases ht.segs; rfl
      simp only [equalRange, cmpOk, List.isEmpty_nil, Bool.true_or, if_true, List.dropWhile_nil, List.takeWhile_nil,
        Option.some.injEq, Prod.mk.injEq] at ea ea'
      obtain ⟨_, rfl, _⟩ := ea
      obtain ⟨_, rfl, _⟩ := ea'
      exact .nil
  obtain ⟨q1, q2, q3, q4, q5, q6⟩ := alike_flipLoop h1 h2 hr hj hb ht hn hk (good_nil _) (good_nil _) .nil alike_nil ef ef'
  obtain ⟨r1, r2⟩ := alike_addSeg h1 h2 hr hj q1 q2 q3 es es'
  have r3 := alike_eraseSet h1 h2 r1 q4.1.nonempty q5 ee ee'
  have r4 : NoIdent t.cfg m3 := by
    obtain ⟨z, ez, pz⟩ := eraseSet_pt h1 t.cfg r1.left q4.1
    have ee : eraseSet o₁ m2 er = some m3 := ee
    rw [ez] at ee; cases ee
    exact pz.noIdent trivial r2
  exact alike_addMap h1 h2 hr hj r3 r4 q6 e1 e2

theorem alike_flipSeg_total (hr : Regular t) (hj : t.cfg.joining = false) (htt : t.cfg.total = true) (ht : Alike o₁ o₂ l m)
    (hn : NoIdent t.cfg l) {k : I} {k' : J} (hk : SameItv o₁ o₂ k k') {v : V} {orc orc'}
    (e1 : flipSeg o₁ t orc l k v = some l') (e2 : flipSeg o₂ t orc' m k' v = some m') :
    TwinMapSegments o₁ o₂ l' m' := by
  simp only [flipSeg, htt, if_true] at e1 e2
  split at e1
  · rename_i hc; rw [if_pos hc] at e2; cases e1; cases e2; exact .nil
  rename_i hc
  rw [if_neg hc] at e2
  simp only [Option.bind_eq_some_iff] at e1 e2
  obtain ⟨a, ea, e1⟩ := e1
  obtain ⟨b, eb, e2⟩ := e2
  exact alike_neutralize h1 h2 hj (alike_addSeg h1 h2 hr hj ht hn hk ea eb).1 e1 e2

theorem alike_flipMap (hr : Regular t) (hj : t.cfg.joining = false) (ht : Alike o₁ o₂ l m) (hn : NoIdent t.cfg l)
    {r : List (I × V)} {s : List (J × V)} (hne : ∀ s ∈ r, o₁.Nonempty s.1) (hrs : TwinMapSegments o₁ o₂ r s)
    {orc orc'} (e1 : flipMap o₁ t orc l r = some l') (e2 : flipMap o₂ t orc' m s = some m') :
    TwinMapSegments o₁ o₂ l' m' := by
  cases htt : t.cfg.total with
  | true =>
    simp only [flipMap, htt, if_true] at e1 e2
    split at e1
    · rename_i hc; rw [if_pos hc] at e2; cases e1; cases e2; exact .nil
    rename_i hc
    rw [if_neg hc] at e2
    simp only [Option.bind_eq_some_iff] at e1 e2
    obtain ⟨a, ea, e1⟩ := e1
    obtain ⟨b, eb, e2⟩ := e2
    exact alike_neutralize h1 h2 hj (alike_addMap h1 h2 hr hj ht hn hrs ea eb).1 e1 e2
  | false =>
    simp only [flipMap, htt, Bool.false_eq_true, if_false, Option.bind_eq_bind, Option.bind_eq_some_iff] at e1 e2
    obtain ⟨x, ex, e1⟩ := e1
    obtain ⟨y, ey, e2⟩ := e2
    have hsub : ∀ p c q, x = some (p, c, q) → ∀ s ∈ c, s ∈ r := by
      rintro p c q rfl s hs
      unfold commonRange at ex
      split at ex
      · cases ex
      · cases ex
      · simp only at ex
        split at ex
        · cases ex
        split at ex
        · cases ex
        split at ex
        · cases ex
        split at ex
        · simp only [Option.some.injEq, Prod.mk.injEq] at ex
          obtain ⟨_, rfl, _⟩ := ex
          exact List.dropWhile_subset _ (List.takeWhile_subset _ hs)
        · cases ex
    rcases alike_common h1 h2 (g := mapSeg) (g' := mapSeg) (fun s t hst => hst.1) hne hrs ht ex ey with
      ⟨rfl, rfl⟩ | ⟨a, b, c, a', b', c', rfl, rfl, ha, hb, hc⟩
    · exact (alike_addMap h1 h2 hr hj ht hn hrs e1 e2).1.segs
    · simp only [Option.bind_eq_some_iff] at e1 e2
      obtain ⟨l1, el, l2, el2, e1⟩ := e1
      obtain ⟨m1, em, m2, em2, e2⟩ := e2
      obtain ⟨q1, q2⟩ := alike_addSegs h1 h2 hr hj ht hn ha el em
      obtain ⟨q3, q4⟩ := twin_forEach (Q := fun l m => Alike o₁ o₂ l m ∧ NoIdent t.cfg l) hb
        (fun x y s u hs hq hsu x' y' e1 e2 => by
          rw [← hsu.2] at e2
          exact alike_flipSeg h1 h2 hr hj htt hq.1 hq.2 hsu.1
            (.inl (isEmpty_false h1 (hne s (hsub _ _ _ rfl s hs)))) e1 e2) ⟨q1, q2⟩ el2 em2
      exact (alike_addSegs h1 h2 hr hj q3 q4 hc e1 e2).1.segs

end

/-! ### Programs -/

variable [DecidableEq I] [DecidableEq J]

/-- One operation on split maps. -/
theorem alike_mrun {E₁ : Option (ElemFns D I)} {E₂ : Option (ElemFns D J)} (h1 : SetClass o₁ E₁) (h2 : SetClass o₂ E₂)
    {t : MapType V} (hr : Regular t) (hj : t.cfg.joining = false) {l : List (I × V)} {m : List (J × V)} (hl : MGood o₁ t l)
    (hm : MGood o₂ t m) (hs : TwinMapSegments o₁ o₂ l m) {c : MapOp D I V} {c' : MapOp D J V} (hc : SameMapCall o₁ o₂ c c')
    (p1 : c.Pre o₁ E₁ t l) (p2 : c'.Pre o₂ E₂ t m)
    {l' : List (I × V)} {m' : List (J × V)} (e1 : c.run o₁ E₁ t l = some l') (e2 : c'.run o₂ E₂ t m = some m') :
    TwinMapSegments o₁ o₂ l' m' := by
  have L1 := h1.cls.lawful
  have L2 := h2.cls.lawful
  have ht : Alike o₁ o₂ l m := ⟨hl.wf, hm.wf, hs⟩
  have hn := hl.noIdent hr
  have nn := noIdent_nil (I := I) t.cfg
  have hel : ∀ x, HasElem o₁ E₁ x → HasElem o₂ E₂ x → ∃ f f', E₁ = some f ∧ E₂ = some f' ∧
      SameItv o₁ o₂ (f.sing x) (f'.sing x) ∧ o₁.isEmpty (f.sing x) = false := by
    rintro x ⟨f, hf, a, b⟩ ⟨f', hf', a', b'⟩
    exact ⟨f, f', hf, hf', twin_sing h1 h2 hf hf' a a', a⟩
  have flip : ∀ {k : I} {k' : J} {v : V} {orc orc'}, SameItv o₁ o₂ k k' →
      (o₁.isEmpty k = false ∨ t.cfg.total = true ∨ l = []) → flipSeg o₁ t orc l k v = some l' →
      flipSeg o₂ t orc' m k' v = some m' → TwinMapSegments o₁ o₂ l' m' := by
    intro k k' v orc orc' hk hp e1 e2
    cases htt : t.cfg.total with
    | true => exact alike_flipSeg_total L1 L2 hr hj htt ht hn hk e1 e2
    | false => exact (alike_flipSeg L1 L2 hr hj htt ht hn hk (by simpa [htt] using hp) e1 e2).1.segs
  cases hc with
  | add v hk => exact (alike_addSeg L1 L2 hr hj ht hn hk e1 e2).1.segs
  | addHint n n' v hk => exact (alike_addHint L1 L2 hr hj ht hn hk e1 e2).1.segs
  | subtract v hk => exact (alike_subSeg L1 L2 hj ht hk e1 e2).segs
  | insert v hk => exact (alike_insert L1 L2 hj ht hk e1 e2).segs
  | insertHint n n' b b' v hk => exact (alike_insertHint L1 L2 hj ht hk e1 e2).segs
  | set v hk => exact (alike_setAt L1 L2 hj ht hk e1 e2).segs
  | erase v hk => exact (alike_eraseSeg L1 L2 ht hk e1 e2).segs
  | eraseKeys hk => exact (alike_eraseItv L1 L2 ht hk e1 e2).segs
  | inter orc orc' v hk => exact (alike_addInterSeg L1 L2 hr hj alike_nil nn ht hk e1 e2).1.segs
  | interKeys orc orc' hk => exact (alike_addInterItv L1 L2 hr hj alike_nil nn ht hk e1 e2).1.segs
  | flip orc orc' v hk => exact flip hk p1 e1 e2
  | addE x v =>
    obtain ⟨f, f', rfl, rfl, hk, _⟩ := hel x p1 p2
    exact (alike_addSeg L1 L2 hr hj ht hn hk e1 e2).1.segs
  | subE x v =>
    obtain ⟨f, f', rfl, rfl, hk, _⟩ := hel x p1 p2
    exact (alike_subSeg L1 L2 hj ht hk e1 e2).segs
  | insertE x v =>
    obtain ⟨f, f', rfl, rfl, hk, _⟩ := hel x p1 p2
    exact (alike_insert L1 L2 hj ht hk e1 e2).segs
  | setE x v =>
    obtain ⟨f, f', rfl, rfl, hk, _⟩ := hel x p1 p2
    exact (alike_setAt L1 L2 hj ht hk e1 e2).segs
  | eraseE x v =>
    obtain ⟨f, f', rfl, rfl, hk, _⟩ := hel x p1 p2
    exact (alike_eraseSeg L1 L2 ht hk e1 e2).segs
  | eraseKey x =>
    obtain ⟨f, f', rfl, rfl, hk, _⟩ := hel x p1 p2
    exact (alike_eraseItv L1 L2 ht hk e1 e2).segs
  | interE orc orc' x v =>
    obtain ⟨f, f', rfl, rfl, hk, _⟩ := hel x p1 p2
    exact (alike_addInterSeg L1 L2 hr hj alike_nil nn ht hk e1 e2).1.segs
  | interKey x =>
    obtain ⟨f, rfl, a1, a2⟩ := p1
    obtain ⟨f', rfl, b1, b2⟩ := p2
    have hk := twin_sing h1 h2 rfl rfl a1 b1
    obtain ⟨a, ea, va⟩ := findE_valueAt L1 (h1.elem f rfl).2 hl.wf a2
    obtain ⟨b, eb, vb⟩ := findE_valueAt L2 (h2.elem f' rfl).2 hm.wf b2
    have hv : a.map Prod.snd = b.map Prod.snd := by rw [va, vb, twinVals_of_segments hs x]
    have e1 : addInterKey o₁ t f.sing f.lookup [] l x = some l' := e1
    have e2 : addInterKey o₂ t f'.sing f'.lookup [] m x = some m' := e2
    simp only [addInterKey, ea, eb, Option.bind_eq_bind, Option.bind_some] at e1 e2
    cases a <;> cases b <;> simp only [Option.map_none, Option.map_some, reduceCtorEq, Option.some.injEq] at hv
    · cases e1; cases e2; exact .nil
    · simp only [← hv] at e2
      exact (alike_addSeg L1 L2 hr hj alike_nil nn hk e1 e2).1.segs
  | flipE orc orc' x v =>
    obtain ⟨f, f', rfl, rfl, hk, hx⟩ := hel x p1 p2
    exact flip hk (.inl hx) e1 e2
  | clear => cases e1; cases e2; exact .nil
  | eraseRange i j =>
    cases e1; cases e2
    exact List.rel_append (List.forall₂_take i hs) (List.forall₂_drop (max i j) hs)
  | eraseIf p q hpq =>
    cases e1; cases e2
    exact alike_filter ht fun i j v hij => by rw [hpq i j v hij]
  | join =>
    obtain ⟨a, ea, wa, va, ja⟩ := joinAll_spec L1 mapSeg_lawful hl.wf
    obtain ⟨b, eb, wb, vb, jb⟩ := joinAll_spec L2 mapSeg_lawful hm.wf
    have hv := twin_mrun h1 h2 hr hl hm hs .join p1 p2 e1 e2
    simp only [MapOp.run, ea, eb] at e1 e2; cases e1; cases e2
    exact segments_of_twinVals L1 L2 wa wb ja jb hv
  | absorbIdentities =>
    cases e1; cases e2
    unfold IMap.absorbIdentities
    split
    · exact hs
    · exact alike_filter ht fun i j v _ => rfl

/-- One operation with a map operand, on split maps. -/
theorem alike_mrun2 (h1 : o₁.Lawful) (h2 : o₂.Lawful) {t : MapType V} (hr : Regular t) (hj : t.cfg.joining = false)
    {l r : List (I × V)} {m s : List (J × V)} (hl : MGood o₁ t l) (hm : MGood o₂ t m) (wr : WF o₁ mapSeg r)
    (ht : TwinMapSegments o₁ o₂ l m) (hs : TwinMapSegments o₁ o₂ r s) {c : MapOp2 I V} {c' : MapOp2 J V}
    (hc : SameMapCall2 c c') {l' : List (I × V)} {m' : List (J × V)} (e1 : c.run o₁ t l r = some l')
    (e2 : c'.run o₂ t m s = some m') : TwinMapSegments o₁ o₂ l' m' := by
  have ha : Alike o₁ o₂ l m := ⟨hl.wf, hm.wf, ht⟩
  have hn := hl.noIdent hr
  cases hc with
  | add orc orc' => exact (alike_addMap h1 h2 hr hj ha hn hs e1 e2).1.segs
  | sub => exact (alike_subMap h1 h2 hj ha hs e1 e2).segs
  | insert orc orc' => exact (alike_insertMap h1 h2 hj ha hs e1 e2).segs
  | erase => exact (alike_eraseMap h1 h2 ha wr.nonempty hs e1 e2).segs
  | inter orc orc' => exact (alike_addInterMap h1 h2 hr hj ha wr.nonempty hs e1 e2).segs
  | flip orc orc' => exact alike_flipMap h1 h2 hr hj ha hn wr.nonempty hs e1 e2

/-- One operation with a set operand, on split maps. -/
theorem alike_mrun3 (h1 : o₁.Lawful) (h2 : o₂.Lawful) {t : MapType V} (hr : Regular t) (hj : t.cfg.joining = false)
    {l : List (I × V)} {m : List (J × V)} {r : List I} {s : List J} (hl : MGood o₁ t l) (hm : MGood o₂ t m)
    (wr : WF o₁ setSeg r) (ht : TwinMapSegments o₁ o₂ l m) (hs : TwinSegments o₁ o₂ r s) {c : MapOp3 I V}
    {c' : MapOp3 J V} (hc : SameMapCall3 c c') {l' : List (I × V)} {m' : List (J × V)} (e1 : c.run o₁ t l r = some l')
    (e2 : c'.run o₂ t m s = some m') : TwinMapSegments o₁ o₂ l' m' := by
  have ha : Alike o₁ o₂ l m := ⟨hl.wf, hm.wf, ht⟩
  cases hc with
  | erase => exact (alike_eraseSet h1 h2 ha wr.nonempty hs e1 e2).segs
  | inter orc orc' => exact (alike_addInterSet h1 h2 hr hj ha wr.nonempty hs e1 e2).segs

theorem TwinMaps.good {E₁ : Option (ElemFns D I)} {E₂ : Option (ElemFns D J)} (h1 : SetClass o₁ E₁) (h2 : SetClass o₂ E₂)
    {t : MapType V} {l : List (I × V)} {m : List (J × V)} (h : TwinMaps o₁ o₂ E₁ E₂ t l m) :
    MGood o₁ t l ∧ MGood o₂ t m ∧ (Regular t → TwinMapSegments o₁ o₂ l m) := by
  have L1 := h1.cls.lawful
  have L2 := h2.cls.lawful
  -- equal values suffice for joining maps
  have fin : ∀ {t : MapType V} {l : List (I × V)} {m : List (J × V)}, MGood o₁ t l → MGood o₂ t m →
      (t.cfg.joining = true → TwinVals o₁ o₂ l m) → (t.cfg.joining = false → TwinMapSegments o₁ o₂ l m) →
      TwinMapSegments o₁ o₂ l m := by
    intro t l m g1 g2 hv hs
    cases hj : t.cfg.joining with
    | true => exact segments_of_twinVals L1 L2 g1.wf g2.wf (g1.joined hj) (g2.joined hj) (hv hj)
    | false => exact hs hj
  induction h with
  | empty t => exact ⟨mgood_nil t, mgood_nil t, fun _ => .nil⟩
  | op _ hc p1 p2 e1 e2 ih =>
    have q1 := MapOp.good_of_run h1 ih.1 _ e1
    have q2 := MapOp.good_of_run h2 ih.2.1 _ e2
    exact ⟨q1, q2, fun hr => fin q1 q2 (fun _ => twin_mrun h1 h2 hr ih.1 ih.2.1 (ih.2.2 hr) hc p1 p2 e1 e2)
      fun hj => alike_mrun h1 h2 hr hj ih.1 ih.2.1 (ih.2.2 hr) hc p1 p2 e1 e2⟩
  | @op2 t t' m n u v m' n' c c' _ _ hN hc e1 e2 ih ih' =>
    have q1 : MGood o₁ t m' := by
      obtain ⟨a, ea, ga⟩ := MapOp2.run_good L1 ih.1 ih'.1.wf c
      rw [ea] at e1; cases e1; exact ga
    have q2 : MGood o₂ t n' := by
      obtain ⟨a, ea, ga⟩ := MapOp2.run_good L2 ih.2.1 ih'.2.1.wf c'
      rw [ea] at e2; cases e2; exact ga
    exact ⟨q1, q2, fun hr => fin q1 q2
      (fun _ => twin_mrun2 L1 L2 hr ih.1 ih.2.1 ih'.1.wf ih'.2.1.wf (twinVals_of_segments (ih.2.2 hr))
        (twinVals_of_segments (ih'.2.2 hN)) hc e1 e2)
      fun hj => alike_mrun2 L1 L2 hr hj ih.1 ih.2.1 ih'.1.wf (ih.2.2 hr) (ih'.2.2 hN) hc e1 e2⟩
  | @op3 t st m n u v m' n' c c' _ hs hc e1 e2 ih =>
    have gs := TwinSets.good h1 h2 hs
    have q1 : MGood o₁ t m' := by
      obtain ⟨a, ea, ga⟩ := MapOp3.run_good L1 ih.1 gs.1.1 c
      rw [ea] at e1; cases e1; exact ga
    have q2 : MGood o₂ t n' := by
      obtain ⟨a, ea, ga⟩ := MapOp3.run_good L2 ih.2.1 gs.2.1.1 c'
      rw [ea] at e2; cases e2; exact ga
    exact ⟨q1, q2, fun hr => fin q1 q2
      (fun _ => twin_mrun3 L1 L2 hr ih.1 ih.2.1 gs.1.1 gs.2.1.1 (twinVals_of_segments (ih.2.2 hr)) gs.2.2 hc e1 e2)
      fun hj => alike_mrun3 L1 L2 hr hj ih.1 ih.2.1 gs.1.1 (ih.2.2 hr) gs.2.2 hc e1 e2⟩
  | @assign t t' u v m' n' orc orc' _ ha e1 e2 ih =>
    have q1 : MGood o₁ t m' := by
      obtain ⟨a, ea, ga⟩ := assign_good L1 orc ih.1 ha
      rw [ea] at e1; cases e1; exact ga
    have q2 : MGood o₂ t n' := by
      obtain ⟨a, ea, ga⟩ := assign_good L2 orc' ih.2.1 ha
      rw [ea] at e2; cases e2; exact ga
    refine ⟨q1, q2, fun hr => ?_⟩
    have hv := ih.2.2 (ha.regular hr)
    refine fin q1 q2 (fun ht => ?_) fun ht => ?_
    · obtain ⟨a, ea, _, _, va, _⟩ := assign_join L1 t ht orc ih.1.wf
      obtain ⟨b, eb, _, _, vb, _⟩ := assign_join L2 t ht orc' ih.2.1.wf
      rw [ea] at e1; rw [eb] at e2; cases e1; cases e2
      exact fun x => by rw [va hr, vb hr, twinVals_of_segments hv x]
    · rw [assign_split L1 t ht orc ih.1.wf] at e1
      rw [assign_split L2 t ht orc' ih.2.1.wf] at e2
      cases e1; cases e2; exact hv

end ICL
