import Verif.Spec
import Verif.Model.MapFun
import Verif.Theory.MapInsert
import Verif.Theory.Observe

/-!
# Functions on interval maps: what they do to every element
-/

set_option linter.unusedSectionVars false
set_option linter.unusedVariables false
set_option linter.unusedSimpArgs false

namespace ICL
open Spec

variable {D I V W : Type} [LinearOrder D] {o : IntervalOps D I}

/-! ### The value at an element -/

@[simp] theorem valueAt_nil (x : D) : valueAt o ([] : List (I × V)) x = none := rfl

theorem valueAt_cons (s : I × V) (l : List (I × V)) (x : D) :
    valueAt o (s :: l) x = if o.contains s.1 x then some s.2 else valueAt o l x := by
  unfold valueAt
  rw [List.find?_cons]
  cases h : o.contains s.1 x <;> simp

theorem valueAt_append (a b : List (I × V)) (x : D) :
    valueAt o (a ++ b) x = (valueAt o a x).or (valueAt o b x) := by
  induction a with
  | nil => simp
  | cons s a ih =>
    rw [List.cons_append, valueAt_cons, valueAt_cons, ih]
    split <;> simp

theorem valueAt_none {l : List (I × V)} {x : D} : valueAt o l x = none ↔ ¬ Dom o mapSeg l x := by
  induction l with
  | nil => simp
  | cons s l ih =>
    rw [valueAt_cons, dom_cons]
    unfold IntervalOps.Mem
    cases h : o.contains s.1 x <;> simp [h, ih]

theorem maps_of_valueAt {l : List (I × V)} {x : D} {v : V} (hv : valueAt o l x = some v) :
    Maps o mapSeg l x v := by
  induction l with
  | nil => simp at hv
  | cons s l ih =>
    rw [valueAt_cons] at hv
    split at hv
    · rename_i hc
      exact ⟨s, by simp, hc, by simpa using hv⟩
    · obtain ⟨t, ht, h1, h2⟩ := ih hv
      exact ⟨t, by simp [ht], h1, h2⟩

theorem valueAt_some {l : List (I × V)} (hl : WF o mapSeg l) {x : D} {v : V} :
    valueAt o l x = some v ↔ Maps o mapSeg l x v := by
  refine ⟨maps_of_valueAt, fun hm => ?_⟩
  cases hc : valueAt o l x with
  | none =>
    obtain ⟨s, hs, h1, h2⟩ := hm
    exact absurd ⟨s, hs, h1⟩ (valueAt_none.1 hc)
  | some w => rw [hl.maps_unique (maps_of_valueAt hc) hm]

theorem valueAt_eq_of_maps {l l' : List (I × V)} (hl : WF o mapSeg l) (hl' : WF o mapSeg l') {x : D}
    (hm : ∀ v, Maps o mapSeg l' x v ↔ Maps o mapSeg l x v) : valueAt o l' x = valueAt o l x := by
  apply Option.ext
  intro v
  rw [valueAt_some hl', valueAt_some hl, hm]

/-- A subsequence of segments that contains all that contain `x`. -/
theorem valueAt_middle {p c q : List (I × V)} {x : D} (hp : ¬ Dom o mapSeg p x) (hq : ¬ Dom o mapSeg q x) :
    valueAt o (p ++ c ++ q) x = valueAt o c x := by
  rw [valueAt_append, valueAt_append, valueAt_none.2 hp, valueAt_none.2 hq]
  simp

theorem dom_fst {l : List (I × V)} {x : D} : Dom o setSeg (l.map Prod.fst) x ↔ Dom o mapSeg l x := by
  simp [Dom]

theorem wf_fst {l : List (I × V)} : WF o setSeg (l.map Prod.fst) ↔ WF o mapSeg l := by
  constructor
  · intro hh
    exact ⟨fun s hs => hh.nonempty _ (List.mem_map_of_mem hs), List.pairwise_map.1 hh.sorted⟩
  · intro hh
    refine ⟨fun i hi => ?_, List.pairwise_map.2 hh.sorted⟩
    obtain ⟨s, hs, rfl⟩ := List.mem_map.1 hi
    exact hh.nonempty s hs

/-- The intervals of a set as a map to `Unit`. -/
def unitMap (r : List I) : List (I × Unit) := r.map fun i => (i, ())

theorem wf_unitMap {r : List I} : WF o mapSeg (unitMap r) ↔ WF o setSeg r := by
  rw [← wf_fst]; simp [unitMap, Function.comp_def]

theorem dom_unitMap {r : List I} {x : D} : Dom o mapSeg (unitMap r) x ↔ Dom o setSeg r x := by
  rw [← dom_fst]; simp [unitMap, Function.comp_def]

theorem forEach_map {S T T' : Type} (f : S → T' → Option S) (g : T → T') (s : S) (l : List T) :
    forEach f s (l.map g) = forEach (fun s t => f s (g t)) s l := by
  induction l generalizing s with
  | nil => rfl
  | cons t l ih =>
    simp only [List.map_cons, forEach]
    cases f s (g t) with
    | none => rfl
    | some s' => simpa using ih s'

namespace IMap
variable [DecidableEq V]

/-! ### Pointwise specifications -/

/-- The value if it is not absorbed. -/
def keep (c : MapCfg V) (w : V) : Option V := if absorbable c w then none else some w

/-- What `add(segment)` does to the value at an element of the segment. -/
def addF (c : MapCfg V) (f : Combiner V) (v : V) (a : Option V) : Option V :=
  if absorbable c v then a
  else match a with
    | none => some (f.version v)
    | some u => keep c (f.apply u v)

/-- What `subtract(segment)` does (unless the map is total and its values have inverses). -/
def subF (c : MapCfg V) (f : Combiner V) (v : V) (a : Option V) : Option V :=
  if absorbable c v then a else a.bind fun u => keep c (f.apply u v)

/-- What `insert(segment)` does. -/
def insF (c : MapCfg V) (v : V) (a : Option V) : Option V := a.or (keep c v)

/-- What `erase(segment)` does. -/
def eraF (c : MapCfg V) (v : V) (a : Option V) : Option V :=
  if absorbable c v then a else if a = some v then none else a

/-- The map is changed by `φ` at every element. The change at elements is known under the condition `N`. -/
structure Pt (o : IntervalOps D I) (c : MapCfg V) (N : Prop) (l l' : List (I × V)) (φ : D → Option V → Option V) :
    Prop where
  wf : WF o mapSeg l'
  joined : c.joining = true → Joined o mapSeg l → Joined o mapSeg l'
  at_ : N → NoIdent c l → ∀ x, valueAt o l' x = φ x (valueAt o l x)
  noIdent : N → NoIdent c l → NoIdent c l'

/-- Only at the elements of `k`. -/
def on (o : IntervalOps D I) (k : I) (ψ : D → Option V → Option V) : D → Option V → Option V :=
  fun x a => if o.contains k x then ψ x a else a

/-- At every element of `r`, depending on its value there. -/
def over (o : IntervalOps D I) (r : List (I × W)) (ψ : D → W → Option V → Option V) :
    D → Option V → Option V :=
  fun x a =>
    match valueAt o r x with
    | none => a
    | some v => ψ x v a

theorem noIdent_iff {c : MapCfg V} {l : List (I × V)} (hl : WF o mapSeg l) :
    NoIdent c l ↔ ∀ x v, valueAt o l x = some v → absorbable c v = false := by
  constructor
  · intro hh x v hv
    obtain ⟨s, hs, _, rfl⟩ := maps_of_valueAt hv
    exact hh s hs
  · intro hh s hs
    obtain ⟨x, hx⟩ := hl.nonempty s hs
    exact hh x s.2 ((valueAt_some hl).2 ⟨s, hs, hx, rfl⟩)

theorem noIdent_nil (c : MapCfg V) : NoIdent c ([] : List (I × V)) := by simp [NoIdent]

theorem noIdent_of_enricher {c : MapCfg V} (hc : c.absorbs = false) (l : List (I × V)) : NoIdent c l := by
  intro s _; simp [absorbable, hc]

theorem keep_ne {c : MapCfg V} {w u : V} (hk : keep c w = some u) : absorbable c u = false := by
  unfold keep at hk
  cases h : absorbable c w <;> simp [h] at hk
  rw [← hk]; exact h

theorem keep_some {c : MapCfg V} {w : V} (hw : absorbable c w = false) : keep c w = some w := by
  simp [keep, hw]

theorem Pt.refl (c : MapCfg V) (N : Prop) {l : List (I × V)} (hl : WF o mapSeg l) :
    Pt o c N l l fun _ a => a := ⟨hl, fun _ hj => hj, fun _ _ _ => rfl, fun _ hn => hn⟩

theorem Pt.trans {c : MapCfg V} {N : Prop} {l l' l'' : List (I × V)} {φ ψ : D → Option V → Option V}
    (h1 : Pt o c N l l' φ) (h2 : Pt o c N l' l'' ψ) : Pt o c N l l'' fun x a => ψ x (φ x a) :=
  ⟨h2.wf, fun hc hj => h2.joined hc (h1.joined hc hj),
    fun hN hn x => by rw [h2.at_ hN (h1.noIdent hN hn), h1.at_ hN hn],
    fun hN hn => h2.noIdent hN (h1.noIdent hN hn)⟩

theorem Pt.congr {c : MapCfg V} {N : Prop} {l l' : List (I × V)} {φ ψ : D → Option V → Option V}
    (hp : Pt o c N l l' φ)
    (hh : N → NoIdent c l → ∀ x, φ x (valueAt o l x) = ψ x (valueAt o l x)) : Pt o c N l l' ψ :=
  ⟨hp.wf, hp.joined, fun hN hn x => by rw [hp.at_ hN hn, hh hN hn], hp.noIdent⟩

theorem Pt.mono {c : MapCfg V} {N N' : Prop} {l l' : List (I × V)} {φ : D → Option V → Option V}
    (hp : Pt o c N l l' φ) (hN : N' → N) : Pt o c N' l l' φ :=
  ⟨hp.wf, hp.joined, fun h hn => hp.at_ (hN h) hn, fun h hn => hp.noIdent (hN h) hn⟩

/-- A loop over segments changes every element as the segment does that contains it. -/
theorem forEach_pt {c : MapCfg V} {N : Prop} {f : List (I × V) → I × W → Option (List (I × V))}
    {ψ : D → W → Option V → Option V} {r : List (I × W)} (hr : WF o mapSeg r)
    (hf : ∀ l, WF o mapSeg l → ∀ s ∈ r, ∃ l', f l s = some l' ∧ Pt o c N l l' (on o s.1 fun x => ψ x s.2))
    {l : List (I × V)} (hl : WF o mapSeg l) :
    ∃ l', forEach f l r = some l' ∧ Pt o c N l l' (over o r ψ) := by
  induction r generalizing l with
  | nil => exact ⟨l, rfl, Pt.refl c N hl⟩
  | cons s r ih =>
    have hw := wf_cons.1 hr
    obtain ⟨l1, e1, p1⟩ := hf l hl s (by simp)
    obtain ⟨l2, e2, p2⟩ := ih hw.2.1 (fun l hl s hs => hf l hl s (by simp [hs])) p1.wf
    refine ⟨l2, by simp [forEach, e1, e2], (p1.trans p2).congr fun _ _ x => ?_⟩
    unfold on over
    rw [valueAt_cons]
    cases hc : o.contains s.1 x with
    | false => simp
    | true =>
      have : valueAt o r x = none := valueAt_none.2 fun hd => absurd (hw.2.2 x x hc hd) (lt_irrefl _)
      simp [this]

/-! ### Segments -/

section
variable (h : o.Lawful)
include h

theorem updSpec_at {c : MapCfg V} {up : V → Option V} {fill : Option V} {l : List (I × V)} {k : I}
    {l' : List (I × V)} (hl : WF o mapSeg l) (hs : UpdSpec o c up fill l k l') (x : D) :
    valueAt o l' x = if o.contains k x then (match valueAt o l x with | none => fill | some u => up u)
      else valueAt o l x := by
  apply Option.ext
  intro w
  rw [valueAt_some hs.wf, ← joint_self, hs.joint x x w (dg_self c x)]
  unfold Eff
  have hb : ∀ P : D → Prop, (∀ z, Btw x x z → P z) ↔ P x := by
    intro P; simp [btw_self]
  rw [hb (fun z => ¬ Dom o mapSeg l z), hb (fun z => ¬ o.Mem z k)]
  cases hc : o.contains k x with
  | false =>
    have hm : ¬ o.Mem x k := by simp [IntervalOps.Mem, hc]
    simp [hm, valueAt_some hl, joint_self]
  | true =>
    have hm : o.Mem x k := hc
    simp only [hm, true_and, not_true, false_and, or_false, if_true]
    cases hv : valueAt o l x with
    | none =>
      have hd := valueAt_none.1 hv
      have : ∀ u, ¬ Joint o l x x u := fun u hu => hd hu.left
      simp [this, hd]
    | some u =>
      have hmp := maps_of_valueAt hv
      have hd : Dom o mapSeg l x := ((joint_self _ _ _).2 hmp).left
      simp only [hd, not_true, and_false, or_false]
      constructor
      · rintro ⟨u', h1, h2⟩
        rw [← hl.maps_unique ((joint_self _ _ _).1 h1) hmp]; exact h2
      · intro h2; exact ⟨u, (joint_self _ _ _).2 hmp, h2⟩

theorem addC_at (c : MapCfg V) (f : Combiner V) {l : List (I × V)} (hl : WF o mapSeg l) (k : I) (v : V) :
    ∃ l', addC o c f l k v = some l' ∧ WF o mapSeg l' ∧
      (c.joining = true → Joined o mapSeg l → Joined o mapSeg l') ∧
      ∀ x, valueAt o l' x = on o k (fun _ => addF c f v) x (valueAt o l x) := by
  obtain ⟨l', e, h1, h2⟩ := addC_spec h c f hl k v
  refine ⟨l', e, ?_⟩
  cases hv : absorbable c v with
  | true =>
    obtain rfl := h1 hv
    exact ⟨hl, fun _ hj => hj, fun x => by simp [on, addF, hv]⟩
  | false =>
    have hs := h2 hv
    refine ⟨hs.wf, hs.joined, fun x => ?_⟩
    rw [updSpec_at h hl hs]
    simp only [on, addF, hv]
    cases o.contains k x <;> cases valueAt o l x <;> simp [upd, keep]

theorem subC_at (c : MapCfg V) (f : Combiner V) {l : List (I × V)} (hl : WF o mapSeg l) (k : I) (v : V) :
    ∃ l', subC o c f l k v = some l' ∧ WF o mapSeg l' ∧
      (c.joining = true → Joined o mapSeg l → Joined o mapSeg l') ∧
      ∀ x, valueAt o l' x = on o k (fun _ => subF c f v) x (valueAt o l x) := by
  obtain ⟨l', e, h1, h2⟩ := subC_spec h c f hl k v
  refine ⟨l', e, ?_⟩
  cases hv : absorbable c v with
  | true =>
    obtain rfl := h1 hv
    exact ⟨hl, fun _ hj => hj, fun x => by simp [on, subF, hv]⟩
  | false =>
    have hs := h2 hv
    refine ⟨hs.wf, hs.joined, fun x => ?_⟩
    rw [updSpec_at h hl hs]
    simp only [on, subF, hv]
    cases o.contains k x <;> cases valueAt o l x <;> simp [upd, keep]

theorem insSpec_at {c : MapCfg V} {l : List (I × V)} {k : I} {v : V} {l' : List (I × V)} (hl : WF o mapSeg l)
    (hs : InsSpec o c v l k l') (x : D) :
    valueAt o l' x = if o.contains k x then (valueAt o l x).or (some v) else valueAt o l x := by
  apply Option.ext
  intro w
  rw [valueAt_some hs.wf, ← joint_self, hs.joint x x w (dg_self c x)]
  unfold Fill
  have hb : ∀ P : D → Prop, (∀ z, Btw x x z → P z) ↔ P x := by
    intro P; simp [btw_self]
  rw [hb (fun z => ¬ Dom o mapSeg l z), joint_self, ← valueAt_some hl]
  cases hc : o.contains k x with
  | false =>
    have hm : ¬ o.Mem x k := by simp [IntervalOps.Mem, hc]
    simp [hm]
  | true =>
    have hm : o.Mem x k := hc
    cases hv : valueAt o l x with
    | none => simp [hm, valueAt_none.1 hv]
    | some u =>
      have hd : Dom o mapSeg l x := ((joint_self _ _ _).2 (maps_of_valueAt hv)).left
      simp [hd]

theorem insert_at' {c : MapCfg V} {l l' : List (I × V)} (hl : WF o mapSeg l) {k : I} {v : V}
    (h1 : absorbable c v = true → l' = l) (h2 : absorbable c v = false → InsSpec o c v l k l') :
    WF o mapSeg l' ∧ (c.joining = true → Joined o mapSeg l → Joined o mapSeg l') ∧
      ∀ x, valueAt o l' x = on o k (fun _ => insF c v) x (valueAt o l x) := by
  cases hv : absorbable c v with
  | true =>
    obtain rfl := h1 hv
    exact ⟨hl, fun _ hj => hj, fun x => by simp [on, insF, keep, hv]⟩
  | false =>
    have hs := h2 hv
    refine ⟨hs.wf, hs.joined, fun x => ?_⟩
    rw [insSpec_at h hl hs]
    simp [on, insF, keep, hv]

theorem insert_at (c : MapCfg V) {l : List (I × V)} (hl : WF o mapSeg l) (k : I) (v : V) :
    ∃ l', insert o c l k v = some l' ∧ WF o mapSeg l' ∧
      (c.joining = true → Joined o mapSeg l → Joined o mapSeg l') ∧
      ∀ x, valueAt o l' x = on o k (fun _ => insF c v) x (valueAt o l x) := by
  obtain ⟨l', e, h1, h2⟩ := insert_spec h c hl k v
  exact ⟨l', e, insert_at' h hl h1 h2⟩

theorem insertHint_at (c : MapCfg V) (n : Nat) (b : Bool) {l : List (I × V)} (hl : WF o mapSeg l) (k : I)
    (v : V) : ∃ l', insertHint o c n b l k v = some l' ∧ WF o mapSeg l' ∧
      (c.joining = true → Joined o mapSeg l → Joined o mapSeg l') ∧
      ∀ x, valueAt o l' x = on o k (fun _ => insF c v) x (valueAt o l x) := by
  obtain ⟨l', e, h1, h2⟩ := insertHint_spec h c n b hl k v
  exact ⟨l', e, insert_at' h hl h1 h2⟩

theorem eraSpec_at {P : V → Bool} {l : List (I × V)} {k : I} {l' : List (I × V)} (hl : WF o mapSeg l)
    (hs : EraSpec o P l k l') (x : D) :
    valueAt o l' x = if o.contains k x then (valueAt o l x).filter (fun u => !P u) else valueAt o l x := by
  apply Option.ext
  intro w
  rw [valueAt_some hs.wf, ← joint_self, hs.joint x x w]
  have hb : ∀ P : D → Prop, (∀ z, Btw x x z → P z) ↔ P x := by
    intro P; simp [btw_self]
  rw [hb (fun z => ¬ o.Mem z k), joint_self, ← valueAt_some hl]
  unfold IntervalOps.Mem
  cases hc : o.contains k x with
  | false => simp
  | true => simp [Option.filter_eq_some_iff]

theorem eraseSeg_at (c : MapCfg V) {l : List (I × V)} (hl : WF o mapSeg l) (k : I) (v : V) :
    ∃ l', eraseSeg o c l k v = some l' ∧ WF o mapSeg l' ∧ (Joined o mapSeg l → Joined o mapSeg l') ∧
      ∀ x, valueAt o l' x = on o k (fun _ => eraF c v) x (valueAt o l x) := by
  obtain ⟨l', e, h1, h2⟩ := eraseSeg_spec h c hl k v
  refine ⟨l', e, ?_⟩
  cases hv : absorbable c v with
  | true =>
    obtain rfl := h1 hv
    exact ⟨hl, fun hj => hj, fun x => by simp [on, eraF, hv]⟩
  | false =>
    have hs := h2 hv
    refine ⟨hs.wf, hs.joined h hl, fun x => ?_⟩
    rw [eraSpec_at h hl hs]
    simp only [on, eraF, hv]
    cases o.contains k x with
    | false => simp
    | true =>
      cases valueAt o l x with
      | none => simp
      | some u => by_cases hu : u = v <;> simp [hu, Option.filter]

theorem eraseItv_at {l : List (I × V)} (hl : WF o mapSeg l) (k : I) :
    ∃ l', eraseItv o l k = some l' ∧ WF o mapSeg l' ∧ (Joined o mapSeg l → Joined o mapSeg l') ∧
      ∀ x, valueAt o l' x = on o k (fun _ _ => none) x (valueAt o l x) := by
  obtain ⟨l', e, hs⟩ := eraseItv_spec h hl k
  refine ⟨l', e, hs.wf, hs.joined h hl, fun x => ?_⟩
  rw [eraSpec_at h hl hs]
  simp only [on]
  cases o.contains k x with
  | false => simp
  | true => cases valueAt o l x <;> simp [Option.filter]

theorem setAt_at (c : MapCfg V) {l : List (I × V)} (hl : WF o mapSeg l) (k : I) (v : V) :
    ∃ l', setAt o c l k v = some l' ∧ WF o mapSeg l' ∧
      (c.joining = true → Joined o mapSeg l → Joined o mapSeg l') ∧
      ∀ x, valueAt o l' x = on o k (fun _ _ => keep c v) x (valueAt o l x) := by
  obtain ⟨l1, e1, w1, j1, a1⟩ := eraseItv_at h hl k
  obtain ⟨l2, e2, w2, j2, a2⟩ := insert_at h c w1 k v
  refine ⟨l2, by simp [setAt, e1, e2], w2, fun hc hj => j2 hc (j1 hj), fun x => ?_⟩
  rw [a2, a1]
  simp only [on, insF]
  cases o.contains k x <;> simp

end
end IMap
end ICL
