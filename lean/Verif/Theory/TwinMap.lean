import Verif.Theory.Twin

/-!
# One program with maps, two interval classes
-/

set_option linter.unusedSectionVars false
set_option linter.unusedVariables false

namespace ICL
open Spec IMap

variable {D I J V W : Type} [LinearOrder D] {o₁ : IntervalOps D I} {o₂ : IntervalOps D J}

/-- Two maps with the same value at every element. -/
def TwinVals (o₁ : IntervalOps D I) (o₂ : IntervalOps D J) (l : List (I × V)) (m : List (J × V)) : Prop :=
  ∀ x, valueAt o₁ l x = valueAt o₂ m x

theorem twinVals_of_segments {l : List (I × V)} {m : List (J × V)} (h : TwinMapSegments o₁ o₂ l m) : TwinVals o₁ o₂ l m := by
  intro x
  induction h with
  | nil => rfl
  | @cons s t l m hst _ ih =>
    rw [valueAt_cons, valueAt_cons, ih, hst.2]
    have : o₁.contains s.1 x = o₂.contains t.1 x := Bool.eq_iff_iff.2 (hst.1 x)
    rw [this]

theorem twinVals_maps {l : List (I × V)} {m : List (J × V)} (hl : WF o₁ mapSeg l) (hm : WF o₂ mapSeg m)
    (h : TwinVals o₁ o₂ l m) (x : D) (v : V) : Maps o₁ mapSeg l x v ↔ Maps o₂ mapSeg m x v := by
  rw [← valueAt_some hl, ← valueAt_some hm, h x]

theorem same_comm' {S : Type} {g : SegOps I V S} {l : List S} {x y : D} : Same o₁ g l x y ↔ Same o₁ g l y x :=
  exists_congr fun s => and_congr_right fun _ => and_comm

/-- Fully joined maps with the same values have the same segments. -/
theorem segments_of_twinVals [DecidableEq V] (h1 : o₁.Lawful) (h2 : o₂.Lawful) {l : List (I × V)} {m : List (J × V)} (hl : WF o₁ mapSeg l)
    (hm : WF o₂ mapSeg m) (jl : Joined o₁ mapSeg l) (jm : Joined o₂ mapSeg m) (h : TwinVals o₁ o₂ l m) :
    TwinMapSegments o₁ o₂ l m := by
  have key : ∀ x y, x ≤ y → (Same o₁ mapSeg l x y ↔ Same o₂ mapSeg m x y) := by
    intro x y hxy
    rw [joined_same_iff h1 hl jl hxy, joined_same_iff h2 hm jm hxy]
    simp only [twinVals_maps hl hm h]
  refine forall2_of_same_maps hl hm (fun x y => ?_) (twinVals_maps hl hm h)
  rcases le_total x y with hxy | hxy
  · exact key x y hxy
  · rw [same_comm', key y x hxy, same_comm']

theorem contains_same {k : I} {k' : J} (hk : SameItv o₁ o₂ k k') (x : D) : o₁.contains k x = o₂.contains k' x :=
  Bool.eq_iff_iff.2 (hk x)

theorem twin_on {k : I} {k' : J} (hk : SameItv o₁ o₂ k k') {ψ ψ' : D → Option V → Option V}
    (hψ : ∀ x a, ψ x a = ψ' x a) (x : D) (a : Option V) : on o₁ k ψ x a = on o₂ k' ψ' x a := by
  unfold on; rw [contains_same hk, hψ]

theorem twin_over {r : List (I × W)} {r' : List (J × W)} (hr : TwinVals o₁ o₂ r r') {ψ ψ' : D → W → Option V → Option V}
    (hψ : ∀ x w a, ψ x w a = ψ' x w a) (x : D) (a : Option V) : over o₁ r ψ x a = over o₂ r' ψ' x a := by
  unfold over; rw [hr x]; cases valueAt o₂ r' x <;> simp [hψ]

theorem twinVals_nil_iff {l : List (I × V)} {m : List (J × V)} (hl : WF o₁ mapSeg l) (hm : WF o₂ mapSeg m)
    (h : TwinVals o₁ o₂ l m) : l = [] ↔ m = [] := by
  constructor
  · rintro rfl
    cases m with
    | nil => rfl
    | cons s m =>
      obtain ⟨x, hx⟩ := hm.nonempty s (by simp)
      have := h x
      rw [valueAt_cons, show o₂.contains s.1 x = true from hx] at this
      cases this
  · rintro rfl
    cases l with
    | nil => rfl
    | cons s l =>
      obtain ⟨x, hx⟩ := hl.nonempty s (by simp)
      have := h x
      rw [valueAt_cons, show o₁.contains s.1 x = true from hx] at this
      cases this

theorem twin_unitMap {r : List I} {s : List J} (h : TwinSegments o₁ o₂ r s) : TwinVals o₁ o₂ (unitMap r) (unitMap s) := by
  apply twinVals_of_segments
  unfold unitMap TwinMapSegments
  rw [List.forall₂_map_left_iff, List.forall₂_map_right_iff]
  exact h.imp fun a b hab => ⟨hab, rfl⟩

variable [DecidableEq I] [DecidableEq J] [DecidableEq V]

/-- Operations that change the values alike keep the maps alike. -/
theorem twin_pt {t : MapType V} (hr : Regular t) {N : Prop} (hN : Regular t → N) {l l' : List (I × V)} {m m' : List (J × V)}
    (hl : NoIdent t.cfg l) (hm : NoIdent t.cfg m) (h : TwinVals o₁ o₂ l m) {φ ψ : D → Option V → Option V}
    (p1 : Pt o₁ t.cfg N l l' φ) (p2 : Pt o₂ t.cfg N m m' ψ) (hφ : ∀ x a, φ x a = ψ x a) : TwinVals o₁ o₂ l' m' := by
  intro x
  rw [p1.at_ (hN hr) hl, p2.at_ (hN hr) hm, hφ, h x]

section
variable (h1 : o₁.Lawful) (h2 : o₂.Lawful) {t : MapType V} (hr : Regular t) {l l' : List (I × V)} {m m' : List (J × V)}
  (hl : MGood o₁ t l) (hm : MGood o₂ t m) (ht : TwinVals o₁ o₂ l m) {k : I} {k' : J} (hk : SameItv o₁ o₂ k k') (v : V)
include h1 h2 hr hl hm ht hk

theorem twin_addSeg (e1 : addSeg o₁ t l k v = some l') (e2 : addSeg o₂ t m k' v = some m') : TwinVals o₁ o₂ l' m' := by
  obtain ⟨a, ea, pa⟩ := addSeg_pt h1 t hl.wf k v
  obtain ⟨b, eb, pb⟩ := addSeg_pt h2 t hm.wf k' v
  rw [ea] at e1; rw [eb] at e2; cases e1; cases e2
  exact twin_pt hr id (hl.noIdent hr) (hm.noIdent hr) ht pa pb (twin_on hk fun _ _ => rfl)

theorem twin_addHint {n n' : Nat} (e1 : addHint o₁ t n l k v = some l') (e2 : addHint o₂ t n' m k' v = some m') :
    TwinVals o₁ o₂ l' m' := by
  obtain ⟨a, ea, pa⟩ := addHint_pt h1 t n hl.wf k v
  obtain ⟨b, eb, pb⟩ := addHint_pt h2 t n' hm.wf k' v
  rw [ea] at e1; rw [eb] at e2; cases e1; cases e2
  exact twin_pt hr id (hl.noIdent hr) (hm.noIdent hr) ht pa pb (twin_on hk fun _ _ => rfl)

theorem twin_subSeg (e1 : subSeg o₁ t l k v = some l') (e2 : subSeg o₂ t m k' v = some m') : TwinVals o₁ o₂ l' m' := by
  obtain ⟨a, ea, pa⟩ := subSeg_pt h1 t hl.wf k v
  obtain ⟨b, eb, pb⟩ := subSeg_pt h2 t hm.wf k' v
  rw [ea] at e1; rw [eb] at e2; cases e1; cases e2
  exact twin_pt hr id (hl.noIdent hr) (hm.noIdent hr) ht pa pb (twin_on hk fun _ _ => rfl)

theorem twin_insert (e1 : IMap.insert o₁ t.cfg l k v = some l') (e2 : IMap.insert o₂ t.cfg m k' v = some m') :
    TwinVals o₁ o₂ l' m' := by
  obtain ⟨a, ea, pa⟩ := insert_pt h1 t.cfg hl.wf k v
  obtain ⟨b, eb, pb⟩ := insert_pt h2 t.cfg hm.wf k' v
  rw [ea] at e1; rw [eb] at e2; cases e1; cases e2
  exact twin_pt hr (fun _ => trivial) (hl.noIdent hr) (hm.noIdent hr) ht pa pb (twin_on hk fun _ _ => rfl)

theorem twin_insertHint {n n' : Nat} {b b' : Bool} (e1 : insertHint o₁ t.cfg n b l k v = some l')
    (e2 : insertHint o₂ t.cfg n' b' m k' v = some m') : TwinVals o₁ o₂ l' m' := by
  obtain ⟨a, ea, pa⟩ := insertHint_pt h1 t.cfg n b hl.wf k v
  obtain ⟨b, eb, pb⟩ := insertHint_pt h2 t.cfg n' b' hm.wf k' v
  rw [ea] at e1; rw [eb] at e2; cases e1; cases e2
  exact twin_pt hr (fun _ => trivial) (hl.noIdent hr) (hm.noIdent hr) ht pa pb (twin_on hk fun _ _ => rfl)

theorem twin_setAt (e1 : setAt o₁ t.cfg l k v = some l') (e2 : setAt o₂ t.cfg m k' v = some m') :
    TwinVals o₁ o₂ l' m' := by
  obtain ⟨a, ea, pa⟩ := setAt_pt h1 t.cfg hl.wf k v
  obtain ⟨b, eb, pb⟩ := setAt_pt h2 t.cfg hm.wf k' v
  rw [ea] at e1; rw [eb] at e2; cases e1; cases e2
  exact twin_pt hr (fun _ => trivial) (hl.noIdent hr) (hm.noIdent hr) ht pa pb (twin_on hk fun _ _ => rfl)

theorem twin_eraseSeg (e1 : eraseSeg o₁ t.cfg l k v = some l') (e2 : eraseSeg o₂ t.cfg m k' v = some m') :
    TwinVals o₁ o₂ l' m' := by
  obtain ⟨a, ea, pa⟩ := eraseSeg_pt h1 t.cfg hl.wf k v
  obtain ⟨b, eb, pb⟩ := eraseSeg_pt h2 t.cfg hm.wf k' v
  rw [ea] at e1; rw [eb] at e2; cases e1; cases e2
  exact twin_pt hr (fun _ => trivial) (hl.noIdent hr) (hm.noIdent hr) ht pa pb (twin_on hk fun _ _ => rfl)

theorem twin_eraseItv (e1 : eraseItv o₁ l k = some l') (e2 : eraseItv o₂ m k' = some m') :
    TwinVals o₁ o₂ l' m' := by
  obtain ⟨a, ea, pa⟩ := eraseItv_pt h1 t.cfg hl.wf k
  obtain ⟨b, eb, pb⟩ := eraseItv_pt h2 t.cfg hm.wf k'
  rw [ea] at e1; rw [eb] at e2; cases e1; cases e2
  exact twin_pt hr (fun _ => trivial) (hl.noIdent hr) (hm.noIdent hr) ht pa pb (twin_on hk fun _ _ => rfl)

theorem twin_addInterSeg {orc orc'} (e1 : addInterSeg o₁ t orc [] l k v = some l')
    (e2 : addInterSeg o₂ t orc' [] m k' v = some m') : TwinVals o₁ o₂ l' m' := by
  cases htt : t.cfg.total with
  | true =>
    obtain ⟨a, ea, pa⟩ := addInterSeg_total_pt h1 t htt orc wf_nil hl.wf k v
    obtain ⟨b, eb, pb⟩ := addInterSeg_total_pt h2 t htt orc' wf_nil hm.wf k' v
    rw [ea] at e1; rw [eb] at e2; cases e1; cases e2
    refine twin_pt hr id (noIdent_nil _) (noIdent_nil _) (fun _ => rfl) pa pb fun x a => ?_
    rw [twin_over (o₁ := o₁) (o₂ := o₂) ht (fun _ _ _ => rfl), twin_on hk fun _ _ => rfl]
  | false =>
    obtain ⟨a, ea, pa⟩ := addInterSeg_pt h1 t htt orc wf_nil hl.wf k v
    obtain ⟨b, eb, pb⟩ := addInterSeg_pt h2 t htt orc' wf_nil hm.wf k' v
    rw [ea] at e1; rw [eb] at e2; cases e1; cases e2
    refine twin_pt hr id (noIdent_nil _) (noIdent_nil _) (fun _ => rfl) pa pb (twin_on hk fun x a => ?_)
    rw [ht x]

theorem twin_addInterItv {orc orc'} (e1 : addInterItv o₁ t orc [] l k = some l')
    (e2 : addInterItv o₂ t orc' [] m k' = some m') : TwinVals o₁ o₂ l' m' := by
  obtain ⟨a, ea, pa⟩ := addInterItv_pt h1 t orc wf_nil hl.wf k
  obtain ⟨b, eb, pb⟩ := addInterItv_pt h2 t orc' wf_nil hm.wf k'
  rw [ea] at e1; rw [eb] at e2; cases e1; cases e2
  exact twin_pt hr id (noIdent_nil _) (noIdent_nil _) (fun _ => rfl) pa pb
    (twin_on hk (twin_over ht fun _ _ _ => rfl))

theorem twin_flipSeg {orc orc'} (hp : o₁.isEmpty k = false ∨ t.cfg.total = true ∨ l = [])
    (e1 : flipSeg o₁ t orc l k v = some l')
    (e2 : flipSeg o₂ t orc' m k' v = some m') : TwinVals o₁ o₂ l' m' := by
  have hke := same_isEmpty h1 h2 hk
  cases htt : t.cfg.total with
  | true =>
    obtain ⟨a, ea, pa⟩ := flipSeg_total_pt h1 t htt orc hl.wf k v
    obtain ⟨b, eb, pb⟩ := flipSeg_total_pt h2 t htt orc' hm.wf k' v
    rw [ea] at e1; rw [eb] at e2; cases e1; cases e2
    refine twin_pt hr id (hl.noIdent hr) (hm.noIdent hr) ht pa pb fun x a => ?_
    rw [twin_on hk fun _ _ => rfl]
  | false =>
    cases he : o₁.isEmpty k with
    | false =>
      obtain ⟨a, ea, pa⟩ := flipSeg_pt h1 t htt orc hl.wf ((nonempty_iff h1).2 he) v
      obtain ⟨b, eb, pb⟩ := flipSeg_pt h2 t htt orc' hm.wf ((nonempty_iff h2).2 (hke.symm.trans he)) v
      rw [ea] at e1; rw [eb] at e2; cases e1; cases e2
      exact twin_pt hr id (hl.noIdent hr) (hm.noIdent hr) ht pa pb (twin_on hk fun _ _ => rfl)
    | true =>
      rcases hp with hp | hp | rfl
      · rw [he] at hp; cases hp
      · rw [htt] at hp; cases hp
      · obtain rfl := (twinVals_nil_iff hl.wf hm.wf ht).1 rfl
        rw [flipSeg_nil h1 t htt orc he v] at e1
        rw [flipSeg_nil h2 t htt orc' (hke.symm.trans he) v] at e2
        cases e1; cases e2; exact fun _ => rfl

end

/-- One operation. -/
theorem twin_mrun {E₁ : Option (ElemFns D I)} {E₂ : Option (ElemFns D J)} (h1 : SetClass o₁ E₁) (h2 : SetClass o₂ E₂)
    {t : MapType V} (hr : Regular t) {l : List (I × V)} {m : List (J × V)} (hl : MGood o₁ t l) (hm : MGood o₂ t m)
    (hs : TwinMapSegments o₁ o₂ l m) {c : MapOp D I V} {c' : MapOp D J V} (hc : SameMapCall o₁ o₂ c c')
    (p1 : c.Pre o₁ E₁ t l) (p2 : c'.Pre o₂ E₂ t m)
    {l' : List (I × V)} {m' : List (J × V)} (e1 : c.run o₁ E₁ t l = some l') (e2 : c'.run o₂ E₂ t m = some m') :
    TwinVals o₁ o₂ l' m' := by
  have ht := twinVals_of_segments hs
  have L1 := h1.cls.lawful
  have L2 := h2.cls.lawful
  have hel : ∀ x, HasElem o₁ E₁ x → HasElem o₂ E₂ x → ∃ f f', E₁ = some f ∧ E₂ = some f' ∧
      SameItv o₁ o₂ (f.sing x) (f'.sing x) ∧ o₁.isEmpty (f.sing x) = false := by
    rintro x ⟨f, hf, a, b⟩ ⟨f', hf', a', b'⟩
    exact ⟨f, f', hf, hf', twin_sing h1 h2 hf hf' a a', a⟩
  cases hc with
  | add v hk => exact twin_addSeg L1 L2 hr hl hm ht hk v e1 e2
  | addHint n n' v hk => exact twin_addHint L1 L2 hr hl hm ht hk v e1 e2
  | subtract v hk => exact twin_subSeg L1 L2 hr hl hm ht hk v e1 e2
  | insert v hk => exact twin_insert L1 L2 hr hl hm ht hk v e1 e2
  | insertHint n n' b b' v hk => exact twin_insertHint L1 L2 hr hl hm ht hk v e1 e2
  | set v hk => exact twin_setAt L1 L2 hr hl hm ht hk v e1 e2
  | erase v hk => exact twin_eraseSeg L1 L2 hr hl hm ht hk v e1 e2
  | eraseKeys hk => exact twin_eraseItv L1 L2 hr hl hm ht hk e1 e2
  | inter orc orc' v hk => exact twin_addInterSeg L1 L2 hr hl hm ht hk v e1 e2
  | interKeys orc orc' hk => exact twin_addInterItv L1 L2 hr hl hm ht hk e1 e2
  | flip orc orc' v hk => exact twin_flipSeg L1 L2 hr hl hm ht hk v p1 e1 e2
  | addE x v =>
    obtain ⟨f, f', rfl, rfl, hk, _⟩ := hel x p1 p2
    exact twin_addSeg L1 L2 hr hl hm ht hk v e1 e2
  | subE x v =>
    obtain ⟨f, f', rfl, rfl, hk, _⟩ := hel x p1 p2
    exact twin_subSeg L1 L2 hr hl hm ht hk v e1 e2
  | insertE x v =>
    obtain ⟨f, f', rfl, rfl, hk, _⟩ := hel x p1 p2
    exact twin_insert L1 L2 hr hl hm ht hk v e1 e2
  | setE x v =>
    obtain ⟨f, f', rfl, rfl, hk, _⟩ := hel x p1 p2
    exact twin_setAt L1 L2 hr hl hm ht hk v e1 e2
  | eraseE x v =>
    obtain ⟨f, f', rfl, rfl, hk, _⟩ := hel x p1 p2
    exact twin_eraseSeg L1 L2 hr hl hm ht hk v e1 e2
  | eraseKey x =>
    obtain ⟨f, f', rfl, rfl, hk, _⟩ := hel x p1 p2
    exact twin_eraseItv L1 L2 hr hl hm ht hk e1 e2
  | interE orc orc' x v =>
    obtain ⟨f, f', rfl, rfl, hk, _⟩ := hel x p1 p2
    exact twin_addInterSeg L1 L2 hr hl hm ht hk v e1 e2
  | interKey x =>
    obtain ⟨f, rfl, a1, a2⟩ := p1
    obtain ⟨f', rfl, b1, b2⟩ := p2
    have hk := twin_sing h1 h2 rfl rfl a1 b1
    obtain ⟨a, ea, pa⟩ := addInterKey_pt L1 t f.sing f.lookup (m := l) wf_nil x
      (fun y => by rw [Bool.eq_iff_iff, decide_eq_true_iff]; exact (h1.elem f rfl).1.mem a1 y)
      (findE_valueAt L1 (h1.elem f rfl).2 hl.wf a2)
    obtain ⟨b, eb, pb⟩ := addInterKey_pt L2 t f'.sing f'.lookup (m := m) wf_nil x
      (fun y => by rw [Bool.eq_iff_iff, decide_eq_true_iff]; exact (h2.elem f' rfl).1.mem b1 y)
      (findE_valueAt L2 (h2.elem f' rfl).2 hm.wf b2)
    have ea' : (MapOp.interKey x : MapOp D I V).run o₁ (some f) t l = some a := ea
    have eb' : (MapOp.interKey x : MapOp D J V).run o₂ (some f') t m = some b := eb
    rw [ea'] at e1; rw [eb'] at e2; cases e1; cases e2
    exact twin_pt hr id (noIdent_nil _) (noIdent_nil _) (fun _ => rfl) pa pb
      (twin_on hk (twin_over ht fun _ _ _ => rfl))
  | flipE orc orc' x v =>
    obtain ⟨f, f', rfl, rfl, hk, hx⟩ := hel x p1 p2
    exact twin_flipSeg L1 L2 hr hl hm ht hk v (.inl hx) e1 e2
  | clear => cases e1; cases e2; exact fun _ => rfl
  | eraseRange i j =>
    cases e1; cases e2
    exact twinVals_of_segments (List.rel_append (List.forall₂_take i hs) (List.forall₂_drop (max i j) hs))
  | eraseIf p q hpq =>
    cases e1; cases e2
    apply twinVals_of_segments
    unfold IMap.eraseIf TwinMapSegments
    unfold TwinMapSegments at hs
    clear hl hm ht p1 p2
    induction hs with
    | nil => exact .nil
    | @cons a b _ _ hab _ ih =>
      have e : p a = q b := by
        have := hpq a.1 b.1 a.2 hab.1
        rw [show b = (b.1, a.2) by rw [hab.2]]; exact this
      rw [List.filter_cons, List.filter_cons, e]
      cases q b
      · exact .cons hab ih
      · exact ih
  | join =>
    obtain ⟨a, ea, wa, va, ja⟩ := joinAll_spec L1 mapSeg_lawful hl.wf
    obtain ⟨b, eb, wb, vb, jb⟩ := joinAll_spec L2 mapSeg_lawful hm.wf
    simp only [MapOp.run, ea, eb] at e1 e2; cases e1; cases e2
    intro x
    apply Option.ext
    intro v
    rw [valueAt_some wa, valueAt_some wb, va, vb, twinVals_maps hl.wf hm.wf ht]
  | absorbIdentities =>
    obtain ⟨_, _, a⟩ := absorbIdentities_spec L1 t hl.wf
    obtain ⟨_, _, b⟩ := absorbIdentities_spec L2 t hm.wf
    cases e1; cases e2
    exact fun x => by rw [a, b, ht x]

/-- One operation with a map operand. -/
theorem twin_mrun2 (h1 : o₁.Lawful) (h2 : o₂.Lawful) {t : MapType V} (hr : Regular t) {l r : List (I × V)}
    {m s : List (J × V)} (hl : MGood o₁ t l) (hm : MGood o₂ t m) (wr : WF o₁ mapSeg r) (ws : WF o₂ mapSeg s)
    (ht : TwinVals o₁ o₂ l m) (hs : TwinVals o₁ o₂ r s) {c : MapOp2 I V} {c' : MapOp2 J V} (hc : SameMapCall2 c c')
    {l' : List (I × V)} {m' : List (J × V)} (e1 : c.run o₁ t l r = some l') (e2 : c'.run o₂ t m s = some m') :
    TwinVals o₁ o₂ l' m' := by
  have nl := hl.noIdent hr
  have nm := hm.noIdent hr
  cases hc with
  | add orc orc' =>
    obtain ⟨a, ea, pa⟩ := addMap_pt h1 t orc hl.wf wr
    obtain ⟨b, eb, pb⟩ := addMap_pt h2 t orc' hm.wf ws
    simp only [MapOp2.run, ea, eb] at e1 e2; cases e1; cases e2
    exact twin_pt hr id nl nm ht pa pb (twin_over hs fun _ _ _ => rfl)
  | sub =>
    obtain ⟨a, ea, pa⟩ := subMap_pt h1 t hl.wf wr
    obtain ⟨b, eb, pb⟩ := subMap_pt h2 t hm.wf ws
    simp only [MapOp2.run, ea, eb] at e1 e2; cases e1; cases e2
    exact twin_pt hr id nl nm ht pa pb (twin_over hs fun _ _ _ => rfl)
  | insert orc orc' =>
    obtain ⟨a, ea, pa⟩ := insertMap_pt h1 t orc hl.wf wr
    obtain ⟨b, eb, pb⟩ := insertMap_pt h2 t orc' hm.wf ws
    simp only [MapOp2.run, ea, eb] at e1 e2; cases e1; cases e2
    exact twin_pt hr (fun _ => trivial) nl nm ht pa pb (twin_over hs fun _ _ _ => rfl)
  | erase =>
    obtain ⟨a, ea, pa⟩ := eraseMap_pt h1 t hl.wf wr
    obtain ⟨b, eb, pb⟩ := eraseMap_pt h2 t hm.wf ws
    simp only [MapOp2.run, ea, eb] at e1 e2; cases e1; cases e2
    exact twin_pt hr (fun _ => trivial) nl nm ht pa pb (twin_over hs fun _ _ _ => rfl)
  | inter orc orc' =>
    cases htt : t.cfg.total with
    | true =>
      obtain ⟨a, ea, pa⟩ := addInterMap_total_pt h1 t htt orc wf_nil hl.wf wr
      obtain ⟨b, eb, pb⟩ := addInterMap_total_pt h2 t htt orc' wf_nil hm.wf ws
      simp only [MapOp2.run, ea, eb] at e1 e2; cases e1; cases e2
      refine twin_pt hr id (noIdent_nil _) (noIdent_nil _) (fun _ => rfl) pa pb fun x a => ?_
      rw [twin_over (o₁ := o₁) (o₂ := o₂) ht (fun _ _ _ => rfl), twin_over (o₁ := o₁) (o₂ := o₂) hs (fun _ _ _ => rfl)]
    | false =>
      obtain ⟨a, ea, pa⟩ := addInterMap_pt h1 t htt orc wf_nil hl.wf wr
      obtain ⟨b, eb, pb⟩ := addInterMap_pt h2 t htt orc' wf_nil hm.wf ws
      simp only [MapOp2.run, ea, eb] at e1 e2; cases e1; cases e2
      exact twin_pt hr id (noIdent_nil _) (noIdent_nil _) (fun _ => rfl) pa pb
        (twin_over hs fun x w a => by rw [ht x])
  | flip orc orc' =>
    cases htt : t.cfg.total with
    | true =>
      obtain ⟨a, ea, pa⟩ := flipMap_total_pt h1 t htt orc hl.wf wr
      obtain ⟨b, eb, pb⟩ := flipMap_total_pt h2 t htt orc' hm.wf ws
      simp only [MapOp2.run, ea, eb] at e1 e2; cases e1; cases e2
      refine twin_pt hr id nl nm ht pa pb fun x a => ?_
      rw [twin_over (o₁ := o₁) (o₂ := o₂) hs (fun _ _ _ => rfl)]
    | false =>
      obtain ⟨a, ea, pa⟩ := flipMap_pt h1 t htt orc hl.wf wr
      obtain ⟨b, eb, pb⟩ := flipMap_pt h2 t htt orc' hm.wf ws
      simp only [MapOp2.run, ea, eb] at e1 e2; cases e1; cases e2
      exact twin_pt hr id nl nm ht pa pb (twin_over hs fun _ _ _ => rfl)

/-- One operation with a set operand. -/
theorem twin_mrun3 (h1 : o₁.Lawful) (h2 : o₂.Lawful) {t : MapType V} (hr : Regular t) {l : List (I × V)}
    {m : List (J × V)} {r : List I} {s : List J} (hl : MGood o₁ t l) (hm : MGood o₂ t m) (wr : WF o₁ setSeg r)
    (ws : WF o₂ setSeg s) (ht : TwinVals o₁ o₂ l m) (hs : TwinSegments o₁ o₂ r s) {c : MapOp3 I V} {c' : MapOp3 J V}
    (hc : SameMapCall3 c c')
    {l' : List (I × V)} {m' : List (J × V)} (e1 : c.run o₁ t l r = some l') (e2 : c'.run o₂ t m s = some m') :
    TwinVals o₁ o₂ l' m' := by
  cases hc with
  | erase =>
    obtain ⟨a, ea, pa⟩ := eraseSet_pt h1 t.cfg hl.wf wr
    obtain ⟨b, eb, pb⟩ := eraseSet_pt h2 t.cfg hm.wf ws
    simp only [MapOp3.run, ea, eb] at e1 e2; cases e1; cases e2
    exact twin_pt hr (fun _ => trivial) (hl.noIdent hr) (hm.noIdent hr) ht pa pb
      (twin_over (twin_unitMap hs) fun _ _ _ => rfl)
  | inter orc orc' =>
    obtain ⟨a, ea, pa⟩ := addInterSet_pt h1 t orc wf_nil hl.wf wr
    obtain ⟨b, eb, pb⟩ := addInterSet_pt h2 t orc' wf_nil hm.wf ws
    simp only [MapOp3.run, ea, eb] at e1 e2; cases e1; cases e2
    exact twin_pt hr id (noIdent_nil _) (noIdent_nil _) (fun _ => rfl) pa pb
      (twin_over (twin_unitMap hs) fun _ _ a => twin_over ht (fun _ _ _ => rfl) _ a)

end ICL
