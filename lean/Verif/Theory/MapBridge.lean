import Verif.Theory.MapHistory
import Verif.Theory.SpecBridge
import Verif.Model.Functors

/-!
# From the functions of the proofs to the specification vocabulary for interval maps
-/

set_option linter.unusedSectionVars false
set_option linter.unusedVariables false

namespace ICL
open Spec IMap

variable {D I V : Type} [LinearOrder D] {o : IntervalOps D I} [DecidableEq V]

theorem absorbable_iff {t : MapType V} {v : V} : absorbable t.cfg v = true ↔ Ignored t v := by
  simp [absorbable, Ignored]

theorem absorbable_false_iff {t : MapType V} {v : V} : absorbable t.cfg v = false ↔ ¬ Ignored t v := by
  rw [← absorbable_iff]; simp

theorem stored_eq (t : MapType V) (v : V) : stored t v = keep t.cfg v := by
  unfold stored keep; simp only [absorbable_iff]

theorem combined_eq (t : MapType V) (f : Combiner V) (v : V) (a : Option V) :
    combined t f v a = addF t.cfg f v a := by
  cases a <;> simp only [combined, addF, absorbable_iff, stored_eq]

theorem added_eq (t : MapType V) (v : V) (a : Option V) : added t v a = addF t.cfg t.plus v a :=
  combined_eq t t.plus v a

theorem subtracted_eq (t : MapType V) (v : V) (a : Option V) : subtracted t v a = subV t v a := by
  unfold subV
  cases a with
  | none =>
    simp only [subtracted, combined_eq, Bool.and_eq_true]
    split
    · rfl
    · simp [subF]
  | some u =>
    simp only [subtracted, combined_eq, addF, subF, Option.bind_some, ite_self]

theorem inserted_eq (t : MapType V) (v : V) (a : Option V) : inserted t v a = insF t.cfg v a := by
  cases a <;> simp [inserted, insF, stored_eq]

theorem erased_eq (t : MapType V) (v : V) (a : Option V) : erased t v a = eraF t.cfg v a := by
  cases a with
  | none => simp [erased, eraF]
  | some u => simp only [erased, eraF, absorbable_iff, Option.some.injEq]

theorem sectioned_eq (t : MapType V) (u v : V) : sectioned t u v = interF t v (some u) none := by
  simp only [sectioned, interF, combined_eq]

theorem flipped_eq {t : MapType V} (hn : Neutral t) (u v : V) : flipped t u v = flipF t v (some u) := by
  have e : (if t.setLike = true then t.unsect v u else t.cfg.ident) = flipValue t v u := by
    unfold flipValue; rfl
  simp only [flipped, flipF, e, addF, absorbable_iff]
  by_cases ha : Ignored t (flipValue t v u)
  · simp [ha]
  · have hb : ¬ Ignored t (t.plus.version (flipValue t v u)) := fun hb =>
      hn.plus_ne _ (fun hc => ha ⟨hb.1, hc⟩) hb.2
    simp [ha, hb]

theorem noIdentity_iff {t : MapType V} {m : List (I × V)} : NoIdentity t m ↔ NoIdent t.cfg m := by
  unfold NoIdentity NoIdent
  simp only [absorbable_false_iff]

theorem valueAt_assoc {m : List (I × V)} (hm : MapWellFormed o m) (x : D) (v : V) :
    valueAt o m x = some v ↔ Assoc o m x v := by
  rw [valueAt_some (mapWellFormed_iff.1 hm)]; exact Iff.rfl

theorem valueAt_key {m : List (I × V)} (hm : MapWellFormed o m) (x : D) :
    valueAt o m x ≠ none ↔ Key o m x := by
  rw [Option.ne_none_iff_exists']
  constructor
  · rintro ⟨v, hv⟩
    obtain ⟨s, hs, hx, _⟩ := (valueAt_assoc hm x v).1 hv
    exact ⟨s, hs, hx⟩
  · rintro ⟨s, hs, hx⟩
    exact ⟨s.2, (valueAt_assoc hm x s.2).2 ⟨s, hs, hx, rfl⟩⟩

theorem on_split {k : I} {f : D → Option V → Option V} {a b : D → Option V}
    (hh : ∀ x, a x = on o k f x (b x)) :
    (∀ x, In o x k → a x = f x (b x)) ∧ ∀ x, ¬ In o x k → a x = b x := by
  refine ⟨fun x hx => ?_, fun x hx => ?_⟩ <;> rw [hh x] <;> unfold on In at *
  · simp [hx]
  · rw [Bool.not_eq_true] at hx; simp [hx]

theorem over_split {W : Type} {r : List (I × W)} {f : D → W → Option V → Option V} {a b : D → Option V}
    (hh : ∀ x, a x = over o r f x (b x)) :
    (∀ x v, valueAt o r x = some v → a x = f x v (b x)) ∧ ∀ x, valueAt o r x = none → a x = b x := by
  refine ⟨fun x v hx => ?_, fun x hx => ?_⟩ <;> rw [hh x] <;> simp [over, hx]

theorem unitMap_at {r : List I} (hr : WF o setSeg r) (x : D) :
    (Elem o r x → valueAt o (unitMap r) x = some ()) ∧ (¬ Elem o r x → valueAt o (unitMap r) x = none) := by
  have hw := wf_unitMap.2 hr
  have hd : valueAt o (unitMap r) x = none ↔ ¬ Elem o r x := by
    rw [valueAt_none, dom_unitMap]; exact Iff.rfl
  refine ⟨fun he => ?_, fun he => hd.2 he⟩
  cases hv : valueAt o (unitMap r) x with
  | none => exact absurd he (hd.1 hv)
  | some u => rfl

/-! ## Loops that need no conditions -/

/-- The configuration of the enricher. -/
abbrev MapCfg.enriched (c : MapCfg V) : MapCfg V := { c with absorbs := false }

theorem pt_enriched {c : MapCfg V} {l l' : List (I × V)} {φ : D → Option V → Option V} (hw : WF o mapSeg l')
    (hj : c.joining = true → Joined o mapSeg l → Joined o mapSeg l')
    (hv : ∀ x, valueAt o l' x = φ x (valueAt o l x)) : Pt o c.enriched True l l' φ :=
  ⟨hw, hj, fun _ _ => hv, fun _ _ => noIdent_of_enricher rfl _⟩

theorem Pt.enriched_at {c : MapCfg V} {l l' : List (I × V)} {φ : D → Option V → Option V}
    (hp : Pt o c.enriched True l l' φ) (x : D) : valueAt o l' x = φ x (valueAt o l x) :=
  hp.at_ trivial (noIdent_of_enricher rfl _) x

section
variable (h : o.Lawful)
include h

theorem subSeg_at (t : MapType V) {l : List (I × V)} (hl : WF o mapSeg l) (k : I) (v : V) :
    ∃ l', subSeg o t l k v = some l' ∧ WF o mapSeg l' ∧
      (t.cfg.joining = true → Joined o mapSeg l → Joined o mapSeg l') ∧
      ∀ x, valueAt o l' x = on o k (fun _ => subV t v) x (valueAt o l x) := by
  unfold subSeg
  unfold subV
  cases hc : t.cfg.total && t.invertible with
  | true => simpa using addC_at h t.cfg t.minus hl k v
  | false => simpa using subC_at h t.cfg t.minus hl k v

theorem subMap_at (t : MapType V) {l r : List (I × V)} (hl : WF o mapSeg l) (hr : WF o mapSeg r) :
    ∃ l', subMap o t l r = some l' ∧ Pt o t.cfg.enriched True l l' (over o r fun _ => subV t) :=
  forEach_pt (ψ := fun _ => subV t) hr (fun l hl s _ => by
    obtain ⟨l', e, w, j, a⟩ := subSeg_at h t hl s.1 s.2
    exact ⟨l', e, pt_enriched w j a⟩) hl

theorem insertMap_at (t : MapType V) (oracle : List (I × V) → I → Nat) {l r : List (I × V)} (hl : WF o mapSeg l)
    (hr : WF o mapSeg r) : ∃ l', insertMap o t oracle l r = some l' ∧
      Pt o t.cfg.enriched True l l' (over o r fun _ => insF t.cfg) :=
  forEach_pt (ψ := fun _ => insF t.cfg) hr (fun l hl s _ => by
    obtain ⟨l', e, w, j, a⟩ := insertHint_at h t.cfg (oracle l s.1) false hl s.1 s.2
    exact ⟨l', e, pt_enriched w j a⟩) hl

theorem eraseMap_at (t : MapType V) {l r : List (I × V)} (hl : WF o mapSeg l) (hr : WF o mapSeg r) :
    ∃ l', eraseMap o t l r = some l' ∧ Pt o t.cfg.enriched True l l' (over o r fun _ => eraF t.cfg) := by
  obtain ⟨res, e, h1, h2⟩ := commonRange_map h hr hl
  unfold eraseMap
  simp only [e, Option.bind_eq_bind, Option.bind_some]
  have hnone : ∀ v, eraF t.cfg v none = none := by intro v; simp [eraF]
  cases res with
  | none =>
    refine ⟨l, rfl, pt_enriched hl (fun _ hj => hj) fun x => ?_⟩
    unfold over
    rcases h1 rfl x with hx | hx
    · rw [hx]; cases valueAt o r x <;> simp [hnone]
    · simp [hx]
  | some p =>
    obtain ⟨p, c, q⟩ := p
    obtain ⟨hrr, _, wc, _, h3, _⟩ := h2 p c q rfl
    obtain ⟨l', e', pt⟩ := forEach_pt (c := t.cfg.enriched) (N := True)
      (f := fun m (s : I × V) => eraseSeg o t.cfg m s.1 s.2)
      (ψ := fun _ => eraF t.cfg) wc (fun l hl s _ => by
        obtain ⟨l', e, w, j, a⟩ := eraseSeg_at h t.cfg hl s.1 s.2
        exact ⟨l', e, pt_enriched w (fun _ => j) a⟩) hl
    refine ⟨l', e', pt.congr fun _ _ x => ?_⟩
    unfold over
    rcases h3 x with hx | hx
    · rw [hx]; cases valueAt o r x <;> cases valueAt o c x <;> simp [hnone]
    · rw [hx]

theorem eraseSet_at (c : MapCfg V) {l : List (I × V)} {r : List I} (hl : WF o mapSeg l) (hr : WF o setSeg r) :
    ∃ l', eraseSet o l r = some l' ∧ WF o mapSeg l' ∧ (Joined o mapSeg l → Joined o mapSeg l') ∧
      (∀ x, Elem o r x → valueAt o l' x = none) ∧ ∀ x, ¬ Elem o r x → valueAt o l' x = valueAt o l x := by
  obtain ⟨l', e, p⟩ := eraseSet_pt h ({ joining := true, absorbs := false, total := false, ident := c.ident })
    hl hr
  refine ⟨l', e, p.wf, p.joined rfl, ?_⟩
  have ha := p.at_ trivial (noIdent_of_enricher rfl _)
  obtain ⟨h1, h2⟩ := over_split ha
  exact ⟨fun x hx => h1 x () ((unitMap_at hr x).1 hx), fun x hx => h2 x ((unitMap_at hr x).2 hx)⟩

end
end ICL
