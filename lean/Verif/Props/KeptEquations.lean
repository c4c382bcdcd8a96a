import Verif.KeepSpec
import Verif.Props.ElementEquations

/-!
# C72: which equations hold with `==` for maps that keep identity elements

C67 and C70 say which equations such maps obey with `is_distinct_equal`. With `==` the keys matter as well.
-/

set_option linter.unusedSectionVars false

namespace ICL.Props
open Spec IMap

variable {D I V ν : Type} [LinearOrder D] {o : IntervalOps D I} [DecidableEq I] [DecidableEq V]

/-- The operators of the map type `t` act on one key as `G` says. -/
structure KeyActs (t : MapType V) (G : PointOps (Option V)) : Prop where
  keeps : t.cfg.absorbs = false
  add : ∀ a b, pAdd t a b = G.add a b
  sub : ∀ a b, pSub t a b = G.sub a b
  inter : ∀ a b, pInter t a b = G.inter a b
  flip : ∀ a b, pFlip t a b = G.flip a b

theorem kept_value (h : IntervalClass o) {t : MapType V} (hN : Neutral t) (hO : OrderFree t) {G : PointOps (Option V)}
    (hG : KeyActs t G) {oracle : List (I × V) → I → Nat} {σ : ν → List (I × V)} (hσ : ∀ n, MapValue o t (σ n))
    (p : Term ν) : ∃ m, (p.ofMaps σ).eval o t oracle = some m ∧ MV o t m ∧
      ∀ x, valueAt o m x = p.value G fun n => valueAt o (σ n) x := by
  induction p with
  | var b n => exact ⟨σ n, rfl, (mapValue_iff h).1 (hσ n), fun x => rfl⟩
  | add p q ihp ihq =>
    obtain ⟨a, e1, h1, v1⟩ := ihp
    obtain ⟨b, e2, h2, v2⟩ := ihq
    obtain ⟨m, em, hm⟩ := meval_add h.lawful hN (fun _ _ => pAdd_comm hO) h1 h2 e1 e2
    exact ⟨m, em, hm.good, fun x => by rw [hm.val, hG.add, v1, v2]; rfl⟩
  | sub p q ihp ihq =>
    obtain ⟨a, e1, h1, v1⟩ := ihp
    obtain ⟨b, e2, h2, v2⟩ := ihq
    obtain ⟨m, em, hm⟩ := meval_sub h.lawful hN.toVersions h1 h2 e1 e2
    exact ⟨m, em, hm.good, fun x => by rw [hm.val, hG.sub, v1, v2]; rfl⟩
  | inter p q ihp ihq =>
    obtain ⟨a, e1, h1, v1⟩ := ihp
    obtain ⟨b, e2, h2, v2⟩ := ihq
    obtain ⟨m, em, hm⟩ := meval_inter h.lawful hN (fun _ _ => pInter_comm hO) h1 h2 e1 e2
    exact ⟨m, em, hm.good, fun x => by rw [hm.val, hG.inter, v1, v2]; rfl⟩
  | flip p q ihp ihq =>
    obtain ⟨a, e1, h1, v1⟩ := ihp
    obtain ⟨b, e2, h2, v2⟩ := ihq
    obtain ⟨m, em, hm⟩ := mexpr_flip h.lawful hN hO h1 h2 e1 e2
    exact ⟨m, em, hm.good, fun x => by rw [hm.val, hG.flip, v1, v2]; rfl⟩

theorem ekept_value {t : MapType V} (hN : Neutral t) (hM : MonoidValues t) (hO : OrderFree t)
    {G : PointOps (Option V)} (hG : KeyActs t G) {σ : ν → List (D × V)} (hσ : ∀ n, EMapValue t (σ n)) (p : Term ν) :
    EV t ((p.ofElements σ).evalMap t) ∧
      ∀ x, valueOf ((p.ofElements σ).evalMap t) x = p.value G fun n => valueOf (σ n) x := by
  induction p with
  | var m n => exact ⟨emapValue_iff.1 (hσ n), fun x => rfl⟩
  | add p q ihp ihq =>
    obtain ⟨h1, h2⟩ := EV.add hN ihp.1 ihq.1
    exact ⟨h1, fun x => by
      simp only [Term.ofElements, ElemExpr.evalMap, Term.value]; rw [h2, hG.add, ihp.2, ihq.2]⟩
  | sub p q ihp ihq =>
    obtain ⟨h1, h2⟩ := EV.sub hN.toVersions ihp.1 ihq.1
    exact ⟨h1, fun x => by
      simp only [Term.ofElements, ElemExpr.evalMap, Term.value]; rw [h2, hG.sub, ihp.2, ihq.2]⟩
  | inter p q ihp ihq =>
    obtain ⟨h1, h2⟩ := EV.inter hN hM ihp.1 ihq.1
    exact ⟨h1, fun x => by
      simp only [Term.ofElements, ElemExpr.evalMap, Term.value]; rw [h2, hG.inter, ihp.2, ihq.2]⟩
  | flip p q ihp ihq =>
    have key : EV t (EMap.flipMap t ((p.ofElements σ).evalMap t) ((q.ofElements σ).evalMap t)) ∧
        ∀ x, valueOf (EMap.flipMap t ((p.ofElements σ).evalMap t) ((q.ofElements σ).evalMap t)) x =
          pFlip t (valueOf ((p.ofElements σ).evalMap t) x) (valueOf ((q.ofElements σ).evalMap t) x) := by
      cases ht : t.cfg.total with
      | false =>
        obtain ⟨h1, h2⟩ := EV.flip ht ihp.1 ihq.1
        exact ⟨h1, fun x => by rw [h2, eFlip_eq ht hO (ihp.1.norm x) (ihq.1.norm x)]⟩
      | true =>
        obtain ⟨h1, h2⟩ := EMap.flipMap_total ht hG.keeps ihq.1.asc ihp.1.asc
        refine ⟨⟨h1, fun s _ hi => by simp [Ignored, hG.keeps] at hi⟩, fun x => ?_⟩
        rw [h2]
        unfold pFlip flipTotalF
        rw [if_pos ht, hG.keeps, add_enricher hM hG.keeps]
        cases valueOf ((p.ofElements σ).evalMap t) x <;> cases valueOf ((q.ofElements σ).evalMap t) x <;> rfl
    exact ⟨key.1, fun x => by
      simp only [Term.ofElements, ElemExpr.evalMap, Term.value]; rw [key.2, hG.flip, ihp.2, ihq.2]⟩

/-- For any optional values there are maps that have them at a key. -/
theorem kept_witness {t : MapType V} (ha : t.cfg.absorbs = false) {k : I} {x : D} (hx : In o x k) (b : ν → Option V) :
    ∃ σ : ν → List (I × V), (∀ n, MapValue o t (σ n)) ∧ ∀ n, valueAt o (σ n) x = b n := by
  refine ⟨fun n => match b n with | none => [] | some v => [(k, v)], fun n => ?_, fun n => ?_⟩
  · cases hb : b n with
    | none =>
      simp only [hb]
      refine ⟨⟨by simp, by simp⟩, fun _ p i j q he => ?_, by simp [NoIdentity]⟩
      have := congrArg List.length he
      simp only [List.length_append, List.length_cons, List.length_nil] at this
      omega
    | some v =>
      simp only [hb]
      refine ⟨⟨by simpa using ⟨x, hx⟩, by simp⟩, fun _ p i j q he => ?_, by simp [NoIdentity, Ignored, ha]⟩
      have := congrArg List.length he
      simp only [List.length_append, List.length_cons, List.length_nil] at this
      omega
  · cases hb : b n with
    | none => simp only [hb]; rfl
    | some v =>
      simp only [hb]
      have hw : MapWellFormed o [(k, v)] := ⟨by simpa using ⟨x, hx⟩, by simp⟩
      exact (valueAt_assoc hw _ _).2 ⟨(k, v), by simp, hx, rfl⟩

theorem ekept_witness {t : MapType V} (ha : t.cfg.absorbs = false) (x : D) (b : ν → Option V) :
    ∃ σ : ν → List (D × V), (∀ n, EMapValue t (σ n)) ∧ ∀ n, valueOf (σ n) x = b n := by
  refine ⟨fun n => match b n with | none => [] | some v => [(x, v)], fun n => ?_, fun n => ?_⟩
  · cases hb : b n <;> simp [hb, EMapValue, Ascending, NoIdentity, Ignored, ha]
  · cases hb : b n with
    | none => simp only [hb]; rfl
    | some v => simp only [hb]; exact (valueOf_eq_some (by simp [Ascending])).2 (by simp)

theorem kept_law (h : IntervalClass o) {t : MapType V} (hN : Neutral t) (hO : OrderFree t) {G : PointOps (Option V)}
    (hG : KeyActs t G) (hj : t.cfg.joining = true) {k : I} (hk : ∃ x, In o x k) (oracle : List (I × V) → I → Nat)
    (p q : Term ν) :
    (∀ σ : ν → List (I × V), (∀ n, MapValue o t (σ n)) → MapLexEq o t oracle (p.ofMaps σ) (q.ofMaps σ)) ↔
      ∀ b : ν → Option V, p.value G b = q.value G b := by
  have lex : ∀ {m n : List (I × V)}, MV o t m → MV o t n →
      (eqC o mapSeg m n = true ↔ ∀ x, valueAt o m x = valueAt o n x) := by
    intro m n gm gn
    rw [eqC_joined h.lawful gm.wf gn.wf (gm.joined hj) (gn.joined hj)]
    refine forall_congr' fun x => ?_
    simp only [← valueAt_some gm.wf, ← valueAt_some gn.wf]
    exact ⟨fun he => Option.ext he, fun he v => by rw [he]⟩
  constructor
  · intro he b
    obtain ⟨x, hx⟩ := hk
    obtain ⟨σ, h1, h2⟩ := kept_witness (t := t) hG.keeps hx b
    obtain ⟨m, n, e1, e2, hmn⟩ := he σ h1
    obtain ⟨m', e1', hm, vm⟩ := kept_value h hN hO hG (oracle := oracle) h1 p
    obtain ⟨n', e2', hn, vn⟩ := kept_value h hN hO hG (oracle := oracle) h1 q
    rw [e1] at e1'; rw [e2] at e2'; cases e1'; cases e2'
    have := (lex hm hn).1 hmn x
    rw [vm, vn] at this
    simpa only [h2] using this
  · intro he σ h1
    obtain ⟨m, e1, hm, vm⟩ := kept_value h hN hO hG (oracle := oracle) h1 p
    obtain ⟨n, e2, hn, vn⟩ := kept_value h hN hO hG (oracle := oracle) h1 q
    exact ⟨m, n, e1, e2, (lex hm hn).2 fun x => by rw [vm, vn, he]⟩

theorem kept_law_elem (h : IntervalClass o) {t : MapType V} (hN : Neutral t) (hO : OrderFree t)
    {G : PointOps (Option V)} (hG : KeyActs t G) {k : I} (hk : ∃ x, In o x k) (oracle : List (I × V) → I → Nat)
    (p q : Term ν) :
    (∀ σ : ν → List (I × V), (∀ n, MapValue o t (σ n)) → MapElemEq o t oracle (p.ofMaps σ) (q.ofMaps σ)) ↔
      ∀ b : ν → Option V, p.value G b = q.value G b := by
  have lex : ∀ {m n : List (I × V)}, MV o t m → MV o t n →
      ((∀ x v, Assoc o m x v ↔ Assoc o n x v) ↔ ∀ x, valueAt o m x = valueAt o n x) := by
    intro m n gm gn
    refine forall_congr' fun x => ?_
    simp only [← valueAt_assoc ((mapValue_iff h).2 gm).1, ← valueAt_assoc ((mapValue_iff h).2 gn).1]
    exact ⟨fun he => Option.ext he, fun he v => by rw [he]⟩
  constructor
  · intro he b
    obtain ⟨x, hx⟩ := hk
    obtain ⟨σ, h1, h2⟩ := kept_witness (t := t) hG.keeps hx b
    obtain ⟨m, n, e1, e2, hmn⟩ := he σ h1
    obtain ⟨m', e1', hm, vm⟩ := kept_value h hN hO hG (oracle := oracle) h1 p
    obtain ⟨n', e2', hn, vn⟩ := kept_value h hN hO hG (oracle := oracle) h1 q
    rw [e1] at e1'; rw [e2] at e2'; cases e1'; cases e2'
    have := (lex hm hn).1 hmn x
    rw [vm, vn] at this
    simpa only [h2] using this
  · intro he σ h1
    obtain ⟨m, e1, hm, vm⟩ := kept_value h hN hO hG (oracle := oracle) h1 p
    obtain ⟨n, e2, hn, vn⟩ := kept_value h hN hO hG (oracle := oracle) h1 q
    exact ⟨m, n, e1, e2, (lex hm hn).2 fun x => by rw [vm, vn, he]⟩

theorem ekept_law [Nonempty D] {t : MapType V} (hN : Neutral t) (hM : MonoidValues t) (hO : OrderFree t)
    {G : PointOps (Option V)} (hG : KeyActs t G) (p q : Term ν) :
    (∀ σ : ν → List (D × V), (∀ n, EMapValue t (σ n)) →
        EMap.eq ((p.ofElements σ).evalMap t) ((q.ofElements σ).evalMap t) = true) ↔
      ∀ b : ν → Option V, p.value G b = q.value G b := by
  constructor
  · intro he b
    obtain ⟨x⟩ := ‹Nonempty D›
    obtain ⟨σ, h1, h2⟩ := ekept_witness (t := t) hG.keeps x b
    obtain ⟨hp, vp⟩ := ekept_value hN hM hO hG h1 p
    obtain ⟨hq, vq⟩ := ekept_value hN hM hO hG h1 q
    have := congrArg (fun m => valueOf m x) ((zip_all_eq _ _).1 (he σ h1))
    simp only [vp, vq] at this
    simpa only [h2] using this
  · intro he σ h1
    obtain ⟨hp, vp⟩ := ekept_value hN hM hO hG h1 p
    obtain ⟨hq, vq⟩ := ekept_value hN hM hO hG h1 q
    exact emap_eq (hp.ext hq fun x => by rw [vp, vq, he])

/-! ## The types of maps -/

theorem keptNumbers_acts {W : Type} [DecidableEq W] [AddCommGroup W] (joining signed : Bool) :
    KeyActs (.numeric (V := W) joining false false signed) PointOps.keptNumbers where
  keeps := rfl
  add a b := by
    rw [add_enricher (numeric_comm joining false false signed).toMonoidValues rfl]
    cases a <;> cases b <;> rfl
  sub a b := by
    cases a <;> cases b <;> rfl
  inter a b := by
    cases a <;> cases b <;> rfl
  flip a b := by
    cases a <;> cases b <;> rfl

theorem keptTotalNumbers_acts {W : Type} [DecidableEq W] [AddCommGroup W] (joining : Bool) :
    KeyActs (.numeric (V := W) joining false true true) PointOps.keptTotalNumbers where
  keeps := rfl
  add a b := by
    rw [add_enricher (numeric_comm joining false true true).toMonoidValues rfl]
    cases a <;> cases b <;> rfl
  sub a b := by
    cases a with
    | none =>
      cases b with
      | none => rfl
      | some v => exact congrArg some (zero_sub v)
    | some u =>
      cases b with
      | none => rfl
      | some v => exact congrArg some (sub_eq_add_neg u v)
  inter a b := by
    cases a <;> cases b <;> rfl
  flip a b := by
    cases a <;> cases b <;> rfl

theorem keptUnsigned_acts {W : Type} [DecidableEq W] [AddCommGroup W] (joining : Bool) :
    KeyActs (.numeric (V := W) joining false true false) PointOps.keptUnsigned where
  keeps := rfl
  add a b := by
    rw [add_enricher (numeric_comm joining false true false).toMonoidValues rfl]
    cases a <;> cases b <;> rfl
  sub a b := by
    cases a <;> cases b <;> rfl
  inter a b := by
    cases a <;> cases b <;> rfl
  flip a b := by
    cases a <;> cases b <;> rfl

theorem keptSets_acts {α : Type} [DecidableEq α] (joining : Bool) :
    KeyActs (.collector (α := α) joining false false) PointOps.keptSets where
  keeps := rfl
  add a b := by
    rw [add_enricher (collector_sets joining false false).comm.toMonoidValues rfl]
    cases a <;> cases b <;> rfl
  sub a b := by
    cases a <;> cases b <;> rfl
  inter a b := by
    rw [sets_inter (collector_sets (α := α) joining false false) rfl (norm_enricher rfl _) (norm_enricher rfl _)]
    cases a <;> cases b <;> rfl
  flip a b := by
    rw [sets_flip (collector_sets (α := α) joining false false) rfl (norm_enricher rfl _) (norm_enricher rfl _)]
    cases a <;> cases b <;> rfl

theorem keptTotalSets_acts {α : Type} [DecidableEq α] (joining : Bool) :
    KeyActs (.collector (α := α) joining false true) PointOps.keptTotalSets where
  keeps := rfl
  add a b := by
    rw [add_enricher (collector_sets joining false true).comm.toMonoidValues rfl]
    cases a <;> cases b <;> rfl
  sub a b := by
    cases a <;> cases b <;> rfl
  inter a b := by
    have hS := collector_sets (α := α) joining false true
    rw [inter_total hS.comm.toMonoidValues hS.neutral.toVersions rfl b (norm_enricher rfl _),
      add_enricher hS.comm.toMonoidValues rfl]
    cases a <;> cases b <;> rfl
  flip a b := by
    unfold pFlip
    rw [add_enricher (collector_sets (α := α) joining false true).comm.toMonoidValues rfl]
    cases a <;> cases b <;> rfl

/-! ## The keys and the values of a term -/

theorem either_isSome {W : Type} (f : W → W → W) (a b : Option W) :
    (either f a b).isSome = true ↔ a.isSome = true ∨ b.isSome = true := by
  cases a <;> cases b <;> simp [either]

theorem leftwise_isSome {W : Type} (f : W → W → W) (a b : Option W) :
    (leftwise f a b).isSome = true ↔ a.isSome = true := by
  cases a <;> cases b <;> simp [leftwise]

theorem jointly_isSome {W : Type} (f : W → W → W) (a b : Option W) :
    (jointly f a b).isSome = true ↔ a.isSome = true ∧ b.isSome = true := by
  cases a <;> cases b <;> simp [jointly]

theorem option_eq_iff {W : Type} {a b : Option W} (d : W) :
    a = b ↔ (a.isSome = true ↔ b.isSome = true) ∧ a.getD d = b.getD d := by
  cases a <;> cases b <;> simp

/-- An equation for optional values is one for the values and one for the keys. -/
theorem split_law {W : Type} {G : PointOps (Option W)} {F : PointOps W} (d : W) (keys : (ν → Prop) → Term ν → Prop)
    (hv : ∀ (b : ν → Option W) (p : Term ν), (p.value G b).getD d = p.value F fun n => (b n).getD d)
    (hk : ∀ (b : ν → Option W) (p : Term ν), (p.value G b).isSome = true ↔ keys (fun n => (b n).isSome = true) p) (p q : Term ν) :
    (∀ b : ν → Option W, p.value G b = q.value G b) ↔
      (∀ b : ν → W, p.value F b = q.value F b) ∧ ∀ b : ν → Prop, keys b p ↔ keys b q := by
  constructor
  · intro he
    refine ⟨fun b => ?_, fun b => ?_⟩
    · have := hv (fun n => some (b n)) p
      rw [he, hv] at this
      simpa using this.symm
    · classical
      have := hk (fun n => if b n then some d else none) p
      rw [he, hk] at this
      simpa using this.symm
  · rintro ⟨h1, h2⟩ b
    rw [option_eq_iff d, hv, hv, hk, hk]
    exact ⟨h2 _, h1 _⟩

theorem keptSets_split {α : Type} [DecidableEq α] (p q : Term ν) :
    (∀ b : ν → Option (Finset α), p.value PointOps.keptSets b = q.value PointOps.keptSets b) ↔
      (∀ b : ν → Finset α, p.value PointOps.sets b = q.value PointOps.sets b) ∧
        ∀ b : ν → Prop, p.covers b ↔ q.covers b := by
  refine split_law ∅ (fun b p => p.covers b) (fun b p => ?_) (fun b p => ?_) p q
  · induction p with
    | var m n => rfl
    | add p q ihp ihq | sub p q ihp ihq | inter p q ihp ihq | flip p q ihp ihq =>
      simp only [Term.value, PointOps.keptSets, PointOps.sets] at ihp ihq ⊢
      rw [← ihp, ← ihq]
      generalize Term.value _ b p = u
      generalize Term.value _ b q = v
      cases u <;> cases v <;> simp [either, leftwise, jointly, symmDiff]
  · induction p with
    | var m n => rfl
    | add p q ihp ihq | flip p q ihp ihq =>
      simp only [Term.value, Term.covers]
      rw [← ihp, ← ihq]
      exact either_isSome _ _ _
    | sub p q ihp ihq =>
      simp only [Term.value, Term.covers]
      rw [← ihp]
      exact leftwise_isSome _ _ _
    | inter p q ihp ihq =>
      simp only [Term.value, Term.covers]
      rw [← ihp, ← ihq]
      exact jointly_isSome _ _ _

theorem keptTotalSets_split {α : Type} [DecidableEq α] (p q : Term ν) :
    (∀ b : ν → Option (Finset α), p.value PointOps.keptTotalSets b = q.value PointOps.keptTotalSets b) ↔
      (∀ b : ν → Finset α, p.value PointOps.totalSets b = q.value PointOps.totalSets b) ∧
        ∀ b : ν → Prop, p.coversTotal b ↔ q.coversTotal b := by
  refine split_law ∅ (fun b p => p.coversTotal b) (fun b p => ?_) (fun b p => ?_) p q
  · induction p with
    | var m n => rfl
    | add p q ihp ihq | sub p q ihp ihq | inter p q ihp ihq | flip p q ihp ihq =>
      simp only [Term.value, PointOps.keptTotalSets, PointOps.totalSets] at ihp ihq ⊢
      try rw [← ihp, ← ihq]
      generalize Term.value _ b p = u
      generalize Term.value _ b q = v
      cases u <;> cases v <;> simp [either, leftwise]
  · induction p with
    | var m n => rfl
    | add p q ihp ihq | inter p q ihp ihq =>
      simp only [Term.value, Term.coversTotal]
      rw [← ihp, ← ihq]
      exact either_isSome _ _ _
    | flip p q ihp ihq =>
      simp only [Term.value, Term.coversTotal, PointOps.keptTotalSets, Option.isSome_map]
      rw [← ihp, ← ihq]
      exact either_isSome _ _ _
    | sub p q ihp ihq =>
      simp only [Term.value, Term.coversTotal]
      rw [← ihp]
      exact leftwise_isSome _ _ _

theorem keptTotalNumbers_split {W : Type} [AddCommGroup W] (p q : Term ν) :
    (∀ b : ν → Option W, p.value PointOps.keptTotalNumbers b = q.value PointOps.keptTotalNumbers b) ↔
      (∀ b : ν → W, p.value PointOps.numbers b = q.value PointOps.numbers b) ∧
        ∀ n, p.occurs n ↔ q.occurs n := by
  rw [split_law (F := PointOps.numbers) 0 (fun b p => ∃ n, p.occurs n ∧ b n) (fun b p => ?_) (fun b p => ?_) p q]
  · refine and_congr_right fun _ => ⟨fun he n => ?_, fun he b => by simp only [he]⟩
    simpa using he fun m => m = n
  · induction p with
    | var m n => rfl
    | add p q ihp ihq | sub p q ihp ihq | inter p q ihp ihq | flip p q ihp ihq =>
      simp only [Term.value, PointOps.keptTotalNumbers, PointOps.numbers] at ihp ihq ⊢
      try rw [← ihp, ← ihq]
      generalize Term.value _ b p = u
      generalize Term.value _ b q = v
      cases u <;> cases v <;> simp [either, sub_eq_add_neg]
  · induction p with
    | var m n => simp [Term.value, Term.occurs]
    | add p q ihp ihq | sub p q ihp ihq | inter p q ihp ihq | flip p q ihp ihq =>
      simp only [Term.value, Term.occurs, or_and_right, exists_or, PointOps.keptTotalNumbers] at ihp ihq ⊢
      rw [← ihp, ← ihq]
      simp only [Option.isSome_map, either_isSome]

/-! ## C72 -/

/-- Partial maps of numbers that keep zeros: an equation holds for all `interval_map`s and all `icl::map`s with `==`, and
for all `interval_map`s and `split_interval_map`s with `is_element_equal`, iff it holds for optional numbers. -/
theorem C72_numbers {D' W : Type} [LinearOrder D'] [Nonempty D'] [DecidableEq W] [AddCommGroup W]
    (h : IntervalClass o) {k : I} (hk : ∃ x, In o x k) (oracle : List (I × W) → I → Nat) (joining signed : Bool)
    (p q : Term ν) :
    ((∀ σ : ν → List (I × W), (∀ n, MapValue o (.numeric true false false signed) (σ n)) →
        MapLexEq o (.numeric true false false signed) oracle (p.ofMaps σ) (q.ofMaps σ)) ↔
      ∀ b : ν → Option W, p.value PointOps.keptNumbers b = q.value PointOps.keptNumbers b) ∧
    ((∀ σ : ν → List (I × W), (∀ n, MapValue o (.numeric joining false false signed) (σ n)) →
        MapElemEq o (.numeric joining false false signed) oracle (p.ofMaps σ) (q.ofMaps σ)) ↔
      ∀ b : ν → Option W, p.value PointOps.keptNumbers b = q.value PointOps.keptNumbers b) ∧
    ((∀ σ : ν → List (D' × W), (∀ n, EMapValue (.numeric joining false false signed) (σ n)) →
        EMap.eq ((p.ofElements σ).evalMap (.numeric joining false false signed))
          ((q.ofElements σ).evalMap (.numeric joining false false signed)) = true) ↔
      ∀ b : ν → Option W, p.value PointOps.keptNumbers b = q.value PointOps.keptNumbers b) :=
  ⟨kept_law h (numeric_neutral ..) (numeric_orderFree ..) (keptNumbers_acts ..) rfl hk oracle p q,
    kept_law_elem h (numeric_neutral ..) (numeric_orderFree ..) (keptNumbers_acts ..) hk oracle p q,
    ekept_law (numeric_neutral ..) (numeric_comm joining false false signed).toMonoidValues (numeric_orderFree ..)
      (keptNumbers_acts ..) p q⟩

/-- Total maps of numbers that keep zeros: an equation holds with `==` iff it holds for numbers and the same variables
occur on both sides. -/
theorem C72_total_numbers {D' W : Type} [LinearOrder D'] [Nonempty D'] [DecidableEq W] [AddCommGroup W]
    (h : IntervalClass o) {k : I} (hk : ∃ x, In o x k) (oracle : List (I × W) → I → Nat) (joining : Bool)
    (p q : Term ν) :
    ((∀ σ : ν → List (I × W), (∀ n, MapValue o (.numeric true false true true) (σ n)) →
        MapLexEq o (.numeric true false true true) oracle (p.ofMaps σ) (q.ofMaps σ)) ↔
      (∀ b : ν → W, p.value PointOps.numbers b = q.value PointOps.numbers b) ∧ ∀ n, p.occurs n ↔ q.occurs n) ∧
    ((∀ σ : ν → List (I × W), (∀ n, MapValue o (.numeric joining false true true) (σ n)) →
        MapElemEq o (.numeric joining false true true) oracle (p.ofMaps σ) (q.ofMaps σ)) ↔
      (∀ b : ν → W, p.value PointOps.numbers b = q.value PointOps.numbers b) ∧ ∀ n, p.occurs n ↔ q.occurs n) ∧
    ((∀ σ : ν → List (D' × W), (∀ n, EMapValue (.numeric joining false true true) (σ n)) →
        EMap.eq ((p.ofElements σ).evalMap (.numeric joining false true true))
          ((q.ofElements σ).evalMap (.numeric joining false true true)) = true) ↔
      (∀ b : ν → W, p.value PointOps.numbers b = q.value PointOps.numbers b) ∧ ∀ n, p.occurs n ↔ q.occurs n) := by
  rw [← keptTotalNumbers_split]
  exact ⟨kept_law h (numeric_neutral ..) (numeric_orderFree ..) (keptTotalNumbers_acts ..) rfl hk oracle p q,
    kept_law_elem h (numeric_neutral ..) (numeric_orderFree ..) (keptTotalNumbers_acts ..) hk oracle p q,
    ekept_law (numeric_neutral ..) (numeric_comm joining false true true).toMonoidValues (numeric_orderFree ..)
      (keptTotalNumbers_acts ..) p q⟩

/-- Total maps of unsigned numbers that keep zeros: iff the equation holds for optional numbers. -/
theorem C72_total_unsigned {D' W : Type} [LinearOrder D'] [Nonempty D'] [DecidableEq W] [AddCommGroup W]
    (h : IntervalClass o) {k : I} (hk : ∃ x, In o x k) (oracle : List (I × W) → I → Nat) (joining : Bool)
    (p q : Term ν) :
    ((∀ σ : ν → List (I × W), (∀ n, MapValue o (.numeric true false true false) (σ n)) →
        MapLexEq o (.numeric true false true false) oracle (p.ofMaps σ) (q.ofMaps σ)) ↔
      ∀ b : ν → Option W, p.value PointOps.keptUnsigned b = q.value PointOps.keptUnsigned b) ∧
    ((∀ σ : ν → List (I × W), (∀ n, MapValue o (.numeric joining false true false) (σ n)) →
        MapElemEq o (.numeric joining false true false) oracle (p.ofMaps σ) (q.ofMaps σ)) ↔
      ∀ b : ν → Option W, p.value PointOps.keptUnsigned b = q.value PointOps.keptUnsigned b) ∧
    ((∀ σ : ν → List (D' × W), (∀ n, EMapValue (.numeric joining false true false) (σ n)) →
        EMap.eq ((p.ofElements σ).evalMap (.numeric joining false true false))
          ((q.ofElements σ).evalMap (.numeric joining false true false)) = true) ↔
      ∀ b : ν → Option W, p.value PointOps.keptUnsigned b = q.value PointOps.keptUnsigned b) :=
  ⟨kept_law h (numeric_neutral ..) (numeric_orderFree ..) (keptUnsigned_acts ..) rfl hk oracle p q,
    kept_law_elem h (numeric_neutral ..) (numeric_orderFree ..) (keptUnsigned_acts ..) hk oracle p q,
    ekept_law (numeric_neutral ..) (numeric_comm joining false true false).toMonoidValues (numeric_orderFree ..)
      (keptUnsigned_acts ..) p q⟩

/-- Partial maps of sets that keep empty sets: an equation holds with `==` iff it holds for sets and both sides have the
same keys. -/
theorem C72_sets {D' α : Type} [LinearOrder D'] [Nonempty D'] [DecidableEq α]
    (h : IntervalClass o) {k : I} (hk : ∃ x, In o x k) (oracle : List (I × Finset α) → I → Nat) (joining : Bool)
    (p q : Term ν) :
    ((∀ σ : ν → List (I × Finset α), (∀ n, MapValue o (.collector true false false) (σ n)) →
        MapLexEq o (.collector true false false) oracle (p.ofMaps σ) (q.ofMaps σ)) ↔
      (∀ b : ν → Finset α, p.value PointOps.sets b = q.value PointOps.sets b) ∧
        ∀ b : ν → Prop, p.covers b ↔ q.covers b) ∧
    ((∀ σ : ν → List (I × Finset α), (∀ n, MapValue o (.collector joining false false) (σ n)) →
        MapElemEq o (.collector joining false false) oracle (p.ofMaps σ) (q.ofMaps σ)) ↔
      (∀ b : ν → Finset α, p.value PointOps.sets b = q.value PointOps.sets b) ∧
        ∀ b : ν → Prop, p.covers b ↔ q.covers b) ∧
    ((∀ σ : ν → List (D' × Finset α), (∀ n, EMapValue (.collector joining false false) (σ n)) →
        EMap.eq ((p.ofElements σ).evalMap (.collector joining false false))
          ((q.ofElements σ).evalMap (.collector joining false false)) = true) ↔
      (∀ b : ν → Finset α, p.value PointOps.sets b = q.value PointOps.sets b) ∧
        ∀ b : ν → Prop, p.covers b ↔ q.covers b) := by
  rw [← keptSets_split]
  have hS := fun joining => collector_sets (α := α) joining false false
  exact ⟨kept_law h (hS true).neutral (collector_orderFree ..) (keptSets_acts ..) rfl hk oracle p q,
    kept_law_elem h (hS joining).neutral (collector_orderFree ..) (keptSets_acts ..) hk oracle p q,
    ekept_law (hS joining).neutral (hS joining).comm.toMonoidValues (collector_orderFree ..) (keptSets_acts ..) p q⟩

/-- Total maps of sets that keep empty sets. -/
theorem C72_total_sets {D' α : Type} [LinearOrder D'] [Nonempty D'] [DecidableEq α]
    (h : IntervalClass o) {k : I} (hk : ∃ x, In o x k) (oracle : List (I × Finset α) → I → Nat) (joining : Bool)
    (p q : Term ν) :
    ((∀ σ : ν → List (I × Finset α), (∀ n, MapValue o (.collector true false true) (σ n)) →
        MapLexEq o (.collector true false true) oracle (p.ofMaps σ) (q.ofMaps σ)) ↔
      (∀ b : ν → Finset α, p.value PointOps.totalSets b = q.value PointOps.totalSets b) ∧
        ∀ b : ν → Prop, p.coversTotal b ↔ q.coversTotal b) ∧
    ((∀ σ : ν → List (I × Finset α), (∀ n, MapValue o (.collector joining false true) (σ n)) →
        MapElemEq o (.collector joining false true) oracle (p.ofMaps σ) (q.ofMaps σ)) ↔
      (∀ b : ν → Finset α, p.value PointOps.totalSets b = q.value PointOps.totalSets b) ∧
        ∀ b : ν → Prop, p.coversTotal b ↔ q.coversTotal b) ∧
    ((∀ σ : ν → List (D' × Finset α), (∀ n, EMapValue (.collector joining false true) (σ n)) →
        EMap.eq ((p.ofElements σ).evalMap (.collector joining false true))
          ((q.ofElements σ).evalMap (.collector joining false true)) = true) ↔
      (∀ b : ν → Finset α, p.value PointOps.totalSets b = q.value PointOps.totalSets b) ∧
        ∀ b : ν → Prop, p.coversTotal b ↔ q.coversTotal b) := by
  rw [← keptTotalSets_split]
  have hS := fun joining => collector_sets (α := α) joining false true
  exact ⟨kept_law h (hS true).neutral (collector_orderFree ..) (keptTotalSets_acts ..) rfl hk oracle p q,
    kept_law_elem h (hS joining).neutral (collector_orderFree ..) (keptTotalSets_acts ..) hk oracle p q,
    ekept_law (hS joining).neutral (hS joining).comm.toMonoidValues (collector_orderFree ..)
      (keptTotalSets_acts ..) p q⟩

/-- What every key has in the result of an expression over `interval_map`s (or `split_interval_map`s) and `icl::map`s
that keep identity elements: a term over optional values. -/
theorem C72_value {D' W α : Type} [LinearOrder D'] [DecidableEq W] [AddCommGroup W] [DecidableEq α]
    (h : IntervalClass o) (oracle : List (I × W) → I → Nat) (oracle' : List (I × Finset α) → I → Nat)
    (joining signed : Bool) (p : Term ν) :
    (∀ σ : ν → List (I × W), (∀ n, MapValue o (.numeric joining false false signed) (σ n)) →
      ∃ m, (p.ofMaps σ).eval o (.numeric joining false false signed) oracle = some m ∧
        ∀ x, valueAt o m x = p.value PointOps.keptNumbers fun n => valueAt o (σ n) x) ∧
    (∀ σ : ν → List (I × W), (∀ n, MapValue o (.numeric joining false true true) (σ n)) →
      ∃ m, (p.ofMaps σ).eval o (.numeric joining false true true) oracle = some m ∧
        ∀ x, valueAt o m x = p.value PointOps.keptTotalNumbers fun n => valueAt o (σ n) x) ∧
    (∀ σ : ν → List (I × Finset α), (∀ n, MapValue o (.collector joining false false) (σ n)) →
      ∃ m, (p.ofMaps σ).eval o (.collector joining false false) oracle' = some m ∧
        ∀ x, valueAt o m x = p.value PointOps.keptSets fun n => valueAt o (σ n) x) ∧
    (∀ σ : ν → List (I × Finset α), (∀ n, MapValue o (.collector joining false true) (σ n)) →
      ∃ m, (p.ofMaps σ).eval o (.collector joining false true) oracle' = some m ∧
        ∀ x, valueAt o m x = p.value PointOps.keptTotalSets fun n => valueAt o (σ n) x) ∧
    (∀ σ : ν → List (D' × W), (∀ n, EMapValue (.numeric joining false false signed) (σ n)) → ∀ x,
      valueOf ((p.ofElements σ).evalMap (.numeric joining false false signed)) x =
        p.value PointOps.keptNumbers fun n => valueOf (σ n) x) ∧
    (∀ σ : ν → List (D' × W), (∀ n, EMapValue (.numeric joining false true true) (σ n)) → ∀ x,
      valueOf ((p.ofElements σ).evalMap (.numeric joining false true true)) x =
        p.value PointOps.keptTotalNumbers fun n => valueOf (σ n) x) ∧
    (∀ σ : ν → List (D' × Finset α), (∀ n, EMapValue (.collector joining false false) (σ n)) → ∀ x,
      valueOf ((p.ofElements σ).evalMap (.collector joining false false)) x =
        p.value PointOps.keptSets fun n => valueOf (σ n) x) ∧
    (∀ σ : ν → List (D' × Finset α), (∀ n, EMapValue (.collector joining false true) (σ n)) → ∀ x,
      valueOf ((p.ofElements σ).evalMap (.collector joining false true)) x =
        p.value PointOps.keptTotalSets fun n => valueOf (σ n) x) := by
  have hS := fun total => collector_sets (α := α) joining false total
  refine ⟨fun σ hσ => ?_, fun σ hσ => ?_, fun σ hσ => ?_, fun σ hσ => ?_, fun σ hσ => ?_, fun σ hσ => ?_,
    fun σ hσ => ?_, fun σ hσ => ?_⟩
  · obtain ⟨m, e, _, hv⟩ := kept_value h (numeric_neutral ..) (numeric_orderFree ..) (keptNumbers_acts joining signed)
      (oracle := oracle) hσ p
    exact ⟨m, e, hv⟩
  · obtain ⟨m, e, _, hv⟩ := kept_value h (numeric_neutral ..) (numeric_orderFree ..) (keptTotalNumbers_acts joining)
      (oracle := oracle) hσ p
    exact ⟨m, e, hv⟩
  · obtain ⟨m, e, _, hv⟩ := kept_value h (hS false).neutral (collector_orderFree ..) (keptSets_acts joining)
      (oracle := oracle') hσ p
    exact ⟨m, e, hv⟩
  · obtain ⟨m, e, _, hv⟩ := kept_value h (hS true).neutral (collector_orderFree ..) (keptTotalSets_acts joining)
      (oracle := oracle') hσ p
    exact ⟨m, e, hv⟩
  · exact (ekept_value (numeric_neutral ..) (numeric_comm joining false false signed).toMonoidValues
      (numeric_orderFree ..) (keptNumbers_acts joining signed) hσ p).2
  · exact (ekept_value (numeric_neutral ..) (numeric_comm joining false true true).toMonoidValues
      (numeric_orderFree ..) (keptTotalNumbers_acts joining) hσ p).2
  · exact (ekept_value (hS false).neutral (hS false).comm.toMonoidValues (collector_orderFree ..)
      (keptSets_acts joining) hσ p).2
  · exact (ekept_value (hS true).neutral (hS true).comm.toMonoidValues (collector_orderFree ..)
      (keptTotalSets_acts joining) hσ p).2

/-! ## Examples -/

/-- Total maps of numbers: `(a + b) - b == a` is a law of maps that absorb zeros, but not of maps that keep them, where
the keys of `b` remain; `(a + b) - b == (a - b) + b` is one. -/
example :
    (¬ ∀ σ : Bool → List (SItv ℤ × ℤ), (∀ n, MapValue Ex.ro (.numeric true false true true) (σ n)) →
      MapLexEq Ex.ro (.numeric true false true true) (fun _ _ => 0)
        ((Term.sub (.add (.var false true) (.var false false)) (.var false false)).ofMaps σ)
        ((Term.var false true).ofMaps σ)) ∧
    (∀ σ : Bool → List (SItv ℤ × ℤ), (∀ n, MapValue Ex.ro (.numeric true false true true) (σ n)) →
      MapLexEq Ex.ro (.numeric true false true true) (fun _ _ => 0)
        ((Term.sub (.add (.var false true) (.var false false)) (.var false false)).ofMaps σ)
        ((Term.add (.sub (.var false true) (.var false false)) (.var false false)).ofMaps σ)) := by
  have hk : ∃ x, In Ex.ro x (Ex.r 0 4) := ⟨0, show Ex.ro.contains _ _ = true by decide⟩
  rw [(C72_total_numbers (D' := ℤ) Ex.ro_cls hk _ true _ _).1, (C72_total_numbers (D' := ℤ) Ex.ro_cls hk _ true _ _).1]
  refine ⟨fun hc => ?_, fun b => ?_, fun n => ?_⟩
  · have := hc.2 false
    simp [Term.occurs] at this
  · simp [Term.value, PointOps.numbers]
  · simp [Term.occurs]

/-- Partial maps of sets: `a - a == b - b` and `a ^ b == (a + b) - (a & b)`; partial maps of numbers:
`(a - b) - a == (a - a) - b`, which fails if zeros are absorbed. -/
example :
    (¬ ∀ σ : Bool → List (ℤ × Finset ℤ), (∀ n, EMapValue (.collector true false false) (σ n)) →
      EMap.eq (((Term.sub (.var false true) (.var false true)).ofElements σ).evalMap (.collector true false false))
        (((Term.sub (.var false false) (.var false false)).ofElements σ).evalMap (.collector true false false))
          = true) ∧
    (∀ σ : Bool → List (ℤ × Finset ℤ), (∀ n, EMapValue (.collector true false false) (σ n)) →
      EMap.eq (((Term.flip (.var false true) (.var false false)).ofElements σ).evalMap (.collector true false false))
        (((Term.sub (.add (.var false true) (.var false false))
          (.inter (.var false true) (.var false false))).ofElements σ).evalMap (.collector true false false)) = true) ∧
    (∀ σ : Bool → List (ℤ × ℤ), (∀ n, EMapValue (.numeric true false false true) (σ n)) →
      EMap.eq (((Term.sub (.sub (.var false true) (.var false false)) (.var false true)).ofElements σ).evalMap
          (.numeric true false false true))
        (((Term.sub (.sub (.var false true) (.var false true)) (.var false false)).ofElements σ).evalMap
          (.numeric true false false true)) = true) := by
  have hk : ∃ x, In Ex.ro x (Ex.r 0 4) := ⟨0, show Ex.ro.contains _ _ = true by decide⟩
  rw [(C72_sets Ex.ro_cls hk (fun _ _ => 0) true _ _).2.2, (C72_sets Ex.ro_cls hk (fun _ _ => 0) true _ _).2.2,
    (C72_numbers Ex.ro_cls hk (fun _ _ => 0) true true _ _).2.2]
  refine ⟨fun hc => ?_, ⟨fun b => ?_, fun b => ?_⟩, fun b => ?_⟩
  · have := hc.2 fun n => n = true
    simp [Term.covers] at this
  · simp only [Term.value, PointOps.sets]
    ext x
    simp only [Finset.mem_symmDiff, Finset.mem_sdiff, Finset.mem_union, Finset.mem_inter]
    tauto
  · simp [Term.covers]
  · simp only [Term.value, PointOps.keptNumbers]
    cases b true <;> cases b false <;> simp [leftwise]

end ICL.Props
