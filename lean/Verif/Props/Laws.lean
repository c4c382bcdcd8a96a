import Verif.LawSpec
import Verif.Props.Point
import Verif.Props.SetLaws

/-!
# C67: which equations hold for interval sets and interval maps

An equation between terms holds for all `interval_set`s iff it holds for the truth values 0 and 1, hence iff it is a law
of Boolean rings; it can be decided by a truth table. An equation holds for all total `interval_map`s of numbers iff it
holds for numbers, and for all `interval_map`s of sets iff it holds for sets.
-/

set_option linter.unusedSectionVars false

namespace ICL.Props
open Spec

variable {D I V ν : Type} [LinearOrder D] {o : IntervalOps D I} [DecidableEq I] [DecidableEq V]

/-! ## Sets -/

/-- The elements of the value of a term. -/
theorem term_elem (h : IntervalClass o) {st : Style} {oracle : List I → I → Nat} {σ : ν → List I}
    (hσ : ∀ n, SetValue o st (σ n)) (p : Term ν) :
    ∃ s, (p.ofSets σ).eval o st oracle = some s ∧ SetValue o st s ∧
      ∀ x, Elem o s x ↔ p.holds fun n => Elem o (σ n) x := by
  suffices ∃ P S, Den o st ((p.ofSets σ).eval o st oracle) P S ∧ ∀ x, P x ↔ p.holds fun n => Elem o (σ n) x by
    obtain ⟨P, S, ⟨l, e, hl, hP, -⟩, h2⟩ := this
    exact ⟨l, e, (setValue_iff h).2 hl, fun x => by rw [elem_iff, hP, h2]⟩
  induction p with
  | var m n =>
    exact ⟨_, _, den_some ((setValue_iff h).1 (hσ n)), fun x => Iff.rfl⟩
  | add p q ihp ihq =>
    obtain ⟨P, S, h1, e1⟩ := ihp
    obtain ⟨Q, R, h2, e2⟩ := ihq
    obtain ⟨U, hU⟩ := den_plus h.lawful (oracle := oracle) ((p.ofSets σ).swapped (q.ofSets σ)) h1 h2
    exact ⟨_, U, hU, fun x => by simp only [e1, e2, Term.holds]⟩
  | sub p q ihp ihq =>
    obtain ⟨P, S, h1, e1⟩ := ihp
    obtain ⟨Q, R, h2, e2⟩ := ihq
    exact ⟨_, _, den_minus h.lawful h1 h2, fun x => by simp only [e1, e2, Term.holds]⟩
  | inter p q ihp ihq =>
    obtain ⟨P, S, h1, e1⟩ := ihp
    obtain ⟨Q, R, h2, e2⟩ := ihq
    obtain ⟨U, hU, -⟩ := den_meet h.lawful (oracle := oracle) ((p.ofSets σ).swapped (q.ofSets σ)) h1 h2
    exact ⟨_, U, hU, fun x => by simp only [e1, e2, Term.holds]⟩
  | flip p q ihp ihq =>
    obtain ⟨P, S, h1, e1⟩ := ihp
    obtain ⟨Q, R, h2, e2⟩ := ihq
    obtain ⟨U, hU, -⟩ := den_symd h.lawful (oracle := oracle) ((p.ofSets σ).swapped (q.ofSets σ)) h1 h2
    exact ⟨_, U, hU, fun x => by simp only [e1, e2, Term.holds]; tauto⟩

/-- For any truth values there are sets and an element `x` of which they are true: `{k}` and `{}`. -/
theorem witness_sets (st : Style) {k : I} {x : D} (hx : In o x k) (b : ν → Prop) :
    ∃ σ : ν → List I, (∀ n, SetValue o st (σ n)) ∧ ∀ n, Elem o (σ n) x ↔ b n := by
  classical
  refine ⟨fun n => if b n then [k] else [], fun n => ?_, fun n => ?_⟩
  · by_cases hb : b n
    · simp only [hb, if_true]
      refine ⟨⟨by simpa using ⟨x, hx⟩, by simp⟩, fun _ p i j q he => ?_⟩
      have := congrArg List.length he
      simp only [List.length_append, List.length_cons, List.length_nil] at this
      omega
    · simp only [hb, if_false]
      refine ⟨⟨by simp, by simp⟩, fun _ p i j q he => ?_⟩
      have := congrArg List.length he
      simp only [List.length_append, List.length_cons, List.length_nil] at this
      omega
  · by_cases hb : b n <;> simp [hb, Elem, hx]

/-- An equation holds for all `interval_set`s, with `==`, iff it holds for truth values. `{k}` is some set that is not
empty. -/
theorem C67_sets (h : IntervalClass o) {k : I} (hk : ∃ x, In o x k) (oracle : List I → I → Nat) (p q : Term ν) :
    (∀ σ : ν → List I, (∀ n, SetValue o .joining (σ n)) →
      LexEq o .joining oracle (p.ofSets σ) (q.ofSets σ)) ↔
    ∀ b : ν → Prop, p.holds b ↔ q.holds b := by
  constructor
  · intro he b
    obtain ⟨x, hx⟩ := hk
    obtain ⟨σ, h1, h2⟩ := witness_sets .joining hx b
    obtain ⟨s, t, e1, e2, hst⟩ := he σ h1
    obtain ⟨s', e1', hs, ms⟩ := term_elem h (oracle := oracle) h1 p
    obtain ⟨t', e2', ht, mt⟩ := term_elem h (oracle := oracle) h1 q
    rw [e1] at e1'; rw [e2] at e2'; cases e1'; cases e2'
    have := ((eqC_spec h.lawful (wellFormed_iff.1 hs.1) (wellFormed_iff.1 ht.1)).1 hst).2 x ()
    rw [maps_unit, maps_unit, ← elem_iff, ← elem_iff, ms, mt] at this
    simpa only [h2] using this
  · intro he σ h1
    obtain ⟨s, e1, hs, ms⟩ := term_elem h (oracle := oracle) h1 p
    obtain ⟨t, e2, ht, mt⟩ := term_elem h (oracle := oracle) h1 q
    have gs := (setValue_iff h).1 hs
    have gt := (setValue_iff h).1 ht
    refine ⟨s, t, e1, e2, (eqC_joined h.lawful gs.1 gt.1 (gs.2 rfl) (gt.2 rfl)).2 fun x v => ?_⟩
    rw [maps_unit, maps_unit, ← elem_iff, ← elem_iff, ms, mt]
    exact he _

/-- For interval sets of any class, an equation holds for the elements of all sets iff it holds for truth values. -/
theorem C67_sets_elem (h : IntervalClass o) {k : I} (hk : ∃ x, In o x k) (st : Style) (oracle : List I → I → Nat)
    (p q : Term ν) :
    (∀ σ : ν → List I, (∀ n, SetValue o st (σ n)) → ElemEq o st oracle (p.ofSets σ) (q.ofSets σ)) ↔
    ∀ b : ν → Prop, p.holds b ↔ q.holds b := by
  constructor
  · intro he b
    obtain ⟨x, hx⟩ := hk
    obtain ⟨σ, h1, h2⟩ := witness_sets st hx b
    obtain ⟨s, t, e1, e2, hst⟩ := he σ h1
    obtain ⟨s', e1', hs, ms⟩ := term_elem h (oracle := oracle) h1 p
    obtain ⟨t', e2', ht, mt⟩ := term_elem h (oracle := oracle) h1 q
    rw [e1] at e1'; rw [e2] at e2'; cases e1'; cases e2'
    have := hst x
    rw [ms, mt] at this
    simpa only [h2] using this
  · intro he σ h1
    obtain ⟨s, e1, hs, ms⟩ := term_elem h (oracle := oracle) h1 p
    obtain ⟨t, e2, ht, mt⟩ := term_elem h (oracle := oracle) h1 q
    exact ⟨s, t, e1, e2, fun x => by rw [ms, mt]; exact he _⟩

/-- `within(p, q)` holds for all sets of a class iff `p` implies `q` for truth values. -/
theorem C67_within (h : IntervalClass o) {k : I} (hk : ∃ x, In o x k) (st : Style) (oracle : List I → I → Nat)
    (p q : Term ν) :
    (∀ σ : ν → List I, (∀ n, SetValue o st (σ n)) → ∃ s t, (p.ofSets σ).eval o st oracle = some s ∧
      (q.ofSets σ).eval o st oracle = some t ∧ withinC o setSeg setSeg (fun _ _ => .equal) s t = some true) ↔
    ∀ b : ν → Prop, p.holds b → q.holds b := by
  constructor
  · intro he b
    obtain ⟨x, hx⟩ := hk
    obtain ⟨σ, h1, h2⟩ := witness_sets st hx b
    obtain ⟨s, t, e1, e2, hst⟩ := he σ h1
    obtain ⟨s', e1', hs, ms⟩ := term_elem h (oracle := oracle) h1 p
    obtain ⟨t', e2', ht, mt⟩ := term_elem h (oracle := oracle) h1 q
    rw [e1] at e1'; rw [e2] at e2'; cases e1'; cases e2'
    obtain ⟨c, e3, hc⟩ := C25_within_sets h hs.1 ht.1
    rw [hst] at e3
    cases e3
    have := hc.1 rfl x
    rw [ms, mt] at this
    simpa only [h2] using this
  · intro he σ h1
    obtain ⟨s, e1, hs, ms⟩ := term_elem h (oracle := oracle) h1 p
    obtain ⟨t, e2, ht, mt⟩ := term_elem h (oracle := oracle) h1 q
    obtain ⟨c, e3, hc⟩ := C25_within_sets h hs.1 ht.1
    refine ⟨s, t, e1, e2, ?_⟩
    rw [e3, hc.2 fun x => by rw [ms, mt]; exact he _]

/-! ## Maps -/

/-- The value of a term at a key. -/
theorem term_value (h : IntervalClass o) {t : MapType V} (hN : Neutral t) (hO : OrderFree t) {F : PointOps V}
    (hF : PointActs t F) {oracle : List (I × V) → I → Nat} {σ : ν → List (I × V)} (hσ : ∀ n, MapValue o t (σ n))
    (p : Term ν) : ∃ m, (p.ofMaps σ).eval o t oracle = some m ∧ MapValue o t m ∧
      ∀ x, gv t (valueAt o m x) = p.value F fun n => gv t (valueAt o (σ n) x) := by
  have hl : (p.ofMaps σ).Leaves (MV o t) := by
    induction p with
    | var m n => exact (mapValue_iff h).1 (hσ n)
    | _ p q ihp ihq => exact ⟨ihp, ihq⟩
  obtain ⟨m, e, hm⟩ := meval_mv h.lawful hN (oracle := oracle) _ hl
  refine ⟨m, e, (mapValue_iff h).2 hm, fun x => ?_⟩
  obtain ⟨m', e', -, hv⟩ := pointwise_eval h.lawful hN hO hF (oracle := oracle)
    (look := fun l => some (gv t (valueAt o l x))) (fun l _ => rfl) _ hl
  rw [e] at e'
  cases e'
  have : pointwise F (fun l => some (gv t (valueAt o l x))) (p.ofMaps σ) =
      some (p.value F fun n => gv t (valueAt o (σ n) x)) := by
    clear hl e hm hv
    induction p with
    | var m n => rfl
    | _ p q ihp ihq => simp only [Term.ofMaps, pointwise, ihp, ihq]; rfl
  rw [this] at hv
  exact (Option.some.inj hv).symm

/-- For any values there are maps that have these values at a key. -/
theorem witness_maps (t : MapType V) {k : I} {x : D} (hx : In o x k) (b : ν → V) :
    ∃ σ : ν → List (I × V), (∀ n, MapValue o t (σ n)) ∧ ∀ n, gv t (valueAt o (σ n) x) = b n := by
  refine ⟨fun n => if b n = t.cfg.ident then [] else [(k, b n)], fun n => ?_, fun n => ?_⟩
  · by_cases hb : b n = t.cfg.ident
    · simp only [hb, if_true]
      refine ⟨⟨by simp, by simp⟩, fun _ p i j q he => ?_, by simp [NoIdentity]⟩
      have := congrArg List.length he
      simp only [List.length_append, List.length_cons, List.length_nil] at this
      omega
    · simp only [hb, if_false]
      refine ⟨⟨by simpa using ⟨x, hx⟩, by simp⟩, fun _ p i j q he => ?_, by simp [NoIdentity, Ignored, hb]⟩
      have := congrArg List.length he
      simp only [List.length_append, List.length_cons, List.length_nil] at this
      omega
  · by_cases hb : b n = t.cfg.ident
    · simp only [hb, if_true]; rfl
    · simp only [hb, if_false]
      have hw : MapWellFormed o [(k, b n)] := ⟨by simpa using ⟨x, hx⟩, by simp⟩
      have : valueAt o [(k, b n)] x = some (b n) := (valueAt_assoc hw _ _).2 ⟨(k, b n), by simp, hx, rfl⟩
      rw [this]; rfl

theorem law_maps (h : IntervalClass o) {t : MapType V} (hN : Neutral t) (hO : OrderFree t) {F : PointOps V}
    (hF : PointActs t F) (hj : t.cfg.joining = true) {k : I} (hk : ∃ x, In o x k)
    (oracle : List (I × V) → I → Nat) (p q : Term ν) :
    ((∀ σ : ν → List (I × V), (∀ n, MapValue o t (σ n)) → MapDistEq o t oracle (p.ofMaps σ) (q.ofMaps σ)) ↔
      ∀ b : ν → V, p.value F b = q.value F b) ∧
    (t.cfg.absorbs = true →
      ((∀ σ : ν → List (I × V), (∀ n, MapValue o t (σ n)) → MapLexEq o t oracle (p.ofMaps σ) (q.ofMaps σ)) ↔
        ∀ b : ν → V, p.value F b = q.value F b)) := by
  have dist : ∀ {m n : List (I × V)}, MapValue o t m → MapValue o t n →
      (distinctEqual o mapSeg t.cfg.ident m n = true ↔ ∀ x, gv t (valueAt o m x) = gv t (valueAt o n x)) := by
    intro m n hm hn
    rw [C31_distinct_equal h _ hm.1 hn.1 (hm.2.1 hj) (hn.2.1 hj)]
    refine forall_congr' fun x => ?_
    simp only [← valueAt_assoc hm.1, ← valueAt_assoc hn.1]
    exact gv_eq_iff
  have lex : t.cfg.absorbs = true → ∀ {m n : List (I × V)}, MapValue o t m → MapValue o t n →
      (eqC o mapSeg m n = true ↔ ∀ x, gv t (valueAt o m x) = gv t (valueAt o n x)) := by
    intro ha m n hm hn
    have gm := (mapValue_iff h).1 hm
    have gn := (mapValue_iff h).1 hn
    rw [eqC_joined h.lawful gm.wf gn.wf (gm.joined hj) (gn.joined hj)]
    refine forall_congr' fun x => ?_
    simp only [← valueAt_some gm.wf, ← valueAt_some gn.wf]
    constructor
    · intro he; rw [Option.ext he]
    · intro he v; rw [gv_inj ha (gm.norm x) (gn.norm x) he]
  have both : ∀ (E : List (I × V) → List (I × V) → Prop),
      (∀ {m n}, MapValue o t m → MapValue o t n →
        (E m n ↔ ∀ x, gv t (valueAt o m x) = gv t (valueAt o n x))) →
      ((∀ σ : ν → List (I × V), (∀ n, MapValue o t (σ n)) → ∃ m n, (p.ofMaps σ).eval o t oracle = some m ∧
          (q.ofMaps σ).eval o t oracle = some n ∧ E m n) ↔ ∀ b : ν → V, p.value F b = q.value F b) := by
    intro E hE
    constructor
    · intro he b
      obtain ⟨x, hx⟩ := hk
      obtain ⟨σ, h1, h2⟩ := witness_maps t hx b
      obtain ⟨m, n, e1, e2, hmn⟩ := he σ h1
      obtain ⟨m', e1', hm, vm⟩ := term_value h hN hO hF (oracle := oracle) h1 p
      obtain ⟨n', e2', hn, vn⟩ := term_value h hN hO hF (oracle := oracle) h1 q
      rw [e1] at e1'; rw [e2] at e2'; cases e1'; cases e2'
      have := (hE hm hn).1 hmn x
      rw [vm, vn] at this
      simpa only [h2] using this
    · intro he σ h1
      obtain ⟨m, e1, hm, vm⟩ := term_value h hN hO hF (oracle := oracle) h1 p
      obtain ⟨n, e2, hn, vn⟩ := term_value h hN hO hF (oracle := oracle) h1 q
      exact ⟨m, n, e1, e2, (hE hm hn).2 fun x => by rw [vm, vn, he]⟩
  exact ⟨both _ dist, fun ha => both _ (lex ha)⟩

/-- An equation holds for all total `interval_map`s of numbers that absorb identity elements, with `==`, iff it holds
for the numbers; and for those that do not absorb identity elements, with `is_distinct_equal`. `+` and `&` both
stand for the addition of numbers, `a ^ b` for 0. -/
theorem C67_numbers {W : Type} [DecidableEq W] [AddCommGroup W] (h : IntervalClass o) {k : I} (hk : ∃ x, In o x k)
    (oracle : List (I × W) → I → Nat) (p q : Term ν) :
    ((∀ σ : ν → List (I × W), (∀ n, MapValue o (.numeric true true true true) (σ n)) →
        MapLexEq o (.numeric true true true true) oracle (p.ofMaps σ) (q.ofMaps σ)) ↔
      ∀ b : ν → W, p.value PointOps.numbers b = q.value PointOps.numbers b) ∧
    ((∀ σ : ν → List (I × W), (∀ n, MapValue o (.numeric true false true true) (σ n)) →
        MapDistEq o (.numeric true false true true) oracle (p.ofMaps σ) (q.ofMaps σ)) ↔
      ∀ b : ν → W, p.value PointOps.numbers b = q.value PointOps.numbers b) :=
  ⟨(law_maps h (numeric_neutral ..) (numeric_orderFree ..)
      (numeric_acts true true (numeric_comm true true true true).toMonoidValues) rfl hk oracle p q).2 rfl,
    (law_maps h (numeric_neutral ..) (numeric_orderFree ..)
      (numeric_acts true false (numeric_comm true false true true).toMonoidValues) rfl hk oracle p q).1⟩

/-- An equation holds for all partial `interval_map`s of sets iff it holds for the sets. -/
theorem C67_map_sets {α : Type} [DecidableEq α] (h : IntervalClass o) {k : I} (hk : ∃ x, In o x k)
    (oracle : List (I × Finset α) → I → Nat) (p q : Term ν) :
    ((∀ σ : ν → List (I × Finset α), (∀ n, MapValue o (.collector true true false) (σ n)) →
        MapLexEq o (.collector true true false) oracle (p.ofMaps σ) (q.ofMaps σ)) ↔
      ∀ b : ν → Finset α, p.value PointOps.sets b = q.value PointOps.sets b) ∧
    ((∀ σ : ν → List (I × Finset α), (∀ n, MapValue o (.collector true false false) (σ n)) →
        MapDistEq o (.collector true false false) oracle (p.ofMaps σ) (q.ofMaps σ)) ↔
      ∀ b : ν → Finset α, p.value PointOps.sets b = q.value PointOps.sets b) :=
  ⟨(law_maps h (collector_sets ..).neutral (collector_orderFree ..)
      (sets_acts (collector_sets (α := α) true true false)) rfl hk oracle p q).2 rfl,
    (law_maps h (collector_sets ..).neutral (collector_orderFree ..)
      (sets_acts (collector_sets (α := α) true false false)) rfl hk oracle p q).1⟩

/-- Hence `interval_map`s of sets and `interval_set`s obey the same equations. -/
theorem C67_same_laws {α : Type} [DecidableEq α] [Nonempty α] (h : IntervalClass o) {k : I} (hk : ∃ x, In o x k)
    (oracle : List (I × Finset α) → I → Nat) (oracle' : List I → I → Nat) (p q : Term ν) :
    (∀ σ : ν → List (I × Finset α), (∀ n, MapValue o (.collector true true false) (σ n)) →
        MapLexEq o (.collector true true false) oracle (p.ofMaps σ) (q.ofMaps σ)) ↔
    (∀ σ : ν → List I, (∀ n, SetValue o .joining (σ n)) →
      LexEq o .joining oracle' (p.ofSets σ) (q.ofSets σ)) := by
  rw [(C67_map_sets h hk oracle p q).1, C67_sets h hk]
  have hm : ∀ (r : Term ν) (b : ν → Finset α) e, e ∈ r.value PointOps.sets b ↔ r.holds fun n => e ∈ b n := by
    intro r b e
    induction r with
    | var m n => exact Iff.rfl
    | add p q ihp ihq => simp only [Term.value, Term.holds, PointOps.sets, Finset.mem_union] at *; rw [ihp, ihq]
    | sub p q ihp ihq => simp only [Term.value, Term.holds, PointOps.sets, Finset.mem_sdiff] at *; rw [ihp, ihq]
    | inter p q ihp ihq => simp only [Term.value, Term.holds, PointOps.sets, Finset.mem_inter] at *; rw [ihp, ihq]
    | flip p q ihp ihq =>
      simp only [Term.value, Term.holds, PointOps.sets, Finset.mem_symmDiff] at *; rw [ihp, ihq]; tauto
  constructor
  · intro he b
    classical
    obtain ⟨e⟩ := ‹Nonempty α›
    have := he fun n => if b n then {e} else ∅
    have := congrArg (e ∈ ·) this
    simp only [hm, eq_iff_iff] at this
    have hb : (fun n => e ∈ (if b n then ({e} : Finset α) else ∅)) = b := by
      funext n
      by_cases hc : b n <;> simp [hc]
    rwa [hb] at this
  · intro he b
    ext e
    rw [hm, hm]
    exact he _

/-! ## Examples -/

/-- `a - (a - b)` and `a & b`: a law of sets that is no law of total maps of numbers. -/
example : (∀ σ : Bool → List (SItv ℤ), (∀ n, SetValue Ex.ro .joining (σ n)) →
      LexEq Ex.ro .joining (fun _ _ => 0)
        ((Term.sub (.var false true) (.sub (.var false true) (.var true false))).ofSets σ)
        ((Term.inter (.var false true) (.var false false)).ofSets σ)) ∧
    ¬ ∀ σ : Bool → List (SItv ℤ × ℤ), (∀ n, MapValue Ex.ro (.numeric true true true true) (σ n)) →
      MapLexEq Ex.ro (.numeric true true true true) (fun _ _ => 0)
        ((Term.sub (.var false true) (.sub (.var false true) (.var true false))).ofMaps σ)
        ((Term.inter (.var false true) (.var false false)).ofMaps σ) := by
  have hk : ∃ x, In Ex.ro x (Ex.r 0 4) := ⟨0, show Ex.ro.contains _ _ = true by decide⟩
  constructor
  · refine (C67_sets Ex.ro_cls hk _ _ _).2 fun b => ?_
    simp only [Term.holds]; tauto
  · rw [(C67_numbers Ex.ro_cls hk _ _ _).1]
    intro hc
    have := hc fun _ => 1
    simp [Term.value, PointOps.numbers] at this

end ICL.Props
