import Verif.OverlapSpec
import Verif.Model.Overlap
import Verif.Theory.Program
import Verif.Props.MapLaws

/-!
# Lemmas about series of additions
-/

set_option linter.unusedSectionVars false

namespace ICL
open Spec

section fold
variable {V : Type} [DecidableEq V] {t : MapType V}

/-- A value that a map of the type `t` may have at a key. -/
def Proper (t : MapType V) (a : Option V) : Prop := ∀ u, a = some u → ¬ Ignored t u

theorem stored_proper (w : V) : Proper t (stored t w) := by
  intro u hu
  unfold stored at hu
  split at hu
  · cases hu
  · cases hu; assumption

theorem added_monoid (hM : MonoidValues t) {a : Option V} (ha : Proper t a) (v : V) :
    added t v a = stored t (t.plus.apply (a.getD t.cfg.ident) v) := by
  cases a with
  | none =>
    simp only [added, combined, stored, Option.getD_none, hM.ident_left, hM.version]
  | some u =>
    simp only [added, combined, Option.getD_some]
    by_cases hv : Ignored t v
    · rw [if_pos hv, hv.2, hM.ident_right, stored, if_neg (ha u rfl)]
    · rw [if_neg hv]

theorem getD_stored (hM : MonoidValues t) (w : V) : (stored t w).getD t.cfg.ident = w := by
  unfold stored
  split
  · rename_i h; exact h.2.symm
  · rfl

theorem foldl_added (hM : MonoidValues t) (vs : List V) {a : Option V} (ha : Proper t a) :
    vs.foldl (fun a v => added t v a) a = aggregate t a vs := by
  induction vs generalizing a with
  | nil => simp [aggregate]
  | cons v vs ih =>
    rw [List.foldl_cons, added_monoid hM ha, ih (stored_proper _)]
    unfold aggregate
    rw [if_neg (List.cons_ne_nil _ _), List.foldl_cons, getD_stored hM]
    split
    · rename_i h; subst h; rfl
    · rfl

theorem aggregate_perm (hM : CommMonoidValues t) {vs ws : List V} (hp : vs.Perm ws) (a : Option V) :
    aggregate t a vs = aggregate t a ws := by
  unfold aggregate
  have h1 : (vs = []) ↔ (ws = []) := by
    constructor
    · rintro rfl; exact List.nil_perm.1 hp
    · rintro rfl; exact List.perm_nil.1 hp
  have h2 : vs.foldl t.plus.apply (a.getD t.cfg.ident) = ws.foldl t.plus.apply (a.getD t.cfg.ident) := by
    haveI : RightCommutative t.plus.apply := ⟨fun u v w => by rw [hM.assoc, hM.comm v w, ← hM.assoc]⟩
    exact hp.foldl_eq _
  simp only [h1, h2]

theorem valuesOver_perm {D I : Type} {o : IntervalOps D I} {l r : List (I × V)} (hp : l.Perm r) (x : D) :
    (valuesOver o l x).Perm (valuesOver o r x) := (hp.filter _).map _

theorem foldl_added_some {P : V → Prop} (hi : ∀ v, P v → ¬ Ignored t v)
    (hc : ∀ u v, P u → P v → P (t.plus.apply u v)) (vs : List V) (hvs : ∀ v ∈ vs, P v) {w : V} (hw : P w) :
    vs.foldl (fun a v => added t v a) (some w) = some (vs.foldl t.plus.apply w) := by
  induction vs generalizing w with
  | nil => rfl
  | cons v vs ih =>
    have hw' := hc w v hw (hvs v (by simp))
    have e : added t v (some w) = some (t.plus.apply w v) := by
      simp [added, combined, stored, hi v (hvs v (by simp)), hi _ hw']
    rw [List.foldl_cons, e, List.foldl_cons]
    exact ih (fun u hu => hvs u (by simp [hu])) hw'

/-- As long as all values have the property `P`, which combining them preserves, nothing is absorbed. -/
theorem foldl_added_none {P : V → Prop} (hi : ∀ v, P v → ¬ Ignored t v) (hver : ∀ v, t.plus.version v = v)
    (hc : ∀ u v, P u → P v → P (t.plus.apply u v)) (vs : List V) (hvs : ∀ v ∈ vs, P v) :
    vs.foldl (fun a v => added t v a) none = together t vs := by
  cases vs with
  | nil => rfl
  | cons v vs =>
    have e : added t v none = some v := by simp [added, combined, hi v (hvs v (by simp)), hver]
    rw [List.foldl_cons, e]
    exact foldl_added_some hi hc vs (fun u hu => hvs u (by simp [hu])) (hvs v (by simp))

theorem together_perm (ha : ∀ u v w, t.plus.apply (t.plus.apply u v) w = t.plus.apply u (t.plus.apply v w))
    (hc : ∀ u v, t.plus.apply u v = t.plus.apply v u) {vs ws : List V} (hp : vs.Perm ws) :
    together t vs = together t ws := by
  haveI : RightCommutative t.plus.apply := ⟨fun u v w => by rw [ha, hc v w, ← ha]⟩
  induction hp with
  | nil => rfl
  | cons x hp _ => exact congrArg some (hp.foldl_eq x)
  | swap x y l => simp only [together, List.foldl_cons, hc y x]
  | trans _ _ h1 h2 => exact h1.trans h2

end fold

theorem forEach_append {S T : Type} (f : S → T → Option S) (s : S) (a b : List T) :
    forEach f s (a ++ b) = (forEach f s a).bind fun s' => forEach f s' b := by
  induction a generalizing s with
  | nil => rfl
  | cons x a ih =>
    rw [List.cons_append, forEach, forEach]
    cases f s x with
    | none => rfl
    | some s' => exact ih s'

section feed
variable {D I V : Type} [LinearOrder D] {o : IntervalOps D I} [DecidableEq V] {t : MapType V}

theorem valuesOver_cons (s : I × V) (l : List (I × V)) (x : D) :
    valuesOver o (s :: l) x = if o.contains s.1 x then s.2 :: valuesOver o l x else valuesOver o l x := by
  unfold valuesOver
  by_cases h : o.contains s.1 x = true
  · simp [h]
  · simp [h]

theorem mem_valuesOver {l : List (I × V)} {x : D} {v : V} : v ∈ valuesOver o l x ↔ ∃ k, (k, v) ∈ l ∧ In o x k := by
  simp [valuesOver, In]

theorem proper_valueAt {m : List (I × V)} (hm : MapWellFormed o m) (hn : NoIdentity t m) (x : D) :
    Proper t (valueAt o m x) := by
  intro u hu
  obtain ⟨s, hs, _, rfl⟩ := (valueAt_assoc hm x u).1 hu
  exact hn s hs

/-- What a step does, and what it preserves. -/
structure Fed (o : IntervalOps D I) (t : MapType V) (m : List (I × V)) (l : List (I × V)) (m' : List (I × V)) : Prop where
  wf : MapWellFormed o m'
  joined : t.cfg.joining = true → MapFullyJoined o m → MapFullyJoined o m'
  value : ∀ x, valueAt o m' x = (valuesOver o l x).foldl (fun a v => added t v a) (valueAt o m x)

theorem Fed.nil {m : List (I × V)} (hm : MapWellFormed o m) : Fed o t m [] m := ⟨hm, fun _ h => h, fun _ => rfl⟩

theorem Fed.trans {m m' m'' : List (I × V)} {s : I × V} {l : List (I × V)} (h1 : Fed o t m [s] m') (h2 : Fed o t m' l m'') :
    Fed o t m (s :: l) m'' :=
  ⟨h2.wf, fun hj hm => h2.joined hj (h1.joined hj hm), fun x => by
    rw [h2.value, h1.value, valuesOver_cons, valuesOver_cons]
    split <;> rfl⟩

theorem added_fun (v : V) : added t v = IMap.addF t.cfg t.plus v := funext fun a => added_eq t v a

theorem fed_of {m m' : List (I × V)} (h : IntervalClass o) (hm : MapWellFormed o m) {N : Prop} {k : I} {v : V}
    (p : IMap.Pt o t.cfg N m m' (IMap.on o k fun _ => added t v)) (hv : ∀ x, valueAt o m' x =
      IMap.on o k (fun _ => added t v) x (valueAt o m x)) : Fed o t m [(k, v)] m' := by
  refine ⟨mapWellFormed_iff.2 p.wf, fun hj hm' => ?_, fun x => ?_⟩
  · exact (mapFullyJoined_iff h.lawful p.wf).2 (p.joined hj ((mapFullyJoined_iff h.lawful (mapWellFormed_iff.1 hm)).1 hm'))
  · rw [hv, valuesOver_cons, IMap.on]
    split <;> rfl

/-- A step without hint. -/
theorem feedOne_plain (h : IntervalClass o) {m : List (I × V)} (hm : MapWellFormed o m) (k : I) (v : V) :
    ∃ m', IMap.feedOne o t m (none, k, v) = some m' ∧ Fed o t m [(k, v)] m' := by
  obtain ⟨m', e, w, h1, h2⟩ := Props.C18_add h t hm k v
  obtain ⟨m'', e', p⟩ := IMap.addSeg_pt h.lawful t (mapWellFormed_iff.1 hm) k v
  rw [e] at e'; cases e'
  rw [← added_fun] at p
  refine ⟨m', e, fed_of h hm p fun x => ?_⟩
  unfold IMap.on
  split
  · exact h1 x ‹_›
  · exact h2 x ‹_›

/-- A step with or without hint. -/
theorem feedOne_any (h : IntervalClass o) (hN : Neutral t) {m : List (I × V)} (hm : MapWellFormed o m)
    (hi : NoIdentity t m) (a : Option Nat × I × V) :
    ∃ m', IMap.feedOne o t m a = some m' ∧ Fed o t m [a.2] m' ∧ NoIdentity t m' := by
  obtain ⟨n, k, v⟩ := a
  have hi' := noIdentity_iff.1 hi
  cases n with
  | none =>
    obtain ⟨m', e, p⟩ := IMap.addSeg_pt h.lawful t (mapWellFormed_iff.1 hm) k v
    rw [← added_fun] at p
    exact ⟨m', e, fed_of h hm p (p.at_ hN hi'), noIdentity_iff.2 (p.noIdent hN hi')⟩
  | some n =>
    obtain ⟨m', e, p⟩ := IMap.addHint_pt h.lawful t n (mapWellFormed_iff.1 hm) k v
    rw [← added_fun] at p
    exact ⟨m', e, fed_of h hm p (p.at_ hN hi'), noIdentity_iff.2 (p.noIdent hN hi')⟩

theorem feed_plain (h : IntervalClass o) (l : List (I × V)) {m : List (I × V)} (hm : MapWellFormed o m) :
    ∃ m', IMap.feed o t m (l.map (none, ·)) = some m' ∧ Fed o t m l m' := by
  induction l generalizing m with
  | nil => exact ⟨m, rfl, .nil hm⟩
  | cons s l ih =>
    obtain ⟨m₁, e₁, f₁⟩ := feedOne_plain (t := t) h hm s.1 s.2
    obtain ⟨m₂, e₂, f₂⟩ := ih f₁.wf
    refine ⟨m₂, ?_, f₁.trans f₂⟩
    unfold IMap.feed at *
    rw [List.map_cons, forEach, e₁]
    exact e₂

theorem feed_any (h : IntervalClass o) (hN : Neutral t) (l : List (Option Nat × I × V)) {m : List (I × V)}
    (hm : MapWellFormed o m) (hi : NoIdentity t m) :
    ∃ m', IMap.feed o t m l = some m' ∧ Fed o t m (l.map Prod.snd) m' ∧ NoIdentity t m' := by
  induction l generalizing m with
  | nil => exact ⟨m, rfl, .nil hm, hi⟩
  | cons s l ih =>
    obtain ⟨m₁, e₁, f₁, n₁⟩ := feedOne_any h hN hm hi s
    obtain ⟨m₂, e₂, f₂, n₂⟩ := ih f₁.wf n₁
    refine ⟨m₂, ?_, f₁.trans f₂, n₂⟩
    unfold IMap.feed at *
    rw [forEach, e₁]
    exact e₂

theorem drain_at (h : IntervalClass o) (r : List (I × V)) {m : List (I × V)} (hm : MapWellFormed o m) :
    ∃ m', IMap.drain o t m r = some m' ∧ MapWellFormed o m' ∧
      (t.cfg.joining = true → MapFullyJoined o m → MapFullyJoined o m') ∧
      ∀ x, valueAt o m' x = (valuesOver o r x).foldl (fun a v => subtracted t v a) (valueAt o m x) := by
  induction r generalizing m with
  | nil => exact ⟨m, rfl, hm, fun _ h => h, fun _ => rfl⟩
  | cons s r ih =>
    obtain ⟨m₁, e₁, w₁, a₁, b₁⟩ := Props.C19_subtract h t hm s.1 s.2
    obtain ⟨m₁', e₁', p⟩ := IMap.subSeg_pt h.lawful t (mapWellFormed_iff.1 hm) s.1 s.2
    rw [e₁] at e₁'; cases e₁'
    obtain ⟨m₂, e₂, w₂, j₂, v₂⟩ := ih w₁
    refine ⟨m₂, ?_, w₂, fun hj hm' => j₂ hj ?_, fun x => ?_⟩
    · unfold IMap.drain at *
      rw [forEach, e₁]
      exact e₂
    · exact (mapFullyJoined_iff h.lawful p.wf).2
        (p.joined hj ((mapFullyJoined_iff h.lawful (mapWellFormed_iff.1 hm)).1 hm'))
    · rw [v₂, valuesOver_cons]
      split
      · rw [List.foldl_cons, a₁ x ‹_›]
      · rw [b₁ x ‹_›]

end feed

section numbers

theorem foldl_sum {W : Type} [AddMonoid W] (vs : List W) (u : W) : vs.foldl (fun a b => a + b) u = u + vs.sum := by
  induction vs generalizing u with
  | nil => simp
  | cons v vs ih => rw [List.foldl_cons, ih, List.sum_cons, add_assoc]

theorem aggregate_numeric {W : Type} [DecidableEq W] [AddGroup W] (joining total signed : Bool) (vs : List W) :
    aggregate (.numeric joining true total signed) none vs = if vs.sum = 0 then none else some vs.sum := by
  unfold aggregate
  have e : vs.foldl (MapType.numeric (V := W) joining true total signed).plus.apply 0 = vs.sum :=
    (foldl_sum vs 0).trans (zero_add _)
  split
  · rename_i h; subst h; simp
  · rw [Option.getD_none, show vs.foldl (MapType.numeric (V := W) joining true total signed).plus.apply
      (MapType.numeric (V := W) joining true total signed).cfg.ident = vs.sum from e]
    simp [stored, Ignored, MapType.numeric]

theorem foldl_subtracted (joining total signed : Bool) (vs : List ℤ) (hv : ∀ v ∈ vs, 0 < v) (S : ℤ) (hS : vs.sum ≤ S) :
    vs.foldl (fun a v => subtracted (.numeric joining true total signed) v a) (if S = 0 then none else some S) =
      if S = vs.sum then none else some (S - vs.sum) := by
  induction vs generalizing S with
  | nil => simp
  | cons v vs ih =>
    have h0 := hv v (by simp)
    have hvs : ∀ w ∈ vs, 0 < w := fun w hw => hv w (by simp [hw])
    have h1 : 0 ≤ vs.sum := by
      clear ih hS hv
      induction vs with
      | nil => simp
      | cons w vs ih =>
        have := hvs w (by simp)
        have := ih fun u hu => hvs u (by simp [hu])
        simp only [List.sum_cons]; omega
    rw [List.sum_cons] at hS ⊢
    have hS0 : S ≠ 0 := by omega
    have e : subtracted (.numeric joining true total signed) v (some S) = if S - v = 0 then none else some (S - v) := by
      have hv0 : v ≠ 0 := by omega
      simp [subtracted, combined, stored, Ignored, MapType.numeric, Combiner.minus, hv0]
    rw [List.foldl_cons, if_neg hS0, e, ih hvs _ (by omega)]
    have : S - v = vs.sum ↔ S = v + vs.sum := by omega
    simp only [this, sub_sub]

theorem sum_le_of_sublist {a b : List ℤ} (h : a.Sublist b) (hb : ∀ v ∈ b, 0 < v) : a.sum ≤ b.sum := by
  induction h with
  | slnil => simp
  | cons v _ ih =>
    have := hb v (by simp)
    have := ih fun w hw => hb w (by simp [hw])
    simp only [List.sum_cons]; omega
  | cons_cons v _ ih =>
    have := ih fun w hw => hb w (by simp [hw])
    simp only [List.sum_cons]; omega

end numbers
end ICL
