import Verif.Theory.HintedAdd
import Verif.Props.MapOps

/-!
# What hinted additions compute for all functors, and where exactly C17, C24 and C30 hold
-/

set_option linter.unusedSectionVars false
set_option linter.unusedVariables false

namespace ICL.Props
open Spec

variable {D I V : Type} [LinearOrder D] {o : IntervalOps D I} [DecidableEq V]

/-! ## C17 -/

/-- For which functors absorbing maps store no identity element, whatever operations make them: exactly those
that do not make the identity element of itself and another value. -/
theorem C17_no_identity_exact [DecidableEq I] {E : Option (ElemFns D I)} (h : SetClass o E) {t : MapType V}
    (hv : Versions t) (ht : t.cfg.absorbs = true) (hk : ∃ k, o.isEmpty k = false) :
    (∀ m, MReachable o E t m → ∀ s ∈ m, s.2 ≠ t.cfg.ident) ↔
      ∀ v, v ≠ t.cfg.ident → t.plus.apply t.cfg.ident v ≠ t.cfg.ident := by
  constructor
  · intro hh v hv' he
    obtain ⟨k, hk⟩ := hk
    obtain ⟨x, hx⟩ := (nonempty_iff h.cls.lawful).2 hk
    obtain ⟨l', e, w, -, hval⟩ := IMap.addHint_apart h.cls.lawful t 0 (l := []) wf_nil k v (fun x hx => by simp at hx)
    have ha : IMap.absorbable t.cfg v = false := absorbable_false_iff.2 fun hi => hv' hi.2
    have h1 : valueAt o l' x = some t.cfg.ident := by
      rw [hval, if_pos (show o.contains _ _ = true from hx), ha, he]; rfl
    obtain ⟨s, hs, -, h2⟩ := (valueAt_some w).1 h1
    exact hh l' (.op (.addHint 0 k v) (.empty t) e) s hs h2
  · intro hh m hr s hs he
    have hc := hr.clean h hv (fun v hv' => absorbable_false_iff.2 fun hi =>
      hh v (fun hw => absorbable_false_iff.1 hv' ⟨ht, hw⟩) hi.2) ht
    exact noIdentity_iff.2 hc.2 s hs ⟨ht, he⟩

/-! ## C24 -/

/-- What `m.add(prior, {k, v})` computes, for all functors and whatever the hint: where the map has a value it is
combined with `v`, and absorbed if it must be. Where it has none, `v` is stored as by `add` without a hint, provided
some key of `k` is in the map; if none is, the functor is applied to the identity element and `v`. -/
theorem C24_add_hint_values (h : IntervalClass o) (t : MapType V) (n : Nat) {m : List (I × V)}
    (hm : MapWellFormed o m) (hi : NoIdentity t m) (k : I) (v : V) :
    ∃ m', IMap.addHint o t n m k v = some m' ∧ MapWellFormed o m' ∧
      (∀ x, ¬ o.Mem x k → valueAt o m' x = valueAt o m x) ∧
      (Ignored t v → ∀ x, valueAt o m' x = valueAt o m x) ∧
      (¬ Ignored t v → ∀ x, o.Mem x k →
        (∀ u, Assoc o m x u → valueAt o m' x = stored t (t.plus.apply u v)) ∧
        (¬ Key o m x → (∃ y, o.Mem y k ∧ Key o m y) → valueAt o m' x = some (t.plus.version v)) ∧
        ((∀ y, o.Mem y k → ¬ Key o m y) → valueAt o m' x = some (t.plus.apply t.cfg.ident v))) := by
  obtain ⟨m', u, e, w, -, u1, u2, hx⟩ := IMap.addHint_at h.lawful t n (mapWellFormed_iff.1 hm) (noIdentity_iff.1 hi) k v
  refine ⟨m', e, mapWellFormed_iff.2 w, fun x hk => ?_, fun hv x => ?_, fun hv x hk => ⟨fun a ha => ?_, fun hn hy => ?_,
    fun hy => ?_⟩⟩
  · rw [hx, if_neg (show ¬ o.contains _ _ = true from hk)]
  · rw [hx, absorbable_iff.2 hv]; simp
  · rw [hx, if_pos (show o.contains _ _ = true from hk), absorbable_false_iff.2 hv, (valueAt_assoc hm x a).2 ha, stored_eq]; rfl
  · rw [hx, if_pos (show o.contains _ _ = true from hk), absorbable_false_iff.2 hv, (C14_value_at hm x).2.2 hn, ← u2]
    · rfl
    · obtain ⟨y, h1, h2⟩ := hy
      exact ⟨y, h2, h1⟩
  · rw [hx, if_pos (show o.contains _ _ = true from hk), absorbable_false_iff.2 hv, (C14_value_at hm x).2.2 (hy x hk), ← u1]
    · rfl
    · exact fun y h1 h2 => hy y h2 h1

/-- A call of `add` with a hint makes the same of the map as one without exactly if the value is absorbed, the
interval is empty, some key of it is in the map, or the functor makes of the identity element and the value what
`add` stores. -/
theorem C24_add_hint_exact (h : IntervalClass o) (t : MapType V) (n : Nat) {m : List (I × V)}
    (hm : MapWellFormed o m) (hj : t.cfg.joining = true → MapFullyJoined o m) (hi : NoIdentity t m) (k : I) (v : V) :
    ∃ m₁ m₂, IMap.addHint o t n m k v = some m₁ ∧ IMap.addSeg o t m k v = some m₂ ∧
      (eqC o mapSeg m₁ m₂ = true ↔ Ignored t v ∨ (∀ x, ¬ o.Mem x k) ∨ (∃ x, o.Mem x k ∧ Key o m x) ∨
        t.plus.apply t.cfg.ident v = t.plus.version v) := by
  have w := mapWellFormed_iff.1 hm
  have hj' := fun hc => (mapFullyJoined_iff h.lawful w).1 (hj hc)
  obtain ⟨m₁, e1, a1, b1⟩ := IMap.addHintC_gen h.lawful t.cfg t.plus n w k v
  obtain ⟨m₂, e2, a2, b2⟩ := IMap.addC_spec h.lawful t.cfg t.plus w k v
  refine ⟨m₁, m₂, e1, e2, ?_⟩
  cases hv : IMap.absorbable t.cfg v with
  | true =>
    obtain rfl := a1 hv
    obtain rfl := a2 hv
    exact iff_of_true (jointEq_eqC h.lawful w w hj' hj' (JointEq.refl t.cfg _)) (.inl (absorbable_iff.1 hv))
  | false =>
    obtain ⟨up, u, s1, hup, hu1, hu2⟩ := b1 hv
    have s2 := b2 hv
    rw [hup (noIdentity_iff.1 hi)] at s1
    have same : u = t.plus.version v → eqC o mapSeg m₁ m₂ = true := by
      rintro rfl
      exact jointEq_eqC h.lawful s1.wf s2.wf (fun hc => s1.joined hc (hj' hc)) (fun hc => s2.joined hc (hj' hc))
        fun x y w hd => (s1.joint x y w hd).trans (s2.joint x y w hd).symm
    constructor
    · intro he
      by_contra hc
      rw [not_or, not_or, not_or] at hc
      obtain ⟨-, h2, h3, h4⟩ := hc
      simp only [not_forall, not_not] at h2
      obtain ⟨x, hx⟩ := h2
      have hn : ∀ y, Dom o mapSeg m y → ¬ o.Mem y k := fun y hy hk => h3 ⟨y, hk, hy⟩
      have q : valueAt o m x = none := valueAt_none.2 fun hd => hn x hd hx
      have p := ((eqC_spec h.lawful s1.wf s2.wf).1 he).2 x u
      have v1 : valueAt o m₁ x = some u := by
        rw [IMap.updSpec_at h.lawful w s1, q, if_pos (show o.contains _ _ = true from hx)]
      have v2 : valueAt o m₂ x = some (t.plus.version v) := by
        rw [IMap.updSpec_at h.lawful w s2, q, if_pos (show o.contains _ _ = true from hx)]
      have : valueAt o m₂ x = some u :=
        (valueAt_some s2.wf).2 (p.1 ((valueAt_some s1.wf).1 v1))
      rw [v2] at this
      rw [← hu1 hn] at h4
      exact h4 (Option.some.inj this).symm
    · rintro (h1 | h1 | ⟨x, hx, hd⟩ | h1)
      · exact absurd h1 (absorbable_false_iff.1 hv)
      · refine jointEq_eqC h.lawful s1.wf s2.wf (fun hc => s1.joined hc (hj' hc)) (fun hc => s2.joined hc (hj' hc))
          fun x y w hd => (s1.joint x y w hd).trans (Iff.trans ?_ (s2.joint x y w hd).symm)
        unfold Eff
        simp [h1]
      · exact same (hu2 ⟨x, hd, hx⟩)
      · by_cases hd : ∃ x, Dom o mapSeg m x ∧ o.Mem x k
        · exact same (hu2 hd)
        · exact same ((hu1 fun x hx hk => hd ⟨x, hx, hk⟩).trans h1)

/-- What `m += r` computes for an interval map `r` and all functors (for absorbing maps those of
`C17_no_identity_exact`): each segment of `r` is added as by `add` with a hint, and only its own keys matter for it. -/
theorem C24_add_map_values (h : IntervalClass o) {t : MapType V} (hv : Versions t)
    (hs : ∀ v, ¬ Ignored t v → ¬ Ignored t (t.plus.apply t.cfg.ident v)) (oracle : List (I × V) → I → Nat)
    {m r : List (I × V)} (hm : MapWellFormed o m) (hi : NoIdentity t m) (hr : MapWellFormed o r) :
    ∃ m', IMap.addMap o t oracle m r = some m' ∧ MapWellFormed o m' ∧
      (∀ x, ¬ Key o r x → valueAt o m' x = valueAt o m x) ∧
      ∀ s ∈ r, ∀ x, o.Mem x s.1 → (Ignored t s.2 → valueAt o m' x = valueAt o m x) ∧
        (¬ Ignored t s.2 →
          (∀ u, Assoc o m x u → valueAt o m' x = stored t (t.plus.apply u s.2)) ∧
          (¬ Key o m x → (∃ y, o.Mem y s.1 ∧ Key o m y) → valueAt o m' x = some (t.plus.version s.2)) ∧
          ((∀ y, o.Mem y s.1 → ¬ Key o m y) → valueAt o m' x = some (t.plus.apply t.cfg.ident s.2))) := by
  obtain ⟨m', e, w, -, h1, h2⟩ := IMap.addMap_any h.lawful hv
    (fun v hv => absorbable_false_iff.2 (hs v (absorbable_false_iff.1 hv))) (oracle := oracle)
    ⟨mapWellFormed_iff.1 hm, noIdentity_iff.1 hi⟩ (mapWellFormed_iff.1 hr)
  refine ⟨m', e, mapWellFormed_iff.2 w, h1, fun s hs x hk => ?_⟩
  obtain ⟨u, u1, u2, hx⟩ := h2 s hs x hk
  refine ⟨fun hv => ?_, fun hv => ⟨fun a ha => ?_, fun hn hy => ?_, fun hy => ?_⟩⟩
  · rw [hx, absorbable_iff.2 hv]; simp
  · rw [hx, absorbable_false_iff.2 hv, (valueAt_assoc hm x a).2 ha, stored_eq]; rfl
  · rw [hx, absorbable_false_iff.2 hv, (C14_value_at hm x).2.2 hn, ← u2]
    · rfl
    · obtain ⟨y, h1, h2⟩ := hy
      exact ⟨y, h2, h1⟩
  · rw [hx, absorbable_false_iff.2 hv, (C14_value_at hm x).2.2 (hy x hk), ← u1]
    · rfl
    · exact fun y h1 h2 => hy y h2 h1

/-! ## C30 -/

/-- What assignment to an `interval_map` computes, for all functors: values are absorbed, or the functor is applied
to the identity element and the value. The result is fully joined. -/
theorem C30_assign_map_values (h : IntervalClass o) {t : MapType V} (ht : t.cfg.joining = true)
    (oracle : List (I × V) → I → Nat) {m : List (I × V)} (hm : MapWellFormed o m) :
    ∃ m', IMap.assign o t oracle m = some m' ∧ MapWellFormed o m' ∧ MapFullyJoined o m' ∧
      ∀ x, valueAt o m' x = (valueAt o m x).bind fun v =>
        if Ignored t v then none else some (t.plus.apply t.cfg.ident v) := by
  obtain ⟨m', e, w, j, hx⟩ := IMap.assign_at h.lawful t ht oracle (mapWellFormed_iff.1 hm)
  refine ⟨m', e, mapWellFormed_iff.2 w, (mapFullyJoined_iff h.lawful w).2 j, fun x => ?_⟩
  rw [hx]
  simp only [absorbable_iff]

/-- Assignment to an `interval_map` keeps all values exactly if no value of the map is absorbed or changed by the
functor when it is combined with the identity element. -/
theorem C30_assign_map_exact (h : IntervalClass o) {t : MapType V} (ht : t.cfg.joining = true)
    (oracle : List (I × V) → I → Nat) {m : List (I × V)} (hm : MapWellFormed o m) :
    ∃ m', IMap.assign o t oracle m = some m' ∧ ((∀ x, valueAt o m' x = valueAt o m x) ↔
      ∀ s ∈ m, ¬ Ignored t s.2 ∧ t.plus.apply t.cfg.ident s.2 = s.2) := by
  obtain ⟨m', e, -, -, hx⟩ := C30_assign_map_values h ht oracle hm
  have w := mapWellFormed_iff.1 hm
  refine ⟨m', e, fun hh s hs => ?_, fun hh x => ?_⟩
  · obtain ⟨x, hxs⟩ := w.nonempty s hs
    have h1 := (valueAt_assoc hm x s.2).2 ⟨s, hs, hxs, rfl⟩
    have h2 := hh x
    rw [hx, h1, Option.bind_some] at h2
    split at h2
    · cases h2
    · exact ⟨‹_›, Option.some.inj h2⟩
  · rw [hx]
    cases hv : valueAt o m x with
    | none => rfl
    | some v =>
      obtain ⟨s, hs, -, rfl⟩ := (valueAt_assoc hm x v).1 hv
      rw [Option.bind_some, if_neg (hh s hs).1, (hh s hs).2]

/-! ## Examples -/

/-- In an enriching map of maxima: `[0,5)` overlaps with nothing, `[6,8)` does. -/
example : IMap.addMap Ex.ro (.maxima true false false) (fun _ _ => 0) [(Ex.r 7 9, 3)] [(Ex.r 0 5, -1), (Ex.r 6 8, -2)] =
    some [(Ex.r 0 5, 0), (Ex.r 6 7, -2), (Ex.r 7 9, 3)] := by decide

/-- The condition of `C17_no_identity_exact` holds for sums, and fails for maxima of signed numbers. -/
example : (∀ v, v ≠ 0 → (exMap true true false).plus.apply 0 v ≠ 0) ∧ ¬ ∀ v, v ≠ 0 → exMax.plus.apply 0 v ≠ 0 := by
  refine ⟨fun v hv => ?_, fun hh => hh (-1) (by decide) (by decide)⟩
  change 0 + v ≠ 0
  rwa [zero_add]

/-- Both kinds of calls in `C24_add_hint_exact`: `[0,5)` has no key in the map and `max(0, -1) ≠ -1`, but `[0,8)` has
one. -/
example : IMap.addHint Ex.ro exMax 0 [(Ex.r 7 9, 3)] (Ex.r 0 5) (-1) ≠ IMap.addSeg Ex.ro exMax [(Ex.r 7 9, 3)] (Ex.r 0 5) (-1) ∧
    IMap.addHint Ex.ro exMax 0 [(Ex.r 7 9, 3)] (Ex.r 0 8) (-1) = IMap.addSeg Ex.ro exMax [(Ex.r 7 9, 3)] (Ex.r 0 8) (-1) := by
  decide

/-- Assigned to an `interval_map` of maxima, positive values are kept and negative ones are not. -/
example : IMap.assign Ex.ro (.maxima true false false) (fun _ _ => 0) [(Ex.r 0 5, 4), (Ex.r 5 7, 4), (Ex.r 7 8, -3)] =
    some [(Ex.r 0 7, 4), (Ex.r 7 8, 0)] := by decide

end ICL.Props
