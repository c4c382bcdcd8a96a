import Verif.Model.SetFun
import Verif.Theory.SetOps

/-!
# Lookup and the common range of two containers
-/

set_option linter.unusedSectionVars false
set_option linter.unusedVariables false
set_option linter.unusedSimpArgs false

namespace ICL

variable {D I V S : Type} [LinearOrder D] {o : IntervalOps D I} {g : SegOps I V S}

/-- What `find(x)` needs to know about the interval it searches with. -/
def Lookup.LawfulAt (o : IntervalOps D I) (x : D) : Lookup D I → Prop
  | .exact key => ∀ y, o.Mem y (key x) ↔ y = x
  | .lower trail => o.Mem x (trail x) ∧ ∀ y, o.Mem y (trail x) → x ≤ y
  | .upper trail => o.Mem x (trail x) ∧ ∀ y, o.Mem y (trail x) → y ≤ x

section
variable (h : o.Lawful)
include h

theorem findI_spec {l : List S} (hl : WF o g l) {k : I} (hk : o.Nonempty k) :
    ∃ r, findI o g l k = some r ∧
      (r = none → ∀ s ∈ l, ∀ x, o.Mem x (g.key s) → ¬ o.Mem x k) ∧
      (∀ s, r = some s → s ∈ l ∧ (∃ x, o.Mem x (g.key s) ∧ o.Mem x k) ∧
        ∀ t ∈ l, (∃ x, o.Mem x (g.key t) ∧ o.Mem x k) → t = s ∨ o.Before (g.key s) (g.key t)) := by
  obtain ⟨a, b, c, e, rfl, h1, h2, h3⟩ := equalRange_spec h hl hk
  have na : ∀ s ∈ a, ∀ x, o.Mem x (g.key s) → ¬ o.Mem x k :=
    fun s hs x hx hxk => lt_irrefl _ (h1 s hs x x hx hxk)
  have nc : ∀ s ∈ c, ∀ x, o.Mem x (g.key s) → ¬ o.Mem x k :=
    fun s hs x hx hxk => lt_irrefl _ (h3 s hs x x hxk hx)
  refine ⟨b.head?, by simp only [findI, e, Option.map_some], ?_, ?_⟩
  · intro hb s hs
    rw [List.head?_eq_none_iff] at hb
    subst hb
    rcases List.mem_append.1 hs with hs | hs
    · exact na s (by simpa using hs)
    · exact nc s hs
  · intro s hs
    have hsb : s ∈ b := List.mem_of_head? hs
    refine ⟨by simp [hsb], h2 s hsb, ?_⟩
    rintro t ht ⟨x, hx, hxk⟩
    have htb : t ∈ b := by
      rcases List.mem_append.1 ht with ht | ht
      · rcases List.mem_append.1 ht with ht | ht
        · exact absurd hxk (na t ht x hx)
        · exact ht
      · exact absurd hxk (nc t ht x hx)
    cases b with
    | nil => simp at htb
    | cons f b =>
      simp only [List.head?_cons, Option.some.injEq] at hs
      subst hs
      rcases List.mem_cons.1 htb with rfl | htb
      · exact Or.inl rfl
      · right
        have hw := (wf_cons.1 (wf_append.1 (wf_append.1 hl).1).2.1).2.2
        exact fun x y hx hy => hw x y hx ⟨t, htb, hy⟩

/-- `find(element)` finds the segment that contains the element. -/
theorem findE_spec {lk : Lookup D I} {x : D} (hlk : lk.LawfulAt o x) {l : List S} (hl : WF o g l) :
    ∃ r, findE o g lk l x = some r ∧ ∀ s, r = some s ↔ s ∈ l ∧ o.Mem x (g.key s) := by
  cases lk with
  | exact key =>
    have hk : o.Nonempty (key x) := ⟨x, (hlk x).2 rfl⟩
    obtain ⟨r, e, hn, hs⟩ := findI_spec h (g := g) hl hk
    refine ⟨r, e, fun s => ?_⟩
    constructor
    · intro hr
      obtain ⟨h1, ⟨y, hy, hyk⟩, _⟩ := hs s hr
      rw [hlk] at hyk
      subst hyk
      exact ⟨h1, hy⟩
    · rintro ⟨h1, h2⟩
      cases r with
      | none => exact absurd ((hlk x).2 rfl) (hn rfl s h1 x h2)
      | some t =>
        obtain ⟨h3, ⟨y, hy, hyk⟩, _⟩ := hs t rfl
        rw [hlk] at hyk
        subst hyk
        rw [hl.unique h3 h1 hy h2]
  | lower trail =>
    have hk : o.Nonempty (trail x) := ⟨x, hlk.1⟩
    obtain ⟨a, b, c, e, rfl, h1, h2, h3⟩ := equalRange_spec h hl hk
    refine ⟨_, by simp only [findE, lowerBound, e, Option.map_some]; rfl, fun s => ?_⟩
    constructor
    · intro hr
      rw [Option.filter_eq_some_iff] at hr
      refine ⟨?_, hr.2⟩
      have := List.mem_of_head? hr.1
      simp only [List.mem_append] at this ⊢
      tauto
    · rintro ⟨hs, hx⟩
      rw [Option.filter_eq_some_iff]
      refine ⟨?_, hx⟩
      have hs' : s ∈ b ++ c := by
        rw [List.append_assoc, List.mem_append] at hs
        rcases hs with hs | hs
        · exact absurd (h1 s hs x x hx hlk.1) (lt_irrefl _)
        · exact hs
      have hw : WF o g (b ++ c) := by
        rw [List.append_assoc] at hl; exact (wf_append.1 hl).2.1
      cases hbc : b ++ c with
      | nil => rw [hbc] at hs'; simp at hs'
      | cons t r =>
        rw [List.head?_cons]
        rw [hbc] at hs' hw
        rcases List.mem_cons.1 hs' with rfl | hsr
        · rfl
        · exfalso
          have hbf := (wf_cons.1 hw).2.2
          have ht : t ∈ b ++ c := by simp [hbc]
          rcases List.mem_append.1 ht with ht | ht
          · obtain ⟨z, hz, hzk⟩ := h2 t ht
            have := hbf z x hz ⟨s, hsr, hx⟩
            have := hlk.2 z hzk
            order
          · obtain ⟨z, hz⟩ := (wf_cons.1 hw).1
            have := hbf z x hz ⟨s, hsr, hx⟩
            have := h3 t ht x z hlk.1 hz
            order
  | upper trail =>
    have hk : o.Nonempty (trail x) := ⟨x, hlk.1⟩
    obtain ⟨a, b, c, e, rfl, h1, h2, h3⟩ := equalRange_spec h hl hk
    refine ⟨_, by simp only [findE, lastCollision, e, Option.map_some]; rfl, fun s => ?_⟩
    constructor
    · intro hr
      rw [Option.filter_eq_some_iff] at hr
      refine ⟨?_, hr.2⟩
      cases hab : (a ++ b).getLast? with
      | none =>
        have := hr.1
        rw [hab] at this
        have := List.mem_of_head? this
        simp [this]
      | some t =>
        have := hr.1
        rw [hab] at this
        simp only [Option.some.injEq] at this
        subst this
        have := List.mem_of_getLast? hab
        exact List.mem_append_left _ this
    · rintro ⟨hs, hx⟩
      rw [Option.filter_eq_some_iff]
      refine ⟨?_, hx⟩
      have hs' : s ∈ a ++ b := by
        rcases List.mem_append.1 hs with hs | hs
        · exact hs
        · exact absurd (h3 s hs x x hlk.1 hx) (lt_irrefl _)
      have hw : WF o g (a ++ b) := (wf_append.1 hl).1
      rcases List.eq_nil_or_concat (a ++ b) with hab | ⟨r, t, hab⟩
      · rw [hab] at hs'; simp at hs'
      · have hgl : (a ++ b).getLast? = some t := by rw [hab]; simp
        rw [hgl]
        have ht : t ∈ a ++ b := by simp [hab]
        have hw' := hw
        rw [hab] at hw'
        rw [hab] at hs'
        have hw'' : WF o g (r ++ [t]) := by simpa using hw'
        rcases (by simpa using hs' : s ∈ r ∨ s = t) with hsr | rfl
        · exfalso
          have hbf := (wf_append.1 hw'').2.2
          have hbf' : ∀ z, o.Mem z (g.key t) → x < z :=
            fun z hz => hbf x z ⟨s, hsr, hx⟩ ⟨t, by simp, hz⟩
          rcases List.mem_append.1 ht with ht | ht
          · obtain ⟨z, hz⟩ := hw.nonempty t (by simp [ht])
            have := hbf' z hz
            have := h1 t ht z x hz hlk.1
            order
          · obtain ⟨z, hz, hzk⟩ := h2 t ht
            have := hbf' z hz
            have := hlk.2 z hzk
            order
        · rfl

/-- `contains(element)`. -/
theorem containsE_spec {lk : Lookup D I} {x : D} (hlk : lk.LawfulAt o x) {l : List S} (hl : WF o g l) :
    ∃ r, containsE o g lk l x = some r ∧ (r = true ↔ Dom o g l x) := by
  obtain ⟨r, e, hr⟩ := findE_spec h hlk hl
  refine ⟨r.isSome, by simp [containsE, e], ?_⟩
  rw [Option.isSome_iff_exists]
  constructor
  · rintro ⟨s, hs⟩; exact ⟨s, ((hr s).1 hs).1, ((hr s).1 hs).2⟩
  · rintro ⟨s, hs, hx⟩; exact ⟨s, (hr s).2 ⟨hs, hx⟩⟩

/-- `intersects(interval)`. -/
theorem intersectsSeg_spec {l : List S} (hl : WF o g l) (k : I) :
    ∃ r, intersectsSeg o g l k = some r ∧ (r = true ↔ ∃ x, Dom o g l x ∧ o.Mem x k) := by
  cases he : o.isEmpty k with
  | true =>
    refine ⟨false, by simp [intersectsSeg, he], ?_⟩
    rw [h.isEmpty_iff] at he
    simp [he]
  | false =>
    obtain ⟨r, e, hn, hs⟩ := findI_spec h hl ((nonempty_iff h).2 he)
    refine ⟨r.isSome, by simp [intersectsSeg, he, e], ?_⟩
    cases r with
    | none =>
      simp only [Option.isSome_none, Bool.false_eq_true, false_iff]
      rintro ⟨x, ⟨s, hs, hx⟩, hk⟩
      exact hn rfl s hs x hx hk
    | some s =>
      simp only [Option.isSome_some, true_iff]
      obtain ⟨h1, ⟨x, h2, h3⟩, _⟩ := hs s rfl
      exact ⟨x, ⟨s, h1, h2⟩, h3⟩

theorem last_dom_le {f : S} {b : List S} (hw : WF o g (f :: b)) {x : D} (hx : Dom o g (f :: b) x) :
    ∃ z, o.Mem z (g.key (b.getLastD f)) ∧ x ≤ z := by
  obtain ⟨s, hs, hx⟩ := hx
  rcases eq_last_or_before hw hs with he | he
  · exact ⟨x, he ▸ hx, le_refl _⟩
  · obtain ⟨z, hz⟩ := hw.nonempty _ (getLastD_mem f b)
    exact ⟨z, hz, le_of_lt (he x z hx hz)⟩

theorem first_dom_le {f : S} {b : List S} (hw : WF o g (f :: b)) {x : D} (hx : Dom o g (f :: b) x) :
    ∃ z, o.Mem z (g.key f) ∧ z ≤ x := by
  rw [dom_cons] at hx
  rcases hx with hx | hx
  · exact ⟨x, hx, le_refl _⟩
  · obtain ⟨z, hz⟩ := (wf_cons.1 hw).1
    exact ⟨z, hz, le_of_lt ((wf_cons.1 hw).2.2 z x hz hx)⟩

/-- `common_range`. -/
theorem commonRange_spec {x1 : List S} {x2 : List I} (h1 : WF o g x1) (h2 : WF o setSeg x2) :
    ∃ r, commonRange o g x1 x2 = some r ∧
      (r = none → ∀ x, Dom o g x1 x → ¬ Dom o setSeg x2 x) ∧
      (∀ p c q, r = some (p, c, q) → x1 = p ++ c ++ q ∧
        (∀ x y, Dom o g p x → Dom o setSeg x2 y → x < y) ∧
        (∀ x y, Dom o setSeg x2 x → Dom o g q y → x < y)) := by
  cases x1 with
  | nil => exact ⟨none, by simp [commonRange], by simp, by simp⟩
  | cons f1 r1 =>
    cases x2 with
    | nil => exact ⟨none, by simp [commonRange], by simp, by simp⟩
    | cons f2 r2 =>
      have n1 := h1.nonempty f1 (by simp)
      have n2 : o.Nonempty f2 := h2.nonempty f2 (by simp)
      have nl1 := h1.nonempty _ (getLastD_mem f1 r1)
      have nl2 : o.Nonempty (r2.getLastD f2) := h2.nonempty _ (getLastD_mem f2 r2)
      have hfst : ∀ x, Dom o setSeg (f2 :: r2) x → ∃ z, o.Mem z f2 ∧ z ≤ x :=
        fun x hx => first_dom_le h h2 hx
      have hlst : ∀ x, Dom o setSeg (f2 :: r2) x → ∃ z, o.Mem z (r2.getLastD f2) ∧ x ≤ z :=
        fun x hx => last_dom_le h h2 hx
      unfold commonRange
      dsimp only
      rw [if_neg (by simp only [isEmpty_false h n1, isEmpty_false h n2, isEmpty_false h nl1,
        isEmpty_false h nl2, Bool.or_false, Bool.false_eq_true, not_false_eq_true])]
      split
      · rename_i hc
        refine ⟨none, rfl, fun _ => ?_, by simp⟩
        rw [h.neLess_iff _ _ nl1 n2] at hc
        intro x hx1 hx2
        obtain ⟨z, hz, hxz⟩ := last_dom_le h h1 hx1
        obtain ⟨w, hw, hwx⟩ := hfst x hx2
        have := hc z w hz hw
        order
      split
      · rename_i hc
        refine ⟨none, rfl, fun _ => ?_, by simp⟩
        rw [h.neLess_iff _ _ nl2 n1] at hc
        intro x hx1 hx2
        obtain ⟨z, hz, hxz⟩ := hlst x hx2
        obtain ⟨w, hw, hwx⟩ := first_dom_le h h1 hx1
        have := hc z w hz hw
        order
      · rw [if_pos (by simp only [Bool.and_eq_true]
                       exact ⟨cmpOk_of h h1.nonempty n2, cmpOk_of h h1.nonempty nl2⟩)]
        refine ⟨_, rfl, by simp, ?_⟩
        generalize hl : f1 :: r1 = l at *
        rintro p c q e
        simp only [Option.some.injEq, Prod.mk.injEq] at e
        obtain ⟨rfl, rfl, rfl⟩ := e
        refine ⟨by simp, ?_, ?_⟩
        · rintro x y ⟨s, hs, hx⟩ hy
          have hp := mem_takeWhile_prop hs
          rw [h.neLess_iff _ _ (h1.nonempty s (List.takeWhile_subset _ hs)) n2] at hp
          obtain ⟨z, hz, hzy⟩ := hfst y hy
          have := hp x z hx hz
          order
        · rintro x y hx ⟨s, hs, hy⟩
          generalize hm : l.dropWhile (fun s => o.neLess (g.key s) f2) = m at *
          have hml : ∀ s ∈ m, s ∈ l := by
            intro s hs; rw [← hm] at hs; exact List.dropWhile_subset _ hs
          have hsuf : m <:+ l := by rw [← hm]; exact List.dropWhile_suffix _
          have hmw : WF o g m := ⟨fun s hs => h1.nonempty s (hml s hs), h1.sorted.sublist hsuf.sublist⟩
          obtain ⟨z, hz, hxz⟩ := hlst x hx
          cases hd : m.dropWhile (fun s => !o.neLess (r2.getLastD f2) (g.key s)) with
          | nil => rw [hd] at hs; simp at hs
          | cons t q =>
            have hts : m.dropWhile (fun s => !o.neLess (r2.getLastD f2) (g.key s)) <:+ m :=
              List.dropWhile_suffix _
            have ht := List.head_dropWhile_not (fun s => !o.neLess (r2.getLastD f2) (g.key s))
              (l := m) (by rw [hd]; simp)
            simp only [hd, List.head_cons, Bool.not_eq_false', Bool.not_not] at ht
            rw [hd] at hs hts
            have htm : t ∈ m := hts.subset (by simp)
            rw [h.neLess_iff _ _ nl2 (hmw.nonempty t htm)] at ht
            have hqw : WF o g (t :: q) := ⟨fun s hs => hmw.nonempty s (hts.subset hs),
              hmw.sorted.sublist hts.sublist⟩
            obtain ⟨w, hw, hwy⟩ := first_dom_le h hqw ⟨s, hs, hy⟩
            have := ht z w hz hw
            order
end
end ICL
