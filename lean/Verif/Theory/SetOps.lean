import Verif.Theory.Canon

/-!
# Addition and subtraction of a segment: interval sets, summary
-/

set_option linter.unusedSectionVars false
set_option linter.unusedVariables false
set_option linter.unusedSimpArgs false

namespace ICL

variable {D I : Type} [LinearOrder D] {o : IntervalOps D I}

/-- `x` belongs to `k` or to a segment of `l` that overlaps with `k`. -/
def Reach (o : IntervalOps D I) (l : List I) (k : I) (x : D) : Prop :=
  o.Mem x k ∨ ∃ s ∈ l, o.Mem x s ∧ ∃ z, o.Mem z s ∧ o.Mem z k

/-- Segments of a `split_interval_set` after the addition of `k`. -/
def SplitSpec (o : IntervalOps D I) (l : List I) (k : I) (x y : D) : Prop :=
  (Same o setSeg l x y ∧ ∀ z, min x y ≤ z → z ≤ max x y → (o.Mem z k ↔ o.Mem x k)) ∨
  GapSame o l k x y

/-- Result of the addition of `k` for each combining style. -/
structure AddSpec (o : IntervalOps D I) (st : Style) (l : List I) (k : I) (l' : List I) : Prop where
  wf : WF o setSeg l'
  dom : ∀ x, Dom o setSeg l' x ↔ Dom o setSeg l x ∨ o.Mem x k
  joined : st = .joining → Joined o setSeg l → Joined o setSeg l'
  separating : st = .separating → ∀ x y, Same o setSeg l' x y ↔
    Same o setSeg l x y ∨ (Reach o l k x ∧ Reach o l k y)
  splitting : st = .splitting → ∀ x y, Same o setSeg l' x y ↔ SplitSpec o l k x y

section
variable (h : o.Lawful)
include h

theorem setMaps_iff {l : List I} {x : D} {u : Unit} : Maps o setSeg l x u ↔ Dom o setSeg l x := by
  constructor
  · exact fun h => h.dom
  · rintro ⟨s, h1, h2⟩; exact ⟨s, h1, h2, rfl⟩

theorem joined_of_neighbours {z : Zip I} (hw : WF o setSeg z.toList) :
    ∃ z', joinNeighbours o setSeg z = some z' ∧ WF o setSeg z'.toList ∧
      (∀ x, Dom o setSeg z'.toList x ↔ Dom o setSeg z.toList x) ∧
      (Joined o setSeg z.left → Joined o setSeg z.right → Joined o setSeg z'.toList) := by
  obtain ⟨z', e, w, m, j⟩ := joinNeighbours_spec h setSeg_lawful hw
  exact ⟨z', e, w, fun x => by rw [← setMaps_iff h (u := ()), m, setMaps_iff h], j⟩

/-- Addition of an interval that overlaps with no segment. -/
theorem insert_free {a c : List I} {k : I} (hw : WF o setSeg (a ++ c)) (hk : o.Nonempty k)
    (h1 : ∀ x y, Dom o setSeg a x → o.Mem y k → x < y)
    (h2 : ∀ x y, o.Mem x k → Dom o setSeg c y → x < y) :
    WF o setSeg (a ++ k :: c) := by
  have hw' := wf_append.1 hw
  rw [wf_append, wf_cons]
  refine ⟨hw'.1, ⟨hk, hw'.2.1, h2⟩, ?_⟩
  intro x y hx hy
  rw [dom_cons] at hy
  rcases hy with hy | hy
  · exact h1 x y hx hy
  · exact hw'.2.2 x y hx hy

theorem addSpec_empty (st : Style) {l : List I} {k : I} (hl : WF o setSeg l)
    (hk : o.isEmpty k = true) : AddSpec o st l k l := by
  rw [h.isEmpty_iff] at hk
  refine ⟨hl, by simp [hk], fun _ hj => hj, ?_, ?_⟩
  · intro _ x y
    constructor
    · exact fun h1 => Or.inl h1
    · rintro (h1 | ⟨h1, _⟩)
      · exact h1
      · rcases h1 with h1 | ⟨_, _, _, z, _, hz⟩
        · exact absurd h1 (hk x)
        · exact absurd hz (hk z)
  · intro _ x y
    constructor
    · exact fun h1 => Or.inl ⟨h1, by simp [hk]⟩
    · rintro (h1 | h1)
      · exact h1.1
      · exact absurd h1.1 (hk x)

/-- `handle_inserted` after the insertion of an interval that overlaps with no segment. -/
theorem handleInserted_free (st : Style) {a c : List I} {k : I} (hw : WF o setSeg (a ++ c))
    (hk : o.Nonempty k)
    (h1 : ∀ x y, Dom o setSeg a x → o.Mem y k → x < y)
    (h2 : ∀ x y, o.Mem x k → Dom o setSeg c y → x < y) :
    ∃ l', ISet.handleInserted o st ⟨a.reverse, k, c⟩ = some l' ∧ AddSpec o st (a ++ c) k l' := by
  have hwf := insert_free h hw hk h1 h2
  have hno : ∀ s ∈ a ++ c, ∀ x, o.Mem x s → ¬ o.Mem x k := by
    intro s hs x hx hxk
    rcases List.mem_append.1 hs with hs | hs
    · exact lt_irrefl _ (h1 x x ⟨s, hs, hx⟩ hxk)
    · exact lt_irrefl _ (h2 x x hxk ⟨s, hs, hx⟩)
  have hdom : ∀ x, Dom o setSeg (a ++ k :: c) x ↔ Dom o setSeg (a ++ c) x ∨ o.Mem x k := by
    intro x; simp only [dom_append, dom_cons, setSeg_key]; tauto
  have hsame : ∀ x y, Same o setSeg (a ++ k :: c) x y ↔ Same o setSeg (a ++ c) x y ∨
      (o.Mem x k ∧ o.Mem y k) := by
    intro x y; simp only [same_append, same_cons, setSeg_key]; tauto
  have hsplit : ∀ x y, Same o setSeg (a ++ k :: c) x y ↔ SplitSpec o (a ++ c) k x y := by
    intro x y
    rw [hsame]
    unfold SplitSpec GapSame
    constructor
    · rintro (hs | ⟨hx, hy⟩)
      · left
        refine ⟨hs, fun z hz1 hz2 => ?_⟩
        obtain ⟨s, hs, hxs, hys⟩ := hs
        have hzs : o.Mem z s := by
          rcases le_total x y with hxy | hxy
          · rw [min_eq_left hxy] at hz1; rw [max_eq_right hxy] at hz2
            exact h.convex s x z y hxs hys hz1 hz2
          · rw [min_eq_right hxy] at hz1; rw [max_eq_left hxy] at hz2
            exact h.convex s y z x hys hxs hz1 hz2
        simp only [hno s hs z hzs, hno s hs x hxs]
      · right
        refine ⟨hx, hy, fun z hz1 hz2 hd => ?_⟩
        have hzk : o.Mem z k := by
          rcases le_total x y with hxy | hxy
          · rw [min_eq_left hxy] at hz1; rw [max_eq_right hxy] at hz2
            exact h.convex k x z y hx hy hz1 hz2
          · rw [min_eq_right hxy] at hz1; rw [max_eq_left hxy] at hz2
            exact h.convex k y z x hy hx hz1 hz2
        obtain ⟨s, hs, hzs⟩ := hd
        exact hno s hs z hzs hzk
    · rintro (hs | ⟨hx, hy, _⟩)
      · exact Or.inl hs.1
      · exact Or.inr ⟨hx, hy⟩
  have hreach : ∀ x, Reach o (a ++ c) k x ↔ o.Mem x k := by
    intro x
    unfold Reach
    constructor
    · rintro (h3 | ⟨s, hs, _, z, hz, hzk⟩)
      · exact h3
      · exact absurd hzk (hno s hs z hz)
    · exact Or.inl
  have hz : (⟨a.reverse, k, c⟩ : Zip I).toList = a ++ k :: c := by simp [Zip.toList]
  cases st with
  | joining =>
    obtain ⟨z', e, w, m, j⟩ := joined_of_neighbours h (z := ⟨a.reverse, k, c⟩) (by rw [hz]; exact hwf)
    refine ⟨z'.toList, by simp [ISet.handleInserted, e], w, ?_, ?_, by simp, by simp⟩
    · intro x; rw [m, hz, hdom]
    · intro _ hj
      exact j (hj.mono (by simp +contextual)) (hj.mono (by simp +contextual))
  | separating =>
    refine ⟨a ++ k :: c, by simp [ISet.handleInserted, hz], hwf, hdom, by simp, ?_, by simp⟩
    intro _ x y
    rw [hreach, hreach]; exact hsame x y
  | splitting =>
    exact ⟨a ++ k :: c, by simp [ISet.handleInserted, hz], hwf, hdom, by simp, by simp,
      fun _ => hsplit⟩

omit h in
theorem mem_between {i : I} (h : o.Lawful) {x y z : D} (hx : o.Mem x i) (hy : o.Mem y i)
    (h1 : min x y ≤ z) (h2 : z ≤ max x y) : o.Mem z i := by
  rcases le_total x y with hxy | hxy
  · rw [min_eq_left hxy] at h1; rw [max_eq_right hxy] at h2
    exact h.convex i x z y hx hy h1 h2
  · rw [min_eq_right hxy] at h1; rw [max_eq_left hxy] at h2
    exact h.convex i y z x hy hx h1 h2

/-- The splitting addition over a collision sequence. -/
theorem addOver_splitting {a : List I} {f : I} {b c : List I} {k : I}
    (hr : Range o setSeg a f b c k) :
    ∃ l', ISet.addOver o .splitting a f b c k = some l' ∧ WF o setSeg l' ∧
      ∀ x y, Same o setSeg l' x y ↔ SplitSpec o (a ++ f :: b ++ c) k x y := by
  obtain ⟨left, cur, e1, hi, hf, hbef, hsub⟩ := addFront_spec h hr
  obtain ⟨l', e2, hw, hs⟩ := addMainRear_spec h hi
  refine ⟨l', ?_, hw, ?_⟩
  · simp only [ISet.addOver, e1, Option.bind_eq_bind, Option.bind_some]
    exact e2
  obtain ⟨w, hwf, hwk⟩ := hr.overlap f (by simp)
  simp only [setSeg_key] at hwf
  have hwm := (wf_append.1 (wf_append.1 hr.wf).1).2.1
  -- elements of cur :: b are not left of k
  have hnl : ∀ s ∈ cur :: b, ∀ x, o.Mem x s → ∃ y, o.Mem y k ∧ y ≤ x := by
    intro s hs x hx
    rcases List.mem_cons.1 hs with rfl | hs
    · exact hi.front x hx
    · exact ⟨w, hwk, le_of_lt ((wf_cons.1 hwm).2.2 w x hwf ⟨s, hs, hx⟩)⟩
  have hmono : ∀ x, Dom o setSeg (cur :: b) x → Dom o setSeg (a ++ f :: b ++ c) x := by
    intro x hx
    simp only [dom_append, dom_cons, setSeg_key] at hx ⊢
    rcases hx with hx | hx
    · exact Or.inl (Or.inr (Or.inl (hsub x hx)))
    · exact Or.inl (Or.inr (Or.inr hx))
  intro x y
  rw [hs]
  constructor
  · rintro (h1 | h1 | h1)
    · -- left of k
      left
      have hxy := (hf x y).1 (Or.inl h1)
      constructor
      · simp only [same_append, same_cons, setSeg_key]
        tauto
      · intro z hz1 hz2
        have hzk : ∀ u, o.Mem u k → z < u := fun u hu =>
          lt_of_le_of_lt hz2 (max_lt (hbef x h1.left u hu) (hbef y h1.right u hu))
        have n1 : ¬ o.Mem z k := fun hc => lt_irrefl _ (hzk z hc)
        have n2 : ¬ o.Mem x k := fun hc => lt_irrefl _ (hbef x h1.left x hc)
        simp only [n1, n2]
    · left
      constructor
      · simp only [same_append, same_cons, setSeg_key]
        tauto
      · intro z hz1 hz2
        have hzk : ∀ u, o.Mem u k → u < z := fun u hu =>
          lt_of_lt_of_le (lt_min (hr.after u x hu h1.left) (hr.after u y hu h1.right)) hz1
        have n1 : ¬ o.Mem z k := fun hc => lt_irrefl _ (hzk z hc)
        have n2 : ¬ o.Mem x k := fun hc => lt_irrefl _ (hr.after x x hc h1.left)
        simp only [n1, n2]
    · rcases h1 with ⟨h1, hiff⟩ | h1
      · left
        constructor
        · simp only [same_append, same_cons, setSeg_key] at h1 ⊢
          rcases h1 with h1 | h1
          · exact Or.inl (Or.inr (Or.inl ⟨hsub x h1.1, hsub y h1.2⟩))
          · exact Or.inl (Or.inr (Or.inr h1))
        · intro z hz1 hz2
          by_cases hx : o.Mem x k
          · simp only [hx, iff_true]
            exact mem_between h hx (hiff.1 hx) hz1 hz2
          · have hy : ¬ o.Mem y k := fun hc => hx (hiff.2 hc)
            simp only [hx, iff_false]
            obtain ⟨s, hs', hxs, hys⟩ := h1
            have hgt : ∀ p, o.Mem p s → ¬ o.Mem p k → ∀ u, o.Mem u k → u < p := by
              intro p hp hpk
              rcases point_tri h hr.nonempty p with h2 | h2 | h2
              · exact absurd h2 hpk
              · obtain ⟨q, hq, hqp⟩ := hnl s hs' p hp
                exact absurd (h2 q hq) (not_lt.2 hqp)
              · exact h2
            intro hz
            exact lt_irrefl z
              (lt_of_lt_of_le (lt_min (hgt x hxs hx z hz) (hgt y hys hy z hz)) hz1)
      · right
        refine ⟨h1.1, h1.2.1, fun z hz1 hz2 hd => ?_⟩
        have hzk := mem_between h h1.1 h1.2.1 hz1 hz2
        simp only [dom_append, dom_cons, setSeg_key] at hd
        rcases hd with (hd | hd | hd) | hd
        · exact lt_irrefl _ (hr.before z z hd hzk)
        · rcases (hf z z).2 (Or.inr ⟨⟨hd, hd⟩, Iff.rfl⟩) with h2 | h2
          · exact lt_irrefl _ (hbef z h2.left z hzk)
          · exact h1.2.2 z hz1 hz2 (by simp [h2.1])
        · exact h1.2.2 z hz1 hz2 (by simp [hd])
        · exact lt_irrefl _ (hr.after z z hzk hd)
  · rintro (⟨h1, hc⟩ | h1)
    · have hxy := hc y (min_le_right _ _) (le_max_right _ _)
      simp only [same_append, same_cons, setSeg_key] at h1
      rcases h1 with (h1 | h1 | h1) | h1
      · rcases (hf x y).2 (Or.inl h1) with h2 | h2
        · exact Or.inl h2
        · refine Or.inr (Or.inr (Or.inl ⟨by simp [h2], hxy.symm⟩))
      · have side : ∀ p q, o.Mem p f → o.Mem q f →
            (∀ z, min p q ≤ z → z ≤ max p q → (o.Mem z k ↔ o.Mem p k)) →
            (∀ z, o.Mem z k → p < z) → ∀ z, o.Mem z k → q < z := by
          intro p q hp hq hc hp2
          have hpk : ¬ o.Mem p k := fun h3 => lt_irrefl _ (hp2 p h3)
          have hqk : ¬ o.Mem q k := fun h3 =>
            hpk ((hc q (min_le_right _ _) (le_max_right _ _)).1 h3)
          rcases point_tri h hr.nonempty q with h3 | h3 | h3
          · exact absurd h3 hqk
          · exact h3
          · exact absurd ((hc w ((min_le_left _ _).trans (le_of_lt (hp2 w hwk)))
              ((le_of_lt (h3 w hwk)).trans (le_max_right _ _))).1 hwk) hpk
        have hc' : ∀ z, min y x ≤ z → z ≤ max y x → (o.Mem z k ↔ o.Mem y k) := by
          intro z hz1 hz2
          rw [hxy]
          exact hc z (by rwa [min_comm]) (by rwa [max_comm])
        rcases (hf x y).2 (Or.inr ⟨h1, side x y h1.1 h1.2 hc, side y x h1.2 h1.1 hc'⟩)
          with h2 | h2
        · exact Or.inl h2
        · exact Or.inr (Or.inr (Or.inl ⟨by simp [h2], hxy.symm⟩))
      · exact Or.inr (Or.inr (Or.inl ⟨by simp [h1], hxy.symm⟩))
      · exact Or.inr (Or.inl h1)
    · refine Or.inr (Or.inr (Or.inr ⟨h1.1, h1.2.1, fun z hz1 hz2 hd => ?_⟩))
      exact h1.2.2 z hz1 hz2 (hmono z hd)

omit h in
theorem dom_of_splitSpec {l l' : List I} {k : I}
    (hs : ∀ x y, Same o setSeg l' x y ↔ SplitSpec o l k x y) (x : D) :
    Dom o setSeg l' x ↔ Dom o setSeg l x ∨ o.Mem x k := by
  rw [← same_self, hs]
  unfold SplitSpec GapSame
  rw [same_self]
  simp only [min_self, max_self]
  constructor
  · rintro (h1 | h1)
    · exact Or.inl h1.1
    · exact Or.inr h1.1
  · intro h1
    by_cases hd : Dom o setSeg l x
    · exact Or.inl ⟨hd, fun z h1 h2 => by rw [le_antisymm h1 h2]⟩
    · refine Or.inr ⟨by tauto, by tauto, fun z h1 h2 => by rwa [← le_antisymm h1 h2]⟩

theorem reach_range {a : List I} {f : I} {b c : List I} {k : I}
    (hr : Range o setSeg a f b c k) (x : D) :
    Reach o (a ++ f :: b ++ c) k x ↔ o.Mem x k ∨ Dom o setSeg (f :: b) x := by
  unfold Reach
  constructor
  · rintro (h1 | ⟨s, hs, hx, z, hz, hzk⟩)
    · exact Or.inl h1
    · simp only [List.append_assoc, List.mem_append] at hs
      rcases hs with hs | hs | hs
      · exact absurd (hr.before z z ⟨s, hs, hz⟩ hzk) (lt_irrefl _)
      · exact Or.inr ⟨s, hs, hx⟩
      · exact absurd (hr.after z z hzk ⟨s, hs, hz⟩) (lt_irrefl _)
  · rintro (h1 | ⟨s, hs, hx⟩)
    · exact Or.inl h1
    · exact Or.inr ⟨s, by simp only [List.append_assoc, List.mem_append]; tauto, hx,
        hr.overlap s hs⟩

theorem addOver_spec (st : Style) {a : List I} {f : I} {b c : List I} {k : I}
    (hr : Range o setSeg a f b c k) :
    ∃ l', ISet.addOver o st a f b c k = some l' ∧ AddSpec o st (a ++ f :: b ++ c) k l' := by
  obtain ⟨hwf, hsame⟩ := joinUnder_spec h hr
  have hdom : ∀ x, Dom o setSeg (ISet.joinUnder o a f b c k).toList x ↔
      Dom o setSeg (a ++ f :: b ++ c) x ∨ o.Mem x k := by
    intro x
    rw [← same_self, hsame]
    simp only [same_self, dom_append, dom_cons, setSeg_key]
    tauto
  cases st with
  | joining =>
    obtain ⟨z', e, w, m, j⟩ := joined_of_neighbours h hwf
    refine ⟨z'.toList, by simp [ISet.addOver, e], w, ?_, ?_, by simp, by simp⟩
    · intro x; rw [m, hdom]
    · intro _ hj
      apply j
      · simp only [ISet.joinUnder]
        exact hj.mono (by simp +contextual)
      · simp only [ISet.joinUnder]
        exact hj.mono (by simp +contextual)
  | separating =>
    refine ⟨_, by simp [ISet.addOver], hwf, hdom, by simp, ?_, by simp⟩
    intro _ x y
    rw [hsame, reach_range h hr, reach_range h hr]
    simp only [same_append]
    constructor
    · tauto
    · rintro (((h1 | h1) | h1) | h1)
      · exact Or.inl h1
      · exact Or.inr (Or.inr ⟨Or.inr h1.left, Or.inr h1.right⟩)
      · exact Or.inr (Or.inl h1)
      · exact Or.inr (Or.inr h1)
  | splitting =>
    obtain ⟨l', e, w, hs⟩ := addOver_splitting h hr
    exact ⟨l', e, w, dom_of_splitSpec hs, by simp, by simp, fun _ => hs⟩

/-- `add(segment)` of interval sets. -/
theorem ISet.add_spec (st : Style) {l : List I} (hl : WF o setSeg l) (k : I) :
    ∃ l', ISet.add o st l k = some l' ∧ AddSpec o st l k l' := by
  cases he : o.isEmpty k with
  | true => exact ⟨l, by simp [ISet.add, he], addSpec_empty h st hl he⟩
  | false =>
    have hk : o.Nonempty k := (nonempty_iff h).2 he
    rcases range_cases h hl hk with ⟨a, c, e, rfl, h1, h2⟩ | ⟨a, f, b, c, e, rfl, hr⟩
    · obtain ⟨l', e', hs⟩ := handleInserted_free h st hl hk h1 h2
      exact ⟨l', by simp [ISet.add, he, e, e'], hs⟩
    · obtain ⟨l', e', hs⟩ := addOver_spec h st hr
      refine ⟨l', ?_, hs⟩
      unfold ISet.add
      rw [he, e]
      simp only [Option.bind_eq_bind, Option.bind_some, Bool.false_eq_true, if_false, e']

/-- `add(hint, segment)` of interval sets. -/
theorem ISet.addHint_spec (st : Style) (oracle : Nat) {l : List I} (hl : WF o setSeg l) (k : I) :
    ∃ l', ISet.addHint o st oracle l k = some l' ∧ AddSpec o st l k l' := by
  cases he : o.isEmpty k with
  | true => exact ⟨l, by simp [ISet.addHint, he], addSpec_empty h st hl he⟩
  | false =>
    have hk : o.Nonempty k := (nonempty_iff h).2 he
    rcases range_cases h hl hk with ⟨a, c, e, rfl, h1, h2⟩ | ⟨a, f, b, c, e, rfl, hr⟩
    · obtain ⟨l', e', hs⟩ := handleInserted_free h st hl hk h1 h2
      exact ⟨l', by simp [ISet.addHint, he, e, e'], hs⟩
    · have hlt : oracle % (b.length + 1) < (f :: b).length := Nat.mod_lt _ (by simp)
      have hget : (f :: b).getD (oracle % (b.length + 1)) f = (f :: b)[oracle % (b.length + 1)] := by
        rw [List.getD_eq_getElem?_getD, List.getElem?_eq_getElem hlt]; rfl
      cases heq : o.eq ((f :: b).getD (oracle % (b.length + 1)) f) k with
      | false =>
        obtain ⟨l', e', hs⟩ := addOver_spec h st hr
        refine ⟨l', ?_, hs⟩
        unfold ISet.addHint
        rw [he, e]
        simp only [Option.bind_eq_bind, Option.bind_some, Bool.false_eq_true, if_false, heq, e']
      | true =>
        generalize hj : oracle % (b.length + 1) = j at *
        have hmem : ∀ x, o.Mem x ((f :: b).getD j f) ↔ o.Mem x k := by
          refine (h.eq_iff _ _ ?_ hk).1 heq
          rw [hget]
          refine hl.nonempty _ ?_
          have := List.getElem_mem hlt
          simp only [List.mem_append]; tauto
        have hz : (⟨((f :: b).take j).reverse ++ a.reverse, (f :: b).getD j f,
            (f :: b).drop (j + 1) ++ c⟩ : Zip I).toList = a ++ f :: b ++ c := by
          simp only [Zip.toList, List.reverse_append, List.reverse_reverse, List.append_assoc, hget]
          congr 1
          rw [← List.cons_append, List.getElem_cons_drop, ← List.append_assoc,
            List.take_append_drop]
        have hin : (f :: b).getD j f ∈ a ++ f :: b ++ c := by
          rw [hget]
          have := List.getElem_mem hlt
          simp only [List.mem_append]; tauto
        have hdom : ∀ x, Dom o setSeg (a ++ f :: b ++ c) x ↔
            Dom o setSeg (a ++ f :: b ++ c) x ∨ o.Mem x k := by
          intro x
          constructor
          · exact Or.inl
          · rintro (h1 | h1)
            · exact h1
            · exact ⟨_, hin, (hmem x).2 h1⟩
        have hown : ∀ s ∈ a ++ f :: b ++ c, ∀ x, o.Mem x s → o.Mem x k → s = (f :: b).getD j f :=
          fun s hs x hx hk => hl.unique hs hin hx ((hmem x).2 hk)
        have huf : ISet.addHint o st oracle (a ++ f :: b ++ c) k = ISet.handleInserted o st
            ⟨((f :: b).take j).reverse ++ a.reverse, (f :: b).getD j f,
              (f :: b).drop (j + 1) ++ c⟩ := by
          unfold ISet.addHint
          rw [he, e]
          simp only [Option.bind_eq_bind, Option.bind_some, hj, heq, if_true, Bool.false_eq_true,
            if_false]
        cases st with
        | joining =>
          obtain ⟨z', e', w, m, jj⟩ := joined_of_neighbours h (z := ⟨((f :: b).take j).reverse ++
            a.reverse, (f :: b).getD j f, (f :: b).drop (j + 1) ++ c⟩) (by rw [hz]; exact hl)
          refine ⟨z'.toList, by rw [huf]; simp only [ISet.handleInserted, e', Option.bind_eq_bind,
            Option.bind_some, Option.pure_def], w, ?_, ?_, by simp,
            by simp⟩
          · intro x; rw [m, hz, ← hdom]
          · intro _ hjd
            apply jj
            · refine hjd.mono ?_
              intro s hs
              rw [← hz]
              simp only [Zip.toList, List.mem_append, List.mem_reverse] at hs ⊢
              tauto
            · refine hjd.mono ?_
              intro s hs
              rw [← hz]
              simp only [Zip.toList, List.mem_append, List.mem_reverse, List.mem_cons] at hs ⊢
              tauto
        | separating =>
          refine ⟨_, by rw [huf]; simp only [ISet.handleInserted, hz], hl, hdom, by simp, ?_, by simp⟩
          intro _ x y
          constructor
          · exact Or.inl
          · rintro (h1 | ⟨h1, h2⟩)
            · exact h1
            · have : ∀ p, Reach o (a ++ f :: b ++ c) k p → o.Mem p ((f :: b).getD j f) := by
                rintro p (h3 | ⟨s, hs, hp, q, hq, hqk⟩)
                · exact (hmem p).2 h3
                · rwa [← hown s hs q hq hqk]
              exact ⟨_, hin, this x h1, this y h2⟩
        | splitting =>
          refine ⟨_, by rw [huf]; simp only [ISet.handleInserted, hz], hl, hdom, by simp, by simp, ?_⟩
          intro _ x y
          constructor
          · intro h1
            left
            refine ⟨h1, fun z hz1 hz2 => ?_⟩
            obtain ⟨s, hs, hxs, hys⟩ := h1
            have hzs : o.Mem z s := mem_between h hxs hys hz1 hz2
            constructor
            · intro h2
              have := hown s hs z hzs h2
              rw [← hmem, ← this]; exact hxs
            · intro h2
              have := hown s hs x hxs h2
              rw [← hmem, ← this]; exact hzs
          · rintro (h1 | ⟨h1, _, h2⟩)
            · exact h1.1
            · exact absurd ⟨_, hin, (hmem x).2 h1⟩ (h2 x (min_le_left _ _) (le_max_left _ _))

/-! ### Subtraction -/

/-- Result of the subtraction of `k`. -/
structure SubSpec (o : IntervalOps D I) (l : List I) (k : I) (l' : List I) : Prop where
  wf : WF o setSeg l'
  same : ∀ x y, Same o setSeg l' x y ↔
    Same o setSeg l x y ∧ ∀ z, min x y ≤ z → z ≤ max x y → ¬ o.Mem z k

omit h in
theorem SubSpec.dom {l l' : List I} {k : I} (hs : SubSpec o l k l') (x : D) :
    Dom o setSeg l' x ↔ Dom o setSeg l x ∧ ¬ o.Mem x k := by
  rw [← same_self, hs.same, same_self]
  simp only [min_self, max_self]
  constructor
  · rintro ⟨h1, h2⟩; exact ⟨h1, h2 x (le_refl _) (le_refl _)⟩
  · rintro ⟨h1, h2⟩; exact ⟨h1, fun z h3 h4 => by rwa [← le_antisymm h3 h4]⟩

theorem SubSpec.joined {l l' : List I} {k : I} (hl : WF o setSeg l) (hs : SubSpec o l k l')
    (hj : Joined o setSeg l) : Joined o setSeg l' := by
  rw [joined_iff h hs.wf]
  rw [joined_iff h hl] at hj
  intro x y v hxy hm
  have hd : ∀ z, x ≤ z → z ≤ y → Dom o setSeg l z ∧ ¬ o.Mem z k :=
    fun z h1 h2 => (hs.dom z).1 (hm z h1 h2).dom
  rw [hs.same, min_eq_left hxy, max_eq_right hxy]
  refine ⟨hj x y v hxy fun z h1 h2 => (setMaps_iff h).2 (hd z h1 h2).1, fun z h1 h2 => (hd z h1 h2).2⟩

/-- A plain insertion of a segment that fits into the gap between `a` and `c`. -/
theorem stdInsert_eq {a c : List I} {k : I} (hw : WF o setSeg (a ++ c)) (hk : o.Nonempty k)
    (h1 : ∀ x y, Dom o setSeg a x → o.Mem y k → x < y)
    (h2 : ∀ x y, o.Mem x k → Dom o setSeg c y → x < y) :
    stdInsert o setSeg (a ++ c) k = some (a ++ k :: c) := by
  have hbef : ∀ s ∈ a, o.neLess s k = true := by
    intro s hs
    rw [h.neLess_iff s k (hw.nonempty s (by simp [hs])) hk]
    exact fun x y hx hy => h1 x y ⟨s, hs, hx⟩ hy
  have haft : ∀ s ∈ c, o.neLess k s = true := by
    intro s hs
    rw [h.neLess_iff k s hk (hw.nonempty s (by simp [hs]))]
    exact fun x y hx hy => h2 x y hx ⟨s, hs, hy⟩
  have haft' : ∀ s ∈ c, o.neLess s k = false := by
    intro s hs
    rw [← Bool.not_eq_true, h.neLess_iff s k (hw.nonempty s (by simp [hs])) hk]
    intro hb
    obtain ⟨x, hx⟩ := hk
    obtain ⟨y, hy⟩ := hw.nonempty s (by simp [hs])
    exact lt_irrefl _ (lt_trans (hb y x hy hx) (h2 x y hx ⟨s, hs, hy⟩))
  have e : equalRange o setSeg (a ++ c) k = some (a, [], c) := by
    rw [equalRange, if_pos (cmpOk_of h hw.nonempty hk)]
    have e1 : (a ++ c).takeWhile (fun s => o.neLess (setSeg.key s) k) = a := by
      rw [List.takeWhile_append_of_pos (by simpa using hbef)]
      cases c with
      | nil => simp
      | cons s c => simp [List.takeWhile_cons, haft' s (by simp)]
    have e2 : (a ++ c).dropWhile (fun s => o.neLess (setSeg.key s) k) = c := by
      rw [List.dropWhile_append_of_pos (by simpa using hbef)]
      cases c with
      | nil => simp
      | cons s c => simp [List.dropWhile_cons, haft' s (by simp)]
    rw [e1, e2]
    cases c with
    | nil => simp
    | cons s c => simp [List.takeWhile_cons, List.dropWhile_cons, haft s (by simp)]
  unfold stdInsert
  simp only [setSeg_key, e, Option.bind_eq_bind, Option.bind_some, Option.pure_def]

/-- `subtract(segment)` of interval sets. -/
theorem ISet.subtract_spec {l : List I} (hl : WF o setSeg l) (k : I) :
    ∃ l', ISet.subtract o l k = some l' ∧ SubSpec o l k l' := by
  cases he : o.isEmpty k with
  | true =>
    refine ⟨l, by simp [ISet.subtract, he], hl, ?_⟩
    rw [h.isEmpty_iff] at he
    simp [he]
  | false =>
    have hk : o.Nonempty k := (nonempty_iff h).2 he
    rcases range_cases h hl hk with ⟨a, c, e, rfl, h1, h2⟩ | ⟨a, f, b, c, e, rfl, hr⟩
    · refine ⟨a ++ c, ?_, hl, ?_⟩
      · unfold ISet.subtract
        rw [he, e]
        simp only [Option.bind_eq_bind, Option.bind_some, Bool.false_eq_true, if_false]
      · intro x y
        constructor
        · rintro ⟨s, hs, hx, hy⟩
          refine ⟨⟨s, hs, hx, hy⟩, fun z hz1 hz2 hzk => ?_⟩
          have hz := mem_between h hx hy hz1 hz2
          rcases List.mem_append.1 hs with hs | hs
          · exact lt_irrefl _ (h1 z z ⟨s, hs, hz⟩ hzk)
          · exact lt_irrefl _ (h2 z z hzk ⟨s, hs, hz⟩)
        · exact fun h3 => h3.1
    · have hw1 := wf_append.1 hl
      have hw2 := wf_append.1 hw1.1
      have hw3 := wf_cons.1 hw2.2.1
      have hg := b.getLastD f
      obtain ⟨wf, hwf, hwfk⟩ := hr.overlap f (by simp)
      obtain ⟨wl, hwl, hwlk⟩ := hr.overlap (b.getLastD f) (getLastD_mem f b)
      simp only [setSeg_key] at hwf hwl
      have hlr := h.mem_rightSubtract f k
      have hrr := h.mem_leftSubtract (b.getLastD f) k
      have hdl : ∀ x, o.Mem x (b.getLastD f) → Dom o setSeg (f :: b) x :=
        fun x hx => ⟨_, getLastD_mem f b, hx⟩
      have hac : WF o setSeg (a ++ c) := by
        rw [wf_append]
        exact ⟨hw2.1, hw1.2.1, fun x y hx hy => hw1.2.2 x y (by simp [hx]) hy⟩
      have hmc : ∀ x y, Dom o setSeg (f :: b) x → Dom o setSeg c y → x < y :=
        fun x y hx hy => hw1.2.2 x y (by rw [dom_append]; exact Or.inr hx) hy
      have ham : ∀ x y, Dom o setSeg a x → Dom o setSeg (f :: b) y → x < y := hw2.2.2
      -- left residual
      let A := a ++ (if o.isEmpty (o.rightSubtract f k) = true then []
        else [o.rightSubtract f k])
      have hA : WF o setSeg (A ++ c) ∧ (if o.isEmpty (o.rightSubtract f k) = true then some (a ++ c)
          else stdInsert o setSeg (a ++ c) (o.rightSubtract f k)) = some (A ++ c) ∧
          (∀ x y, Same o setSeg A x y ↔ Same o setSeg a x y ∨
            (o.Mem x (o.rightSubtract f k) ∧ o.Mem y (o.rightSubtract f k))) := by
        cases he1 : o.isEmpty (o.rightSubtract f k) with
        | true =>
          simp only [A, he1, if_true, List.append_nil]
          rw [h.isEmpty_iff] at he1
          exact ⟨hac, trivial, by simp [he1]⟩
        | false =>
          simp only [A, he1, Bool.false_eq_true, if_false, List.append_assoc, List.cons_append,
            List.nil_append]
          have hne : o.Nonempty (o.rightSubtract f k) := (nonempty_iff h).2 he1
          have g1 : ∀ x y, Dom o setSeg a x → o.Mem y (o.rightSubtract f k) → x < y :=
            fun x y hx hy => ham x y hx (by simp [((hlr y).1 hy).1])
          have g2 : ∀ x y, o.Mem x (o.rightSubtract f k) → Dom o setSeg c y → x < y :=
            fun x y hx hy => hmc x y (by simp [((hlr x).1 hx).1]) hy
          exact ⟨insert_free h hac hne g1 g2, stdInsert_eq h hac hne g1 g2, by simp⟩
      obtain ⟨hwA, eA, hsA⟩ := hA
      have hdA : ∀ x, Dom o setSeg A x ↔ Dom o setSeg a x ∨ o.Mem x (o.rightSubtract f k) := by
        intro x; rw [← same_self, hsA, same_self, and_self]
      -- right residual
      let C := (if o.isEmpty (o.leftSubtract (b.getLastD f) k) = true then []
        else [o.leftSubtract (b.getLastD f) k]) ++ c
      have hC : WF o setSeg (A ++ C) ∧ (if o.isEmpty (o.leftSubtract (b.getLastD f) k) = true
          then some (A ++ c)
          else stdInsert o setSeg (A ++ c) (o.leftSubtract (b.getLastD f) k)) = some (A ++ C) ∧
          (∀ x y, Same o setSeg C x y ↔ Same o setSeg c x y ∨
            (o.Mem x (o.leftSubtract (b.getLastD f) k) ∧
              o.Mem y (o.leftSubtract (b.getLastD f) k))) := by
        cases he1 : o.isEmpty (o.leftSubtract (b.getLastD f) k) with
        | true =>
          simp only [C, he1, if_true, List.nil_append]
          rw [h.isEmpty_iff] at he1
          exact ⟨hwA, trivial, by simp only [he1, false_and, or_false, implies_true]⟩
        | false =>
          simp only [C, he1, Bool.false_eq_true, if_false, List.cons_append, List.nil_append]
          have hne : o.Nonempty (o.leftSubtract (b.getLastD f) k) := (nonempty_iff h).2 he1
          have g1 : ∀ x y, Dom o setSeg A x → o.Mem y (o.leftSubtract (b.getLastD f) k) →
              x < y := by
            intro x y hx hy
            rw [hrr] at hy
            rcases (hdA x).1 hx with hx | hx
            · exact ham x y hx (hdl y hy.1)
            · exact lt_trans (((hlr x).1 hx).2 wf hwfk) (hy.2 wf hwfk)
          have g2 : ∀ x y, o.Mem x (o.leftSubtract (b.getLastD f) k) → Dom o setSeg c y → x < y :=
            fun x y hx hy => hmc x y (hdl x ((hrr x).1 hx).1) hy
          refine ⟨insert_free h hwA hne g1 g2, stdInsert_eq h hwA hne g1 g2, ?_⟩
          intro x y
          simp only [same_cons, setSeg_key]
          tauto
      obtain ⟨hwC, eC, hsC⟩ := hC
      refine ⟨A ++ C, ?_, hwC, ?_⟩
      · unfold ISet.subtract
        rw [he, e]
        simp only [Option.bind_eq_bind, Option.bind_some, Bool.false_eq_true, if_false]
        have eA' : ISet.insertResid o (a ++ c) (o.rightSubtract f k) = some (A ++ c) := eA
        rw [eA']
        exact eC
      · intro x y
        rw [same_append, hsA, hsC]
        constructor
        · rintro ((h1 | h1) | h1 | h1)
          · refine ⟨by simp only [same_append]; tauto, fun z hz1 hz2 hzk => ?_⟩
            exact lt_irrefl z (lt_of_le_of_lt hz2 (max_lt (hr.before x z h1.left hzk)
              (hr.before y z h1.right hzk)))
          · rw [hlr, hlr] at h1
            refine ⟨by simp only [same_append, same_cons, setSeg_key]; tauto, fun z hz1 hz2 hzk => ?_⟩
            exact lt_irrefl z (lt_of_le_of_lt hz2 (max_lt (h1.1.2 z hzk) (h1.2.2 z hzk)))
          · refine ⟨by simp only [same_append]; tauto, fun z hz1 hz2 hzk => ?_⟩
            exact lt_irrefl z (lt_of_lt_of_le (lt_min (hr.after z x hzk h1.left)
              (hr.after z y hzk h1.right)) hz1)
          · rw [hrr, hrr] at h1
            refine ⟨?_, fun z hz1 hz2 hzk => ?_⟩
            · have : Same o setSeg (f :: b) x y := ⟨_, getLastD_mem f b, h1.1.1, h1.2.1⟩
              simp only [same_append]; tauto
            · exact lt_irrefl z (lt_of_lt_of_le (lt_min (h1.1.2 z hzk) (h1.2.2 z hzk)) hz1)
        · rintro ⟨h1, h2⟩
          simp only [same_append] at h1
          rcases h1 with (h1 | h1) | h1
          · exact Or.inl (Or.inl h1)
          · obtain ⟨s, hs, hx, hy⟩ := h1
            have hxk : ¬ o.Mem x k := h2 x (min_le_left _ _) (le_max_left _ _)
            have hyk : ¬ o.Mem y k := h2 y (min_le_right _ _) (le_max_right _ _)
            -- left of k means in f, right of k in the last node
            have hf : ∀ p, o.Mem p s → (∀ u, o.Mem u k → p < u) → s = f := by
              intro p hp hpk
              rcases List.mem_cons.1 hs with h3 | h3
              · exact h3
              · exact absurd (lt_trans (hw3.2.2 wf p hwf ⟨s, h3, hp⟩) (hpk wf hwfk)) (lt_irrefl _)
            have hb : ∀ p, o.Mem p s → (∀ u, o.Mem u k → u < p) → s = b.getLastD f := by
              intro p hp hpk
              rcases eq_last_or_before hw2.2.1 hs with h3 | h3
              · exact h3
              · exact absurd (lt_trans (h3 p wl hp hwl) (hpk wl hwlk)) (lt_irrefl _)
            rcases point_tri h hk x with hx1 | hx1 | hx1
            · exact absurd hx1 hxk
            · rcases point_tri h hk y with hy1 | hy1 | hy1
              · exact absurd hy1 hyk
              · have e1 := hf x hx hx1
                subst e1
                exact Or.inl (Or.inr ⟨(hlr x).2 ⟨hx, hx1⟩, (hlr y).2 ⟨hy, hy1⟩⟩)
              · exact absurd hwfk (h2 wf ((min_le_left _ _).trans (le_of_lt (hx1 wf hwfk)))
                  ((le_of_lt (hy1 wf hwfk)).trans (le_max_right _ _)))
            · rcases point_tri h hk y with hy1 | hy1 | hy1
              · exact absurd hy1 hyk
              · exact absurd hwfk (h2 wf ((min_le_right _ _).trans (le_of_lt (hy1 wf hwfk)))
                  ((le_of_lt (hx1 wf hwfk)).trans (le_max_left _ _)))
              · have e1 := hb x hx hx1
                rw [e1] at hx hy
                exact Or.inr (Or.inr ⟨(hrr x).2 ⟨hx, hx1⟩, (hrr y).2 ⟨hy, hy1⟩⟩)
          · exact Or.inr (Or.inl h1)

end
end ICL
