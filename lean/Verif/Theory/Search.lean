import Verif.Model.Search
import Verif.Theory.Seg

/-!
# Searching in trees: proofs
-/

set_option linter.unusedSectionVars false

namespace ICL.Shape
variable {D I V S : Type} [LinearOrder D] {o : IntervalOps D I} {g : SegOps I V S}

theorem wf_node {l r : Shape S} {s : S} (hw : WF o g (node l s r).toList) :
    WF o g l.toList ∧ WF o g r.toList ∧ o.Nonempty (g.key s) ∧
    (∀ p ∈ l.toList, o.Before (g.key p) (g.key s)) ∧ ∀ q ∈ r.toList, o.Before (g.key s) (g.key q) := by
  obtain ⟨hn, hs⟩ := hw
  simp only [toList, List.mem_append, List.mem_cons] at hn
  simp only [toList, List.pairwise_append, List.pairwise_cons, List.mem_cons] at hs
  exact ⟨⟨fun p hp => hn p (.inl hp), hs.1⟩, ⟨fun p hp => hn p (.inr (.inr hp)), hs.2.1.2⟩, hn s (.inr (.inl rfl)),
    fun p hp => hs.2.2 p hp s (.inl rfl), hs.2.1.1⟩

theorem before_trans {i j k : I} (hj : o.Nonempty j) (h1 : o.Before i j) (h2 : o.Before j k) : o.Before i k := by
  obtain ⟨z, hz⟩ := hj
  exact fun x y hx hy => lt_trans (h1 x z hx hz) (h2 z y hz hy)

theorem not_before_of {i k : I} (hi : o.Nonempty i) (hk : o.Nonempty k) (h : o.Before i k) : ¬ o.Before k i := by
  obtain ⟨x, hx⟩ := hi
  obtain ⟨y, hy⟩ := hk
  exact fun h' => lt_asymm (h x y hx hy) (h' y x hy hx)

variable (h : o.Lawful)
include h

theorem compare_eq {i j : I} (hi : o.Nonempty i) (hj : o.Nonempty j) :
    ∃ b, compare o i j = some b ∧ (b = true ↔ o.Before i j) := by
  refine ⟨o.neLess i j, ?_, h.neLess_iff i j hi hj⟩
  unfold compare
  rw [isEmpty_false h hi, isEmpty_false h hj]; rfl

theorem lowerBound_spec {k : I} (hk : o.Nonempty k) (t : Shape S) (hw : WF o g t.toList) :
    ∃ a b, t.lowerBound o g k = some (a, b) ∧ t.toList = a ++ b ∧ (∀ s ∈ a, o.Before (g.key s) k) ∧
      ∀ s ∈ b, ¬ o.Before (g.key s) k := by
  induction t with
  | leaf => exact ⟨[], [], rfl, rfl, by simp, by simp⟩
  | node l s r ihl ihr =>
    obtain ⟨wl, wr, hs, hl, hr⟩ := wf_node hw
    obtain ⟨c, ec, hc⟩ := compare_eq h hs hk
    cases c with
    | true =>
      obtain ⟨a, b, e, hab, ha, hb⟩ := ihr wr
      refine ⟨l.toList ++ s :: a, b, by simp [lowerBound, ec, e], by simp [toList, hab], ?_, hb⟩
      intro p hp
      rcases List.mem_append.1 hp with hp | hp
      · exact before_trans hs (hl p hp) (hc.1 rfl)
      · rcases List.mem_cons.1 hp with rfl | hp
        · exact hc.1 rfl
        · exact ha p hp
    | false =>
      obtain ⟨a, b, e, hab, ha, hb⟩ := ihl wl
      have hn : ¬ o.Before (g.key s) k := fun hh => by cases hc.2 hh
      refine ⟨a, b ++ s :: r.toList, by simp [lowerBound, ec, e], by simp [toList, hab], ha, ?_⟩
      intro p hp
      rcases List.mem_append.1 hp with hp | hp
      · exact hb p hp
      · rcases List.mem_cons.1 hp with rfl | hp
        · exact hn
        · exact fun hh => hn (before_trans (wr.nonempty p hp) (hr p hp) hh)

theorem upperBound_spec {k : I} (hk : o.Nonempty k) (t : Shape S) (hw : WF o g t.toList) :
    ∃ a b, t.upperBound o g k = some (a, b) ∧ t.toList = a ++ b ∧ (∀ s ∈ a, ¬ o.Before k (g.key s)) ∧
      ∀ s ∈ b, o.Before k (g.key s) := by
  induction t with
  | leaf => exact ⟨[], [], rfl, rfl, by simp, by simp⟩
  | node l s r ihl ihr =>
    obtain ⟨wl, wr, hs, hl, hr⟩ := wf_node hw
    obtain ⟨c, ec, hc⟩ := compare_eq h hk hs
    cases c with
    | true =>
      obtain ⟨a, b, e, hab, ha, hb⟩ := ihl wl
      refine ⟨a, b ++ s :: r.toList, by simp [upperBound, ec, e], by simp [toList, hab], ha, ?_⟩
      intro p hp
      rcases List.mem_append.1 hp with hp | hp
      · exact hb p hp
      · rcases List.mem_cons.1 hp with rfl | hp
        · exact hc.1 rfl
        · exact before_trans hs (hc.1 rfl) (hr p hp)
    | false =>
      obtain ⟨a, b, e, hab, ha, hb⟩ := ihr wr
      have hn : ¬ o.Before k (g.key s) := fun hh => by cases hc.2 hh
      refine ⟨l.toList ++ s :: a, b, by simp [upperBound, ec, e], by simp [toList, hab], ?_, hb⟩
      intro p hp
      rcases List.mem_append.1 hp with hp | hp
      · exact fun hh => hn (before_trans (wl.nonempty p hp) hh (hl p hp))
      · rcases List.mem_cons.1 hp with rfl | hp
        · exact hn
        · exact ha p hp

theorem equalRange_spec' {k : I} (hk : o.Nonempty k) (t : Shape S) (hw : WF o g t.toList) :
    ∃ a b c, t.equalRange o g k = some (a, b, c) ∧ t.toList = a ++ b ++ c ∧ (∀ s ∈ a, o.Before (g.key s) k) ∧
      (∀ s ∈ b, ¬ o.Before (g.key s) k ∧ ¬ o.Before k (g.key s)) ∧ ∀ s ∈ c, o.Before k (g.key s) := by
  induction t with
  | leaf => exact ⟨[], [], [], rfl, rfl, by simp, by simp, by simp⟩
  | node l s r ihl ihr =>
    obtain ⟨wl, wr, hs, hl, hr⟩ := wf_node hw
    obtain ⟨d, ed, hd⟩ := compare_eq h hs hk
    cases d with
    | true =>
      obtain ⟨a, b, c, e, habc, ha, hb, hc⟩ := ihr wr
      refine ⟨l.toList ++ s :: a, b, c, by simp [equalRange, ed, e], by simp [toList, habc], ?_, hb, hc⟩
      intro p hp
      rcases List.mem_append.1 hp with hp | hp
      · exact before_trans hs (hl p hp) (hd.1 rfl)
      · rcases List.mem_cons.1 hp with rfl | hp
        · exact hd.1 rfl
        · exact ha p hp
    | false =>
      have hn : ¬ o.Before (g.key s) k := fun hh => by cases hd.2 hh
      obtain ⟨f, ef, hf⟩ := compare_eq h hk hs
      cases f with
      | true =>
        obtain ⟨a, b, c, e, habc, ha, hb, hc⟩ := ihl wl
        refine ⟨a, b, c ++ s :: r.toList, by simp [equalRange, ed, ef, e], by simp [toList, habc], ha, hb, ?_⟩
        intro p hp
        rcases List.mem_append.1 hp with hp | hp
        · exact hc p hp
        · rcases List.mem_cons.1 hp with rfl | hp
          · exact hf.1 rfl
          · exact before_trans hs (hf.1 rfl) (hr p hp)
      | false =>
        have hm : ¬ o.Before k (g.key s) := fun hh => by cases hf.2 hh
        obtain ⟨a, b, e, hab, ha, hb⟩ := lowerBound_spec h hk l wl
        obtain ⟨b', c, e', hbc, hb', hc⟩ := upperBound_spec h hk r wr
        refine ⟨a, b ++ s :: b', c, by simp [equalRange, ed, ef, e, e'], by simp [toList, hab, hbc], ha, ?_, hc⟩
        intro p hp
        rcases List.mem_append.1 hp with hp | hp
        · have hpl : p ∈ l.toList := by rw [hab]; simp [hp]
          exact ⟨hb p hp, fun hh => hm (before_trans (wl.nonempty p hpl) hh (hl p hpl))⟩
        · rcases List.mem_cons.1 hp with rfl | hp
          · exact ⟨hn, hm⟩
          · have hpr : p ∈ r.toList := by rw [hbc]; simp [hp]
            exact ⟨fun hh => hn (before_trans (wr.nonempty p hpr) (hr p hpr) hh), hb' p hp⟩

omit h in
/-- A sequence is split in one way only into a part in which all have a property and one in which none has. -/
theorem split_unique {α : Type} {P : α → Prop} : ∀ {a b a' b' : List α}, a ++ b = a' ++ b' → (∀ x ∈ a, P x) →
    (∀ x ∈ b, ¬ P x) → (∀ x ∈ a', P x) → (∀ x ∈ b', ¬ P x) → a = a' ∧ b = b'
  | [], b, [], b', e, _, _, _, _ => ⟨rfl, e⟩
  | [], b, x :: a', b', e, _, hb, ha', _ => by
    simp only [List.nil_append] at e
    exact absurd (ha' x (by simp)) (hb x (by rw [e]; simp))
  | x :: a, b, [], b', e, ha, _, _, hb' => by
    simp only [List.nil_append] at e
    exact absurd (ha x (by simp)) (hb' x (by rw [← e]; simp))
  | x :: a, b, y :: a', b', e, ha, hb, ha', hb' => by
    simp only [List.cons_append, List.cons.injEq] at e
    obtain ⟨rfl, e⟩ := e
    obtain ⟨rfl, rfl⟩ := split_unique e (fun z hz => ha z (by simp [hz])) hb (fun z hz => ha' z (by simp [hz])) hb'
    exact ⟨rfl, rfl⟩

theorem overlap_iff {i k : I} (hi : o.Nonempty i) (hk : o.Nonempty k) :
    (¬ o.Before i k ∧ ¬ o.Before k i) ↔ ∃ x, o.Mem x i ∧ o.Mem x k := by
  constructor
  · rintro ⟨h1, h2⟩
    rw [← h.neLess_iff i k hi hk, Bool.not_eq_true] at h1
    rw [← h.neLess_iff k i hk hi, Bool.not_eq_true] at h2
    exact overlap_of_not_less h hi hk h1 h2
  · rintro ⟨x, h1, h2⟩
    exact ⟨fun hb => lt_irrefl x (hb x x h1 h2), fun hb => lt_irrefl x (hb x x h2 h1)⟩

/-- `equal_range` in every tree is that of the list model. -/
theorem equalRange_eq (t : Shape S) (hw : WF o g t.toList) (k : I) :
    t.equalRange o g k = ICL.equalRange o g t.toList k := by
  by_cases hk : o.Nonempty k
  · obtain ⟨a, b, c, e, habc, ha, hb, hc⟩ := equalRange_spec' h hk t hw
    obtain ⟨a', b', c', e', habc', ha', hb', hc'⟩ := ICL.equalRange_spec h hw hk
    rw [e, e']
    have hne : ∀ s ∈ t.toList, o.Nonempty (g.key s) := hw.nonempty
    have hb'' : ∀ s ∈ b', ¬ o.Before (g.key s) k ∧ ¬ o.Before k (g.key s) := fun s hs =>
      (overlap_iff h (hne s (by rw [habc']; simp [hs])) hk).2 (hb' s hs)
    have hcn : ∀ {c : List S}, (∀ s ∈ c, s ∈ t.toList) → (∀ s ∈ c, o.Before k (g.key s)) →
        ∀ s ∈ c, ¬ o.Before (g.key s) k := fun hm hc s hs => not_before_of hk (hne s (hm s hs)) (hc s hs)
    obtain ⟨rfl, e2⟩ := split_unique (P := fun s => o.Before (g.key s) k)
      (by rw [← List.append_assoc, ← List.append_assoc, ← habc, ← habc'] : a ++ (b ++ c) = a' ++ (b' ++ c')) ha
      (by
        intro s hs
        rcases List.mem_append.1 hs with hs | hs
        · exact (hb s hs).1
        · exact hcn (fun s hs => by rw [habc]; simp [hs]) hc s hs) ha'
      (by
        intro s hs
        rcases List.mem_append.1 hs with hs | hs
        · exact (hb'' s hs).1
        · exact hcn (fun s hs => by rw [habc']; simp [hs]) hc' s hs)
    obtain ⟨rfl, rfl⟩ := split_unique (P := fun s => ¬ o.Before k (g.key s)) e2 (fun s hs => (hb s hs).2)
      (fun s hs => not_not_intro (hc s hs)) (fun s hs => (hb'' s hs).2) (fun s hs => not_not_intro (hc' s hs))
    rfl
  · have hk' : o.isEmpty k = true := by
      rw [← Bool.not_eq_false, ← nonempty_iff h]; exact hk
    cases t with
    | leaf => simp [equalRange, ICL.equalRange, toList, cmpOk]
    | node l s r => simp [equalRange, ICL.equalRange, toList, cmpOk, compare, hk']

theorem insert_spec {s : S} (hk : o.Nonempty (g.key s)) (t : Shape S) (hw : WF o g t.toList) :
    (∃ a c, t.insert o g s = some (a ++ s :: c, s, true) ∧ t.toList = a ++ c ∧
      (∀ p ∈ a, o.Before (g.key p) (g.key s)) ∧ ∀ q ∈ c, o.Before (g.key s) (g.key q)) ∨
    ∃ j ∈ t.toList, t.insert o g s = some (t.toList, j, false) ∧ ∃ x, o.Mem x (g.key j) ∧ o.Mem x (g.key s) := by
  obtain ⟨a, c, e, hac, ha, hc⟩ := upperBound_spec h hk t hw
  rcases List.eq_nil_or_concat a with rfl | ⟨a, j, rfl⟩
  · exact .inl ⟨[], c, by simp [insert, e], hac, by simp, hc⟩
  · have hj : j ∈ t.toList := by rw [hac]; simp
    have hjn := hw.nonempty j hj
    obtain ⟨d, ed, hd⟩ := compare_eq h hjn hk
    cases d with
    | true =>
      refine .inl ⟨a ++ [j], c, by simp [insert, e, ed], by simpa using hac, ?_, hc⟩
      intro p hp
      rcases List.mem_append.1 hp with hp | hp
      · have hs := hw.sorted
        rw [hac] at hs
        simp only [List.concat_eq_append, List.append_assoc, List.pairwise_append] at hs
        exact before_trans hjn (hs.2.2 p hp j (by simp)) (hd.1 rfl)
      · rw [List.mem_singleton.1 hp]; exact hd.1 rfl
    | false =>
      refine .inr ⟨j, hj, by simp [insert, e, ed], (overlap_iff h hjn hk).1 ⟨fun hh => ?_, ha j (by simp)⟩⟩
      cases hd.2 hh

/-- What an insertion may do: put `s` in its place if it overlaps no node, else return a node that it overlaps. -/
def Inserts (o : IntervalOps D I) (g : SegOps I V S) (l : List S) (s : S) (r : Option (List S × S × Bool)) : Prop :=
  (∃ a c, r = some (a ++ s :: c, s, true) ∧ l = a ++ c ∧
      (∀ p ∈ a, o.Before (g.key p) (g.key s)) ∧ ∀ q ∈ c, o.Before (g.key s) (g.key q)) ∨
    ∃ j ∈ l, r = some (l, j, false) ∧ ∃ x, o.Mem x (g.key j) ∧ o.Mem x (g.key s)

omit h in
theorem before_last {a : List S} {j : S} {c : List S} {k : I} (hw : WF o g (a ++ j :: c)) (hj : o.Before (g.key j) k) :
    ∀ p ∈ a ++ [j], o.Before (g.key p) k := by
  intro p hp
  rcases List.mem_append.1 hp with hp | hp
  · have hs := hw.sorted
    rw [List.pairwise_append] at hs
    exact before_trans (hw.nonempty j (by simp)) (hs.2.2 p hp j (by simp)) hj
  · rw [List.mem_singleton.1 hp]; exact hj

omit h in
theorem before_first {a : List S} {j : S} {c : List S} {k : I} (hw : WF o g (a ++ j :: c)) (hj : o.Before k (g.key j)) :
    ∀ p ∈ j :: c, o.Before k (g.key p) := by
  intro p hp
  rcases List.mem_cons.1 hp with rfl | hp
  · exact hj
  · have hs := hw.sorted
    rw [List.pairwise_append, List.pairwise_cons] at hs
    exact before_trans (hw.nonempty j (by simp)) hj (hs.2.1.1 p hp)

theorem insertHint_spec (n : Nat) {s : S} (hk : o.Nonempty (g.key s)) (t : Shape S) (hw : WF o g t.toList) :
    Inserts o g t.toList s (t.insertHint o g n s) := by
  have hins : Inserts o g t.toList s (t.insert o g s) := insert_spec h hk t hw
  have hsplit : t.toList = t.toList.take n ++ t.toList.drop n := (List.take_append_drop n _).symm
  unfold insertHint
  generalize hl : t.toList.take n = left at hsplit ⊢
  generalize hr : t.toList.drop n = rest at hsplit ⊢
  cases rest with
  | nil =>
    rcases List.eq_nil_or_concat left with rfl | ⟨a, j, rfl⟩
    · simpa using hins
    · have hw' := hw
      rw [hsplit] at hw'
      simp only [List.concat_eq_append, List.append_nil] at hw' hsplit
      obtain ⟨d, ed, hd⟩ := compare_eq h (hw'.nonempty j (by simp)) hk
      simp only [List.concat_eq_append, List.getLast?_append, List.getLast?_singleton, Option.some_or]
      cases d with
      | true =>
        exact .inl ⟨a ++ [j], [], by simp [ed], by simpa using hsplit, before_last hw' (hd.1 rfl), by simp⟩
      | false => simpa [ed] using hins
  | cons pos right =>
    have hw' := hw
    rw [hsplit] at hw'
    have hp := hw'.nonempty pos (by simp)
    obtain ⟨d, ed, hd⟩ := compare_eq h hk hp
    obtain ⟨f, ef, hf⟩ := compare_eq h hp hk
    cases d with
    | true =>
      rcases List.eq_nil_or_concat left with rfl | ⟨a, j, rfl⟩
      · exact .inl ⟨[], pos :: right, by simp [ed], by simpa using hsplit, by simp, before_first hw' (hd.1 rfl)⟩
      · have hw2 := hw'
        simp only [List.concat_eq_append, List.append_assoc, List.singleton_append] at hw2
        obtain ⟨e, ee, he⟩ := compare_eq h (hw2.nonempty j (by simp)) hk
        simp only [List.concat_eq_append] at hsplit hw'
        cases e with
        | true =>
          exact .inl ⟨a ++ [j], pos :: right, by simp [ed, ee], hsplit, before_last hw2 (he.1 rfl),
            before_first hw' (hd.1 rfl)⟩
        | false => simpa [ed, ee] using hins
    | false =>
      cases f with
      | true =>
        cases right with
        | nil =>
          exact .inl ⟨left ++ [pos], [], by simp [ed, ef], by simpa using hsplit, before_last hw' (hf.1 rfl), by simp⟩
        | cons after right =>
          have hw2 := hw'
          rw [show left ++ pos :: after :: right = (left ++ [pos]) ++ after :: right by simp] at hw2
          obtain ⟨e, ee, he⟩ := compare_eq h hk (hw2.nonempty after (by simp))
          cases e with
          | true =>
            exact .inl ⟨left ++ [pos], after :: right, by simp [ed, ef, ee], by simpa using hsplit,
              before_last hw' (hf.1 rfl), before_first hw2 (he.1 rfl)⟩
          | false => simpa [ed, ef, ee] using hins
      | false =>
        refine .inr ⟨pos, by rw [hsplit]; simp, by simp [ed, ef], (overlap_iff h hp hk).1 ⟨fun hh => ?_, fun hh => ?_⟩⟩
        · cases hf.2 hh
        · cases hd.2 hh

omit h in
/-- All insertions of the same node end with the same content. -/
theorem Inserts.unique {l : List S} {s : S} {r r' : Option (List S × S × Bool)} (hw : WF o g l)
    (hk : o.Nonempty (g.key s)) (h1 : Inserts o g l s r) (h2 : Inserts o g l s r') :
    r.map Prod.fst = r'.map Prod.fst ∧ r.map (fun z => z.2.2) = r'.map fun z => z.2.2 := by
  have key : ∀ a c j, l = a ++ c → (∀ p ∈ a, o.Before (g.key p) (g.key s)) →
      (∀ q ∈ c, o.Before (g.key s) (g.key q)) → j ∈ l → (∃ x, o.Mem x (g.key j) ∧ o.Mem x (g.key s)) → False := by
    rintro a c j rfl ha hc hj ⟨x, hx, hx'⟩
    rcases List.mem_append.1 hj with hj | hj
    · exact lt_irrefl x (ha j hj x x hx hx')
    · exact lt_irrefl x (hc j hj x x hx' hx)
  rcases h1 with ⟨a, c, rfl, hac, ha, hc⟩ | ⟨j, hj, rfl, hx⟩
  · rcases h2 with ⟨a', c', rfl, hac', ha', hc'⟩ | ⟨j', hj', rfl, hx'⟩
    · have hne : ∀ p ∈ l, o.Nonempty (g.key p) := hw.nonempty
      obtain ⟨rfl, rfl⟩ := split_unique (P := fun p => o.Before (g.key p) (g.key s)) (hac.symm.trans hac') ha
        (fun q hq => not_before_of hk (hne q (by rw [hac]; simp [hq])) (hc q hq)) ha'
        (fun q hq => not_before_of hk (hne q (by rw [hac']; simp [hq])) (hc' q hq))
      exact ⟨rfl, rfl⟩
    · exact (key a c j' hac ha hc hj' hx').elim
  · rcases h2 with ⟨a', c', rfl, hac', ha', hc'⟩ | ⟨j', hj', rfl, hx'⟩
    · exact (key a' c' j hac' ha' hc' hj hx).elim
    · exact ⟨rfl, rfl⟩

end ICL.Shape
