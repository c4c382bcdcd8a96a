import Verif.Model.MapQuery
import Verif.Theory.Observe

/-!
# Lexicographical comparison and map queries: proofs
-/

set_option linter.unusedSectionVars false
set_option linter.unusedSimpArgs false
set_option linter.unusedVariables false

namespace ICL

/-! ## Lexicographical comparison over a strict weak order -/

section
variable {S : Type}

/-- `lt` is a strict weak order on the members of `N` with the equivalence `E`. -/
structure WeakOrderOn (lt : S → S → Bool) (E : S → S → Prop) (N : S → Prop) : Prop where
  irrefl : ∀ a, N a → lt a a = false
  trans : ∀ a b c, N a → N b → N c → lt a b = true → lt b c = true → lt a c = true
  incomp : ∀ a b, N a → N b → (E a b ↔ lt a b = false ∧ lt b a = false)
  etrans : ∀ a b c, N a → N b → N c → E a b → E b c → E a c

namespace WeakOrderOn
variable {lt : S → S → Bool} {E : S → S → Prop} {N : S → Prop} (w : WeakOrderOn lt E N)
include w

theorem asymm {a b : S} (ha : N a) (hb : N b) (h : lt a b = true) : lt b a = false := by
  by_contra hc
  rw [Bool.not_eq_false] at hc
  have := w.trans a b a ha hb ha h hc
  rw [w.irrefl a ha] at this; cases this

theorem esymm {a b : S} (ha : N a) (hb : N b) (h : E a b) : E b a :=
  (w.incomp b a hb ha).2 ((w.incomp a b ha hb).1 h).symm

theorem elt {a b c : S} (ha : N a) (hb : N b) (hc : N c) (h : E a b) (h' : lt b c = true) : lt a c = true := by
  by_contra hn
  rw [Bool.not_eq_true] at hn
  have hab := (w.incomp a b ha hb).1 h
  cases hca : lt c a with
  | true =>
    have := w.trans b c a hb hc ha h' hca
    rw [hab.2] at this; cases this
  | false =>
    have := (w.incomp b c hb hc).1 (w.etrans b a c hb ha hc (w.esymm ha hb h) ((w.incomp a c ha hc).2 ⟨hn, hca⟩))
    rw [h'] at this; cases this.1

theorem lte {a b c : S} (ha : N a) (hb : N b) (hc : N c) (h : lt a b = true) (h' : E b c) : lt a c = true := by
  by_contra hn
  rw [Bool.not_eq_true] at hn
  have hbc := (w.incomp b c hb hc).1 h'
  cases hca : lt c a with
  | true =>
    have := w.trans c a b hc ha hb hca h
    rw [hbc.2] at this; cases this
  | false =>
    have := (w.incomp a b ha hb).1 (w.etrans a c b ha hc hb ((w.incomp a c ha hc).2 ⟨hn, hca⟩) (w.esymm hb hc h'))
    rw [h] at this; cases this.1

theorem lex_irrefl {l : List S} (hl : ∀ a ∈ l, N a) : lexLess lt l l = false := by
  induction l with
  | nil => rfl
  | cons a l ih =>
    simp only [lexLess, w.irrefl a (hl a (by simp)), Bool.false_eq_true, if_false]
    exact ih fun a ha => hl a (by simp [ha])

theorem lex_incomp {l r : List S} (hl : ∀ a ∈ l, N a) (hr : ∀ a ∈ r, N a) :
    (lexLess lt l r = false ∧ lexLess lt r l = false) ↔ List.Forall₂ E l r := by
  induction l generalizing r with
  | nil => cases r <;> simp [lexLess]
  | cons a l ih =>
    cases r with
    | nil => simp [lexLess]
    | cons b r =>
      have ha := hl a (by simp)
      have hb := hr b (by simp)
      rw [List.forall₂_cons, w.incomp a b ha hb, ← ih (fun a ha => hl a (by simp [ha])) fun a ha => hr a (by simp [ha])]
      simp only [lexLess]
      cases h1 : lt a b <;> cases h2 : lt b a <;> simp

theorem lex_trans {l m r : List S} (hl : ∀ a ∈ l, N a) (hm : ∀ a ∈ m, N a) (hr : ∀ a ∈ r, N a)
    (h1 : lexLess lt l m = true) (h2 : lexLess lt m r = true) : lexLess lt l r = true := by
  induction l generalizing m r with
  | nil =>
    cases m with
    | nil => simp [lexLess] at h1
    | cons b m => cases r with
      | nil => simp [lexLess] at h2
      | cons c r => rfl
  | cons a l ih =>
    cases m with
    | nil => simp [lexLess] at h1
    | cons b m => cases r with
      | nil => simp [lexLess] at h2
      | cons c r =>
        have ha := hl a (by simp)
        have hb := hm b (by simp)
        have hc := hr c (by simp)
        have ih := @ih m r (fun a ha => hl a (by simp [ha])) (fun a ha => hm a (by simp [ha])) (fun a ha => hr a (by simp [ha]))
        simp only [lexLess] at h1 h2 ⊢
        cases hab : lt a b with
        | true =>
          cases hbc : lt b c with
          | true => rw [w.trans a b c ha hb hc hab hbc]; rfl
          | false =>
            cases hcb : lt c b with
            | true => simp [hbc, hcb] at h2
            | false => rw [w.lte ha hb hc hab ((w.incomp b c hb hc).2 ⟨hbc, hcb⟩)]; rfl
        | false =>
          cases hba : lt b a with
          | true => simp [hab, hba] at h1
          | false =>
            have hE := (w.incomp a b ha hb).2 ⟨hab, hba⟩
            cases hbc : lt b c with
            | true => rw [w.elt ha hb hc hE hbc]; rfl
            | false =>
              cases hcb : lt c b with
              | true => simp [hbc, hcb] at h2
              | false =>
                have hE2 := w.etrans a b c ha hb hc hE ((w.incomp b c hb hc).2 ⟨hbc, hcb⟩)
                have := (w.incomp a c ha hc).1 hE2
                simp only [hab, hba, hbc, hcb, Bool.false_eq_true, if_false] at h1 h2
                simp only [this.1, this.2, Bool.false_eq_true, if_false]
                exact ih h1 h2

/-- The reversed order -/
theorem swap : WeakOrderOn (fun a b => lt b a) E N where
  irrefl := w.irrefl
  trans a b c ha hb hc h1 h2 := w.trans c b a hc hb ha h2 h1
  incomp a b ha hb := by rw [w.incomp a b ha hb]; exact and_comm
  etrans := w.etrans

end WeakOrderOn

/-- The order of pairs -/
theorem WeakOrderOn.pair {I V : Type} {lt : I → I → Bool} {E : I → I → Prop} {N : I → Prop}
    {vlt : V → V → Bool} (w : WeakOrderOn lt E N) (wv : WeakOrderOn vlt Eq fun _ => True) :
    WeakOrderOn (fun a b : I × V => lt a.1 b.1 || (!lt b.1 a.1 && vlt a.2 b.2))
      (fun a b => E a.1 b.1 ∧ a.2 = b.2) (fun a => N a.1) where
  irrefl a ha := by simp [w.irrefl a.1 ha, wv.irrefl a.2 trivial]
  trans a b c ha hb hc h1 h2 := by
    simp only [Bool.or_eq_true, Bool.and_eq_true, Bool.not_eq_true'] at h1 h2 ⊢
    rcases h1 with h1 | ⟨h1, h1'⟩ <;> rcases h2 with h2 | ⟨h2, h2'⟩
    · exact Or.inl (w.trans _ _ _ ha hb hc h1 h2)
    · left
      cases hbc : lt b.1 c.1 with
      | true => exact w.trans _ _ _ ha hb hc h1 hbc
      | false => exact w.lte ha hb hc h1 ((w.incomp _ _ hb hc).2 ⟨hbc, h2⟩)
    · left
      cases hab : lt a.1 b.1 with
      | true => exact w.trans _ _ _ ha hb hc hab h2
      | false => exact w.elt ha hb hc ((w.incomp _ _ ha hb).2 ⟨hab, h1⟩) h2
    · by_cases hac : lt a.1 c.1 = true
      · exact Or.inl hac
      · right
        refine ⟨?_, wv.trans _ _ _ trivial trivial trivial h1' h2'⟩
        rw [Bool.not_eq_true] at hac
        by_contra hca
        rw [Bool.not_eq_false] at hca
        -- c < a; a ≤ b, b ≤ c
        cases hab : lt a.1 b.1 with
        | true => rw [w.trans _ _ _ hc ha hb hca hab] at h2; cases h2
        | false =>
          have := w.lte hc ha hb hca ((w.incomp _ _ ha hb).2 ⟨hab, h1⟩)
          rw [h2] at this; cases this
  incomp a b ha hb := by
    rw [w.incomp _ _ ha hb, wv.incomp _ _ trivial trivial]
    cases h1 : lt a.1 b.1 <;> cases h2 : lt b.1 a.1 <;> simp
  etrans a b c ha hb hc h1 h2 := ⟨w.etrans _ _ _ ha hb hc h1.1 h2.1, h1.2.trans h2.2⟩

theorem WeakOrderOn.linear {V : Type} [LinearOrder V] :
    WeakOrderOn (fun a b : V => decide (a < b)) Eq fun _ => True where
  irrefl := by simp
  trans a b c _ _ _ h1 h2 := by
    simp only [decide_eq_true_eq] at *; exact h1.trans h2
  incomp a b _ _ := by
    simp only [decide_eq_false_iff_not, not_lt]
    constructor
    · rintro rfl; simp
    · rintro ⟨h1, h2⟩; exact le_antisymm h2 h1
  etrans a b c _ _ _ h1 h2 := h1.trans h2
end

/-! ## Distinct equality -/

section
variable {D I V S : Type} [LinearOrder D] {o : IntervalOps D I} {g : SegOps I V S} [DecidableEq V]

theorem dropWhile_filter (ident : V) (r : List S) :
    (match r.dropWhile fun t => decide (g.val t = ident) with
      | [] => (r.filter fun t => !decide (g.val t = ident)) = []
      | t :: r' => (r.filter fun t => !decide (g.val t = ident)) =
          t :: (r'.filter fun t => !decide (g.val t = ident))) := by
  induction r with
  | nil => simp
  | cons t r ih =>
    by_cases ht : g.val t = ident
    · simp only [List.dropWhile_cons, ht, decide_true, if_true, List.filter_cons, Bool.not_true, Bool.false_eq_true, if_false]
      exact ih
    · simp [List.dropWhile_cons, ht, List.filter_cons]

theorem distinctEqual_eq (ident : V) (l r : List S) : distinctEqual o g ident l r =
    eqC o g (l.filter fun t => !decide (g.val t = ident)) (r.filter fun t => !decide (g.val t = ident)) := by
  induction l generalizing r with
  | nil =>
    have := dropWhile_filter (g := g) ident r
    simp only [distinctEqual]
    cases e : r.dropWhile fun t => decide (g.val t = ident) with
    | nil => rw [e] at this; dsimp only at this; simp [this, eqC]
    | cons t r' => rw [e] at this; dsimp only at this; simp [this, eqC]
  | cons s l ih =>
    simp only [distinctEqual]
    by_cases hs : g.val s = ident
    · simp only [hs, if_true, List.filter_cons, decide_true, Bool.not_true, Bool.false_eq_true, if_false]
      exact ih r
    · simp only [hs, if_false, List.filter_cons, decide_false, Bool.not_false, if_true]
      have := dropWhile_filter (g := g) ident r
      cases e : r.dropWhile fun t => decide (g.val t = ident) with
      | nil => rw [e] at this; dsimp only at this; simp [this, eqC]
      | cons t r' =>
        rw [e] at this; dsimp only at this
        rw [this]
        simp only [eqC, ih]

theorem maps_filter (ident : V) (l : List S) (x : D) (v : V) :
    Maps o g (l.filter fun t => !decide (g.val t = ident)) x v ↔ Maps o g l x v ∧ v ≠ ident := by
  unfold Maps
  constructor
  · rintro ⟨s, hs, hm, rfl⟩
    simp only [List.mem_filter, Bool.not_eq_true', decide_eq_false_iff_not] at hs
    exact ⟨⟨s, hs.1, hm, rfl⟩, hs.2⟩
  · rintro ⟨⟨s, hs, hm, rfl⟩, hv⟩
    exact ⟨s, by simp [hs, hv], hm, rfl⟩

theorem wf_filter (p : S → Bool) {l : List S} (hl : WF o g l) : WF o g (l.filter p) := by
  refine ⟨fun s hs => hl.1 s (List.mem_filter.1 hs).1, ?_⟩
  exact hl.2.filter p

end

/-! ## Map queries -/

namespace IMap
section
variable {D I V : Type} [LinearOrder D] {o : IntervalOps D I} [DecidableEq V] (h : o.Lawful)
include h

theorem allJoinable_iff (v : V) (s : I × V) (l : List (I × V)) (hl : WF o mapSeg (s :: l)) :
    ∃ b, allJoinable o v (s :: l) = some b ∧
      (b = true ↔ allTouchP o mapSeg (s :: l) = true ∧ ∀ t ∈ l, t.2 = v) := by
  induction l generalizing s with
  | nil => simp [allJoinable, allTouchP]
  | cons t l ih =>
    have hw := wf_cons.1 hl
    have hw2 := wf_cons.1 hw.2.1
    have ht : o.touchesC s.1 t.1 = some (o.touches s.1 t.1) :=
      h.touchesC_before s.1 t.1 hw.1 hw2.1 fun x y hx hy => hw.2.2 x y hx ⟨t, by simp, hy⟩
    obtain ⟨b, e, hb⟩ := ih t hw.2.1
    unfold allJoinable allTouchP
    by_cases hv : t.2 = v
    · rw [if_neg (by simpa using hv), ht]
      cases htt : o.touches s.1 t.1 with
      | false =>
        refine ⟨false, rfl, ?_⟩
        have : o.touches (mapSeg.key s) (mapSeg.key t) = false := htt
        rw [this, Bool.false_and]
        simp
      | true =>
        refine ⟨b, e, ?_⟩
        have : o.touches (mapSeg.key s) (mapSeg.key t) = true := htt
        rw [hb, this, Bool.true_and]
        simp [hv]
    · rw [if_pos hv]
      refine ⟨false, rfl, ?_⟩
      simp [hv]

theorem containsSeg_spec {m : List (I × V)} (hm : WF o mapSeg m) (k : I) (v : V) :
    ∃ b, containsSeg o m k v = some b ∧ (b = true ↔ ∀ x, o.Mem x k → Maps o mapSeg m x v) := by
  unfold containsSeg
  cases he : o.isEmpty k with
  | true =>
    refine ⟨true, rfl, ?_⟩
    have := (h.isEmpty_iff k).1 he
    simp only [true_iff]
    exact fun x hx => absurd hx (this x)
  | false =>
    have hk : o.Nonempty k := by
      by_contra hn
      have : o.isEmpty k = true := (h.isEmpty_iff k).2 fun x hx => hn ⟨x, hx⟩
      rw [this] at he; cases he
    obtain ⟨a, b, c, e, hwb, h1⟩ := containsRun_spec h hm hk
    obtain ⟨a', b', c', e', rfl, h2, h3, h4⟩ := equalRange_spec h hm hk
    rw [e] at e'
    obtain ⟨rfl, rfl, rfl⟩ : a = a' ∧ b = b' ∧ c = c' := by
      simpa using e'
    rw [e]
    simp only [Bool.false_eq_true, if_false, Option.bind_some]
    cases b with
    | nil =>
      refine ⟨_, rfl, ?_⟩
      simp only [Bool.false_eq_true, false_iff] at h1 ⊢
      intro hc
      apply h1
      intro x hx
      obtain ⟨s, hs, hm, _⟩ := hc x hx
      exact ⟨s, hs, hm⟩
    | cons f b =>
      dsimp only at h1 ⊢
      obtain ⟨j, hje, hj⟩ := allJoinable_iff (o := o) h f.2 f b hwb
      rw [hje]
      refine ⟨decide (v = f.2) && (o.containsI (o.hull f.1 (b.getLastD f).1) k && j), ?_, ?_⟩
      · by_cases hv : v = f.2
        · cases o.containsI (o.hull f.1 (b.getLastD f).1) k <;> simp [hv]
        · simp [hv]
      constructor
      · intro hh
        by_cases hv : v = f.2
        · simp only [hv, decide_true, Bool.true_and, Bool.and_eq_true, hj] at hh
          have hd := h1.1 (by rw [Bool.and_eq_true]; exact ⟨hh.1, hh.2.1⟩)
          intro x hx
          obtain ⟨s, hs, hsx⟩ := hd x hx
          refine ⟨s, hs, hsx, ?_⟩
          simp only [List.mem_append, List.mem_cons] at hs
          rcases hs with (hs | rfl | hs) | hs
          · exact absurd (h2 s hs x x hsx hx) (lt_irrefl _)
          · exact hv.symm
          · exact (hh.2.2 s hs).trans hv.symm
          · exact absurd (h4 s hs x x hx hsx) (lt_irrefl _)
        · simp [hv] at hh
      · intro hh
        have hval : ∀ s ∈ f :: b, s.2 = v := by
          intro s hs
          obtain ⟨x, hxs, hxk⟩ := h3 s hs
          obtain ⟨t, ht, htx, hv⟩ := hh x hxk
          have : t = s := by
            have hs' : s ∈ a ++ f :: b ++ c := by simp at hs ⊢; tauto
            exact hm.unique ht hs' htx hxs
          rw [← this]; exact hv
        have hd := h1.2 (fun x hx => by
          obtain ⟨t, ht, htx, _⟩ := hh x hx
          exact ⟨t, ht, htx⟩)
        rw [Bool.and_eq_true] at hd
        have hf := hval f (by simp)
        simp only [hf, decide_true, Bool.true_and, Bool.and_eq_true]
        refine ⟨hd.1, ?_⟩
        rw [hj]
        exact ⟨hd.2, fun t ht => (hval t (by simp [ht])).trans hf.symm⟩

omit [DecidableEq V] in
theorem containsKeys_spec {m : List (I × V)} (hm : WF o mapSeg m) (k : I) :
    ∃ b, containsKeys o false m k = some b ∧ (b = true ↔ ∀ x, o.Mem x k → Dom o mapSeg m x) := by
  unfold containsKeys
  cases he : o.isEmpty k with
  | true =>
    refine ⟨true, rfl, ?_⟩
    have := (h.isEmpty_iff k).1 he
    simp only [true_iff]
    exact fun x hx => absurd hx (this x)
  | false =>
    have hk : o.Nonempty k := by
      by_contra hn
      have : o.isEmpty k = true := (h.isEmpty_iff k).2 fun x hx => hn ⟨x, hx⟩
      rw [this] at he; cases he
    obtain ⟨a, b, c, e, hwb, h1⟩ := containsRun_spec h hm hk
    rw [e]
    simp only [Bool.false_eq_true, if_false, Option.bind_some]
    cases b with
    | nil => exact ⟨_, rfl, h1⟩
    | cons f b =>
      refine ⟨_, ?_, h1⟩
      show (if o.containsI (o.hull f.1 (b.getLastD f).1) k then allTouch o mapSeg (f :: b) else some false) = _
      rw [allTouch_eq h hwb]
      show (if o.containsI (o.hull f.1 (b.getLastD f).1) k then _ else _) =
        some (o.containsI (o.hull f.1 (b.getLastD f).1) k && _)
      cases o.containsI (o.hull f.1 (b.getLastD f).1) k <;> rfl

end
end IMap
end ICL
