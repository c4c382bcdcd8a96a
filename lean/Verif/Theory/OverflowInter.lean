import Verif.Theory.Overflow
import Verif.Theory.MapOps
import Verif.Model.OverflowInter

/-! Intersections of maps with values of a bounded type. -/

set_option linter.unusedSectionVars false

namespace ICL.IMap
open ICL Spec

variable {D I V : Type} [LinearOrder D] {o : IntervalOps D I} [DecidableEq V] {R : V → Prop} [DecidablePred R]
variable (h : o.Lawful)
include h

/-- A loop over disjoint segments that finds no values at the keys `F` of a segment. -/
theorem forEachR_fresh {F : D → Prop} {g gR : List (I × V) → I × V → Option (List (I × V))}
    {r : List (I × V)} (hr : WF o mapSeg r)
    (hg : ∀ l, WF o mapSeg l → ∀ s ∈ r, ∃ l', g l s = some l' ∧ WF o mapSeg l' ∧
      ∀ x, ¬ o.Mem x s.1 → valueAt o l' x = valueAt o l x)
    (hR : ∀ l, WF o mapSeg l → AllR R l → ∀ s ∈ r, (∀ x, o.Mem x s.1 → F x → valueAt o l x = none) →
      ∀ y, gR l s = some y ↔ g l s = some y ∧ AllR R y)
    {l : List (I × V)} (hl : WF o mapSeg l) (hF : ∀ x, Dom o mapSeg r x → F x → valueAt o l x = none)
    (ha : AllR R l) (y : List (I × V)) :
    forEach gR l r = some y ↔ forEach g l r = some y ∧ AllR R y := by
  induction r generalizing l with
  | nil =>
    simp only [forEach, Option.some.injEq]
    exact ⟨fun e => ⟨e, e ▸ ha⟩, fun e => e.1⟩
  | cons s r ih =>
    obtain ⟨l1, e1, w1, o1⟩ := hg l hl s (by simp)
    have hr' : WF o mapSeg r :=
      ⟨fun q hq => hr.nonempty q (by simp [hq]), (List.pairwise_cons.1 hr.sorted).2⟩
    have ih := @ih hr' (fun l hl s hs => hg l hl s (by simp [hs]))
      (fun l hl ha s hs => hR l hl ha s (by simp [hs]))
    have hd : ∀ x, o.Mem x s.1 → ¬ Dom o mapSeg r x := by
      rintro x hx ⟨q, hq, hx'⟩
      exact absurd ((List.pairwise_cons.1 hr.sorted).1 q hq x x hx hx') (lt_irrefl _)
    have f0 : ∀ x, o.Mem x s.1 → F x → valueAt o l x = none := fun x hx => hF x ((dom_cons ..).2 (.inl hx))
    have f1 : ∀ x, Dom o mapSeg r x → F x → valueAt o l1 x = none := fun x hx hf => by
      rw [o1 x fun hs => hd x hs hx]
      exact hF x ((dom_cons ..).2 (.inr hx)) hf
    have h1 := hR l hl ha s (by simp) f0 l1
    simp only [forEach, e1, Option.bind_eq_bind, Option.bind_some]
    constructor
    · intro e
      cases h2 : gR l s with
      | none => rw [h2] at e; cases e
      | some z =>
        obtain ⟨h3, h4⟩ := (hR l hl ha s (by simp) f0 z).1 h2
        obtain rfl := Option.some.inj (e1.symm.trans h3)
        rw [h2] at e
        exact (ih w1 f1 h4).1 e
    · rintro ⟨e, hy⟩
      obtain ⟨wy, oy⟩ := forEach_out (N := fun _ => True) (fun l hl _ s hs => by
        obtain ⟨l', a, b, c⟩ := hg l hl s (List.mem_cons_of_mem _ hs)
        exact ⟨l', a, b, trivial, c⟩) l1 w1 trivial y e
      have a1 : AllR R l1 := by
        rw [allR_iff h w1]
        intro x u hu
        by_cases hx : o.Mem x s.1
        · rw [← oy x (hd x hx)] at hu
          exact (allR_iff h wy).1 hy x u hu
        · rw [o1 x hx] at hu
          exact (allR_iff h hl).1 ha x u hu
      rw [h1.2 ⟨e1, a1⟩]
      exact (ih w1 f1 a1).2 ⟨e, hy⟩

omit h in
theorem forEach_same {P : D → Prop} {g : List (I × V) → I × V → Option (List (I × V))} {r : List (I × V)}
    (hg : ∀ l, WF o mapSeg l → ∀ s ∈ r, ∃ l', g l s = some l' ∧ WF o mapSeg l' ∧
      ∀ x, P x → valueAt o l' x = valueAt o l x) :
    ∀ l, WF o mapSeg l → ∃ y, forEach g l r = some y ∧ WF o mapSeg y ∧ ∀ x, P x → valueAt o y x = valueAt o l x := by
  induction r with
  | nil => exact fun l hl => ⟨l, rfl, hl, fun _ _ => rfl⟩
  | cons s r ih =>
    intro l hl
    obtain ⟨l1, e1, w1, o1⟩ := hg l hl s (by simp)
    obtain ⟨y, e, w, o2⟩ := ih (fun l hl s hs => hg l hl s (by simp [hs])) l1 w1
    exact ⟨y, by simp [forEach, e1, e], w, fun x hx => (o2 x hx).trans (o1 x hx)⟩

variable {t : MapType V}

theorem sectionStep_out (k : I) (v : V) {l : List (I × V)} (hl : WF o mapSeg l) (s : I × V) :
    ∃ l', sectionStep o t k v l s = some l' ∧ WF o mapSeg l' ∧
      ∀ x, ¬ (o.Mem x s.1 ∧ o.Mem x k) → valueAt o l' x = valueAt o l x := by
  unfold sectionStep
  dsimp only
  split_ifs
  · exact ⟨l, rfl, hl, fun _ _ => rfl⟩
  · obtain ⟨l1, e1, w1, -, v1⟩ := addC_at h t.cfg t.plus hl (o.inter s.1 k) s.2
    obtain ⟨l2, e2, w2, -, v2⟩ := addC_at h t.cfg t.sect w1 (o.inter s.1 k) v
    refine ⟨l2, by simp [e1, e2], w2, fun x hx => ?_⟩
    have : ¬ o.contains (o.inter s.1 k) x = true := by
      rw [contains_inter h, Bool.and_eq_true]
      exact hx
    rw [v2, v1]
    unfold on
    rw [if_neg this, if_neg this]

theorem addInterSeg_out (ht : t.cfg.total = false) (oracle : List (I × V) → I → Nat) {sec m : List (I × V)}
    (hs : WF o mapSeg sec) (hm : WF o mapSeg m) (k : I) (v : V) :
    ∃ l', addInterSeg o t oracle sec m k v = some l' ∧ WF o mapSeg l' ∧
      ∀ x, ¬ o.Mem x k → valueAt o l' x = valueAt o sec x := by
  unfold addInterSeg
  simp only [ht, Bool.false_eq_true, if_false]
  by_cases hk : o.Nonempty k
  · rw [isEmpty_false h hk]
    simp only [Bool.false_eq_true, if_false]
    obtain ⟨a, b, c, e, -⟩ := range_at h hm hk
    simp only [e, Option.bind_eq_bind, Option.bind_some]
    refine forEach_same (fun l hl s _ => ?_) sec hs
    obtain ⟨l', e', w', o'⟩ := sectionStep_out h k v hl s
    exact ⟨l', e', w', fun x hx => o' x fun hh => hx hh.2⟩
  · rw [(empty_iff h).2 hk]
    exact ⟨sec, rfl, hs, fun _ _ => rfl⟩

variable (hi : R t.cfg.ident)
include hi

theorem sectionStepR_iff {k : I} {v : V} (hv : R (t.sect.version v)) {l : List (I × V)} (hl : WF o mapSeg l)
    (ha : AllR R l) {s : I × V} (hs : R (t.plus.version s.2))
    (hf : ∀ x, o.Mem x s.1 → o.Mem x k → valueAt o l x = none) (y : List (I × V)) :
    sectionStepR o R t k v l s = some y ↔ sectionStep o t k v l s = some y ∧ AllR R y := by
  unfold sectionStepR sectionStep
  dsimp only
  cases hc : o.isEmpty (o.inter s.1 k) with
  | true => simp only [if_true, Option.some.injEq]; exact ⟨fun e => ⟨e, e ▸ ha⟩, fun e => e.1⟩
  | false =>
    simp only [Bool.false_eq_true, if_false]
    obtain ⟨l1, e1, w1, -, v1⟩ := addC_at h t.cfg t.plus hl (o.inter s.1 k) s.2
    have a1 : AllR R l1 := by
      rw [allR_iff h w1]
      intro x u hu
      rw [v1] at hu
      unfold on at hu
      split_ifs at hu with hx
      · rw [contains_inter h, Bool.and_eq_true] at hx
        rw [hf x hx.1 hx.2] at hu
        unfold addF at hu
        split_ifs at hu
        exact Option.some.inj hu ▸ hs
      · exact (allR_iff h hl).1 ha x u hu
    rw [(addCR_iff h hl ha hi (o.inter s.1 k) s.2 l1).2 ⟨e1, a1, fun _ _ => hs⟩, e1]
    simp only [Option.bind_eq_bind, Option.bind_some]
    rw [addCR_iff h w1 a1 hi]
    exact and_congr_right fun _ => and_iff_left fun _ _ => hv

theorem addInterSegR_iff (ht : t.cfg.total = false) (oracle : List (I × V) → I → Nat) {sec m : List (I × V)}
    (hs : WF o mapSeg sec) (ha : AllR R sec) (hm : WF o mapSeg m) (hp : ∀ s ∈ m, R (t.plus.version s.2)) (k : I) {v : V}
    (hv : R (t.sect.version v)) (hf : ∀ x, o.Mem x k → valueAt o sec x = none) (y : List (I × V)) :
    addInterSegR o R t oracle sec m k v = some y ↔ addInterSeg o t oracle sec m k v = some y ∧ AllR R y := by
  unfold addInterSegR addInterSeg
  simp only [ht, Bool.false_eq_true, if_false]
  by_cases hk : o.Nonempty k
  · rw [isEmpty_false h hk]
    simp only [Bool.false_eq_true, if_false]
    obtain ⟨a, b, c, e, rfl, -⟩ := equalRange_spec h hm hk
    have hb : WF o mapSeg b := (wf_append.1 (wf_append.1 hm).1).2.1
    simp only [e, Option.bind_eq_bind, Option.bind_some]
    refine forEachR_fresh h (F := fun x => o.Mem x k) hb (fun l hl s _ => ?_) (fun l hl ha s hm hf y => ?_) hs
      (fun x _ hx => hf x hx) ha y
    · obtain ⟨l', e', w', o'⟩ := sectionStep_out h k v hl s
      exact ⟨l', e', w', fun x hx => o' x fun hh => hx hh.1⟩
    · exact sectionStepR_iff h hi hv hl ha (hp s (by simp [hm])) hf y
  · rw [(empty_iff h).2 hk]
    simp only [if_true, Option.some.injEq]
    exact ⟨fun e => ⟨e, e ▸ ha⟩, fun e => e.1⟩

theorem addInterMapR_iff (ht : t.cfg.total = false) (oracle : List (I × V) → I → Nat) {sec m r : List (I × V)}
    (hs : WF o mapSeg sec) (ha : AllR R sec) (hm : WF o mapSeg m) (hp : ∀ s ∈ m, R (t.plus.version s.2))
    (hr : WF o mapSeg r) (hv : ∀ s ∈ r, R (t.sect.version s.2)) (hf : ∀ x, Dom o mapSeg r x → valueAt o sec x = none)
    (y : List (I × V)) :
    addInterMapR o R t oracle sec m r = some y ↔ addInterMap o t oracle sec m r = some y ∧ AllR R y := by
  obtain ⟨res, e, -, h2⟩ := commonRange_map h hr hm
  unfold addInterMapR addInterMap
  simp only [ht, Bool.false_eq_true, if_false, e, Option.bind_eq_bind, Option.bind_some]
  cases res with
  | none =>
    show some sec = some y ↔ some sec = some y ∧ _
    rw [Option.some.injEq]
    exact ⟨fun e => ⟨e, e ▸ ha⟩, fun e => e.1⟩
  | some pcq =>
    obtain ⟨p, c, q⟩ := pcq
    obtain ⟨rfl, _, hc, _⟩ := h2 p c q rfl
    refine forEachR_fresh h (F := fun _ => True) hc (fun l hl s _ => ?_) (fun l hl ha s hs hf y => ?_) hs
      (fun x hx _ => hf x ?_) ha y
    · exact addInterSeg_out h ht oracle hl hm s.1 s.2
    · exact addInterSegR_iff h hi ht oracle hl ha hm hp s.1 (hv s (by simp [hs])) (fun x hx => hf x hx trivial) y
    · obtain ⟨s, hs, hx⟩ := hx
      exact ⟨s, by simp [hs], hx⟩

end ICL.IMap
