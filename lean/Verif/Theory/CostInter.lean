import Verif.Model.CostInter
import Verif.Theory.CostUnion

/-!
# What intersections cost

Every part that an intersection adds is inside of a segment of one container and inside of a segment of the other, so
that no border of the intersection built so far is inside of it. There is a part for every segment of the operand, and
one more for every lower border of the object inside of it.
-/

set_option linter.unusedSectionVars false
set_option linter.unusedVariables false

namespace ICL
namespace Cost
open Spec Classical

section
variable {S α X : Type}

theorem took_look (w : Work) (hw : w.erased = w.allocated) {e : Option α} {a : α} (he : e = some a) (t : Tree S) :
    Took (look w e) t a t w := by
  subst he
  exact ⟨w, rfl, Le.refl w, by unfold Balance; omega⟩

theorem took_pure (a : α) (t : Tree S) : Took (pure a) t a t {} := (Costs.pure a).took (t := t) rfl

/-- One call after the other does what the functional model does. -/
theorem chain_leaves {f : It → X → CostM S It} {F : List S → X → Option (List S)} {Inv : It → Tree S → Prop} {q : X → Nat}
    {u v : Work} : ∀ {r : List X}, (∀ x ∈ r, ∀ p t, Inv p t → ∃ p' t', Took (f p x) t p' t' (times (q x) u + v) ∧
      F t.segs x = some t'.segs ∧ Inv p' t') → ∀ {p : It} {t : Tree S}, Inv p t →
    ∃ p' t', Took (chain f p r) t p' t' (times (r.map q).sum u + times r.length v) ∧
      forEach F t.segs r = some t'.segs ∧ Inv p' t'
  | [], _, p, t, hi => ⟨p, t, ((Costs.pure p).took (t := t) rfl).mono (by work), rfl, hi⟩
  | x :: r, hf, p, t, hi => by
    obtain ⟨p1, t1, k1, r1, i1⟩ := hf x (by simp) p t hi
    obtain ⟨p2, t2, k2, r2, i2⟩ := chain_leaves (r := r) (fun y hy => hf y (by simp [hy])) i1
    refine ⟨p2, t2, (k1.bind k2).mono ?_, by rw [forEach, r1]; exact r2, i2⟩
    simp only [Le, times, add_searches, add_hinted, add_steps, add_allocated, List.map_cons, List.sum_cons,
      List.length_cons, Nat.add_mul, Nat.one_mul]
    omega

/-- The same cost for each. -/
theorem chain_leaves_each {f : It → X → CostM S It} {F : List S → X → Option (List S)} {Inv : It → Tree S → Prop}
    {v : Work} {r : List X} (hf : ∀ x ∈ r, ∀ p t, Inv p t → ∃ p' t', Took (f p x) t p' t' v ∧
      F t.segs x = some t'.segs ∧ Inv p' t') {p : It} {t : Tree S} (hi : Inv p t) :
    ∃ p' t', Took (chain f p r) t p' t' (times r.length v) ∧ forEach F t.segs r = some t'.segs ∧ Inv p' t' := by
  obtain ⟨p', t', k, e, i⟩ := chain_leaves (q := fun _ => 0) (u := {}) (v := v) (f := f) (F := F) (Inv := Inv) (r := r)
    (fun x hx p t hi => by
      obtain ⟨p', t', k, e, i⟩ := hf x hx p t hi
      exact ⟨p', t', k.mono (by work), e, i⟩) hi
  refine ⟨p', t', k.mono ?_, e, i⟩
  simp only [Le, times, add_searches, add_hinted, add_steps, add_allocated, Nat.mul_zero, Nat.zero_add]
  omega

/-- What is left is new, and all there was is gone. -/
theorem intersect_new {m : List S → CostM S Unit} {t t' : Tree S} {b : Work}
    (hm : Took (m t.segs) ⟨[], t.fresh⟩ () t' b) : ∃ w, intersect m t = some (((), t'), w) ∧ Le w b ∧
      t.nodes.length ≤ w.erased ∧ t'.nodes.length + w.erased = t.nodes.length + w.allocated := by
  obtain ⟨w, e, ⟨l1, l2, l3, l4⟩, c⟩ := hm
  refine ⟨w + { erased := t.nodes.length }, by unfold intersect; rw [e]; rfl, ?_, ?_, ?_⟩
  · simp only [Le, add_searches, add_hinted, add_steps, add_allocated]; omega
  · simp only [add_erased]; omega
  unfold Balance at c
  simp only [add_erased, add_allocated, List.length_nil] at c ⊢
  omega

/-- The loop of `intersects` without costs. -/
def loopI (F : List S → X → Option (List S)) : List S → List X → Option Bool
  | _, [] => some false
  | sec, x :: xs => do
    let sec ← F sec x
    if sec.isEmpty then loopI F sec xs else return true

/-- `intersects` goes through the segments until there is a common part. -/
theorem intersectsLoop_took {f : X → CostM S Unit} {F : List S → X → Option (List S)} {Inv : Tree S → Prop}
    {q : X → Nat} {u v : Work} : ∀ {r : List X}, (∀ x ∈ r, ∀ t, Inv t → ∃ t', Took (f x) t () t' (times (q x) u + v) ∧
      F t.segs x = some t'.segs ∧ (t'.segs.isEmpty = true → Inv t')) → ∀ {t : Tree S}, Inv t →
    ∃ b t', Took (intersectsLoop f r) t b t' (times (r.map q).sum u + times r.length (v + { steps := 2 })) ∧
      loopI F t.segs r = some b
  | [], _, t, hi => ⟨false, t, (took_pure false t).mono (by work), rfl⟩
  | x :: r, hf, t, hi => by
    obtain ⟨t1, k1, r1, i1⟩ := hf x (by simp) t hi
    rw [intersectsLoop, loopI, r1]
    cases ht : t1.segs.isEmpty with
    | false =>
      have k2 : Took (if t1.segs.isEmpty = true then intersectsLoop f r else pure true) t1 true t1 {} := by
        rw [ht]; exact took_pure true t1
      refine ⟨true, t1, ((took_look { steps := 2 } rfl rfl t).bind (f := fun _ => _) (k1.bind (f := fun _ => _)
        ((took_get t1).bind k2))).mono ?_, by
        show (if t1.segs.isEmpty then _ else _) = _
        rw [ht]; rfl⟩
      simp only [Le, times, add_searches, add_hinted, add_steps, add_allocated, List.map_cons, List.sum_cons,
          List.length_cons, Nat.add_mul, Nat.one_mul]
      omega
    | true =>
      obtain ⟨b, t2, k2, r2⟩ := intersectsLoop_took (r := r) (fun y hy => hf y (by simp [hy])) (i1 ht)
      have k2 : Took (if t1.segs.isEmpty = true then intersectsLoop f r else pure true) t1 b t2
          (times (r.map q).sum u + times r.length (v + { steps := 2 })) := by
        rw [ht]; exact k2
      refine ⟨b, t2, ((took_look { steps := 2 } rfl rfl t).bind (f := fun _ => _) (k1.bind (f := fun _ => _)
        ((took_get t1).bind k2))).mono ?_, by
        show (if t1.segs.isEmpty then _ else _) = _
        rw [ht]; exact r2⟩
      simp only [Le, times, add_searches, add_hinted, add_steps, add_allocated, List.map_cons, List.sum_cons,
          List.length_cons, Nat.add_mul, Nat.one_mul]
      omega

/-- Calls that use a temporary container. -/
theorem temporary_took {m : CostM S α} {a : α} {t' : Tree S} {b : Work} (hm : Took m ⟨[], 0⟩ a t' b) :
    ∃ w, temporary m = some (a, w) ∧ Le w b ∧ w.erased = w.allocated := by
  obtain ⟨w, e, l, c⟩ := hm
  refine ⟨w + { erased := t'.nodes.length }, by unfold temporary; rw [e]; rfl, ?_, ?_⟩
  · simp only [Le, add_searches, add_hinted, add_steps, add_allocated] at l ⊢; omega
  · unfold Balance at c
    simp only [add_erased, add_allocated, List.length_nil] at c ⊢
    omega

theorem ok_nil (n : Nat) : (⟨[], n⟩ : Tree S).Ok := by
  constructor <;> simp

end

section
variable {D I : Type} [LinearOrder D] {o : IntervalOps D I}

theorem Splits.mono {p k : I} {c : Set D} (hs : Splits o p c) (hp : ∀ x, o.Mem x p → o.Mem x k) : Splits o k c := by
  obtain ⟨⟨x, hx, hx'⟩, y, hy, hy'⟩ := hs
  exact ⟨⟨x, hp x hx, hx'⟩, y, hp y hy, hy'⟩

/-- An interval that no border of `K` is inside of overlaps one segment at most. -/
theorem overlapped_whole {K l : List I} (hl : WF o setSeg l) (hb : Borders o l ⊆ Borders o K) {p : I}
    (hp : ∀ i ∈ K, ¬ Splits o p (LowerBorder o i) ∧ ¬ Splits o p (UpperBorder o i)) : overlapped o l p ≤ 1 := by
  unfold overlapped
  have hsub := List.filter_sublist (p := fun i => decide (∃ x, In o x i ∧ In o x p)) (l := l)
  have hs := hl.sorted.sublist hsub
  have hm : ∀ i ∈ l.filter (fun i => decide (∃ x, In o x i ∧ In o x p)), i ∈ l ∧ ∃ x, In o x i ∧ In o x p := by
    intro i hi
    simpa using List.mem_filter.1 hi
  generalize l.filter _ = f at hs hm ⊢
  match f with
  | [] => simp
  | [_] => simp
  | s :: s' :: f =>
    exfalso
    obtain ⟨hsl, x, hx, hx'⟩ := hm s (by simp)
    obtain ⟨hsl', y, hy, hy'⟩ := hm s' (by simp)
    have hbs := (List.pairwise_cons.1 hs).1 s' (by simp)
    have hsp : Splits o p (LowerBorder o s') :=
      ⟨⟨x, hx', fun z hz => hbs x z hx hz⟩, y, hy', fun hc => lt_irrefl _ (hc y hy)⟩
    obtain ⟨i, hi, -, he⟩ := hb ⟨s', hsl', ⟨y, hy⟩, .inl rfl⟩
    rcases he with he | he
    · rw [he] at hsp; exact (hp i hi).1 hsp
    · rw [he] at hsp; exact (hp i hi).2 hsp

/-- A common part of two segments. -/
theorem not_splits_inter (h : o.Lawful) {l r : List I} (hl : WF o setSeg l) (hr : WF o setSeg r) {i k : I} (hi : i ∈ l)
    (hk : k ∈ r) : ∀ j ∈ l ++ r, ¬ Splits o (o.inter i k) (LowerBorder o j) ∧ ¬ Splits o (o.inter i k) (UpperBorder o j) := by
  intro j hj
  rcases List.mem_append.1 hj with hj | hj
  · have := not_splits hl hi hj
    exact ⟨fun hs => this.1 (hs.mono fun x hx => ((h.mem_inter _ _ _).1 hx).1),
      fun hs => this.2 (hs.mono fun x hx => ((h.mem_inter _ _ _).1 hx).1)⟩
  · have := not_splits hr hk hj
    exact ⟨fun hs => this.1 (hs.mono fun x hx => ((h.mem_inter _ _ _).1 hx).2),
      fun hs => this.2 (hs.mono fun x hx => ((h.mem_inter _ _ _).1 hx).2)⟩

/-- An interval overlaps one segment more than there are lower borders inside of it. -/
theorem overlapped_le_lower {l : List I} (hl : WF o setSeg l) (k : I) :
    overlapped o l k ≤ ((l.map (LowerBorder o)).filter fun c => decide (Splits o k c)).length + 1 := by
  unfold overlapped
  have hsub := List.filter_sublist (p := fun i => decide (∃ x, In o x i ∧ In o x k)) (l := l)
  have hw : WF o setSeg (l.filter fun i => decide (∃ x, In o x i ∧ In o x k)) :=
    ⟨fun s hs => hl.nonempty s (hsub.subset hs), hl.sorted.sublist hsub⟩
  have hm : ∀ i ∈ l.filter (fun i => decide (∃ x, In o x i ∧ In o x k)), i ∈ l ∧ ∃ x, In o x i ∧ In o x k := by
    intro i hi
    simpa using List.mem_filter.1 hi
  generalize l.filter _ = f at hw hm ⊢
  cases f with
  | nil => simp
  | cons s f =>
    have hnd : (f.map (LowerBorder o)).Nodup :=
      (List.pairwise_cons.1 (wf_lower_pairwise hw)).2.imp fun hab => hab.ne
    have hss : f.map (LowerBorder o) ⊆ (l.map (LowerBorder o)).filter fun c => decide (Splits o k c) := by
      intro c hc
      obtain ⟨s', hs', rfl⟩ := List.mem_map.1 hc
      obtain ⟨hsl, x, hx, hx'⟩ := hm s (by simp)
      obtain ⟨hsl', y, hy, hy'⟩ := hm s' (by simp [hs'])
      have hbs := (List.pairwise_cons.1 hw.sorted).1 s' hs'
      rw [List.mem_filter, decide_eq_true_iff]
      exact ⟨List.mem_map.2 ⟨s', hsl', rfl⟩, ⟨x, hx', fun z hz => hbs x z hx hz⟩, y, hy',
        fun hc => lt_irrefl _ (hc y hy)⟩
    have := (List.subperm_of_subset hnd hss).length_le
    rw [List.length_map] at this
    simp only [List.length_cons]
    omega

/-- No more common parts than segments. -/
theorem sum_overlapped_le {l r : List I} (hl : WF o setSeg l) (hr : WF o setSeg r) :
    (r.map (overlapped o l)).sum ≤ l.length + r.length := by
  have h1 : (r.map (overlapped o l)).sum ≤
      (r.map fun k => ((l.map (LowerBorder o)).filter fun c => decide (Splits o k c)).length).sum + r.length := by
    clear hr
    induction r with
    | nil => simp
    | cons k r ih =>
      have := overlapped_le_lower hl k
      simp only [List.map_cons, List.sum_cons, List.length_cons]
      omega
  have h2 : ∀ L : List (Set D), (∀ c ∈ L, IsLowerSet c) →
      (r.map fun k => (L.filter fun c => decide (Splits o k c)).length).sum ≤ L.length := by
    intro L
    induction L with
    | nil => intro _; simp
    | cons c L ih =>
      intro hL
      rw [sum_filter_cons]
      have h1 := splits_once hr (hL c (by simp))
      have h2 := ih fun c hc => hL c (by simp [hc])
      simp only [List.length_cons]
      omega
  have h3 := h2 (l.map (LowerBorder o)) (by
    intro c hc
    obtain ⟨i, -, rfl⟩ := List.mem_map.1 hc
    exact isLowerSet_lower i)
  rw [List.length_map] at h3
  omega

/-- The segments found are those that overlap. -/
theorem overlapped_found {V S : Type} {g : SegOps I V S} (h : o.Lawful) {l : List S} (hw : WF o g l) {k : I}
    (hk : o.Nonempty k) : ∃ a b c, ICL.equalRange o g l k = some (a, b, c) ∧ (∀ s ∈ b, s ∈ l) ∧
      b.length = Spec.overlapped o (l.map g.key) k := by
  obtain ⟨a, b, c, e, rfl, h1, h2, h3⟩ := equalRange_spec h hw hk
  refine ⟨a, b, c, e, fun s hs => by simp [hs], ?_⟩
  rw [List.map_append, List.map_append, overlapped_append, overlapped_append]
  have ha : Spec.overlapped o (a.map g.key) k = 0 := by
    simp only [Spec.overlapped, List.length_eq_zero_iff, List.filter_eq_nil_iff, List.mem_map, decide_eq_true_eq]
    rintro i ⟨s, hs, rfl⟩ ⟨x, hx, hx'⟩
    exact lt_irrefl _ (h1 s hs x x hx hx')
  have hc : Spec.overlapped o (c.map g.key) k = 0 := by
    simp only [Spec.overlapped, List.length_eq_zero_iff, List.filter_eq_nil_iff, List.mem_map, decide_eq_true_eq]
    rintro i ⟨s, hs, rfl⟩ ⟨x, hx, hx'⟩
    exact lt_irrefl _ (h3 s hs x x hx' hx)
  have hb : Spec.overlapped o (b.map g.key) k = b.length := by
    unfold Spec.overlapped
    rw [List.filter_eq_self.2]
    · simp
    · simp only [List.mem_map, decide_eq_true_eq]
      rintro i ⟨s, hs, rfl⟩
      exact h2 s hs
  omega

theorem common_took {V S S' : Type} {g : SegOps I V S} (h : o.Lawful) {r : List S} (hr : WF o g r) {l : List I}
    (hl : WF o setSeg l) (t : Tree S') : ∃ cr, commonRange o g r l = some cr ∧
      Took (common (commonRange o g r l)) t cr t { searches := 2, steps := 4 } ∧
      ∀ a b c, cr = some (a, b, c) → b.length ≤ r.length ∧ (∀ s ∈ b, s ∈ r) ∧ WF o g b ∧ r = a ++ b ++ c := by
  obtain ⟨cr, h1, -, h3⟩ := commonRange_spec h hr hl
  refine ⟨cr, h1, ⟨{ searches := 2, steps := 4 }, by rw [h1]; rfl, by decide, rfl⟩, fun a b c e => ?_⟩
  have hab := (h3 a b c e).1
  have hsub : b.Sublist r := by
    rw [hab]
    exact (List.sublist_append_right a b).trans (List.sublist_append_left _ _)
  exact ⟨hsub.length_le, hsub.subset, ⟨fun s hs => hr.nonempty s (hsub.subset hs), hr.sorted.sublist hsub⟩, hab⟩

end

section
variable {D I V S X : Type} [LinearOrder D] {o : IntervalOps D I} {g : SegOps I V S}

/-- The intersection built so far, and the hint. -/
def Sec (o : IntervalOps D I) (g : SegOps I V S) (p : It) (t : Tree S) : Prop :=
  t.Valid p ∧ t.Ok ∧ WF o g t.segs

/-- All of it is before `k`. -/
def Ahead (o : IntervalOps D I) (g : SegOps I V S) (l : List S) (k : I) : Prop :=
  ∀ x y, Dom o g l x → o.Mem y k → x < y

theorem sec_nil (n : Nat) : Sec o g none ⟨[], n⟩ := ⟨Tree.valid_none, ok_nil n, wf_nil⟩

theorem ahead_nil (k : I) : Ahead o g [] k := by
  rintro x y ⟨s, hs, -⟩
  simp at hs

/-- Parts that are added in their order. -/
theorem chain_ahead {f : It → X → CostM S It} {F : List S → X → Option (List S)} {pc : X → I} {q : X → Nat}
    {u v : Work} : ∀ {r : List X}, r.Pairwise (fun x y => o.Before (pc x) (pc y)) →
    (∀ x ∈ r, ∀ p t, Sec o g p t → Ahead o g t.segs (pc x) → ∃ p' t', Took (f p x) t p' t' (times (q x) u + v) ∧
      F t.segs x = some t'.segs ∧ Sec o g p' t' ∧ ∀ y, Dom o g t'.segs y → Dom o g t.segs y ∨ o.Mem y (pc x)) →
    ∀ {p : It} {t : Tree S}, Sec o g p t → (∀ x ∈ r, Ahead o g t.segs (pc x)) →
    ∃ p' t', Took (chain f p r) t p' t' (times (r.map q).sum u + times r.length v) ∧
      forEach F t.segs r = some t'.segs ∧ Sec o g p' t' ∧
      ∀ y, Dom o g t'.segs y → Dom o g t.segs y ∨ ∃ x ∈ r, o.Mem y (pc x)
  | [], _, _, p, t, hi, _ => ⟨p, t, ((Costs.pure p).took (t := t) rfl).mono (by work), rfl, hi, fun _ hy => .inl hy⟩
  | x :: r, hr, hf, p, t, hi, ha => by
    obtain ⟨hx, hr⟩ := List.pairwise_cons.1 hr
    obtain ⟨p1, t1, k1, r1, i1, d1⟩ := hf x (by simp) p t hi (ha x (by simp))
    obtain ⟨p2, t2, k2, r2, i2, d2⟩ := chain_ahead (r := r) hr (fun y hy => hf y (by simp [hy])) i1 (by
      intro y hy z w hz hw
      rcases d1 z hz with hz | hz
      · exact ha y (by simp [hy]) z w hz hw
      · exact hx y hy z w hz hw)
    refine ⟨p2, t2, (k1.bind k2).mono ?_, by rw [forEach, r1]; exact r2, i2, fun y hy => ?_⟩
    · simp only [Le, times, add_searches, add_hinted, add_steps, add_allocated, List.map_cons, List.sum_cons,
        List.length_cons, Nat.add_mul, Nat.one_mul]
      omega
    · rcases d2 y hy with hy | ⟨z, hz, hy⟩
      · rcases d1 y hy with hy | hy
        · exact .inl hy
        · exact .inr ⟨x, by simp, hy⟩
      · exact .inr ⟨z, by simp [hz], hy⟩

/-- Nothing overlaps what is ahead. -/
theorem ahead_range (h : o.Lawful) {t : Tree S} (hw : WF o g t.segs) {k : I} (hk : o.isEmpty k = false)
    (ha : Ahead o g t.segs k) :
    ∃ A C, ICL.equalRange o (Tree.nodeSeg g) t.nodes k = some (A, [], C) := by
  obtain ⟨A, B, C, he, hB⟩ := overlapped_range h hw ((nonempty_iff h).2 hk)
  have h0 : Spec.overlapped o (t.segs.map g.key) k = 0 := by
    simp only [Spec.overlapped, List.length_eq_zero_iff, List.filter_eq_nil_iff, List.mem_map, decide_eq_true_eq]
    rintro i ⟨s, hs, rfl⟩ ⟨x, hx, hx'⟩
    exact lt_irrefl _ (ha x x ⟨s, hs, hx⟩ hx')
  rw [h0, List.length_eq_zero_iff] at hB
  subst hB
  exact ⟨A, C, he⟩

/-- The segments found, in their order. -/
theorem found_pairwise (h : o.Lawful) {l : List S} (hw : WF o g l) {k : I} (hk : o.Nonempty k) :
    ∃ a b c, ICL.equalRange o g l k = some (a, b, c) ∧ b.length = Spec.overlapped o (l.map g.key) k ∧
      b.Pairwise fun x y => o.Before (o.inter (g.key x) k) (o.inter (g.key y) k) := by
  obtain ⟨a, b, c, e, rfl, -⟩ := equalRange_spec h hw hk
  obtain ⟨a', b', c', e', -, hlen⟩ := overlapped_found h hw hk
  rw [e] at e'
  simp only [Option.some.injEq, Prod.mk.injEq] at e'
  obtain ⟨-, rfl, -⟩ := e'
  refine ⟨a, b, c, e, hlen, ?_⟩
  have := hw.sorted.sublist ((List.sublist_append_right a b).trans (List.sublist_append_left _ c))
  exact this.imp fun hb x y hx hy => hb x y ((h.mem_inter _ _ _).1 hx).1 ((h.mem_inter _ _ _).1 hy).1

end

namespace Sets
section
variable {D I : Type} [LinearOrder D] {o : IntervalOps D I} (h : o.Lawful) (st : Style) (oracle : List I → I → Nat)
include h

theorem piece_took {p : It} {t : Tree I} (ht : Sec o setSeg p t) {x : I} (hx : o.isEmpty x = false)
    (ha : Ahead o setSeg t.segs x) :
    ∃ p' t', Took (addWith o st oracle p x) t p' t' ⟨0, 1, 18, 0, 1⟩ ∧
      ISet.addHint o st (oracle t.segs x) t.segs x = some t'.segs ∧ Sec o setSeg p' t' ∧
      ∀ y, Dom o setSeg t'.segs y → Dom o setSeg t.segs y ∨ o.Mem y x := by
  obtain ⟨hv, ho, hw⟩ := ht
  obtain ⟨it, t2, r2, o2, s2, e2, sp, q2⟩ := Tree.Sets.addHint_added h (st := st) ho hw x (oracle t.segs x) hv
  have hv2 : t2.Valid it := by
    rcases q2 with ⟨he', rfl⟩ | ⟨-, A, B, C, L, i, s, R, -, rfl, ha, -⟩
    · rw [e2 he']; exact hv
    · exact ha.valid
  refine ⟨it, t2, ?_, s2, ⟨hv2, o2, sp.wf⟩, fun y hy => (sp.dom y).1 hy⟩
  obtain ⟨A, C, he⟩ := ahead_range h hw hx ha
  have hr := equalRange_spec h hw ((nonempty_iff h).2 hx)
  obtain ⟨a, b, c, e, -⟩ := hr
  obtain ⟨A', B', C', he', e', -⟩ := Tree.equalRange_node e
  obtain ⟨rfl, rfl, rfl⟩ : A' = A ∧ B' = [] ∧ C' = C := by rw [he] at he'; simpa [eq_comm] using he'
  obtain ⟨t1, r1, a1, f1⟩ := Tree.insert_new ho (g := setSeg) (s := x) e' he (oracle t.segs x)
  have r1' : Tree.insertHint o setSeg (oracle t.segs x) p x t = some (some t.fresh, t1) := by
    simp only [Tree.insertHint, if_pos hv, r1, Option.map_some]
  have hkk : o.eq x x = true := Tree.Sets.eq_self h hx
  have hwi : Within t (addHint o st (oracle t.segs x) p x) ⟨0, 1, 18, 0, 1⟩ := by
    unfold addHint
    rw [if_neg (by simp [hx])]
    apply Within.mono
    · exact ((costs_insertHint _ p x).took r1').bindW (((costs_deref _).took a1.deref).bindW
        (.pos hkk ((costs_Sets_handleInserted _ _).within _)))
    · work
  unfold Sets.addWith
  exact ((took_get t).bind (hwi.took (Sets.erases_addHint _ _ _ _) r2)).mono (by decide)

theorem addInterSeg_took {l : List I} (hl : WF o setSeg l) {k : I} (hk : o.Nonempty k) {p : It} {t : Tree I}
    (ht : Sec o setSeg p t) (ha : Ahead o setSeg t.segs k) :
    ∃ t', Took (addInterSeg o st oracle l k) t () t' (times (overlapped o l k) ⟨0, 1, 20, 0, 1⟩ + { searches := 1 }) ∧
      ISet.addInterSeg o st oracle t.segs l k = some t'.segs ∧ Sec o setSeg none t' ∧
      ∀ y, Dom o setSeg t'.segs y → Dom o setSeg t.segs y ∨ o.Mem y k := by
  have he : o.isEmpty k = false := (nonempty_iff h).1 hk
  obtain ⟨a, b, c, e, hlen, hpw⟩ := found_pairwise h hl hk
  simp only [setSeg, List.map_id, id] at hlen hpw
  obtain ⟨p', t', k1, r1, i1, d1⟩ := chain_ahead (o := o) (g := setSeg) (pc := fun x => o.inter x k)
    (f := sectionStep o st oracle k) (r := b) (p := none) (t := t) (q := fun _ => 0) (u := {})
    (v := ⟨0, 1, 20, 0, 1⟩) (F := fun sec node =>
      if o.isEmpty (o.inter node k) then some sec
      else ISet.addHint o st (oracle sec (o.inter node k)) sec (o.inter node k)) hpw (by
      intro x hx p t ht ha
      cases hi : o.isEmpty (o.inter x k) with
      | true =>
        refine ⟨p, t, ?_, by simp, ht, fun y hy => .inl hy⟩
        unfold sectionStep
        rw [if_pos hi]
        exact ((took_look { steps := 2 } rfl rfl t).bind (took_pure p t)).mono (by work)
      | false =>
        obtain ⟨p', t', k1, r1, i1⟩ := piece_took h st oracle ht hi ha
        refine ⟨p', t', ?_, by simpa using r1, i1⟩
        unfold sectionStep
        rw [if_neg (by simp [hi])]
        exact ((took_look { steps := 2 } rfl rfl t).bind k1).mono (by work)) ⟨Tree.valid_none, ht.2⟩
      (fun x hx y z hy hz => ha y z hy ((h.mem_inter _ _ _).1 hz).2)
  refine ⟨t', ?_, ?_, ⟨Tree.valid_none, i1.2⟩, fun y hy => (d1 y hy).imp_right ?_⟩
  · unfold addInterSeg
    rw [if_neg (by simp [he])]
    refine ((took_look { searches := 1 } rfl e t).bind (k1.bind (took_pure () t'))).mono ?_
    rw [← hlen]
    simp only [Le, times, add_searches, add_hinted, add_steps, add_allocated]
    omega
  · unfold ISet.addInterSeg
    rw [if_neg (by simp [he]), e]
    show ISet.sectionLoop o st oracle t.segs b k = _
    unfold ISet.sectionLoop
    rw [Tree.fold_forEach]
    exact r1
  · rintro ⟨x, -, hx⟩
    exact ((h.mem_inter _ _ _).1 hx).2

theorem addInter_took {l r : List I} (hl : WF o setSeg l) (hr : WF o setSeg r) (n : Nat) :
    ∃ t', Took (addInter o st oracle r l) ⟨[], n⟩ () t'
        ⟨r.length + 2, l.length + r.length, 20 * l.length + 22 * r.length + 4, 0, l.length + r.length⟩ ∧
      ISet.addInter o st oracle [] l r = some t'.segs := by
  obtain ⟨cr, e1, k0, h3⟩ := common_took h hr hl (⟨[], n⟩ : Tree I)
  unfold addInter ISet.addInter
  rw [e1] at k0 ⊢
  cases cr with
  | none => exact ⟨_, (k0.bind (took_pure () _)).mono (by work), rfl⟩
  | some abc =>
    obtain ⟨a, b, c⟩ := abc
    obtain ⟨hb, hbr, hwb, -⟩ := h3 a b c rfl
    obtain ⟨p', t', k1, r1, -⟩ := chain_ahead (o := o) (g := setSeg) (pc := fun x => x) (f := fun _ k => do
        look { steps := 2 } (some ())
        addInterSeg o st oracle l k
        return none) (r := b) (p := none) (t := (⟨[], n⟩ : Tree I)) (q := overlapped o l) (u := ⟨0, 1, 20, 0, 1⟩)
      (v := ⟨1, 0, 2, 0, 0⟩) (F := fun sec k => ISet.addInterSeg o st oracle sec l k) hwb.sorted (by
        intro x hx p t ht ha
        obtain ⟨t', k1, r1, i1⟩ := addInterSeg_took h st oracle hl (k := x) (hr.nonempty x (hbr x hx)) ht ha
        refine ⟨none, t', ((took_look { steps := 2 } rfl rfl t).bind (k1.bind (took_pure none t'))).mono ?_, r1, i1⟩
        simp only [Le, times, add_searches, add_hinted, add_steps, add_allocated]
        omega) (sec_nil n) (fun x _ => ahead_nil x)
    have hs := sum_overlapped_le hl hwb
    refine ⟨t', (k0.bind (k1.bind (took_pure () t'))).mono ?_, ?_⟩
    · simp only [Le, times, add_searches, add_hinted, add_steps, add_allocated]
      omega
    · show ISet.fold _ _ _ = _
      rw [Tree.fold_forEach]
      exact r1

omit h in
theorem loopI_eq (l : List I) : ∀ (sec r : List I), ISet.intersectsLoop o st oracle sec l r =
    loopI (fun sec k => ISet.addInterSeg o st oracle sec l k) sec r
  | _, [] => rfl
  | sec, k :: r => by
    rw [ISet.intersectsLoop, loopI]
    congr 1
    funext sec'
    rw [loopI_eq l sec' r]

theorem intersects_took {l r : List I} (hl : WF o setSeg l) (hr : WF o setSeg r) :
    ∃ b w, intersects o st oracle l r = some (b, w) ∧ ISet.intersects o st oracle l r = some b ∧
      Le w ⟨r.length + 2, l.length + r.length, 20 * l.length + 22 * r.length + 4, 0, l.length + r.length⟩ ∧ w.erased = w.allocated := by
  obtain ⟨cr, e1, k0, h3⟩ := common_took h hr hl (⟨[], 0⟩ : Tree I)
  unfold intersects ISet.intersects
  rw [e1]
  cases cr with
  | none =>
    obtain ⟨w, e, l1, l2⟩ := temporary_took (m := intersectsBody o st oracle l r) (k0.bind (took_pure false _))
    exact ⟨false, w, e, rfl, l1.trans (by work), l2⟩
  | some abc =>
    obtain ⟨a, b, c⟩ := abc
    obtain ⟨hb, hbr, hwb, -⟩ := h3 a b c rfl
    obtain ⟨res, t', k1, r1⟩ := intersectsLoop_took (f := addInterSeg o st oracle l) (r := b) (t := (⟨[], 0⟩ : Tree I))
      (q := overlapped o l) (u := ⟨0, 1, 20, 0, 1⟩) (v := ⟨1, 0, 0, 0, 0⟩)
      (Inv := fun t => Sec o setSeg none t ∧ t.segs = []) (F := fun sec k => ISet.addInterSeg o st oracle sec l k) (by
        rintro x hx t ⟨ht, h0⟩
        obtain ⟨t', k1, r1, i1, -⟩ := addInterSeg_took h st oracle hl (hr.nonempty x (hbr x hx)) ht (by
          rw [h0]; exact ahead_nil x)
        exact ⟨t', k1, r1, fun he => ⟨i1, by simpa using he⟩⟩) ⟨sec_nil _, rfl⟩
    obtain ⟨w, e, l1, l2⟩ := temporary_took (m := intersectsBody o st oracle l r) (k0.bind k1)
    have hs := sum_overlapped_le hl hwb
    refine ⟨res, w, e, ?_, l1.trans ?_, l2⟩
    · show ISet.intersectsLoop o st oracle [] l b = _
      rw [loopI_eq]
      exact r1
    · simp only [Le, times, add_searches, add_hinted, add_steps, add_allocated]
      omega

theorem addE_took (x : I) (n : Nat) :
    ∃ it t', Took (add o st 0 x) ⟨[], n⟩ it t' ⟨4, 3, 23, 0, 4⟩ ∧ ISet.add o st [] x = some t'.segs := by
  obtain ⟨l, el, -⟩ := ISet.add_spec h st (wf_nil (o := o) (g := setSeg)) x
  obtain ⟨it, t', r1, -, rfl, -⟩ := Tree.Sets.add_run h (ok_nil n) (show ICL.ISet.add o st (⟨[], n⟩ : Tree I).segs x = _ from el) 0
  refine ⟨it, t', ?_, el⟩
  by_cases hs : st = .splitting
  · subst hs
    refine Within.took (Sets.erases_add _ _ _) ?_ r1
    cases hk : o.isEmpty x with
    | true =>
      unfold Cost.Sets.add
      exact .pos hk (((Cost.Costs.pure _).within _).mono (by simp [Cost.Le]))
    | false =>
      obtain ⟨A, B, C, he, hb⟩ := overlapped_range h (g := setSeg) (t := (⟨[], n⟩ : Tree I)) wf_nil ((nonempty_iff h).2 hk)
      have h0 : B.length = 0 := by rw [hb]; rfl
      refine (Sets.add_within h (ok_nil n) el 0 he).mono ?_
      simp only [Le]
      omega
  · exact ((costs_Sets_add hs _ _).took r1).mono (by decide)

theorem addInterE_took {lk : Lookup D I} {x : D} (hlk : lk.LawfulAt o x) (sing : D → I) {l : List I} (hl : WF o setSeg l)
    (n : Nat) :
    ∃ t', Took (addInterE o st sing lk l x) ⟨[], n⟩ () t' ⟨5, 3, 25, 0, 4⟩ ∧
      ISet.addInterE o st sing lk [] l x = some t'.segs := by
  obtain ⟨b, e, -⟩ := containsE_spec h hlk hl
  have k0 := took_look { searches := 1, steps := 2 } rfl e (⟨[], n⟩ : Tree I)
  unfold addInterE ISet.addInterE
  rw [e] at k0 ⊢
  cases b with
  | false => exact ⟨_, (k0.bind (took_pure () _)).mono (by decide), rfl⟩
  | true =>
    obtain ⟨it, t', k1, r1⟩ := addE_took h st (sing x) n
    exact ⟨t', (k0.bind (k1.bind (took_pure () t'))).mono (by decide), r1⟩

/-- `^=`, segment by segment. -/
theorem flipSet_took [DecidableEq I] (hst : st ≠ .splitting) {t : Tree I} (ht : t.Ok) (hw : WF o setSeg t.segs)
    (hj : st = .joining → Joined o setSeg t.segs) {r : List I} (hr : WF o setSeg r) :
    ∃ t', Took (flipSet o st oracle r) t () t'
        ⟨16 * t.nodes.length + 21 * r.length + 2, r.length, 56 * t.nodes.length + 79 * r.length + 4, 0,
          6 * t.nodes.length + 7 * r.length⟩ ∧
      ISet.flipSet o st oracle t.segs r = some t'.segs := by
  obtain ⟨cr, e1, k0, h3⟩ := common_took h hr hw t
  unfold flipSet ISet.flipSet
  rw [e1]
  cases cr with
  | none =>
    obtain ⟨l, el, -⟩ := ISet.addSet_spec h st oracle hw r
    obtain ⟨t', r1, -, rfl⟩ := Tree.Sets.addSet_run h st oracle ht el
    refine ⟨t', ((took_get t).bind (k0.bind ((costs_addSet hst oracle r).took r1))).mono ?_, el⟩
    simp only [Le, times, add_searches, add_hinted, add_steps, add_allocated]
    omega
  | some abc =>
    obtain ⟨a, b, c⟩ := abc
    obtain ⟨hb, hbr, hwb, habc⟩ := h3 a b c rfl
    have hlen : a.length + b.length + c.length = r.length := by
      have := congrArg List.length habc
      simp only [List.length_append] at this
      omega
    let Inv : It → Tree I → Prop := fun _ t1 => t1.Ok ∧ WF o setSeg t1.segs ∧ (st = .joining → Joined o setSeg t1.segs) ∧
      Fits o setSeg (t.segs ++ r) t1.segs
    have hadd : ∀ (s : List I), (∀ x ∈ s, x ∈ r) → ∀ x ∈ s, ∀ (p : It) t1, Inv p t1 → ∃ p' t', Took (do
        let _ ← add o st 0 x
        return none) t1 p' t' ⟨4, 0, 23, 0, 1⟩ ∧ ISet.add o st t1.segs x = some t'.segs ∧ Inv p' t' := by
      rintro s hs x hx p t1 ⟨o1, w1, j1, f1⟩
      obtain ⟨l, el, sp⟩ := ISet.add_spec h st w1 x
      obtain ⟨it, t', r1, o2, rfl, -⟩ := Tree.Sets.add_run h o1 el 0
      exact ⟨none, t', (((costs_Sets_add hst _ _).took r1).bind (took_pure none t')).mono (by decide), el, o2, sp.wf,
        fun hc => sp.joined hc (j1 hc), sp.fits h w1 j1 f1 (respects_of_mem (by simp [hs x hx]))⟩
    have hflip : ∀ x ∈ b, ∀ (p : It) t1, Inv p t1 → ∃ p' t', Took (do
        flipSeg o st x
        return none) t1 p' t' (times (inside o t.segs x) ⟨8, 0, 28, 0, 3⟩ + ⟨21, 0, 79, 0, 7⟩) ∧
        ISet.flipSeg o st t1.segs x = some t'.segs ∧ Inv p' t' := by
      rintro x hx p t1 ⟨o1, w1, j1, f1⟩
      have hxr := hbr x hx
      have hn : o.Nonempty x := hr.nonempty x hxr
      obtain ⟨l, el, sp⟩ := ISet.flipSeg_spec h st w1 hn
      obtain ⟨A, B, C, he, hB⟩ := overlapped_range h w1 hn
      simp only [setSeg, List.map_id] at hB
      have hin := overlapped_le_inside w1 (f1.borders h) hr hxr
      rw [← hB] at hin
      obtain ⟨t', k1, r1⟩ := flipSeg_took hst h o1 w1 el he
      obtain ⟨t2, r2, o2, rfl⟩ := Tree.Sets.flipSeg_run h st o1 w1 el
      obtain rfl : t2 = t' := by rw [r1] at r2; simpa [eq_comm] using r2
      refine ⟨none, t2, (k1.bind (took_pure none t2)).mono ?_, el, o2, sp.wf,
        fun hc => sp.joined hc (j1 hc), sp.fits h j1 f1 (respects_of_mem (by simp [hxr]))⟩
      simp only [Le, times, add_searches, add_hinted, add_steps, add_allocated]
      omega
    obtain ⟨p1, t1, k1, r1, i1⟩ := chain_leaves_each (Inv := Inv) (p := none) (t := t)
      (hadd a fun x hx => by rw [habc]; simp [hx])
      ⟨ht, hw, hj, fits_of_subset (by simp +contextual)⟩
    obtain ⟨p2, t2, k2, r2, i2⟩ := chain_leaves (Inv := Inv) (p := none) (t := t1) hflip i1
    obtain ⟨p3, t3, k3, r3, i3⟩ := chain_leaves_each (Inv := Inv) (p := none) (t := t2)
      (hadd c fun x hx => by rw [habc]; simp [hx]) i2
    have hs := sum_inside_le (K := t.segs) hwb
    have hl : t.segs.length = t.nodes.length := by simp [Tree.segs]
    refine ⟨t3, ((took_get t).bind (k0.bind (k1.bind (k2.bind (k3.bind (took_pure () t3)))))).mono ?_, ?_⟩
    · simp only [Le, times, add_searches, add_hinted, add_steps, add_allocated]
      omega
    · simp only [Tree.fold_forEach, Option.bind_eq_bind, Option.bind_some]
      rw [r1, Option.bind_some, r2, Option.bind_some, r3]

end
end Sets

namespace Maps
section
variable {D I V : Type} [LinearOrder D] {o : IntervalOps D I} [DecidableEq V] (h : o.Lawful) (m : MapType V)

include h

theorem piece_range {c : MapCfg V} {K : List I} {t : Tree (I × V)} (hf : MFit o c K t.segs) {x : I}
    (hx : o.isEmpty x = false)
    (hp : ∀ i ∈ K, ¬ Splits o x (LowerBorder o i) ∧ ¬ Splits o x (UpperBorder o i)) :
    ∃ A B C, ICL.equalRange o (Tree.nodeSeg mapSeg) t.nodes x = some (A, B, C) ∧ B.length ≤ 1 := by
  obtain ⟨A, B, C, he, hB⟩ := overlapped_range h hf.wf ((nonempty_iff h).2 hx)
  refine ⟨A, B, C, he, ?_⟩
  rw [hB]
  exact overlapped_whole (wf_keys.2 hf.wf) ((fits_keys.2 hf.fits).borders h) hp

theorem addC_piece {f : Combiner V} {K : List I} {t : Tree (I × V)} (ht : t.Ok) (hf : MFit o m.cfg K t.segs) {x : I}
    (hx : o.isEmpty x = false) (hK : Respects o K x)
    (hp : ∀ i ∈ K, ¬ Splits o x (LowerBorder o i) ∧ ¬ Splits o x (UpperBorder o i)) (v : V) :
    ∃ it t', Took (addC o m.cfg f 0 x v) t it t' ⟨3, 4, 68, 0, 5⟩ ∧ IMap.addC o m.cfg f t.segs x v = some t'.segs ∧
      t'.Ok ∧ MFit o m.cfg K t'.segs := by
  obtain ⟨A, B, C, he, hB⟩ := piece_range h hf hx hp
  obtain ⟨l, el, -⟩ := IMap.addC_spec h m.cfg f hf.wf x v
  obtain ⟨it, t', r, o1, rfl, -⟩ := Tree.Maps.addC_run h ht el 0
  refine ⟨it, t', (((addC_within h ht el 0 he).took (erases_addC _) r).mono ?_), el, o1, addC_fits h f hf hK el⟩
  simp only [Le]
  omega

theorem addWith_piece (oracle : List (I × V) → I → Nat) {t : Tree (I × V)} {p : It} (ht : Sec o mapSeg p t) {x : I}
    (hx : o.isEmpty x = false) (ha : Ahead o mapSeg t.segs x) (v : V) :
    ∃ it t', Took (addWith o m oracle p (x, v)) t it t' ⟨0, 1, 19, 0, 1⟩ ∧
      IMap.addHint o m (oracle t.segs x) t.segs x v = some t'.segs ∧ Sec o mapSeg it t' ∧
      ∀ y, Dom o mapSeg t'.segs y → Dom o mapSeg t.segs y ∨ o.Mem y x := by
  obtain ⟨hv, ho, hw⟩ := ht
  obtain ⟨l, el, s1, s2⟩ := IMap.addHintC_gen h m.cfg m.plus (oracle t.segs x) hw x v
  obtain ⟨it, t', r, o1, rfl, q⟩ := Tree.Maps.addHintC_run h ho el hv
  have hd : WF o mapSeg t'.segs ∧ ∀ y, Dom o mapSeg t'.segs y → Dom o mapSeg t.segs y ∨ o.Mem y x := by
    cases hv : IMap.absorbable m.cfg v with
    | true => rw [s1 hv]; exact ⟨hw, fun y hy => .inl hy⟩
    | false =>
      obtain ⟨up, u, sp, -⟩ := s2 hv
      refine ⟨sp.wf, fun y hy => ?_⟩
      obtain ⟨w, hy⟩ := dom_iff_joint.1 hy
      rcases (sp.joint y y w (dg_self _ y)).1 hy with hy | hy
      · exact .inr hy.1
      · exact .inl hy.2.left
  refine ⟨it, t', ?_, el, ⟨q.1, o1, hd.1⟩, hd.2⟩
  obtain ⟨A, C, he⟩ := ahead_range h hw hx ha
  obtain ⟨a, b, c, e, -⟩ := equalRange_spec h hw ((nonempty_iff h).2 hx)
  obtain ⟨A', B', C', he', e', -⟩ := Tree.equalRange_node e
  obtain ⟨rfl, rfl, rfl⟩ : A' = A ∧ B' = [] ∧ C' = C := by rw [he] at he'; simpa [eq_comm] using he'
  obtain ⟨t1, r1, a1, f1⟩ := Tree.insert_new ho (g := mapSeg) (s := (x, m.cfg.ident)) e' he (oracle t.segs x)
  have r1' : Tree.insertHint o mapSeg (oracle t.segs x) p (x, m.cfg.ident) t = some (some t.fresh, t1) := by
    simp only [Tree.insertHint, if_pos hv, r1, Option.map_some]
  have hkk : o.eq x x = true := Tree.Sets.eq_self h hx
  obtain ⟨t2, r2, a2, f2⟩ := Tree.Maps.combine_at (f := m.plus) (v := v) a1
  have r3 : Tree.Maps.addAt o m.cfg m.plus (oracle t.segs x) p x v t = some ((some t.fresh, true), t2) := by
    unfold Tree.Maps.addAt
    rw [Tree.run_bind r1', Tree.run_bind a1.deref, if_pos (by simp [hkk]), Tree.run_bind r2]
    rfl
  have hwi : Within t (addHintC o m.cfg m.plus (oracle t.segs x) p x v) ⟨0, 1, 19, 0, 1⟩ := by
    unfold addHintC
    refine .neg (by simp [hx]) ?_
    by_cases hv : IMap.absorbable m.cfg v = true
    · exact .pos hv (((Costs.pure _).within t).mono (by work))
    refine .neg hv ?_
    apply Within.mono
    · exact ((costs_Maps_addAt _ _ _ _ _ _).took r3).bindW (.pos rfl ((costs_Maps_handleInserted _ _).within _))
    · work
  unfold addWith
  exact ((took_get t).bind (hwi.took (erases_addHintC _ _) r)).mono (by decide)

section
variable {l : List (I × V)} {R : List I} (hl : WF o mapSeg l) (hR : WF o setSeg R) {k : I} (hk : k ∈ R)
include hl hR hk

theorem addInterSeg_took (hm : m.cfg.total = false) (oracle : List (I × V) → I → Nat) (v : V) {t : Tree (I × V)} (ht : t.Ok)
    (hf : MFit o m.cfg (l.map Prod.fst ++ R) t.segs) :
    ∃ t', Took (addInterSeg o m l k v) t () t'
        (times (overlapped o (l.map Prod.fst) k) ⟨6, 8, 138, 0, 10⟩ + { searches := 1 }) ∧
      IMap.addInterSeg o m oracle t.segs l k v = some t'.segs ∧ t'.Ok ∧ MFit o m.cfg (l.map Prod.fst ++ R) t'.segs := by
  have hn : o.Nonempty k := hR.nonempty k hk
  have he : o.isEmpty k = false := (nonempty_iff h).1 hn
  obtain ⟨a, b, c, e, hb, hlen⟩ := overlapped_found h hl hn
  change b.length = overlapped o (l.map Prod.fst) k at hlen
  obtain ⟨p', t', k1, r1, i1⟩ := chain_leaves_each (f := fun _ node => do
      sectionStep o m k v node
      return none) (r := b) (p := none) (t := t)
    (v := ⟨6, 8, 138, 0, 10⟩) (Inv := fun _ t1 => t1.Ok ∧ MFit o m.cfg (l.map Prod.fst ++ R) t1.segs)
    (F := IMap.sectionStep o m k v) (by
      rintro x hx p t ⟨ht, hf⟩
      have hxl : x.1 ∈ l.map Prod.fst := List.mem_map.2 ⟨x, hb x hx, rfl⟩
      cases hi : o.isEmpty (o.inter x.1 k) with
      | true =>
        have ks : Took (sectionStep o m k v x) t () t ⟨6, 8, 138, 0, 10⟩ := by
          unfold sectionStep
          rw [if_pos hi]
          exact ((took_look { steps := 2 } rfl rfl t).bind (f := fun _ => _) (took_pure () t)).mono (by decide)
        exact ⟨none, t, (ks.bind (f := fun _ => _) (took_pure none t)).mono (by decide),
          by simp [IMap.sectionStep, hi], ht, hf⟩
      | false =>
        have hr := (respects_of_mem (o := o) (K := l.map Prod.fst ++ R) (List.mem_append_left _ hxl)).inter h
          (respects_of_mem (List.mem_append_right _ hk))
        have hs := not_splits_inter h (wf_keys.2 hl) hR hxl hk
        obtain ⟨it1, t1, k1, r1, o1, f1⟩ := addC_piece h m (f := m.plus) ht hf hi hr hs x.2
        obtain ⟨it2, t2, k2, r2, o2, f2⟩ := addC_piece h m (f := m.sect) o1 f1 hi hr hs v
        have ks : Took (sectionStep o m k v x) t () t2 ⟨6, 8, 138, 0, 10⟩ := by
          unfold sectionStep
          rw [if_neg (by simp [hi])]
          exact ((took_look { steps := 2 } rfl rfl t).bind (f := fun _ => _) (k1.bind (f := fun _ => _)
            (k2.bind (f := fun _ => _) (took_pure () t2)))).mono (by decide)
        refine ⟨none, t2, (ks.bind (f := fun _ => _) (took_pure none t2)).mono (by decide), ?_, o2, f2⟩
        · simp only [IMap.sectionStep, hi, Bool.false_eq_true, if_false]
          rw [r1]
          exact r2) ⟨ht, hf⟩
  refine ⟨t', ?_, ?_, i1⟩
  · unfold addInterSeg
    rw [if_neg (by simp [he])]
    refine ((took_look { searches := 1 } rfl e t).bind (k1.bind (took_pure () t'))).mono ?_
    rw [← hlen]
    simp only [Le, times, add_searches, add_hinted, add_steps, add_allocated]
    omega
  · unfold IMap.addInterSeg
    rw [if_neg (by simp [hm]), if_neg (by simp [he]), e]
    exact r1

end

theorem addInterItv_took (oracle : List (I × V) → I → Nat) {l : List (I × V)} (hl : WF o mapSeg l) {k : I}
    (hk : o.Nonempty k) {p : It} {t : Tree (I × V)} (ht : Sec o mapSeg p t) (ha : Ahead o mapSeg t.segs k) :
    ∃ t', Took (addInterItv o m oracle l k) t () t'
        (times (overlapped o (l.map Prod.fst) k) ⟨0, 1, 21, 0, 1⟩ + { searches := 1 }) ∧
      IMap.addInterItv o m oracle t.segs l k = some t'.segs ∧ Sec o mapSeg none t' ∧
      ∀ y, Dom o mapSeg t'.segs y → Dom o mapSeg t.segs y ∨ o.Mem y k := by
  have he : o.isEmpty k = false := (nonempty_iff h).1 hk
  obtain ⟨a, b, c, e, hlen, hpw⟩ := found_pairwise h hl hk
  change b.length = overlapped o (l.map Prod.fst) k at hlen
  change b.Pairwise (fun x y => o.Before (o.inter x.1 k) (o.inter y.1 k)) at hpw
  obtain ⟨p', t', k1, r1, i1, d1⟩ := chain_ahead (o := o) (g := mapSeg) (pc := fun x : I × V => o.inter x.1 k)
    (f := restrictStep o m oracle k) (r := b) (p := none) (t := t) (q := fun _ => 0) (u := {})
    (v := ⟨0, 1, 21, 0, 1⟩) (F := IMap.restrictStep o m oracle k) hpw (by
      intro x hx p t ht ha
      unfold restrictStep IMap.restrictStep
      cases hi : o.isEmpty (o.inter x.1 k) with
      | true =>
        refine ⟨p, t, ?_, by simp [hi], ht, fun y hy => .inl hy⟩
        exact ((took_look { steps := 2 } rfl rfl t).bind (f := fun _ => _) (took_pure p t)).mono (by work)
      | false =>
        obtain ⟨it1, t1, k1, r1, i1⟩ := addWith_piece h m oracle ht hi ha x.2
        refine ⟨it1, t1, ?_, ?_, i1⟩
        · exact ((took_look { steps := 2 } rfl rfl t).bind (f := fun _ => _) k1).mono (by work)
        · simp only [hi, Bool.false_eq_true, if_false]
          exact r1) ⟨Tree.valid_none, ht.2⟩ (fun x hx y z hy hz => ha y z hy ((h.mem_inter _ _ _).1 hz).2)
  refine ⟨t', ?_, ?_, ⟨Tree.valid_none, i1.2⟩, fun y hy => (d1 y hy).imp_right ?_⟩
  · unfold addInterItv
    rw [if_neg (by simp [he])]
    refine ((took_look { searches := 1 } rfl e t).bind (k1.bind (took_pure () t'))).mono ?_
    rw [← hlen]
    simp only [Le, times, add_searches, add_hinted, add_steps, add_allocated]
    omega
  · unfold IMap.addInterItv
    rw [if_neg (by simp [he]), e]
    exact r1
  · rintro ⟨x, -, hx⟩
    exact ((h.mem_inter _ _ _).1 hx).2

theorem addInterSet_took (oracle : List (I × V) → I → Nat) {l : List (I × V)} (hl : WF o mapSeg l) {r : List I}
    (hr : WF o setSeg r) (n : Nat) :
    ∃ t', Took (addInterSet o m oracle r l) ⟨[], n⟩ () t'
        ⟨r.length + 2, l.length + r.length, 21 * l.length + 23 * r.length + 4, 0, l.length + r.length⟩ ∧
      IMap.addInterSet o m oracle [] l r = some t'.segs := by
  obtain ⟨cr, e1, k0, h3⟩ := common_took h hr (wf_keys.2 hl) (⟨[], n⟩ : Tree (I × V))
  unfold addInterSet IMap.addInterSet
  rw [e1] at k0 ⊢
  cases cr with
  | none => exact ⟨_, (k0.bind (took_pure () _)).mono (by work), rfl⟩
  | some abc =>
    obtain ⟨a, b, c⟩ := abc
    obtain ⟨hb, hbr, hwb, -⟩ := h3 a b c rfl
    obtain ⟨p', t', k1, r1, -⟩ := chain_ahead (o := o) (g := mapSeg) (pc := fun x => x) (f := fun _ k => do
        look { steps := 2 } (some ())
        addInterItv o m oracle l k
        return none) (r := b) (p := none) (t := (⟨[], n⟩ : Tree (I × V))) (q := overlapped o (l.map Prod.fst))
      (u := ⟨0, 1, 21, 0, 1⟩) (v := ⟨1, 0, 2, 0, 0⟩)
      (F := fun sec k => IMap.addInterItv o m oracle sec l k) hwb.sorted (by
        intro x hx p t ht ha
        obtain ⟨t', k1, r1, i1⟩ := addInterItv_took h m oracle hl (k := x) (hr.nonempty x (hbr x hx)) ht ha
        refine ⟨none, t', ((took_look { steps := 2 } rfl rfl t).bind (f := fun _ => _)
          (k1.bind (f := fun _ => _) (took_pure none t'))).mono ?_, r1, i1⟩
        simp only [Le, times, add_searches, add_hinted, add_steps, add_allocated]
        omega) (sec_nil n) (fun x _ => ahead_nil x)
    have hs := sum_overlapped_le (wf_keys.2 hl) hwb
    rw [List.length_map] at hs
    refine ⟨t', (k0.bind (k1.bind (took_pure () t'))).mono ?_, r1⟩
    simp only [Le, times, add_searches, add_hinted, add_steps, add_allocated]
    omega

theorem addInterMap_took (hm : m.cfg.total = false) (oracle : List (I × V) → I → Nat) {l : List (I × V)}
    (hl : WF o mapSeg l) {r : List (I × V)} (hr : WF o mapSeg r) (n : Nat) :
    ∃ t', Took (addInterMap o m oracle r l) ⟨[], n⟩ () t'
        ⟨6 * l.length + 7 * r.length + 2, 8 * l.length + 8 * r.length, 138 * l.length + 140 * r.length + 4, 0,
          10 * l.length + 10 * r.length⟩ ∧
      IMap.addInterMap o m oracle [] l r = some t'.segs := by
  obtain ⟨cr, e1, k0, h3⟩ := common_took h hr (wf_keys.2 hl) (⟨[], n⟩ : Tree (I × V))
  unfold addInterMap IMap.addInterMap
  rw [if_neg (by simp [hm]), if_neg (by simp [hm])]
  rw [e1] at k0 ⊢
  cases cr with
  | none => exact ⟨_, (k0.bind (took_pure () _)).mono (by work), rfl⟩
  | some abc =>
    obtain ⟨a, b, c⟩ := abc
    obtain ⟨hb, hbr, hwb, -⟩ := h3 a b c rfl
    obtain ⟨p', t', k1, r1, -⟩ := chain_leaves (f := fun _ s => do
        look { steps := 2 } (some ())
        addInterSeg o m l s.1 s.2
        return none) (r := b) (p := none) (t := (⟨[], n⟩ : Tree (I × V)))
      (q := fun s => overlapped o (l.map Prod.fst) s.1)
      (u := ⟨6, 8, 138, 0, 10⟩) (v := ⟨1, 0, 2, 0, 0⟩)
      (Inv := fun _ t1 => t1.Ok ∧ MFit o m.cfg (l.map Prod.fst ++ r.map Prod.fst) t1.segs)
      (F := fun sec s => IMap.addInterSeg o m oracle sec l s.1 s.2) (by
        rintro x hx p t ⟨ht, hf⟩
        obtain ⟨t', k1, r1, i1⟩ := addInterSeg_took h m hl (wf_keys.2 hr) (List.mem_map.2 ⟨x, hbr x hx, rfl⟩) hm oracle x.2
          ht hf
        refine ⟨none, t', ((took_look { steps := 2 } rfl rfl t).bind (f := fun _ => _)
          (k1.bind (f := fun _ => _) (took_pure none t'))).mono ?_, r1, i1⟩
        simp only [Le, times, add_searches, add_hinted, add_steps, add_allocated]
        omega) ⟨ok_nil n, mfit_nil _⟩
    have hs := sum_overlapped_le (wf_keys.2 hl) (wf_keys.2 hwb)
    rw [List.length_map, List.length_map, List.map_map] at hs
    change (b.map fun s => overlapped o (l.map Prod.fst) s.1).sum ≤ _ at hs
    refine ⟨t', (k0.bind (k1.bind (took_pure () t'))).mono ?_, r1⟩
    simp only [Le, times, add_searches, add_hinted, add_steps, add_allocated]
    omega

omit h in
theorem loopI_eq {X : Type} (F : List (I × V) → X → Option (List (I × V))) : ∀ (sec : List (I × V)) (r : List X),
    IMap.intersectsLoop F sec r = loopI F sec r
  | _, [] => rfl
  | sec, k :: r => by
    rw [IMap.intersectsLoop, loopI]
    congr 1
    funext sec'
    rw [loopI_eq F sec' r]

theorem intersectsSet_took (oracle : List (I × V) → I → Nat) {l : List (I × V)} (hl : WF o mapSeg l) {r : List I}
    (hr : WF o setSeg r) :
    ∃ b w, intersectsSet o m oracle l r = some (b, w) ∧ IMap.intersectsSet o m oracle l r = some b ∧
      Le w ⟨r.length + 2, l.length + r.length, 21 * l.length + 23 * r.length + 4, 0, l.length + r.length⟩ ∧
      w.erased = w.allocated := by
  obtain ⟨cr, e1, k0, h3⟩ := common_took h hr (wf_keys.2 hl) (⟨[], 0⟩ : Tree (I × V))
  unfold intersectsSet IMap.intersectsSet
  rw [e1]
  cases cr with
  | none =>
    obtain ⟨w, e, l1, l2⟩ := temporary_took (m := intersectsSetBody o m oracle l r) (k0.bind (took_pure false _))
    exact ⟨false, w, e, rfl, l1.trans (by work), l2⟩
  | some abc =>
    obtain ⟨a, b, c⟩ := abc
    obtain ⟨hb, hbr, hwb, -⟩ := h3 a b c rfl
    obtain ⟨res, t', k1, r1⟩ := intersectsLoop_took (f := addInterItv o m oracle l) (r := b)
      (t := (⟨[], 0⟩ : Tree (I × V))) (q := overlapped o (l.map Prod.fst)) (u := ⟨0, 1, 21, 0, 1⟩)
      (v := ⟨1, 0, 0, 0, 0⟩) (Inv := fun t => Sec o mapSeg none t ∧ t.segs = [])
      (F := fun sec k => IMap.addInterItv o m oracle sec l k) (by
        rintro x hx t ⟨ht, h0⟩
        obtain ⟨t', k1, r1, i1, -⟩ := addInterItv_took h m oracle hl (k := x) (hr.nonempty x (hbr x hx)) ht (by
          rw [h0]; exact ahead_nil x)
        exact ⟨t', k1, r1, fun he => ⟨i1, by simpa using he⟩⟩) ⟨sec_nil _, rfl⟩
    obtain ⟨w, e, l1, l2⟩ := temporary_took (m := intersectsSetBody o m oracle l r) (k0.bind k1)
    have hs := sum_overlapped_le (wf_keys.2 hl) hwb
    rw [List.length_map] at hs
    refine ⟨res, w, e, ?_, l1.trans ?_, l2⟩
    · show IMap.intersectsLoop _ [] b = _
      rw [loopI_eq]
      exact r1
    · simp only [Le, times, add_searches, add_hinted, add_steps, add_allocated]
      omega

theorem intersectsMap_took (hm : m.cfg.total = false) (oracle : List (I × V) → I → Nat) {l : List (I × V)}
    (hl : WF o mapSeg l) {r : List (I × V)} (hr : WF o mapSeg r) :
    ∃ b w, intersectsMap o m false l r = some (b, w) ∧ IMap.intersectsMap o m false oracle l r = some b ∧
      Le w ⟨6 * l.length + 7 * r.length + 2, 8 * l.length + 8 * r.length, 138 * l.length + 140 * r.length + 4, 0,
          10 * l.length + 10 * r.length⟩ ∧
      w.erased = w.allocated := by
  obtain ⟨cr, e1, k0, h3⟩ := common_took h hr (wf_keys.2 hl) (⟨[], 0⟩ : Tree (I × V))
  unfold intersectsMap IMap.intersectsMap
  rw [if_neg (by simp [hm]), if_neg (by simp [hm]), e1]
  cases cr with
  | none =>
    obtain ⟨w, e, l1, l2⟩ := temporary_took (m := intersectsMapBody o m l r) (k0.bind (took_pure false _))
    exact ⟨false, w, e, rfl, l1.trans (by work), l2⟩
  | some abc =>
    obtain ⟨a, b, c⟩ := abc
    obtain ⟨hb, hbr, hwb, -⟩ := h3 a b c rfl
    obtain ⟨res, t', k1, r1⟩ := intersectsLoop_took (f := fun s : I × V => addInterSeg o m l s.1 s.2) (r := b)
      (t := (⟨[], 0⟩ : Tree (I × V))) (q := fun s => overlapped o (l.map Prod.fst) s.1) (u := ⟨6, 8, 138, 0, 10⟩)
      (v := ⟨1, 0, 0, 0, 0⟩) (Inv := fun t1 => t1.Ok ∧ MFit o m.cfg (l.map Prod.fst ++ r.map Prod.fst) t1.segs)
      (F := fun sec s => IMap.addInterSeg o m oracle sec l s.1 s.2) (by
        rintro x hx t ⟨ht, hf⟩
        obtain ⟨t', k1, r1, i1⟩ := addInterSeg_took h m hl (wf_keys.2 hr) (List.mem_map.2 ⟨x, hbr x hx, rfl⟩) hm oracle x.2
          ht hf
        exact ⟨t', k1, r1, fun _ => i1⟩) ⟨ok_nil 0, mfit_nil _⟩
    obtain ⟨w, e, l1, l2⟩ := temporary_took (m := intersectsMapBody o m l r) (k0.bind k1)
    have hs := sum_overlapped_le (wf_keys.2 hl) (wf_keys.2 hwb)
    rw [List.length_map, List.length_map, List.map_map] at hs
    change (b.map fun s => overlapped o (l.map Prod.fst) s.1).sum ≤ _ at hs
    refine ⟨res, w, e, ?_, l1.trans ?_, l2⟩
    · show IMap.intersectsLoop _ [] b = _
      rw [loopI_eq]
      exact r1
    · simp only [Le, times, add_searches, add_hinted, add_steps, add_allocated]
      omega

/-- For total maps, `&=` is `+=`. -/
theorem addInterMap_total_took (hm : m.cfg.total = true) (oracle : List (I × V) → I → Nat) {l : List (I × V)}
    (hl : WF o mapSeg l) {r : List (I × V)} (hr : WF o mapSeg r) (n : Nat) :
    ∃ t', Took (addInterMap o m oracle r l) ⟨[], n⟩ () t'
        ⟨l.length + r.length, 15 * l.length + 5 * r.length, 300 * l.length + 70 * r.length, 0,
          15 * l.length + 5 * r.length⟩ ∧
      IMap.addInterMap o m oracle [] l r = some t'.segs := by
  obtain ⟨t1, k1, r1⟩ := Maps.addMap_took h m (t := (⟨[], n⟩ : Tree (I × V))) (ok_nil n) wf_nil (fun _ => joined_nil) hl oracle
  obtain ⟨l1, el1, w1⟩ := IMap.addMap_pt h m oracle (wf_nil (o := o)) hl
  obtain ⟨t1', r1', o1, rfl⟩ := Tree.Maps.addMap_run h m oracle (t := (⟨[], n⟩ : Tree (I × V))) (ok_nil n) el1
  obtain rfl : t1' = t1 := by rw [r1] at r1'; simpa [eq_comm] using r1'
  have hf := addMap_fits h (t := m) (K := l.map Prod.fst) (mfit_nil _) (fits_of_keys fun s hs => List.mem_map.2 ⟨s, hs, rfl⟩) el1
  obtain ⟨t2, k2, r2⟩ := Maps.addMap_took h m o1 hf.wf hf.joined hr oracle
  obtain ⟨l2, el2, w2⟩ := IMap.addMap_pt h m oracle hf.wf hr
  obtain ⟨t2', r2', o2, rfl⟩ := Tree.Maps.addMap_run h m oracle o1 el2
  obtain rfl : t2' = t2 := by rw [r2] at r2'; simpa [eq_comm] using r2'
  unfold addInterMap IMap.addInterMap
  rw [if_pos hm, if_pos hm]
  refine ⟨t2', (k1.bind (f := fun _ => _) k2).mono ?_, by rw [show IMap.addMap o m oracle [] l = _ from el1]; exact el2⟩
  obtain ⟨w, -, ⟨-, -, -, lw⟩, bw⟩ := k1
  unfold Balance at bw
  simp only [List.length_nil] at bw lw
  simp only [Le, add_searches, add_hinted, add_steps, add_allocated, List.length_nil]
  omega

theorem addInterKey_took {lk : Lookup D I} {x : D} (hlk : lk.LawfulAt o x) (sing : D → I) {l : List (I × V)}
    (hl : WF o mapSeg l) (n : Nat) :
    ∃ t', Took (addInterKey o m sing lk l x) ⟨[], n⟩ () t' ⟨4, 3, 47, 0, 4⟩ ∧
      IMap.addInterKey o m sing lk [] l x = some t'.segs := by
  obtain ⟨b, e, -⟩ := findE_spec h hlk hl
  have k0 := took_look { searches := 1, steps := 2 } rfl e (⟨[], n⟩ : Tree (I × V))
  unfold addInterKey IMap.addInterKey
  rw [e] at k0 ⊢
  cases b with
  | none => exact ⟨_, (k0.bind (took_pure () _)).mono (by decide), rfl⟩
  | some s =>
    obtain ⟨l', el, -⟩ := IMap.addC_spec h m.cfg m.plus (wf_nil (o := o) (g := mapSeg)) (sing x) s.2
    obtain ⟨it, t', r1, -, rfl, -⟩ := Tree.Maps.addC_run h (t := (⟨[], n⟩ : Tree (I × V))) (ok_nil n) el 0
    have k1 : Took (addC o m.cfg m.plus 0 (sing x) s.2) (⟨[], n⟩ : Tree (I × V)) it t' ⟨3, 3, 45, 0, 4⟩ := by
      refine Within.took (erases_addC _) ?_ r1
      cases hk : o.isEmpty (sing x) with
      | true =>
        unfold Cost.Maps.addC
        exact .pos (by simp [hk]) (((Cost.Costs.pure _).within _).mono (by simp [Cost.Le]))
      | false =>
        obtain ⟨A, B, C, he, hb⟩ := overlapped_range h (g := mapSeg) (t := (⟨[], n⟩ : Tree (I × V))) wf_nil
          ((nonempty_iff h).2 hk)
        have h0 : B.length = 0 := by rw [hb]; rfl
        refine (addC_within h (ok_nil n) el 0 he).mono ?_
        simp only [Le]
        omega
    exact ⟨t', (k0.bind (k1.bind (took_pure () t'))).mono (by decide), el⟩

end
end Maps
end Cost
end ICL
