import Verif.Theory.CostInter
import Verif.Model.CostFlip

/-!
# What symmetric differences cost

The parts that `flip(segment)` adds overlap no segment of the container.
-/

set_option linter.unusedSectionVars false
set_option linter.unusedVariables false

namespace ICL
namespace Cost
open Spec Classical

section
variable {D I V S : Type} [LinearOrder D] {o : IntervalOps D I} {g : SegOps I V S}

/-- An interval without elements of the container overlaps no segment. -/
theorem overlapped_none (h : o.Lawful) {t : Tree S} (hw : WF o g t.segs) {k : I} (hk : o.isEmpty k = false)
    (hd : ∀ x, Dom o g t.segs x → ¬ o.Mem x k) :
    ∃ A C, ICL.equalRange o (Tree.nodeSeg g) t.nodes k = some (A, [], C) := by
  obtain ⟨A, B, C, he, hB⟩ := overlapped_range h hw ((nonempty_iff h).2 hk)
  have h0 : B.length = 0 := by
    rw [hB]
    unfold overlapped
    rw [List.length_eq_zero_iff, List.filter_eq_nil_iff]
    intro i hi
    obtain ⟨s, hs, rfl⟩ := List.mem_map.1 hi
    simp only [decide_eq_true_eq, not_exists, not_and]
    exact fun x hx => hd x ⟨s, hs, hx⟩
  rw [List.length_eq_zero_iff] at h0
  subst h0
  exact ⟨A, C, he⟩

/-- Elements of the container and of the interval are in the nodes that the interval overlaps. -/
theorem range_covers (h : o.Lawful) {t : Tree S} (hw : WF o g t.segs) {k : I} (hk : o.Nonempty k) {A B C : List (Nat × S)}
    (he : ICL.equalRange o (Tree.nodeSeg g) t.nodes k = some (A, B, C)) :
    ∀ x, Dom o g t.segs x → o.Mem x k → ∃ n ∈ B, o.Mem x (g.key n.2) := by
  rintro x ⟨s, hs, hx⟩ hxk
  obtain ⟨n, hn, rfl⟩ := List.mem_map.1 hs
  refine ⟨n, ?_, hx⟩
  by_contra hB
  obtain ⟨e', bA, -, bC⟩ := Tree.nodeRange h hw ((nonempty_iff h).1 hk) he
  rw [e'] at hn
  simp only [List.mem_append] at hn
  rcases hn with (hn | hn) | hn
  · exact lt_irrefl _ (bA n hn x x hx hxk)
  · exact hB hn
  · exact lt_irrefl _ (bC n hn x x hxk hx)

end

namespace Sets
section
variable {D I : Type} [LinearOrder D] {o : IntervalOps D I} (h : o.Lawful)
include h

/-- Adding an interval without elements of the container. -/
theorem add_apart {t : Tree I} (ht : t.Ok) (hw : WF o setSeg t.segs) {k : I}
    (hd : ∀ x, Dom o setSeg t.segs x → ¬ o.Mem x k) : Within t (add o .splitting 0 k) ⟨3, 3, 20, 0, 4⟩ := by
  cases hk : o.isEmpty k with
  | true =>
    unfold Cost.Sets.add
    exact .pos hk (((Cost.Costs.pure _).within _).mono (by simp [Cost.Le]))
  | false =>
    obtain ⟨A, C, he⟩ := overlapped_none h hw hk hd
    obtain ⟨l, el, -⟩ := ISet.add_spec h .splitting hw k
    exact add_within h ht el 0 he

theorem flipLoop_splits [DecidableEq I] (C : List (Nat × I)) : ∀ (n : Nat) (M : List (Nat × I)) {t : Tree I}
    {Q : List (Nat × I)} {span span' : I} {l : List I}, t.Ok → t.nodes = Q ++ (M ++ C) → WF o setSeg t.segs →
    M.length < n → (∀ x, Dom o setSeg t.segs x → o.Mem x span → ∃ n ∈ M, o.Mem x n.2) →
    ICL.ISet.flipLoop o .splitting (Tree.snds C) t.segs span (Tree.snds M) = some (l, span') →
    ∃ t', Took (flipLoop o .splitting (Tree.hd C) n span (Tree.hd (M ++ C))) t span' t'
        (times M.length { searches := 7, hinted := 3, steps := 28, allocated := 6 }) ∧
      Tree.Sets.flipLoop o .splitting (Tree.hd C) n span (Tree.hd (M ++ C)) t = some (span', t') ∧
      t'.Ok ∧ t'.segs = l ∧ WF o setSeg l ∧ ∀ x, Dom o setSeg l x → ¬ o.Mem x span'
  | 0, _, _, _, _, _, _, _, _, _, hn, _, _ => by omega
  | n + 1, [], t, Q, span, span', l, ht, e, hw, hn, ha, hl => by
    have hl' : (t.segs, span) = (l, span') := by simpa [ICL.ISet.flipLoop] using hl
    simp only [Prod.mk.injEq] at hl'
    obtain ⟨rfl, rfl⟩ := hl'
    refine ⟨t, ?_, by simp [Tree.Sets.flipLoop], ht, rfl, hw, fun x hx hk => by simpa using ha x hx hk⟩
    rw [flipLoop, List.nil_append, if_pos rfl]
    exact (took_pure span t).mono (by work)
  | n + 1, m :: M, t, Q, span, span', l, ht, e, hw, hn, hap, hl => by
    have ha : Tree.At t Q.reverse m.1 m.2 (M ++ C) := ⟨ht, by rw [e]; simp⟩
    have hne := Tree.hd_ne ht e
    simp only [Tree.snds, List.map_cons, ICL.ISet.flipLoop] at hl
    obtain ⟨l1, h1, hl⟩ := Option.bind_eq_some_iff.1 hl
    obtain ⟨l2, h2, hl⟩ := Option.bind_eq_some_iff.1 hl
    have hwn := Tree.wf_node.2 hw
    rw [e] at hwn
    have hwm := wf_cons.1 (wf_append.1 hwn).2.1
    have hZ : ∀ n ∈ M ++ C, n ∈ t.nodes := fun n hn => by
      rw [e]; simp only [List.cons_append, List.mem_append, List.mem_cons] at hn ⊢; tauto
    obtain ⟨w, hwm0⟩ := hwm.1
    have hb : ∀ n ∈ M ++ C, o.Before m.2 n.2 := fun n hn x y hx hy => hwm.2.2 x y hx ⟨n, hn, hy⟩
    have hlo := h.mem_rightSubtract span m.2
    obtain ⟨_, h1', sp1⟩ := ISet.subtract_spec h hw (o.inter span m.2)
    rw [h1] at h1'
    obtain rfl := Option.some.inj h1'
    obtain ⟨t1, r1, o1, s1, -⟩ := Tree.Sets.subtract_run ht h1
    have k1 : ∀ n ∈ M ++ C, n ∈ t1.nodes := fun n hn => Tree.Sets.subtract_keeps h ht hw r1 (hZ n hn) fun x hx hk =>
      lt_irrefl _ (hb n hn x x ((h.mem_inter _ _ _).1 hk).2 hx)
    rw [← s1] at h2 sp1
    have hw1 := sp1.wf
    have hap1 : ∀ x, Dom o setSeg t1.segs x → ¬ o.Mem x (o.rightSubtract span m.2) := by
      intro x hx hk
      obtain ⟨n, hn, hxn⟩ := hap x ((sp1.dom x).1 hx).1 ((hlo x).1 hk).1
      have hlt := ((hlo x).1 hk).2 w hwm0
      rcases List.mem_cons.1 hn with rfl | hn
      · exact lt_irrefl _ (((hlo x).1 hk).2 x hxn)
      · exact lt_irrefl _ (lt_trans hlt (hb n (by simp [hn]) w x hwm0 hxn))
    obtain ⟨_, h2', sp2⟩ := ISet.add_spec h .splitting hw1 (o.rightSubtract span m.2)
    rw [h2] at h2'
    obtain rfl := Option.some.inj h2'
    obtain ⟨it, t2, r2, o2, s2, -, -, q2⟩ := Tree.Sets.add_added h (st := .splitting) o1 hw1 (o.rightSubtract span m.2) 0
    rw [h2] at s2
    replace s2 := (Option.some.inj s2).symm
    have c1 := (costs_Sets_subtract (o := o) (o.inter span m.2)).took r1
    have c2 := (add_apart h o1 hw1 hap1).took (erases_add _ _ _) r2
    split at hl
    · rename_i hsf
      have hsf : Tree.snds (M ++ C) <:+ t2.segs := by
        rw [s2]; rw [List.isSuffixOf_iff_suffix] at hsf; simpa [Tree.snds] using hsf
      have k2 : ∀ n ∈ M ++ C, n ∈ t2.nodes := fun n hn => q2.keeps h hw1 (by rw [s2]; exact sp2.wf) (k1 n hn)
        (fun x hx hk => lt_irrefl _ (lt_trans (((h.mem_rightSubtract _ _ _).1 hk).2 w hwm0) (hb n hn w x hwm0 hx)))
        fun _ => hsf.subset (List.mem_map_of_mem hn)
      rw [← s2] at sp2
      have hw2 := sp2.wf
      obtain ⟨Q', hQ'⟩ := Tree.suffix_nodes (o := o) (g := setSeg) hw2 hsf k2
      rw [← s2] at hl
      have hap2 : ∀ x, Dom o setSeg t2.segs x → o.Mem x (o.leftSubtract span m.2) → ∃ n ∈ M, o.Mem x n.2 := by
        intro x hx hk
        have hk := (h.mem_leftSubtract _ _ _).1 hk
        rcases (sp2.dom x).1 hx with hx | hx
        · obtain ⟨n, hn, hxn⟩ := hap x ((sp1.dom x).1 hx).1 hk.1
          rcases List.mem_cons.1 hn with rfl | hn
          · exact absurd (hk.2 x hxn) (lt_irrefl _)
          · exact ⟨n, hn, hxn⟩
        · exact absurd (lt_trans (((hlo x).1 hx).2 w hwm0) (hk.2 w hwm0)) (lt_irrefl _)
      obtain ⟨t3, c3, r3, o3, s3, w3, a3⟩ := flipLoop_splits C n M o2 hQ' hw2 (by simp at hn; omega) hap2 hl
      refine ⟨t3, ?_, ?_, o3, s3, w3, a3⟩
      · rw [flipLoop, List.cons_append, Tree.hd_cons, if_neg (by simpa using hne)]
        refine (((costs_deref _).took ha.deref).bind (((costs_next _).took ha.next).bind
          (c1.bind (f := fun _ => _) (c2.bind c3)))).mono ?_
        simp only [List.length_cons, Le, times, add_searches, add_hinted, add_steps, add_allocated, Nat.add_mul]
        omega
      · rw [Tree.Sets.flipLoop, if_neg hne, List.cons_append, Tree.hd_cons, Tree.run_bind ha.deref, Tree.run_bind ha.next,
          Tree.run_bind r1, Tree.run_bind r2]
        exact r3
    · simp at hl

/-- `flip(segment)` of a `split_interval_set`. -/
theorem flipSeg_splits [DecidableEq I] {t : Tree I} (ht : t.Ok) (hw : WF o setSeg t.segs) {k : I} (hk : o.Nonempty k)
    {l : List I} (hl : ICL.ISet.flipSeg o .splitting t.segs k = some l) {A B C : List (Nat × I)}
    (he : ICL.equalRange o (Tree.nodeSeg setSeg) t.nodes k = some (A, B, C)) :
    ∃ t', Took (flipSeg o .splitting k) t () t'
        ⟨7 * B.length + 4, 3 * B.length + 3, 28 * B.length + 20, 0, 6 * B.length + 4⟩ ∧
      Tree.Sets.flipSeg o .splitting k t = some ((), t') := by
  obtain ⟨⟨a, b, c⟩, h1, hl⟩ := Option.bind_eq_some_iff.1 hl
  obtain ⟨⟨l1, span⟩, h2, hl⟩ := Option.bind_eq_some_iff.1 hl
  obtain ⟨A', B', C', he', e, rfl, rfl, rfl⟩ := Tree.equalRange_node h1
  obtain ⟨rfl, rfl, rfl⟩ : A' = A ∧ B' = B ∧ C' = C := by rw [he] at he'; simpa [eq_comm] using he'
  have hap := range_covers h hw hk he
  obtain ⟨t1, c1, r1, o1, s1, w1, a1⟩ := flipLoop_splits h C' (t.nodes.length + 1) B' ht e hw
    (by rw [e]; simp; omega) hap h2
  subst s1
  obtain ⟨it, t2, r2, o2, s2, -⟩ := Tree.Sets.add_run h o1 hl 0
  refine ⟨t2, ?_, ?_⟩
  · unfold flipSeg
    apply Took.mono
    · exact ((costs_equalRange k).took (Tree.equalRange_run he)).bind ((took_get t).bind (c1.bind
        (((add_apart h o1 w1 a1).took (erases_add _ _ _) r2).bind (took_pure () t2))))
    · work
  · unfold Tree.Sets.flipSeg
    rw [Tree.run_bind (Tree.equalRange_run he)]
    dsimp only
    rw [Tree.run_bind (Tree.run_get t), Tree.run_bind r1, Tree.run_bind r2]
    rfl

/-- `^=` of `split_interval_set`s, segment by segment. -/
theorem flipSet_splits [DecidableEq I] (oracle : List I → I → Nat) {t : Tree I} (ht : t.Ok) (hw : WF o setSeg t.segs)
    {r : List I} (hr : WF o setSeg r) :
    ∃ t', Took (flipSet o .splitting oracle r) t () t'
        ⟨14 * t.nodes.length + 11 * r.length + 2, 6 * t.nodes.length + 6 * r.length,
          56 * t.nodes.length + 48 * r.length + 4, 0, 12 * t.nodes.length + 10 * r.length⟩ ∧
      ISet.flipSet o .splitting oracle t.segs r = some t'.segs := by
  obtain ⟨cr, e1, k0, h3⟩ := common_took h hr hw t
  unfold flipSet ISet.flipSet
  rw [e1]
  cases cr with
  | none =>
    obtain ⟨l, el, -⟩ := ISet.addSet_spec h .splitting oracle hw r
    obtain ⟨t', r1, -, rfl⟩ := Tree.Sets.addSet_run h .splitting oracle ht el
    obtain ⟨t2, k1, r2⟩ := addSet_took h oracle ht hw hr
    obtain rfl : t2 = t' := by rw [r1] at r2; simpa [eq_comm] using r2
    refine ⟨t2, ((took_get t).bind (k0.bind k1)).mono ?_, el⟩
    simp only [Le, add_searches, add_hinted, add_steps, add_allocated]
    omega
  | some abc =>
    obtain ⟨a, b, c⟩ := abc
    obtain ⟨hb, hbr, hwb, habc⟩ := h3 a b c rfl
    have hlen : a.length + b.length + c.length = r.length := by
      have := congrArg List.length habc
      simp only [List.length_append] at this
      omega
    let Inv : It → Tree I → Prop := fun _ t1 => t1.Ok ∧ WF o setSeg t1.segs ∧ Fits o setSeg (t.segs ++ r) t1.segs
    have hB : ∀ x ∈ r, ∀ t1 : Tree I, WF o setSeg t1.segs → Fits o setSeg (t.segs ++ r) t1.segs →
        ∃ A B C, ICL.equalRange o (Tree.nodeSeg setSeg) t1.nodes x = some (A, B, C) ∧ B.length ≤ inside o t.segs x + 1 := by
      intro x hxr t1 w1 f1
      obtain ⟨A, B, C, he, hB⟩ := overlapped_range h w1 (hr.nonempty x hxr)
      simp only [setSeg, List.map_id, id] at hB
      have hin := overlapped_le_inside w1 (f1.borders h) hr hxr
      rw [← hB] at hin
      exact ⟨A, B, C, he, hin⟩
    have hadd : ∀ (s : List I), (∀ x ∈ s, x ∈ r) → ∀ x ∈ s, ∀ (p : It) t1, Inv p t1 → ∃ p' t', Took (do
        let _ ← add o .splitting 0 x
        return none) t1 p' t' (times (inside o t.segs x) ⟨0, 1, 5, 0, 1⟩ + ⟨3, 4, 25, 0, 5⟩) ∧
        ISet.add o .splitting t1.segs x = some t'.segs ∧ Inv p' t' := by
      rintro s hs x hx p t1 ⟨o1, w1, f1⟩
      obtain ⟨A, B, C, he, hin⟩ := hB x (hs x hx) t1 w1 f1
      obtain ⟨l, el, sp⟩ := ISet.add_spec h .splitting w1 x
      obtain ⟨it, t', r1, o2, rfl, -⟩ := Tree.Sets.add_run h o1 el 0
      refine ⟨none, t', ((((add_within h o1 el 0 he).took (erases_add _ _ _) r1).bind (took_pure none t'))).mono ?_, el, o2,
        sp.wf, sp.fits h w1 (by simp) f1 (respects_of_mem (by simp [hs x hx]))⟩
      simp only [Le, times, add_searches, add_hinted, add_steps, add_allocated]
      omega
    have hflip : ∀ x ∈ b, ∀ (p : It) t1, Inv p t1 → ∃ p' t', Took (do
        flipSeg o .splitting x
        return none) t1 p' t' (times (inside o t.segs x) ⟨7, 3, 28, 0, 6⟩ + ⟨11, 6, 48, 0, 10⟩) ∧
        ISet.flipSeg o .splitting t1.segs x = some t'.segs ∧ Inv p' t' := by
      rintro x hx p t1 ⟨o1, w1, f1⟩
      have hxr := hbr x hx
      have hn : o.Nonempty x := hr.nonempty x hxr
      obtain ⟨A, B, C, he, hin⟩ := hB x hxr t1 w1 f1
      obtain ⟨l, el, sp⟩ := ISet.flipSeg_spec h .splitting w1 hn
      obtain ⟨t', k1, r1⟩ := flipSeg_splits h o1 w1 hn el he
      obtain ⟨t2, r2, o2, rfl⟩ := Tree.Sets.flipSeg_run h .splitting o1 w1 el
      obtain rfl : t2 = t' := by rw [r1] at r2; simpa [eq_comm] using r2
      refine ⟨none, t2, (k1.bind (took_pure none t2)).mono ?_, el, o2, sp.wf,
        sp.fits h (by simp) f1 (respects_of_mem (by simp [hxr]))⟩
      simp only [Le, times, add_searches, add_hinted, add_steps, add_allocated]
      omega
    obtain ⟨p1, t1, k1, r1, i1⟩ := chain_leaves (Inv := Inv) (p := none) (t := t)
      (hadd a fun x hx => by rw [habc]; simp [hx])
      ⟨ht, hw, fits_of_subset (by simp +contextual)⟩
    obtain ⟨p2, t2, k2, r2, i2⟩ := chain_leaves (Inv := Inv) (p := none) (t := t1) hflip i1
    obtain ⟨p3, t3, k3, r3, i3⟩ := chain_leaves (Inv := Inv) (p := none) (t := t2)
      (hadd c fun x hx => by rw [habc]; simp [hx]) i2
    have hs := sum_inside_le (K := t.segs) hr
    rw [habc] at hs
    simp only [List.map_append, List.sum_append] at hs
    have hl : t.segs.length = t.nodes.length := by simp [Tree.segs]
    refine ⟨t3, ((took_get t).bind (k0.bind (k1.bind (k2.bind (k3.bind (took_pure () t3)))))).mono ?_, ?_⟩
    · simp only [Le, times, add_searches, add_hinted, add_steps, add_allocated]
      omega
    · simp only [Tree.fold_forEach, Option.bind_eq_bind, Option.bind_some]
      rw [r1, Option.bind_some, r2, Option.bind_some, r3]

end
end Sets

section
variable {S T α β : Type}

/-- Like `Took`, with `d` nodes in other containers before, and `d'` afterwards. -/
def Held (m : CostM S α) (t : Tree S) (a : α) (t' : Tree S) (b : Work) (d d' : Nat) : Prop :=
  ∃ w, m t = some ((a, t'), w) ∧ Le w b ∧ t'.nodes.length + d' + w.erased = t.nodes.length + d + w.allocated

theorem Took.held {m : CostM S α} {t t' : Tree S} {a : α} {b : Work} (hm : Took m t a t' b) (d : Nat) :
    Held m t a t' b d d := by
  obtain ⟨w, e, l, c⟩ := hm
  exact ⟨w, e, l, by unfold Balance at c; omega⟩

theorem Held.took {m : CostM S α} {t t' : Tree S} {a : α} {b : Work} {d : Nat} (hm : Held m t a t' b d d) :
    Took m t a t' b := by
  obtain ⟨w, e, l, c⟩ := hm
  exact ⟨w, e, l, by unfold Balance; omega⟩

theorem Held.mono {m : CostM S α} {t t' : Tree S} {a : α} {b b' : Work} {d d' : Nat} (hm : Held m t a t' b d d')
    (hb : Le b b') : Held m t a t' b' d d' := by
  obtain ⟨w, e, l, c⟩ := hm
  exact ⟨w, e, l.trans hb, c⟩

theorem Held.bind {m : CostM S α} {f : α → CostM S β} {t t1 t2 : Tree S} {a : α} {c : β} {b b' : Work} {d d1 d2 : Nat}
    (h1 : Held m t a t1 b d d1) (h2 : Held (f a) t1 c t2 b' d1 d2) : Held (m >>= f) t c t2 (b + b') d d2 := by
  obtain ⟨w1, e1, l1, c1⟩ := h1
  obtain ⟨w2, e2, l2, c2⟩ := h2
  refine ⟨w1 + w2, by rw [run_bind e1, e2]; rfl, l1.add l2, ?_⟩
  simp only [add_erased, add_allocated]
  omega

theorem held_aside {m : CostM T α} {c c' : Tree T} {a : α} {b : Work} (hm : Took m c a c' b) (t : Tree S) (d : Nat) :
    Held (aside m c) t (a, c') t b (c.nodes.length + d) (c'.nodes.length + d) := by
  obtain ⟨w, e, l, k⟩ := hm
  exact ⟨w, by unfold aside; rw [e]; rfl, l, by unfold Balance at k; omega⟩

theorem held_destroy (c : Tree T) (t : Tree S) (d : Nat) :
    Held (destroy c) t () t {} (c.nodes.length + d) d :=
  ⟨{ erased := c.nodes.length }, rfl, by simp [Le], by dsimp only; omega⟩

/-- There are no more nodes than before and allocated. -/
theorem Took.grown {m : CostM S α} {t t' : Tree S} {a : α} {b : Work} (hm : Took m t a t' b) :
    t'.nodes.length ≤ t.nodes.length + b.allocated := by
  obtain ⟨w, -, ⟨-, -, -, l⟩, c⟩ := hm
  unfold Balance at c
  omega

end

namespace Maps
section
variable {D I V : Type} [LinearOrder D] {o : IntervalOps D I} [DecidableEq V] (h : o.Lawful) (m : MapType V)
include h

/-- Adding a segment where the map has no elements. -/
theorem addC_apart (c : MapCfg V) (f : Combiner V) {t : Tree (I × V)} (ht : t.Ok) (hw : WF o mapSeg t.segs) {k : I} (v : V)
    (hd : ∀ x, Dom o mapSeg t.segs x → ¬ o.Mem x k) :
    ∃ it t', Took (addC o c f 0 k v) t it t' ⟨1, 0, 17, 0, 1⟩ ∧ Tree.Maps.addC o c f 0 k v t = some (it, t') ∧
      IMap.addC o c f t.segs k v = some t'.segs ∧ t'.Ok ∧ WF o mapSeg t'.segs ∧
      (∀ x, Dom o mapSeg t'.segs x → Dom o mapSeg t.segs x ∨ o.Mem x k) := by
  obtain ⟨l, el, w, -, hv⟩ := IMap.addC_at h c f hw k v
  obtain ⟨it, t', r, o1, rfl, -⟩ := Tree.Maps.addC_run h ht el 0
  have hk : Within t (addC o c f 0 k v) ⟨1, 0, 17, 0, 1⟩ := by
    unfold addC
    by_cases h1 : o.isEmpty k = true
    · exact .pos h1 (((Costs.pure _).within t).mono (by work))
    refine .neg h1 ?_
    by_cases h2 : IMap.absorbable c v = true
    · exact .pos h2 (((Costs.pure _).within t).mono (by work))
    refine .neg h2 ?_
    obtain ⟨A, C, he⟩ := overlapped_none h hw (by simpa using h1) hd
    obtain ⟨e, -⟩ := Tree.nodeRange h (g := mapSeg) hw (by simpa using h1) he
    obtain ⟨t1, r1, a1, f1⟩ := Tree.insert_new ht (g := mapSeg) (s := (k, f.version v)) (by simpa using e) he 0
    apply Within.mono
    · exact ((costs_insert 0 _).took r1).bindW (.pos rfl ((costs_Maps_handleInserted _ _).within _))
    · work
  refine ⟨it, t', hk.took (erases_addC _) r, r, el, o1, w, fun x hx => ?_⟩
  by_contra hc
  rw [not_or] at hc
  have h1 := hv x
  unfold IMap.on at h1
  rw [if_neg (show ¬ o.contains k x = true from hc.2), valueAt_none.2 hc.1] at h1
  exact valueAt_none.1 h1 hx

/-- The same with a hint. -/
theorem addWith_apart (oracle : List (I × V) → I → Nat) {t : Tree (I × V)} (ht : t.Ok) (hw : WF o mapSeg t.segs) {p : It}
    (hp : t.Valid p) (s : I × V) (hd : ∀ x, Dom o mapSeg t.segs x → ¬ o.Mem x s.1) :
    ∃ it t', Took (addWith o m oracle p s) t it t' ⟨0, 1, 19, 0, 1⟩ ∧
      IMap.addHintC o m.cfg m.plus (oracle t.segs s.1) t.segs s.1 s.2 = some t'.segs ∧ t'.Ok ∧ WF o mapSeg t'.segs ∧
      t'.Valid it ∧ (∀ x, Dom o mapSeg t'.segs x → Dom o mapSeg t.segs x ∨ o.Mem x s.1) := by
  obtain ⟨l, el, u1, u2⟩ := IMap.addHintC_gen h m.cfg m.plus (oracle t.segs s.1) hw s.1 s.2
  have hu : WF o mapSeg l ∧ ∀ x, Dom o mapSeg l x → Dom o mapSeg t.segs x ∨ o.Mem x s.1 := by
    cases ha : IMap.absorbable m.cfg s.2 with
    | true => obtain rfl := u1 ha; exact ⟨hw, fun x hx => .inl hx⟩
    | false =>
      obtain ⟨up, u, sp, -⟩ := u2 ha
      refine ⟨sp.wf, fun x hx => ?_⟩
      obtain ⟨w, hx⟩ := dom_iff_joint.1 hx
      rcases (sp.joint x x w (dg_self _ _)).1 hx with ⟨h1, -⟩ | ⟨-, h1⟩
      · exact .inr h1
      · exact .inl (dom_iff_joint.2 ⟨w, h1⟩)
  obtain ⟨it, t', r, o1, rfl, q⟩ := Tree.Maps.addHintC_run h ht el hp
  have hk : Within t (addHintC o m.cfg m.plus (oracle t.segs s.1) p s.1 s.2) ⟨0, 1, 19, 0, 1⟩ := by
    unfold addHintC
    by_cases h1 : o.isEmpty s.1 = true
    · exact .pos h1 (((Costs.pure _).within t).mono (by work))
    refine .neg h1 ?_
    by_cases h2 : IMap.absorbable m.cfg s.2 = true
    · exact .pos h2 (((Costs.pure _).within t).mono (by work))
    refine .neg h2 ?_
    obtain ⟨A, C, he⟩ := overlapped_none h hw (by simpa using h1) hd
    obtain ⟨e, -⟩ := Tree.nodeRange h (g := mapSeg) hw (by simpa using h1) he
    obtain ⟨t1, r1, a1, f1⟩ := Tree.insert_new ht (g := mapSeg) (s := (s.1, m.cfg.ident)) (by simpa using e) he
      (oracle t.segs s.1)
    have r1' : Tree.insertHint o mapSeg (oracle t.segs s.1) p (s.1, m.cfg.ident) t = some (some t.fresh, t1) := by
      simp only [Tree.insertHint, if_pos hp, r1, Option.map_some]
    have hkk : o.eq s.1 s.1 = true := Tree.Sets.eq_self h (by simpa using h1)
    obtain ⟨t2, r2, a2, f2⟩ := Tree.Maps.combine_at (f := m.plus) (v := s.2) a1
    have r3 : Tree.Maps.addAt o m.cfg m.plus (oracle t.segs s.1) p s.1 s.2 t = some ((some t.fresh, true), t2) := by
      unfold Tree.Maps.addAt
      rw [Tree.run_bind r1', Tree.run_bind a1.deref, if_pos (by simp [hkk]), Tree.run_bind r2]
      rfl
    apply Within.mono
    · exact ((costs_Maps_addAt _ _ _ _ _ _).took r3).bindW (.pos rfl ((costs_Maps_handleInserted _ _).within _))
    · work
  refine ⟨it, t', ?_, el, o1, hu.1, q.1, hu.2⟩
  unfold addWith
  exact ((took_get t).bind (hk.took (erases_addHintC _ _) r)).mono (by work)

/-- Adding a map that has no elements in common with the object. -/
theorem addMap_apart (oracle : List (I × V) → I → Nat) : ∀ (r : List (I × V)) {t : Tree (I × V)} {p : It}, t.Ok →
    WF o mapSeg t.segs → t.Valid p → WF o mapSeg r → (∀ x, Dom o mapSeg t.segs x → ¬ Dom o mapSeg r x) →
    ∃ it t', Took (chain (addWith o m oracle) p r) t it t' (times r.length ⟨0, 1, 19, 0, 1⟩) ∧
      IMap.addMap o m oracle t.segs r = some t'.segs ∧ t'.Ok
  | [], t, p, ht, _, _, _, _ => ⟨p, t, (took_pure p t).mono (by work), rfl, ht⟩
  | s :: r, t, p, ht, hw, hp, hr, hd => by
    have hr' := wf_cons.1 hr
    obtain ⟨it, t1, k1, r1, o1, w1, p1, d1⟩ := addWith_apart h m oracle ht hw hp s fun x hx hk =>
      hd x hx ((dom_cons _ _ _).2 (.inl hk))
    obtain ⟨it2, t2, k2, r2, o2⟩ := addMap_apart oracle r o1 w1 p1 hr'.2.1 (by
      intro x hx hxr
      rcases d1 x hx with hx | hx
      · exact hd x hx ((dom_cons _ _ _).2 (.inr hxr))
      · exact lt_irrefl _ (hr'.2.2 x x hx hxr))
    refine ⟨it2, t2, (k1.bind k2).mono ?_, ?_, o2⟩
    · simp only [Le, times, add_searches, add_hinted, add_steps, add_allocated, List.length_cons, Nat.add_mul, Nat.one_mul]
      omega
    · unfold IMap.addMap at r2 ⊢
      simp only [forEach]
      rw [show IMap.addHint o m (oracle t.segs s.1) t.segs s.1 s.2 = some t1.segs from r1]
      exact r2

theorem flipCommon_took (v u : V) (k : I) (t : Tree (I × V)) {er : Tree I} {ins : Tree (I × V)} (he : er.Ok) (hi : ins.Ok)
    (we : WF o setSeg er.segs) (wi : WF o mapSeg ins.segs) (hd : ∀ x, Dom o mapSeg ins.segs x → ¬ o.Mem x k)
    (hs : ∀ x, Dom o mapSeg ins.segs x → Dom o setSeg er.segs x) (d : Nat) :
    ∃ er' ins', Held (flipCommon o m v k u er ins) t (er', ins') t ⟨5, 0, 40, 0, 2⟩ (er.nodes.length + ins.nodes.length)
        (er'.nodes.length + ins'.nodes.length) ∧
      IMap.flipCommon o m v k u er.segs ins.segs = some (er'.segs, ins'.segs) ∧ er'.Ok ∧ ins'.Ok ∧
      WF o setSeg er'.segs ∧ WF o mapSeg ins'.segs ∧ (∀ x, Dom o mapSeg ins'.segs x → Dom o setSeg er'.segs x) ∧
      (∀ x, Dom o mapSeg ins'.segs x → Dom o mapSeg ins.segs x ∨ o.Mem x k) ∧
      er'.nodes.length ≤ er.nodes.length + 1 ∧ ins'.nodes.length ≤ ins.nodes.length + 1 := by
  unfold flipCommon IMap.flipCommon
  by_cases hk : o.isEmpty k = true
  · rw [if_pos hk, if_pos hk]
    exact ⟨er, ins, ((took_pure (er, ins) t).held _).mono (by work), rfl, he, hi, we, wi, hs, fun x hx => .inl hx,
      by omega, by omega⟩
  · rw [if_neg hk, if_neg hk]
    obtain ⟨l, el, sp⟩ := ISet.add_spec h .joining we k
    obtain ⟨it, er', r1, o1, rfl, -⟩ := Tree.Sets.add_run h he el 0
    have k1 := (costs_Sets_add (by decide : Style.joining ≠ .splitting) 0 k).took r1
    obtain ⟨it', ins', k2, -, r2, o2, w2, d2⟩ := addC_apart h m.cfg m.plus hi wi (IMap.flipValue m v u) hd
    refine ⟨er', ins', ?_, ?_, o1, o2, sp.wf, w2, ?_, d2, k1.grown, k2.grown⟩
    · have a1 := held_aside k1 t ins.nodes.length
      have a2 := held_aside k2 t er'.nodes.length
      rw [Nat.add_comm ins.nodes.length, Nat.add_comm ins'.nodes.length] at a2
      exact (a1.bind (a2.bind ((took_pure (er', ins') t).held _))).mono (by work)
    · rw [el]
      simp only [Option.bind_eq_bind, Option.bind_some]
      rw [r2]
      rfl
    · intro x hx
      rw [sp.dom]
      exact (d2 x hx).imp_left (hs x)

theorem flipLoop_took [DecidableEq I] (v : V) (C : List (Nat × I × V)) : ∀ (n : Nat) (M : List (Nat × I × V))
    {t : Tree (I × V)} {Q : List (Nat × I × V)} {span span' : I} {er : Tree I} {ins : Tree (I × V)} {er' : List I}
    {ins' l : List (I × V)}, t.Ok → er.Ok → ins.Ok → t.nodes = Q ++ (M ++ C) → WF o mapSeg t.segs → WF o setSeg er.segs →
    WF o mapSeg ins.segs → M.length < n → (∀ x, Dom o mapSeg t.segs x → o.Mem x span → ∃ n ∈ M, o.Mem x n.2.1) →
    (∀ x, Dom o mapSeg ins.segs x → Dom o setSeg er.segs x) → (∀ x, Dom o mapSeg ins.segs x → ¬ o.Mem x span) →
    IMap.flipLoop o m v (Tree.snds C) t.segs span er.segs ins.segs (Tree.snds M) = some (l, span', er', ins') →
    ∃ t' erT insT, Held (flipLoop o m v (Tree.hd C) n span (Tree.hd (M ++ C)) er ins) t (span', erT, insT) t'
        (times M.length { searches := 6, steps := 59, allocated := 3 }) (er.nodes.length + ins.nodes.length)
        (erT.nodes.length + insT.nodes.length) ∧
      t'.Ok ∧ t'.segs = l ∧ erT.segs = er' ∧ insT.segs = ins' ∧ WF o mapSeg l ∧ WF o setSeg er' ∧ WF o mapSeg ins' ∧
      (∀ x, Dom o mapSeg ins' x → Dom o setSeg er' x) ∧ (∀ x, Dom o mapSeg l x → ¬ o.Mem x span') ∧
      erT.nodes.length ≤ er.nodes.length + M.length ∧ insT.nodes.length ≤ ins.nodes.length + M.length
  | 0, _, _, _, _, _, _, _, _, _, _, _, _, _, _, _, _, _, hn, _, _, _, _ => by omega
  | n + 1, [], t, Q, span, span', er, ins, er', ins', l, ht, he, hi, e, hw, we, wi, hn, ha, hs, hd, hl => by
    have hl' : (t.segs, span, er.segs, ins.segs) = (l, span', er', ins') := by simpa [IMap.flipLoop] using hl
    simp only [Prod.mk.injEq] at hl'
    obtain ⟨rfl, rfl, rfl, rfl⟩ := hl'
    refine ⟨t, er, ins, ?_, ht, rfl, rfl, rfl, hw, we, wi, hs, fun x hx hk => by simpa using ha x hx hk, by simp, by simp⟩
    rw [flipLoop, List.nil_append, if_pos rfl]
    exact ((took_pure (span, er, ins) t).held _).mono (by work)
  | n + 1, q :: M, t, Q, span, span', er, ins, er', ins', l, ht, he, hi, e, hw, we, wi, hn, hap, hs, hd, hl => by
    have ha : Tree.At t Q.reverse q.1 q.2 (M ++ C) := ⟨ht, by rw [e]; simp⟩
    have hne := Tree.hd_ne ht e
    simp only [Tree.snds, List.map_cons, IMap.flipLoop] at hl
    obtain ⟨⟨er1, ins1⟩, h1, hl⟩ := Option.bind_eq_some_iff.1 hl
    obtain ⟨l2, h2, hl⟩ := Option.bind_eq_some_iff.1 hl
    have hwn := Tree.wf_node.2 hw
    rw [e] at hwn
    have hwm := wf_cons.1 (wf_append.1 hwn).2.1
    obtain ⟨w, hwm0⟩ := hwm.1
    have hb : ∀ n ∈ M ++ C, o.Before q.2.1 n.2.1 := fun n hn x y hx hy => hwm.2.2 x y hx ⟨n, hn, hy⟩
    have hlo := h.mem_rightSubtract span q.2.1
    have hap1 : ∀ x, Dom o mapSeg t.segs x → ¬ o.Mem x (o.rightSubtract span q.2.1) := by
      intro x hx hk
      obtain ⟨n, hn, hxn⟩ := hap x hx ((hlo x).1 hk).1
      have hlt := ((hlo x).1 hk).2 w hwm0
      rcases List.mem_cons.1 hn with rfl | hn
      · exact lt_irrefl _ (((hlo x).1 hk).2 x hxn)
      · exact lt_irrefl _ (lt_trans hlt (hb n (by simp [hn]) w x hwm0 hxn))
    obtain ⟨erT, insT, k1, r1, e1, i1, we1, wi1, hs1, hd1, le1, li1⟩ := flipCommon_took h m v q.2.2 (o.inter span q.2.1) t
      he hi we wi (fun x hx hk => hd x hx ((h.mem_inter _ _ _).1 hk).1) hs 0
    rw [r1] at h1
    simp only [Option.some.injEq, Prod.mk.injEq] at h1
    obtain ⟨rfl, rfl⟩ := h1
    obtain ⟨it, t2, k2, r2, s2, o2, w2, d2⟩ := addC_apart h m.cfg m.plus ht hw v hap1
    unfold IMap.addSeg at h2
    rw [s2] at h2
    obtain rfl := Option.some.inj h2
    obtain ⟨it', t2', r2', -, -, q2⟩ := Tree.Maps.addC_run h ht s2 0
    obtain ⟨rfl, rfl⟩ : it' = it ∧ t2' = t2 := by rw [r2] at r2'; simpa [eq_comm] using r2'
    split at hl
    · rename_i hsf
      have hsf : Tree.snds (M ++ C) <:+ t2'.segs := by
        rw [List.isSuffixOf_iff_suffix] at hsf; simpa [Tree.snds] using hsf
      have hk2 : ∀ n ∈ M ++ C, n ∈ t2'.nodes := fun n hn => q2.keeps h hw
        (by rw [e]; simp only [List.cons_append, List.mem_append, List.mem_cons] at hn ⊢; tauto)
        (fun x hx hk => lt_irrefl _ (lt_trans (((hlo x).1 hk).2 w hwm0) (hb n hn w x hwm0 hx)))
        (fun _ => ⟨q.2, by rw [Tree.segs, e]; simp, .inr ⟨fun x y hx hy => ((hlo x).1 hx).2 y hy, hb n hn⟩⟩)
      obtain ⟨Q', hQ'⟩ := Tree.suffix_nodes (o := o) (g := mapSeg) w2 hsf hk2
      have hap2 : ∀ x, Dom o mapSeg t2'.segs x → o.Mem x (o.leftSubtract span q.2.1) → ∃ n ∈ M, o.Mem x n.2.1 := by
        intro x hx hk
        have hk := (h.mem_leftSubtract _ _ _).1 hk
        rcases d2 x hx with hx | hx
        · obtain ⟨n, hn, hxn⟩ := hap x hx hk.1
          rcases List.mem_cons.1 hn with rfl | hn
          · exact absurd (hk.2 x hxn) (lt_irrefl _)
          · exact ⟨n, hn, hxn⟩
        · exact absurd (lt_trans (((hlo x).1 hx).2 w hwm0) (hk.2 w hwm0)) (lt_irrefl _)
      have hd2 : ∀ x, Dom o mapSeg insT.segs x → ¬ o.Mem x (o.leftSubtract span q.2.1) := by
        intro x hx hk
        have hk := (h.mem_leftSubtract _ _ _).1 hk
        rcases hd1 x hx with hx | hx
        · exact hd x hx hk.1
        · exact lt_irrefl _ (hk.2 x ((h.mem_inter _ _ _).1 hx).2)
      obtain ⟨t3, er3, ins3, k3, o3, s3, se3, si3, w3, we3, wi3, hs3, a3, le3, li3⟩ := flipLoop_took v C n M o2 e1 i1 hQ' w2
        we1 wi1 (by simp at hn; omega) hap2 hs1 hd2 hl
      refine ⟨t3, er3, ins3, ?_, o3, s3, se3, si3, w3, we3, wi3, hs3, a3, by simp only [List.length_cons]; omega,
        by simp only [List.length_cons]; omega⟩
      rw [flipLoop, List.cons_append, Tree.hd_cons, if_neg (by simpa using hne)]
      refine ((((costs_deref _).took ha.deref).held _).bind ((((costs_next _).took ha.next).held _).bind
        (k1.bind ((k2.held _).bind k3)))).mono ?_
      simp only [List.length_cons, Le, times, add_searches, add_hinted, add_steps, add_allocated, Nat.add_mul]
      omega
    · simp at hl

/-- `flip(segment)` on a partial map. -/
theorem flipSeg_took [DecidableEq I] (hm : m.cfg.total = false) (oracle : List (I × V) → I → Nat) {t : Tree (I × V)}
    (ht : t.Ok) (hw : WF o mapSeg t.segs) {k : I} (hk : o.Nonempty k) (v : V) {A B C : List (Nat × I × V)}
    (he : ICL.equalRange o (Tree.nodeSeg mapSeg) t.nodes k = some (A, B, C)) :
    ∃ t', Took (flipSeg o m oracle k v) t () t'
        ⟨8 * B.length + 4, 2 * B.length, 84 * B.length + 21, 0, 5 * B.length + 1⟩ ∧
      IMap.flipSeg o m oracle t.segs k v = some t'.segs ∧ t'.Ok := by
  obtain ⟨l, hl, -⟩ := IMap.flipSeg_pt h m hm oracle hw hk v
  have hf := hl
  unfold IMap.flipSeg at hl
  simp only [hm, Bool.false_eq_true, if_false] at hl
  obtain ⟨⟨a, b, c⟩, h1, hl⟩ := Option.bind_eq_some_iff.1 hl
  obtain ⟨⟨l1, span, er, ins⟩, h2, hl⟩ := Option.bind_eq_some_iff.1 hl
  obtain ⟨l2, h3, hl⟩ := Option.bind_eq_some_iff.1 hl
  obtain ⟨l3, h4, hl⟩ := Option.bind_eq_some_iff.1 hl
  dsimp only at h2 h3 h4 hl
  obtain ⟨A', B', C', he', e, rfl, rfl, rfl⟩ := Tree.equalRange_node h1
  obtain ⟨rfl, rfl, rfl⟩ : A' = A ∧ B' = B ∧ C' = C := by rw [he] at he'; simpa [eq_comm] using he'
  have hap := range_covers h hw hk he
  obtain ⟨t1, erT, insT, k1, o1, s1, se, si, w1, we, wi, hs, a1, le, li⟩ := flipLoop_took h m v C' (t.nodes.length + 1) B' ht
    (ok_nil 0) (ok_nil 0) (er := ⟨[], 0⟩) (ins := ⟨[], 0⟩) e hw wf_nil wf_nil (by rw [e]; simp; omega) hap
    (by simp [Tree.segs]) (by simp [Tree.segs]) h2
  subst s1 se si
  obtain ⟨it, t2, k2, -, s2, o2, w2, -⟩ := addC_apart h m.cfg m.plus o1 w1 v a1
  unfold IMap.addSeg at h3
  rw [s2] at h3
  obtain rfl := Option.some.inj h3
  obtain ⟨t3, k3, r3⟩ := eraseSet_took h o2 w2 m.cfg we
  obtain ⟨t3', r3', o3, s3⟩ := Tree.Maps.eraseSet_run h o2 h4
  obtain rfl : t3' = t3 := by rw [r3] at r3'; simpa [eq_comm] using r3'
  subst s3
  obtain ⟨l3', e3, w3, -, n3, -⟩ := ICL.eraseSet_at h m.cfg w2 we
  rw [h4] at e3
  obtain rfl := Option.some.inj e3
  obtain ⟨it', t4, k4, r4, o4⟩ := addMap_apart h m oracle insT.segs o3 w3 Tree.valid_none wi (by
    intro x hx hi
    exact valueAt_none.1 (n3 x (hs x hi)) hx)
  refine ⟨t4, ?_, by rw [hf, ← hl, r4], o4⟩
  have le' : erT.segs.length ≤ B'.length := by simpa [Tree.segs] using le
  have li' : insT.segs.length ≤ B'.length := by simpa [Tree.segs] using li
  unfold flipSeg
  rw [if_neg (by simp [hm])]
  have d1 := held_destroy insT t4 erT.nodes.length
  rw [Nat.add_comm] at d1
  have k5 : Took (addMap o m oracle insT.segs) t3' () t4 (times insT.segs.length ⟨0, 1, 19, 0, 1⟩ + {}) :=
    k4.bind (took_pure () t4)
  refine Took.mono (Held.took (d := 0) ((((costs_equalRange k).took (Tree.equalRange_run he)).held 0).bind
    (((took_get t).held 0).bind (k1.bind ((k2.held _).bind ((k3.held _).bind (f := fun _ => _)
      ((k5.held _).bind (f := fun _ => _) (d1.bind (f := fun _ => _) (held_destroy erT t4 0))))))))) ?_
  · simp only [Le, times, add_searches, add_hinted, add_steps, add_allocated]
    omega

/-- `^=` of partial maps, segment by segment. -/
theorem flipMap_took [DecidableEq I] (hm : m.cfg.total = false) (oracle : List (I × V) → I → Nat) {t : Tree (I × V)}
    (ht : t.Ok) (hw : WF o mapSeg t.segs) (hj : m.cfg.joining = true → Joined o mapSeg t.segs) {r : List (I × V)}
    (hr : WF o mapSeg r) :
    ∃ t', Took (flipMap o m oracle r) t () t'
        ⟨16 * t.nodes.length + 12 * r.length + 2, 4 * t.nodes.length + 5 * r.length,
          168 * t.nodes.length + 105 * r.length + 4, 0, 10 * t.nodes.length + 6 * r.length⟩ ∧
      IMap.flipMap o m oracle t.segs r = some t'.segs := by
  obtain ⟨cr, e1, -, h3⟩ := commonRange_spec h hr (wf_keys.2 hw)
  have k0 : Took (common (commonRange o mapSeg r (t.segs.map Prod.fst))) t cr t { searches := 2, steps := 4 } :=
    ⟨{ searches := 2, steps := 4 }, by rw [e1]; rfl, by decide, rfl⟩
  unfold flipMap IMap.flipMap
  rw [if_neg (by simp [hm]), if_neg (by simp [hm]), e1]
  cases cr with
  | none =>
    obtain ⟨l, el, -⟩ := IMap.addMap_pt h m oracle hw hr
    obtain ⟨t', r1, -, rfl⟩ := Tree.Maps.addMap_run h m oracle ht el
    obtain ⟨t2, k1, r2⟩ := addMap_took h m ht hw hj hr oracle
    obtain rfl : t2 = t' := by rw [r1] at r2; simpa [eq_comm] using r2
    refine ⟨t2, ((took_get t).bind (k0.bind k1)).mono ?_, el⟩
    simp only [Le, add_searches, add_hinted, add_steps, add_allocated]
    omega
  | some abc =>
    obtain ⟨a, b, c⟩ := abc
    obtain ⟨habc, -⟩ := h3 a b c rfl
    have hlen : a.length + b.length + c.length = r.length := by
      have := congrArg List.length habc
      simp only [List.length_append] at this
      omega
    let K := t.segs.map Prod.fst ++ r.map Prod.fst
    let Inv : It → Tree (I × V) → Prop := fun _ t1 => t1.Ok ∧ MFit o m.cfg K t1.segs
    let q : I × V → Nat := fun s => inside o (t.segs.map Prod.fst) s.1
    have hK : ∀ x ∈ r, Respects o K x.1 := fun x hx => respects_of_mem (by
      simp only [K, List.mem_append, List.mem_map]; exact .inr ⟨x, hx, rfl⟩)
    have hadd : ∀ (s : List (I × V)), (∀ x ∈ s, x ∈ r) → ∀ x ∈ s, ∀ (p : It) t1, Inv p t1 → ∃ p' t', Took (do
        let _ ← addC o m.cfg m.plus 0 x.1 x.2
        return none) t1 p' t' (times (q x) ⟨0, 1, 23, 0, 1⟩ + ⟨3, 4, 68, 0, 5⟩) ∧
        IMap.addSeg o m t1.segs x.1 x.2 = some t'.segs ∧ Inv p' t' := by
      rintro s hs x hx p t1 ⟨o1, f1⟩
      obtain ⟨A, B, C, he, hin⟩ := map_inside h hr (hs x hx) f1
      obtain ⟨l, el, -⟩ := IMap.addC_spec h m.cfg m.plus f1.wf x.1 x.2
      obtain ⟨it, t', r1, o2, rfl, -⟩ := Tree.Maps.addC_run h o1 el 0
      refine ⟨none, t', ((((addC_within h o1 el 0 he).took (erases_addC _) r1).bind (took_pure none t'))).mono ?_, el, o2,
        addC_fits h _ f1 (hK x (hs x hx)) el⟩
      simp only [Le, times, add_searches, add_hinted, add_steps, add_allocated, q]
      omega
    have hflip : ∀ x ∈ b, ∀ (p : It) t1, Inv p t1 → ∃ p' t', Took (do
        flipSeg o m oracle x.1 x.2
        return none) t1 p' t' (times (q x) ⟨8, 2, 84, 0, 5⟩ + ⟨12, 2, 105, 0, 6⟩) ∧
        IMap.flipSeg o m oracle t1.segs x.1 x.2 = some t'.segs ∧ Inv p' t' := by
      rintro x hx p t1 ⟨o1, f1⟩
      have hxr : x ∈ r := by rw [habc]; simp [hx]
      obtain ⟨A, B, C, he, hin⟩ := map_inside h hr hxr f1
      obtain ⟨t', k1, r1, o2⟩ := flipSeg_took h m hm oracle o1 f1.wf (hr.nonempty x hxr) x.2 he
      refine ⟨none, t', (k1.bind (took_pure none t')).mono ?_, r1, o2, flipSeg_fits h f1 (hK x hxr) r1⟩
      simp only [Le, times, add_searches, add_hinted, add_steps, add_allocated, q]
      omega
    obtain ⟨p1, t1, k1, r1, i1⟩ := chain_leaves (Inv := Inv) (p := none) (t := t)
      (f := fun _ (s : I × V) => do
        let _ ← addC o m.cfg m.plus 0 s.1 s.2
        return none) (F := fun l (s : I × V) => IMap.addSeg o m l s.1 s.2)
      (hadd a fun x hx => by rw [habc]; simp [hx]) ⟨ht, mfit_operands hw hj _⟩
    obtain ⟨p2, t2, k2, r2, i2⟩ := chain_leaves (Inv := Inv) (p := none) (t := t1)
      (f := fun _ (s : I × V) => do
        flipSeg o m oracle s.1 s.2
        return none) (F := fun l (s : I × V) => IMap.flipSeg o m oracle l s.1 s.2) hflip i1
    obtain ⟨p3, t3, k3, r3, i3⟩ := chain_leaves (Inv := Inv) (p := none) (t := t2)
      (f := fun _ (s : I × V) => do
        let _ ← addC o m.cfg m.plus 0 s.1 s.2
        return none) (F := fun l (s : I × V) => IMap.addSeg o m l s.1 s.2)
      (hadd c fun x hx => by rw [habc]; simp [hx]) i2
    have hs := sum_inside_le (K := t.segs.map Prod.fst) (wf_keys.2 hr)
    rw [List.map_map, show inside o (t.segs.map Prod.fst) ∘ Prod.fst = q from rfl, habc] at hs
    simp only [List.map_append, List.sum_append] at hs
    have hl : (t.segs.map Prod.fst).length = t.nodes.length := by simp [Tree.segs]
    refine ⟨t3, ((took_get t).bind (k0.bind (k1.bind (k2.bind (k3.bind (took_pure () t3)))))).mono ?_, ?_⟩
    · simp only [Le, times, add_searches, add_hinted, add_steps, add_allocated]
      omega
    · simp only [Option.bind_eq_bind, Option.bind_some]
      rw [r1, Option.bind_some, r2, Option.bind_some, r3]

/-- All values become the identity element, and the map is joined. -/
theorem neutralize_took {t : Tree (I × V)} (ht : t.Ok) (hw : WF o mapSeg t.segs) :
    ∃ t', Took (neutralize o m) t () t' { searches := t.nodes.length, steps := 13 * t.nodes.length + 1 } ∧
      IMap.neutralize o m t.segs = some t'.segs := by
  let t2 : Tree (I × V) := ⟨t.nodes.map fun n => (n.1, (n.2.1, m.cfg.ident)), t.fresh⟩
  have o2 : t2.Ok := ht.update (by simp [t2, Function.comp_def]) rfl
  have s2 : t2.segs = t.segs.map fun s => (s.1, m.cfg.ident) := by simp [t2, Tree.segs, Function.comp_def]
  have n2 : t2.nodes.length = t.nodes.length := by simp [t2]
  have k2 : Took (neutral m) t () t2 { steps := 2 * t.nodes.length } :=
    ⟨{ steps := 2 * t.nodes.length }, rfl, Le.refl _, by unfold Balance; simp [n2]⟩
  have w2 : WF o mapSeg t2.segs := by
    rw [← wf_keys, s2, List.map_map]
    exact wf_keys.2 hw
  unfold neutralize IMap.neutralize
  rw [← s2]
  by_cases hj : m.cfg.joining = true
  · rw [if_pos hj, if_pos hj]
    obtain ⟨l, el, -⟩ := joinAll_spec h mapSeg_lawful w2
    obtain ⟨t3, r3, o3, rfl⟩ := Tree.join_run o2 el
    refine ⟨t3, (k2.bind ((join_within o2 el).took erases_join r3)).mono ?_, el⟩
    simp only [Le, add_searches, add_hinted, add_steps, add_allocated]
    omega
  · rw [if_neg hj, if_neg hj]
    exact ⟨t2, (k2.bind (took_pure () t2)).mono (by simp only [Le, add_searches, add_hinted, add_steps, add_allocated]; omega),
      rfl⟩

omit h [LinearOrder D] [DecidableEq V] in
theorem clear_took {t : Tree (I × V)} (ht : t.Ok) :
    ∃ t', Took (clear : CostM (I × V) Unit) t () t' { searches := 1, steps := 1 } ∧ t'.segs = [] := by
  have r0 : (Tree.first : TreeM (I × V) It) t = some (Tree.hd t.nodes, t) := rfl
  obtain ⟨t', r1, o1, e1, -⟩ := Tree.eraseRange_eq ht (A := []) (B := t.nodes) (C := []) (by simp)
  rw [List.append_nil, Tree.hd_nil] at r1
  refine ⟨t', ?_, by rw [Tree.segs, e1]; rfl⟩
  unfold clear
  exact ((costs_first.took r0).bind (f := fun it => eraseRange it none) ((costs_eraseRange _ _).took r1)).mono (by work)

/-- Adding a segment, without the range of equal keys. -/
theorem addC_takes {t : Tree (I × V)} (ht : t.Ok) (hw : WF o mapSeg t.segs) (k : I) (v : V) :
    ∃ it t', Took (addC o m.cfg m.plus 0 k v) t it t'
        ⟨3, overlapped o (t.segs.map Prod.fst) k + 3, 23 * overlapped o (t.segs.map Prod.fst) k + 45, 0,
          overlapped o (t.segs.map Prod.fst) k + 4⟩ ∧
      IMap.addSeg o m t.segs k v = some t'.segs ∧ t'.Ok ∧ WF o mapSeg t'.segs := by
  obtain ⟨l, el, w1, -⟩ := IMap.addSeg_ptv h m hw k v
  obtain ⟨it, t', r1, o2, rfl, -⟩ := Tree.Maps.addC_run h ht el 0
  refine ⟨it, t', Within.took (erases_addC _) ?_ r1, el, o2, w1⟩
  cases hk : o.isEmpty k with
  | true =>
    unfold addC
    exact .pos hk (((Costs.pure _).within t).mono (by simp [Le]))
  | false =>
    obtain ⟨A, B, C, he, hb⟩ := overlapped_range h hw ((nonempty_iff h).2 hk)
    have hb' : B.length = overlapped o (t.segs.map Prod.fst) k := hb
    rw [← hb']
    exact addC_within h ht el 0 he

/-- `flip(segment)` of a total map that does not absorb identities. -/
theorem flipSeg_total [DecidableEq I] (hm : m.cfg.total = true) (ha : m.cfg.absorbs = false)
    (oracle : List (I × V) → I → Nat) {t : Tree (I × V)} (ht : t.Ok) (hw : WF o mapSeg t.segs) (k : I) (v : V) :
    ∃ t', Took (flipSeg o m oracle k v) t () t'
        ⟨t.nodes.length + overlapped o (t.segs.map Prod.fst) k + 7, overlapped o (t.segs.map Prod.fst) k + 3,
          13 * t.nodes.length + 36 * overlapped o (t.segs.map Prod.fst) k + 98, 0,
          overlapped o (t.segs.map Prod.fst) k + 4⟩ ∧
      IMap.flipSeg o m oracle t.segs k v = some t'.segs := by
  obtain ⟨it, t1, k1, r1, o1, w1⟩ := addC_takes h m ht hw k v
  obtain ⟨t2, k2, r2⟩ := neutralize_took h m o1 w1
  have hg := k1.grown
  dsimp only at hg
  unfold flipSeg IMap.flipSeg
  simp only [hm, ha, if_true, Bool.false_eq_true, if_false]
  refine ⟨t2, (k1.bind (f := fun _ => _) k2).mono ?_, by rw [r1, Option.bind_some, r2]⟩
  simp only [Le, add_searches, add_hinted, add_steps, add_allocated]
  omega

/-- `^=` of total maps that do not absorb identities. -/
theorem flipMap_total [DecidableEq I] (hm : m.cfg.total = true) (ha : m.cfg.absorbs = false)
    (oracle : List (I × V) → I → Nat) {t : Tree (I × V)} (ht : t.Ok) (hw : WF o mapSeg t.segs)
    (hj : m.cfg.joining = true → Joined o mapSeg t.segs) {r : List (I × V)} (hr : WF o mapSeg r) :
    ∃ t', Took (flipMap o m oracle r) t () t'
        ⟨3 * t.nodes.length + 6 * r.length, 2 * t.nodes.length + 5 * r.length,
          85 * t.nodes.length + 135 * r.length + 1, 0, 2 * t.nodes.length + 5 * r.length⟩ ∧
      IMap.flipMap o m oracle t.segs r = some t'.segs := by
  obtain ⟨l, el, w1, -⟩ := IMap.addMap_pt h m oracle hw hr
  obtain ⟨t', r1, o1, rfl⟩ := Tree.Maps.addMap_run h m oracle ht el
  obtain ⟨t1, k1, r2⟩ := addMap_took h m ht hw hj hr oracle
  obtain rfl : t1 = t' := by rw [r1] at r2; simpa [eq_comm] using r2
  obtain ⟨t2, k2, r2⟩ := neutralize_took h m o1 w1
  have hg := k1.grown
  dsimp only at hg
  unfold flipMap IMap.flipMap
  simp only [hm, ha, if_true, Bool.false_eq_true, if_false]
  refine ⟨t2, (k1.bind (f := fun _ => _) k2).mono ?_, by rw [el, Option.bind_some, r2]⟩
  simp only [Le, add_searches, add_hinted, add_steps, add_allocated]
  omega

/-- `&=` of a total map with a segment: the map is copied by `+=`, and the segment is added. -/
theorem addInterSegTotal_took (hm : m.cfg.total = true) (oracle : List (I × V) → I → Nat) {l : List (I × V)}
    (hl : WF o mapSeg l) (k : I) (v : V) (n : Nat) :
    ∃ t', Took (addInterSegTotal o m oracle l k v) ⟨[], n⟩ () t'
        ⟨l.length + 3, 10 * l.length + 3, 185 * l.length + 45, 0, 10 * l.length + 4⟩ ∧
      IMap.addInterSeg o m oracle [] l k v = some t'.segs := by
  obtain ⟨t1, k1, r1⟩ := addMap_took h m (t := (⟨[], n⟩ : Tree (I × V))) (ok_nil n) wf_nil (fun _ => joined_nil) hl oracle
  obtain ⟨l1, el1, w1, -⟩ := IMap.addMap_pt h m oracle (wf_nil (o := o)) hl
  obtain ⟨t1', r1', o1, rfl⟩ := Tree.Maps.addMap_run h m oracle (t := (⟨[], n⟩ : Tree (I × V))) (ok_nil n) el1
  obtain rfl : t1' = t1 := by rw [r1] at r1'; simpa [eq_comm] using r1'
  obtain ⟨it, t2, k2, r2, -⟩ := addC_takes h m o1 w1 k v
  have hg := k1.grown
  have ho : overlapped o (t1'.segs.map Prod.fst) k ≤ t1'.nodes.length := by
    unfold overlapped
    exact (List.length_filter_le _ _).trans (by simp [Tree.segs])
  dsimp only [List.length_nil] at hg
  unfold addInterSegTotal IMap.addInterSeg
  rw [if_pos hm]
  refine ⟨t2, (k1.bind (f := fun _ => _) (k2.bind (f := fun _ => _) (took_pure () t2))).mono ?_, by
    rw [show IMap.addMap o m oracle [] l = _ from el1]; exact r2⟩
  simp only [Le, add_searches, add_hinted, add_steps, add_allocated, List.length_nil]
  omega

end
end Maps
end Cost
end ICL
