import Verif.CostSpec
import Verif.Theory.CostAt

/-!
# Bounds for the costs of functions that call others
-/

set_option linter.unusedSectionVars false
set_option linter.unusedVariables false

namespace ICL
namespace Cost

section
variable {S α X C : Type}

theorem Le.times {n m : Nat} {a b : Work} (hn : n ≤ m) (hb : Le a b) : Le (Cost.times n a) (Cost.times m b) :=
  ⟨Nat.mul_le_mul hn hb.1, Nat.mul_le_mul hn hb.2.1, Nat.mul_le_mul hn hb.2.2.1, Nat.mul_le_mul hn hb.2.2.2⟩

theorem le_times_succ (n : Nat) (b : Work) : Le (b + times n b) (times (n + 1) b) := by
  simp only [Le, times, add_searches, add_hinted, add_steps, add_allocated, Nat.add_mul, Nat.one_mul]
  omega

theorem le_times_add (n m : Nat) (b : Work) : Le (times n b + times m b) (times (n + m) b) := by
  simp only [Le, times, add_searches, add_hinted, add_steps, add_allocated, Nat.add_mul]
  omega

theorem costs_chain {f : It → X → CostM S It} {F : It → X → TreeM S It} {b : Work} (hf : ∀ p x, Costs (f p x) (F p x) b) :
    ∀ (r : List X) (p : It), Costs (chain f p r) (Tree.chain F p r) (times r.length b)
  | [], p => (Costs.pure p).mono (by work)
  | x :: r, p => ((hf p x).bind fun q => costs_chain hf r q).mono (le_times_succ r.length b)

theorem costs_put {f : It → X → CostM S It} {F : It → X → TreeM S It} {b : Work} (hf : ∀ p x, Costs (f p x) (F p x) b)
    (p : It) (x : X) : Costs (put f p x) (Tree.put F p x) (b + { steps := 1 }) :=
  ((hf p x).bind fun q => .ite (.pure q) (costs_next q)).mono (by work)

theorem costs_iter (pos : Nat) : Costs (free (Tree.iter pos) : CostM S It) (Tree.iter pos) {} :=
  costs_free (keeps_reads (f := fun t => some (t.nodes[pos]?.map Prod.fst)) fun t => rfl)
macro_rules | `(tactic| costs1) => `(tactic| with_reducible exact costs_iter _)

theorem costs_runAll {run : C → CostM S Unit} {Run : C → TreeM S Unit} {size : C → Nat} {b : Work}
    (hf : ∀ c, Costs (run c) (Run c) (times (size c) b)) :
    ∀ cs : List C, Costs (runAll run cs) (Tree.runAll Run cs) (times (cs.map size).sum b)
  | [] => (Costs.pure ()).mono (by work)
  | c :: cs => ((hf c).bind fun _ => costs_runAll hf cs).mono (by
      rw [List.map_cons, List.sum_cons]; exact le_times_add _ _ _)

theorem costs_eraseIfLoop (p : S → Bool) : ∀ (n : Nat) (it : It),
    Costs (eraseIfLoop p n it) (Tree.eraseIfLoop p n it) (times n { steps := 3 })
  | 0, it => (costs_ofOption _).mono (by work)
  | n + 1, it => by
    unfold eraseIfLoop Tree.eraseIfLoop
    costs using (costs_eraseIfLoop p n)
    case hb => work
macro_rules | `(tactic| costs1) => `(tactic| with_reducible exact costs_eraseIfLoop _ _ _)

theorem erases_eraseIf (p : S → Bool) : Erases (eraseIf p) (Tree.eraseIf p) := by
  unfold eraseIf Tree.eraseIf; erases

theorem eraseIf_within (p : S → Bool) (t : Tree S) : Within t (eraseIf p) { steps := 3 * t.nodes.length + 4 } := by
  unfold eraseIf
  apply Within.mono
  · exact (costs_first.took (t := t) rfl).bindW ((took_get t).bindW ((costs_eraseIfLoop _ _ _).within _))
  · work

end

section
variable {D I V S : Type} [LinearOrder D] {o : IntervalOps D I} {g : SegOps I V S} [DecidableEq V]
open Tree (snds hd At)

theorem costs_joinInner : ∀ (n : Nat) (it next : It),
    Costs (joinInner o g n it next) (Tree.joinInner o g n it next) (times n { steps := 4 })
  | 0, it, next => (costs_ofOption _).mono (by work)
  | n + 1, it, next => by
    unfold joinInner Tree.joinInner
    costs using (costs_joinInner n)
    case hb => work
macro_rules | `(tactic| costs1) => `(tactic| with_reducible exact costs_joinInner _ _ _)

theorem erases_joinOuter : ∀ (n : Nat) (it next : It), Erases (joinOuter o g n it next) (Tree.joinOuter o g n it next)
  | 0, it, next => (costs_ofOption _).erases
  | n + 1, it, next => by
    have ih := erases_joinOuter n
    unfold joinOuter Tree.joinOuter
    repeat' (first
      | erases1
      | with_reducible apply ih
      | with_reducible apply Erases.ite
      | with_reducible apply Erases.bindP
      | with_reducible apply Erases.bind
      | intro _)
macro_rules | `(tactic| erases1) => `(tactic| with_reducible exact erases_joinOuter _ _ _)

theorem erases_join : Erases (join o g) (Tree.join o g) := by
  unfold join Tree.join; erases

theorem joinInner_took : ∀ (n : Nat) (R : List (Nat × S)) {t : Tree S} {L : List (Nat × S)} {i : Nat} {s : S}
    {fst : S} {l : List S}, At t L i s R → R.length < n → joinGo o g (some fst) s (snds R) = some l →
    ∃ P i' s' R', Took (joinInner o g n (some i) (hd R)) t (some i') t { steps := 4 * (R.length - R'.length) + 2 } ∧
      At t (P ++ L) i' s' R' ∧ R'.length ≤ R.length ∧
      (R' = [] ∧ l = [g.setKey s' (o.hull (g.key s') (g.key fst))] ∨
       ∃ m R'' r, R' = m :: R'' ∧ joinGo o g none m.2 (snds R'') = some r ∧
        l = g.setKey s' (o.hull (g.key s') (g.key fst)) :: r)
  | 0, _, _, _, _, _, _, _, _, hn, _ => by omega
  | n + 1, [], t, L, i, s, fst, l, ha, _, hl => by
    refine ⟨[], i, s, [], ?_, ha, le_refl _, .inl ⟨rfl, ?_⟩⟩
    · rw [joinInner, Tree.hd_nil, if_pos rfl]
      exact ((Costs.pure (some i)).took (t := t) rfl).mono (by work)
    · simpa [joinGo, eq_comm] using hl
  | n + 1, m :: R, t, L, i, s, fst, l, ha, hn, hl => by
    simp only [snds, List.map_cons, joinGo] at hl
    rw [joinInner, Tree.hd_cons, if_neg (by simp)]
    split at hl
    · simp at hl
    · rename_i hj
      have hx := ha.next
      rw [Tree.hd_cons] at hx
      obtain ⟨P, i', s', R', r1, a1, h0, h2⟩ := joinInner_took n R ha.right
        (by simp at hn; omega) hl
      refine ⟨P ++ [(i, s)], i', s', R', ?_, by simpa using a1, by simp; omega, h2⟩
      refine Took.mono (((costs_joinable _ _).took (Tree.joinable_at ha hj)).bind
        (b' := { steps := 1 } + ({ steps := 1 } + { steps := 4 * (R.length - R'.length) + 2 })) ?_) ?_
      · rw [if_pos rfl]
        exact ((costs_next _).took hx).bind (((costs_next _).took ha.right.next).bind r1)
      · simp only [List.length_cons]
        work
    · rename_i hj
      obtain ⟨r, h1, h2⟩ := Option.map_eq_some_iff.1 hl
      refine ⟨[], i, s, m :: R, ?_, ha, le_refl _, .inr ⟨m, R, r, rfl, h1, h2.symm⟩⟩
      refine Took.mono (((costs_joinable _ _).took (Tree.joinable_at ha hj)).bind (b' := {}) ?_) ?_
      · rw [if_neg (by simp)]
        exact (Costs.pure (some i)).took (t := t) rfl
      · work

theorem joinOuter_within : ∀ (n : Nat) (R : List (Nat × S)) {t : Tree S} {L : List (Nat × S)} {i : Nat} {s : S}
    {l : List S}, At t L i s R → R.length + 1 < n → joinGo o g none s (snds R) = some l →
    Within t (joinOuter o g n (some i) (hd R)) { searches := R.length, steps := 11 * R.length }
  | 0, _, _, _, _, _, _, _, hn, _ => by omega
  | n + 1, [], t, L, i, s, l, ha, _, hl => by
    rw [joinOuter, Tree.hd_nil, if_pos rfl]
    exact ((Costs.pure ()).within t).mono (by work)
  | n + 1, m :: R, t, L, i, s, l, ha, hn, hl => by
    simp only [snds, List.map_cons, joinGo] at hl
    rw [joinOuter, Tree.hd_cons, if_neg (by simp)]
    have hx := ha.next
    rw [Tree.hd_cons] at hx
    split at hl
    · simp at hl
    · rename_i hj
      simp only [List.length_cons] at hn
      obtain ⟨P, i', s', R', r1, a1, h0, h2⟩ := joinInner_took n R ha.right (by omega) hl
      obtain ⟨t1, r2, a2, f2⟩ := a1.modify (fun u => g.setKey u (o.hull (g.key u) (g.key s)))
      obtain ⟨B, hB⟩ : ∃ B, (P ++ (i, s) :: L).reverse = L.reverse ++ (i, s) :: B := ⟨P.reverse, by simp⟩
      obtain ⟨t2, r3, o3, e3, f3⟩ := Tree.eraseRange_eq a2.ok (A := L.reverse) (B := (i, s) :: B)
        (C := (i', g.setKey s' (o.hull (g.key s') (g.key s))) :: R') (by rw [a2.eq, hB]; simp)
      rw [List.cons_append, Tree.hd_cons, Tree.hd_cons] at r3
      have a3 : At t2 L i' (g.setKey s' (o.hull (g.key s') (g.key s))) R' := ⟨o3, e3⟩
      have hend : Within t2 (if hd R' = none then joinOuter o g n (hd R') (hd R')
          else do
            let next_ ← next (hd R')
            joinOuter o g n (hd R') next_) { searches := R'.length, steps := 11 * R'.length } := by
        rcases h2 with ⟨rfl, rfl⟩ | ⟨m', R'', r, rfl, h3, rfl⟩
        · rw [Tree.hd_nil, if_pos rfl]
          cases n with
          | zero => omega
          | succ n =>
            rw [joinOuter, if_pos rfl]
            exact ((Costs.pure ()).within t2).mono (by work)
        · rw [Tree.hd_cons, if_neg (by simp)]
          refine Within.mono (((costs_next _).took a3.right.next).bindW
            (joinOuter_within n R'' a3.right (by simp at h0; omega) h3)) ?_
          simp only [List.length_cons]
          work
      have hm : Within t (do
          let it ← next (some i)
          let next_ ← next (some m.1)
          let it ← joinInner o g n it next_
          let f ← deref (some i)
          modify it fun s => g.setKey s (o.hull (g.key s) (g.key f))
          eraseRange (some i) it
          let it ← next it
          if it = none then joinOuter o g n it it
          else
            let next_ ← next it
            joinOuter o g n it next_) { searches := R.length + 1, steps := 11 * R.length + 9 } := by
        apply Within.mono
        · exact ((costs_next _).took hx).bindW (((costs_next _).took ha.right.next).bindW (r1.bindW
            (((costs_deref _).took ha.deref).bindW (((costs_modify _ _).took r2).bindW (((costs_eraseRange _ _).took r3).bindW
              (((costs_next _).took a3.next).bindW hend))))))
        · work
      refine Within.mono (((costs_joinable _ _).took (Tree.joinable_at ha hj)).bindW (.pos rfl hm)) ?_
      simp only [List.length_cons]
      work
    · rename_i hj
      obtain ⟨r, h1, rfl⟩ := Option.map_eq_some_iff.1 hl
      have hm : Within t (do
          let it ← next (some i)
          let next_ ← next (some m.1)
          joinOuter o g n it next_) { searches := R.length, steps := 11 * R.length + 2 } := by
        apply Within.mono
        · exact ((costs_next _).took hx).bindW (((costs_next _).took ha.right.next).bindW
            (joinOuter_within n R ha.right (by simp at hn; omega) h1))
        · work
      refine Within.mono (((costs_joinable _ _).took (Tree.joinable_at ha hj)).bindW (.neg (by simp) hm)) ?_
      simp only [List.length_cons]
      work

theorem join_within {t : Tree S} (ht : t.Ok) {l : List S} (hl : joinAll o g t.segs = some l) :
    Within t (join o g) { searches := t.nodes.length, steps := 11 * t.nodes.length + 1 } := by
  unfold join
  cases hn : t.nodes with
  | nil =>
    have r0 : (Tree.first : TreeM S It) t = some (none, t) := by simp [Tree.first, hn]
    exact ((costs_first.took r0).bindW (.pos rfl ((Costs.pure ()).within t))).mono (by work)
  | cons m R =>
    rw [Tree.segs, hn] at hl
    have r0 : (Tree.first : TreeM S It) t = some (some m.1, t) := by simp [Tree.first, hn]
    have ha : At t [] m.1 m.2 R := ⟨ht, by rw [hn]; rfl⟩
    have hx : Within t (do
        let next_ ← next (some m.1)
        joinOuter o g ((← get).nodes.length + 1) (some m.1) next_) { searches := R.length, steps := 11 * R.length + 1 } := by
      apply Within.mono
      · exact ((costs_next _).took ha.next).bindW ((took_get t).bindW
          (joinOuter_within (t.nodes.length + 1) R ha (by rw [hn]; simp) hl))
      · work
    refine ((costs_first.took r0).bindW (.neg (by simp) hx)).mono ?_
    simp only [List.length_cons]
    work

end

namespace Sets
variable {D I : Type} {o : IntervalOps D I} {st : Style} (hs : st ≠ .splitting)

section
include hs

theorem costs_addWith (oracle : List I → I → Nat) (p : It) (k : I) :
    Costs (addWith o st oracle p k) (Tree.Sets.addWith o st oracle p k)
      { searches := 3, hinted := 1, steps := 24, allocated := 1 } := by
  unfold addWith Tree.Sets.addWith
  costs
  case hb => decide

theorem costs_addSet (oracle : List I → I → Nat) (r : List I) :
    Costs (addSet o st oracle r) (Tree.Sets.addSet o st oracle r)
      (times r.length { searches := 3, hinted := 1, steps := 24, allocated := 1 }) :=
  ((costs_chain (costs_addWith hs oracle) r none).bind fun _ => Costs.pure ()).mono (by work)

theorem costs_output (oracle : List I → I → Nat) (p : It) (r : List I) :
    Costs (output o st oracle p r) (Tree.Sets.output o st oracle p r)
      (times r.length { searches := 3, hinted := 1, steps := 25, allocated := 1 }) :=
  (costs_chain (costs_put (costs_addWith hs oracle)) r p).mono (Le.times (le_refl _) (by decide))

theorem costs_flipLoop (last : It) : ∀ (n : Nat) (span : I) (it : It),
    Costs (flipLoop o st last n span it) (Tree.Sets.flipLoop o st last n span it)
      (times n { searches := 8, steps := 28, allocated := 3 })
  | 0, span, it => (costs_ofOption _).mono (by work)
  | n + 1, span, it => by
    unfold flipLoop Tree.Sets.flipLoop
    costs using (costs_flipLoop last n)
    case hb => work

end

theorem flipLoop_below {last : It} : ∀ {n m : Nat}, n ≤ m → ∀ (span : I) (it : It),
    Below (flipLoop o st last n span it) (flipLoop o st last m span it)
  | 0, m, _, span, it => Below.none
  | n + 1, m + 1, hn, span, it => by
    unfold flipLoop
    below using (flipLoop_below (Nat.le_of_succ_le_succ hn))

section
variable [LinearOrder D] [DecidableEq I] (h : o.Lawful)
include h hs

theorem flipSeg_took {t : Tree I} (ht : t.Ok) (hw : WF o setSeg t.segs) {k : I} {l : List I}
    (hl : ICL.ISet.flipSeg o st t.segs k = some l) {A B C : List (Nat × I)}
    (he : ICL.equalRange o (Tree.nodeSeg setSeg) t.nodes k = some (A, B, C)) :
    ∃ t', Took (flipSeg o st k) t () t' ⟨8 * B.length + 13, 0, 28 * B.length + 51, 0, 3 * B.length + 4⟩ ∧
      Tree.Sets.flipSeg o st k t = some ((), t') := by
  obtain ⟨⟨a, b, c⟩, h1, hl⟩ := Option.bind_eq_some_iff.1 hl
  obtain ⟨⟨l1, span⟩, h2, hl⟩ := Option.bind_eq_some_iff.1 hl
  obtain ⟨A', B', C', he', e, rfl, rfl, rfl⟩ := Tree.equalRange_node h1
  obtain ⟨rfl, rfl, rfl⟩ : A' = A ∧ B' = B ∧ C' = C := by rw [he] at he'; simpa [eq_comm] using he'
  have hn : B'.length + 1 ≤ t.nodes.length + 1 := by rw [e]; simp; omega
  obtain ⟨t1, r1, o1, s1, w1⟩ := Tree.Sets.flipLoop_at h st C' (B'.length + 1) B' ht e hw (Nat.lt_succ_self _) h2
  obtain ⟨t1', r1', -, -, -⟩ := Tree.Sets.flipLoop_at h st C' (t.nodes.length + 1) B' ht e hw hn h2
  have q1 := ((costs_flipLoop hs _ _ _ _).took r1).below (flipLoop_below hn _ _)
  have r1'' : Tree.Sets.flipLoop o st (Tree.hd C') (t.nodes.length + 1) k (Tree.hd (B' ++ C')) t = some (span, t1) := by
    obtain ⟨w, ew, -⟩ := q1
    have := (costs_flipLoop (o := o) hs (Tree.hd C') (t.nodes.length + 1) k (Tree.hd (B' ++ C'))).same t
    rw [ew] at this
    exact this.symm
  subst s1
  obtain ⟨it, t2, r2, o2, s2, -⟩ := Tree.Sets.add_run h o1 hl 0
  refine ⟨t2, ?_, ?_⟩
  · unfold flipSeg
    apply Took.mono
    · exact ((costs_equalRange k).took (Tree.equalRange_run he)).bind ((took_get t).bind (q1.bind
        (((costs_Sets_add hs _ _).took r2).bind ((Costs.pure ()).took (t := t2) rfl))))
    · work
  · unfold Tree.Sets.flipSeg
    rw [Tree.run_bind (Tree.equalRange_run he)]
    dsimp only
    rw [Tree.run_bind (Tree.run_get t), Tree.run_bind r1'', Tree.run_bind r2]
    rfl

end

open Spec (calls)

include hs in
theorem costs_run {c : Tree.Sets.Cmd I} {n : Nat} (hc : calls c = some n) :
    Costs (run o st c) (Tree.Sets.Cmd.run o st c) (times n { searches := 4, hinted := 1, steps := 25, allocated := 2 }) := by
  cases c with
  | add pick k =>
    obtain rfl := Option.some.inj hc
    rw [run, Tree.Sets.Cmd.run]
    costs
    case hb => decide
  | addHint pick pos k =>
    obtain rfl := Option.some.inj hc
    rw [run, Tree.Sets.Cmd.run]
    costs
    case hb => decide
  | subtract k =>
    obtain rfl := Option.some.inj hc
    exact (costs_Sets_subtract k).mono (by decide)
  | addSet oracle r =>
    obtain rfl := Option.some.inj hc
    exact (costs_addSet hs oracle r).mono (Le.times (le_refl _) (by decide))
  | output oracle pos r =>
    obtain rfl := Option.some.inj hc
    rw [run, Tree.Sets.Cmd.run]
    exact ((costs_iter pos).bind fun p => (costs_output hs oracle p r).bind fun _ => .pure ()).mono (by work)
  | flip k => simp [calls] at hc
  | join => simp [calls] at hc

end Sets

namespace Maps
section
variable {D I V : Type} [LinearOrder D] {o : IntervalOps D I} [DecidableEq V] (m : MapType V)

theorem erases_subtract (k : I) (v : V) : Erases (subtract o m k v) (Tree.Maps.subtract o m k v) := by
  unfold subtract Tree.Maps.subtract; erases

theorem subtract_within (h : o.Lawful) {t : Tree (I × V)} (ht : t.Ok) {k : I} {v : V} {l : List (I × V)}
    (hl : IMap.subSeg o m t.segs k v = some l) {A B C : List (Nat × I × V)}
    (he : ICL.equalRange o (Tree.nodeSeg mapSeg) t.nodes k = some (A, B, C)) :
    Within t (subtract o m k v) ⟨3, B.length + 3, 23 * B.length + 45, 0, B.length + 4⟩ := by
  unfold subtract
  unfold IMap.subSeg at hl
  split at hl
  · rename_i hc
    obtain ⟨it, t', r, -⟩ := Tree.Maps.addC_run h ht hl 0
    refine .pos hc (Within.mono (((addC_within h ht hl 0 he).took (erases_addC _) r).bindW ((Costs.pure ()).within t')) ?_)
    work
  · rename_i hc
    refine .neg hc (Within.mono (subC_within h ht hl he) ?_)
    work

end
end Maps

section
variable {D I V S : Type} [LinearOrder D] {o : IntervalOps D I} {g : SegOps I V S} [DecidableEq V]

theorem overlapped_append (l r : List I) (k : I) :
    Spec.overlapped o (l ++ r) k = Spec.overlapped o l k + Spec.overlapped o r k := by
  simp [Spec.overlapped, List.filter_append]

theorem overlapped_range (h : o.Lawful) {t : Tree S} (hw : WF o g t.segs) {k : I} (hk : o.Nonempty k) :
    ∃ A B C, ICL.equalRange o (Tree.nodeSeg g) t.nodes k = some (A, B, C) ∧
      B.length = Spec.overlapped o (t.segs.map g.key) k := by
  obtain ⟨a, b, c, e, e1, h1, h2, h3⟩ := equalRange_spec h hw hk
  obtain ⟨A, B, C, he, -, rfl, rfl, rfl⟩ := Tree.equalRange_node e
  refine ⟨A, B, C, he, ?_⟩
  rw [e1, List.map_append, List.map_append, overlapped_append, overlapped_append]
  have ha : Spec.overlapped o ((Tree.snds A).map g.key) k = 0 := by
    simp only [Spec.overlapped, List.length_eq_zero_iff, List.filter_eq_nil_iff, List.mem_map, decide_eq_true_eq]
    rintro i ⟨s, hs, rfl⟩ ⟨x, hx, hx'⟩
    exact lt_irrefl _ (h1 s (List.mem_map.2 hs) x x hx hx')
  have hc : Spec.overlapped o ((Tree.snds C).map g.key) k = 0 := by
    simp only [Spec.overlapped, List.length_eq_zero_iff, List.filter_eq_nil_iff, List.mem_map, decide_eq_true_eq]
    rintro i ⟨s, hs, rfl⟩ ⟨x, hx, hx'⟩
    exact lt_irrefl _ (h3 s (List.mem_map.2 hs) x x hx' hx)
  have hb : Spec.overlapped o ((Tree.snds B).map g.key) k = B.length := by
    unfold Spec.overlapped
    rw [List.filter_eq_self.2]
    · simp [Tree.snds]
    · simp only [List.mem_map, decide_eq_true_eq]
      rintro i ⟨s, hs, rfl⟩
      exact h2 s (List.mem_map.2 hs)
  omega

theorem overlapped_le (l : List I) (k : I) : Spec.overlapped o l k ≤ l.length := List.length_filter_le _ _

theorem overlapped_le_one {l : List I} (hw : WF o setSeg l) {k : I}
    (hk : ∀ x y, o.Mem x k → o.Mem y k → x = y) : Spec.overlapped o l k ≤ 1 := by
  unfold Spec.overlapped
  classical
  have hs := hw.sorted.sublist (List.filter_sublist (p := fun i => decide (∃ x, Spec.In o x i ∧ Spec.In o x k)) (l := l))
  generalize hf : l.filter _ = f at hs ⊢
  have hm : ∀ i ∈ f, ∃ x, Spec.In o x i ∧ Spec.In o x k := by
    intro i hi
    rw [← hf] at hi
    simpa using (List.mem_filter.1 hi).2
  match f with
  | [] => simp
  | [_] => simp
  | i :: j :: f =>
    exfalso
    obtain ⟨x, hx, hx'⟩ := hm i (by simp)
    obtain ⟨y, hy, hy'⟩ := hm j (by simp)
    have hb := (List.pairwise_cons.1 hs).1 j (by simp)
    obtain rfl := hk x y hx' hy'
    exact lt_irrefl _ (hb x x hx hy)

end

section
variable {S α : Type}

theorem Took.takes {m : CostM S α} {p : TreeM S α} {t t' : Tree S} {a : α} {b : Work} (ht : Took m t a t' b)
    (hp : p t = some (a, t')) : Spec.Takes t m p b := by
  obtain ⟨w, e, ⟨l1, l2, l3, l4⟩, c⟩ := ht
  exact ⟨a, t', w, e, hp, l1, l2, l3, l4, c⟩

end

end Cost
end ICL
