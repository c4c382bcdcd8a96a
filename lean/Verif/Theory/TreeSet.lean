import Verif.Theory.Tree
import Verif.Theory.SetAdd

/-!
# Interval sets on nodes and iterators do what they do on lists
-/

set_option linter.unusedSectionVars false
set_option linter.unusedSimpArgs false
set_option linter.unusedVariables false

namespace ICL
namespace Tree

section frame
variable {S : Type}

/-- The nodes that joining cannot reach. -/
def trim (j : Bool) (l : List (Nat × S)) : List (Nat × S) := if j then l.tail else l

theorem trim_suffix (j : Bool) (l : List (Nat × S)) : trim j l <:+ l := by
  cases j
  · exact List.suffix_rfl
  · exact List.tail_suffix l

theorem tail_suffix_tail {l l' : List (Nat × S)} (hl : l <:+ l') : l.tail <:+ l'.tail := by
  obtain ⟨X, rfl⟩ := hl
  cases X with
  | nil => exact List.suffix_rfl
  | cons x X => exact (List.tail_suffix l).trans (List.suffix_append X l)

theorem trim_mono (j : Bool) {l l' : List (Nat × S)} (hl : l <:+ l') : trim j l <:+ trim j l' := by
  cases j
  · exact hl
  · exact tail_suffix_tail hl

theorem Less1.trim {l' l : List (Nat × S)} (hl : Less1 l' l) : Tree.trim true l <:+ l' := by
  rcases hl with rfl | rfl
  · exact trim_suffix _ _
  · exact List.suffix_rfl

/-- The nodes of `L` and `C`, up to those that joining can reach, are there as before. -/
def Frame (j : Bool) (L C : List (Nat × S)) (t' : Tree S) : Prop :=
  ∃ X, t'.nodes = (trim j L).reverse ++ (X ++ trim j C)

theorem At.frame {t' : Tree S} {L' R' L C : List (Nat × S)} {i : Nat} {s : S} {j : Bool} (ha : At t' L' i s R')
    (hl : trim j L <:+ L') (hr : trim j C <:+ R') : Frame j L C t' := by
  obtain ⟨X, rfl⟩ := hl
  obtain ⟨Y, rfl⟩ := hr
  exact ⟨X.reverse ++ (i, s) :: Y, by rw [ha.eq]; simp⟩

end frame

section covers
variable {D I V S : Type} [LinearOrder D] {o : IntervalOps D I} {g : SegOps I V S} [DecidableEq V] (h : o.Lawful)
  (gl : g.Lawful)
include h gl

theorem joinNodes_covers {a b s : S} (e : ICL.joinNodes o g a b = some s) :
    (∀ x, o.Mem x (g.key a) → o.Mem x (g.key s)) ∧ ∀ x, o.Mem x (g.key b) → o.Mem x (g.key s) := by
  unfold ICL.joinNodes at e
  split at e
  · obtain rfl := Option.some.inj e
    rw [gl.key_setKey]
    exact ⟨fun x hx => (h.mem_hull _ _ x).2 ⟨x, x, .inl hx, .inl hx, le_refl _, le_refl _⟩,
      fun x hx => (h.mem_hull _ _ x).2 ⟨x, x, .inr hx, .inr hx, le_refl _, le_refl _⟩⟩
  · simp at e

theorem joinNeighbours_covers {z z' : Zip S} (e : ICL.joinNeighbours o g z = some z') (x : D)
    (hx : o.Mem x (g.key z.cur)) : o.Mem x (g.key z'.cur) := by
  obtain ⟨z1, h1, h2⟩ := Option.bind_eq_some_iff.1 e
  have hx1 : o.Mem x (g.key z1.cur) := by
    unfold ICL.joinLeft at h1
    split at h1
    · obtain rfl := Option.some.inj h1; exact hx
    · split at h1
      · simp at h1
      · obtain ⟨j, h3, h4⟩ := Option.bind_eq_some_iff.1 h1
        obtain rfl := Option.some.inj h4
        exact (joinNodes_covers h gl h3).2 x hx
      · obtain rfl := Option.some.inj h1; exact hx
  unfold ICL.joinRight at h2
  split at h2
  · obtain rfl := Option.some.inj h2; exact hx1
  · split at h2
    · simp at h2
    · obtain ⟨j, h3, h4⟩ := Option.bind_eq_some_iff.1 h2
      obtain rfl := Option.some.inj h4
      exact (joinNodes_covers h gl h3).1 x hx1
    · obtain rfl := Option.some.inj h2; exact hx1

end covers

namespace Sets
variable {D I : Type} [LinearOrder D] {o : IntervalOps D I}

/-- Whether the style joins. -/
def joins : Style → Bool
  | .joining => true
  | _ => false

variable (h : o.Lawful)
include h

theorem handleInserted_at {st : Style} {t : Tree I} {L R : List (Nat × I)} {i : Nat} {s : I} (ha : At t L i s R)
    {l : List I} (hl : ICL.ISet.handleInserted o st ⟨snds L, s, snds R⟩ = some l) :
    ∃ L' i' s' R' t', handleInserted o st (some i) t = some (some i', t') ∧ At t' L' i' s' R' ∧
      snds t'.nodes = l ∧ trim (joins st) L <:+ L' ∧ trim (joins st) R <:+ R' ∧
      (∀ x, o.Mem x s → o.Mem x s') ∧ Less1 L' L ∧ Less1 R' R := by
  cases st with
  | joining =>
    obtain ⟨z, h1, h2⟩ := Option.bind_eq_some_iff.1 hl
    obtain rfl := Option.some.inj h2
    have hc := joinNeighbours_covers h setSeg_lawful h1
    obtain ⟨L', i', s', R', t', r1, a1, f1, rfl, l1, l2⟩ := joinNeighbours_at ha h1
    exact ⟨L', i', s', R', t', r1, a1, by rw [a1.eq]; simp [Zip.toList], l1.trim, l2.trim, hc, l1, l2⟩
  | separating =>
    obtain rfl := Option.some.inj hl
    exact ⟨L, i, s, R, t, rfl, ha, by rw [ha.eq]; simp [Zip.toList], trim_suffix _ _, trim_suffix _ _,
      fun x hx => hx, .inl rfl, .inl rfl⟩
  | splitting =>
    obtain rfl := Option.some.inj hl
    exact ⟨L, i, s, R, t, rfl, ha, by rw [ha.eq]; simp [Zip.toList], trim_suffix _ _, trim_suffix _ _,
      fun x hx => hx, .inl rfl, .inl rfl⟩

theorem addFront_at {t : Tree I} {L R : List (Nat × I)} {i : Nat} {s k : I} (ha : At t L i s R) {l' : List I} {s' : I}
    (hl : ICL.ISet.addFront o (snds L) s (snds R) k = some (l', s')) :
    ∃ L' t', addFront o k (some i) t = some ((), t') ∧ At t' L' i s' R ∧ snds L' = l' ∧ L <:+ L' := by
  unfold ICL.ISet.addFront at hl
  unfold addFront
  rw [run_bind ha.deref]
  dsimp only at hl
  split at hl
  · rename_i hc
    rw [if_pos hc]
    obtain ⟨rfl, rfl⟩ := Prod.mk.inj (Option.some.inj hl)
    exact ⟨L, t, rfl, ha, rfl, List.suffix_rfl⟩
  · rename_i hc
    rw [if_neg hc, run_bind ha.cyclicPrior]
    obtain ⟨z, h1, h2⟩ := Option.bind_eq_some_iff.1 hl
    obtain ⟨t1, r1, a1, f1⟩ := ha.modify fun s => o.leftSubtract s (o.rightSubtract s k)
    have r1' : modify (some i) (fun s' => o.leftSubtract s' (o.rightSubtract s k)) t = some ((), t1) := by
      rw [← r1]; simp [Tree.modify, ha.find]
    rw [run_bind r1']
    obtain ⟨rfl, t2, r2, a2, f2⟩ := insertHint_eq h a1.ok (g := setSeg) (L := L)
      (R := (i, o.leftSubtract s (o.rightSubtract s k)) :: R) a1.eq h1 a1.validLeft 0
    rw [run_bind r2]
    obtain ⟨rfl, rfl⟩ := Prod.mk.inj (Option.some.inj h2)
    exact ⟨_, t2, rfl, a2.right, rfl, List.suffix_cons _ _⟩

theorem insertGap_at {t : Tree I} {L R : List (Nat × I)} {i : Nat} {s k : I} (ha : At t L i s R) {l' : List I}
    (hl : ICL.ISet.addLeadGap o (snds L) s (snds R) k = some l') {p : It} (hp : t.Valid p) :
    ∃ L' t', insertGap o p (o.rightSubtract k s) t = some ((), t') ∧ At t' L' i s R ∧ snds L' = l' ∧ L <:+ L' := by
  unfold ICL.ISet.addLeadGap at hl
  unfold insertGap
  dsimp only at hl
  split at hl
  · rename_i hc
    rw [if_pos hc]
    obtain rfl := Option.some.inj hl
    exact ⟨L, t, rfl, ha, rfl, List.suffix_rfl⟩
  · rename_i hc
    rw [if_neg hc]
    obtain ⟨z, h1, h2⟩ := Option.map_eq_some_iff.1 hl
    obtain ⟨rfl, t2, r2, a2, f2⟩ := insertHint_eq h ha.ok (g := setSeg) (L := L) (R := (i, s) :: R) ha.eq h1 hp 0
    rw [run_bind r2]
    exact ⟨_, t2, rfl, a2.right, h2, List.suffix_cons _ _⟩

theorem addSegment_at {t : Tree I} {L R : List (Nat × I)} {i : Nat} {s k : I} (ha : At t L i s R) {l' : List I}
    (hl : ICL.ISet.addSegment o (snds L) s (snds R) k = some l') :
    ∃ L' t', addSegment o k (some i) t = some (hd R, t') ∧ At t' L' i s R ∧ s :: snds L' = l' ∧ L <:+ L' := by
  unfold ICL.ISet.addSegment at hl
  obtain ⟨l1, h1, h2⟩ := Option.map_eq_some_iff.1 hl
  obtain ⟨L', t', r1, a1, e1, x1⟩ := insertGap_at h ha h1 ha.validLeft
  refine ⟨L', t', ?_, a1, by rw [← h2, e1], x1⟩
  unfold addSegment
  rw [run_bind ha.deref, run_bind ha.cyclicPrior, run_bind r1, a1.next]

theorem addMain_at {C : List (Nat × I)} :
    ∀ (B : List (Nat × I)) {t : Tree I} {L : List (Nat × I)} {i : Nat} {s k : I} {n : Nat} {l' : List I} {s' k' : I},
      At t L i s (B ++ C) → B.length < n →
      ICL.ISet.addMain o (snds L) k s (snds B) (snds C) = some (l', s', k') →
      ∃ L' j t', addMain o (some (B.getLastD (i, s)).1) n k (some i) t = some ((some j, k'), t') ∧
        At t' L' j s' C ∧ snds L' = l' ∧ L <:+ L'
  | [], t, L, i, s, k, n + 1, l', s', k', ha, hn, hl => by
    unfold addMain
    rw [if_pos (by simp)]
    simp only [snds, List.map_nil, ICL.ISet.addMain, Option.some.injEq, Prod.mk.injEq] at hl
    obtain ⟨rfl, rfl, rfl⟩ := hl
    exact ⟨L, i, t, rfl, ha, rfl, List.suffix_rfl⟩
  | m :: B, t, L, i, s, k, n + 1, l', s', k', ha, hn, hl => by
    unfold addMain
    rw [if_neg ha.ne_last, run_bind ha.deref, List.getLastD_cons]
    simp only [snds, List.map_cons, ICL.ISet.addMain] at hl
    obtain ⟨l1, h1, h2⟩ := Option.bind_eq_some_iff.1 hl
    obtain ⟨L1, t1, r1, a1, e1, x1⟩ := addSegment_at h ha (by simpa [snds] using h1)
    rw [run_bind r1]
    rw [← e1] at h2
    obtain ⟨L', j, t', r2, a2, e2, x2⟩ := addMain_at B (n := n) (L := (i, s) :: L1) a1.right (by simpa using hn) h2
    refine ⟨L', j, t', ?_, a2, e2, (x1.trans (List.suffix_cons _ _)).trans x2⟩
    exact r2

theorem addRear_at {t : Tree I} {L C : List (Nat × I)} {i : Nat} {s k : I} (ha : At t L i s C) {l : List I}
    (hl : ICL.ISet.addRear o (snds L) s (snds C) k = some l) :
    ∃ L' i' s' R' t', addRear o k (some i) t = some (some i', t') ∧ At t' L' i' s' R' ∧
      snds t'.nodes = l ∧ L <:+ L' ∧ C <:+ R' := by
  unfold ICL.ISet.addRear at hl
  obtain ⟨l1, h1, hl⟩ := Option.bind_eq_some_iff.1 hl
  obtain ⟨L1, t1, r1, a1, rfl, x1⟩ := insertGap_at h ha h1 ha.validLeft
  unfold addRear
  rw [run_bind ha.cyclicPrior, run_bind ha.deref, run_bind r1]
  dsimp only at hl
  split at hl
  · rename_i hc
    rw [if_pos hc]
    obtain ⟨z, h2, h3⟩ := Option.bind_eq_some_iff.1 hl
    obtain rfl := Option.some.inj h3
    obtain ⟨rfl, t2, r2, a2, f2⟩ := insertHint_eq h a1.ok (g := setSeg) (L := (i, s) :: L1) (R := C)
      (by rw [a1.eq]; simp) h2 a1.valid 0
    exact ⟨_, _, _, _, t2, r2, a2, by rw [a2.eq]; simp [Zip.toList], x1.trans (List.suffix_cons _ _), List.suffix_rfl⟩
  · rename_i hc
    rw [if_neg hc]
    split at hl
    · rename_i hc2
      rw [if_pos hc2]
      obtain ⟨z, h2, h3⟩ := Option.bind_eq_some_iff.1 hl
      obtain rfl := Option.some.inj h3
      obtain ⟨t2, r2, a2, f2⟩ := a1.modify fun s' => o.rightSubtract s' (o.leftSubtract s k)
      rw [run_bind r2]
      obtain ⟨rfl, t3, r3, a3, f3⟩ := insertHint_eq h a2.ok (g := setSeg)
        (L := (i, o.rightSubtract s (o.leftSubtract s k)) :: L1) (R := C) (by rw [a2.eq]; simp) h2 a2.valid 0
      exact ⟨_, _, _, _, t3, r3, a3, by rw [a3.eq]; simp [Zip.toList], x1.trans (List.suffix_cons _ _),
        List.suffix_rfl⟩
    · rename_i hc2
      rw [if_neg hc2]
      obtain rfl := Option.some.inj hl
      exact ⟨L1, i, s, C, t1, rfl, a1, by rw [a1.eq]; simp [Zip.toList], x1, List.suffix_rfl⟩

theorem joinUnder_at {t : Tree I} (ht : t.Ok) {A B C : List (Nat × I)} {f : Nat × I} {k : I}
    (he : ICL.equalRange o (nodeSeg setSeg) t.nodes k = some (A, f :: B, C)) (e : t.nodes = A ++ (f :: B ++ C)) :
    ∃ s t', joinUnder o k (some (B.getLastD f).1) t = some (some f.1, t') ∧ At t' A.reverse f.1 s C ∧
      snds t'.nodes = (ICL.ISet.joinUnder o (snds A) f.2 (snds B) (snds C) k).toList ∧
      ∀ x, o.Mem x k → o.Mem x s := by
  have af : At t A.reverse f.1 f.2 (B ++ C) := ⟨ht, by rw [e]; simp⟩
  obtain ⟨L, r1, a1, -⟩ := prior_end ht (n := f) e
  obtain ⟨t1, r2, o2, e2, f2⟩ := eraseRange_eq ht (A := A ++ [f]) (B := B) (C := C) (by rw [e]; simp)
  have a2 : At t1 A.reverse f.1 f.2 C := ⟨o2, by rw [e2]; simp⟩
  obtain ⟨t2, r3, a3, f3⟩ := a2.modify fun _ =>
    o.hull (o.hull (o.rightSubtract f.2 k) k) (o.leftSubtract (B.getLastD f).2 k)
  have hc : ∀ {i j : I} {x : D}, o.Mem x i ∨ o.Mem x j → o.Mem x (o.hull i j) := fun {i j x} hx =>
    (h.mem_hull _ _ x).2 ⟨x, x, hx, hx, le_refl _, le_refl _⟩
  refine ⟨_, t2, ?_, a3, ?_, fun x hx => hc (.inl (hc (.inr hx)))⟩
  · unfold joinUnder
    have r0 : lowerBound o setSeg k t = some (some f.1, t) := by
      unfold lowerBound
      have : Tree.equalRange o setSeg k t = some ((some f.1, hd C), t) := by
        simp [Tree.equalRange, he, hd]
      rw [run_bind this]; rfl
    rw [run_bind r0, run_bind af.next, run_bind a1.next, run_bind af.deref, run_bind a1.deref, run_bind r2,
      run_bind r3]
    rfl
  · rw [a3.eq, ICL.ISet.joinUnder, getLastD_snd]
    simp [Zip.toList]

theorem addOver_at {st : Style} {t : Tree I} (ht : t.Ok) {A B C : List (Nat × I)} {f : Nat × I} {k : I}
    (he : ICL.equalRange o (nodeSeg setSeg) t.nodes k = some (A, f :: B, C)) (e : t.nodes = A ++ (f :: B ++ C))
    {l : List I} (hl : ICL.ISet.addOver o st (snds A) f.2 (snds B) (snds C) k = some l) :
    ∃ L' i' s' R' t', addOver o st k (some (B.getLastD f).1) t = some (some i', t') ∧ At t' L' i' s' R' ∧
      snds t'.nodes = l ∧ trim (joins st) A.reverse <:+ L' ∧ trim (joins st) C <:+ R' ∧
      (st ≠ .splitting → (∀ x, o.Mem x k → o.Mem x s') ∧ Less1 L' A.reverse ∧ Less1 R' C) := by
  cases st with
  | joining =>
    obtain ⟨z, h1, h2⟩ := Option.bind_eq_some_iff.1 hl
    obtain rfl := Option.some.inj h2
    obtain ⟨s, t1, r1, a1, e1, c1⟩ := joinUnder_at h ht he e
    have hz : ICL.ISet.joinUnder o (snds A) f.2 (snds B) (snds C) k = ⟨snds A.reverse, s, snds C⟩ := by
      rw [a1.eq] at e1
      simp only [ICL.ISet.joinUnder, Zip.toList, snds, List.map_append, List.map_reverse, List.map_cons,
        List.reverse_reverse, List.append_cancel_left_eq, List.cons.injEq] at e1 ⊢
      simp [e1.1]
    rw [hz] at h1
    have hc := joinNeighbours_covers h setSeg_lawful h1
    obtain ⟨L', i', s', R', t', r2, a2, f2, rfl, l1, l2⟩ := joinNeighbours_at a1 h1
    refine ⟨L', i', s', R', t', ?_, a2, by rw [a2.eq]; simp [Zip.toList], l1.trim, l2.trim,
      fun _ => ⟨fun x hx => hc x (c1 x hx), l1, l2⟩⟩
    unfold addOver
    dsimp only
    rw [run_bind r1]; exact r2
  | separating =>
    obtain rfl := Option.some.inj hl
    obtain ⟨s, t1, r1, a1, e1, c1⟩ := joinUnder_at h ht he e
    exact ⟨_, _, s, _, t1, r1, a1, e1, trim_suffix _ _, trim_suffix _ _, fun _ => ⟨c1, .inl rfl, .inl rfl⟩⟩
  | splitting =>
    obtain ⟨⟨l1, s1⟩, h1, hl⟩ := Option.bind_eq_some_iff.1 hl
    obtain ⟨⟨l2, s2, k2⟩, h2, h3⟩ := Option.bind_eq_some_iff.1 hl
    dsimp only at h2 h3
    have af : At t A.reverse f.1 f.2 (B ++ C) := ⟨ht, by rw [e]; simp⟩
    obtain ⟨L1, t1, r1, a1, rfl, x1⟩ := addFront_at h af (by simpa [snds] using h1)
    have hn : B.length < t1.nodes.length := by rw [a1.eq]; simp; omega
    obtain ⟨L2, j, t2, r2, a2, rfl, x2⟩ := addMain_at h B a1 hn h2
    obtain ⟨L', i', s', R', t', r3, a3, e3, x3, x4⟩ := addRear_at h a2 h3
    refine ⟨L', i', s', R', t', ?_, a3, e3, (x1.trans x2).trans x3, x4, fun hs => absurd rfl hs⟩
    unfold addOver
    dsimp only
    have r0 : lowerBound o setSeg k t = some (some f.1, t) := by
      unfold lowerBound
      have : Tree.equalRange o setSeg k t = some ((some f.1, hd C), t) := by
        simp [Tree.equalRange, he, hd]
      rw [run_bind this]; rfl
    have hlast : (B.getLastD (f.1, s1)).1 = (B.getLastD f).1 := by
      cases B with
      | nil => rfl
      | cons b B => rw [List.getLastD_cons, List.getLastD_cons]
    rw [hlast] at r2
    rw [run_bind r0, run_bind r1, run_bind (run_get t1), run_bind r2]
    exact r3

theorem eq_self {k : I} (hk : o.isEmpty k = false) : o.eq k k = true := by
  have hn : o.Nonempty k := by
    by_contra hne
    have := (h.isEmpty_iff k).2 fun x hx => hne ⟨x, hx⟩
    rw [hk] at this; simp at this
  exact (h.eq_iff k k hn hn).2 fun x => Iff.rfl

theorem add_run {st : Style} {t : Tree I} (ht : t.Ok) {k : I} {l : List I}
    (hl : ICL.ISet.add o st t.segs k = some l) (pick : Nat) :
    ∃ it t', add o st pick k t = some (it, t') ∧ t'.Ok ∧ t'.segs = l ∧
      (o.isEmpty k = true ∧ it = none ∧ t' = t ∨
       o.isEmpty k = false ∧ ∃ A B C L i s R, ICL.equalRange o (nodeSeg setSeg) t.nodes k = some (A, B, C) ∧
        it = some i ∧ At t' L i s R ∧ trim (joins st) A.reverse <:+ L ∧ trim (joins st) C <:+ R ∧
        (st ≠ .splitting ∨ B = [] → (∀ x, o.Mem x k → o.Mem x s) ∧ Less1 L A.reverse ∧ Less1 R C)) := by
  unfold ICL.ISet.add at hl
  unfold add
  split at hl
  · rename_i hc
    rw [if_pos hc]
    exact ⟨none, t, rfl, ht, Option.some.inj hl, .inl ⟨hc, rfl, rfl⟩⟩
  · rename_i hc
    rw [if_neg hc]
    obtain ⟨⟨a, b, c⟩, h1, h2⟩ := Option.bind_eq_some_iff.1 hl
    obtain ⟨A, B, C, he, e, rfl, rfl, rfl⟩ := equalRange_node h1
    cases B with
    | nil =>
      obtain ⟨t1, r1, a1, f1⟩ := insert_new ht (g := setSeg) (s := k) e he pick
      rw [run_bind r1]
      obtain ⟨L, i, s, R, t', r2, a2, e2, x1, x2, x3⟩ := handleInserted_at h a1 (st := st) (o := o) (by simpa [snds] using h2)
      exact ⟨_, t', r2, a2.ok, e2, .inr ⟨by simpa using hc, A, [], C, L, i, s, R, he, rfl, a2, x1, x2,
        fun _ => x3⟩⟩
    | cons f B =>
      rw [run_bind (insert_old (g := setSeg) (s := k) he pick)]
      obtain ⟨L0, r1, a1, -⟩ := prior_end ht (n := f) e
      obtain ⟨L, i, s, R, t', r2, a2, e2, x1, x2, x3⟩ := addOver_at h (st := st) ht he e h2
      refine ⟨_, t', ?_, a2.ok, e2, .inr ⟨by simpa using hc, A, f :: B, C, L, i, s, R, he, rfl, a2, x1, x2,
        fun hs => x3 (hs.resolve_right (by simp))⟩⟩
      dsimp only
      rw [if_neg (by simp), run_bind (upperBound_run he), run_bind r1]
      exact r2

theorem addHint_run {st : Style} {t : Tree I} (ht : t.Ok) {k : I} {l : List I} {pick : Nat}
    (hl : ICL.ISet.addHint o st pick t.segs k = some l) {p : It} (hp : t.Valid p) :
    ∃ it t', addHint o st pick p k t = some (it, t') ∧ t'.Ok ∧ t'.segs = l ∧
      (o.isEmpty k = true ∧ it = p ∧ t' = t ∨
       o.isEmpty k = false ∧ ∃ A B C L i s R, ICL.equalRange o (nodeSeg setSeg) t.nodes k = some (A, B, C) ∧
        it = some i ∧ At t' L i s R ∧ trim (joins st) A.reverse <:+ L ∧ trim (joins st) C <:+ R ∧
        (st ≠ .splitting ∨ B = [] → WF o setSeg t.segs →
          (∀ x, o.Mem x k → o.Mem x s) ∧ Less1 L A.reverse ∧ Less1 R C)) := by
  unfold ICL.ISet.addHint at hl
  unfold addHint
  split at hl
  · rename_i hc
    rw [if_pos hc]
    exact ⟨p, t, rfl, ht, Option.some.inj hl, .inl ⟨hc, rfl, rfl⟩⟩
  · rename_i hc
    rw [if_neg hc]
    obtain ⟨⟨a, b, c⟩, h1, h2⟩ := Option.bind_eq_some_iff.1 hl
    obtain ⟨A, B, C, he, e, rfl, rfl, rfl⟩ := equalRange_node h1
    cases B with
    | nil =>
      obtain ⟨t1, r1, a1, f1⟩ := insert_new ht (g := setSeg) (s := k) e he pick
      have r1' : insertHint o setSeg pick p k t = some (some t.fresh, t1) := by
        simp only [Tree.insertHint, if_pos hp, r1, Option.map_some]
      have hkk : o.eq k k = true := eq_self h (by simpa using hc)
      rw [run_bind r1', run_bind a1.deref, if_pos hkk]
      obtain ⟨L, i, s, R, t', r2, a2, e2, x1, x2, x3⟩ := handleInserted_at h a1 (st := st) (o := o) (by simpa [snds] using h2)
      exact ⟨_, t', r2, a2.ok, e2, .inr ⟨by simpa using hc, A, [], C, L, i, s, R, he, rfl, a2, x1, x2,
        fun _ _ => x3⟩⟩
    | cons f B =>
      have r1 : insertHint o setSeg pick p k t =
          some (some ((f :: B).getD (pick % (B.length + 1)) f).1, t) := by
        simp only [Tree.insertHint, if_pos hp, insert_old (g := setSeg) (s := k) he pick, Option.map_some]
      rw [run_bind r1]
      have hs := getD_split f B (pick % (B.length + 1)) (Nat.mod_lt _ (Nat.succ_pos _))
      have af : At t (((f :: B).take (pick % (B.length + 1))).reverse ++ A.reverse)
          ((f :: B).getD (pick % (B.length + 1)) f).1 ((f :: B).getD (pick % (B.length + 1)) f).2
          ((f :: B).drop (pick % (B.length + 1) + 1) ++ C) := by
        refine ⟨ht, ?_⟩
        rw [e]
        conv_lhs => rw [hs]
        simp
      rw [run_bind af.deref]
      simp only [snds, List.map_cons] at h2
      rw [List.length_map, getD_snd] at h2
      split at h2
      · rename_i hq
        rw [if_pos hq]
        obtain ⟨L, i, s, R, t', r2, a2, e2, x1, x2, x3⟩ := handleInserted_at h af (st := st) (o := o) (by
          simpa [snds, List.map_take, List.map_drop] using h2)
        refine ⟨_, t', r2, a2.ok, e2, .inr ⟨by simpa using hc, A, f :: B, C, L, i, s, R, he, rfl, a2, ?_, ?_, ?_⟩⟩
        · exact (trim_mono _ (List.suffix_append _ _)).trans x1
        · exact (trim_mono _ (List.suffix_append _ _)).trans x2
        · intro _ hw
          have hn : o.Nonempty ((f :: B).getD (pick % (B.length + 1)) f).2 := by
            refine hw.nonempty _ ?_
            rw [segs, af.eq]; simp
          have hqk := (h.eq_iff _ _ hn ((nonempty_iff h).2 (by simpa using hc))).1 hq
          refine ⟨fun x hx => x3.1 x ((hqk x).2 hx), ?_⟩
          obtain ⟨-, -, hB, -⟩ := nodeRange h (g := setSeg) hw (by simpa using hc) he
          have hwn := wf_node.2 hw
          rw [af.eq] at hwn
          obtain ⟨w1, w2, w3⟩ := wf_append.1 hwn
          have w4 := wf_cons.1 w2
          have h3 : (f :: B).take (pick % (B.length + 1)) = [] := by
            refine List.eq_nil_iff_forall_not_mem.2 fun m hm => ?_
            obtain ⟨x, hx, hxk⟩ := hB m (List.mem_of_mem_take hm)
            exact lt_irrefl x (w3 x x ⟨m, List.mem_reverse.2 (List.mem_append_left _ (List.mem_reverse.2 hm)), hx⟩
              ⟨_, List.mem_cons_self, (hqk x).2 hxk⟩)
          have h4 : (f :: B).drop (pick % (B.length + 1) + 1) = [] := by
            refine List.eq_nil_iff_forall_not_mem.2 fun m hm => ?_
            obtain ⟨x, hx, hxk⟩ := hB m (List.mem_of_mem_drop hm)
            exact lt_irrefl x (w4.2.2 x x ((hqk x).2 hxk) ⟨m, List.mem_append_left _ hm, hx⟩)
          have h5 := x3.2
          rw [h3, h4] at h5
          simpa using h5
      · rename_i hq
        rw [if_neg hq]
        obtain ⟨L0, r1, a1, -⟩ := prior_end ht (n := f) e
        obtain ⟨L, i, s, R, t', r2, a2, e2, x1, x2, x3⟩ := addOver_at h (st := st) ht he e h2
        refine ⟨_, t', ?_, a2.ok, e2, .inr ⟨by simpa using hc, A, f :: B, C, L, i, s, R, he, rfl, a2, x1, x2,
          fun hs _ => x3 (hs.resolve_right (by simp))⟩⟩
        rw [run_bind (upperBound_run he), run_bind r1]
        exact r2

omit h in
theorem insertResid_run {t : Tree I} (ht : t.Ok) {r : I} {l : List I}
    (hl : ICL.ISet.insertResid o t.segs r = some l) :
    ∃ t', insertResid o r t = some ((), t') ∧ t'.Ok ∧ t'.segs = l ∧ ∀ n ∈ t.nodes, n ∈ t'.nodes := by
  unfold ICL.ISet.insertResid at hl
  unfold insertResid
  split at hl
  · rename_i hc
    rw [if_pos hc]
    exact ⟨t, rfl, ht, Option.some.inj hl, fun n hn => hn⟩
  · rename_i hc
    rw [if_neg hc]
    obtain ⟨⟨a, b, c⟩, h1, h2⟩ := Option.bind_eq_some_iff.1 hl
    obtain ⟨A, B, C, he, e, rfl, rfl, rfl⟩ := equalRange_node h1
    cases B with
    | nil =>
      obtain ⟨t1, r1, a1, f1⟩ := insert_new ht (g := setSeg) (s := r) e he 0
      rw [run_bind r1]
      refine ⟨t1, rfl, a1.ok, ?_, ?_⟩
      · rw [← Option.some.inj h2, segs, a1.eq]; simp
      · intro n hn
        rw [e] at hn
        rw [a1.eq]
        simp only [List.nil_append, List.mem_append, List.reverse_reverse, List.mem_cons] at hn ⊢
        tauto
    | cons f B =>
      rw [run_bind (insert_old (g := setSeg) (s := r) he 0)]
      exact ⟨t, rfl, ht, Option.some.inj h2, fun n hn => hn⟩

omit h in
theorem subtract_run {t : Tree I} (ht : t.Ok) {k : I} {l : List I} (hl : ICL.ISet.subtract o t.segs k = some l) :
    ∃ t', subtract o k t = some ((), t') ∧ t'.Ok ∧ t'.segs = l ∧
      (o.isEmpty k = true ∧ t' = t ∨
       o.isEmpty k = false ∧ ∃ A B C, ICL.equalRange o (nodeSeg setSeg) t.nodes k = some (A, B, C) ∧
        (∀ n ∈ A, n ∈ t'.nodes) ∧ ∀ n ∈ C, n ∈ t'.nodes) := by
  unfold ICL.ISet.subtract at hl
  unfold subtract
  split at hl
  · rename_i hc
    rw [if_pos hc]
    exact ⟨t, rfl, ht, Option.some.inj hl, .inl ⟨hc, rfl⟩⟩
  · rename_i hc
    rw [if_neg hc]
    obtain ⟨⟨a, b, c⟩, h1, h2⟩ := Option.bind_eq_some_iff.1 hl
    obtain ⟨A, B, C, he, e, rfl, rfl, rfl⟩ := equalRange_node h1
    cases B with
    | nil =>
      rw [run_bind (equalRange_run he)]
      dsimp only
      rw [List.nil_append, if_pos rfl]
      refine ⟨t, rfl, ht, Option.some.inj h2, .inr ⟨by simpa using hc, A, [], C, he, ?_, ?_⟩⟩
      · intro n hn; rw [e]; simp [hn]
      · intro n hn; rw [e]; simp [hn]
    | cons f B =>
      rw [run_bind (equalRange_run he)]
      dsimp only
      rw [if_neg (hd_ne ht e)]
      obtain ⟨L0, r1, a1, -⟩ := prior_end ht (n := f) e
      have af : At t A.reverse f.1 f.2 (B ++ C) := ⟨ht, by rw [e]; simp⟩
      rw [run_bind r1, List.cons_append, hd_cons, run_bind af.deref, run_bind a1.deref]
      obtain ⟨t1, r2, o2, e2, f2⟩ := eraseRange_eq ht e
      rw [List.cons_append, hd_cons] at r2
      rw [run_bind r2]
      simp only [snds, List.map_cons] at h2
      obtain ⟨l1, h3, h4⟩ := Option.bind_eq_some_iff.1 h2
      have hs1 : snds A ++ snds C = t1.segs := by rw [segs, e2]; simp
      rw [show List.map Prod.snd A ++ List.map Prod.snd C = t1.segs from hs1] at h3
      obtain ⟨t2, r3, o3, rfl, k3⟩ := insertResid_run o2 h3
      rw [run_bind r3]
      rw [show (List.map Prod.snd B).getLastD f.2 = (B.getLastD f).2 from getLastD_snd B f] at h4
      obtain ⟨t3, r4, o4, rfl, k4⟩ := insertResid_run o3 h4
      refine ⟨t3, r4, o4, rfl, .inr ⟨by simpa using hc, A, f :: B, C, he, ?_, ?_⟩⟩
      · intro n hn; exact k4 n (k3 n (by rw [e2]; simp [hn]))
      · intro n hn; exact k4 n (k3 n (by rw [e2]; simp [hn]))

end Sets
end Tree
end ICL
