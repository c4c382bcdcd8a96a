import Verif.Theory.TreeSet

/-!
# Interval maps on nodes and iterators do what they do on lists
-/

set_option linter.unusedSectionVars false
set_option linter.unusedSimpArgs false
set_option linter.unusedVariables false

namespace ICL
namespace Tree

section frame
variable {S : Type} {t : Tree S} {L R : List (Nat × S)} {i : Nat} {s : S}

theorem trim_push {j : Bool} {l L : List (Nat × S)} (hl : l <:+ L) (n : Nat × S) : l <:+ trim j (n :: L) := by
  cases j
  · exact hl.trans (List.suffix_cons _ _)
  · exact hl

/-- The given nodes, up to those that joining can reach, are there. -/
def Keeps2 (j : Bool) (L R : List (Nat × S)) (t' : Tree S) : Prop :=
  (∀ n ∈ trim j L, n ∈ t'.nodes) ∧ ∀ n ∈ trim j R, n ∈ t'.nodes

theorem keeps2_of {j : Bool} {L R L' R' X : List (Nat × S)} {t' : Tree S} (e : t'.nodes = L'.reverse ++ (X ++ R'))
    (hl : trim j L <:+ L') (hr : trim j R <:+ R') : Keeps2 j L R t' := by
  constructor
  · intro n hn
    rw [e]; simp [hl.subset hn]
  · intro n hn
    rw [e]; simp [hr.subset hn]

theorem At.keeps2 {j : Bool} {L0 R0 : List (Nat × S)} (ha : At t L i s R) (hl : trim j L0 <:+ L)
    (hr : trim j R0 <:+ R) : Keeps2 j L0 R0 t :=
  keeps2_of (X := [(i, s)]) (by rw [ha.eq]; simp) hl hr

theorem Keeps2.mono {j : Bool} {L0 R0 : List (Nat × S)} (hk : Keeps2 j L R t) (hl : trim j L0 <:+ trim j L)
    (hr : trim j R0 <:+ trim j R) : Keeps2 j L0 R0 t :=
  ⟨fun n hn => hk.1 n (hl.subset hn), fun n hn => hk.2 n (hr.subset hn)⟩

theorem At.valid_erased (ha : At t L i s R) {t' : Tree S} (e : t'.nodes = L.reverse ++ R) {p : It} (hp : t.Valid p)
    (hne : p ≠ some i) : t'.Valid p := by
  intro j hj
  have := hp j hj
  rw [ha.eq] at this
  rw [e]
  simp only [List.map_append, List.map_cons, List.mem_append, List.mem_cons] at this ⊢
  rcases this with h1 | h1 | h1
  · exact .inl h1
  · exact absurd (by rw [hj, h1]) hne
  · exact .inr h1

theorem At.hd_ne (ha : At t L i s R) : hd L ≠ some i := by
  cases L with
  | nil => simp
  | cons n L =>
    have hn := ha.ok.nodup
    rw [ha.eq] at hn
    intro e
    exact nodup_split hn n (by simp) (Option.some.inj e)

theorem At.valid_hd (ha : At t L i s R) : t.Valid (hd R) :=
  Tree.valid_hd (A := L.reverse ++ [(i, s)]) (by rw [ha.eq]; simp)

end frame

namespace Maps
variable {D I V : Type} [LinearOrder D] {o : IntervalOps D I} [DecidableEq V] {c : MapCfg V} {f : Combiner V}
variable {t : Tree (I × V)} {L R C : List (Nat × I × V)} {i : Nat} {s : I × V} {k : I} {v : V}

theorem absorbed_at (ha : At t L i s R) : absorbed c (some i) t = some (IMap.absorbable c s.2, t) := by
  unfold absorbed
  rw [run_bind ha.deref]; rfl

theorem combine_at (ha : At t L i s R) :
    ∃ t', combine f (some i) v t = some ((), t') ∧ At t' L i (IMap.combine f s v) R ∧ t'.fresh = t.fresh :=
  ha.modify _

theorem handleInserted_at (ha : At t L i s R) {z : Zip (I × V)}
    (hz : IMap.handleInserted o c ⟨snds L, s, snds R⟩ = some z) :
    ∃ L' i' s' R' t', handleInserted o c (some i) t = some (some i', t') ∧ At t' L' i' s' R' ∧
      z = ⟨snds L', s', snds R'⟩ ∧ trim c.joining L <:+ L' ∧ trim c.joining R <:+ R' ∧ Less1 R' R := by
  unfold IMap.handleInserted at hz
  unfold handleInserted
  split at hz
  · rename_i hc
    rw [if_pos hc]
    obtain ⟨L', i', s', R', t', r1, a1, f1, rfl, l1, l2⟩ := joinNeighbours_at ha hz
    exact ⟨L', i', s', R', t', r1, a1, rfl, by rw [hc]; exact l1.trim, by rw [hc]; exact l2.trim, l2⟩
  · rename_i hc
    rw [if_neg hc]
    obtain rfl := Option.some.inj hz
    exact ⟨L, i, s, R, t, rfl, ha, rfl, trim_suffix _ _, trim_suffix _ _, .inl rfl⟩

/-- The iterator `prior_` of a node behind the nodes `L`, and what the model on lists knows of it. -/
def PriorOf (L R : List (Nat × I × V)) (p : It) (first : Option (I × V)) : Prop :=
  (∃ n L', L = n :: L' ∧ p = some n.1) ∨ (L = [] ∧ p = none ∧ first = none) ∨
    (L = [] ∧ ∃ m R', R = m :: R' ∧ p = some m.1 ∧ first = some m.2)

theorem handleInsertedPrior_at (ha : At t L i s R) {p : It} {first : Option (I × V)} (hp : PriorOf L R p first)
    {l' : List (I × V)} (hl : IMap.handleInsertedPrior o c first (snds L) s = some l') :
    ∃ L' t', handleInsertedPrior o c p (some i) t = some ((), t') ∧ t'.Ok ∧ t'.nodes = L'.reverse ++ R ∧
      snds L' = l' ∧ trim c.joining L <:+ trim c.joining L' ∧ t'.Valid p := by
  rcases hp with ⟨n, L', rfl, rfl⟩ | ⟨rfl, rfl, rfl⟩ | ⟨rfl, m, R', rfl, rfl, rfl⟩
  · simp only [snds, List.map_cons, IMap.handleInsertedPrior] at hl
    unfold handleInsertedPrior
    by_cases hc : c.joining
    · rw [if_pos hc, if_neg (by simp)]
      simp only [IMap.joinsTo, if_pos hc] at hl
      split at hl
      · simp at hl
      · rename_i hj
        obtain ⟨j, h1, h2⟩ := Option.bind_eq_some_iff.1 hl
        obtain ⟨t', r1, a1, f1⟩ := joinOn_at ha.left h1
        rw [run_bind (joinable_at ha.left hj), if_pos rfl, run_bind r1]
        refine ⟨(n.1, j) :: L', t', rfl, a1.ok, by rw [a1.eq]; simp, Option.some.inj h2, ?_, a1.valid⟩
        rw [hc]; exact List.suffix_rfl
      · rename_i hj
        rw [run_bind (joinable_at ha.left hj), if_neg (by simp)]
        exact ⟨(i, s) :: n :: L', t, rfl, ha.ok, by rw [ha.eq]; simp, Option.some.inj hl,
          trim_mono _ (List.suffix_cons _ _), ha.left.valid⟩
    · rw [if_neg hc]
      simp only [IMap.joinsTo, if_neg hc] at hl
      exact ⟨(i, s) :: n :: L', t, rfl, ha.ok, by rw [ha.eq]; simp, Option.some.inj hl,
        trim_mono _ (List.suffix_cons _ _), ha.left.valid⟩
  · simp only [snds, List.map_nil, IMap.handleInsertedPrior] at hl
    unfold handleInsertedPrior
    refine ⟨[(i, s)], t, ?_, ha.ok, by rw [ha.eq]; simp, Option.some.inj hl, trim_mono _ (List.suffix_cons _ _),
      valid_none⟩
    rw [if_pos (rfl : (none : It) = none)]
    split <;> rfl
  · simp only [snds, List.map_nil, IMap.handleInsertedPrior] at hl
    refine ⟨[(i, s)], t, ?_, ha.ok, by rw [ha.eq]; simp, ?_, trim_mono _ (List.suffix_cons _ _), ha.right.valid⟩
    · unfold handleInsertedPrior
      by_cases hc : c.joining
      · rw [if_pos hc, if_neg (by simp)]
        simp only [IMap.joinsTo, if_pos hc] at hl
        split at hl
        · rename_i hj
          have : joinable o mapSeg (some m.1) (some i) t = some (false, t) := by
            unfold Tree.joinable
            rw [run_bind ha.right.deref, run_bind ha.deref, hj]; rfl
          rw [run_bind this, if_neg (by simp)]; rfl
        · simp at hl
      · rw [if_neg hc]; rfl
    · split at hl
      · exact Option.some.inj hl
      · simp at hl

theorem handleLeftCombined_at (ha : At t L i s R) {l' : List (I × V)}
    (hl : IMap.handleLeftCombined o c (snds L) s (snds R) = some l') :
    ∃ L' t', handleLeftCombined o c (some i) t = some ((), t') ∧ t'.Ok ∧ t'.nodes = L'.reverse ++ R ∧
      snds L' = l' ∧ trim c.joining L <:+ trim c.joining L' := by
  unfold IMap.handleLeftCombined at hl
  unfold handleLeftCombined
  rw [run_bind (absorbed_at ha)]
  split at hl
  · rename_i hc
    rw [if_pos hc]
    obtain ⟨t', r1, o1, e1, f1⟩ := ha.erase
    exact ⟨L, t', r1, o1, e1, Option.some.inj hl, List.suffix_rfl⟩
  · rename_i hc
    rw [if_neg hc]
    split at hl
    · rename_i hj
      rw [if_pos hj]
      obtain ⟨z, h1, h2⟩ := Option.map_eq_some_iff.1 hl
      obtain ⟨L', i', s', t', r1, a1, f1, rfl, l1⟩ := joinLeft_at ha h1
      rw [run_bind r1]
      refine ⟨(i', s') :: L', t', rfl, a1.ok, by rw [a1.eq]; simp, h2, trim_push ?_ _⟩
      rw [hj]; exact l1.trim
    · rename_i hj
      rw [if_neg hj]
      exact ⟨(i, s) :: L, t, rfl, ha.ok, by rw [ha.eq]; simp, Option.some.inj hl, trim_mono _ (List.suffix_cons _ _)⟩

theorem handlePreceededCombined_at (ha : At t L i s R) {l' : List (I × V)}
    (hl : IMap.handleCombined o c ⟨snds L, s, snds R⟩ = some l') {p : It} (hp : t.Valid p) (hne : p ≠ some i) :
    ∃ it t', handlePreceededCombined o c p (some i) t = some (it, t') ∧ t'.Ok ∧ t'.segs = l' ∧
      t'.Valid it ∧ Keeps2 c.joining L R t' := by
  unfold IMap.handleCombined at hl
  unfold handlePreceededCombined
  rw [run_bind (absorbed_at ha)]
  dsimp only at hl
  split at hl
  · rename_i hc
    rw [if_pos hc]
    obtain ⟨t', r1, o1, e1, f1⟩ := ha.erase
    rw [run_bind r1]
    refine ⟨p, t', rfl, o1, ?_, ha.valid_erased e1 hp hne, ?_⟩
    · rw [segs, e1, ← Option.some.inj hl]; simp [snds]
    · exact keeps2_of (X := []) e1 (trim_suffix _ _) (trim_suffix _ _)
  · rename_i hc
    rw [if_neg hc]
    split at hl
    · rename_i hj
      rw [if_pos hj]
      obtain ⟨z, h1, h2⟩ := Option.map_eq_some_iff.1 hl
      obtain ⟨L', i', s', R', t', r1, a1, f1, rfl, l1, l2⟩ := joinNeighbours_at ha h1
      refine ⟨_, t', r1, a1.ok, ?_, a1.valid, ?_⟩
      · rw [segs, a1.eq, ← h2]; simp [snds, Zip.toList]
      · rw [hj]; exact a1.keeps2 l1.trim l2.trim
    · rename_i hj
      rw [if_neg hj]
      refine ⟨_, t, rfl, ha.ok, ?_, ha.valid, ha.keeps2 (trim_suffix _ _) (trim_suffix _ _)⟩
      rw [segs, ha.eq, ← Option.some.inj hl]; simp [snds, Zip.toList]

theorem handleCombined_at (ha : At t L i s R) {l' : List (I × V)}
    (hl : IMap.handleCombined o c ⟨snds L, s, snds R⟩ = some l') :
    ∃ t', handleCombined o c (some i) t = some ((), t') ∧ t'.Ok ∧ t'.segs = l' ∧ Keeps2 c.joining L R t' := by
  unfold IMap.handleCombined at hl
  unfold handleCombined
  rw [run_bind (absorbed_at ha)]
  dsimp only at hl
  split at hl
  · rename_i hc
    rw [if_pos hc]
    obtain ⟨t', r1, o1, e1, f1⟩ := ha.erase
    refine ⟨t', r1, o1, ?_, ?_⟩
    · rw [segs, e1, ← Option.some.inj hl]; simp [snds]
    · exact keeps2_of (X := []) e1 (trim_suffix _ _) (trim_suffix _ _)
  · rename_i hc
    rw [if_neg hc]
    split at hl
    · rename_i hj
      rw [if_pos hj]
      obtain ⟨z, h1, h2⟩ := Option.map_eq_some_iff.1 hl
      obtain ⟨L', i', s', R', t', r1, a1, f1, rfl, l1, l2⟩ := joinNeighbours_at ha h1
      rw [run_bind r1]
      refine ⟨t', rfl, a1.ok, ?_, ?_⟩
      · rw [segs, a1.eq, ← h2]; simp [snds, Zip.toList]
      · rw [hj]; exact a1.keeps2 l1.trim l2.trim
    · rename_i hj
      rw [if_neg hj]
      refine ⟨t, rfl, ha.ok, ?_, ha.keeps2 (trim_suffix _ _) (trim_suffix _ _)⟩
      rw [segs, ha.eq, ← Option.some.inj hl]; simp [snds, Zip.toList]

theorem handleSucceededCombined_at {n : Nat × I × V} (ha : At t L i s (n :: R)) {l' : List (I × V)}
    (hl : IMap.handleSucceededCombined o c (snds L) s n.2 (snds R) = some l') :
    ∃ t', handleSucceededCombined o c (some i) (some n.1) t = some ((), t') ∧ t'.Ok ∧ t'.segs = l' ∧
      Keeps2 c.joining L R t' := by
  unfold IMap.handleSucceededCombined at hl
  unfold handleSucceededCombined
  rw [run_bind (absorbed_at ha)]
  split at hl
  · rename_i hc
    rw [if_pos hc]
    obtain ⟨t1, r1, o1, e1, f1⟩ := ha.erase
    have a1 : At t1 L n.1 n.2 R := ⟨o1, e1⟩
    rw [run_bind r1]
    split at hl
    · rename_i hj
      rw [if_pos hj]
      obtain ⟨z, h1, h2⟩ := Option.map_eq_some_iff.1 hl
      obtain ⟨s', R', t', r2, a2, f2, rfl, l2⟩ := joinRight_at a1 h1
      rw [run_bind r2]
      refine ⟨t', rfl, a2.ok, ?_, ?_⟩
      · rw [segs, a2.eq, ← h2]; simp [snds, Zip.toList]
      · rw [hj]; exact a2.keeps2 (trim_suffix _ _) l2.trim
    · rename_i hj
      rw [if_neg hj]
      refine ⟨t1, rfl, o1, ?_, a1.keeps2 (trim_suffix _ _) (trim_suffix _ _)⟩
      rw [segs, a1.eq, ← Option.some.inj hl]; simp [snds, Zip.toList]
  · rename_i hc
    rw [if_neg hc]
    split at hl
    · rename_i hj
      rw [if_pos hj]
      obtain ⟨z, h1, h2⟩ := Option.bind_eq_some_iff.1 hl
      obtain ⟨L', i', s', t1, r1, a1, f1, rfl, l1⟩ := joinLeft_at ha h1
      obtain ⟨z2, h3, h4⟩ := Option.map_eq_some_iff.1 h2
      obtain ⟨L2, i2, s2, R2, t2, r2, a2, f2, rfl, l3, l4⟩ := joinNeighbours_at (L := (i', s') :: L') a1.right h3
      rw [run_bind r1, run_bind r2]
      refine ⟨t2, rfl, a2.ok, ?_, ?_⟩
      · rw [segs, a2.eq, ← h4]; simp [snds, Zip.toList]
      · rw [hj]; exact a2.keeps2 (l1.trim.trans l3.trim) l4.trim
    · rename_i hj
      rw [if_neg hj]
      refine ⟨t, rfl, ha.ok, ?_, ?_⟩
      · rw [segs, ha.eq, ← Option.some.inj hl]; simp [snds, Zip.toList]
      · exact keeps2_of (X := [(i, s), n]) (by rw [ha.eq]; simp) (trim_suffix _ _) (trim_suffix _ _)

variable (h : o.Lawful)
include h

theorem gapInsert_at (ht : t.Ok) (e : t.nodes = L.reverse ++ R) {z : Zip (I × V)}
    (hz : IMap.gapInsert o c f (snds L) k v (snds R) = some z) {p : It} (hp : t.Valid p) :
    z = ⟨snds L, (k, f.version v), snds R⟩ ∧
    ∃ t', gapInsert o c f p k v t = some (some t.fresh, t') ∧ At t' L t.fresh (k, f.version v) R := by
  unfold IMap.gapInsert at hz
  split at hz
  · simp at hz
  · rename_i hc
    obtain ⟨rfl, t', r1, a1, f1⟩ := insertHint_eq h ht (g := mapSeg) e hz hp 0
    refine ⟨rfl, t', ?_, a1⟩
    obtain ⟨-, he⟩ := equalRange_insertAt h hz
    have he' : ICL.equalRange o mapSeg (snds t.nodes) k = some (snds L.reverse, [], snds R) := by
      rw [e]; simpa [snds] using he
    obtain ⟨A, B, C, h1, h2, h3, h4, h5⟩ := equalRange_node he'
    obtain rfl : B = [] := by simpa [snds] using h4
    unfold gapInsert
    rw [run_bind (equalRange_run h1)]
    dsimp only
    rw [List.nil_append, if_neg (by simpa using hc)]
    exact r1

theorem gapInsertAt_at (ha : At t L i s R) {l' : List (I × V)}
    (hl : IMap.gapInsertAt o c f (snds L) s (snds R) k v = some l') {p : It} (hp : t.Valid p) (hne : p ≠ some i) :
    ∃ it t', gapInsertAt o c f (some i) p k v t = some (it, t') ∧ t'.Ok ∧ t'.segs = l' ∧
      t'.Valid it ∧ Keeps2 c.joining L R t' := by
  unfold IMap.gapInsertAt at hl
  unfold gapInsertAt
  rw [run_bind (absorbed_at ha)]
  split at hl
  · rename_i hc
    rw [if_pos hc]
    obtain ⟨t1, r1, o1, e1, f1⟩ := ha.erase
    rw [run_bind r1]
    obtain ⟨z, h1, h2⟩ := Option.bind_eq_some_iff.1 hl
    obtain ⟨rfl, t2, r2, a2⟩ := gapInsert_at h o1 e1 h1 (ha.valid_erased e1 hp hne)
    rw [run_bind r2]
    split at h2
    · rename_i hj
      rw [if_pos hj]
      obtain ⟨z, h3, h4⟩ := Option.map_eq_some_iff.1 h2
      obtain ⟨s', R', t', r3, a3, f3, rfl, l2⟩ := joinRight_at a2 h3
      refine ⟨_, t', r3, a3.ok, ?_, a3.valid, ?_⟩
      · rw [segs, a3.eq, ← h4]; simp [snds, Zip.toList]
      · rw [hj]; exact a3.keeps2 (trim_suffix _ _) l2.trim
    · rename_i hj
      rw [if_neg hj]
      refine ⟨_, t2, rfl, a2.ok, ?_, a2.valid, a2.keeps2 (trim_suffix _ _) (trim_suffix _ _)⟩
      rw [segs, a2.eq, ← Option.some.inj h2]; simp [snds, Zip.toList]
  · rename_i hc
    rw [if_neg hc]
    split at hl
    · rename_i hj
      rw [if_pos hj]
      obtain ⟨z, h1, hl⟩ := Option.bind_eq_some_iff.1 hl
      obtain ⟨z2, h2, hl⟩ := Option.bind_eq_some_iff.1 hl
      obtain ⟨z3, h3, h4⟩ := Option.map_eq_some_iff.1 hl
      obtain ⟨L1, i1, s1, t1, r1, a1, f1, rfl, l1⟩ := joinLeft_at ha h1
      obtain ⟨rfl, t2, r2, a2⟩ := gapInsert_at h (L := (i1, s1) :: L1) (R := R) a1.ok (by rw [a1.eq]; simp) h2 a1.valid
      obtain ⟨L3, i3, s3, R3, t3, r3, a3, f3, rfl, l3, l4⟩ := joinNeighbours_at a2 h3
      rw [run_bind r1, run_bind r2]
      refine ⟨_, t3, r3, a3.ok, ?_, a3.valid, ?_⟩
      · rw [segs, a3.eq, ← h4]; simp [snds, Zip.toList]
      · rw [hj]; exact a3.keeps2 (l1.trim.trans l3.trim) l4.trim
    · rename_i hj
      rw [if_neg hj]
      obtain ⟨z, h1, h2⟩ := Option.map_eq_some_iff.1 hl
      obtain ⟨rfl, t1, r1, a1⟩ := gapInsert_at h (L := (i, s) :: L) (R := R) ha.ok (by rw [ha.eq]; simp) h1 ha.valid
      refine ⟨_, t1, r1, a1.ok, ?_, a1.valid,
        a1.keeps2 ((trim_suffix _ _).trans (List.suffix_cons _ _)) (trim_suffix _ _)⟩
      rw [segs, a1.eq, ← h2]; simp [snds, Zip.toList]

theorem addFront_at (ha : At t L i s R) {l' : List (I × V)} {s' : I × V}
    (hl : IMap.addFront o (snds L) s (snds R) k = some (l', s')) :
    ∃ L' t', addFront o k (some i) t = some ((), t') ∧ At t' L' i s' R ∧ snds L' = l' ∧ L <:+ L' := by
  unfold IMap.addFront at hl
  unfold addFront
  rw [run_bind ha.deref]
  dsimp only at hl
  split at hl
  · rename_i hc
    rw [if_pos hc]
    obtain ⟨rfl, rfl⟩ := Prod.mk.inj (Option.some.inj hl)
    exact ⟨L, t, rfl, ha, rfl, List.suffix_rfl⟩
  · rename_i hc
    rw [if_neg hc, run_bind ha.cyclicPrior]
    obtain ⟨z, h1, h2⟩ := Option.bind_eq_some_iff.1 hl
    obtain ⟨t1, r1, a1, f1⟩ := ha.modify fun s' => (o.leftSubtract s'.1 (o.rightSubtract s.1 k), s'.2)
    rw [run_bind r1, run_bind a1.deref]
    obtain ⟨rfl, t2, r2, a2, f2⟩ := insertHint_eq h a1.ok (g := mapSeg) (L := L)
      (R := (i, (o.leftSubtract s.1 (o.rightSubtract s.1 k), s.2)) :: R) a1.eq h1 a1.validLeft 0
    rw [run_bind r2]
    obtain ⟨rfl, rfl⟩ := Prod.mk.inj (Option.some.inj h2)
    exact ⟨_, t2, rfl, a2.right, rfl, List.suffix_cons _ _⟩

theorem insertGap_at (ha : At t L i s R) {p : It} {first : Option (I × V)} (hp : PriorOf L ((i, s) :: R) p first)
    (hv : t.Valid p) {l' : List (I × V)} (hl : IMap.addLeadGap o c f first (snds L) s (snds R) k v = some l') :
    ∃ L' t', insertGap o c f p (o.rightSubtract k s.1) v t = some ((), t') ∧ At t' L' i s R ∧
      snds L' = l' ∧ trim c.joining L <:+ trim c.joining L' ∧ t'.Valid p := by
  unfold IMap.addLeadGap at hl
  unfold insertGap
  dsimp only at hl
  split at hl
  · rename_i hc
    rw [if_pos hc]
    exact ⟨L, t, rfl, ha, Option.some.inj hl, List.suffix_rfl, hv⟩
  · rename_i hc
    rw [if_neg hc]
    obtain ⟨z, h1, h2⟩ := Option.bind_eq_some_iff.1 hl
    obtain ⟨rfl, t1, r1, a1⟩ := gapInsert_at h (L := L) (R := (i, s) :: R) ha.ok ha.eq h1 hv
    obtain ⟨L', t', r2, o2, e2, s2, x2, v2⟩ := handleInsertedPrior_at a1 hp h2
    rw [run_bind r1]
    exact ⟨L', t', r2, ⟨o2, e2⟩, s2, x2, v2⟩

theorem addSegment_at (ha : At t L i s R) {l' : List (I × V)}
    (hl : IMap.addSegment o c f (snds L) s (snds R) k v = some l') :
    ∃ L' t', addSegment o c f k v (some i) t = some (hd R, t') ∧ t'.Ok ∧ t'.nodes = L'.reverse ++ R ∧
      snds L' = l' ∧ trim c.joining L <:+ trim c.joining L' := by
  unfold IMap.addSegment at hl
  obtain ⟨l1, h1, h2⟩ := Option.bind_eq_some_iff.1 hl
  have key : ∃ p, ((if some i = hd t.nodes then pure (some i) else prior (some i)) : TreeM (I × V) It) t = some (p, t) ∧
      PriorOf L ((i, s) :: R) p (some s) ∧ t.Valid p := by
    cases L with
    | nil =>
      rw [if_pos (ha.isFirst.2 rfl)]
      exact ⟨some i, rfl, .inr (.inr ⟨rfl, _, _, rfl, rfl, rfl⟩), ha.valid⟩
    | cons n L =>
      rw [if_neg (fun e => by simpa using ha.isFirst.1 e)]
      exact ⟨some n.1, ha.prior, .inl ⟨_, _, rfl, rfl⟩, ha.left.valid⟩
  obtain ⟨p, r0, hp, hv⟩ := key
  obtain ⟨L1, t1, r1, a1, rfl, x1, -⟩ := insertGap_at h ha hp hv h1
  obtain ⟨t2, r2, a2, f2⟩ := combine_at (f := f) (v := v) a1
  obtain ⟨L3, t3, r3, o3, e3, s3, x3⟩ := handleLeftCombined_at a2 h2
  refine ⟨L3, t3, ?_, o3, e3, s3, x1.trans x3⟩
  unfold addSegment
  rw [run_bind ha.deref, run_bind ha.first]
  by_cases hc : some i = hd t.nodes
  · rw [if_pos hc] at r0 ⊢
    rw [run_bind r0]
    dsimp only
    rw [run_bind r1, run_bind r2, run_bind a2.next, run_bind r3]
    rfl
  · rw [if_neg hc] at r0 ⊢
    rw [run_bind r0]
    dsimp only
    rw [run_bind r1, run_bind r2, run_bind a2.next, run_bind r3]
    rfl

theorem addMain_at :
    ∀ (B : List (Nat × I × V)) {t : Tree (I × V)} {L : List (Nat × I × V)} {i : Nat} {s : I × V} {k : I} {n : Nat}
      {l' : List (I × V)} {s' : I × V} {k' : I},
      At t L i s (B ++ C) → B.length < n →
      IMap.addMain o c f v (snds L) k s (snds B) (snds C) = some (l', s', k') →
      ∃ L' j t', addMain o c f v (some (B.getLastD (i, s)).1) n k (some i) t = some ((some j, k'), t') ∧
        At t' L' j s' C ∧ snds L' = l' ∧ trim c.joining L <:+ trim c.joining L'
  | [], t, L, i, s, k, n + 1, l', s', k', ha, hn, hl => by
    unfold addMain
    rw [if_pos (by simp)]
    simp only [snds, List.map_nil, IMap.addMain, Option.some.injEq, Prod.mk.injEq] at hl
    obtain ⟨rfl, rfl, rfl⟩ := hl
    exact ⟨L, i, t, rfl, ha, rfl, List.suffix_rfl⟩
  | m :: B, t, L, i, s, k, n + 1, l', s', k', ha, hn, hl => by
    unfold addMain
    rw [if_neg ha.ne_last, run_bind ha.deref, List.getLastD_cons]
    simp only [snds, List.map_cons, IMap.addMain] at hl
    obtain ⟨l1, h1, h2⟩ := Option.bind_eq_some_iff.1 hl
    obtain ⟨L1, t1, r1, o1, e1, rfl, x1⟩ := addSegment_at h ha (by simpa [snds] using h1)
    have a1 : At t1 L1 m.1 m.2 (B ++ C) := ⟨o1, by rw [e1]; simp⟩
    rw [run_bind r1]
    obtain ⟨L', j, t', r2, a2, e2, x2⟩ := addMain_at B (n := n) a1 (by simpa using hn) h2
    exact ⟨L', j, t', r2, a2, e2, x1.trans x2⟩

theorem addRear_at (ha : At t L i s C) {l' : List (I × V)}
    (hl : IMap.addRear o c f v (snds L) s (snds C) k = some l') :
    ∃ it t', addRear o c f k v (some i) t = some (it, t') ∧ t'.Ok ∧ t'.segs = l' ∧ t'.Valid it ∧
      Keeps2 c.joining L C t' := by
  unfold IMap.addRear at hl
  obtain ⟨l1, h1, hl⟩ := Option.bind_eq_some_iff.1 hl
  have hp : PriorOf L ((i, s) :: C) (hd L) none := by
    cases L with
    | nil => exact .inr (.inl ⟨rfl, rfl, rfl⟩)
    | cons n L => exact .inl ⟨n, L, rfl, rfl⟩
  obtain ⟨L1, t1, r1, a1, rfl, x1, v1⟩ := insertGap_at h ha hp ha.validLeft h1
  unfold addRear
  rw [run_bind ha.cyclicPrior, run_bind ha.deref, run_bind r1]
  dsimp only at hl
  split at hl
  · rename_i hc
    rw [if_pos hc]
    obtain ⟨t2, r2, a2, f2⟩ := combine_at (f := f) (v := v) a1
    rw [run_bind r2]
    have v2 : t2.Valid (hd L) := by
      intro j hj
      have := v1 j hj
      rw [a1.eq] at this
      rw [a2.eq]
      simpa using this
    obtain ⟨it, t3, r3, o3, s3, v3, k3⟩ := gapInsertAt_at h a2 hl v2 ha.hd_ne
    exact ⟨it, t3, r3, o3, s3, v3, k3.mono x1 List.suffix_rfl⟩
  · rename_i hc
    rw [if_neg hc]
    split at hl
    · rename_i hc2
      rw [if_pos hc2]
      obtain ⟨t2, r2, a2, f2⟩ := combine_at (f := f) (v := v) a1
      rw [run_bind r2]
      have v2 : t2.Valid (hd L) := by
        intro j hj
        have := v1 j hj
        rw [a1.eq] at this
        rw [a2.eq]
        simpa using this
      obtain ⟨it, t3, r3, o3, s3, v3, k3⟩ := handlePreceededCombined_at a2 hl v2 ha.hd_ne
      exact ⟨it, t3, r3, o3, s3, v3, k3.mono x1 List.suffix_rfl⟩
    · rename_i hc2
      rw [if_neg hc2]
      split at hl
      · simp at hl
      rename_i ins hins
      obtain ⟨t2, r2, a2, f2⟩ := a1.modify fun s' => (o.rightSubtract s'.1 (o.leftSubtract s.1 k), s'.2)
      rw [run_bind r2, run_bind a2.deref]
      obtain ⟨rfl, t3, r3, a3, f3⟩ := insertHint_eq h a2.ok (g := mapSeg)
        (L := (i, (o.rightSubtract s.1 (o.leftSubtract s.1 k), s.2)) :: L1) (R := C) (by rw [a2.eq]; simp) hins
        a2.valid 0
      rw [run_bind r3]
      have key : ∃ s4 R4 t4, handleReinserted o c (some t2.fresh) t3 = some ((), t4) ∧
          At t4 ((i, (o.rightSubtract s.1 (o.leftSubtract s.1 k), s.2)) :: L1) t2.fresh s4 R4 ∧
          trim c.joining C <:+ R4 ∧
          IMap.handleCombined o c ⟨snds L1, IMap.combine f (o.rightSubtract s.1 (o.leftSubtract s.1 k), s.2) v,
            s4 :: snds R4⟩ = some l' := by
        unfold handleReinserted
        by_cases hj : c.joining = true
        · rw [if_pos hj] at hl ⊢
          split at hl
          · simp at hl
          rename_i z hz
          obtain ⟨s4, R4, t4, r4, a4, f4, rfl, l4⟩ := joinRight_at a3 hz
          rw [run_bind r4]
          exact ⟨s4, R4, t4, rfl, a4, by rw [hj]; exact l4.trim, hl⟩
        · rw [if_neg hj] at hl ⊢
          exact ⟨_, C, t3, rfl, a3, trim_suffix _ _, hl⟩
      obtain ⟨s4, R4, t4, r4, a4, x4, hl⟩ := key
      rw [run_bind r4]
      have hne : some t2.fresh ≠ some i := fun e => by
        have hn := a4.ok.nodup
        rw [a4.eq] at hn
        exact nodup_split hn (i, (o.rightSubtract s.1 (o.leftSubtract s.1 k), s.2)) (by simp) (Option.some.inj e).symm
      obtain ⟨t5, r5, a5, f5⟩ := combine_at (f := f) (v := v) a4.left
      rw [run_bind r5]
      obtain ⟨it, t6, r6, o6, s6, v6, k6⟩ := handlePreceededCombined_at a5 (p := some t2.fresh)
        (by simpa [snds] using hl) a5.right.valid hne
      exact ⟨it, t6, r6, o6, s6, v6, k6.mono x1 (trim_push x4 _)⟩

theorem addOver_at (ht : t.Ok) {A B C : List (Nat × I × V)} {g : Nat × I × V} (e : t.nodes = A ++ (g :: B ++ C))
    {l' : List (I × V)} (hl : IMap.addOver o c f (snds A) g.2 (snds B) (snds C) k v = some l') :
    ∃ it t', addOver o c f k v (some g.1) (some (B.getLastD g).1) t = some (it, t') ∧ t'.Ok ∧ t'.segs = l' ∧
      t'.Valid it ∧ Keeps2 c.joining A.reverse C t' := by
  obtain ⟨⟨l1, s1⟩, h1, hl⟩ := Option.bind_eq_some_iff.1 hl
  obtain ⟨⟨l2, s2, k2⟩, h2, h3⟩ := Option.bind_eq_some_iff.1 hl
  dsimp only at h2 h3
  have af : At t A.reverse g.1 g.2 (B ++ C) := ⟨ht, by rw [e]; simp⟩
  obtain ⟨L1, t1, r1, a1, rfl, x1⟩ := addFront_at h af (by simpa [snds] using h1)
  have hn : B.length < t1.nodes.length := by rw [a1.eq]; simp; omega
  obtain ⟨L2, j, t2, r2, a2, rfl, x2⟩ := addMain_at h B a1 hn h2
  obtain ⟨it, t3, r3, o3, s3, v3, k3⟩ := addRear_at h a2 h3
  refine ⟨it, t3, ?_, o3, s3, v3, k3.mono ((trim_mono _ x1).trans x2) List.suffix_rfl⟩
  have hlast : (B.getLastD (g.1, s1)).1 = (B.getLastD g).1 := by
    cases B with
    | nil => rfl
    | cons b B => rw [List.getLastD_cons, List.getLastD_cons]
  rw [hlast] at r2
  unfold addOver
  rw [run_bind r1, run_bind (run_get t1), run_bind r2]
  exact r3

theorem subMain_at :
    ∀ (B : List (Nat × I × V)) {t : Tree (I × V)} {L : List (Nat × I × V)} {i : Nat} {s : I × V} {n : Nat}
      {l' : List (I × V)} {s' : I × V},
      At t L i s (B ++ C) → B.length < n →
      IMap.subMain o c f v (snds L) s (snds B) (snds C) = some (l', s') →
      ∃ L' j t', subMain o c f v (some (B.getLastD (i, s)).1) n (some i) t = some (some j, t') ∧
        At t' L' j s' C ∧ snds L' = l' ∧ trim c.joining L <:+ trim c.joining L'
  | [], t, L, i, s, n + 1, l', s', ha, hn, hl => by
    unfold subMain
    rw [if_pos (by simp)]
    simp only [snds, List.map_nil, IMap.subMain, Option.some.injEq, Prod.mk.injEq] at hl
    obtain ⟨rfl, rfl⟩ := hl
    exact ⟨L, i, t, rfl, ha, rfl, List.suffix_rfl⟩
  | m :: B, t, L, i, s, n + 1, l', s', ha, hn, hl => by
    unfold subMain
    rw [if_neg ha.ne_last, List.getLastD_cons]
    simp only [snds, List.map_cons, IMap.subMain] at hl
    obtain ⟨l1, h1, h2⟩ := Option.bind_eq_some_iff.1 hl
    obtain ⟨t1, r1, a1, f1⟩ := combine_at (f := f) (v := v) ha
    obtain ⟨L2, t2, r2, o2, e2, rfl, x2⟩ := handleLeftCombined_at a1 (by simpa [snds] using h1)
    have a2 : At t2 L2 m.1 m.2 (B ++ C) := ⟨o2, by rw [e2]; simp⟩
    rw [run_bind r1, run_bind a1.next, run_bind r2]
    obtain ⟨L', j, t', r3, a3, e3, x3⟩ := subMain_at B (n := n) a2 (by simpa using hn) h2
    exact ⟨L', j, t', r3, a3, e3, x2.trans x3⟩

theorem subRear_at (ha : At t L i s C) {l' : List (I × V)}
    (hl : IMap.subRear o c f v (snds L) s (snds C) k = some l') :
    ∃ t', subRear o c f k v (some i) t = some ((), t') ∧ t'.Ok ∧ t'.segs = l' ∧ Keeps2 c.joining L C t' := by
  unfold IMap.subRear at hl
  unfold subRear
  rw [run_bind ha.deref]
  dsimp only at hl
  split at hl
  · rename_i hc
    rw [if_pos hc]
    obtain ⟨t2, r2, a2, f2⟩ := combine_at (f := f) (v := v) ha
    rw [run_bind r2]
    exact handleCombined_at a2 hl
  · rename_i hc
    rw [if_neg hc]
    obtain ⟨z, h1, h2⟩ := Option.bind_eq_some_iff.1 hl
    obtain ⟨t2, r2, a2, f2⟩ := ha.modify fun s' => (o.rightSubtract s'.1 (o.leftSubtract s.1 k), s'.2)
    rw [run_bind r2, run_bind a2.deref]
    obtain ⟨rfl, t3, r3, a3, f3⟩ := insertHint_eq h a2.ok (g := mapSeg)
      (L := (i, (o.rightSubtract s.1 (o.leftSubtract s.1 k), s.2)) :: L) (R := C) (by rw [a2.eq]; simp) h1 a2.valid 0
    rw [run_bind r3]
    obtain ⟨t4, r4, a4, f4⟩ := combine_at (f := f) (v := v) a3.left
    rw [run_bind r4]
    exact handleSucceededCombined_at a4 h2

/-- The operation works, gives a proper iterator and keeps the nodes that are not reached from the range. -/
def Ran (c : MapCfg V) (o : IntervalOps D I) (t : Tree (I × V)) (k : I) (it : It) (t' : Tree (I × V)) : Prop :=
  t'.Valid it ∧ (t' = t ∨ o.isEmpty k = false ∧ ∃ A B C, ICL.equalRange o (nodeSeg mapSeg) t.nodes k = some (A, B, C) ∧
    Keeps2 c.joining A.reverse C t')

theorem addC_run {t : Tree (I × V)} (ht : t.Ok) {k : I} {v : V} {l : List (I × V)}
    (hl : IMap.addC o c f t.segs k v = some l) (pick : Nat) :
    ∃ it t', addC o c f pick k v t = some (it, t') ∧ t'.Ok ∧ t'.segs = l ∧ Ran c o t k it t' := by
  unfold IMap.addC at hl
  unfold addC
  split at hl
  · rename_i hc
    rw [if_pos hc]
    exact ⟨none, t, rfl, ht, Option.some.inj hl, valid_none, .inl rfl⟩
  rename_i hc
  rw [if_neg hc]
  split at hl
  · rename_i hc
    rw [if_pos hc]
    exact ⟨none, t, rfl, ht, Option.some.inj hl, valid_none, .inl rfl⟩
  rename_i hv
  rw [if_neg hv]
  obtain ⟨⟨a, b, d⟩, h1, h2⟩ := Option.bind_eq_some_iff.1 hl
  obtain ⟨A, B, C, he, e, rfl, rfl, rfl⟩ := equalRange_node h1
  cases B with
  | nil =>
    obtain ⟨t1, r1, a1, f1⟩ := insert_new ht (g := mapSeg) (s := (k, f.version v)) e he pick
    rw [run_bind r1]
    obtain ⟨z, h3, h4⟩ := Option.map_eq_some_iff.1 h2
    obtain ⟨L, i, s, R, t', r2, a2, rfl, x1, x2, -⟩ := handleInserted_at a1 (by simpa [snds] using h3)
    refine ⟨_, t', r2, a2.ok, ?_, a2.valid, .inr ⟨by simpa using hc, A, [], C, he, a2.keeps2 x1 x2⟩⟩
    rw [segs, a2.eq, ← h4]; simp [snds, Zip.toList]
  | cons g B =>
    rw [run_bind (insert_old (g := mapSeg) (s := (k, f.version v)) he pick)]
    obtain ⟨L0, r1, a1, -⟩ := prior_end ht (n := g) e
    obtain ⟨it, t', r2, o2, s2, v2, k2⟩ := addOver_at h ht e h2
    refine ⟨it, t', ?_, o2, s2, v2, .inr ⟨by simpa using hc, A, g :: B, C, he, k2⟩⟩
    dsimp only
    rw [if_neg (by simp), run_bind (lowerBound_run he), run_bind (upperBound_run he), run_bind r1]
    exact r2

theorem addHintC_run {t : Tree (I × V)} (ht : t.Ok) {k : I} {v : V} {l : List (I × V)} {pick : Nat}
    (hl : IMap.addHintC o c f pick t.segs k v = some l) {p : It} (hp : t.Valid p) :
    ∃ it t', addHintC o c f pick p k v t = some (it, t') ∧ t'.Ok ∧ t'.segs = l ∧ Ran c o t k it t' := by
  unfold IMap.addHintC at hl
  unfold addHintC
  split at hl
  · rename_i hc
    rw [if_pos hc]
    exact ⟨p, t, rfl, ht, Option.some.inj hl, hp, .inl rfl⟩
  rename_i hc
  rw [if_neg hc]
  split at hl
  · rename_i hc
    rw [if_pos hc]
    exact ⟨p, t, rfl, ht, Option.some.inj hl, hp, .inl rfl⟩
  rename_i hv
  rw [if_neg hv]
  obtain ⟨⟨a, b, d⟩, h1, h2⟩ := Option.bind_eq_some_iff.1 hl
  obtain ⟨A, B, C, he, e, rfl, rfl, rfl⟩ := equalRange_node h1
  cases B with
  | nil =>
    obtain ⟨t1, r1, a1, f1⟩ := insert_new ht (g := mapSeg) (s := (k, c.ident)) e he pick
    have r1' : Tree.insertHint o mapSeg pick p (k, c.ident) t = some (some t.fresh, t1) := by
      simp only [Tree.insertHint, if_pos hp, r1, Option.map_some]
    have hkk : o.eq k k = true := Sets.eq_self h (by simpa using hc)
    obtain ⟨t2, r2, a2, f2⟩ := combine_at (f := f) (v := v) a1
    have r3 : addAt o c f pick p k v t = some ((some t.fresh, true), t2) := by
      unfold addAt
      rw [run_bind r1', run_bind a1.deref, if_pos (by simp [hkk]), run_bind r2]
      rfl
    rw [run_bind r3]
    obtain ⟨z, h3, h4⟩ := Option.map_eq_some_iff.1 h2
    obtain ⟨L, i, s, R, t', r4, a4, rfl, x1, x2, -⟩ := handleInserted_at a2
      (by simpa [snds, IMap.combine] using h3)
    refine ⟨_, t', r4, a4.ok, ?_, a4.valid, .inr ⟨by simpa using hc, A, [], C, he, a4.keeps2 x1 x2⟩⟩
    rw [segs, a4.eq, ← h4]; simp [snds, Zip.toList]
  | cons g B =>
    have r1 : Tree.insertHint o mapSeg pick p (k, c.ident) t =
        some (some ((g :: B).getD (pick % (B.length + 1)) g).1, t) := by
      simp only [Tree.insertHint, if_pos hp, insert_old (g := mapSeg) (s := (k, c.ident)) he pick, Option.map_some]
    have hs := getD_split g B (pick % (B.length + 1)) (Nat.mod_lt _ (Nat.succ_pos _))
    have af : At t (((g :: B).take (pick % (B.length + 1))).reverse ++ A.reverse)
        ((g :: B).getD (pick % (B.length + 1)) g).1 ((g :: B).getD (pick % (B.length + 1)) g).2
        ((g :: B).drop (pick % (B.length + 1) + 1) ++ C) := by
      refine ⟨ht, ?_⟩
      rw [e]
      conv_lhs => rw [hs]
      simp
    simp only [snds, List.map_cons] at h2
    rw [List.length_map, getD_snd] at h2
    split at h2
    · rename_i hq
      obtain ⟨t2, r2, a2, f2⟩ := combine_at (f := f) (v := v) af
      have r3 : addAt o c f pick p k v t =
          some ((some ((g :: B).getD (pick % (B.length + 1)) g).1, true), t2) := by
        unfold addAt
        rw [run_bind r1, run_bind af.deref, if_pos hq, run_bind r2]
        rfl
      rw [run_bind r3]
      obtain ⟨z, h3, h4⟩ := Option.map_eq_some_iff.1 h2
      obtain ⟨L, i, s, R, t', r4, a4, rfl, x1, x2, -⟩ := handleInserted_at a2 (by
        simpa [snds, List.map_take, List.map_drop] using h3)
      refine ⟨_, t', r4, a4.ok, ?_, a4.valid, .inr ⟨by simpa using hc, A, g :: B, C, he, a4.keeps2 ?_ ?_⟩⟩
      · rw [segs, a4.eq, ← h4]; simp [snds, Zip.toList]
      · exact (trim_mono _ (List.suffix_append _ _)).trans x1
      · exact (trim_mono _ (List.suffix_append _ _)).trans x2
    · rename_i hq
      have r3 : addAt o c f pick p k v t =
          some ((some ((g :: B).getD (pick % (B.length + 1)) g).1, false), t) := by
        unfold addAt
        rw [run_bind r1, run_bind af.deref, if_neg hq]
        rfl
      rw [run_bind r3]
      obtain ⟨L0, r4, a4, -⟩ := prior_end ht (n := g) e
      obtain ⟨it, t', r2, o2, s2, v2, k2⟩ := addOver_at h ht e h2
      refine ⟨it, t', ?_, o2, s2, v2, .inr ⟨by simpa using hc, A, g :: B, C, he, k2⟩⟩
      dsimp only
      rw [if_neg (by simp), run_bind (equalRange_run he)]
      dsimp only
      rw [run_bind r4]
      exact r2

theorem subC_run {t : Tree (I × V)} (ht : t.Ok) {k : I} {v : V} {l : List (I × V)}
    (hl : IMap.subC o c f t.segs k v = some l) :
    ∃ t', subC o c f k v t = some ((), t') ∧ t'.Ok ∧ t'.segs = l ∧ Ran c o t k none t' := by
  unfold IMap.subC at hl
  unfold subC
  split at hl
  · rename_i hc
    rw [if_pos hc]
    exact ⟨t, rfl, ht, Option.some.inj hl, valid_none, .inl rfl⟩
  rename_i hc
  rw [if_neg hc]
  split at hl
  · rename_i hc
    rw [if_pos hc]
    exact ⟨t, rfl, ht, Option.some.inj hl, valid_none, .inl rfl⟩
  rename_i hv
  rw [if_neg hv]
  obtain ⟨⟨a, b, d⟩, h1, h2⟩ := Option.bind_eq_some_iff.1 hl
  obtain ⟨A, B, C, he, e, rfl, rfl, rfl⟩ := equalRange_node h1
  rw [run_bind (equalRange_run he)]
  dsimp only
  cases B with
  | nil =>
    rw [List.nil_append, if_pos rfl]
    exact ⟨t, rfl, ht, Option.some.inj h2, valid_none, .inl rfl⟩
  | cons g B =>
    rw [if_neg (hd_ne ht e)]
    obtain ⟨L0, r1, a1, -⟩ := prior_end ht (n := g) e
    simp only [snds, List.map_cons] at h2
    obtain ⟨⟨l1, s1⟩, h3, h4⟩ := Option.bind_eq_some_iff.1 h2
    obtain ⟨⟨l2, s2⟩, h5, h6⟩ := Option.bind_eq_some_iff.1 h4
    dsimp only at h5 h6
    have af : At t A.reverse g.1 g.2 (B ++ C) := ⟨ht, by rw [e]; simp⟩
    obtain ⟨L2, t2, r2, a2, rfl, x2⟩ := addFront_at h af (by simpa [snds] using h3)
    have hn : B.length < t2.nodes.length := by rw [a2.eq]; simp; omega
    obtain ⟨L3, j, t3, r3, a3, rfl, x3⟩ := subMain_at h B a2 hn h5
    obtain ⟨t4, r4, o4, s4, k4⟩ := subRear_at h a3 h6
    have hlast : (B.getLastD (g.1, s1)).1 = (B.getLastD g).1 := by
      cases B with
      | nil => rfl
      | cons b B => rw [List.getLastD_cons, List.getLastD_cons]
    rw [hlast] at r3
    refine ⟨t4, ?_, o4, s4, valid_none, .inr ⟨by simpa using hc, A, g :: B, C, he,
      k4.mono ((trim_mono _ x2).trans x3) List.suffix_rfl⟩⟩
    rw [run_bind r1, List.cons_append, hd_cons, run_bind r2, run_bind (run_get t2), run_bind r3]
    exact r4

theorem insertLoop_at : ∀ (n m : Nat) (M : List (Nat × I × V)) {t : Tree (I × V)} {L : List (Nat × I × V)} {rest : I}
    {l' : List (I × V)} {rest' : I} {p' : List (I × V)},
    t.Ok → t.nodes = L.reverse ++ (M ++ C) → n < m →
    IMap.insertLoop o c v n (snds L) rest (snds M) (snds C) = some (l', rest', p') →
    ∃ it L' t', insertLoop o c v (hd C) m rest (hd (M ++ C)) (hd L) t = some ((it, hd L', rest'), t') ∧ t'.Ok ∧
      t'.nodes = L'.reverse ++ C ∧ snds L' = l' ∧ p' = snds C ∧ trim c.joining L <:+ trim c.joining L'
  | n, m + 1, [], t, L, rest, l', rest', p', ht, e, hn, hl => by
    unfold insertLoop
    rw [List.nil_append, if_pos rfl]
    simp only [snds, List.map_nil, IMap.insertLoop, Option.some.injEq, Prod.mk.injEq] at hl
    obtain ⟨rfl, rfl, rfl⟩ := hl
    exact ⟨_, L, t, rfl, ht, by simpa using e, rfl, rfl, List.suffix_rfl⟩
  | 0, m + 1, g :: M, t, L, rest, l', rest', p', ht, e, hn, hl => by
    simp [snds, IMap.insertLoop] at hl
  | n + 1, m + 1, g :: M, t, L, rest, l', rest', p', ht, e, hn, hl => by
    unfold insertLoop
    rw [if_neg (hd_ne ht e), List.cons_append, hd_cons]
    have ha : At t L g.1 g.2 (M ++ C) := ⟨ht, e⟩
    rw [run_bind ha.deref]
    simp only [snds, List.map_cons, IMap.insertLoop] at hl
    split at hl
    · rename_i hc
      rw [if_pos hc, run_bind ha.next]
      obtain ⟨it, L', t', r1, o1, e1, s1, p1, x1⟩ := insertLoop_at n m M (L := g :: L) ht (by rw [e]; simp)
        (by omega) hl
      exact ⟨it, L', t', r1, o1, e1, s1, p1, (trim_mono _ (List.suffix_cons _ _)).trans x1⟩
    · rename_i hc
      rw [if_neg hc]
      split at hl
      · simp at hl
      rename_i z hz
      obtain ⟨z0, h1, h2⟩ := Option.bind_eq_some_iff.1 hz
      obtain ⟨rfl, t1, r1, a1, f1⟩ := insertHint_eq h ht (g := mapSeg) (L := L) (R := g :: (M ++ C)) e
        (by simpa [snds] using h1) ha.validLeft 0
      obtain ⟨L2, i2, s2, R2, t2, r2, a2, rfl, x1, x2, hR⟩ := handleInserted_at a1 h2
      rw [run_bind r1, run_bind r2, run_bind a2.next]
      dsimp only at hl
      rcases hR with rfl | rfl
      · rw [if_neg (by simp)] at hl
        obtain ⟨it, L', t', r3, o3, e3, s3, p3, x3⟩ := insertLoop_at n m (g :: M) (L := (i2, s2) :: L2) a2.ok
          (by rw [a2.eq]; simp) (by omega) hl
        exact ⟨it, L', t', r3, o3, e3, s3, p3, (trim_push x1 _).trans x3⟩
      · rw [if_pos (by simp)] at hl
        obtain ⟨it, L', t', r3, o3, e3, s3, p3, x3⟩ := insertLoop_at n m M (L := (i2, s2) :: L2) a2.ok
          (by rw [a2.eq]; simp) (by omega) hl
        exact ⟨it, L', t', r3, o3, e3, s3, p3, (trim_push x1 _).trans x3⟩

theorem insertMain_at (ht : t.Ok) {A B C : List (Nat × I × V)} {g : Nat × I × V} (e : t.nodes = A ++ (g :: B ++ C))
    {l' : List (I × V)} (hl : IMap.insertMain o c (snds A) g.2 (snds B) (snds C) k v = some l') :
    ∃ it t', insertMain o c k v (some g.1) (some (B.getLastD g).1) t = some (it, t') ∧ t'.Ok ∧ t'.segs = l' ∧
      t'.Valid it ∧ Keeps2 c.joining A.reverse C t' := by
  unfold IMap.insertMain at hl
  obtain ⟨⟨l1, rest, post⟩, h1, h2⟩ := Option.bind_eq_some_iff.1 hl
  dsimp only at h2
  obtain ⟨L0, r0, a0, -⟩ := prior_end ht (n := g) e
  have af : At t A.reverse g.1 g.2 (B ++ C) := ⟨ht, by rw [e]; simp⟩
  have hn : 2 * ((snds B).length + 1) < 2 * t.nodes.length + 1 := by rw [e]; simp; omega
  obtain ⟨it, L1, t1, r1, o1, e1, rfl, rfl, x1⟩ := insertLoop_at h _ _ (g :: B) (L := A.reverse) (C := C) ht
    (by rw [e]; simp) hn (by simpa [snds] using h1)
  unfold insertMain
  rw [run_bind a0.next, run_bind af.cyclicPrior, run_bind a0.deref, run_bind (run_get t)]
  rw [List.cons_append, hd_cons] at r1
  rw [run_bind r1]
  rw [show ((snds B).getLastD g.2) = (B.getLastD g).2 from getLastD_snd B g] at h2
  dsimp only
  split at h2
  · rename_i hc
    rw [if_pos hc]
    refine ⟨hd L1, t1, rfl, o1, ?_, ?_, keeps2_of (X := []) (by rw [e1]; rfl) (x1.trans (trim_suffix _ _)) (trim_suffix _ _)⟩
    · rw [segs, e1, ← Option.some.inj h2]; simp [snds]
    · cases L1 with
      | nil => exact valid_none
      | cons n L1 => exact (show At t1 L1 n.1 n.2 C from ⟨o1, by rw [e1]; simp⟩).valid
  · rename_i hc
    rw [if_neg hc]
    obtain ⟨z, h3, h4⟩ := Option.bind_eq_some_iff.1 h2
    have hv : t1.Valid (hd L1) := by
      cases L1 with
      | nil => exact valid_none
      | cons n L1 => exact (show At t1 L1 n.1 n.2 C from ⟨o1, by rw [e1]; simp⟩).valid
    obtain ⟨rfl, t2, r2, a2, f2⟩ := insertHint_eq h o1 (g := mapSeg) e1 h3 hv 0
    obtain ⟨z, h5, h6⟩ := Option.map_eq_some_iff.1 h4
    obtain ⟨L3, i3, s3, R3, t3, r3, a3, rfl, y1, y2, -⟩ := handleInserted_at a2 h5
    rw [run_bind r2]
    refine ⟨_, t3, r3, a3.ok, ?_, a3.valid, a3.keeps2 (x1.trans y1) y2⟩
    rw [segs, a3.eq, ← h6]; simp [snds, Zip.toList]

theorem insert_run {t : Tree (I × V)} (ht : t.Ok) {k : I} {v : V} {l : List (I × V)}
    (hl : IMap.insert o c t.segs k v = some l) (pick : Nat) :
    ∃ it t', insert o c pick k v t = some (it, t') ∧ t'.Ok ∧ t'.segs = l ∧ Ran c o t k it t' := by
  unfold IMap.insert at hl
  unfold insert
  split at hl
  · rename_i hc
    rw [if_pos hc]
    exact ⟨none, t, rfl, ht, Option.some.inj hl, valid_none, .inl rfl⟩
  rename_i hc
  rw [if_neg hc]
  split at hl
  · rename_i hc
    rw [if_pos hc]
    exact ⟨none, t, rfl, ht, Option.some.inj hl, valid_none, .inl rfl⟩
  rename_i hv
  rw [if_neg hv]
  obtain ⟨⟨a, b, d⟩, h1, h2⟩ := Option.bind_eq_some_iff.1 hl
  obtain ⟨A, B, C, he, e, rfl, rfl, rfl⟩ := equalRange_node h1
  cases B with
  | nil =>
    obtain ⟨t1, r1, a1, f1⟩ := insert_new ht (g := mapSeg) (s := (k, v)) e he pick
    rw [run_bind r1]
    obtain ⟨z, h3, h4⟩ := Option.map_eq_some_iff.1 h2
    obtain ⟨L, i, s, R, t', r2, a2, rfl, x1, x2, -⟩ := handleInserted_at a1 (by simpa [snds] using h3)
    refine ⟨_, t', r2, a2.ok, ?_, a2.valid, .inr ⟨by simpa using hc, A, [], C, he, a2.keeps2 x1 x2⟩⟩
    rw [segs, a2.eq, ← h4]; simp [snds, Zip.toList]
  | cons g B =>
    rw [run_bind (insert_old (g := mapSeg) (s := (k, v)) he pick)]
    obtain ⟨L0, r1, a1, -⟩ := prior_end ht (n := g) e
    obtain ⟨it, t', r2, o2, s2, v2, k2⟩ := insertMain_at h ht e h2
    refine ⟨it, t', ?_, o2, s2, v2, .inr ⟨by simpa using hc, A, g :: B, C, he, k2⟩⟩
    dsimp only
    rw [if_neg (by simp), run_bind (lowerBound_run he), run_bind (upperBound_run he), run_bind r1]
    exact r2

/-- Whichever of the two results the model on lists gives, the one on nodes gives one of them. -/
theorem insertHint_run {t : Tree (I × V)} (ht : t.Ok) {k : I} {v : V} {l : Bool → List (I × V)} {pick : Nat}
    (hl : ∀ b, IMap.insertHint o c pick b t.segs k v = some (l b)) {p : It} (hp : t.Valid p) :
    ∃ b it t', insertHint o c pick p k v t = some (it, t') ∧ t'.Ok ∧ t'.segs = l b ∧ Ran c o t k it t' ∧
      (p = none → b = false) := by
  unfold insertHint
  by_cases hc : o.isEmpty k = true
  · rw [if_pos hc]
    have := hl false
    unfold IMap.insertHint at this
    rw [if_pos hc] at this
    exact ⟨false, p, t, rfl, ht, Option.some.inj this, ⟨hp, .inl rfl⟩, fun _ => rfl⟩
  rw [if_neg hc]
  by_cases hv : IMap.absorbable c v = true
  · rw [if_pos hv]
    have := hl false
    unfold IMap.insertHint at this
    rw [if_neg hc, if_pos hv] at this
    exact ⟨false, p, t, rfl, ht, Option.some.inj this, ⟨hp, .inl rfl⟩, fun _ => rfl⟩
  rw [if_neg hv]
  have h0 := hl false
  unfold IMap.insertHint at h0
  rw [if_neg hc, if_neg hv] at h0
  obtain ⟨⟨a, b, d⟩, h1, h2⟩ := Option.bind_eq_some_iff.1 h0
  have h0' := hl true
  unfold IMap.insertHint at h0'
  rw [if_neg hc, if_neg hv, h1] at h0'
  obtain ⟨A, B, C, he, e, rfl, rfl, rfl⟩ := equalRange_node h1
  cases B with
  | nil =>
    obtain ⟨t1, r1, a1, f1⟩ := insert_new ht (g := mapSeg) (s := (k, v)) e he pick
    have r1' : Tree.insertHint o mapSeg pick p (k, v) t = some (some t.fresh, t1) := by
      simp only [Tree.insertHint, if_pos hp, r1, Option.map_some]
    have hkk : o.eq k k = true := Sets.eq_self h (by simpa using hc)
    have hne : ¬ some t.fresh = p := by
      rintro rfl
      have := hp t.fresh rfl
      obtain ⟨n, hn, hnn⟩ := List.mem_map.1 this
      have := ht.fresh n hn
      omega
    have r3 : insertAt o pick p k v t = some ((some t.fresh, true), t1) := by
      unfold insertAt
      rw [run_bind r1', if_neg hne, run_bind a1.deref]
      show some ((some t.fresh, o.eq k k), t1) = _
      rw [hkk]
    rw [run_bind r3]
    obtain ⟨z, h3, h4⟩ := Option.map_eq_some_iff.1 h2
    obtain ⟨L, i, s, R, t', r2, a2, rfl, x1, x2, -⟩ := handleInserted_at a1 (by simpa [snds] using h3)
    refine ⟨false, _, t', r2, a2.ok, ?_, ⟨a2.valid, .inr ⟨by simpa using hc, A, [], C, he, a2.keeps2 x1 x2⟩⟩,
      fun _ => rfl⟩
    rw [segs, a2.eq, ← h4]; simp [snds, Zip.toList]
  | cons g B =>
    have r1 : Tree.insertHint o mapSeg pick p (k, v) t =
        some (some ((g :: B).getD (pick % (B.length + 1)) g).1, t) := by
      simp only [Tree.insertHint, if_pos hp, insert_old (g := mapSeg) (s := (k, v)) he pick, Option.map_some]
    have hs := getD_split g B (pick % (B.length + 1)) (Nat.mod_lt _ (Nat.succ_pos _))
    have af : At t (((g :: B).take (pick % (B.length + 1))).reverse ++ A.reverse)
        ((g :: B).getD (pick % (B.length + 1)) g).1 ((g :: B).getD (pick % (B.length + 1)) g).2
        ((g :: B).drop (pick % (B.length + 1) + 1) ++ C) := by
      refine ⟨ht, ?_⟩
      rw [e]
      conv_lhs => rw [hs]
      simp
    have slow : ∀ {l' : List (I × V)}, IMap.insertMain o c (snds A) g.2 (snds B) (snds C) k v = some l' →
        insertAt o pick p k v t = some ((some ((g :: B).getD (pick % (B.length + 1)) g).1, false), t) →
        ∃ it t', (do
          let x ← insertAt o pick p k v
          match x with
          | (it, inserted) => if inserted = true then handleInserted o c it else do
              let x ← equalRange o mapSeg k
              match x with
              | (first_, end_) => do
                let last_ ← prior end_
                insertMain o c k v first_ last_ : TreeM (I × V) It) t = some (it, t') ∧
          t'.Ok ∧ t'.segs = l' ∧ Ran c o t k it t' := by
      intro l' h2 r3
      rw [run_bind r3]
      obtain ⟨L0, r4, a4, -⟩ := prior_end ht (n := g) e
      obtain ⟨it, t', r2, o2, s2, v2, k2⟩ := insertMain_at h ht e h2
      refine ⟨it, t', ?_, o2, s2, v2, .inr ⟨by simpa using hc, A, g :: B, C, he, k2⟩⟩
      dsimp only
      rw [if_neg (by simp), run_bind (equalRange_run he)]
      dsimp only
      rw [run_bind r4]
      exact r2
    by_cases hpp : some ((g :: B).getD (pick % (B.length + 1)) g).1 = p
    · have h2' : IMap.insertMain o c (snds A) g.2 (snds B) (snds C) k v = some (l true) := by
        simpa [snds] using h0'
      obtain ⟨it, t', r, q⟩ := slow h2' (by
        unfold insertAt
        rw [run_bind r1, if_pos hpp]; rfl)
      obtain ⟨q1, q2, q3⟩ := q
      exact ⟨true, it, t', r, q1, q2, q3, fun hp0 => by rw [hp0] at hpp; simp at hpp⟩
    · simp only [snds, List.map_cons, Bool.not_false, Bool.true_and] at h2
      rw [List.length_map, getD_snd] at h2
      split at h2
      · rename_i hq
        have r3 : insertAt o pick p k v t =
            some ((some ((g :: B).getD (pick % (B.length + 1)) g).1, true), t) := by
          unfold insertAt
          rw [run_bind r1, if_neg hpp, run_bind af.deref, hq]
          rfl
        rw [run_bind r3]
        obtain ⟨z, h3, h4⟩ := Option.map_eq_some_iff.1 h2
        obtain ⟨L, i, s, R, t', r4, a4, rfl, x1, x2, -⟩ := handleInserted_at af (by
          simpa [snds, List.map_take, List.map_drop] using h3)
        refine ⟨false, _, t', r4, a4.ok, ?_, ⟨a4.valid, .inr ⟨by simpa using hc, A, g :: B, C, he, a4.keeps2 ?_ ?_⟩⟩,
          fun _ => rfl⟩
        · rw [segs, a4.eq, ← h4]; simp [snds, Zip.toList]
        · exact (trim_mono _ (List.suffix_append _ _)).trans x1
        · exact (trim_mono _ (List.suffix_append _ _)).trans x2
      · rename_i hq
        obtain ⟨it, t', r, q⟩ := slow h2 (by
          unfold insertAt
          rw [run_bind r1, if_neg hpp, run_bind af.deref]
          show some ((_, o.eq _ k), t) = _
          rw [Bool.not_eq_true] at hq
          rw [hq])
        obtain ⟨q1, q2, q3⟩ := q
        exact ⟨false, it, t', r, q1, q2, q3, fun _ => rfl⟩

omit h in
theorem eraseLoop_at : ∀ (M : List (Nat × I × V)) {t : Tree (I × V)} {L : List (Nat × I × V)} {i : Nat} {s : I × V}
    {n : Nat}, At t L i s (M ++ C) → M.length < n →
    ∃ L' t', eraseLoop v (some (M.getLastD (i, s)).1) n (some i) t = some ((), t') ∧
      At t' L' (M.getLastD (i, s)).1 (M.getLastD (i, s)).2 C ∧ L <:+ L' ∧
      snds L'.reverse ++ IMap.eraseRest o k v (M.getLastD (i, s)).2 [] =
        snds L.reverse ++ IMap.eraseRest o k v s (snds M)
  | [], t, L, i, s, n + 1, ha, hn => by
    unfold eraseLoop
    rw [if_pos (by simp)]
    exact ⟨L, t, rfl, ha, List.suffix_rfl, rfl⟩
  | m :: M, t, L, i, s, n + 1, ha, hn => by
    unfold eraseLoop
    rw [if_neg ha.ne_last, run_bind ha.deref, run_bind ha.next, List.getLastD_cons]
    by_cases hv : s.2 = v
    · rw [if_pos hv]
      obtain ⟨t1, r1, o1, e1, f1⟩ := ha.erase
      have a1 : At t1 L m.1 m.2 (M ++ C) := ⟨o1, by rw [e1]; simp⟩
      obtain ⟨L', t', r2, a2, x2, e2⟩ := eraseLoop_at M (n := n) a1 (by simpa using hn)
      refine ⟨L', t', ?_, a2, x2, ?_⟩
      · rw [run_bind r1]; exact r2
      · rw [show ((m.1, m.2) : Nat × I × V) = m from rfl] at e2
        rw [e2]
        simp [snds, IMap.eraseRest, hv]
    · rw [if_neg hv]
      have a1 : At t ((i, s) :: L) m.1 m.2 (M ++ C) := ⟨ha.ok, by rw [ha.eq]; simp⟩
      obtain ⟨L', t', r2, a2, x2, e2⟩ := eraseLoop_at M (n := n) a1 (by simpa using hn)
      refine ⟨L', t', ?_, a2, (List.suffix_cons _ _).trans x2, ?_⟩
      · exact r2
      · rw [show ((m.1, m.2) : Nat × I × V) = m from rfl] at e2
        rw [e2]
        simp [snds, IMap.eraseRest, hv]

omit h in
theorem eraseRest_at {M : List (Nat × I × V)} (ha : At t L i s (M ++ C)) :
    ∃ t', eraseRest o k v (some i) (some (M.getLastD (i, s)).1) t = some ((), t') ∧ t'.Ok ∧
      t'.segs = snds L.reverse ++ (IMap.eraseRest o k v s (snds M) ++ snds C) ∧
      (∀ n ∈ L, n ∈ t'.nodes) ∧ ∀ n ∈ C, n ∈ t'.nodes := by
  have hn : M.length < t.nodes.length := by rw [ha.eq]; simp; omega
  obtain ⟨L1, t1, r1, a1, x1, e1⟩ := eraseLoop_at (o := o) (k := k) (v := v) M ha hn
  unfold eraseRest
  rw [run_bind (run_get t), run_bind r1, run_bind a1.deref, ← List.append_assoc, ← e1]
  generalize hg : M.getLastD (i, s) = g at *
  by_cases hv : g.2.2 = v
  · rw [if_pos hv]
    by_cases hr : o.isEmpty (o.leftSubtract g.2.1 k) = true
    · rw [if_pos hr]
      obtain ⟨t2, r2, o2, e2, f2⟩ := a1.erase
      refine ⟨t2, r2, o2, ?_, ?_, ?_⟩
      · rw [segs, e2]; simp [snds, IMap.eraseRest, hv, hr]
      · intro n hn; rw [e2]; simp [x1.subset hn]
      · intro n hn; rw [e2]; simp [hn]
    · rw [if_neg hr]
      obtain ⟨t2, r2, a2, f2⟩ := a1.modify fun s => (o.leftSubtract g.2.1 k, s.2)
      refine ⟨t2, r2, a2.ok, ?_, ?_, ?_⟩
      · rw [segs, a2.eq]; simp [snds, IMap.eraseRest, hv, hr]
      · intro n hn; rw [a2.eq]; simp [x1.subset hn]
      · intro n hn; rw [a2.eq]; simp [hn]
  · rw [if_neg hv]
    refine ⟨t1, rfl, a1.ok, ?_, ?_, ?_⟩
    · rw [segs, a1.eq]; simp [snds, IMap.eraseRest, hv]
    · intro n hn; rw [a1.eq]; simp [x1.subset hn]
    · intro n hn; rw [a1.eq]; simp [hn]

/-- The operation keeps the nodes out of the range. -/
def Left (o : IntervalOps D I) (t : Tree (I × V)) (k : I) (t' : Tree (I × V)) : Prop :=
  t' = t ∨ o.isEmpty k = false ∧ ∃ A B C, ICL.equalRange o (nodeSeg mapSeg) t.nodes k = some (A, B, C) ∧
    (∀ n ∈ A, n ∈ t'.nodes) ∧ ∀ n ∈ C, n ∈ t'.nodes

omit h in
theorem cyclicPrior_end (ht : t.Ok) {A B C : List (Nat × I × V)} {g : Nat × I × V} (e : t.nodes = A ++ (g :: B ++ C)) :
    cyclicPrior (hd C) t = some (some (B.getLastD g).1, t) := by
  obtain ⟨L0, r0, -, -⟩ := prior_end ht (n := g) e
  have hne : ¬ hd C = hd t.nodes := by
    cases A with
    | nil =>
      rw [e]
      exact fun he => hd_ne ht e he.symm
    | cons a A =>
      have e' : t.nodes = [] ++ (a :: (A ++ g :: B) ++ C) := by rw [e]; simp
      have := hd_ne ht e'
      rw [e]
      exact fun he => this he.symm
  unfold cyclicPrior
  have hf : first t = some (hd t.nodes, t) := rfl
  rw [run_bind hf, if_neg hne]
  exact r0

theorem eraseSeg_run {t : Tree (I × V)} (ht : t.Ok) {k : I} {v : V} {l : List (I × V)}
    (hl : IMap.eraseSeg o c t.segs k v = some l) :
    ∃ t', eraseSeg o c k v t = some ((), t') ∧ t'.Ok ∧ t'.segs = l ∧ Left o t k t' := by
  unfold IMap.eraseSeg at hl
  unfold eraseSeg
  split at hl
  · rename_i hc
    rw [if_pos hc]
    exact ⟨t, rfl, ht, Option.some.inj hl, .inl rfl⟩
  rename_i hc
  rw [if_neg hc]
  split at hl
  · rename_i hc
    rw [if_pos hc]
    exact ⟨t, rfl, ht, Option.some.inj hl, .inl rfl⟩
  rename_i hv
  rw [if_neg hv]
  obtain ⟨⟨a, b, d⟩, h1, h2⟩ := Option.bind_eq_some_iff.1 hl
  obtain ⟨A, B, C, he, e, rfl, rfl, rfl⟩ := equalRange_node h1
  rw [run_bind (equalRange_run he)]
  dsimp only
  match B, he, e, h2 with
  | [], he, e, h2 =>
    rw [List.nil_append, if_pos rfl]
    exact ⟨t, rfl, ht, Option.some.inj h2, .inl rfl⟩
  | [g], he, e, h2 =>
    rw [if_neg (hd_ne ht e)]
    have af : At t A.reverse g.1 g.2 C := ⟨ht, by rw [e]; simp⟩
    have r1 : cyclicPrior (hd C) t = some (some g.1, t) := cyclicPrior_end ht e
    rw [run_bind r1, List.cons_append, hd_cons, run_bind af.next, run_bind af.deref, if_pos rfl]
    simp only [snds, List.map_cons, List.map_nil] at h2
    by_cases hw : g.2.2 = v
    · rw [if_pos hw] at h2 ⊢
      by_cases hle : (!o.isEmpty (o.rightSubtract g.2.1 k)) = true
      · rw [if_pos hle] at h2 ⊢
        obtain ⟨t1, r2, a2, f2⟩ := af.modify fun s => (o.rightSubtract g.2.1 k, s.2)
        rw [run_bind r2]
        by_cases hri : (!o.isEmpty (o.leftSubtract g.2.1 k)) = true
        · rw [if_pos hri] at h2 ⊢
          obtain ⟨z, h3, h4⟩ := Option.map_eq_some_iff.1 h2
          obtain ⟨rfl, t3, r3, a3, f3⟩ := insertHint_eq h a2.ok (g := mapSeg)
            (L := (g.1, (o.rightSubtract g.2.1 k, g.2.2)) :: A.reverse) (R := C) (by rw [a2.eq]; simp)
            (by simpa [snds] using h3) a2.valid 0
          rw [run_bind r3]
          refine ⟨t3, rfl, a3.ok, ?_, .inr ⟨by simpa using hc, A, [g], C, he, ?_, ?_⟩⟩
          · rw [segs, a3.eq, ← h4]; simp [Zip.toList]
          · intro n hn; rw [a3.eq]; simp [hn]
          · intro n hn; rw [a3.eq]; simp [hn]
        · rw [if_neg hri] at h2 ⊢
          refine ⟨t1, rfl, a2.ok, ?_, .inr ⟨by simpa using hc, A, [g], C, he, ?_, ?_⟩⟩
          · rw [segs, a2.eq, ← Option.some.inj h2]; simp
          · intro n hn; rw [a2.eq]; simp [hn]
          · intro n hn; rw [a2.eq]; simp [hn]
      · rw [if_neg hle] at h2 ⊢
        by_cases hri : (!o.isEmpty (o.leftSubtract g.2.1 k)) = true
        · rw [if_pos hri] at h2 ⊢
          obtain ⟨t1, r2, a2, f2⟩ := af.modify fun s => (o.leftSubtract g.2.1 k, s.2)
          refine ⟨t1, r2, a2.ok, ?_, .inr ⟨by simpa using hc, A, [g], C, he, ?_, ?_⟩⟩
          · rw [segs, a2.eq, ← Option.some.inj h2]; simp
          · intro n hn; rw [a2.eq]; simp [hn]
          · intro n hn; rw [a2.eq]; simp [hn]
        · rw [if_neg hri] at h2 ⊢
          obtain ⟨t1, r2, o2, e2, f2⟩ := af.erase
          refine ⟨t1, r2, o2, ?_, .inr ⟨by simpa using hc, A, [g], C, he, ?_, ?_⟩⟩
          · rw [segs, e2, ← Option.some.inj h2]; simp
          · intro n hn; rw [e2]; simp [hn]
          · intro n hn; rw [e2]; simp [hn]
    · rw [if_neg hw] at h2 ⊢
      exact ⟨t, rfl, ht, Option.some.inj h2, .inl rfl⟩
  | g :: m :: B, he, e, h2 =>
    rw [if_neg (hd_ne ht e)]
    have af : At t A.reverse g.1 g.2 (m :: B ++ C) := ⟨ht, by rw [e]; simp⟩
    have r1 := cyclicPrior_end ht e
    rw [run_bind r1, List.cons_append, hd_cons, run_bind af.next, run_bind af.deref, List.getLastD_cons,
      List.cons_append, hd_cons]
    have hne : ¬ some g.1 = some (B.getLastD m).1 := by
      have := af.ne_last
      rwa [List.getLastD_cons] at this
    rw [if_neg hne]
    simp only [snds, List.map_cons] at h2
    by_cases hw : g.2.2 = v
    · rw [if_pos hw] at h2 ⊢
      by_cases hle : o.isEmpty (o.rightSubtract g.2.1 k) = true
      · rw [if_pos hle] at h2 ⊢
        obtain ⟨t1, r2, o2, e2, f2⟩ := af.erase
        have a2 : At t1 A.reverse m.1 m.2 (B ++ C) := ⟨o2, e2⟩
        obtain ⟨t3, r3, o3, s3, k3, k4⟩ := eraseRest_at (o := o) (k := k) (v := v) a2
        refine ⟨t3, ?_, o3, ?_, .inr ⟨by simpa using hc, A, g :: m :: B, C, he, ?_, k4⟩⟩
        · rw [run_bind r2]; exact r3
        · rw [s3, ← Option.some.inj h2]; simp [snds]
        · intro n hn; exact k3 n (by simpa using hn)
      · rw [if_neg hle] at h2 ⊢
        obtain ⟨t1, r2, a1, f2⟩ := af.modify fun s => (o.rightSubtract g.2.1 k, s.2)
        have a2 : At t1 ((g.1, (o.rightSubtract g.2.1 k, g.2.2)) :: A.reverse) m.1 m.2 (B ++ C) :=
          ⟨a1.ok, by rw [a1.eq]; simp⟩
        obtain ⟨t3, r3, o3, s3, k3, k4⟩ := eraseRest_at (o := o) (k := k) (v := v) a2
        refine ⟨t3, ?_, o3, ?_, .inr ⟨by simpa using hc, A, g :: m :: B, C, he, ?_, k4⟩⟩
        · rw [run_bind r2]; exact r3
        · rw [s3, ← Option.some.inj h2]; simp [snds]
        · intro n hn; exact k3 n (by simp [hn])
    · rw [if_neg hw] at h2 ⊢
      have a2 : At t (g :: A.reverse) m.1 m.2 (B ++ C) := ⟨ht, by rw [e]; simp⟩
      obtain ⟨t3, r3, o3, s3, k3, k4⟩ := eraseRest_at (o := o) (k := k) (v := v) a2
      refine ⟨t3, r3, o3, ?_, .inr ⟨by simpa using hc, A, g :: m :: B, C, he, ?_, k4⟩⟩
      · rw [s3, ← Option.some.inj h2]; simp [snds]
      · intro n hn; exact k3 n (by simp [hn])

theorem eraseItv_run {t : Tree (I × V)} (ht : t.Ok) {k : I} {l : List (I × V)}
    (hl : IMap.eraseItv o t.segs k = some l) :
    ∃ t', eraseItv o k t = some ((), t') ∧ t'.Ok ∧ t'.segs = l ∧ Left o t k t' := by
  unfold IMap.eraseItv at hl
  unfold eraseItv
  split at hl
  · rename_i hc
    rw [if_pos hc]
    exact ⟨t, rfl, ht, Option.some.inj hl, .inl rfl⟩
  rename_i hc
  rw [if_neg hc]
  obtain ⟨⟨a, b, d⟩, h1, h2⟩ := Option.bind_eq_some_iff.1 hl
  obtain ⟨A, B, C, he, e, rfl, rfl, rfl⟩ := equalRange_node h1
  rw [run_bind (equalRange_run he)]
  dsimp only
  match B, he, e, h2 with
  | [], he, e, h2 =>
    rw [List.nil_append, if_pos rfl]
    exact ⟨t, rfl, ht, Option.some.inj h2, .inl rfl⟩
  | [g], he, e, h2 =>
    rw [if_neg (hd_ne ht e)]
    have af : At t A.reverse g.1 g.2 C := ⟨ht, by rw [e]; simp⟩
    obtain ⟨L0, r1, -, -⟩ := prior_end ht (n := g) (B := []) e
    rw [List.getLastD_nil] at r1
    rw [run_bind r1, List.cons_append, hd_cons, run_bind af.deref, run_bind af.deref, if_pos rfl]
    simp only [snds, List.map_cons, List.map_nil] at h2
    by_cases hle : (!o.isEmpty (o.rightSubtract g.2.1 k)) = true
    · rw [if_pos hle] at h2 ⊢
      obtain ⟨t1, r2, a2, f2⟩ := af.modify fun s => (o.rightSubtract g.2.1 k, s.2)
      rw [run_bind r2]
      by_cases hri : (!o.isEmpty (o.leftSubtract g.2.1 k)) = true
      · rw [if_pos hri] at h2 ⊢
        rw [run_bind a2.deref]
        obtain ⟨z, h3, h4⟩ := Option.map_eq_some_iff.1 h2
        obtain ⟨rfl, t3, r3, a3, f3⟩ := insertHint_eq h a2.ok (g := mapSeg)
          (L := (g.1, (o.rightSubtract g.2.1 k, g.2.2)) :: A.reverse) (R := C) (by rw [a2.eq]; simp)
          (by simpa [snds] using h3) a2.valid 0
        rw [run_bind r3]
        refine ⟨t3, rfl, a3.ok, ?_, .inr ⟨by simpa using hc, A, [g], C, he, ?_, ?_⟩⟩
        · rw [segs, a3.eq, ← h4]; simp [Zip.toList]
        · intro n hn; rw [a3.eq]; simp [hn]
        · intro n hn; rw [a3.eq]; simp [hn]
      · rw [if_neg hri] at h2 ⊢
        refine ⟨t1, rfl, a2.ok, ?_, .inr ⟨by simpa using hc, A, [g], C, he, ?_, ?_⟩⟩
        · rw [segs, a2.eq, ← Option.some.inj h2]; simp
        · intro n hn; rw [a2.eq]; simp [hn]
        · intro n hn; rw [a2.eq]; simp [hn]
    · rw [if_neg hle] at h2 ⊢
      by_cases hri : (!o.isEmpty (o.leftSubtract g.2.1 k)) = true
      · rw [if_pos hri] at h2 ⊢
        obtain ⟨t1, r2, a2, f2⟩ := af.modify fun s => (o.leftSubtract s.1 k, s.2)
        refine ⟨t1, r2, a2.ok, ?_, .inr ⟨by simpa using hc, A, [g], C, he, ?_, ?_⟩⟩
        · rw [segs, a2.eq, ← Option.some.inj h2]; simp
        · intro n hn; rw [a2.eq]; simp [hn]
        · intro n hn; rw [a2.eq]; simp [hn]
      · rw [if_neg hri] at h2 ⊢
        obtain ⟨t1, r2, o2, e2, f2⟩ := af.erase
        refine ⟨t1, r2, o2, ?_, .inr ⟨by simpa using hc, A, [g], C, he, ?_, ?_⟩⟩
        · rw [segs, e2, ← Option.some.inj h2]; simp
        · intro n hn; rw [e2]; simp [hn]
        · intro n hn; rw [e2]; simp [hn]
  | g :: m :: B, he, e, h2 =>
    rw [if_neg (hd_ne ht e)]
    have af : At t A.reverse g.1 g.2 (m :: B ++ C) := ⟨ht, by rw [e]; simp⟩
    obtain ⟨L0, r1, a1, e1⟩ := prior_end ht (n := g) (B := m :: B) e
    rw [List.getLastD_cons] at r1 a1 e1
    have hne : ¬ some g.1 = some (B.getLastD m).1 := by
      have := af.ne_last
      rwa [List.getLastD_cons] at this
    rw [run_bind r1, List.cons_append, hd_cons, run_bind af.deref, run_bind a1.deref, if_neg hne, run_bind af.next]
    have h2 := Option.some.inj h2
    rw [show (List.map Prod.snd B).getLastD m.2 = (B.getLastD m).2 from getLastD_snd B m] at h2
    generalize hg : B.getLastD m = q at *
    obtain ⟨X, hX⟩ : ∃ X, m :: B = X ++ [q] := by
      refine ⟨(m :: B).dropLast, ?_⟩
      have := (List.dropLast_concat_getLast (l := m :: B) (by simp)).symm
      rw [List.getLast_eq_getLastD, hg] at this
      exact this
    have hmC : hd (m :: B ++ C) = hd (X ++ (q :: C)) := by rw [hX]; simp
    rw [hmC]
    have fin : ∀ {t1 : Tree (I × V)} {P Q : List (Nat × I × V)}, t1.Ok → t1.nodes = A ++ P ++ (Q ++ C) →
        A.map Prod.snd ++ P.map Prod.snd ++ (Q.map Prod.snd ++ C.map Prod.snd) = l →
        t1.Ok ∧ t1.segs = l ∧ Left o t k t1 := by
      intro t1 P Q o1 e1 hl
      refine ⟨o1, ?_, .inr ⟨by simpa using hc, A, g :: m :: B, C, he, ?_, ?_⟩⟩
      · rw [segs, e1, ← hl]; simp
      · intro n hn; rw [e1]; simp [hn]
      · intro n hn; rw [e1]; simp [hn]
    by_cases hle : o.isEmpty (o.rightSubtract g.2.1 k) = true
    · by_cases hri : o.isEmpty (o.leftSubtract q.2.1 k) = true
      · rw [if_pos hle, if_pos hri, if_neg (by simp [hle]), if_neg (by simp [hri])]
        rw [if_pos hle, if_pos hri] at h2
        obtain ⟨t1, r2, o2, e2, f2⟩ := eraseRange_eq ht e
        rw [List.cons_append, hd_cons] at r2
        refine ⟨t1, ?_, fin o2 (P := []) (Q := []) (by rw [e2]; simp) (by rw [← h2]; simp [snds])⟩
        rw [run_bind r2]; rfl
      · rw [if_pos hle, if_neg hri, if_neg (by simp [hle]), if_pos (by simp [hri])]
        rw [if_pos hle, if_neg hri] at h2
        obtain ⟨t1, r2, o2, e2, f2⟩ := eraseRange_eq ht (A := A) (B := g :: X) (C := q :: C)
          (by rw [e, List.cons_append, hX]; simp)
        rw [List.cons_append, hd_cons, hd_cons] at r2
        obtain ⟨t3, r3, a3, f3⟩ := (show At t1 A.reverse q.1 q.2 C from ⟨o2, by rw [e2]; simp⟩).modify
          fun s => (o.leftSubtract q.2.1 k, s.2)
        refine ⟨t3, ?_, fin a3.ok (P := []) (Q := [(q.1, (o.leftSubtract q.2.1 k, q.2.2))]) (by rw [a3.eq]; simp)
          (by rw [← h2]; simp [snds])⟩
        rw [run_bind r2]; exact r3
    · have e' : t.nodes = (A ++ [g]) ++ (X ++ [q] ++ C) := by rw [e, List.cons_append, hX]; simp
      by_cases hri : o.isEmpty (o.leftSubtract q.2.1 k) = true
      · rw [if_neg hle, if_pos hri, if_pos (by simp [hle]), if_neg (by simp [hri])]
        rw [if_neg hle, if_pos hri] at h2
        obtain ⟨t1, r2, o2, e2, f2⟩ := eraseRange_eq ht e'
        rw [List.append_assoc, List.singleton_append] at r2
        obtain ⟨t3, r3, a3, f3⟩ := (show At t1 A.reverse g.1 g.2 C from ⟨o2, by rw [e2]; simp⟩).modify
          fun s => (o.rightSubtract g.2.1 k, s.2)
        refine ⟨t3, ?_, fin a3.ok (P := [(g.1, (o.rightSubtract g.2.1 k, g.2.2))]) (Q := []) (by rw [a3.eq]; simp)
          (by rw [← h2]; simp [snds])⟩
        rw [run_bind r2]; rw [run_bind r3]; rfl
      · rw [if_neg hle, if_neg hri, if_pos (by simp [hle]), if_pos (by simp [hri])]
        rw [if_neg hle, if_neg hri] at h2
        obtain ⟨t1, r2, o2, e2, f2⟩ := eraseRange_eq ht (A := A ++ [g]) (B := X) (C := q :: C) (by rw [e']; simp)
        rw [hd_cons] at r2
        obtain ⟨t3, r3, a3, f3⟩ := (show At t1 A.reverse g.1 g.2 (q :: C) from ⟨o2, by rw [e2]; simp⟩).modify
          fun s => (o.rightSubtract g.2.1 k, s.2)
        obtain ⟨t4, r4, a4, f4⟩ := a3.right.modify fun s => (o.leftSubtract q.2.1 k, s.2)
        refine ⟨t4, ?_, fin a4.ok (P := [(g.1, (o.rightSubtract g.2.1 k, g.2.2))])
          (Q := [(q.1, (o.leftSubtract q.2.1 k, q.2.2))]) (by rw [a4.eq]; simp) (by rw [← h2]; simp [snds])⟩
        rw [run_bind r2]; rw [run_bind r3]; exact r4

end Maps
end Tree
end ICL
