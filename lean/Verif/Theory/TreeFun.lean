import Verif.Model.TreeFun
import Verif.Theory.TreeSet
import Verif.Theory.TreeMap
import Verif.Theory.SetFlip
import Verif.Theory.MapFlip
import Verif.Theory.Observe

/-!
# Functions that keep an iterator do on nodes what they do on lists
-/

set_option linter.unusedSectionVars false
set_option linter.unusedSimpArgs false
set_option linter.unusedVariables false

namespace ICL
namespace Tree

section chains
variable {S X : Type}

theorem at_of_valid {t : Tree S} (ht : t.Ok) {i : Nat} (hv : t.Valid (some i)) : ∃ L s R, At t L i s R := by
  obtain ⟨n, hn, e⟩ := List.mem_map.1 (hv i rfl)
  obtain ⟨A, B, e'⟩ := List.append_of_mem hn
  refine ⟨A.reverse, n.2, B, ht, ?_⟩
  rw [e', ← e]; simp

/-- `f` does on nodes what `F` does on lists, given a proper iterator. -/
def Sim (f : It → X → TreeM S It) (F : List S → X → Option (List S)) : Prop :=
  ∀ (t : Tree S) (p : It) (x : X) (l : List S), t.Ok → t.Valid p → F t.segs x = some l →
    ∃ it t', f p x t = some (it, t') ∧ t'.Ok ∧ t'.segs = l ∧ t'.Valid it

theorem Sim.put {f : It → X → TreeM S It} {F : List S → X → Option (List S)} (hf : Sim f F) : Sim (put f) F := by
  intro t p x l ht hp hl
  obtain ⟨it, t', r, h1, h2, h3⟩ := hf t p x l ht hp hl
  unfold Tree.put
  rw [run_bind r]
  cases it with
  | none => exact ⟨none, t', by simp, h1, h2, h3⟩
  | some i =>
    obtain ⟨L, s, R, ha⟩ := at_of_valid h1 h3
    rw [if_neg (by simp)]
    exact ⟨_, t', ha.next, h1, h2, ha.valid_hd⟩

theorem Sim.chain {f : It → X → TreeM S It} {F : List S → X → Option (List S)} (hf : Sim f F) :
    ∀ (r : List X) {t : Tree S} {p : It} {l : List S}, t.Ok → t.Valid p → forEach F t.segs r = some l →
    ∃ it t', chain f p r t = some (it, t') ∧ t'.Ok ∧ t'.segs = l ∧ t'.Valid it
  | [], t, p, l, ht, hp, hl => ⟨p, t, rfl, ht, Option.some.inj hl, hp⟩
  | x :: r, t, p, l, ht, hp, hl => by
    obtain ⟨l1, h1, h2⟩ := Option.bind_eq_some_iff.1 hl
    obtain ⟨it, t1, r1, o1, s1, v1⟩ := hf t p x l1 ht hp h1
    rw [← s1] at h2
    obtain ⟨it', t', r2, q⟩ := hf.chain r o1 v1 h2
    exact ⟨it', t', by rw [Tree.chain, run_bind r1, r2], q⟩

theorem fold_forEach {I : Type} (f : List I → I → Option (List I)) : ∀ (l r : List I), ISet.fold f l r = forEach f l r
  | _, [] => rfl
  | l, k :: r => by
    rw [ISet.fold, forEach]
    cases f l k with
    | none => rfl
    | some l' => exact fold_forEach f l' r

end chains

section joins
variable {D I V S : Type} [LinearOrder D] {o : IntervalOps D I} {g : SegOps I V S} [DecidableEq V]

theorem joinInner_at : ∀ (n : Nat) (R : List (Nat × S)) {t : Tree S} {L : List (Nat × S)} {i : Nat} {s : S}
    {fst : S} {l : List S}, At t L i s R → R.length < n → joinGo o g (some fst) s (snds R) = some l →
    ∃ P i' s' R', joinInner o g n (some i) (hd R) t = some (some i', t) ∧ At t (P ++ L) i' s' R' ∧
      R'.length ≤ R.length ∧
      ((i' = i ∧ P = []) ∨ ∃ P', P = P' ++ [(i, s)]) ∧
      (R' = [] ∧ l = [g.setKey s' (o.hull (g.key s') (g.key fst))] ∨
       ∃ m R'' r, R' = m :: R'' ∧ joinGo o g none m.2 (snds R'') = some r ∧
        l = g.setKey s' (o.hull (g.key s') (g.key fst)) :: r)
  | 0, _, _, _, _, _, _, _, _, hn, _ => by omega
  | n + 1, [], t, L, i, s, fst, l, ha, _, hl => by
    refine ⟨[], i, s, [], by simp [joinInner], ha, le_refl _, .inl ⟨rfl, rfl⟩, .inl ⟨rfl, ?_⟩⟩
    simpa [joinGo, eq_comm] using hl
  | n + 1, m :: R, t, L, i, s, fst, l, ha, hn, hl => by
    simp only [snds, List.map_cons, joinGo] at hl
    rw [joinInner, hd_cons, if_neg (by simp)]
    split at hl
    · simp at hl
    · rename_i hj
      rw [run_bind (joinable_at ha hj), if_pos rfl, run_bind ha.next, hd_cons, run_bind ha.right.next]
      obtain ⟨P, i', s', R', r1, a1, h0, h1, h2⟩ := joinInner_at n R ha.right
        (by simp at hn; omega) hl
      refine ⟨P ++ [(i, s)], i', s', R', r1, ?_, by simp; omega, .inr ⟨P, rfl⟩, h2⟩
      simpa using a1
    · rename_i hj
      rw [run_bind (joinable_at ha hj), if_neg (by simp)]
      obtain ⟨r, h1, h2⟩ := Option.map_eq_some_iff.1 hl
      exact ⟨[], i, s, m :: R, rfl, ha, le_refl _, .inl ⟨rfl, rfl⟩, .inr ⟨m, R, r, rfl, h1, h2.symm⟩⟩

theorem joinOuter_at : ∀ (n : Nat) (R : List (Nat × S)) {t : Tree S} {L : List (Nat × S)} {i : Nat} {s : S}
    {l : List S}, At t L i s R → R.length + 1 < n → joinGo o g none s (snds R) = some l →
    ∃ t', joinOuter o g n (some i) (hd R) t = some ((), t') ∧ t'.Ok ∧ t'.segs = snds L.reverse ++ l ∧
      ∀ m ∈ L, m ∈ t'.nodes
  | 0, _, _, _, _, _, _, _, hn, _ => by omega
  | n + 1, [], t, L, i, s, l, ha, _, hl => by
    refine ⟨t, by simp [joinOuter], ha.ok, ?_, fun m hm => by rw [ha.eq]; simp [hm]⟩
    have : [s] = l := by simpa [joinGo] using hl
    rw [segs, ha.eq, ← this]; simp [snds]
  | n + 1, m :: R, t, L, i, s, l, ha, hn, hl => by
    simp only [snds, List.map_cons, joinGo] at hl
    rw [joinOuter, hd_cons, if_neg (by simp)]
    split at hl
    · simp at hl
    · rename_i hj
      rw [run_bind (joinable_at ha hj), if_pos rfl]
      rw [run_bind ha.next, hd_cons, run_bind ha.right.next]
      simp only [List.length_cons] at hn
      obtain ⟨P, i', s', R', r1, a1, h0, h1, h2⟩ := joinInner_at n R ha.right (by omega) hl
      rw [run_bind r1, run_bind ha.deref]
      obtain ⟨t1, r2, a2, f2⟩ := a1.modify (fun u => g.setKey u (o.hull (g.key u) (g.key s)))
      rw [run_bind r2]
      obtain ⟨B, hB⟩ : ∃ B, (P ++ (i, s) :: L).reverse = L.reverse ++ (i, s) :: B := ⟨P.reverse, by simp⟩
      obtain ⟨t2, r3, o3, e3, f3⟩ := eraseRange_eq a2.ok (A := L.reverse) (B := (i, s) :: B)
        (C := (i', g.setKey s' (o.hull (g.key s') (g.key s))) :: R') (by rw [a2.eq, hB]; simp)
      rw [List.cons_append, hd_cons, hd_cons] at r3
      rw [run_bind r3]
      have a3 : At t2 L i' (g.setKey s' (o.hull (g.key s') (g.key s))) R' := ⟨o3, e3⟩
      rw [run_bind a3.next]
      rcases h2 with ⟨rfl, rfl⟩ | ⟨m', R'', r, rfl, h3, rfl⟩
      · rw [hd_nil, if_pos rfl]
        refine ⟨t2, ?_, o3, by rw [segs, e3]; simp [snds], fun x hx => by rw [e3]; simp [hx]⟩
        cases n with
        | zero => omega
        | succ n => simp [joinOuter]
      · rw [hd_cons, if_neg (by simp), run_bind a3.right.next]
        obtain ⟨t', r4, o4, s4, k4⟩ := joinOuter_at n R'' a3.right (by simp at h0; omega) h3
        refine ⟨t', r4, o4, by rw [s4]; simp [snds], fun x hx => k4 x (by simp [hx])⟩
    · rename_i hj
      rw [run_bind (joinable_at ha hj), if_neg (by simp), run_bind ha.next, hd_cons, run_bind ha.right.next]
      obtain ⟨r, h1, rfl⟩ := Option.map_eq_some_iff.1 hl
      obtain ⟨t', r4, o4, s4, k4⟩ := joinOuter_at n R ha.right (by simp at hn; omega) h1
      exact ⟨t', r4, o4, by rw [s4]; simp [snds], fun x hx => k4 x (by simp [hx])⟩

theorem join_run {t : Tree S} (ht : t.Ok) {l : List S} (hl : joinAll o g t.segs = some l) :
    ∃ t', join o g t = some ((), t') ∧ t'.Ok ∧ t'.segs = l := by
  unfold join
  cases hn : t.nodes with
  | nil =>
    rw [segs, hn] at hl
    have r0 : (first : TreeM S It) t = some (none, t) := by simp [first, hn]
    rw [run_bind r0, if_pos rfl]
    refine ⟨t, rfl, ht, ?_⟩
    rw [segs, hn]; exact Option.some.inj hl
  | cons m R =>
    rw [segs, hn] at hl
    have r0 : (first : TreeM S It) t = some (some m.1, t) := by simp [first, hn]
    have ha : At t [] m.1 m.2 R := ⟨ht, by rw [hn]; rfl⟩
    rw [run_bind r0, if_neg (by simp), run_bind ha.next, run_bind (run_get t), hn]
    obtain ⟨t', r1, o1, s1, -⟩ := joinOuter_at (o := o) (g := g) ((m :: R).length + 1) R ha (by simp) hl
    exact ⟨t', r1, o1, by simpa [snds] using s1⟩

theorem eraseIfLoop_at (p : S → Bool) : ∀ (n : Nat) (R : List (Nat × S)) {t : Tree S} {L : List (Nat × S)},
    t.Ok → t.nodes = L.reverse ++ R → R.length < n →
    ∃ t', eraseIfLoop p n (hd R) t = some ((), t') ∧ t'.Ok ∧
      t'.nodes = L.reverse ++ R.filter fun m => !p m.2
  | 0, _, _, _, _, _, hn => by omega
  | n + 1, [], t, L, ht, e, _ => ⟨t, by simp [eraseIfLoop], ht, by simpa using e⟩
  | n + 1, m :: R, t, L, ht, e, hn => by
    have ha : At t L m.1 m.2 R := ⟨ht, e⟩
    rw [eraseIfLoop, hd_cons, if_neg (by simp), run_bind ha.deref, run_bind ha.next]
    simp only [List.length_cons] at hn
    by_cases hp : p m.2 = true
    · rw [if_pos hp]
      obtain ⟨t1, r1, o1, e1, f1⟩ := ha.erase
      rw [run_bind r1]
      obtain ⟨t', r2, o2, e2⟩ := eraseIfLoop_at p n R o1 e1 (by omega)
      exact ⟨t', r2, o2, by rw [e2]; simp [hp]⟩
    · rw [if_neg hp]
      obtain ⟨t', r2, o2, e2⟩ := eraseIfLoop_at p n R (L := m :: L) ht (by rw [e]; simp) (by omega)
      exact ⟨t', r2, o2, by rw [e2]; simp [hp]⟩

theorem eraseIf_run (p : S → Bool) {t : Tree S} (ht : t.Ok) :
    ∃ t', eraseIf p t = some ((), t') ∧ t'.Ok ∧ t'.nodes = t.nodes.filter fun m => !p m.2 := by
  unfold eraseIf
  have r0 : (first : TreeM S It) t = some (hd t.nodes, t) := rfl
  rw [run_bind r0, run_bind (run_get t)]
  exact eraseIfLoop_at p _ t.nodes (L := []) ht (by simp) (by omega)

end joins

section ranges
variable {D I V S : Type} [LinearOrder D] {o : IntervalOps D I} {g : SegOps I V S}

/-- In a well-formed container, a segment is at one place only. -/
theorem snd_inj {l : List (Nat × S)} (hw : WF o g (snds l)) {m n : Nat × S} (hm : m ∈ l) (hn : n ∈ l)
    (e : m.2 = n.2) : m = n := by
  have hp := (wf_node.2 hw).sorted
  by_contra hne
  obtain ⟨A, B, rfl⟩ := List.append_of_mem hm
  have hx := hw.nonempty m.2 (by simp [snds])
  obtain ⟨x, hx⟩ := hx
  have h1 := List.pairwise_append.1 hp
  rcases List.mem_append.1 hn with h2 | h2
  · have := h1.2.2 n h2 m (by simp) x x (by show o.Mem x (g.key n.2); rw [← e]; exact hx) hx
    exact lt_irrefl _ this
  · rcases List.mem_cons.1 h2 with h3 | h3
    · exact hne h3.symm
    · have := (List.pairwise_cons.1 h1.2.1).1 n h3 x x hx (by show o.Mem x (g.key n.2); rw [← e]; exact hx)
      exact lt_irrefl _ this

/-- Nodes whose contents end the list, and that are there, end the list. -/
theorem suffix_nodes {l Z : List (Nat × S)} (hw : WF o g (snds l)) (hs : snds Z <:+ snds l) (hZ : ∀ n ∈ Z, n ∈ l) :
    ∃ Q, l = Q ++ Z := by
  obtain ⟨X, hX⟩ := hs
  obtain ⟨Q, Y, rfl, hQ, hY⟩ := List.map_eq_append_iff.1 hX.symm
  refine ⟨Q, ?_⟩
  have key : ∀ (Y' Z' : List (Nat × S)), Y'.map Prod.snd = Z'.map Prod.snd →
      (∀ n ∈ Y', n ∈ Q ++ Y) → (∀ n ∈ Z', n ∈ Q ++ Y) → Y' = Z' := by
    intro Y'
    induction Y' with
    | nil => intro Z' e _ _; cases Z' with
      | nil => rfl
      | cons => simp at e
    | cons y Y' ih =>
      intro Z' e h1 h2
      cases Z' with
      | nil => simp at e
      | cons z Z' =>
        simp only [List.map_cons, List.cons.injEq] at e
        rw [snd_inj hw (h1 y (by simp)) (h2 z (by simp)) e.1, ih Z' e.2 (fun n hn => h1 n (by simp [hn]))
          (fun n hn => h2 n (by simp [hn]))]
  rw [key Y Z hY (fun n hn => by simp [hn]) hZ]

variable (h : o.Lawful)
include h

/-- A node without elements of `k` is out of the range. -/
theorem nodeRange_out {t : Tree S} (hw : WF o g t.segs) {k : I} (hk : o.isEmpty k = false) {A B C : List (Nat × S)}
    (he : ICL.equalRange o (nodeSeg g) t.nodes k = some (A, B, C)) {n : Nat × S} (hn : n ∈ t.nodes)
    (hd : ∀ x, o.Mem x (g.key n.2) → ¬ o.Mem x k) : n ∈ A ∨ n ∈ C := by
  obtain ⟨e, -, h2, -⟩ := nodeRange h hw hk he
  rw [e] at hn
  simp only [List.mem_append] at hn
  rcases hn with (hn | hn) | hn
  · exact .inl hn
  · obtain ⟨x, hx, hxk⟩ := h2 n hn
    exact absurd hxk (hd x hx)
  · exact .inr hn

/-- A neighbour that is still a segment is still at its place. -/
theorem neighbour_kept {t' : Tree S} {L R A C : List (Nat × S)} {i : Nat} {s : S} {k : I} (ha : At t' L i s R)
    (hw : WF o g t'.segs) (hA : WF o g (snds A)) (hC : WF o g (snds C)) (hk : o.isEmpty k = false)
    (hc : ∀ x, o.Mem x k → o.Mem x (g.key s)) (hL : Less1 L A.reverse) (hR : Less1 R C)
    (hbA : ∀ n ∈ A, o.Before (g.key n.2) k) (hbC : ∀ n ∈ C, o.Before k (g.key n.2)) {n : Nat × S}
    (hn : n ∈ A ∨ n ∈ C) (hs : n.2 ∈ t'.segs) : n ∈ t'.nodes := by
  obtain ⟨x, hx⟩ := (nonempty_iff h).2 hk
  have hxs := hc x hx
  have hwn := wf_node.2 hw
  rw [ha.eq] at hwn
  obtain ⟨w1, w2, w3⟩ := wf_append.1 hwn
  obtain ⟨w4, w5, w6⟩ := wf_cons.1 w2
  obtain ⟨m, hm, e⟩ := List.mem_map.1 hs
  obtain ⟨y, hy⟩ := hw.nonempty _ hs
  have hmi : m ≠ (i, s) := by
    rintro rfl
    have e : s = n.2 := e
    rcases hn with hn | hn
    · exact lt_irrefl _ (hbA n hn x x (by rw [← e]; exact hxs) hx)
    · exact lt_irrefl _ (hbC n hn x x hx (by rw [← e]; exact hxs))
  have hm' : m ∈ L ∨ m ∈ R := by
    rw [ha.eq] at hm
    simp only [List.mem_append, List.mem_reverse, List.mem_cons] at hm
    tauto
  have hym : o.Mem y (g.key m.2) := by rw [e]; exact hy
  have hLA : ∀ m ∈ L, m ∈ A := by
    intro m hm
    rcases hL with rfl | rfl
    · simpa using hm
    · simpa using List.mem_of_mem_tail hm
  have hRC : ∀ m ∈ R, m ∈ C := by
    intro m hm
    rcases hR with rfl | rfl
    · exact hm
    · exact List.mem_of_mem_tail hm
  rcases hn with hn | hn
  · rcases hm' with hm' | hm'
    · obtain rfl := snd_inj hA (hLA m hm') hn e
      exact hm
    · exact absurd (lt_trans (hbC m (hRC m hm') x y hx hym) (hbA n hn y x hy hx)) (lt_irrefl _)
  · rcases hm' with hm' | hm'
    · exact absurd (lt_trans (hbC n hn x y hx hy) (hbA m (hLA m hm') y x hym hx)) (lt_irrefl _)
    · obtain rfl := snd_inj hC (hRC m hm') hn e
      exact hm

end ranges

namespace Sets
section
variable {D I : Type} [LinearOrder D] {o : IntervalOps D I} (h : o.Lawful)
include h

/-- What an addition with or without a hint does to nodes. -/
def Added (o : IntervalOps D I) (st : Style) (k : I) (t : Tree I) (it : It) (t' : Tree I) : Prop :=
  o.isEmpty k = true ∧ t' = t ∨ o.isEmpty k = false ∧ ∃ A B C L i s R, ICL.equalRange o (nodeSeg setSeg) t.nodes k = some (A, B, C) ∧
    it = some i ∧ At t' L i s R ∧ trim (joins st) A.reverse <:+ L ∧ trim (joins st) C <:+ R ∧
    (st ≠ .splitting ∨ B = [] → (∀ x, o.Mem x k → o.Mem x s) ∧ Less1 L A.reverse ∧ Less1 R C)

theorem add_added {st : Style} {t : Tree I} (ht : t.Ok) (hw : WF o setSeg t.segs) (k : I) (pick : Nat) :
    ∃ it t', add o st pick k t = some (it, t') ∧ t'.Ok ∧ ICL.ISet.add o st t.segs k = some t'.segs ∧
      (o.isEmpty k = true → it = none) ∧ AddSpec o st t.segs k t'.segs ∧ Added o st k t it t' := by
  obtain ⟨l, el, sp⟩ := ISet.add_spec h st hw k
  obtain ⟨it, t', r1, o1, rfl, q⟩ := add_run h ht el pick
  refine ⟨it, t', r1, o1, el, fun hk => ?_, sp, ?_⟩
  · rcases q with ⟨-, e, -⟩ | ⟨hk', -⟩
    · exact e
    · rw [hk] at hk'; simp at hk'
  · rcases q with ⟨hk, -, e⟩ | q
    · exact .inl ⟨hk, e⟩
    · exact .inr q

theorem addHint_added {st : Style} {t : Tree I} (ht : t.Ok) (hw : WF o setSeg t.segs) (k : I) (pick : Nat) {p : It}
    (hp : t.Valid p) :
    ∃ it t', addHint o st pick p k t = some (it, t') ∧ t'.Ok ∧ ICL.ISet.addHint o st pick t.segs k = some t'.segs ∧
      (o.isEmpty k = true → it = p) ∧ AddSpec o st t.segs k t'.segs ∧ Added o st k t it t' := by
  obtain ⟨l, el, sp⟩ := ISet.addHint_spec h st pick hw k
  obtain ⟨it, t', r1, o1, rfl, q⟩ := addHint_run h ht el hp
  refine ⟨it, t', r1, o1, el, fun hk => ?_, sp, ?_⟩
  · rcases q with ⟨-, e, -⟩ | ⟨hk', -⟩
    · exact e
    · rw [hk] at hk'; simp at hk'
  · rcases q with ⟨hk, -, e⟩ | ⟨hk, A, B, C, L, i, s, R, q1, q2, q3, q4, q5, q6⟩
    · exact .inl ⟨hk, e⟩
    · exact .inr ⟨hk, A, B, C, L, i, s, R, q1, q2, q3, q4, q5, fun hs => q6 hs hw⟩

/-- A node without elements of the added interval that is still a segment is still at its place. -/
theorem Added.keeps {st : Style} {t : Tree I} (hw : WF o setSeg t.segs) {k : I} {it : It}
    {t' : Tree I} (hw' : WF o setSeg t'.segs) (hq : Added o st k t it t') {n : Nat × I} (hn : n ∈ t.nodes)
    (hd : ∀ x, o.Mem x n.2 → ¬ o.Mem x k) (hs : st = .joining → n.2 ∈ t'.segs) : n ∈ t'.nodes := by
  rcases hq with ⟨-, rfl⟩ | ⟨hk, A, B, C, L, i, s, R, he, -, ha, xL, xR, hc⟩
  · exact hn
  · have hout := nodeRange_out h (g := setSeg) hw hk he hn hd
    obtain ⟨e', hA, hB, hC⟩ := nodeRange h (g := setSeg) hw hk he
    by_cases hj : st = .joining
    · subst hj
      obtain ⟨hcov, lL, lR⟩ := hc (.inl (by simp))
      rw [segs, e'] at hw
      simp only [List.map_append] at hw
      have hw1 := wf_append.1 hw
      exact neighbour_kept h (g := setSeg) ha hw' (wf_append.1 hw1.1).1 hw1.2.1 hk hcov lL lR hA hC hout (hs rfl)
    · have hj' : joins st = false := by cases st <;> simp_all [joins]
      simp only [hj', trim, Bool.false_eq_true, if_false] at xL xR
      rw [ha.eq]
      simp only [List.mem_append, List.mem_reverse, List.mem_cons]
      rcases hout with hm | hm
      · exact .inl (xL.subset (by simpa using hm))
      · exact .inr (.inr (xR.subset hm))

/-- A node with a gap between it and the added interval is still at its place. -/
theorem Added.keeps_apart {st : Style} {t : Tree I} (hw : WF o setSeg t.segs) {k : I} {it : It}
    {t' : Tree I} (sp : AddSpec o st t.segs k t'.segs) (hq : Added o st k t it t')
    (hjd : st = .joining → Joined o setSeg t.segs) {n : Nat × I} (hn : n ∈ t.nodes)
    (hz : ∃ z, (∀ x, o.Mem x n.2 → x < z) ∧ (∀ y, o.Mem y k → z < y) ∨
      (∀ x, o.Mem x n.2 → z < x) ∧ ∀ y, o.Mem y k → y < z) : n ∈ t'.nodes := by
  obtain ⟨z, hz⟩ := hz
  have hd : ∀ x, o.Mem x n.2 → ¬ o.Mem x k := by
    intro x hx hk
    rcases hz with ⟨h1, h2⟩ | ⟨h1, h2⟩
    · exact lt_irrefl _ (lt_trans (h1 x hx) (h2 x hk))
    · exact lt_irrefl _ (lt_trans (h1 x hx) (h2 x hk))
  by_cases hj : st = .joining
  · have hjd2 := hjd hj
    by_contra hcon
    rcases hq with ⟨-, rfl⟩ | ⟨hk, A, B, C, L, i, s, R, he, -, ha, xL, xR, hc⟩
    · exact hcon hn
    have hout := nodeRange_out h (g := setSeg) hw hk he hn hd
    obtain ⟨e', hA, hB, hC⟩ := nodeRange h (g := setSeg) hw hk he
    subst hj
    obtain ⟨hcov, lL, lR⟩ := hc (.inl (by simp))
    obtain ⟨y, hy⟩ := hw.nonempty n.2 (List.mem_map_of_mem hn)
    obtain ⟨x, hx⟩ := (nonempty_iff h).2 hk
    have hLA : ∀ m ∈ L, m ∈ A := by
      intro m hm
      rcases lL with rfl | rfl
      · simpa using hm
      · simpa using List.mem_of_mem_tail hm
    have hRC : ∀ m ∈ R, m ∈ C := by
      intro m hm
      rcases lR with rfl | rfl
      · exact hm
      · exact List.mem_of_mem_tail hm
    have hAt : ∀ m ∈ A, m ∈ t.nodes := fun m hm => by rw [e']; simp [hm]
    have hBt : ∀ m ∈ B, m ∈ t.nodes := fun m hm => by rw [e']; simp [hm]
    have hCt : ∀ m ∈ C, m ∈ t.nodes := fun m hm => by rw [e']; simp [hm]
    have hwn := (wf_node (g := setSeg) (o := o)).2 hw
    -- another node has no element of `n`
    have huniq : ∀ m ∈ t.nodes, ∀ u, o.Mem u m.2 → o.Mem u n.2 → m = n := by
      intro m hm u hu hun
      by_contra hne
      obtain ⟨X, Y, e⟩ := List.append_of_mem hn
      have hw1 := hwn
      rw [e] at hw1 hm
      obtain ⟨w1, w2, w3⟩ := wf_append.1 hw1
      rcases List.mem_append.1 hm with hm | hm
      · exact lt_irrefl _ (w3 u u ⟨m, hm, hu⟩ ⟨n, by simp, hun⟩)
      · rcases List.mem_cons.1 hm with rfl | hm
        · exact hne rfl
        · exact lt_irrefl _ ((wf_cons.1 w2).2.2 u u hun ⟨m, hm, hu⟩)
    -- the elements of `n` are now in `s`
    have hys : o.Mem y s := by
      have hdy : Dom o setSeg t'.segs y := (sp.dom y).2 (.inl ⟨n.2, List.mem_map_of_mem hn, hy⟩)
      obtain ⟨u, hu, hyu⟩ := hdy
      obtain ⟨m, hm, rfl⟩ := List.mem_map.1 hu
      rw [ha.eq] at hm
      simp only [List.mem_append, List.mem_reverse, List.mem_cons] at hm
      rcases hm with hm | rfl | hm
      · have := huniq m (hAt m (hLA m hm)) y hyu hy
        subst this
        exact absurd (by rw [ha.eq]; simp [hm]) hcon
      · exact hyu
      · have := huniq m (hCt m (hRC m hm)) y hyu hy
        subst this
        exact absurd (by rw [ha.eq]; simp [hm]) hcon
    have hst : ∀ u, o.Mem u s → Dom o setSeg t'.segs u := fun u hu => ⟨s, by rw [segs, ha.eq]; simp, hu⟩
    rw [e'] at hwn
    obtain ⟨wAB, wC, wABC⟩ := wf_append.1 hwn
    obtain ⟨wA, wB, wAB⟩ := wf_append.1 wAB
    -- `n` is the neighbour that has been joined, but there is a gap behind or in front of it
    rcases hz with ⟨h1, h2⟩ | ⟨h1, h2⟩
    · have hnA : n ∈ A := hout.resolve_right fun hc =>
        lt_irrefl _ (lt_trans (hC n hc x y hx hy) (lt_trans (h1 y hy) (h2 x hx)))
      have hnL : n ∉ L := fun hm => hcon (by rw [ha.eq]; simp [hm])
      obtain ⟨X, rfl⟩ : ∃ X, A = X ++ [n] := by
        have hnr : n ∈ A.reverse := by simpa using hnA
        rcases lL with rfl | rfl
        · exact absurd hnr hnL
        · cases hr : A.reverse with
          | nil => rw [hr] at hnr; simp at hnr
          | cons a A0 =>
            rw [hr] at hnr hnL
            have hAe : A = A0.reverse ++ [a] := by have := congrArg List.reverse hr; simpa using this
            rcases List.mem_cons.1 hnr with rfl | hm
            · exact ⟨_, hAe⟩
            · exact absurd hm hnL
      obtain ⟨z', hz1, hz2, hz3⟩ : ∃ z', (∀ x, o.Mem x n.2 → x < z') ∧ (∀ y, o.Mem y k → z' < y) ∧
          ∀ u, Dom o (nodeSeg setSeg) B u → z' < u := by
        cases B with
        | nil => exact ⟨z, h1, h2, by simp⟩
        | cons f B =>
          have hf : f ∈ t.nodes := hBt f (by simp)
          have hbf : o.Before n.2 f.2 := fun u v hu hv => wAB u v ⟨n, by simp, hu⟩ ⟨f, by simp, hv⟩
          have := hjd2 n.2 (List.mem_map_of_mem hn) f.2 (List.mem_map_of_mem hf) hbf
          have hnt : ¬ o.touches n.2 f.2 = true := by
            intro hc; simp [ICL.joinable, setSeg, hc] at this
          have hnf : o.Nonempty f.2 := hw.nonempty f.2 (List.mem_map_of_mem hf)
          rw [h.touches_iff n.2 f.2 ⟨y, hy⟩ hnf hbf, not_not] at hnt
          obtain ⟨w, hw1, hw2⟩ := hnt
          refine ⟨min z w, fun u hu => lt_min (h1 u hu) (hw1 u hu), fun u hu => lt_of_le_of_lt (min_le_left _ _) (h2 u hu),
            fun u hu => ?_⟩
          rcases (dom_cons _ _ _).1 hu with hu | hu
          · exact lt_of_le_of_lt (min_le_right _ _) (hw2 u hu)
          · obtain ⟨v, hv⟩ := hnf
            exact lt_of_le_of_lt (min_le_right _ _) (lt_trans (hw2 v hv) ((wf_cons.1 wB).2.2 v u hv hu))
      have hzs : o.Mem z' s := h.convex _ _ _ _ hys (hcov x hx) (le_of_lt (hz1 y hy)) (le_of_lt (hz2 x hx))
      rcases (sp.dom z').1 (hst _ hzs) with ⟨u, hu, hzu⟩ | hd
      · obtain ⟨m, hm, rfl⟩ := List.mem_map.1 hu
        rw [e'] at hm
        simp only [List.mem_append, List.mem_singleton] at hm
        rcases hm with ((hm | rfl) | hm) | hm
        · exact lt_irrefl _ (lt_trans (hz1 y hy) ((wf_append.1 wA).2.2 z' y ⟨m, hm, hzu⟩ ⟨n, by simp, hy⟩))
        · exact lt_irrefl _ (hz1 z' hzu)
        · exact lt_irrefl _ (hz3 z' ⟨m, hm, hzu⟩)
        · exact lt_irrefl _ (lt_trans (hz2 x hx) (hC m hm x z' hx hzu))
      · exact lt_irrefl _ (hz2 z' hd)
    · have hnC : n ∈ C := hout.resolve_left fun hc =>
        lt_irrefl _ (lt_trans (hA n hc y x hy hx) (lt_trans (h2 x hx) (h1 y hy)))
      have hnR : n ∉ R := fun hm => hcon (by rw [ha.eq]; simp [hm])
      obtain ⟨X, rfl⟩ : ∃ X, C = n :: X := by
        rcases lR with rfl | rfl
        · exact absurd hnC hnR
        · cases C with
          | nil => simp at hnC
          | cons a C0 =>
            rcases List.mem_cons.1 hnC with rfl | hm
            · exact ⟨_, rfl⟩
            · exact absurd hm hnR
      obtain ⟨z', hz1, hz2, hz3⟩ : ∃ z', (∀ x, o.Mem x n.2 → z' < x) ∧ (∀ y, o.Mem y k → y < z') ∧
          ∀ u, Dom o (nodeSeg setSeg) B u → u < z' := by
        rcases List.eq_nil_or_concat B with rfl | ⟨B', f, rfl⟩
        · exact ⟨z, h1, h2, by simp⟩
        · rw [List.concat_eq_append] at *
          have hf : f ∈ t.nodes := hBt f (by simp)
          have hbf : o.Before f.2 n.2 := fun u v hu hv => wABC u v ⟨f, by simp, hu⟩ ⟨n, by simp, hv⟩
          have := hjd2 f.2 (List.mem_map_of_mem hf) n.2 (List.mem_map_of_mem hn) hbf
          have hnt : ¬ o.touches f.2 n.2 = true := by
            intro hc; simp [ICL.joinable, setSeg, hc] at this
          have hnf : o.Nonempty f.2 := hw.nonempty f.2 (List.mem_map_of_mem hf)
          rw [h.touches_iff f.2 n.2 hnf ⟨y, hy⟩ hbf, not_not] at hnt
          obtain ⟨w, hw1, hw2⟩ := hnt
          refine ⟨max z w, fun u hu => max_lt (h1 u hu) (hw2 u hu), fun u hu => lt_of_lt_of_le (h2 u hu) (le_max_left _ _),
            fun u hu => ?_⟩
          rcases (dom_append _ _ _).1 hu with hu | ⟨m, hm, hum⟩
          · obtain ⟨v, hv⟩ := hnf
            exact lt_of_lt_of_le (lt_trans ((wf_append.1 wB).2.2 u v hu ⟨f, by simp, hv⟩) (hw1 v hv)) (le_max_right _ _)
          · simp only [List.mem_singleton] at hm
            subst hm
            exact lt_of_lt_of_le (hw1 u hum) (le_max_right _ _)
      have hzs : o.Mem z' s := h.convex _ _ _ _ (hcov x hx) hys (le_of_lt (hz2 x hx)) (le_of_lt (hz1 y hy))
      rcases (sp.dom z').1 (hst _ hzs) with ⟨u, hu, hzu⟩ | hd
      · obtain ⟨m, hm, rfl⟩ := List.mem_map.1 hu
        rw [e'] at hm
        simp only [List.mem_append, List.mem_cons] at hm
        rcases hm with (hm | hm) | rfl | hm
        · exact lt_irrefl _ (lt_trans (hz2 x hx) (hA m hm z' x hzu hx))
        · exact lt_irrefl _ (hz3 z' ⟨m, hm, hzu⟩)
        · exact lt_irrefl _ (hz1 z' hzu)
        · exact lt_irrefl _ (lt_trans ((wf_cons.1 wC).2.2 y z' hy ⟨m, hm, hzu⟩) (hz1 y hy))
      · exact lt_irrefl _ (hz2 z' hd)
  · exact hq.keeps h hw sp.wf hn hd fun hc => absurd hc hj

theorem subtract_keeps {t : Tree I} (ht : t.Ok) (hw : WF o setSeg t.segs) {k : I} {t' : Tree I}
    (e : subtract o k t = some ((), t')) {n : Nat × I} (hn : n ∈ t.nodes) (hd : ∀ x, o.Mem x n.2 → ¬ o.Mem x k) :
    n ∈ t'.nodes := by
  obtain ⟨l, el, sp⟩ := ISet.subtract_spec h hw k
  obtain ⟨t1, r1, o1, s1, q⟩ := subtract_run ht el
  rw [e] at r1
  simp only [Option.some.injEq, Prod.mk.injEq, true_and] at r1
  obtain rfl := r1
  rcases q with ⟨-, rfl⟩ | ⟨hk, A, B, C, he, hA, hC⟩
  · exact hn
  · rcases nodeRange_out h (g := setSeg) hw hk he hn hd with hm | hm
    · exact hA n hm
    · exact hC n hm

theorem addWith_sim (st : Style) (oracle : List I → I → Nat) :
    Sim (addWith o st oracle) fun l k => ISet.addHint o st (oracle l k) l k := by
  intro t p k l ht hp hl
  obtain ⟨it, t', r, o1, s1, q⟩ := addHint_run h ht hl hp
  refine ⟨it, t', by unfold addWith; rw [run_bind (run_get t)]; exact r, o1, s1, ?_⟩
  rcases q with ⟨-, rfl, rfl⟩ | ⟨-, A, B, C, L, i, s, R, -, rfl, ha, -⟩
  · exact hp
  · exact ha.valid

theorem addSet_run (st : Style) (oracle : List I → I → Nat) {t : Tree I} (ht : t.Ok) {r l : List I}
    (hl : ISet.addSet o st oracle t.segs r = some l) :
    ∃ t', addSet o st oracle r t = some ((), t') ∧ t'.Ok ∧ t'.segs = l := by
  unfold ISet.addSet at hl
  rw [fold_forEach] at hl
  obtain ⟨it, t', r1, o1, s1, -⟩ := (addWith_sim h st oracle).chain r ht valid_none hl
  exact ⟨t', by unfold addSet; rw [run_bind r1]; rfl, o1, s1⟩

theorem subtract_sim : Sim (S := I) (fun _ k => do
    subtract o k
    return none) fun l k => ISet.subtract o l k := by
  intro t p k l ht hp hl
  obtain ⟨t', r1, o1, s1, -⟩ := subtract_run ht hl
  exact ⟨none, t', by show (subtract o k >>= fun _ => pure none) t = _; rw [run_bind r1]; rfl, o1, s1, valid_none⟩

theorem subSet_run {t : Tree I} (ht : t.Ok) {r l : List I} (hl : ISet.subSet o t.segs r = some l) :
    ∃ t', subSet o r t = some ((), t') ∧ t'.Ok ∧ t'.segs = l := by
  obtain ⟨cr, h1, h2⟩ := Option.bind_eq_some_iff.1 hl
  unfold subSet
  rw [run_bind (run_get t), h1, run_bind (run_ofOption cr t)]
  cases cr with
  | none => exact ⟨t, rfl, ht, Option.some.inj h2⟩
  | some abc =>
    obtain ⟨a, b, c⟩ := abc
    dsimp only at h2 ⊢
    rw [fold_forEach] at h2
    obtain ⟨it, t', r1, o1, s1, -⟩ := (subtract_sim h).chain b ht valid_none h2
    exact ⟨t', by rw [run_bind r1]; rfl, o1, s1⟩

theorem output_run (st : Style) (oracle : List I → I → Nat) {t : Tree I} (ht : t.Ok) {p : It} (hp : t.Valid p)
    {r l : List I} (hl : ISet.addSet o st oracle t.segs r = some l) :
    ∃ it t', output o st oracle p r t = some (it, t') ∧ t'.Ok ∧ t'.segs = l ∧ t'.Valid it := by
  unfold ISet.addSet at hl
  rw [fold_forEach] at hl
  exact (addWith_sim h st oracle).put.chain r ht hp hl

theorem flipLoop_at [DecidableEq I] (st : Style) (C : List (Nat × I)) : ∀ (n : Nat) (M : List (Nat × I)) {t : Tree I}
    {Q : List (Nat × I)} {span span' : I} {l : List I}, t.Ok → t.nodes = Q ++ (M ++ C) → WF o setSeg t.segs →
    M.length < n → ICL.ISet.flipLoop o st (snds C) t.segs span (snds M) = some (l, span') →
    ∃ t', flipLoop o st (hd C) n span (hd (M ++ C)) t = some (span', t') ∧ t'.Ok ∧ t'.segs = l ∧ WF o setSeg l
  | 0, _, _, _, _, _, _, _, _, _, hn, _ => by omega
  | n + 1, [], t, Q, span, span', l, ht, e, hw, hn, hl => by
    have hl' : (t.segs, span) = (l, span') := by simpa [ICL.ISet.flipLoop] using hl
    simp only [Prod.mk.injEq] at hl'
    obtain ⟨rfl, rfl⟩ := hl'
    exact ⟨t, by simp [flipLoop], ht, rfl, hw⟩
  | n + 1, m :: M, t, Q, span, span', l, ht, e, hw, hn, hl => by
    have ha : At t Q.reverse m.1 m.2 (M ++ C) := ⟨ht, by rw [e]; simp⟩
    rw [flipLoop, if_neg (hd_ne ht e), List.cons_append, hd_cons, run_bind ha.deref, run_bind ha.next]
    simp only [snds, List.map_cons, ICL.ISet.flipLoop] at hl
    obtain ⟨l1, h1, hl⟩ := Option.bind_eq_some_iff.1 hl
    obtain ⟨l2, h2, hl⟩ := Option.bind_eq_some_iff.1 hl
    have hwn := wf_node.2 hw
    rw [e] at hwn
    have hwm := wf_cons.1 (wf_append.1 hwn).2.1
    have hZ : ∀ n ∈ M ++ C, n ∈ t.nodes := fun n hn => by
      rw [e]; simp only [List.cons_append, List.mem_append, List.mem_cons] at hn ⊢; tauto
    obtain ⟨w, hwm0⟩ := hwm.1
    have hb : ∀ n ∈ M ++ C, o.Before m.2 n.2 := fun n hn x y hx hy => hwm.2.2 x y hx ⟨n, hn, hy⟩
    obtain ⟨_, h1', sp1⟩ := ISet.subtract_spec h hw (o.inter span m.2)
    rw [h1] at h1'
    obtain rfl := Option.some.inj h1'
    obtain ⟨t1, r1, o1, s1, -⟩ := subtract_run ht h1
    have k1 : ∀ n ∈ M ++ C, n ∈ t1.nodes := fun n hn => subtract_keeps h ht hw r1 (hZ n hn) fun x hx hk =>
      lt_irrefl _ (hb n hn x x ((h.mem_inter _ _ _).1 hk).2 hx)
    rw [← s1] at h2
    have hw1 : WF o setSeg t1.segs := by rw [s1]; exact sp1.wf
    obtain ⟨_, h2', sp2⟩ := ISet.add_spec h st hw1 (o.rightSubtract span m.2)
    rw [h2] at h2'
    obtain rfl := Option.some.inj h2'
    obtain ⟨it, t2, r2, o2, s2, -, -, q2⟩ := add_added h (st := st) o1 hw1 (o.rightSubtract span m.2) 0
    rw [h2] at s2
    replace s2 := (Option.some.inj s2).symm
    rw [run_bind r1, run_bind r2]
    split at hl
    · rename_i hsf
      have hsf : snds (M ++ C) <:+ t2.segs := by
        rw [s2]; rw [List.isSuffixOf_iff_suffix] at hsf; simpa [snds] using hsf
      have k2 : ∀ n ∈ M ++ C, n ∈ t2.nodes := fun n hn => q2.keeps h hw1 (by rw [s2]; exact sp2.wf) (k1 n hn)
        (fun x hx hk => lt_irrefl _ (lt_trans (((h.mem_rightSubtract _ _ _).1 hk).2 w hwm0) (hb n hn w x hwm0 hx)))
        fun _ => hsf.subset (List.mem_map_of_mem hn)
      have hw2 : WF o setSeg t2.segs := by rw [s2]; exact sp2.wf
      obtain ⟨Q', hQ'⟩ := suffix_nodes (o := o) (g := setSeg) hw2 hsf k2
      rw [← s2] at hl
      exact flipLoop_at st C n M o2 hQ' hw2 (by simp at hn; omega) hl
    · simp at hl

theorem flipSeg_run [DecidableEq I] (st : Style) {t : Tree I} (ht : t.Ok) (hw : WF o setSeg t.segs) {k : I} {l : List I}
    (hl : ICL.ISet.flipSeg o st t.segs k = some l) :
    ∃ t', flipSeg o st k t = some ((), t') ∧ t'.Ok ∧ t'.segs = l := by
  obtain ⟨⟨a, b, c⟩, h1, hl⟩ := Option.bind_eq_some_iff.1 hl
  obtain ⟨⟨l1, span⟩, h2, hl⟩ := Option.bind_eq_some_iff.1 hl
  obtain ⟨A, B, C, he, e, rfl, rfl, rfl⟩ := equalRange_node h1
  obtain ⟨t1, r1, o1, s1, w1⟩ := flipLoop_at h st C (t.nodes.length + 1) B ht e hw (by rw [e]; simp; omega) h2
  subst s1
  obtain ⟨it, t2, r2, o2, s2, -⟩ := add_run h o1 hl 0
  unfold flipSeg
  rw [run_bind (equalRange_run he)]
  dsimp only
  rw [run_bind (run_get t), run_bind r1, run_bind r2]
  exact ⟨t2, rfl, o2, s2⟩

end
end Sets

namespace Maps
section
variable {D I V : Type} [LinearOrder D] {o : IntervalOps D I} [DecidableEq V] (h : o.Lawful)
include h

/-- A node without elements of `k` and with a segment between it and `k`, if the map joins, is kept. -/
theorem Ran.keeps {c : MapCfg V} {t t' : Tree (I × V)} {k : I} {it : It} (hr : Ran c o t k it t')
    (hw : WF o mapSeg t.segs) {n : Nat × I × V} (hn : n ∈ t.nodes) (hd : ∀ x, o.Mem x n.2.1 → ¬ o.Mem x k)
    (hb : c.joining = true → ∃ s ∈ t.segs, (o.Before n.2.1 s.1 ∧ o.Before s.1 k) ∨ (o.Before k s.1 ∧ o.Before s.1 n.2.1)) :
    n ∈ t'.nodes := by
  obtain ⟨-, rfl | ⟨hk, A, B, C, he, hA, hC⟩⟩ := hr
  · exact hn
  have hout := nodeRange_out h (g := mapSeg) hw hk he hn hd
  obtain ⟨e', bA, bB, bC⟩ := nodeRange h (g := mapSeg) hw hk he
  cases hj : c.joining with
  | false =>
    rw [hj] at hA hC
    rcases hout with hm | hm
    · exact hA n (by simpa [trim] using hm)
    · exact hC n (by simpa [trim] using hm)
  | true =>
    rw [hj] at hA hC
    obtain ⟨s, hs, hb⟩ := hb hj
    obtain ⟨m, hm, rfl⟩ := List.mem_map.1 hs
    obtain ⟨x, hx⟩ := (nonempty_iff h).2 hk
    obtain ⟨y, hy⟩ := hw.nonempty m.2 hs
    obtain ⟨z, hz⟩ := hw.nonempty n.2 (List.mem_map_of_mem hn)
    have hw' := wf_node.2 hw
    rw [e'] at hw'
    have w1 := wf_append.1 hw'
    have w2 := wf_append.1 w1.1
    have hm3 : m ∈ A ∨ m ∈ C := by
      refine nodeRange_out h (g := mapSeg) hw hk he hm fun u hu huk => ?_
      rcases hb with ⟨-, hb⟩ | ⟨hb, -⟩
      · exact lt_irrefl _ (hb u u hu huk)
      · exact lt_irrefl _ (hb u u huk hu)
    rcases hout with hn' | hn'
    · have hm' : m ∈ A := by
        rcases hm3 with hm' | hm'
        · exact hm'
        · exfalso
          have h1 : x < y := bC m hm' x y hx hy
          have h2 : z < x := bA n hn' z x hz hx
          rcases hb with ⟨-, hb⟩ | ⟨-, hb⟩
          · exact lt_irrefl _ (lt_trans h1 (hb y x hy hx))
          · exact lt_irrefl _ (lt_trans (lt_trans h1 (hb y z hy hz)) h2)
      have hlt : o.Before n.2.1 m.2.1 := by
        rcases hb with ⟨hb, -⟩ | ⟨hb, -⟩
        · exact hb
        · exact absurd (lt_trans (hb x y hx hy) (bA m hm' y x hy hx)) (lt_irrefl _)
      refine hA n ?_
      simp only [trim, if_true]
      cases hA' : A.reverse with
      | nil => simp at hA'; subst hA'; simp at hn'
      | cons a A0 =>
        have hAe : A = A0.reverse ++ [a] := by have := congrArg List.reverse hA'; simpa using this
        rw [hAe] at hn' hm' w2
        simp only [List.mem_append, List.mem_reverse, List.mem_singleton] at hn' hm'
        rcases hn' with hn' | rfl
        · simpa using hn'
        · exfalso
          rcases hm' with hm' | rfl
          · have := (wf_append.1 w2.1).2.2 y z ⟨m, by simpa using hm', hy⟩ ⟨n, by simp, hz⟩
            exact lt_irrefl _ (lt_trans this (hlt z y hz hy))
          · exact lt_irrefl _ (hlt z z hz hz)
    · have hm' : m ∈ C := by
        rcases hm3 with hm' | hm'
        · exfalso
          have h1 : y < x := bA m hm' y x hy hx
          have h2 : x < z := bC n hn' x z hx hz
          rcases hb with ⟨hb, -⟩ | ⟨hb, -⟩
          · exact lt_irrefl _ (lt_trans (lt_trans h1 h2) (hb z y hz hy))
          · exact lt_irrefl _ (lt_trans h1 (hb x y hx hy))
        · exact hm'
      have hlt : o.Before m.2.1 n.2.1 := by
        rcases hb with ⟨-, hb⟩ | ⟨-, hb⟩
        · exact absurd (lt_trans (hb y x hy hx) (bC m hm' x y hx hy)) (lt_irrefl _)
        · exact hb
      refine hC n ?_
      simp only [trim, if_true]
      cases C with
      | nil => simp at hn'
      | cons a C =>
        rcases List.mem_cons.1 hn' with rfl | hn'
        · exfalso
          rcases List.mem_cons.1 hm' with rfl | hm'
          · exact lt_irrefl _ (hlt z z hz hz)
          · have := (wf_cons.1 w1.2.1).2.2 z y hz ⟨m, hm', hy⟩
            exact lt_irrefl _ (lt_trans this (hlt y z hy hz))
        · exact hn'

theorem Left.keeps {t t' : Tree (I × V)} {k : I} (hr : Left o t k t') (hw : WF o mapSeg t.segs) {n : Nat × I × V}
    (hn : n ∈ t.nodes) (hd : ∀ x, o.Mem x n.2.1 → ¬ o.Mem x k) : n ∈ t'.nodes := by
  rcases hr with rfl | ⟨hk, A, B, C, he, hA, hC⟩
  · exact hn
  · rcases nodeRange_out h (g := mapSeg) hw hk he hn hd with hm | hm
    · exact hA n hm
    · exact hC n hm

theorem addWith_sim (m : MapType V) (oracle : List (I × V) → I → Nat) :
    Sim (addWith o m oracle) fun l s => IMap.addHint o m (oracle l s.1) l s.1 s.2 := by
  intro t p s l ht hp hl
  obtain ⟨it, t', r, o1, s1, q⟩ := addHintC_run h ht hl hp
  exact ⟨it, t', by unfold addWith; rw [run_bind (run_get t)]; exact r, o1, s1, q.1⟩

theorem addMap_run (m : MapType V) (oracle : List (I × V) → I → Nat) {t : Tree (I × V)} (ht : t.Ok)
    {r l : List (I × V)} (hl : IMap.addMap o m oracle t.segs r = some l) :
    ∃ t', addMap o m oracle r t = some ((), t') ∧ t'.Ok ∧ t'.segs = l := by
  obtain ⟨it, t', r1, o1, s1, -⟩ := (addWith_sim h m oracle).chain r ht valid_none hl
  exact ⟨t', by unfold addMap; rw [run_bind r1]; rfl, o1, s1⟩

theorem output_run (m : MapType V) (oracle : List (I × V) → I → Nat) {t : Tree (I × V)} (ht : t.Ok) {p : It}
    (hp : t.Valid p) {r l : List (I × V)} (hl : IMap.addMap o m oracle t.segs r = some l) :
    ∃ it t', output o m oracle p r t = some (it, t') ∧ t'.Ok ∧ t'.segs = l ∧ t'.Valid it :=
  (addWith_sim h m oracle).put.chain r ht hp hl

theorem insertMap_run (m : MapType V) (oracle : List (I × V) → I → Nat) : ∀ (r : List (I × V)) {t : Tree (I × V)},
    t.Ok → WF o mapSeg t.segs → ∀ {l : List (I × V)}, IMap.insertMap o m oracle t.segs r = some l →
    ∃ t', insertMap o m oracle r t = some ((), t') ∧ t'.Ok ∧ t'.segs = l := by
  have key : ∀ (r : List (I × V)) {t : Tree (I × V)} {l : List (I × V)}, t.Ok → WF o mapSeg t.segs →
      IMap.insertMap o m oracle t.segs r = some l →
      ∃ t', chain (fun _ s => do
        let _ ← insertWith o m oracle none s
        return none) none r t = some (none, t') ∧ t'.Ok ∧ t'.segs = l := by
    intro r
    induction r with
    | nil => intro t l ht hw hl; exact ⟨t, rfl, ht, Option.some.inj hl⟩
    | cons s r ih =>
      intro t l ht hw hl
      obtain ⟨l1, h1, h2⟩ := Option.bind_eq_some_iff.1 hl
      have hb : ∀ b, ∃ l, IMap.insertHint o m.cfg (oracle t.segs s.1) b t.segs s.1 s.2 = some l := fun b => by
        obtain ⟨l, e, -⟩ := IMap.insertHint_at h m.cfg (oracle t.segs s.1) b hw s.1 s.2
        exact ⟨l, e⟩
      choose lb hlb using hb
      obtain ⟨b, it, t1, r1, o1, s1, -, b1⟩ := insertHint_run h ht hlb (p := none) valid_none
      obtain rfl := b1 rfl
      have hlf := hlb false
      dsimp only at h1
      rw [h1] at hlf
      obtain rfl := Option.some.inj hlf
      obtain ⟨_, e1, w1, -⟩ := IMap.insertHint_at h m.cfg (oracle t.segs s.1) false hw s.1 s.2
      rw [h1] at e1
      obtain rfl := Option.some.inj e1
      rw [← s1] at h2 w1
      obtain ⟨t', r2, q⟩ := ih o1 w1 h2
      refine ⟨t', ?_, q⟩
      have r0 : (do
        let _ ← insertWith o m oracle none s
        return none : TreeM (I × V) It) t = some (none, t1) := by
        have : insertWith o m oracle none s t = some (it, t1) := by
          unfold insertWith
          rw [run_bind (run_get t)]; exact r1
        rw [run_bind this]; rfl
      rw [chain, run_bind r0, r2]
  intro r t ht hw l hl
  obtain ⟨t', r1, q⟩ := key r ht hw hl
  exact ⟨t', by unfold insertMap; rw [run_bind r1]; rfl, q⟩

/-- An `inserter` works, and inserts one segment after the other. -/
theorem insertOutput_run (m : MapType V) (oracle : List (I × V) → I → Nat) : ∀ (r : List (I × V)) {t : Tree (I × V)}
    {p : It}, t.Ok → t.Valid p → WF o mapSeg t.segs →
    ∃ it t', insertOutput o m oracle p r t = some (it, t') ∧ t'.Ok ∧ t'.Valid it ∧ WF o mapSeg t'.segs ∧
      (m.cfg.joining = true → Joined o mapSeg t.segs → Joined o mapSeg t'.segs) ∧
      ∀ x, Spec.valueAt o t'.segs x =
        r.foldl (fun a s => IMap.on o s.1 (fun _ => IMap.insF m.cfg s.2) x a) (Spec.valueAt o t.segs x)
  | [], t, p, ht, hp, hw => ⟨p, t, rfl, ht, hp, hw, fun _ hj => hj, fun x => rfl⟩
  | s :: r, t, p, ht, hp, hw => by
    have hb := fun b => IMap.insertHint_at h m.cfg (oracle t.segs s.1) b hw s.1 s.2
    choose lb hlb hwb hjb hvb using hb
    obtain ⟨b, it, t1, r1, o1, s1, q1, -⟩ := insertHint_run h ht hlb hp
    have r0 : insertWith o m oracle p s t = some (it, t1) := by
      unfold insertWith
      rw [run_bind (run_get t)]; exact r1
    have rp : ∃ it', put (insertWith o m oracle) p s t = some (it', t1) ∧ t1.Valid it' := by
      unfold put
      rw [run_bind r0]
      cases it with
      | none => exact ⟨none, by simp, valid_none⟩
      | some i =>
        obtain ⟨L, s, R, ha⟩ := at_of_valid o1 q1.1
        rw [if_neg (by simp)]
        exact ⟨_, ha.next, ha.valid_hd⟩
    obtain ⟨it', rp, vp⟩ := rp
    obtain ⟨it2, t', r2, o2, v2, w2, j2, x2⟩ := insertOutput_run m oracle r o1 vp (by rw [s1]; exact hwb b)
    refine ⟨it2, t', ?_, o2, v2, w2, fun hc hj => j2 hc (by rw [s1]; exact hjb b hc hj), fun x => ?_⟩
    · unfold insertOutput at r2 ⊢
      rw [chain, run_bind rp, r2]
    · rw [x2, s1, hvb]; rfl

theorem subtract_run (m : MapType V) {t : Tree (I × V)} (ht : t.Ok) {k : I} {v : V} {l : List (I × V)}
    (hl : IMap.subSeg o m t.segs k v = some l) :
    ∃ t', subtract o m k v t = some ((), t') ∧ t'.Ok ∧ t'.segs = l := by
  unfold IMap.subSeg at hl
  unfold subtract
  split at hl
  · rename_i hc
    rw [if_pos hc]
    obtain ⟨it, t', r, o1, s1, -⟩ := addC_run h ht hl 0
    exact ⟨t', by rw [run_bind r]; rfl, o1, s1⟩
  · rename_i hc
    rw [if_neg hc]
    obtain ⟨t', r, o1, s1, -⟩ := subC_run h ht hl
    exact ⟨t', r, o1, s1⟩

theorem subMap_run (m : MapType V) {t : Tree (I × V)} (ht : t.Ok) {r l : List (I × V)}
    (hl : IMap.subMap o m t.segs r = some l) :
    ∃ t', subMap o m r t = some ((), t') ∧ t'.Ok ∧ t'.segs = l := by
  have hs : Sim (S := I × V) (fun _ (s : I × V) => do
      subtract o m s.1 s.2
      return none) fun l s => IMap.subSeg o m l s.1 s.2 := by
    intro t p s l ht hp hl
    obtain ⟨t', r1, o1, s1⟩ := subtract_run h m ht hl
    exact ⟨none, t', by show (subtract o m s.1 s.2 >>= fun _ => pure none) t = _; rw [run_bind r1]; rfl, o1, s1,
      valid_none⟩
  obtain ⟨it, t', r1, o1, s1, -⟩ := hs.chain r ht valid_none hl
  exact ⟨t', by unfold subMap; rw [run_bind r1]; rfl, o1, s1⟩

theorem eraseMap_run (m : MapType V) {t : Tree (I × V)} (ht : t.Ok) {r l : List (I × V)}
    (hl : IMap.eraseMap o m t.segs r = some l) :
    ∃ t', eraseMap o m r t = some ((), t') ∧ t'.Ok ∧ t'.segs = l := by
  obtain ⟨cr, h1, h2⟩ := Option.bind_eq_some_iff.1 hl
  unfold eraseMap
  rw [run_bind (run_get t)]
  rw [h1, run_bind (run_ofOption cr t)]
  cases cr with
  | none => exact ⟨t, rfl, ht, Option.some.inj h2⟩
  | some abc =>
    obtain ⟨a, b, c⟩ := abc
    have hs : Sim (S := I × V) (fun _ (s : I × V) => do
        eraseSeg o m.cfg s.1 s.2
        return none) fun l s => IMap.eraseSeg o m.cfg l s.1 s.2 := by
      intro t p s l ht hp hl
      obtain ⟨t', r1, o1, s1, -⟩ := eraseSeg_run h ht hl
      exact ⟨none, t', by show (eraseSeg o m.cfg s.1 s.2 >>= fun _ => pure none) t = _; rw [run_bind r1]; rfl, o1, s1,
        valid_none⟩
    obtain ⟨it, t', r1, o1, s1, -⟩ := hs.chain b ht valid_none h2
    dsimp only
    exact ⟨t', by rw [run_bind r1]; rfl, o1, s1⟩

theorem eraseSet_run {t : Tree (I × V)} (ht : t.Ok) {r : List I} {l : List (I × V)}
    (hl : IMap.eraseSet o t.segs r = some l) :
    ∃ t', eraseSet o r t = some ((), t') ∧ t'.Ok ∧ t'.segs = l := by
  obtain ⟨cr, h1, h2⟩ := Option.bind_eq_some_iff.1 hl
  unfold eraseSet
  rw [run_bind (run_get t)]
  rw [h1, run_bind (run_ofOption cr t)]
  cases cr with
  | none => exact ⟨t, rfl, ht, Option.some.inj h2⟩
  | some abc =>
    obtain ⟨a, b, c⟩ := abc
    have hs : Sim (S := I × V) (fun _ k => do
        eraseItv o k
        return none) fun m k => IMap.eraseItv o m k := by
      intro t p k l ht hp hl
      obtain ⟨t', r1, o1, s1, -⟩ := eraseItv_run h ht hl
      exact ⟨none, t', by show (eraseItv o k >>= fun _ => pure none) t = _; rw [run_bind r1]; rfl, o1, s1, valid_none⟩
    obtain ⟨it, t', r1, o1, s1, -⟩ := hs.chain b ht valid_none h2
    dsimp only
    exact ⟨t', by rw [run_bind r1]; rfl, o1, s1⟩

theorem flipLoop_at [DecidableEq I] (m : MapType V) (v : V) (C : List (Nat × I × V)) :
    ∀ (n : Nat) (M : List (Nat × I × V)) {t : Tree (I × V)} {Q : List (Nat × I × V)} {span span' : I} {er er' : List I}
    {ins ins' : List (I × V)} {l : List (I × V)}, t.Ok → t.nodes = Q ++ (M ++ C) → WF o mapSeg t.segs →
    M.length < n → IMap.flipLoop o m v (snds C) t.segs span er ins (snds M) = some (l, span', er', ins') →
    ∃ t', flipLoop o m v (hd C) n span (hd (M ++ C)) er ins t = some ((span', er', ins'), t') ∧ t'.Ok ∧ t'.segs = l ∧
      WF o mapSeg l
  | 0, _, _, _, _, _, _, _, _, _, _, _, _, _, hn, _ => by omega
  | n + 1, [], t, Q, span, span', er, er', ins, ins', l, ht, e, hw, hn, hl => by
    have hl' : (t.segs, span, er, ins) = (l, span', er', ins') := by simpa [IMap.flipLoop] using hl
    simp only [Prod.mk.injEq] at hl'
    obtain ⟨rfl, rfl, rfl, rfl⟩ := hl'
    exact ⟨t, by simp [flipLoop], ht, rfl, hw⟩
  | n + 1, q :: M, t, Q, span, span', er, er', ins, ins', l, ht, e, hw, hn, hl => by
    have ha : At t Q.reverse q.1 q.2 (M ++ C) := ⟨ht, by rw [e]; simp⟩
    rw [flipLoop, if_neg (Tree.hd_ne ht e), List.cons_append, hd_cons, run_bind ha.deref, run_bind ha.next]
    simp only [snds, List.map_cons, IMap.flipLoop] at hl
    obtain ⟨⟨er1, ins1⟩, h1, hl⟩ := Option.bind_eq_some_iff.1 hl
    obtain ⟨l2, h2, hl⟩ := Option.bind_eq_some_iff.1 hl
    rw [h1, run_bind (run_ofOption (er1, ins1) t)]
    have hwn := wf_node.2 hw
    rw [e] at hwn
    have hwm := wf_cons.1 (wf_append.1 hwn).2.1
    obtain ⟨w, hwm0⟩ := hwm.1
    have hb : ∀ n ∈ M ++ C, o.Before q.2.1 n.2.1 := fun n hn x y hx hy => hwm.2.2 x y hx ⟨n, hn, hy⟩
    have hlo := h.mem_rightSubtract span q.2.1
    unfold IMap.addSeg at h2
    obtain ⟨_, h2', w2, -⟩ := IMap.addC_at h m.cfg m.plus hw (o.rightSubtract span q.2.1) v
    rw [h2] at h2'
    obtain rfl := Option.some.inj h2'
    obtain ⟨it, t2, r2, o2, s2, q2⟩ := addC_run h ht h2 0
    dsimp only
    rw [run_bind r2]
    split at hl
    · rename_i hsf
      have hsf : snds (M ++ C) <:+ t2.segs := by
        rw [s2]; rw [List.isSuffixOf_iff_suffix] at hsf; simpa [snds] using hsf
      have k2 : ∀ n ∈ M ++ C, n ∈ t2.nodes := fun n hn => q2.keeps h hw
        (by rw [e]; simp only [List.cons_append, List.mem_append, List.mem_cons] at hn ⊢; tauto)
        (fun x hx hk => lt_irrefl _ (lt_trans (((hlo x).1 hk).2 w hwm0) (hb n hn w x hwm0 hx)))
        (fun _ => ⟨q.2, by rw [segs, e]; simp, .inr ⟨fun x y hx hy => ((hlo x).1 hx).2 y hy, hb n hn⟩⟩)
      rw [← s2] at w2
      obtain ⟨Q', hQ'⟩ := suffix_nodes (o := o) (g := mapSeg) w2 hsf k2
      rw [← s2] at hl
      exact flipLoop_at m v C n M o2 hQ' w2 (by simp at hn; omega) hl
    · simp at hl

theorem flipSeg_run [DecidableEq I] (m : MapType V) (oracle : List (I × V) → I → Nat) {t : Tree (I × V)} (ht : t.Ok)
    (hw : WF o mapSeg t.segs) {k : I} {v : V} {l : List (I × V)} (hl : IMap.flipSeg o m oracle t.segs k v = some l) :
    ∃ t', flipSeg o m oracle k v t = some ((), t') ∧ t'.Ok ∧ t'.segs = l := by
  unfold IMap.flipSeg at hl
  unfold flipSeg
  by_cases hc : m.cfg.total = true
  · rw [if_pos hc] at hl ⊢
    by_cases ha : m.cfg.absorbs = true
    · rw [if_pos ha] at hl ⊢
      obtain rfl := Option.some.inj hl
      have r0 : (first : TreeM (I × V) It) t = some (hd t.nodes, t) := rfl
      rw [run_bind r0]
      obtain ⟨t', r1, o1, e1, -⟩ := eraseRange_eq ht (A := []) (B := t.nodes) (C := []) (by simp)
      rw [List.append_nil, hd_nil] at r1
      exact ⟨t', r1, o1, by rw [segs, e1]; rfl⟩
    · rw [if_neg ha] at hl ⊢
      obtain ⟨l1, h1, h2⟩ := Option.bind_eq_some_iff.1 hl
      obtain ⟨it, t1, r1, o1, s1, -⟩ := addC_run h ht h1 0
      rw [run_bind r1]
      let t2 : Tree (I × V) := ⟨t1.nodes.map fun n => (n.1, (n.2.1, m.cfg.ident)), t1.fresh⟩
      have r2 : neutral m t1 = some ((), t2) := rfl
      have o2 : t2.Ok := o1.update (by simp [t2, Function.comp_def]) rfl
      have s2 : t2.segs = l1.map fun s => (s.1, m.cfg.ident) := by
        rw [← s1]; simp [t2, segs, Function.comp_def]
      rw [run_bind r2]
      unfold IMap.neutralize at h2
      by_cases hj : m.cfg.joining = true
      · rw [if_pos hj] at h2 ⊢
        rw [← s2] at h2
        exact join_run o2 h2
      · rw [if_neg hj] at h2 ⊢
        exact ⟨t2, rfl, o2, by rw [s2]; exact Option.some.inj h2⟩
  · rw [if_neg hc] at hl ⊢
    obtain ⟨⟨a, b, c⟩, h1, hl⟩ := Option.bind_eq_some_iff.1 hl
    obtain ⟨⟨l1, span, er, ins⟩, h2, hl⟩ := Option.bind_eq_some_iff.1 hl
    obtain ⟨l2, h3, hl⟩ := Option.bind_eq_some_iff.1 hl
    obtain ⟨l3, h4, hl⟩ := Option.bind_eq_some_iff.1 hl
    obtain ⟨A, B, C, he, e, rfl, rfl, rfl⟩ := equalRange_node h1
    obtain ⟨t1, r1, o1, s1, w1⟩ := flipLoop_at h m v C (t.nodes.length + 1) B ht e hw (by rw [e]; simp; omega) h2
    subst s1
    obtain ⟨it, t2, r2, o2, s2, -⟩ := addC_run h o1 h3 0
    subst s2
    obtain ⟨t3, r3, o3, s3⟩ := eraseSet_run h o2 h4
    subst s3
    obtain ⟨t4, r4, o4, s4⟩ := addMap_run h m oracle o3 hl
    rw [run_bind (equalRange_run he)]
    dsimp only
    rw [run_bind (run_get t), run_bind r1]
    dsimp only
    rw [run_bind r2, run_bind r3]
    exact ⟨t4, r4, o4, s4⟩

end
end Maps

end Tree
end ICL
