import Verif.Model.TreeSet
import Verif.Model.TreeMap
import Verif.Theory.Seg

/-!
# Lemmas on nodes and iterators

Each function on nodes and iterators does what the function on lists does.
-/

set_option linter.unusedSectionVars false
set_option linter.unusedSimpArgs false
set_option linter.unusedVariables false

namespace ICL
namespace Tree

section basic
variable {S α β : Type}

/-- No two nodes have the same address, and the addresses from `fresh` on are free. -/
structure Ok (t : Tree S) : Prop where
  nodup : (t.nodes.map Prod.fst).Nodup
  fresh : ∀ n ∈ t.nodes, n.1 < t.fresh

/-- The iterator to the first of some nodes. -/
def hd (l : List (Nat × S)) : It := l.head?.map Prod.fst

@[simp] theorem hd_nil : hd ([] : List (Nat × S)) = none := rfl
@[simp] theorem hd_cons (n : Nat × S) (l : List (Nat × S)) : hd (n :: l) = some n.1 := rfl

/-- The contents of nodes. -/
abbrev snds (l : List (Nat × S)) : List S := l.map Prod.snd

theorem run_bind {x : TreeM S α} {f : α → TreeM S β} {t t' : Tree S} {a : α} (hx : x t = some (a, t')) :
    (x >>= f) t = f a t' := by
  show (x t).bind (fun p => f p.1 p.2) = _
  rw [hx]; rfl

@[simp] theorem run_pure (a : α) (t : Tree S) : (pure a : TreeM S α) t = some (a, t) := rfl

theorem run_get (t : Tree S) : (get : TreeM S (Tree S)) t = some (t, t) := rfl

theorem run_ofOption (a : α) (t : Tree S) : (ofOption (some a) : TreeM S α) t = some (a, t) := rfl

/-- The node at the address `i`. -/
structure At (t : Tree S) (L : List (Nat × S)) (i : Nat) (s : S) (R : List (Nat × S)) : Prop where
  ok : t.Ok
  eq : t.nodes = L.reverse ++ (i, s) :: R

theorem locate_eq {i : Nat} {s : S} {R : List (Nat × S)} :
    ∀ (l acc : List (Nat × S)), (∀ n ∈ l, n.1 ≠ i) →
      locate i acc (l ++ (i, s) :: R) = some (l.reverse ++ acc, s, R)
  | [], acc, _ => by simp [locate]
  | n :: l, acc, hl => by
    have hn : n.1 ≠ i := hl n (by simp)
    rw [List.cons_append, locate, if_neg hn, locate_eq l (n :: acc) (fun m hm => hl m (by simp [hm]))]
    simp

theorem nodup_split {l R : List (Nat × S)} {i : Nat} {s : S}
    (hn : ((l ++ (i, s) :: R).map Prod.fst).Nodup) : ∀ n ∈ l, n.1 ≠ i := by
  intro n hn' e
  rw [List.map_append, List.nodup_append] at hn
  exact hn.2.2 n.1 (List.mem_map_of_mem hn') i (by simp) e

variable {t : Tree S} {L R : List (Nat × S)} {i : Nat} {s : S}

theorem At.find (ha : At t L i s R) : find (some i) t = some (L, s, R) := by
  have := ha.ok.nodup
  rw [ha.eq] at this
  have h1 := locate_eq (R := R) (s := s) L.reverse [] (nodup_split this)
  simp only [List.reverse_reverse, List.append_nil] at h1
  simp only [Tree.find, Option.bind_some, ha.eq]
  exact h1

theorem At.deref (ha : At t L i s R) : deref (some i) t = some (s, t) := by
  simp [Tree.deref, ha.find]

theorem At.next (ha : At t L i s R) : next (some i) t = some (hd R, t) := by
  simp [Tree.next, ha.find, hd]

theorem At.left {n : Nat × S} (ha : At t (n :: L) i s R) : At t L n.1 n.2 ((i, s) :: R) :=
  ⟨ha.ok, by rw [ha.eq]; simp⟩

theorem At.right {n : Nat × S} (ha : At t L i s (n :: R)) : At t ((i, s) :: L) n.1 n.2 R :=
  ⟨ha.ok, by rw [ha.eq]; simp⟩

theorem At.valid (ha : At t L i s R) : t.Valid (some i) := by
  intro j hj
  obtain rfl := Option.some.inj hj
  rw [ha.eq]; simp

theorem valid_none : t.Valid none := by intro i hi; simp at hi

theorem valid_hd {A B : List (Nat × S)} (e : t.nodes = A ++ B) : t.Valid (hd B) := by
  cases B with
  | nil => exact valid_none
  | cons n B =>
    intro j hj
    obtain rfl := Option.some.inj hj
    rw [e]; simp

theorem At.validLeft (ha : At t L i s R) : t.Valid (hd L) := by
  cases L with
  | nil => exact valid_none
  | cons n L => exact ha.left.valid

theorem At.first (ha : At t L i s R) : first t = some (hd (t.nodes), t) := rfl

theorem At.isFirst (ha : At t L i s R) : (some i = hd t.nodes) ↔ L = [] := by
  rw [ha.eq]
  constructor
  · intro e
    have hn := ha.ok.nodup
    rw [ha.eq] at hn
    have := nodup_split hn
    cases hL : L.reverse with
    | nil => simpa using hL
    | cons n l =>
      rw [hL] at e this
      simp only [List.cons_append, hd_cons, Option.some.injEq] at e
      exact absurd e.symm (this n (by simp))
  · rintro rfl; simp

theorem At.prior {n : Nat × S} (ha : At t (n :: L) i s R) : prior (some i) t = some (some n.1, t) := by
  simp [Tree.prior, ha.find]

theorem At.cyclicPrior (ha : At t L i s R) : cyclicPrior (some i) t = some (hd L, t) := by
  unfold Tree.cyclicPrior
  rw [run_bind ha.first]
  by_cases hL : L = []
  · rw [if_pos (ha.isFirst.2 hL)]; subst hL; rfl
  · rw [if_neg (fun e => hL (ha.isFirst.1 e))]
    obtain ⟨n, L, rfl⟩ := List.exists_cons_of_ne_nil hL
    exact ha.prior

theorem Ok.update {t' : Tree S} (ht : t.Ok) (hn : t'.nodes.map Prod.fst = t.nodes.map Prod.fst)
    (hf : t'.fresh = t.fresh) : t'.Ok := by
  refine ⟨by rw [hn]; exact ht.nodup, fun n hm => ?_⟩
  have h1 : n.1 ∈ t.nodes.map Prod.fst := by rw [← hn]; exact List.mem_map_of_mem hm
  obtain ⟨m, hm, e⟩ := List.mem_map.1 h1
  rw [hf, ← e]; exact ht.fresh m hm

theorem Ok.sublist {t' : Tree S} (ht : t.Ok) (hn : t'.nodes.Sublist t.nodes) (hf : t'.fresh = t.fresh) : t'.Ok :=
  ⟨ht.nodup.sublist (hn.map _), fun n hm => by rw [hf]; exact ht.fresh n (hn.subset hm)⟩

theorem At.modify (ha : At t L i s R) (f : S → S) :
    ∃ t', modify (some i) f t = some ((), t') ∧ At t' L i (f s) R ∧ t'.fresh = t.fresh := by
  refine ⟨⟨L.reverse ++ (i, f s) :: R, t.fresh⟩, by simp [Tree.modify, ha.find], ⟨?_, rfl⟩, rfl⟩
  exact ha.ok.update (by rw [ha.eq]; simp) rfl

theorem At.erase (ha : At t L i s R) :
    ∃ t', erase (some i) t = some ((), t') ∧ t'.Ok ∧ t'.nodes = L.reverse ++ R ∧ t'.fresh = t.fresh := by
  refine ⟨⟨L.reverse ++ R, t.fresh⟩, by simp [Tree.erase, ha.find], ?_, rfl, rfl⟩
  exact ha.ok.sublist (by rw [ha.eq]; simp) rfl

theorem cut_hd {l A B : List (Nat × S)} (hn : (l.map Prod.fst).Nodup) (e : l = A ++ B) :
    cut (hd B) l = some (A, B) := by
  subst e
  cases B with
  | nil => simp [cut]
  | cons n B =>
    obtain ⟨j, u⟩ := n
    simp only [cut, hd_cons]
    rw [locate_eq A [] (nodup_split hn)]
    simp

theorem eraseRange_eq (ht : t.Ok) {A B C : List (Nat × S)} (e : t.nodes = A ++ (B ++ C)) :
    ∃ t', eraseRange (hd (B ++ C)) (hd C) t = some ((), t') ∧ t'.Ok ∧ t'.nodes = A ++ C ∧ t'.fresh = t.fresh := by
  refine ⟨⟨A ++ C, t.fresh⟩, ?_, ?_, rfl, rfl⟩
  · have hn := ht.nodup
    have h1 := cut_hd hn e
    have h2 : cut (hd C) (B ++ C) = some (B, C) := by
      refine cut_hd ?_ rfl
      rw [e, List.map_append] at hn
      exact (List.nodup_append.1 hn).2.1
    simp [Tree.eraseRange, h1, h2]
  · exact ht.sublist (by rw [e]; simp) rfl

theorem prior_end (ht : t.Ok) {A B C : List (Nat × S)} {n : Nat × S} (e : t.nodes = A ++ (n :: B ++ C)) :
    ∃ L, prior (hd C) t = some (some (B.getLastD n).1, t) ∧ At t L (B.getLastD n).1 (B.getLastD n).2 C ∧
      L.reverse ++ [B.getLastD n] = A ++ n :: B := by
  obtain ⟨X, hX⟩ : ∃ X, n :: B = X ++ [B.getLastD n] := by
    refine ⟨(n :: B).dropLast, ?_⟩
    have := (List.dropLast_concat_getLast (l := n :: B) (by simp)).symm
    rw [List.getLast_eq_getLastD] at this
    simpa using this
  have ha : At t (A ++ X).reverse (B.getLastD n).1 (B.getLastD n).2 C := ⟨ht, by rw [e, hX]; simp⟩
  refine ⟨_, ?_, ha, by rw [hX]; simp⟩
  cases C with
  | nil =>
    have := ha.eq
    simp only [hd_nil, Tree.prior]
    rw [this]; simp
  | cons m C => exact ha.right.prior

theorem getLastD_mem : ∀ (B : List (Nat × S)) (m : Nat × S), B.getLastD m ∈ m :: B
  | [], m => by simp
  | b :: B, m => by
    rw [List.getLastD_cons]
    exact List.mem_cons_of_mem _ (getLastD_mem B b)

/-- A node is not the last one of those behind it. -/
theorem At.ne_last {m : Nat × S} {B C : List (Nat × S)} (ha : At t L i s (m :: B ++ C)) :
    ¬ some i = some ((m :: B).getLastD (i, s)).1 := by
  rw [List.getLastD_cons]
  intro e
  have hnd := ha.ok.nodup
  rw [ha.eq, List.map_append, List.map_cons] at hnd
  apply (List.nodup_cons.1 (List.nodup_append.1 hnd).2.1).1
  rw [show (i, s).1 = (B.getLastD m).1 from Option.some.inj e]
  exact List.mem_map_of_mem (List.mem_append_left _ (getLastD_mem B m))

theorem getLastD_snd (B : List (Nat × S)) (m : Nat × S) : (snds B).getLastD m.2 = (B.getLastD m).2 := by
  induction B generalizing m with
  | nil => rfl
  | cons b B ih => rw [snds, List.map_cons, List.getLastD_cons, List.getLastD_cons]; exact ih b

end basic

section seg
variable {D I V S : Type} [LinearOrder D] {o : IntervalOps D I} {g : SegOps I V S}

theorem cmpOk_node (l : List (Nat × S)) (k : I) : cmpOk o (nodeSeg g) l k = cmpOk o g (snds l) k := by
  simp [cmpOk, nodeSeg, snds, List.all_map, Function.comp_def]

theorem takeWhile_node (l : List (Nat × S)) (p : S → Bool) :
    snds (l.takeWhile fun n => p n.2) = (snds l).takeWhile p := by
  simp only [snds]
  induction l with
  | nil => rfl
  | cons n l ih =>
    simp only [List.takeWhile_cons, List.map_cons]
    cases p n.2 <;> simp [ih]

theorem dropWhile_node (l : List (Nat × S)) (p : S → Bool) :
    snds (l.dropWhile fun n => p n.2) = (snds l).dropWhile p := by
  simp only [snds]
  induction l with
  | nil => rfl
  | cons n l ih =>
    simp only [List.dropWhile_cons, List.map_cons]
    cases p n.2 <;> simp [ih]

/-- `equal_range` of the nodes and of the segments -/
theorem equalRange_node {l : List (Nat × S)} {k : I} {a b c : List S}
    (he : ICL.equalRange o g (snds l) k = some (a, b, c)) :
    ∃ A B C, ICL.equalRange o (nodeSeg g) l k = some (A, B, C) ∧ l = A ++ (B ++ C) ∧
      snds A = a ∧ snds B = b ∧ snds C = c := by
  unfold ICL.equalRange at he
  split at he
  · rename_i hc
    simp only [Option.some.injEq, Prod.mk.injEq] at he
    obtain ⟨h1, h2, h3⟩ := he
    refine ⟨_, _, _, by rw [ICL.equalRange, if_pos (by rw [cmpOk_node]; exact hc)], by simp, ?_, ?_, ?_⟩
    · rw [← h1]; exact takeWhile_node l fun s => o.neLess (g.key s) k
    · rw [← h2, ← dropWhile_node l fun s => o.neLess (g.key s) k]
      exact takeWhile_node _ fun s => !o.neLess k (g.key s)
    · rw [← h3, ← dropWhile_node l fun s => o.neLess (g.key s) k]
      exact dropWhile_node _ fun s => !o.neLess k (g.key s)
  · simp at he

variable (h : o.Lawful)
include h

theorem equalRange_insertAt {l r : List S} {s : S} {z : Zip S} (hi : ICL.insertAt o g l s r = some z) :
    z = ⟨l, s, r⟩ ∧ ICL.equalRange o g (l.reverse ++ r) (g.key s) = some (l.reverse, [], r) := by
  unfold ICL.insertAt at hi
  split at hi
  · rename_i hc
    simp only [Bool.and_eq_true] at hc
    obtain ⟨⟨⟨h1, h2⟩, h3⟩, h4⟩ := hc
    refine ⟨(Option.some.inj hi).symm, ?_⟩
    have hcm : cmpOk o g (l.reverse ++ r) (g.key s) = true := by
      unfold cmpOk at h1 h2 ⊢
      cases l <;> cases r <;> simp_all
    have e1 : (l.reverse ++ r).takeWhile (fun p => o.neLess (g.key p) (g.key s)) = l.reverse ∧
        (l.reverse ++ r).dropWhile (fun p => o.neLess (g.key p) (g.key s)) = r := by
      have hl : ∀ p ∈ l.reverse, o.neLess (g.key p) (g.key s) = true := by
        intro p hp
        exact List.all_eq_true.1 h3 p (by simpa using hp)
      have hr : r.takeWhile (fun p => o.neLess (g.key p) (g.key s)) = [] ∧
          r.dropWhile (fun p => o.neLess (g.key p) (g.key s)) = r := by
        cases r with
        | nil => simp
        | cons q r =>
          have hq : o.neLess (g.key q) (g.key s) = false := by
            have h5 := List.all_eq_true.1 h4 q (by simp)
            simp only [cmpOk, List.isEmpty_cons, Bool.false_or, Bool.and_eq_true, Bool.not_eq_true', List.all_cons] at h2
            have n1 : o.Nonempty (g.key s) := by
              by_contra hne
              have := (h.isEmpty_iff _).2 (fun x hx => hne ⟨x, hx⟩)
              rw [h2.1] at this; simp at this
            have n2 : o.Nonempty (g.key q) := by
              by_contra hne
              have := (h.isEmpty_iff _).2 (fun x hx => hne ⟨x, hx⟩)
              rw [h2.2.1] at this; simp at this
            rw [h.neLess_iff _ _ n1 n2] at h5
            rw [← Bool.not_eq_true, h.neLess_iff _ _ n2 n1]
            intro h6
            obtain ⟨x, hx⟩ := n1
            obtain ⟨y, hy⟩ := n2
            exact absurd (h5 x y hx hy) (not_lt_of_gt (h6 y x hy hx))
          simp [hq]
      constructor
      · rw [List.takeWhile_append_of_pos hl, hr.1, List.append_nil]
      · rw [List.dropWhile_append_of_pos hl, hr.2]
    have e2 : r.takeWhile (fun q => !o.neLess (g.key s) (g.key q)) = [] ∧
        r.dropWhile (fun q => !o.neLess (g.key s) (g.key q)) = r := by
      cases r with
      | nil => simp
      | cons q r => simp [List.all_eq_true.1 h4 q (by simp)]
    rw [ICL.equalRange, if_pos hcm]
    simp only [e1.1, e1.2, e2.1, e2.2]
  · simp at hi

omit h in
/-- A new node. -/
theorem insert_new {t : Tree S} (ht : t.Ok) {A C : List (Nat × S)} {s : S} (e : t.nodes = A ++ C)
    (he : ICL.equalRange o (nodeSeg g) t.nodes (g.key s) = some (A, [], C)) (pick : Nat) :
    ∃ t', insert o g pick s t = some ((some t.fresh, true), t') ∧ At t' A.reverse t.fresh s C ∧ t.fresh < t'.fresh := by
  refine ⟨⟨A ++ (t.fresh, s) :: C, t.fresh + 1⟩, ?_, ⟨⟨?_, ?_⟩, by simp⟩, by simp⟩
  · simp only [Tree.insert, he, Option.map_some]
  · have hn := ht.nodup
    rw [e] at hn
    have hfr : ∀ n ∈ t.nodes, n.1 ≠ t.fresh := fun n hn => Nat.ne_of_lt (ht.fresh n hn)
    have hp : (A ++ (t.fresh, s) :: C).Perm ((t.fresh, s) :: (A ++ C)) := List.perm_middle
    refine (hp.map Prod.fst).nodup_iff.2 ?_
    rw [List.map_cons, List.nodup_cons]
    refine ⟨?_, hn⟩
    intro hm
    obtain ⟨n, hn, e'⟩ := List.mem_map.1 hm
    exact hfr n (by rw [e]; exact hn) e'
  · intro n hn
    simp only [List.mem_append, List.mem_cons] at hn
    have : n ∈ t.nodes ∨ n = (t.fresh, s) := by rw [e, List.mem_append]; tauto
    rcases this with hn | rfl
    · exact Nat.lt_succ_of_lt (ht.fresh n hn)
    · exact Nat.lt_succ_self _

omit h in
/-- No new node. -/
theorem insert_old {t : Tree S} {A B C : List (Nat × S)} {f : Nat × S} {s : S}
    (he : ICL.equalRange o (nodeSeg g) t.nodes (g.key s) = some (A, f :: B, C)) (pick : Nat) :
    insert o g pick s t = some ((some ((f :: B).getD (pick % (B.length + 1)) f).1, false), t) := by
  simp only [Tree.insert, he, Option.map_some]

/-- A node is inserted where the list functions insert it. -/
theorem insertHint_eq {t : Tree S} (ht : t.Ok) {L R : List (Nat × S)} {s : S} {z : Zip S}
    (e : t.nodes = L.reverse ++ R) (hi : ICL.insertAt o g (snds L) s (snds R) = some z) {hint : It}
    (hh : t.Valid hint) (pick : Nat) :
    z = ⟨snds L, s, snds R⟩ ∧
    ∃ t', insertHint o g pick hint s t = some (some t.fresh, t') ∧ At t' L t.fresh s R ∧ t.fresh < t'.fresh := by
  obtain ⟨hz, he⟩ := equalRange_insertAt h hi
  refine ⟨hz, ?_⟩
  have he' : ICL.equalRange o g (snds t.nodes) (g.key s) = some (snds L.reverse, [], snds R) := by
    rw [e]; simpa [snds] using he
  obtain ⟨A, B, C, h1, h2, h3, h4, h5⟩ := equalRange_node he'
  obtain rfl : B = [] := by simpa [snds] using h4
  have hAL : A = L.reverse ∧ C = R := by
    rw [e, List.nil_append] at h2
    refine List.append_inj h2.symm ?_
    have := congrArg List.length h3
    simpa [snds] using this
  obtain ⟨rfl, rfl⟩ := hAL
  obtain ⟨t', r1, a1, f1⟩ := insert_new ht (g := g) e h1 pick
  refine ⟨t', ?_, by simpa using a1, f1⟩
  simp only [Tree.insertHint, if_pos hh, r1, Option.map_some]

variable [DecidableEq V]
omit h

theorem joinable_at {t : Tree S} {L R : List (Nat × S)} {i j : Nat} {a b : S} (ha : At t L i a ((j, b) :: R))
    {r : Bool} (hj : joinableC o g a b = some r) : joinable o g (some i) (some j) t = some (r, t) := by
  unfold Tree.joinable
  rw [run_bind ha.deref, run_bind ha.right.deref, hj]
  rfl

theorem joinOn_at {t : Tree S} {L R : List (Nat × S)} {i j : Nat} {a b s : S} (ha : At t L i a ((j, b) :: R))
    (hj : ICL.joinNodes o g a b = some s) :
    ∃ t', joinOn o g (some i) (some j) t = some (some i, t') ∧ At t' L i s R ∧ t'.fresh = t.fresh := by
  unfold ICL.joinNodes at hj
  split at hj
  · rename_i hc
    obtain rfl := Option.some.inj hj
    obtain ⟨t1, h1, o1, e1, f1⟩ := ha.right.erase
    have a1 : At t1 L i a R := ⟨o1, by rw [e1]; simp⟩
    obtain ⟨t2, h2, a2, f2⟩ := a1.modify (fun a => g.setKey a (o.hull (g.key a) (g.key b)))
    refine ⟨t2, ?_, a2, by rw [f2, f1]⟩
    unfold Tree.joinOn
    rw [run_bind ha.deref, run_bind ha.right.deref, if_pos hc]
    have : Tree.joinNodes o g (some i) (some j) t = some ((), t2) := by
      unfold Tree.joinNodes
      rw [run_bind ha.right.deref, run_bind h1]
      exact h2
    rw [run_bind this]; rfl
  · simp at hj

/-- The nodes are the same or one fewer. -/
def Less1 (l' l : List (Nat × S)) : Prop := l' = l ∨ l' = l.tail

theorem joinLeft_at {t : Tree S} {L R : List (Nat × S)} {i : Nat} {s : S} (ha : At t L i s R) {z : Zip S}
    (hz : ICL.joinLeft o g ⟨snds L, s, snds R⟩ = some z) :
    ∃ L' i' s' t', joinLeft o g (some i) t = some (some i', t') ∧ At t' L' i' s' R ∧ t'.fresh = t.fresh ∧
      z = ⟨snds L', s', snds R⟩ ∧ Less1 L' L := by
  unfold Tree.joinLeft
  rw [run_bind ha.first]
  cases L with
  | nil =>
    rw [if_pos (ha.isFirst.2 rfl)]
    have : z = ⟨[], s, snds R⟩ := by simpa [ICL.joinLeft, eq_comm] using hz
    exact ⟨[], i, s, t, rfl, ha, rfl, this, .inl rfl⟩
  | cons p L =>
    rw [if_neg (fun e => by simpa using ha.isFirst.1 e), run_bind ha.prior]
    simp only [ICL.joinLeft, snds, List.map_cons] at hz
    split at hz
    · simp at hz
    · rename_i hj
      obtain ⟨j, hjn, hz⟩ := Option.bind_eq_some_iff.1 hz
      obtain rfl := Option.some.inj hz
      obtain ⟨t', h1, a1, f1⟩ := joinOn_at ha.left hjn
      rw [run_bind (joinable_at ha.left hj), if_pos rfl]
      exact ⟨L, p.1, j, t', h1, a1, f1, rfl, .inr rfl⟩
    · rename_i hj
      obtain rfl := Option.some.inj hz
      rw [run_bind (joinable_at ha.left hj), if_neg (by simp)]
      exact ⟨p :: L, i, s, t, rfl, ha, rfl, rfl, .inl rfl⟩

theorem joinRight_at {t : Tree S} {L R : List (Nat × S)} {i : Nat} {s : S} (ha : At t L i s R) {z : Zip S}
    (hz : ICL.joinRight o g ⟨snds L, s, snds R⟩ = some z) :
    ∃ s' R' t', joinRight o g (some i) t = some (some i, t') ∧ At t' L i s' R' ∧ t'.fresh = t.fresh ∧
      z = ⟨snds L, s', snds R'⟩ ∧ Less1 R' R := by
  unfold Tree.joinRight
  rw [if_neg (by simp), run_bind ha.next]
  cases R with
  | nil =>
    rw [if_pos (by simp)]
    have : z = ⟨snds L, s, []⟩ := by simpa [ICL.joinRight, eq_comm] using hz
    exact ⟨s, [], t, rfl, ha, rfl, this, .inl rfl⟩
  | cons q R =>
    rw [if_neg (by simp)]
    simp only [ICL.joinRight, snds, List.map_cons] at hz
    split at hz
    · simp at hz
    · rename_i hj
      obtain ⟨j, hjn, hz⟩ := Option.bind_eq_some_iff.1 hz
      obtain rfl := Option.some.inj hz
      obtain ⟨t', h1, a1, f1⟩ := joinOn_at (b := q.2) (j := q.1) ha hjn
      rw [hd_cons, run_bind (joinable_at (b := q.2) (j := q.1) ha hj), if_pos rfl]
      exact ⟨j, R, t', h1, a1, f1, rfl, .inr rfl⟩
    · rename_i hj
      obtain rfl := Option.some.inj hz
      rw [hd_cons, run_bind (joinable_at (b := q.2) (j := q.1) ha hj), if_neg (by simp)]
      exact ⟨s, q :: R, t, rfl, ha, rfl, rfl, .inl rfl⟩

theorem joinNeighbours_at {t : Tree S} {L R : List (Nat × S)} {i : Nat} {s : S} (ha : At t L i s R) {z : Zip S}
    (hz : ICL.joinNeighbours o g ⟨snds L, s, snds R⟩ = some z) :
    ∃ L' i' s' R' t', joinNeighbours o g (some i) t = some (some i', t') ∧ At t' L' i' s' R' ∧ t'.fresh = t.fresh ∧
      z = ⟨snds L', s', snds R'⟩ ∧ Less1 L' L ∧ Less1 R' R := by
  obtain ⟨z1, h1, h2⟩ := Option.bind_eq_some_iff.1 hz
  obtain ⟨L', i', s1, t1, r1, a1, f1, rfl, l1⟩ := joinLeft_at ha h1
  obtain ⟨s', R', t', r2, a2, f2, rfl, l2⟩ := joinRight_at a1 h2
  refine ⟨L', i', s', R', t', ?_, a2, by rw [f2, f1], rfl, l1, l2⟩
  unfold Tree.joinNeighbours
  rw [run_bind r1]; exact r2

omit [DecidableEq V] in
theorem equalRange_run {t : Tree S} {A B C : List (Nat × S)} {k : I}
    (he : ICL.equalRange o (nodeSeg g) t.nodes k = some (A, B, C)) :
    Tree.equalRange o g k t = some ((hd (B ++ C), hd C), t) := by
  simp [Tree.equalRange, he, hd]

omit [DecidableEq V] in
theorem lowerBound_run {t : Tree S} {A B C : List (Nat × S)} {k : I}
    (he : ICL.equalRange o (nodeSeg g) t.nodes k = some (A, B, C)) :
    lowerBound o g k t = some (hd (B ++ C), t) := by
  unfold lowerBound
  rw [run_bind (equalRange_run he)]; rfl

omit [DecidableEq V] in
theorem upperBound_run {t : Tree S} {A B C : List (Nat × S)} {k : I}
    (he : ICL.equalRange o (nodeSeg g) t.nodes k = some (A, B, C)) :
    upperBound o g k t = some (hd C, t) := by
  unfold upperBound
  rw [run_bind (equalRange_run he)]; rfl

omit [DecidableEq V] in
/-- The range is not empty if it has a node. -/
theorem hd_ne {t : Tree S} (ht : t.Ok) {A B C : List (Nat × S)} {f : Nat × S} (e : t.nodes = A ++ (f :: B ++ C)) :
    ¬ hd (f :: B ++ C) = hd C := by
  intro he
  cases C with
  | nil => simp at he
  | cons c C =>
    simp only [List.cons_append, hd_cons, Option.some.injEq] at he
    have hn := ht.nodup
    rw [e] at hn
    simp only [List.map_append, List.map_cons, List.cons_append] at hn
    have := (List.nodup_cons.1 (List.nodup_append.1 hn).2.1).1
    apply this
    rw [he]; simp

omit [DecidableEq V] in
/-- One of the nodes. -/
theorem getD_split (f : Nat × S) (B : List (Nat × S)) (n : Nat) (hn : n < B.length + 1) :
    f :: B = (f :: B).take n ++ (f :: B).getD n f :: (f :: B).drop (n + 1) := by
  have hl : n < (f :: B).length := by simpa using hn
  have : (f :: B).getD n f = (f :: B)[n] := by
    rw [List.getD_eq_getElem?_getD, List.getElem?_eq_getElem hl]; rfl
  rw [this, ← List.drop_eq_getElem_cons hl, List.take_append_drop]

omit [DecidableEq V] in
theorem getD_snd (f : Nat × S) (B : List (Nat × S)) (n : Nat) :
    (f.2 :: snds B).getD n f.2 = ((f :: B).getD n f).2 := by
  have : f.2 :: snds B = (f :: B).map Prod.snd := rfl
  rw [this, List.getD_eq_getElem?_getD, List.getElem?_map, List.getD_eq_getElem?_getD]
  cases (f :: B)[n]? <;> rfl

omit [DecidableEq V] in
theorem wf_node {l : List (Nat × S)} : WF o (nodeSeg g) l ↔ WF o g (snds l) := by
  constructor
  · intro hw
    refine ⟨fun s hs => ?_, List.pairwise_map.2 hw.sorted⟩
    obtain ⟨n, hn, rfl⟩ := List.mem_map.1 hs
    exact hw.nonempty n hn
  · intro hw
    have hp := List.pairwise_map.1 hw.sorted
    exact ⟨fun n hn => hw.nonempty _ (List.mem_map_of_mem hn), hp⟩

omit [DecidableEq V] in
include h in
theorem nodeRange {t : Tree S} (hw : WF o g t.segs) {k : I} (hk : o.isEmpty k = false) {A B C : List (Nat × S)}
    (he : ICL.equalRange o (nodeSeg g) t.nodes k = some (A, B, C)) :
    t.nodes = A ++ B ++ C ∧ (∀ n ∈ A, o.Before (g.key n.2) k) ∧ (∀ n ∈ B, ∃ x, o.Mem x (g.key n.2) ∧ o.Mem x k) ∧
      ∀ n ∈ C, o.Before k (g.key n.2) := by
  obtain ⟨a, b, c, e, h1, h2, h3, h4⟩ := equalRange_spec h (wf_node.2 hw) ((nonempty_iff h).2 hk)
  rw [he] at e
  simp only [Option.some.injEq, Prod.mk.injEq] at e
  obtain ⟨rfl, rfl, rfl⟩ := e
  exact ⟨h1, h2, h3, h4⟩

end seg
end Tree
end ICL
