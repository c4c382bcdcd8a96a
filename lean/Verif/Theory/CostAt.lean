import Verif.Theory.Cost
import Verif.Theory.TreeMap
import Verif.Theory.TreeFun
import Verif.Model.CostFun

/-!
# Bounds for the costs that depend on the number of segments
-/

set_option linter.unusedSectionVars false
set_option linter.unusedVariables false

namespace ICL
namespace Cost

section
variable {S α β : Type}

/-- Started with `t`, `m` yields `a`, leaves `t'`, and costs at most `b`. -/
def Took (m : CostM S α) (t : Tree S) (a : α) (t' : Tree S) (b : Work) : Prop :=
  ∃ w, m t = some ((a, t'), w) ∧ Le w b ∧ Balance t t' w

theorem Took.bind {m : CostM S α} {f : α → CostM S β} {t t1 t2 : Tree S} {a : α} {c : β} {b b' : Work}
    (h1 : Took m t a t1 b) (h2 : Took (f a) t1 c t2 b') : Took (m >>= f) t c t2 (b + b') := by
  obtain ⟨w1, e1, l1, c1⟩ := h1
  obtain ⟨w2, e2, l2, c2⟩ := h2
  exact ⟨w1 + w2, run_bind2 e1 e2, l1.add l2, c1.trans c2⟩

theorem Costs.took {m : CostM S α} {p : TreeM S α} {b : Work} (hc : Costs m p b) {t t' : Tree S} {a : α}
    (hp : p t = some (a, t')) : Took m t a t' b := hc.run hp

theorem Took.mono {m : CostM S α} {t t' : Tree S} {a : α} {b b' : Work} (ht : Took m t a t' b) (hb : Le b b') :
    Took m t a t' b' := by
  obtain ⟨w, e, l, c⟩ := ht
  exact ⟨w, e, l.trans hb, c⟩

/-- `m'` does the same if `m` succeeds. -/
def Below (m m' : CostM S α) : Prop := ∀ t r, m t = some r → m' t = some r

theorem Below.rfl {m : CostM S α} : Below m m := fun _ _ e => e

theorem Below.bind {m : CostM S α} {f f' : α → CostM S β} (hf : ∀ a, Below (f a) (f' a)) : Below (m >>= f) (m >>= f') := by
  intro t r e
  obtain ⟨⟨⟨a, t1⟩, w1⟩, h1, h2⟩ := Option.bind_eq_some_iff.1 (show (m t).bind
      (fun r => (f r.1.1 r.1.2).map fun q => (q.1, r.2 + q.2)) = _ from e)
  obtain ⟨q, h3, h4⟩ := Option.map_eq_some_iff.1 h2
  rw [run_bind h1, hf a _ _ h3, Option.map_some, h4]

theorem Below.ite {c : Prop} [Decidable c] {m m' n n' : CostM S α} (h1 : Below m m') (h2 : Below n n') :
    Below (if c then m else n) (if c then m' else n') := by
  by_cases hc : c
  · rw [if_pos hc, if_pos hc]; exact h1
  · rw [if_neg hc, if_neg hc]; exact h2

theorem Below.none {m : CostM S α} : Below (ofOption none) m := by
  intro t r e
  simp [ofOption, free, charge, Tree.ofOption] at e

theorem Took.below {m m' : CostM S α} {t t' : Tree S} {a : α} {b : Work} (ht : Took m t a t' b) (hm : Below m m') :
    Took m' t a t' b := by
  obtain ⟨w, e, l⟩ := ht
  exact ⟨w, hm _ _ e, l⟩

/-- `m` does what `p` does. -/
def Erases (m : CostM S α) (p : TreeM S α) : Prop := ∀ t, (m t).map Prod.fst = p t

theorem Costs.erases {m : CostM S α} {p : TreeM S α} {b : Work} (hc : Costs m p b) : Erases m p := hc.same

theorem Erases.bind {m : CostM S α} {p : TreeM S α} {f : α → CostM S β} {q : α → TreeM S β}
    (hm : Erases m p) (hf : ∀ a, Erases (f a) (q a)) : Erases (m >>= f) (p >>= q) := by
  intro t
  show Option.map Prod.fst ((m t).bind (fun r => (f r.1.1 r.1.2).map fun q => (q.1, r.2 + q.2))) =
    (p t).bind (fun r => q r.1 r.2)
  rw [← hm t]
  cases e : m t with
  | none => rfl
  | some r =>
    simp only [Option.bind_some, Option.map_some, Option.map_map]
    rw [← hf r.1.1 r.1.2]
    rfl

theorem Erases.bindP {γ : Type} {m : CostM S (α × γ)} {p : TreeM S (α × γ)} {f : α × γ → CostM S β}
    {q : α × γ → TreeM S β} (hm : Erases m p) (hf : ∀ a c, Erases (f (a, c)) (q (a, c))) :
    Erases (m >>= f) (p >>= q) := hm.bind fun a => hf a.1 a.2

theorem Erases.ite {c : Prop} [Decidable c] {m m' : CostM S α} {p p' : TreeM S α}
    (h1 : Erases m p) (h2 : Erases m' p') : Erases (if c then m else m') (if c then p else p') := by
  by_cases hc : c
  · rw [if_pos hc, if_pos hc]; exact h1
  · rw [if_neg hc, if_neg hc]; exact h2

/-- Started with `t`, `m` costs at most `b` if it succeeds. -/
def Within (t : Tree S) (m : CostM S α) (b : Work) : Prop :=
  ∀ a t' w, m t = some ((a, t'), w) → Le w b ∧ Balance t t' w

theorem Costs.within {m : CostM S α} {p : TreeM S α} {b : Work} (hc : Costs m p b) (t : Tree S) : Within t m b := hc.le t

theorem Within.mono {t : Tree S} {m : CostM S α} {b b' : Work} (hw : Within t m b) (hb : Le b b') : Within t m b' :=
  fun a t' w e => ⟨(hw a t' w e).1.trans hb, (hw a t' w e).2⟩

theorem Took.within {m : CostM S α} {t t' : Tree S} {a : α} {b : Work} (ht : Took m t a t' b) : Within t m b := by
  intro a1 t1 w1 e1
  obtain ⟨w, e, l, c⟩ := ht
  rw [e] at e1
  have := Option.some.inj e1
  simp only [Prod.mk.injEq] at this
  obtain ⟨⟨rfl, rfl⟩, rfl⟩ := this
  exact ⟨l, c⟩

theorem Took.bindW {m : CostM S α} {f : α → CostM S β} {t t1 : Tree S} {a : α} {b b' : Work}
    (h1 : Took m t a t1 b) (h2 : Within t1 (f a) b') : Within t (m >>= f) (b + b') := by
  obtain ⟨w1, e1, l1, c1⟩ := h1
  intro c t2 w e
  rw [run_bind e1] at e
  obtain ⟨⟨⟨c', t2'⟩, w2⟩, h3, h4⟩ := Option.map_eq_some_iff.1 e
  simp only [Prod.mk.injEq] at h4
  obtain ⟨⟨rfl, rfl⟩, rfl⟩ := h4
  have := h2 _ _ _ h3
  exact ⟨l1.add this.1, c1.trans this.2⟩

theorem Within.pos {c : Prop} [Decidable c] {t : Tree S} {m m' : CostM S α} {b : Work} (hc : c) (hw : Within t m b) :
    Within t (if c then m else m') b := by rw [if_pos hc]; exact hw

theorem Within.neg {c : Prop} [Decidable c] {t : Tree S} {m m' : CostM S α} {b : Work} (hc : ¬ c) (hw : Within t m' b) :
    Within t (if c then m else m') b := by rw [if_neg hc]; exact hw

theorem Within.took {m : CostM S α} {p : TreeM S α} {b : Work} {t t' : Tree S} {a : α} (hm : Erases m p)
    (hw : Within t m b) (hp : p t = some (a, t')) : Took m t a t' b := by
  have := hm t
  rw [hp] at this
  obtain ⟨⟨r, w⟩, h1, h2⟩ := Option.map_eq_some_iff.1 this
  dsimp only at h2
  subst h2
  exact ⟨w, h1, hw _ _ _ h1⟩

theorem took_get (t : Tree S) : Took get t t t {} := costs_get.took rfl

end

/-- The same program without costs. -/
syntax "erases1" : tactic
macro_rules | `(tactic| erases1) => `(tactic| (apply Costs.erases; costs1))

/-- The same program without costs. -/
macro "erases" : tactic => `(tactic| (
  repeat' (first
    | erases1
    | with_reducible apply Erases.ite
    | with_reducible apply Erases.bindP
    | with_reducible apply Erases.bind
    | intro _)))

/-- More rounds do no harm. -/
macro "below" "using" h:term : tactic => `(tactic| (
  repeat' (first
    | with_reducible exact Below.rfl
    | with_reducible apply $h
    | with_reducible apply Below.ite
    | with_reducible apply Below.bind
    | intro _)))

section
variable {D I : Type} {o : IntervalOps D I}

theorem Sets.addMain_below {last : It} : ∀ {n m : Nat}, n ≤ m → ∀ (k : I) (it : It),
    Below (Sets.addMain o last n k it) (Sets.addMain o last m k it)
  | 0, m, _, k, it => Below.none
  | n + 1, m + 1, hn, k, it => by
    unfold Sets.addMain
    below using (Sets.addMain_below (Nat.le_of_succ_le_succ hn))

end

section
variable {D I V : Type} {o : IntervalOps D I} [DecidableEq V]

theorem Maps.addMain_below {c : MapCfg V} {f : Combiner V} {v : V} {last : It} : ∀ {n m : Nat}, n ≤ m → ∀ (k : I) (it : It),
    Below (Maps.addMain o c f v last n k it) (Maps.addMain o c f v last m k it)
  | 0, m, _, k, it => Below.none
  | n + 1, m + 1, hn, k, it => by
    unfold Maps.addMain
    below using (Maps.addMain_below (Nat.le_of_succ_le_succ hn))

theorem Maps.subMain_below {c : MapCfg V} {f : Combiner V} {v : V} {last : It} : ∀ {n m : Nat}, n ≤ m → ∀ (it : It),
    Below (Maps.subMain o c f v last n it) (Maps.subMain o c f v last m it)
  | 0, m, _, it => Below.none
  | n + 1, m + 1, hn, it => by
    unfold Maps.subMain
    below using (Maps.subMain_below (Nat.le_of_succ_le_succ hn))

theorem Maps.insertLoop_below {c : MapCfg V} {v : V} {last : It} : ∀ {n m : Nat}, n ≤ m → ∀ (k : I) (it p : It),
    Below (Maps.insertLoop o c v last n k it p) (Maps.insertLoop o c v last m k it p)
  | 0, m, _, k, it, p => Below.none
  | n + 1, m + 1, hn, k, it, p => by
    unfold Maps.insertLoop
    below using (Maps.insertLoop_below (Nat.le_of_succ_le_succ hn))

theorem Maps.eraseLoop_below {v : V} {last : It} : ∀ {n m : Nat}, n ≤ m → ∀ (it : It),
    Below (Maps.eraseLoop (I := I) v last n it) (Maps.eraseLoop v last m it)
  | 0, m, _, it => Below.none
  | n + 1, m + 1, hn, it => by
    unfold Maps.eraseLoop
    below using (Maps.eraseLoop_below (Nat.le_of_succ_le_succ hn))

end

namespace Sets
variable {D I : Type} [LinearOrder D] {o : IntervalOps D I} (h : o.Lawful)
open Tree (snds hd At nodeSeg Ok)
include h

theorem addOver_took {t : Tree I} (ht : t.Ok) {A B C : List (Nat × I)} {f : Nat × I} {k : I}
    (he : ICL.equalRange o (nodeSeg setSeg) t.nodes k = some (A, f :: B, C)) (e : t.nodes = A ++ (f :: B ++ C))
    {l : List I} (hl : ICL.ISet.addOver o .splitting (snds A) f.2 (snds B) (snds C) k = some l) :
    ∃ it t', Took (addOver o .splitting k (some (B.getLastD f).1)) t it t'
      ⟨1, B.length + 4, 5 * B.length + 13, 0, B.length + 4⟩ := by
  obtain ⟨⟨l1, s1⟩, h1, hl⟩ := Option.bind_eq_some_iff.1 hl
  obtain ⟨⟨l2, s2, k2⟩, h2, h3⟩ := Option.bind_eq_some_iff.1 hl
  dsimp only at h2 h3
  have af : At t A.reverse f.1 f.2 (B ++ C) := ⟨ht, by rw [e]; simp⟩
  obtain ⟨L1, t1, r1, a1, rfl, x1⟩ := Tree.Sets.addFront_at h af (by simpa [snds] using h1)
  have hn : B.length + 1 ≤ t1.nodes.length := by rw [a1.eq]; simp; omega
  obtain ⟨L2, j, t2, r2, a2, rfl, x2⟩ := Tree.Sets.addMain_at h B a1 (Nat.lt_succ_self _) h2
  obtain ⟨L', i', s', R', t', r3, a3, e3, x3, x4⟩ := Tree.Sets.addRear_at h a2 h3
  have r0 := Tree.lowerBound_run he
  have hlast : (B.getLastD (f.1, s1)).1 = (B.getLastD f).1 := by
    cases B with
    | nil => rfl
    | cons b B => rw [List.getLastD_cons, List.getLastD_cons]
  rw [hlast] at r2
  refine ⟨some i', t', ?_⟩
  refine (((costs_lowerBound k).took r0).bind (((costs_Sets_addFront _ _).took r1).bind ((took_get t1).bind
    ((((costs_Sets_addMain _ _ _ _).took r2).below (addMain_below hn _ _)).bind
      ((costs_Sets_addRear _ _).took r3))))).mono ?_
  work

omit h in
theorem erases_addOver (st : Style) (k : I) (last : It) :
    Erases (addOver o st k last) (Tree.Sets.addOver o st k last) := by
  cases st <;> (unfold addOver Tree.Sets.addOver; erases)
macro_rules | `(tactic| erases1) => `(tactic| with_reducible exact Sets.erases_addOver _ _ _)

omit h in
theorem erases_add (st : Style) (pick : Nat) (k : I) : Erases (add o st pick k) (Tree.Sets.add o st pick k) := by
  unfold add Tree.Sets.add; erases

omit h in
theorem erases_addHint (st : Style) (pick : Nat) (p : It) (k : I) :
    Erases (addHint o st pick p k) (Tree.Sets.addHint o st pick p k) := by
  unfold addHint Tree.Sets.addHint; erases

theorem add_within {t : Tree I} (ht : t.Ok) {k : I} {l : List I} (hl : ICL.ISet.add o .splitting t.segs k = some l)
    (pick : Nat) {A B C : List (Nat × I)} (he : ICL.equalRange o (nodeSeg setSeg) t.nodes k = some (A, B, C)) :
    Within t (add o .splitting pick k) ⟨3, B.length + 3, 5 * B.length + 20, 0, B.length + 4⟩ := by
  unfold ICL.ISet.add at hl
  unfold add
  split at hl
  · rename_i hc
    rw [if_pos hc]
    exact ((Costs.pure _).within t).mono (by work)
  · rename_i hc
    rw [if_neg hc]
    obtain ⟨⟨a, b, c⟩, h1, h2⟩ := Option.bind_eq_some_iff.1 hl
    obtain ⟨A', B', C', he', e, rfl, rfl, rfl⟩ := Tree.equalRange_node h1
    obtain ⟨rfl, rfl, rfl⟩ : A' = A ∧ B' = B ∧ C' = C := by rw [he] at he'; simpa [eq_comm] using he'
    cases B' with
    | nil =>
      obtain ⟨t1, r1, a1, f1⟩ := Tree.insert_new ht (g := setSeg) (s := k) e he pick
      refine (((costs_insert pick k).took r1).bindW (b' := { steps := 17 }) ?_).mono (by work)
      dsimp only
      rw [if_pos rfl]
      exact ((costs_Sets_handleInserted _ _).within _).mono (by work)
    | cons f B =>
      obtain ⟨L0, r1, a1, -⟩ := Tree.prior_end ht (n := f) e
      obtain ⟨it, t', q⟩ := addOver_took h ht he e h2
      apply Within.mono
      · exact ((costs_insert pick k).took (Tree.insert_old (g := setSeg) (s := k) he pick)).bindW
          (((costs_upperBound k).took (Tree.upperBound_run he)).bindW (((costs_prior _).took r1).bindW q.within))
      · simp only [List.length_cons]
        work

theorem addHint_within {t : Tree I} (ht : t.Ok) {k : I} {l : List I} {pick : Nat}
    (hl : ICL.ISet.addHint o .splitting pick t.segs k = some l) {p : It} (hp : t.Valid p)
    {A B C : List (Nat × I)} (he : ICL.equalRange o (nodeSeg setSeg) t.nodes k = some (A, B, C)) :
    Within t (addHint o .splitting pick p k) ⟨2, B.length + 4, 5 * B.length + 20, 0, B.length + 4⟩ := by
  unfold ICL.ISet.addHint at hl
  unfold addHint
  split at hl
  · rename_i hc
    rw [if_pos hc]
    exact ((Costs.pure _).within t).mono (by work)
  · rename_i hc
    rw [if_neg hc]
    obtain ⟨⟨a, b, c⟩, h1, h2⟩ := Option.bind_eq_some_iff.1 hl
    obtain ⟨A', B', C', he', e, rfl, rfl, rfl⟩ := Tree.equalRange_node h1
    obtain ⟨rfl, rfl, rfl⟩ : A' = A ∧ B' = B ∧ C' = C := by rw [he] at he'; simpa [eq_comm] using he'
    cases B' with
    | nil =>
      obtain ⟨t1, r1, a1, f1⟩ := Tree.insert_new ht (g := setSeg) (s := k) e he pick
      have r1' : Tree.insertHint o setSeg pick p k t = some (some t.fresh, t1) := by
        simp only [Tree.insertHint, if_pos hp, r1, Option.map_some]
      have hkk : o.eq k k = true := Tree.Sets.eq_self h (by simpa using hc)
      apply Within.mono
      · exact ((costs_insertHint pick p k).took r1').bindW (((costs_deref _).took a1.deref).bindW
          (.pos hkk ((costs_Sets_handleInserted _ _).within _)))
      · work
    | cons f B =>
      have r1 : Tree.insertHint o setSeg pick p k t =
          some (some ((f :: B).getD (pick % (B.length + 1)) f).1, t) := by
        simp only [Tree.insertHint, if_pos hp, Tree.insert_old (g := setSeg) (s := k) he pick, Option.map_some]
      have hs := Tree.getD_split f B (pick % (B.length + 1)) (Nat.mod_lt _ (Nat.succ_pos _))
      have af : At t (((f :: B).take (pick % (B.length + 1))).reverse ++ A'.reverse)
          ((f :: B).getD (pick % (B.length + 1)) f).1 ((f :: B).getD (pick % (B.length + 1)) f).2
          ((f :: B).drop (pick % (B.length + 1) + 1) ++ C') := by
        refine ⟨ht, ?_⟩
        rw [e]
        conv_lhs => rw [hs]
        simp
      simp only [snds, List.map_cons] at h2
      rw [List.length_map, Tree.getD_snd] at h2
      split at h2
      · rename_i hq
        apply Within.mono
        · exact ((costs_insertHint pick p k).took r1).bindW (((costs_deref _).took af.deref).bindW
            (.pos hq ((costs_Sets_handleInserted _ _).within _)))
        · work
      · rename_i hq
        obtain ⟨L0, r2, a1, -⟩ := Tree.prior_end ht (n := f) e
        obtain ⟨it, t', q⟩ := addOver_took h ht he e h2
        apply Within.mono
        · exact ((costs_insertHint pick p k).took r1).bindW (((costs_deref _).took af.deref).bindW
            (.neg hq (((costs_upperBound k).took (Tree.upperBound_run he)).bindW
              (((costs_prior _).took r2).bindW q.within))))
        · simp only [List.length_cons]
          work

end Sets

namespace Maps
variable {D I V : Type} [LinearOrder D] {o : IntervalOps D I} [DecidableEq V] {c : MapCfg V} {f : Combiner V} {k : I}
  {v : V} {t : Tree (I × V)} (h : o.Lawful)
open Tree (snds hd At nodeSeg Ok)

theorem erases_addOver (it last : It) : Erases (addOver o c f k v it last) (Tree.Maps.addOver o c f k v it last) := by
  unfold addOver Tree.Maps.addOver; erases
macro_rules | `(tactic| erases1) => `(tactic| with_reducible exact Maps.erases_addOver _ _)

theorem erases_addC (pick : Nat) : Erases (addC o c f pick k v) (Tree.Maps.addC o c f pick k v) := by
  unfold addC Tree.Maps.addC; erases
macro_rules | `(tactic| erases1) => `(tactic| with_reducible exact Maps.erases_addC _)

theorem erases_addHintC (pick : Nat) (p : It) : Erases (addHintC o c f pick p k v) (Tree.Maps.addHintC o c f pick p k v) := by
  unfold addHintC Tree.Maps.addHintC; erases
macro_rules | `(tactic| erases1) => `(tactic| with_reducible exact Maps.erases_addHintC _ _)

theorem erases_subC : Erases (subC o c f k v) (Tree.Maps.subC o c f k v) := by
  unfold subC Tree.Maps.subC; erases
macro_rules | `(tactic| erases1) => `(tactic| with_reducible exact Maps.erases_subC)

theorem erases_insertMain (it last : It) : Erases (insertMain o c k v it last) (Tree.Maps.insertMain o c k v it last) := by
  unfold insertMain Tree.Maps.insertMain; erases
macro_rules | `(tactic| erases1) => `(tactic| with_reducible exact Maps.erases_insertMain _ _)

theorem erases_insert (pick : Nat) : Erases (insert o c pick k v) (Tree.Maps.insert o c pick k v) := by
  unfold insert Tree.Maps.insert; erases
macro_rules | `(tactic| erases1) => `(tactic| with_reducible exact Maps.erases_insert _)

theorem erases_insertHint (pick : Nat) (p : It) : Erases (insertHint o c pick p k v) (Tree.Maps.insertHint o c pick p k v) := by
  unfold insertHint Tree.Maps.insertHint; erases
macro_rules | `(tactic| erases1) => `(tactic| with_reducible exact Maps.erases_insertHint _ _)

theorem erases_eraseRest (it last : It) : Erases (eraseRest o k v it last) (Tree.Maps.eraseRest o k v it last) := by
  unfold eraseRest Tree.Maps.eraseRest; erases
macro_rules | `(tactic| erases1) => `(tactic| with_reducible exact Maps.erases_eraseRest _ _)

theorem erases_eraseSeg : Erases (eraseSeg o c k v) (Tree.Maps.eraseSeg o c k v) := by
  unfold eraseSeg Tree.Maps.eraseSeg; erases
macro_rules | `(tactic| erases1) => `(tactic| with_reducible exact Maps.erases_eraseSeg)

include h

theorem addOver_took (ht : t.Ok) {A B C : List (Nat × I × V)} {g : Nat × I × V} (e : t.nodes = A ++ (g :: B ++ C))
    {l' : List (I × V)} (hl : IMap.addOver o c f (snds A) g.2 (snds B) (snds C) k v = some l') :
    ∃ it t', Took (addOver o c f k v (some g.1) (some (B.getLastD g).1)) t it t'
      ⟨0, B.length + 4, 23 * B.length + 67, 0, B.length + 4⟩ := by
  obtain ⟨⟨l1, s1⟩, h1, hl⟩ := Option.bind_eq_some_iff.1 hl
  obtain ⟨⟨l2, s2, k2⟩, h2, h3⟩ := Option.bind_eq_some_iff.1 hl
  dsimp only at h2 h3
  have af : At t A.reverse g.1 g.2 (B ++ C) := ⟨ht, by rw [e]; simp⟩
  obtain ⟨L1, t1, r1, a1, rfl, x1⟩ := Tree.Maps.addFront_at h af (by simpa [snds] using h1)
  have hn : B.length + 1 ≤ t1.nodes.length := by rw [a1.eq]; simp; omega
  obtain ⟨L2, j, t2, r2, a2, rfl, x2⟩ := Tree.Maps.addMain_at h B a1 (Nat.lt_succ_self _) h2
  obtain ⟨it, t3, r3, -⟩ := Tree.Maps.addRear_at h a2 h3
  have hlast : (B.getLastD (g.1, s1)).1 = (B.getLastD g).1 := by
    cases B with
    | nil => rfl
    | cons b B => rw [List.getLastD_cons, List.getLastD_cons]
  rw [hlast] at r2
  refine ⟨it, t3, ?_⟩
  apply Took.mono
  · exact ((costs_Maps_addFront _ _).took r1).bind ((took_get t1).bind
      ((((costs_Maps_addMain _ _ _ _ _ _ _).took r2).below (addMain_below hn _ _)).bind
        ((costs_Maps_addRear _ _ _ _ _).took r3)))
  · work

theorem addC_within (ht : t.Ok) {l : List (I × V)} (hl : IMap.addC o c f t.segs k v = some l)
    (pick : Nat) {A B C : List (Nat × I × V)} (he : ICL.equalRange o (nodeSeg mapSeg) t.nodes k = some (A, B, C)) :
    Within t (addC o c f pick k v) ⟨3, B.length + 3, 23 * B.length + 45, 0, B.length + 4⟩ := by
  unfold IMap.addC at hl
  unfold addC
  split at hl
  · rename_i hc
    exact .pos hc (((Costs.pure _).within t).mono (by work))
  rename_i hc
  refine .neg hc ?_
  split at hl
  · rename_i hc
    exact .pos hc (((Costs.pure _).within t).mono (by work))
  rename_i hv
  refine .neg hv ?_
  obtain ⟨⟨a, b, d⟩, h1, h2⟩ := Option.bind_eq_some_iff.1 hl
  obtain ⟨A', B', C', he', e, rfl, rfl, rfl⟩ := Tree.equalRange_node h1
  obtain ⟨rfl, rfl, rfl⟩ : A' = A ∧ B' = B ∧ C' = C := by rw [he] at he'; simpa [eq_comm] using he'
  cases B' with
  | nil =>
    obtain ⟨t1, r1, a1, f1⟩ := Tree.insert_new ht (g := mapSeg) (s := (k, f.version v)) e he pick
    apply Within.mono
    · exact ((costs_insert pick _).took r1).bindW (.pos rfl ((costs_Maps_handleInserted _ _).within _))
    · work
  | cons g B =>
    obtain ⟨L0, r1, a1, -⟩ := Tree.prior_end ht (n := g) e
    obtain ⟨it, t', q⟩ := addOver_took h ht e h2
    apply Within.mono
    · exact ((costs_insert pick _).took (Tree.insert_old (g := mapSeg) (s := (k, f.version v)) he pick)).bindW
        (.neg (by simp) (((costs_lowerBound k).took (Tree.lowerBound_run he)).bindW
          (((costs_upperBound k).took (Tree.upperBound_run he)).bindW (((costs_prior _).took r1).bindW q.within))))
    · simp only [List.length_cons]
      work

theorem addHintC_within (ht : t.Ok) {l : List (I × V)} {pick : Nat} (hl : IMap.addHintC o c f pick t.segs k v = some l)
    {p : It} (hp : t.Valid p) {A B C : List (Nat × I × V)}
    (he : ICL.equalRange o (nodeSeg mapSeg) t.nodes k = some (A, B, C)) :
    Within t (addHintC o c f pick p k v) ⟨1, B.length + 4, 23 * B.length + 47, 0, B.length + 4⟩ := by
  unfold IMap.addHintC at hl
  unfold addHintC
  split at hl
  · rename_i hc
    exact .pos hc (((Costs.pure _).within t).mono (by work))
  rename_i hc
  refine .neg hc ?_
  split at hl
  · rename_i hc
    exact .pos hc (((Costs.pure _).within t).mono (by work))
  rename_i hv
  refine .neg hv ?_
  obtain ⟨⟨a, b, d⟩, h1, h2⟩ := Option.bind_eq_some_iff.1 hl
  obtain ⟨A', B', C', he', e, rfl, rfl, rfl⟩ := Tree.equalRange_node h1
  obtain ⟨rfl, rfl, rfl⟩ : A' = A ∧ B' = B ∧ C' = C := by rw [he] at he'; simpa [eq_comm] using he'
  cases B' with
  | nil =>
    obtain ⟨t1, r1, a1, f1⟩ := Tree.insert_new ht (g := mapSeg) (s := (k, c.ident)) e he pick
    have r1' : Tree.insertHint o mapSeg pick p (k, c.ident) t = some (some t.fresh, t1) := by
      simp only [Tree.insertHint, if_pos hp, r1, Option.map_some]
    have hkk : o.eq k k = true := Tree.Sets.eq_self h (by simpa using hc)
    obtain ⟨t2, r2, a2, f2⟩ := Tree.Maps.combine_at (f := f) (v := v) a1
    have r3 : Tree.Maps.addAt o c f pick p k v t = some ((some t.fresh, true), t2) := by
      unfold Tree.Maps.addAt
      rw [Tree.run_bind r1', Tree.run_bind a1.deref, if_pos (by simp [hkk]), Tree.run_bind r2]
      rfl
    apply Within.mono
    · exact ((costs_Maps_addAt _ _ _ _ _ _).took r3).bindW (.pos rfl ((costs_Maps_handleInserted _ _).within _))
    · work
  | cons g B =>
    have r1 : Tree.insertHint o mapSeg pick p (k, c.ident) t =
        some (some ((g :: B).getD (pick % (B.length + 1)) g).1, t) := by
      simp only [Tree.insertHint, if_pos hp, Tree.insert_old (g := mapSeg) (s := (k, c.ident)) he pick, Option.map_some]
    have hs := Tree.getD_split g B (pick % (B.length + 1)) (Nat.mod_lt _ (Nat.succ_pos _))
    have af : At t (((g :: B).take (pick % (B.length + 1))).reverse ++ A'.reverse)
        ((g :: B).getD (pick % (B.length + 1)) g).1 ((g :: B).getD (pick % (B.length + 1)) g).2
        ((g :: B).drop (pick % (B.length + 1) + 1) ++ C') := by
      refine ⟨ht, ?_⟩
      rw [e]
      conv_lhs => rw [hs]
      simp
    simp only [snds, List.map_cons] at h2
    rw [List.length_map, Tree.getD_snd] at h2
    split at h2
    · rename_i hq
      obtain ⟨t2, r2, a2, f2⟩ := Tree.Maps.combine_at (f := f) (v := v) af
      have r3 : Tree.Maps.addAt o c f pick p k v t =
          some ((some ((g :: B).getD (pick % (B.length + 1)) g).1, true), t2) := by
        unfold Tree.Maps.addAt
        rw [Tree.run_bind r1, Tree.run_bind af.deref, if_pos hq, Tree.run_bind r2]
        rfl
      apply Within.mono
      · exact ((costs_Maps_addAt _ _ _ _ _ _).took r3).bindW (.pos rfl ((costs_Maps_handleInserted _ _).within _))
      · work
    · rename_i hq
      have r3 : Tree.Maps.addAt o c f pick p k v t =
          some ((some ((g :: B).getD (pick % (B.length + 1)) g).1, false), t) := by
        unfold Tree.Maps.addAt
        rw [Tree.run_bind r1, Tree.run_bind af.deref, if_neg hq]
        rfl
      obtain ⟨L0, r4, a4, -⟩ := Tree.prior_end ht (n := g) e
      obtain ⟨it, t', q⟩ := addOver_took h ht e h2
      apply Within.mono
      · exact ((costs_Maps_addAt _ _ _ _ _ _).took r3).bindW (.neg (by simp)
          (((costs_equalRange k).took (Tree.equalRange_run he)).bindW (((costs_prior _).took r4).bindW q.within)))
      · simp only [List.length_cons]
        work

theorem subC_within (ht : t.Ok) {l : List (I × V)} (hl : IMap.subC o c f t.segs k v = some l)
    {A B C : List (Nat × I × V)} (he : ICL.equalRange o (nodeSeg mapSeg) t.nodes k = some (A, B, C)) :
    Within t (subC o c f k v) ⟨1, 2, 12 * B.length + 37, 0, 2⟩ := by
  unfold IMap.subC at hl
  unfold subC
  split at hl
  · rename_i hc
    exact .pos hc (((Costs.pure _).within t).mono (by work))
  rename_i hc
  refine .neg hc ?_
  split at hl
  · rename_i hc
    exact .pos hc (((Costs.pure _).within t).mono (by work))
  rename_i hv
  refine .neg hv ?_
  obtain ⟨⟨a, b, d⟩, h1, h2⟩ := Option.bind_eq_some_iff.1 hl
  obtain ⟨A', B', C', he', e, rfl, rfl, rfl⟩ := Tree.equalRange_node h1
  obtain ⟨rfl, rfl, rfl⟩ : A' = A ∧ B' = B ∧ C' = C := by rw [he] at he'; simpa [eq_comm] using he'
  cases B' with
  | nil =>
    apply Within.mono
    · exact ((costs_equalRange k).took (Tree.equalRange_run he)).bindW (.pos rfl ((Costs.pure _).within t))
    · work
  | cons g B =>
    obtain ⟨L0, r1, a1, -⟩ := Tree.prior_end ht (n := g) e
    simp only [snds, List.map_cons] at h2
    obtain ⟨⟨l1, s1⟩, h3, h4⟩ := Option.bind_eq_some_iff.1 h2
    obtain ⟨⟨l2, s2⟩, h5, h6⟩ := Option.bind_eq_some_iff.1 h4
    dsimp only at h5 h6
    have af : At t A'.reverse g.1 g.2 (B ++ C') := ⟨ht, by rw [e]; simp⟩
    obtain ⟨L2, t2, r2, a2, rfl, x2⟩ := Tree.Maps.addFront_at h af (by simpa [snds] using h3)
    have hn : B.length + 1 ≤ t2.nodes.length := by rw [a2.eq]; simp; omega
    obtain ⟨L3, j, t3, r3, a3, rfl, x3⟩ := Tree.Maps.subMain_at h B a2 (Nat.lt_succ_self _) h5
    have hlast : (B.getLastD (g.1, s1)).1 = (B.getLastD g).1 := by
      cases B with
      | nil => rfl
      | cons b B => rw [List.getLastD_cons, List.getLastD_cons]
    rw [hlast] at r3
    apply Within.mono
    · exact ((costs_equalRange k).took (Tree.equalRange_run he)).bindW (.neg (Tree.hd_ne ht e)
        (((costs_prior _).took r1).bindW (((costs_Maps_addFront _ _).took r2).bindW ((took_get t2).bindW
          ((((costs_Maps_subMain _ _ _ _ _ _).took r3).below (subMain_below hn _)).bindW
            ((costs_Maps_subRear _ _ _ _ _).within _))))))
    · simp only [List.length_cons]
      work

omit h in
theorem costs_insertEnd (p : It) (gap : I) :
    Costs (if o.isEmpty gap then pure p else do
        let inserted ← Cost.insertHint o mapSeg 0 p (gap, v)
        handleInserted o c inserted)
      (if o.isEmpty gap then pure p else do
        let inserted ← Tree.insertHint o mapSeg 0 p (gap, v)
        Tree.Maps.handleInserted o c inserted) { hinted := 1, steps := 17, allocated := 1 } := by
  costs
  case hb => decide

theorem insertMain_within (ht : t.Ok) {A B C : List (Nat × I × V)} {g : Nat × I × V} (e : t.nodes = A ++ (g :: B ++ C))
    {l' : List (I × V)} (hl : IMap.insertMain o c (snds A) g.2 (snds B) (snds C) k v = some l') :
    Within t (insertMain o c k v (some g.1) (some (B.getLastD g).1))
      ⟨0, 2 * B.length + 4, 38 * B.length + 79, 0, 2 * B.length + 4⟩ := by
  unfold IMap.insertMain at hl
  obtain ⟨⟨l1, rest, post⟩, h1, h2⟩ := Option.bind_eq_some_iff.1 hl
  dsimp only at h2
  obtain ⟨L0, r0, a0, -⟩ := Tree.prior_end ht (n := g) e
  have af : At t A.reverse g.1 g.2 (B ++ C) := ⟨ht, by rw [e]; simp⟩
  have hn : 2 * (B.length + 1) + 1 ≤ 2 * t.nodes.length + 1 := by rw [e]; simp; omega
  obtain ⟨it, L1, t1, r1, o1, e1, rfl, rfl, x1⟩ := Tree.Maps.insertLoop_at h (m := 2 * (B.length + 1) + 1) (M := g :: B)
    (L := A.reverse) (C := C) ht (by rw [e]; simp) (n := 2 * ((snds B).length + 1)) (by rw [snds, List.length_map]; omega)
    (by simpa [snds] using h1)
  rw [List.cons_append, Tree.hd_cons] at r1
  unfold insertMain
  apply Within.mono
  · exact ((costs_next _).took a0.next).bindW (((costs_cyclicPrior _).took af.cyclicPrior).bindW
      (((costs_deref _).took a0.deref).bindW ((took_get t).bindW
        ((((costs_Maps_insertLoop _ _ _ _ _ _ _).took r1).below (insertLoop_below hn _ _ _)).bindW
          ((costs_insertEnd _ _).within _)))))
  · work

theorem insert_within (ht : t.Ok) {l : List (I × V)} (hl : IMap.insert o c t.segs k v = some l)
    (pick : Nat) {A B C : List (Nat × I × V)} (he : ICL.equalRange o (nodeSeg mapSeg) t.nodes k = some (A, B, C)) :
    Within t (insert o c pick k v) ⟨3, 2 * B.length + 2, 38 * B.length + 42, 0, 2 * B.length + 3⟩ := by
  unfold IMap.insert at hl
  unfold insert
  split at hl
  · rename_i hc
    exact .pos hc (((Costs.pure _).within t).mono (by work))
  rename_i hc
  refine .neg hc ?_
  split at hl
  · rename_i hc
    exact .pos hc (((Costs.pure _).within t).mono (by work))
  rename_i hv
  refine .neg hv ?_
  obtain ⟨⟨a, b, d⟩, h1, h2⟩ := Option.bind_eq_some_iff.1 hl
  obtain ⟨A', B', C', he', e, rfl, rfl, rfl⟩ := Tree.equalRange_node h1
  obtain ⟨rfl, rfl, rfl⟩ : A' = A ∧ B' = B ∧ C' = C := by rw [he] at he'; simpa [eq_comm] using he'
  cases B' with
  | nil =>
    obtain ⟨t1, r1, a1, f1⟩ := Tree.insert_new ht (g := mapSeg) (s := (k, v)) e he pick
    apply Within.mono
    · exact ((costs_insert pick _).took r1).bindW (.pos rfl ((costs_Maps_handleInserted _ _).within _))
    · work
  | cons g B =>
    obtain ⟨L0, r1, a1, -⟩ := Tree.prior_end ht (n := g) e
    have q := insertMain_within h ht e h2
    apply Within.mono
    · exact ((costs_insert pick _).took (Tree.insert_old (g := mapSeg) (s := (k, v)) he pick)).bindW
        (.neg (by simp) (((costs_lowerBound k).took (Tree.lowerBound_run he)).bindW
          (((costs_upperBound k).took (Tree.upperBound_run he)).bindW (((costs_prior _).took r1).bindW q))))
    · simp only [List.length_cons]
      work

theorem insertHint_within (ht : t.Ok) {l : Bool → List (I × V)} {pick : Nat}
    (hl : ∀ b, IMap.insertHint o c pick b t.segs k v = some (l b)) {p : It} (hp : t.Valid p)
    {A B C : List (Nat × I × V)} (he : ICL.equalRange o (nodeSeg mapSeg) t.nodes k = some (A, B, C)) :
    Within t (insertHint o c pick p k v) ⟨1, 2 * B.length + 3, 38 * B.length + 43, 0, 2 * B.length + 3⟩ := by
  unfold insertHint
  by_cases hc : o.isEmpty k = true
  · exact .pos hc (((Costs.pure _).within t).mono (by work))
  refine .neg hc ?_
  by_cases hv : IMap.absorbable c v = true
  · exact .pos hv (((Costs.pure _).within t).mono (by work))
  refine .neg hv ?_
  have h0 := hl true
  unfold IMap.insertHint at h0
  rw [if_neg hc, if_neg hv] at h0
  obtain ⟨⟨a, b, d⟩, h1, h2⟩ := Option.bind_eq_some_iff.1 h0
  have h0' := hl false
  unfold IMap.insertHint at h0'
  rw [if_neg hc, if_neg hv, h1] at h0'
  obtain ⟨A', B', C', he', e, rfl, rfl, rfl⟩ := Tree.equalRange_node h1
  obtain ⟨rfl, rfl, rfl⟩ : A' = A ∧ B' = B ∧ C' = C := by rw [he] at he'; simpa [eq_comm] using he'
  cases B' with
  | nil =>
    obtain ⟨t1, r1, a1, f1⟩ := Tree.insert_new ht (g := mapSeg) (s := (k, v)) e he pick
    have r1' : Tree.insertHint o mapSeg pick p (k, v) t = some (some t.fresh, t1) := by
      simp only [Tree.insertHint, if_pos hp, r1, Option.map_some]
    have hkk : o.eq k k = true := Tree.Sets.eq_self h (by simpa using hc)
    have hne : ¬ some t.fresh = p := by
      rintro rfl
      have := hp t.fresh rfl
      obtain ⟨n, hn, hnn⟩ := List.mem_map.1 this
      have := ht.fresh n hn
      omega
    have r3 : Tree.Maps.insertAt o pick p k v t = some ((some t.fresh, true), t1) := by
      unfold Tree.Maps.insertAt
      rw [Tree.run_bind r1', if_neg hne, Tree.run_bind a1.deref]
      show some ((some t.fresh, o.eq k k), t1) = _
      rw [hkk]
    apply Within.mono
    · exact ((costs_Maps_insertAt _ _ _ _).took r3).bindW (.pos rfl ((costs_Maps_handleInserted _ _).within _))
    · work
  | cons g B =>
    have r1 : Tree.insertHint o mapSeg pick p (k, v) t =
        some (some ((g :: B).getD (pick % (B.length + 1)) g).1, t) := by
      simp only [Tree.insertHint, if_pos hp, Tree.insert_old (g := mapSeg) (s := (k, v)) he pick, Option.map_some]
    have hs := Tree.getD_split g B (pick % (B.length + 1)) (Nat.mod_lt _ (Nat.succ_pos _))
    have af : At t (((g :: B).take (pick % (B.length + 1))).reverse ++ A'.reverse)
        ((g :: B).getD (pick % (B.length + 1)) g).1 ((g :: B).getD (pick % (B.length + 1)) g).2
        ((g :: B).drop (pick % (B.length + 1) + 1) ++ C') := by
      refine ⟨ht, ?_⟩
      rw [e]
      conv_lhs => rw [hs]
      simp
    have h2' : IMap.insertMain o c (snds A') g.2 (snds B) (snds C') k v = some (l true) := by
      simpa [snds] using h2
    obtain ⟨L0, r4, a4, -⟩ := Tree.prior_end ht (n := g) e
    have q := insertMain_within h ht e h2'
    by_cases hpp : some ((g :: B).getD (pick % (B.length + 1)) g).1 = p
    · have r3 : Tree.Maps.insertAt o pick p k v t =
          some ((some ((g :: B).getD (pick % (B.length + 1)) g).1, false), t) := by
        unfold Tree.Maps.insertAt
        rw [Tree.run_bind r1, if_pos hpp]; rfl
      apply Within.mono
      · exact ((costs_Maps_insertAt _ _ _ _).took r3).bindW (.neg (by simp)
          (((costs_equalRange k).took (Tree.equalRange_run he)).bindW (((costs_prior _).took r4).bindW q)))
      · simp only [List.length_cons]
        work
    · cases hq : o.eq ((g :: B).getD (pick % (B.length + 1)) g).2.1 k
      · have r3 : Tree.Maps.insertAt o pick p k v t =
            some ((some ((g :: B).getD (pick % (B.length + 1)) g).1, false), t) := by
          unfold Tree.Maps.insertAt
          rw [Tree.run_bind r1, if_neg hpp, Tree.run_bind af.deref, hq]
          rfl
        apply Within.mono
        · exact ((costs_Maps_insertAt _ _ _ _).took r3).bindW (.neg (by simp)
            (((costs_equalRange k).took (Tree.equalRange_run he)).bindW (((costs_prior _).took r4).bindW q)))
        · simp only [List.length_cons]
          work
      · have r3 : Tree.Maps.insertAt o pick p k v t =
            some ((some ((g :: B).getD (pick % (B.length + 1)) g).1, true), t) := by
          unfold Tree.Maps.insertAt
          rw [Tree.run_bind r1, if_neg hpp, Tree.run_bind af.deref, hq]
          rfl
        apply Within.mono
        · exact ((costs_Maps_insertAt _ _ _ _).took r3).bindW (.pos rfl ((costs_Maps_handleInserted _ _).within _))
        · work

omit h in
theorem costs_eraseEnd (last : It) :
    Costs (do
        let s ← deref last
        if s.2 = v then
          let rightResid := o.leftSubtract s.1 k
          if o.isEmpty rightResid then erase last
          else modify last fun s => (rightResid, s.2)
        else return ())
      (do
        let s ← Tree.deref last
        if s.2 = v then
          let rightResid := o.leftSubtract s.1 k
          if o.isEmpty rightResid then Tree.erase last
          else Tree.modify last fun s => (rightResid, s.2)
        else return ()) { steps := 2 } := by
  costs
  case hb => decide

omit h in
theorem eraseRest_within {M C L : List (Nat × I × V)} {i : Nat} {s : I × V} (ha : At t L i s (M ++ C)) :
    Within t (eraseRest o k v (some i) (some (M.getLastD (i, s)).1)) { steps := 3 * M.length + 5 } := by
  have hn : M.length + 1 ≤ t.nodes.length := by rw [ha.eq]; simp; omega
  obtain ⟨L1, t1, r1, a1, x1, e1⟩ := Tree.Maps.eraseLoop_at (o := o) (k := k) (v := v) M ha (Nat.lt_succ_self _)
  unfold eraseRest
  apply Within.mono
  · exact (took_get t).bindW ((((costs_Maps_eraseLoop _ _ _ _).took r1).below (eraseLoop_below hn _)).bindW
      ((costs_eraseEnd _).within _))
  · work

omit h in
theorem costs_eraseOne (first : It) (s : I × V) :
    Costs (if s.2 = v then
          let leftResid := o.rightSubtract s.1 k
          if !o.isEmpty leftResid then do
            modify first fun s => (leftResid, s.2)
            if !o.isEmpty (o.leftSubtract s.1 k) then
              let _ ← Cost.insertHint o mapSeg 0 first (o.leftSubtract s.1 k, v)
              return ()
            else return ()
          else if !o.isEmpty (o.leftSubtract s.1 k) then modify first fun s' => (o.leftSubtract s.1 k, s'.2)
          else erase first
        else return ())
      (if s.2 = v then
          let leftResid := o.rightSubtract s.1 k
          if !o.isEmpty leftResid then do
            Tree.modify first fun s => (leftResid, s.2)
            if !o.isEmpty (o.leftSubtract s.1 k) then
              let _ ← Tree.insertHint o mapSeg 0 first (o.leftSubtract s.1 k, v)
              return ()
            else return ()
          else if !o.isEmpty (o.leftSubtract s.1 k) then Tree.modify first fun s' => (o.leftSubtract s.1 k, s'.2)
          else Tree.erase first
        else return ()) { hinted := 1, steps := 1, allocated := 1 } := by
  costs
  case hb => decide

theorem eraseSeg_within (ht : t.Ok) {l : List (I × V)} (hl : IMap.eraseSeg o c t.segs k v = some l)
    {A B C : List (Nat × I × V)} (he : ICL.equalRange o (nodeSeg mapSeg) t.nodes k = some (A, B, C)) :
    Within t (eraseSeg o c k v) ⟨1, 1, 3 * B.length + 5, 0, 1⟩ := by
  unfold IMap.eraseSeg at hl
  unfold eraseSeg
  split at hl
  · rename_i hc
    exact .pos hc (((Costs.pure _).within t).mono (by work))
  rename_i hc
  refine .neg hc ?_
  split at hl
  · rename_i hc
    exact .pos hc (((Costs.pure _).within t).mono (by work))
  rename_i hv
  refine .neg hv ?_
  obtain ⟨⟨a, b, d⟩, h1, h2⟩ := Option.bind_eq_some_iff.1 hl
  obtain ⟨A', B', C', he', e, rfl, rfl, rfl⟩ := Tree.equalRange_node h1
  obtain ⟨rfl, rfl, rfl⟩ : A' = A ∧ B' = B ∧ C' = C := by rw [he] at he'; simpa [eq_comm] using he'
  match B', he, e, h2 with
  | [], he, e, h2 =>
    apply Within.mono
    · exact ((costs_equalRange k).took (Tree.equalRange_run he)).bindW (.pos rfl ((Costs.pure _).within t))
    · work
  | [g], he, e, h2 =>
    have af : At t A'.reverse g.1 g.2 C' := ⟨ht, by rw [e]; simp⟩
    have r1 : Tree.cyclicPrior (hd C') t = some (some g.1, t) := Tree.Maps.cyclicPrior_end ht e
    apply Within.mono
    · exact ((costs_equalRange k).took (Tree.equalRange_run he)).bindW (.neg (Tree.hd_ne ht e)
        (((costs_cyclicPrior _).took r1).bindW (((costs_next _).took af.next).bindW (((costs_deref _).took af.deref).bindW
          (.pos rfl ((costs_eraseOne _ _).within _))))))
    · work
  | g :: m :: B, he, e, h2 =>
    have af : At t A'.reverse g.1 g.2 (m :: B ++ C') := ⟨ht, by rw [e]; simp⟩
    have r1 := Tree.Maps.cyclicPrior_end ht e
    rw [List.getLastD_cons] at r1
    have hne : ¬ some g.1 = some (B.getLastD m).1 := by
      have := af.ne_last
      rwa [List.getLastD_cons] at this
    have hrest : Within t (do
        if g.2.2 = v then
          let leftResid := o.rightSubtract g.2.1 k
          if o.isEmpty leftResid then erase (some g.1)
          else modify (some g.1) fun s => (leftResid, s.2)
        else pure ()
        eraseRest o k v (some m.1) (some (B.getLastD m).1)) { steps := 3 * B.length + 6 } := by
      by_cases hw : g.2.2 = v
      · rw [if_pos hw]
        by_cases hle : o.isEmpty (o.rightSubtract g.2.1 k) = true
        · dsimp only
          rw [if_pos hle]
          obtain ⟨t1, r2, o2, e2, f2⟩ := af.erase
          have a2 : At t1 A'.reverse m.1 m.2 (B ++ C') := ⟨o2, e2⟩
          apply Within.mono
          · exact ((costs_erase _).took r2).bindW (eraseRest_within a2)
          · work
        · dsimp only
          rw [if_neg hle]
          obtain ⟨t1, r2, a1, f2⟩ := af.modify fun s => (o.rightSubtract g.2.1 k, s.2)
          have a2 : At t1 ((g.1, (o.rightSubtract g.2.1 k, g.2.2)) :: A'.reverse) m.1 m.2 (B ++ C') :=
            ⟨a1.ok, by rw [a1.eq]; simp⟩
          apply Within.mono
          · exact ((costs_modify _ _).took r2).bindW (eraseRest_within a2)
          · work
      · rw [if_neg hw]
        have a2 : At t (g :: A'.reverse) m.1 m.2 (B ++ C') := ⟨ht, by rw [e]; simp⟩
        apply Within.mono
        · exact eraseRest_within a2
        · work
    apply Within.mono
    · exact ((costs_equalRange k).took (Tree.equalRange_run he)).bindW (.neg (Tree.hd_ne ht e)
        (((costs_cyclicPrior _).took r1).bindW (((costs_next _).took af.next).bindW (((costs_deref _).took af.deref).bindW
          (.neg hne hrest)))))
    · simp only [List.length_cons]
      work

end Maps

end Cost
end ICL
