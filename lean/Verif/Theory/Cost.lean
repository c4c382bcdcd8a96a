import Verif.Model.Cost
import Verif.Theory.TreeSet

/-!
# Bounds for the costs, function by function
-/

set_option linter.unusedSectionVars false
set_option linter.unusedVariables false

namespace ICL
namespace Cost

/-- Not more work, apart from the nodes that are erased. -/
def Le (a b : Work) : Prop :=
  a.searches ≤ b.searches ∧ a.hinted ≤ b.hinted ∧ a.steps ≤ b.steps ∧ a.allocated ≤ b.allocated

instance (a b : Work) : Decidable (Le a b) := by unfold Le; infer_instance

/-- The larger of two bounds. -/
def sup (a b : Work) : Work :=
  ⟨max a.searches b.searches, max a.hinted b.hinted, max a.steps b.steps, max a.erased b.erased,
    max a.allocated b.allocated⟩

/-- A multiple of a bound. -/
def times (n : Nat) (b : Work) : Work :=
  ⟨n * b.searches, n * b.hinted, n * b.steps, n * b.erased, n * b.allocated⟩

section
variable {S α β : Type}

@[simp] theorem add_searches (a b : Work) : (a + b).searches = a.searches + b.searches := rfl
@[simp] theorem add_hinted (a b : Work) : (a + b).hinted = a.hinted + b.hinted := rfl
@[simp] theorem add_steps (a b : Work) : (a + b).steps = a.steps + b.steps := rfl
@[simp] theorem add_erased (a b : Work) : (a + b).erased = a.erased + b.erased := rfl
@[simp] theorem add_allocated (a b : Work) : (a + b).allocated = a.allocated + b.allocated := rfl

theorem Le.refl (a : Work) : Le a a := ⟨Nat.le_refl _, Nat.le_refl _, Nat.le_refl _, Nat.le_refl _⟩
theorem Le.trans {a b c : Work} (h1 : Le a b) (h2 : Le b c) : Le a c :=
  ⟨h1.1.trans h2.1, h1.2.1.trans h2.2.1, h1.2.2.1.trans h2.2.2.1, h1.2.2.2.trans h2.2.2.2⟩
theorem Le.add {a b c d : Work} (h1 : Le a c) (h2 : Le b d) : Le (a + b) (c + d) :=
  ⟨Nat.add_le_add h1.1 h2.1, Nat.add_le_add h1.2.1 h2.2.1, Nat.add_le_add h1.2.2.1 h2.2.2.1,
    Nat.add_le_add h1.2.2.2 h2.2.2.2⟩
theorem le_sup_left (a b : Work) : Le a (sup a b) :=
  ⟨Nat.le_max_left _ _, Nat.le_max_left _ _, Nat.le_max_left _ _, Nat.le_max_left _ _⟩
theorem le_sup_right (a b : Work) : Le b (sup a b) :=
  ⟨Nat.le_max_right _ _, Nat.le_max_right _ _, Nat.le_max_right _ _, Nat.le_max_right _ _⟩

/-- The nodes balance: those that are there afterwards and those erased, and those that were there and those allocated. -/
def Balance (t t' : Tree S) (w : Work) : Prop := t'.nodes.length + w.erased = t.nodes.length + w.allocated

theorem Balance.trans {t t1 t2 : Tree S} {w1 w2 : Work} (h1 : Balance t t1 w1) (h2 : Balance t1 t2 w2) :
    Balance t t2 (w1 + w2) := by
  unfold Balance at *
  simp only [add_erased, add_allocated]
  omega

/-- `m` does what `p` does, and costs at most `b`. -/
structure Costs (m : CostM S α) (p : TreeM S α) (b : Work) : Prop where
  same : ∀ t, (m t).map Prod.fst = p t
  le : ∀ t a t' w, m t = some ((a, t'), w) → Le w b ∧ Balance t t' w

theorem Costs.run {m : CostM S α} {p : TreeM S α} {b : Work} (hc : Costs m p b) {t t' : Tree S} {a : α}
    (hp : p t = some (a, t')) : ∃ w, m t = some ((a, t'), w) ∧ Le w b ∧ Balance t t' w := by
  have := hc.same t
  rw [hp] at this
  obtain ⟨⟨r, w⟩, h1, h2⟩ := Option.map_eq_some_iff.1 this
  dsimp only at h2
  subst h2
  exact ⟨w, h1, hc.le _ _ _ _ h1⟩

theorem Costs.mono {m : CostM S α} {p : TreeM S α} {b b' : Work} (hc : Costs m p b) (hb : Le b b') : Costs m p b' :=
  ⟨hc.same, fun t a t' w e => ⟨(hc.le t a t' w e).1.trans hb, (hc.le t a t' w e).2⟩⟩

theorem run_bind {m : CostM S α} {f : α → CostM S β} {t t1 : Tree S} {a : α} {w : Work} (e : m t = some ((a, t1), w)) :
    (m >>= f) t = (f a t1).map fun q => (q.1, w + q.2) := by
  show (m t).bind (fun r => (f r.1.1 r.1.2).map fun q => (q.1, r.2 + q.2)) = _
  rw [e]; rfl

theorem run_bind2 {m : CostM S α} {f : α → CostM S β} {t t1 t2 : Tree S} {a : α} {b : β} {w w2 : Work}
    (e : m t = some ((a, t1), w)) (e2 : f a t1 = some ((b, t2), w2)) : (m >>= f) t = some ((b, t2), w + w2) := by
  rw [run_bind e, e2]; rfl

theorem Costs.bind {m : CostM S α} {p : TreeM S α} {f : α → CostM S β} {q : α → TreeM S β} {b b' : Work}
    (hm : Costs m p b) (hf : ∀ a, Costs (f a) (q a) b') : Costs (m >>= f) (p >>= q) (b + b') := by
  constructor
  · intro t
    show Option.map Prod.fst ((m t).bind (fun r => (f r.1.1 r.1.2).map fun q => (q.1, r.2 + q.2))) =
      (p t).bind (fun r => q r.1 r.2)
    rw [← hm.same t]
    cases e : m t with
    | none => rfl
    | some r =>
      simp only [Option.bind_some, Option.map_some, Option.map_map]
      rw [← (hf r.1.1).same r.1.2]
      rfl
  · intro t c t2 w e
    obtain ⟨⟨⟨a, t1⟩, w1⟩, h1, h2⟩ := Option.bind_eq_some_iff.1 (show (m t).bind
      (fun r => (f r.1.1 r.1.2).map fun q => (q.1, r.2 + q.2)) = _ from e)
    obtain ⟨⟨⟨b1, t2'⟩, w2⟩, h3, h4⟩ := Option.map_eq_some_iff.1 h2
    simp only [Prod.mk.injEq] at h4
    obtain ⟨⟨rfl, rfl⟩, rfl⟩ := h4
    have k1 := hm.le _ _ _ _ h1
    have k2 := (hf a).le _ _ _ _ h3
    exact ⟨k1.1.add k2.1, k1.2.trans k2.2⟩

theorem Costs.bindP {γ : Type} {m : CostM S (α × γ)} {p : TreeM S (α × γ)} {f : α × γ → CostM S β}
    {q : α × γ → TreeM S β} {b b' : Work}
    (hm : Costs m p b) (hf : ∀ a c, Costs (f (a, c)) (q (a, c)) b') : Costs (m >>= f) (p >>= q) (b + b') :=
  hm.bind fun a => hf a.1 a.2

theorem Costs.pure (a : α) : Costs (pure a : CostM S α) (pure a) {} := by
  refine ⟨fun t => rfl, fun t a' t' w e => ?_⟩
  have := Option.some.inj (show some ((a, t), ({} : Work)) = _ from e)
  simp only [Prod.mk.injEq] at this
  obtain ⟨⟨rfl, rfl⟩, rfl⟩ := this
  exact ⟨Le.refl _, rfl⟩

theorem Costs.ite {c : Prop} [Decidable c] {m m' : CostM S α} {p p' : TreeM S α} {b b' : Work}
    (h1 : Costs m p b) (h2 : Costs m' p' b') : Costs (if c then m else m') (if c then p else p') (sup b b') := by
  by_cases hc : c
  · rw [if_pos hc, if_pos hc]; exact h1.mono (le_sup_left _ _)
  · rw [if_neg hc, if_neg hc]; exact h2.mono (le_sup_right _ _)

theorem costs_charge {m : TreeM S α} {w : Tree S → Tree S → Work} {b : Work}
    (hw : ∀ t a t', m t = some (a, t') → Le (w t t') b ∧ Balance t t' (w t t')) : Costs (charge w m) m b := by
  constructor
  · intro t
    unfold charge
    rw [Option.map_map]
    exact Option.map_id'
  · intro t a t' w' e
    obtain ⟨r, h1, h2⟩ := Option.map_eq_some_iff.1 e
    simp only [Prod.mk.injEq] at h2
    obtain ⟨rfl, rfl⟩ := h2
    exact hw t a t' h1

/-- The operation leaves the number of nodes. -/
def Keeps (m : TreeM S α) : Prop := ∀ t a t', m t = some (a, t') → t'.nodes.length = t.nodes.length

theorem costs_free {m : TreeM S α} (hm : Keeps m) : Costs (free m) m {} :=
  costs_charge fun t a t' e => ⟨Le.refl _, by simp [Balance, hm t a t' e]⟩
theorem costs_step {m : TreeM S α} (hm : Keeps m) : Costs (step m) m { steps := 1 } :=
  costs_charge fun t a t' e => ⟨Le.refl _, by simp [Balance, hm t a t' e]⟩
theorem costs_search {m : TreeM S α} (hm : Keeps m) : Costs (search m) m { searches := 1 } :=
  costs_charge fun t a t' e => ⟨Le.refl _, by simp [Balance, hm t a t' e]⟩

theorem keeps_reads {m : TreeM S α} {f : Tree S → Option α} (hm : ∀ t, m t = (f t).map fun a => (a, t)) : Keeps m := by
  intro t a t' e
  rw [hm] at e
  obtain ⟨x, -, h2⟩ := Option.map_eq_some_iff.1 e
  simp only [Prod.mk.injEq] at h2
  rw [← h2.2]

theorem locate_length {i : Nat} : ∀ (l left : List (Nat × S)) {z}, Tree.locate i left l = some z →
    z.1.length + z.2.2.length + 1 = left.length + l.length
  | [], left, z, e => by simp [Tree.locate] at e
  | n :: l, left, z, e => by
    rw [Tree.locate] at e
    split at e
    · obtain rfl := Option.some.inj e; simp; omega
    · have := locate_length l (n :: left) e
      simp at this ⊢; omega

theorem find_length {it : It} {t : Tree S} {z} (e : Tree.find it t = some z) :
    z.1.length + z.2.2.length + 1 = t.nodes.length := by
  obtain ⟨i, -, h2⟩ := Option.bind_eq_some_iff.1 e
  have := locate_length _ _ h2
  simpa using this

theorem costs_ofOption (a : Option α) : Costs (ofOption a : CostM S α) (Tree.ofOption a) {} :=
  costs_free (keeps_reads fun t => rfl)
theorem costs_get : Costs (get : CostM S (Tree S)) (get : TreeM S (Tree S)) {} :=
  costs_free (keeps_reads (f := fun t => some t) fun t => rfl)
theorem costs_first : Costs (first : CostM S It) Tree.first { steps := 1 } :=
  costs_step (keeps_reads (f := fun t => some (t.nodes.head?.map Prod.fst)) fun t => rfl)
theorem costs_deref (it : It) : Costs (deref it : CostM S S) (Tree.deref it) { steps := 1 } :=
  costs_step (keeps_reads (f := fun t => (Tree.find it t).map fun z => z.2.1) fun t => by
    simp only [Tree.deref, Option.map_map]; rfl)
theorem costs_next (it : It) : Costs (next it : CostM S It) (Tree.next it) { steps := 1 } :=
  costs_step (keeps_reads (f := fun t => (Tree.find it t).map fun z => z.2.2.head?.map Prod.fst) fun t => by
    simp only [Tree.next, Option.map_map]; rfl)
theorem costs_prior (it : It) : Costs (prior it : CostM S It) (Tree.prior it) { steps := 1 } := by
  refine costs_step fun t a t' e => ?_
  unfold Tree.prior at e
  split at e
  · obtain ⟨n, -, h2⟩ := Option.map_eq_some_iff.1 e
    simp only [Prod.mk.injEq] at h2; rw [← h2.2]
  · obtain ⟨z, -, h2⟩ := Option.bind_eq_some_iff.1 e
    obtain ⟨n, -, h2⟩ := Option.map_eq_some_iff.1 h2
    simp only [Prod.mk.injEq] at h2; rw [← h2.2]
theorem costs_modify (it : It) (f : S → S) : Costs (modify it f : CostM S Unit) (Tree.modify it f) { steps := 1 } := by
  refine costs_step fun t a t' e => ?_
  unfold Tree.modify at e
  split at e
  · simp at e
  · obtain ⟨z, h1, h2⟩ := Option.map_eq_some_iff.1 e
    simp only [Prod.mk.injEq] at h2
    have := find_length h1
    rw [← h2.2]; simp; omega
theorem costs_erase (it : It) : Costs (erase it : CostM S Unit) (Tree.erase it) { steps := 1 } := by
  refine costs_charge fun t a t' e => ⟨Le.refl _, ?_⟩
  obtain ⟨z, h1, h2⟩ := Option.map_eq_some_iff.1 e
  simp only [Prod.mk.injEq] at h2
  have := find_length h1
  rw [← h2.2]; simp [Balance]; omega
theorem cut_length {it : It} {l : List (Nat × S)} {z} (e : Tree.cut it l = some z) :
    z.1.length + z.2.length = l.length := by
  unfold Tree.cut at e
  split at e
  · obtain rfl := Option.some.inj e; simp
  · obtain ⟨y, h1, h2⟩ := Option.map_eq_some_iff.1 e
    have := locate_length _ _ h1
    rw [← h2]; simp at this ⊢; omega
theorem costs_eraseRange (first last : It) :
    Costs (eraseRange first last : CostM S Unit) (Tree.eraseRange first last) { searches := 1 } := by
  refine costs_charge fun t a t' e => ⟨Le.refl _, ?_⟩
  obtain ⟨z, h1, h2⟩ := Option.bind_eq_some_iff.1 e
  obtain ⟨y, h3, h4⟩ := Option.map_eq_some_iff.1 h2
  simp only [Prod.mk.injEq] at h4
  have := cut_length h1
  have := cut_length h3
  rw [← h4.2]; simp [Balance]; omega

theorem costs_cyclicPrior (it : It) : Costs (cyclicPrior it : CostM S It) (Tree.cyclicPrior it) { steps := 2 } :=
  (Costs.bind costs_first fun b => .ite (.pure _) (costs_prior _)).mono (by decide)

end

section
variable {D I V S : Type} {o : IntervalOps D I} {g : SegOps I V S}

theorem keeps_equalRange (k : I) : Keeps (Tree.equalRange o g k : TreeM S (It × It)) :=
  keeps_reads (f := fun t => (ICL.equalRange o (Tree.nodeSeg g) t.nodes k).map fun r =>
    ((r.2.1 ++ r.2.2).head?.map Prod.fst, r.2.2.head?.map Prod.fst)) fun t => by
      simp only [Tree.equalRange, Option.map_map]; rfl
theorem costs_equalRange (k : I) : Costs (equalRange o g k) (Tree.equalRange o g k) { searches := 1 } :=
  costs_search (keeps_equalRange k)
theorem costs_lowerBound (k : I) : Costs (lowerBound o g k) (Tree.lowerBound o g k) { searches := 1 } := by
  refine costs_search fun t a t' e => ?_
  obtain ⟨r, h1, h2⟩ := Option.bind_eq_some_iff.1 (show (Tree.equalRange o g k t).bind _ = _ from e)
  have := keeps_equalRange k t r.1 r.2 h1
  have h3 := Option.some.inj (show some (r.1.1, r.2) = _ from h2)
  simp only [Prod.mk.injEq] at h3
  rw [← h3.2, this]
theorem costs_upperBound (k : I) : Costs (upperBound o g k) (Tree.upperBound o g k) { searches := 1 } := by
  refine costs_search fun t a t' e => ?_
  obtain ⟨r, h1, h2⟩ := Option.bind_eq_some_iff.1 (show (Tree.equalRange o g k t).bind _ = _ from e)
  have := keeps_equalRange k t r.1 r.2 h1
  have h3 := Option.some.inj (show some (r.1.2, r.2) = _ from h2)
  simp only [Prod.mk.injEq] at h3
  rw [← h3.2, this]

theorem takeWhile_drop_length {T : Type} (p : T → Bool) (l : List T) :
    (l.takeWhile p).length + (l.dropWhile p).length = l.length := by
  rw [← List.length_append, List.takeWhile_append_dropWhile]

theorem equalRange_length {l : List S} {k : I} {r} (e : ICL.equalRange o g l k = some r) :
    r.1.length + r.2.1.length + r.2.2.length = l.length := by
  unfold ICL.equalRange at e
  split at e
  · obtain rfl := Option.some.inj e
    have h1 := takeWhile_drop_length (fun s => o.neLess (g.key s) k) l
    have h2 := takeWhile_drop_length (fun s => !o.neLess k (g.key s)) (l.dropWhile fun s => o.neLess (g.key s) k)
    dsimp only
    omega
  · simp at e

theorem insert_length (pick : Nat) (s : S) {t t' : Tree S} {a} (e : Tree.insert o g pick s t = some (a, t')) :
    t.nodes.length ≤ t'.nodes.length ∧ t'.nodes.length ≤ t.nodes.length + 1 := by
  obtain ⟨r, h1, h2⟩ := Option.map_eq_some_iff.1 e
  have hl := equalRange_length h1
  split at h2
  · rename_i hb
    simp only [Prod.mk.injEq] at h2
    rw [← h2.2]
    rw [hb] at hl
    simp at hl ⊢
    omega
  · simp only [Prod.mk.injEq] at h2
    rw [← h2.2]; omega

theorem costs_insert (pick : Nat) (s : S) :
    Costs (insert o g pick s) (Tree.insert o g pick s) { searches := 1, allocated := 1 } := by
  refine costs_charge fun t a t' e => ?_
  have := insert_length pick s e
  refine ⟨⟨Nat.le_refl _, Nat.le_refl _, Nat.le_refl _, by dsimp only; omega⟩, by simp only [Balance]; omega⟩
theorem costs_insertHint (pick : Nat) (hint : It) (s : S) :
    Costs (insertHint o g pick hint s) (Tree.insertHint o g pick hint s) { hinted := 1, allocated := 1 } := by
  refine costs_charge fun t a t' e => ?_
  unfold Tree.insertHint at e
  split at e
  · obtain ⟨r, h1, h2⟩ := Option.map_eq_some_iff.1 e
    simp only [Prod.mk.injEq] at h2
    have := insert_length pick s h1
    rw [h2.2] at this
    refine ⟨⟨Nat.le_refl _, Nat.le_refl _, Nat.le_refl _, by dsimp only; omega⟩, by simp only [Balance]; omega⟩
  · simp at e

end

/-- The cost of a single operation; extended by every function below. -/
syntax "costs1" : tactic
macro_rules | `(tactic| costs1) => `(tactic| with_reducible exact Costs.pure _)
macro_rules | `(tactic| costs1) => `(tactic| with_reducible exact costs_ofOption _)
macro_rules | `(tactic| costs1) => `(tactic| with_reducible exact costs_get)
macro_rules | `(tactic| costs1) => `(tactic| with_reducible exact costs_first)
macro_rules | `(tactic| costs1) => `(tactic| with_reducible exact costs_deref _)
macro_rules | `(tactic| costs1) => `(tactic| with_reducible exact costs_next _)
macro_rules | `(tactic| costs1) => `(tactic| with_reducible exact costs_prior _)
macro_rules | `(tactic| costs1) => `(tactic| with_reducible exact costs_cyclicPrior _)
macro_rules | `(tactic| costs1) => `(tactic| with_reducible exact costs_modify _ _)
macro_rules | `(tactic| costs1) => `(tactic| with_reducible exact costs_erase _)
macro_rules | `(tactic| costs1) => `(tactic| with_reducible exact costs_eraseRange _ _)
macro_rules | `(tactic| costs1) => `(tactic| with_reducible exact costs_equalRange _)
macro_rules | `(tactic| costs1) => `(tactic| with_reducible exact costs_lowerBound _)
macro_rules | `(tactic| costs1) => `(tactic| with_reducible exact costs_upperBound _)
macro_rules | `(tactic| costs1) => `(tactic| with_reducible exact costs_insert _ _)
macro_rules | `(tactic| costs1) => `(tactic| with_reducible exact costs_insertHint _ _ _)
macro_rules | `(tactic| costs1) => `(tactic| with_reducible exact costs_free (keeps_equalRange _))

/-- Inequations between bounds. -/
macro "work" : tactic => `(tactic| (
  simp only [Le, sup, times, add_searches, add_hinted, add_steps, add_allocated]; omega))

/-- The cost of a program, by its syntax. -/
macro "costs" : tactic => `(tactic| (
  apply Costs.mono
  case' hc => (repeat' (first
    | costs1
    | with_reducible apply Costs.ite
    | with_reducible apply Costs.bindP
    | with_reducible apply Costs.bind
    | intro _))))

/-- The same with an induction hypothesis. -/
macro "costs" "using" h:term : tactic => `(tactic| (
  apply Costs.mono
  case' hc => (repeat' (first
    | with_reducible apply $h
    | costs1
    | with_reducible apply Costs.ite
    | with_reducible apply Costs.bindP
    | with_reducible apply Costs.bind
    | intro _))))

section
variable {D I V S : Type} {o : IntervalOps D I} {g : SegOps I V S} [DecidableEq V]

theorem costs_joinable (a b : It) :
    Costs (joinable o g a b) (Tree.joinable o g a b) { steps := 2 } := by
  unfold joinable Tree.joinable
  costs
  case hb => decide
macro_rules | `(tactic| costs1) => `(tactic| with_reducible exact costs_joinable _ _)

omit [DecidableEq V] in
theorem costs_joinNodes (a b : It) :
    Costs (joinNodes o g a b) (Tree.joinNodes o g a b) { steps := 3 } := by
  unfold joinNodes Tree.joinNodes
  costs
  case hb => decide
macro_rules | `(tactic| costs1) => `(tactic| with_reducible exact costs_joinNodes _ _)

theorem costs_joinOn (a b : It) :
    Costs (joinOn o g a b) (Tree.joinOn o g a b) { steps := 5 } := by
  unfold joinOn Tree.joinOn
  costs
  case hb => decide
macro_rules | `(tactic| costs1) => `(tactic| with_reducible exact costs_joinOn _ _)

theorem costs_joinLeft (it : It) :
    Costs (joinLeft o g it) (Tree.joinLeft o g it) { steps := 9 } := by
  unfold joinLeft Tree.joinLeft
  costs
  case hb => decide
macro_rules | `(tactic| costs1) => `(tactic| with_reducible exact costs_joinLeft _)

theorem costs_joinRight (it : It) :
    Costs (joinRight o g it) (Tree.joinRight o g it) { steps := 8 } := by
  unfold joinRight Tree.joinRight
  costs
  case hb => decide
macro_rules | `(tactic| costs1) => `(tactic| with_reducible exact costs_joinRight _)

theorem costs_joinNeighbours (it : It) :
    Costs (joinNeighbours o g it) (Tree.joinNeighbours o g it) { steps := 17 } := by
  unfold joinNeighbours Tree.joinNeighbours
  costs
  case hb => decide
macro_rules | `(tactic| costs1) => `(tactic| with_reducible exact costs_joinNeighbours _)

end

section
variable {D I : Type} {o : IntervalOps D I}

theorem costs_Sets_handleInserted (st : Style) (it : It) :
    Costs (Sets.handleInserted o st it) (Tree.Sets.handleInserted o st it) { steps := 17 } := by
  cases st
  · exact (costs_joinNeighbours it).mono (by decide)
  · exact (Costs.pure _).mono (by decide)
  · exact (Costs.pure _).mono (by decide)
macro_rules | `(tactic| costs1) => `(tactic| with_reducible exact costs_Sets_handleInserted _ _)

theorem costs_Sets_joinUnder (k : I) (last : It) :
    Costs (Sets.joinUnder o k last) (Tree.Sets.joinUnder o k last) { searches := 2, steps := 5 } := by
  unfold Sets.joinUnder Tree.Sets.joinUnder
  costs
  case hb => decide
macro_rules | `(tactic| costs1) => `(tactic| with_reducible exact costs_Sets_joinUnder _ _)

theorem costs_Sets_addFront (k : I) (it : It) :
    Costs (Sets.addFront o k it) (Tree.Sets.addFront o k it) { hinted := 1, steps := 4, allocated := 1 } := by
  unfold Sets.addFront Tree.Sets.addFront
  costs
  case hb => decide
macro_rules | `(tactic| costs1) => `(tactic| with_reducible exact costs_Sets_addFront _ _)

theorem costs_Sets_insertGap (p : It) (k : I) :
    Costs (Sets.insertGap o p k) (Tree.Sets.insertGap o p k) { hinted := 1, allocated := 1 } := by
  unfold Sets.insertGap Tree.Sets.insertGap
  costs
  case hb => decide
macro_rules | `(tactic| costs1) => `(tactic| with_reducible exact costs_Sets_insertGap _ _)

theorem costs_Sets_addSegment (k : I) (it : It) :
    Costs (Sets.addSegment o k it) (Tree.Sets.addSegment o k it) { hinted := 1, steps := 4, allocated := 1 } := by
  unfold Sets.addSegment Tree.Sets.addSegment
  costs
  case hb => decide
macro_rules | `(tactic| costs1) => `(tactic| with_reducible exact costs_Sets_addSegment _ _)

theorem costs_Sets_addMain (last : It) : ∀ (n : Nat) (k : I) (it : It),
    Costs (Sets.addMain o last n k it) (Tree.Sets.addMain o last n k it) (times n { hinted := 1, steps := 5, allocated := 1 })
  | 0, k, it => (costs_ofOption _).mono (by work)
  | n + 1, k, it => by
    unfold Sets.addMain Tree.Sets.addMain
    costs using (costs_Sets_addMain last n)
    case hb => work
macro_rules | `(tactic| costs1) => `(tactic| with_reducible exact costs_Sets_addMain _ _ _ _)

theorem costs_Sets_addRear (k : I) (it : It) :
    Costs (Sets.addRear o k it) (Tree.Sets.addRear o k it) { hinted := 2, steps := 4, allocated := 2 } := by
  unfold Sets.addRear Tree.Sets.addRear
  costs
  case hb => decide
macro_rules | `(tactic| costs1) => `(tactic| with_reducible exact costs_Sets_addRear _ _)

theorem costs_Sets_insertResid (k : I) :
    Costs (Sets.insertResid o k) (Tree.Sets.insertResid o k) { searches := 1, allocated := 1 } := by
  unfold Sets.insertResid Tree.Sets.insertResid
  costs
  case hb => decide
macro_rules | `(tactic| costs1) => `(tactic| with_reducible exact costs_Sets_insertResid _)

theorem costs_Sets_subtract (k : I) :
    Costs (Sets.subtract o k) (Tree.Sets.subtract o k) { searches := 4, steps := 3, allocated := 2 } := by
  unfold Sets.subtract Tree.Sets.subtract
  costs
  case hb => decide
macro_rules | `(tactic| costs1) => `(tactic| with_reducible exact costs_Sets_subtract _)

end

section
variable {D I V : Type} {o : IntervalOps D I} [DecidableEq V]

theorem costs_Maps_absorbed (c : MapCfg V) (it : It) :
    Costs (Maps.absorbed (I := I) c it) (Tree.Maps.absorbed (I := I) c it) { steps := 1 } := by
  unfold Maps.absorbed Tree.Maps.absorbed
  costs
  case hb => decide
macro_rules | `(tactic| costs1) => `(tactic| with_reducible exact costs_Maps_absorbed _ _)

omit [DecidableEq V] in
theorem costs_Maps_combine (f : Combiner V) (it : It) (v : V) :
    Costs (Maps.combine (I := I) f it v) (Tree.Maps.combine (I := I) f it v) { steps := 1 } := by
  unfold Maps.combine Tree.Maps.combine
  costs
  case hb => decide
macro_rules | `(tactic| costs1) => `(tactic| with_reducible exact costs_Maps_combine _ _ _)

theorem costs_Maps_handleInserted (c : MapCfg V) (it : It) :
    Costs (Maps.handleInserted o c it) (Tree.Maps.handleInserted o c it) { steps := 17 } := by
  unfold Maps.handleInserted Tree.Maps.handleInserted
  costs
  case hb => decide
macro_rules | `(tactic| costs1) => `(tactic| with_reducible exact costs_Maps_handleInserted _ _)

theorem costs_Maps_handleInsertedPrior (c : MapCfg V) (p it : It) :
    Costs (Maps.handleInsertedPrior o c p it) (Tree.Maps.handleInsertedPrior o c p it) { steps := 7 } := by
  unfold Maps.handleInsertedPrior Tree.Maps.handleInsertedPrior
  costs
  case hb => decide
macro_rules | `(tactic| costs1) => `(tactic| with_reducible exact costs_Maps_handleInsertedPrior _ _ _)

theorem costs_Maps_handleLeftCombined (c : MapCfg V) (it : It) :
    Costs (Maps.handleLeftCombined o c it) (Tree.Maps.handleLeftCombined o c it) { steps := 10 } := by
  unfold Maps.handleLeftCombined Tree.Maps.handleLeftCombined
  costs
  case hb => decide
macro_rules | `(tactic| costs1) => `(tactic| with_reducible exact costs_Maps_handleLeftCombined _ _)

theorem costs_Maps_handleCombined (c : MapCfg V) (it : It) :
    Costs (Maps.handleCombined o c it) (Tree.Maps.handleCombined o c it) { steps := 18 } := by
  unfold Maps.handleCombined Tree.Maps.handleCombined
  costs
  case hb => decide
macro_rules | `(tactic| costs1) => `(tactic| with_reducible exact costs_Maps_handleCombined _ _)

theorem costs_Maps_handlePreceededCombined (c : MapCfg V) (p it : It) :
    Costs (Maps.handlePreceededCombined o c p it) (Tree.Maps.handlePreceededCombined o c p it) { steps := 18 } := by
  unfold Maps.handlePreceededCombined Tree.Maps.handlePreceededCombined
  costs
  case hb => decide
macro_rules | `(tactic| costs1) => `(tactic| with_reducible exact costs_Maps_handlePreceededCombined _ _ _)

theorem costs_Maps_handleSucceededCombined (c : MapCfg V) (it next : It) :
    Costs (Maps.handleSucceededCombined o c it next) (Tree.Maps.handleSucceededCombined o c it next) { steps := 27 } := by
  unfold Maps.handleSucceededCombined Tree.Maps.handleSucceededCombined
  costs
  case hb => decide
macro_rules | `(tactic| costs1) => `(tactic| with_reducible exact costs_Maps_handleSucceededCombined _ _ _)

theorem costs_Maps_handleReinserted (c : MapCfg V) (it : It) :
    Costs (Maps.handleReinserted o c it) (Tree.Maps.handleReinserted o c it) { steps := 8 } := by
  unfold Maps.handleReinserted Tree.Maps.handleReinserted
  costs
  case hb => decide
macro_rules | `(tactic| costs1) => `(tactic| with_reducible exact costs_Maps_handleReinserted _ _)

theorem costs_Maps_gapInsert (c : MapCfg V) (f : Combiner V) (p : It) (k : I) (v : V) :
    Costs (Maps.gapInsert o c f p k v) (Tree.Maps.gapInsert o c f p k v) { hinted := 1, allocated := 1 } := by
  unfold Maps.gapInsert Tree.Maps.gapInsert
  costs
  case hb => decide
macro_rules | `(tactic| costs1) => `(tactic| with_reducible exact costs_Maps_gapInsert _ _ _ _ _)

theorem costs_Maps_gapInsertAt (c : MapCfg V) (f : Combiner V) (it p : It) (k : I) (v : V) :
    Costs (Maps.gapInsertAt o c f it p k v) (Tree.Maps.gapInsertAt o c f it p k v) { hinted := 1, steps := 27, allocated := 1 } := by
  unfold Maps.gapInsertAt Tree.Maps.gapInsertAt
  costs
  case hb => decide
macro_rules | `(tactic| costs1) => `(tactic| with_reducible exact costs_Maps_gapInsertAt _ _ _ _ _ _)

omit [DecidableEq V] in
theorem costs_Maps_addFront (k : I) (it : It) :
    Costs (Maps.addFront (V := V) o k it) (Tree.Maps.addFront (V := V) o k it) { hinted := 1, steps := 5, allocated := 1 } := by
  unfold Maps.addFront Tree.Maps.addFront
  costs
  case hb => decide
macro_rules | `(tactic| costs1) => `(tactic| with_reducible exact costs_Maps_addFront _ _)

theorem costs_Maps_insertGap (c : MapCfg V) (f : Combiner V) (p : It) (k : I) (v : V) :
    Costs (Maps.insertGap o c f p k v) (Tree.Maps.insertGap o c f p k v) { hinted := 1, steps := 7, allocated := 1 } := by
  unfold Maps.insertGap Tree.Maps.insertGap
  costs
  case hb => decide
macro_rules | `(tactic| costs1) => `(tactic| with_reducible exact costs_Maps_insertGap _ _ _ _ _)

theorem costs_Maps_addSegment (c : MapCfg V) (f : Combiner V) (k : I) (v : V) (it : It) :
    Costs (Maps.addSegment o c f k v it) (Tree.Maps.addSegment o c f k v it) { hinted := 1, steps := 22, allocated := 1 } := by
  unfold Maps.addSegment Tree.Maps.addSegment
  costs
  case hb => decide
macro_rules | `(tactic| costs1) => `(tactic| with_reducible exact costs_Maps_addSegment _ _ _ _ _)

theorem costs_Maps_addMain (c : MapCfg V) (f : Combiner V) (v : V) (last : It) : ∀ (n : Nat) (k : I) (it : It),
    Costs (Maps.addMain o c f v last n k it) (Tree.Maps.addMain o c f v last n k it)
      (times n { hinted := 1, steps := 23, allocated := 1 })
  | 0, k, it => (costs_ofOption _).mono (by work)
  | n + 1, k, it => by
    unfold Maps.addMain Tree.Maps.addMain
    costs using (costs_Maps_addMain c f v last n)
    case hb => work
macro_rules | `(tactic| costs1) => `(tactic| with_reducible exact costs_Maps_addMain _ _ _ _ _ _ _)

theorem costs_Maps_subMain (c : MapCfg V) (f : Combiner V) (v : V) (last : It) : ∀ (n : Nat) (it : It),
    Costs (Maps.subMain o c f v last n it) (Tree.Maps.subMain o c f v last n it) (times n { steps := 12 })
  | 0, it => (costs_ofOption _).mono (by work)
  | n + 1, it => by
    unfold Maps.subMain Tree.Maps.subMain
    costs using (costs_Maps_subMain c f v last n)
    case hb => work
macro_rules | `(tactic| costs1) => `(tactic| with_reducible exact costs_Maps_subMain _ _ _ _ _ _)

theorem costs_Maps_insertLoop (c : MapCfg V) (v : V) (last : It) : ∀ (n : Nat) (k : I) (it p : It),
    Costs (Maps.insertLoop o c v last n k it p) (Tree.Maps.insertLoop o c v last n k it p)
      (times n { hinted := 1, steps := 19, allocated := 1 })
  | 0, k, it, p => (costs_ofOption _).mono (by work)
  | n + 1, k, it, p => by
    unfold Maps.insertLoop Tree.Maps.insertLoop
    costs using (costs_Maps_insertLoop c v last n)
    case hb => work
macro_rules | `(tactic| costs1) => `(tactic| with_reducible exact costs_Maps_insertLoop _ _ _ _ _ _ _)

theorem costs_Maps_eraseLoop (v : V) (last : It) : ∀ (n : Nat) (it : It),
    Costs (Maps.eraseLoop (I := I) v last n it) (Tree.Maps.eraseLoop v last n it) (times n { steps := 3 })
  | 0, it => (costs_ofOption _).mono (by work)
  | n + 1, it => by
    unfold Maps.eraseLoop Tree.Maps.eraseLoop
    costs using (costs_Maps_eraseLoop v last n)
    case hb => work
macro_rules | `(tactic| costs1) => `(tactic| with_reducible exact costs_Maps_eraseLoop _ _ _ _)

theorem costs_Maps_addRear (c : MapCfg V) (f : Combiner V) (k : I) (v : V) (it : It) :
    Costs (Maps.addRear o c f k v it) (Tree.Maps.addRear o c f k v it) { hinted := 2, steps := 39, allocated := 2 } := by
  unfold Maps.addRear Tree.Maps.addRear
  costs
  case hb => decide
macro_rules | `(tactic| costs1) => `(tactic| with_reducible exact costs_Maps_addRear _ _ _ _ _)

theorem costs_Maps_addAt (c : MapCfg V) (f : Combiner V) (pick : Nat) (p : It) (k : I) (v : V) :
    Costs (Maps.addAt o c f pick p k v) (Tree.Maps.addAt o c f pick p k v) { hinted := 1, steps := 2, allocated := 1 } := by
  unfold Maps.addAt Tree.Maps.addAt
  costs
  case hb => decide
macro_rules | `(tactic| costs1) => `(tactic| with_reducible exact costs_Maps_addAt _ _ _ _ _ _)

theorem costs_Maps_subRear (c : MapCfg V) (f : Combiner V) (k : I) (v : V) (it : It) :
    Costs (Maps.subRear o c f k v it) (Tree.Maps.subRear o c f k v it) { hinted := 1, steps := 31, allocated := 1 } := by
  unfold Maps.subRear Tree.Maps.subRear
  costs
  case hb => decide
macro_rules | `(tactic| costs1) => `(tactic| with_reducible exact costs_Maps_subRear _ _ _ _ _)

omit [DecidableEq V] in
theorem costs_Maps_insertAt (pick : Nat) (p : It) (k : I) (v : V) :
    Costs (Maps.insertAt o pick p k v) (Tree.Maps.insertAt o pick p k v) { hinted := 1, steps := 1, allocated := 1 } := by
  unfold Maps.insertAt Tree.Maps.insertAt
  costs
  case hb => decide
macro_rules | `(tactic| costs1) => `(tactic| with_reducible exact costs_Maps_insertAt _ _ _ _)

omit [DecidableEq V] in
theorem costs_Maps_eraseItv (k : I) :
    Costs (Maps.eraseItv (V := V) o k) (Tree.Maps.eraseItv (V := V) o k) { searches := 2, hinted := 1, steps := 6, allocated := 1 } := by
  unfold Maps.eraseItv Tree.Maps.eraseItv
  costs
  case hb => decide
macro_rules | `(tactic| costs1) => `(tactic| with_reducible exact costs_Maps_eraseItv _)

end

section
variable {D I : Type} {o : IntervalOps D I}

theorem costs_Sets_addOver {st : Style} (hs : st ≠ .splitting) (k : I) (last : It) :
    Costs (Sets.addOver o st k last) (Tree.Sets.addOver o st k last) { searches := 2, steps := 22 } := by
  cases st
  · unfold Sets.addOver Tree.Sets.addOver
    costs
    case hb => decide
  · exact (costs_Sets_joinUnder k last).mono (by decide)
  · exact absurd rfl hs
macro_rules | `(tactic| costs1) => `(tactic| with_reducible exact costs_Sets_addOver (by assumption) _ _)

theorem costs_Sets_add {st : Style} (hs : st ≠ .splitting) (pick : Nat) (k : I) :
    Costs (Sets.add o st pick k) (Tree.Sets.add o st pick k) { searches := 4, steps := 23, allocated := 1 } := by
  unfold Sets.add Tree.Sets.add
  costs
  case hb => decide
macro_rules | `(tactic| costs1) => `(tactic| with_reducible exact costs_Sets_add (by assumption) _ _)

theorem costs_Sets_addHint {st : Style} (hs : st ≠ .splitting) (pick : Nat) (p : It) (k : I) :
    Costs (Sets.addHint o st pick p k) (Tree.Sets.addHint o st pick p k)
      { searches := 3, hinted := 1, steps := 24, allocated := 1 } := by
  unfold Sets.addHint Tree.Sets.addHint
  costs
  case hb => decide
macro_rules | `(tactic| costs1) => `(tactic| with_reducible exact costs_Sets_addHint (by assumption) _ _ _)

end

end Cost
end ICL
