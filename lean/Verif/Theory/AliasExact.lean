import Verif.Theory.Alias

/-!
# When operations of a map with itself do what they should

The converse of `addSelf_ok` and `subSelf_ok`.
-/

set_option linter.unusedSectionVars false
set_option linter.unusedVariables false

namespace ICL.IMap
variable {D I V : Type} [LinearOrder D] {o : IntervalOps D I} [DecidableEq V]

/-- The rounds of `m += m` and of `m -= m` differ in the functor only. -/
theorem addNode_eq_subNode (t : MapCfg V) (f : Combiner V) (z : Zip (I × V)) :
    addNode o t f z = subNode o t f z := by
  unfold addNode subNode
  by_cases h0 : o.isEmpty z.cur.1 = true
  · simp [h0]
  by_cases h1 : absorbable t z.cur.2 = true
  · simp [h0, h1]
  simp only [h0, h1, if_false, Bool.false_eq_true]
  cases findSelf o mapSeg z with
  | error e => rfl
  | ok u =>
    simp only [bind, Except.bind]
    split_ifs with h2 h3 <;> try rfl
    all_goals
      have ha : t.absorbs = false := by
        simp only [Bool.and_eq_true, decide_eq_true_eq] at h2
        simpa [absorbable, h2.2] using h1
      unfold combineNode
      simp [absorbable, ha, h3]

theorem joinRight_length {z z' : Zip (I × V)} (e : joinRight o mapSeg z = some z') :
    z'.left = z.left ∧ z'.right.length ≤ z.right.length := by
  unfold joinRight at e
  split at e
  · obtain rfl := Option.some.inj e; exact ⟨rfl, le_rfl⟩
  next q r hr =>
    split at e
    · cases e
    · cases hj : joinNodes o mapSeg z.cur q with
      | none => simp [hj] at e
      | some j =>
        simp only [hj, Option.bind_eq_bind, Option.bind_some, Option.pure_def, Option.some.injEq] at e
        subst e
        simp [hr]
    · obtain rfl := Option.some.inj e; exact ⟨rfl, le_rfl⟩

theorem joinLeftSelf_ok_eq {z z' : Zip (I × V)} (e : joinLeftSelf o mapSeg z = .ok z') : z' = z := by
  unfold joinLeftSelf at e
  split at e
  · cases e; rfl
  · split at e <;> cases e
    rfl

theorem joinSelf_length {z z' : Zip (I × V)} (e : joinSelf o mapSeg z = .ok z') :
    z'.left = z.left ∧ z'.right.length ≤ z.right.length := by
  unfold joinSelf at e
  cases h1 : joinLeftSelf o mapSeg z with
  | error x => simp [h1, bind, Except.bind] at e
  | ok y =>
    obtain rfl := joinLeftSelf_ok_eq h1
    simp only [h1, bind, Except.bind] at e
    cases h2 : joinRight o mapSeg y with
    | none => simp [h2, orFail] at e
    | some w =>
      simp only [h2, orFail, Except.ok.injEq] at e
      subst e
      exact joinRight_length h2

theorem subNode_length {t : MapCfg V} {f : Combiner V} {z z' : Zip (I × V)} (e : subNode o t f z = .ok z') :
    z'.left = z.left ∧ z'.right.length ≤ z.right.length := by
  unfold subNode at e
  split_ifs at e
  · cases e; exact ⟨rfl, le_rfl⟩
  · cases e; exact ⟨rfl, le_rfl⟩
  · cases hf : findSelf o mapSeg z with
    | error x => simp [hf, bind, Except.bind] at e
    | ok u =>
      simp only [hf, bind, Except.bind] at e
      unfold combineNode at e
      dsimp only at e
      split_ifs at e
      · exact joinSelf_length (z := ⟨z.left, combine f z.cur z.cur.2, z.right⟩) e
      · cases e; exact ⟨rfl, le_rfl⟩

/-- A loop makes no container longer. -/
theorem forSelf_length {S : Type} {body : Zip S → Outcome (Zip S)}
    (hb : ∀ z z', body z = .ok z' → z'.left = z.left ∧ z'.right.length ≤ z.right.length) :
    ∀ (n : Nat) (z : Zip S) (l : List S), forSelf body n z = .ok l → l.length ≤ z.left.length + 1 + z.right.length := by
  intro n
  induction n with
  | zero => intro z l e; simp [forSelf] at e
  | succ n ih =>
    intro z l e
    unfold forSelf at e
    cases h1 : body z with
    | error x => simp [h1, bind, Except.bind] at e
    | ok y =>
      have hy := hb _ _ h1
      simp only [h1, bind, Except.bind] at e
      split at e
      next hr =>
        cases e
        simp only [Zip.toList, List.length_append, List.length_reverse, List.length_cons, hr, List.length_nil, hy.1]
        omega
      next s r hr =>
        have := ih _ _ e
        simp only [List.length_cons, hy.1] at this
        have h2 := hy.2
        rw [hr] at h2
        simp only [List.length_cons] at h2
        omega

/-- A round changes nothing but the value of its own node. -/
def Fine (o : IntervalOps D I) (t : MapCfg V) (φ : V → V) (a : List (I × V)) (s : I × V) (c : List (I × V)) : Prop :=
  absorbable t (φ s.2) = false ∧ (t.joining = true →
    (∀ a' p, a = a' ++ [p] → o.touches p.1 s.1 = true → φ p.2 ≠ φ s.2) ∧
    ∀ q c', c = q :: c' → o.touches s.1 q.1 = true → φ s.2 ≠ q.2)

variable (h : o.Lawful)
include h

/-- A round that does not end in an error is fine, or it makes the container shorter. -/
theorem subNode_cases {t : MapCfg V} {f : Combiner V} {l a c : List (I × V)} {s : I × V} {z' : Zip (I × V)}
    (hl : WF o mapSeg l) (e : l = a ++ s :: c) (hi : absorbable t s.2 = false)
    (hz : subNode o t f ⟨(a.map fun s => (s.1, f.apply s.2 s.2)).reverse, s, c⟩ = .ok z') :
    z'.right.length < c.length ∨
      (Fine o t (fun v => f.apply v v) a s c ∧
        z' = ⟨(a.map fun s => (s.1, f.apply s.2 s.2)).reverse, (s.1, f.apply s.2 s.2), c⟩) := by
  have hn : o.Nonempty s.1 := hl.nonempty s (by simp [e])
  unfold subNode at hz
  simp only [] at hz
  rw [if_neg (by simp [isEmpty_false h hn]), if_neg (by simp [hi]),
    findSelf_ok h (wf_done h (φ := fun v => f.apply v v) hl e)] at hz
  simp only [bind, Except.bind] at hz
  unfold combineNode at hz
  dsimp only [combine] at hz
  by_cases hs : absorbable t (f.apply s.2 s.2) = true
  · simp [hs] at hz
  rw [if_neg hs] at hz
  rw [Bool.not_eq_true] at hs
  cases ht : t.joining with
  | false =>
    simp only [ht, Bool.false_eq_true, if_false, Except.ok.injEq] at hz
    exact Or.inr ⟨⟨hs, fun e => by simp [ht] at e⟩, hz.symm⟩
  | true =>
    rw [ht, if_pos rfl] at hz
    have hw : WF o mapSeg (a.map (fun s => (s.1, f.apply s.2 s.2)) ++ (s.1, f.apply s.2 s.2) :: c) := by
      rw [e] at hl
      have h1 := wf_append.1 hl
      have h2 := wf_cons.1 h1.2.1
      refine wf_append.2 ⟨wf_mapVal h (fun v => f.apply v v) h1.1, wf_cons.2 ⟨h2.1, h2.2.1, h2.2.2⟩, ?_⟩
      rintro x y ⟨p, hp, hx⟩ hy
      obtain ⟨q, hq, rfl⟩ := List.mem_map.1 hp
      refine h1.2.2 x y ⟨q, hq, hx⟩ ?_
      simpa using hy
    have hleft : ∀ a' p, a = a' ++ [p] → o.touches p.1 s.1 = true → f.apply p.2 p.2 ≠ f.apply s.2 s.2 := by
      rintro a' p rfl htc hc
      have hb : o.Before p.1 s.1 := by
        rw [e] at hl
        exact fun x y hx hy => (wf_append.1 hl).2.2 x y ⟨p, by simp, hx⟩ ⟨s, by simp, hy⟩
      have hp : o.Nonempty p.1 := hl.nonempty p (by simp [e])
      have hj := joinableC_before h (g := mapSeg) (s := (p.1, f.apply p.2 p.2)) (t := (s.1, f.apply s.2 s.2)) hp hn hb
      have : joinable o mapSeg (p.1, f.apply p.2 p.2) (s.1, f.apply s.2 s.2) = true := by
        unfold joinable
        simp [htc, hc]
      rw [this] at hj
      unfold joinSelf joinLeftSelf at hz
      simp [hj, bind, Except.bind] at hz
    by_cases hr : ∃ q c', c = q :: c' ∧ o.touches s.1 q.1 = true ∧ f.apply s.2 s.2 = q.2
    · left
      obtain ⟨q, c', rfl, htc, hc⟩ := hr
      have hb : o.Before s.1 q.1 := by
        rw [e] at hl
        exact fun x y hx hy => (wf_cons.1 (wf_append.1 hl).2.1).2.2 x y hx ⟨q, by simp, hy⟩
      have hq : o.Nonempty q.1 := hl.nonempty q (by simp [e])
      have hj := joinableC_before h (g := mapSeg) (s := (s.1, f.apply s.2 s.2)) (t := q) hn hq hb
      have : joinable o mapSeg (s.1, f.apply s.2 s.2) q = true := by
        unfold joinable
        simp [htc, hc]
      rw [this] at hj
      unfold joinSelf at hz
      cases h1 : joinLeftSelf o mapSeg
          ⟨(a.map fun s => (s.1, f.apply s.2 s.2)).reverse, (s.1, f.apply s.2 s.2), q :: c'⟩ with
      | error x => simp [h1, bind, Except.bind] at hz
      | ok y =>
        obtain rfl := joinLeftSelf_ok_eq h1
        simp only [h1, bind, Except.bind] at hz
        unfold joinRight at hz
        simp only [hj] at hz
        cases hk : joinNodes o mapSeg (s.1, f.apply s.2 s.2) q with
        | none => simp [hk, orFail] at hz
        | some j =>
          simp only [hk, Option.bind_eq_bind, Option.bind_some, Option.pure_def, orFail, Except.ok.injEq] at hz
          subst hz
          simp
    · right
      have hright : ∀ q c', c = q :: c' → o.touches s.1 q.1 = true → f.apply s.2 s.2 ≠ q.2 :=
        fun q c' ec htc hc => hr ⟨q, c', ec, htc, hc⟩
      refine ⟨⟨hs, fun _ => ⟨hleft, hright⟩⟩, ?_⟩
      have := joinSelf_ok h hw (fun a' p ea => ?_) fun q c' ec => ?_
      · rw [this] at hz
        cases hz; rfl
      · rcases List.eq_nil_or_concat a with rfl | ⟨b, r, rfl⟩
        · simp at ea
        · simp only [List.concat_eq_append, List.map_append, List.map_cons, List.map_nil] at ea
          have := List.append_inj_right' ea rfl
          simp only [List.cons.injEq, and_true] at this
          subst this
          unfold joinable
          cases htc : o.touches r.1 s.1 with
          | false => simp [htc]
          | true => simp [hleft b r (by simp) htc]
      · subst ec
        unfold joinable
        cases htc : o.touches s.1 q.1 with
        | false => simp [htc]
        | true => simp [hright q c' rfl htc]

theorem forSelf_fine {t : MapCfg V} {f : Combiner V} {l : List (I × V)} (hl : WF o mapSeg l)
    (hi : ∀ s ∈ l, absorbable t s.2 = false) (post : List (I × V)) :
    ∀ (s : I × V) (pre : List (I × V)) (n : Nat), l = pre ++ s :: post →
      forSelf (subNode o t f) n ⟨(pre.map fun s => (s.1, f.apply s.2 s.2)).reverse, s, post⟩ =
        .ok (l.map fun s => (s.1, f.apply s.2 s.2)) →
      ∀ a u c, l = a ++ u :: c → pre.length ≤ a.length → Fine o t (fun v => f.apply v v) a u c := by
  induction post with
  | nil =>
    intro s pre n e hf a u c e' hle
    have hlen := congrArg List.length (e.symm.trans e')
    simp only [List.length_append, List.length_cons, List.length_nil] at hlen
    obtain ⟨h1, h2⟩ := List.append_inj (e.symm.trans e') (by omega)
    simp only [List.cons.injEq] at h2
    obtain ⟨rfl, rfl⟩ := h2
    subst h1
    cases n with
    | zero => simp [forSelf] at hf
    | succ n =>
      unfold forSelf at hf
      cases hz : subNode o t f ⟨(pre.map fun s => (s.1, f.apply s.2 s.2)).reverse, s, []⟩ with
      | error x => simp [hz, bind, Except.bind] at hf
      | ok z =>
        rcases subNode_cases h hl e (hi s (by simp [e])) hz with h1 | h1
        · simp at h1
        · exact h1.1
  | cons q post ih =>
    intro s pre n e hf a u c e' hle
    cases n with
    | zero => simp [forSelf] at hf
    | succ n =>
      unfold forSelf at hf
      cases hz : subNode o t f ⟨(pre.map fun s => (s.1, f.apply s.2 s.2)).reverse, s, q :: post⟩ with
      | error x => simp [hz, bind, Except.bind] at hf
      | ok z =>
        simp only [hz, bind, Except.bind] at hf
        rcases subNode_cases h hl e (hi s (by simp [e])) hz with h1 | h1
        · exfalso
          have hleft := (subNode_length hz).1
          have hlen : (l.map fun s => (s.1, f.apply s.2 s.2)).length ≤ z.left.length + 1 + z.right.length := by
            split at hf
            next hr =>
              rw [← Except.ok.inj hf]
              simp [Zip.toList, hr]
            next s' r hr =>
              have := forSelf_length (fun _ _ => subNode_length) _ _ _ hf
              simp only [List.length_cons] at this
              rw [hr]
              simp only [List.length_cons]
              omega
          rw [hleft, e] at hlen
          simp only [List.length_map, List.length_append, List.length_cons, List.length_reverse] at hlen h1
          omega
        · obtain ⟨hfine, rfl⟩ := h1
          simp only at hf
          rcases Nat.eq_or_lt_of_le hle with h2 | h2
          · obtain ⟨h3, h4⟩ := List.append_inj (e.symm.trans e') h2
            simp only [List.cons.injEq] at h4
            obtain ⟨rfl, rfl⟩ := h4
            subst h3
            exact hfine
          · exact ih q (pre ++ [s]) n (by rw [e]; simp) (by simpa using hf) a u c e'
              (by simp only [List.length_append, List.length_cons, List.length_nil]; omega)

theorem loopSelf_fine {t : MapCfg V} {f : Combiner V} {l : List (I × V)} (hl : WF o mapSeg l)
    (hi : ∀ s ∈ l, absorbable t s.2 = false)
    (hf : loopSelf (subNode o t f) l = .ok (l.map fun s => (s.1, f.apply s.2 s.2))) :
    (∀ s ∈ l, absorbable t (f.apply s.2 s.2) = false) ∧
      (t.joining = true → Apart o (fun v => f.apply v v) l) := by
  have hfine : ∀ a u c, l = a ++ u :: c → Fine o t (fun v => f.apply v v) a u c := by
    cases l with
    | nil => intro a u c e; simp at e
    | cons s r => exact fun a u c e => forSelf_fine h hl hi r s [] _ rfl hf a u c e (by simp)
  constructor
  · intro s hs
    obtain ⟨a, c, e⟩ := List.append_of_mem hs
    exact (hfine a s c e).1
  · intro ht a p s c e htc
    exact ⟨((hfine a p (s :: c) e).2 ht).2 s c rfl htc,
      ((hfine (a ++ [p]) s c (by rw [e]; simp)).2 ht).1 a p rfl htc⟩

theorem subSelf_exact {t : MapType V} {l : List (I × V)} (hl : WF o mapSeg l)
    (hi : ∀ s ∈ l, absorbable t.cfg s.2 = false) :
    subSelf o t l = .ok (l.map fun s => (s.1, t.minus.apply s.2 s.2)) ↔
      (∀ s ∈ l, absorbable t.cfg (t.minus.apply s.2 s.2) = false) ∧
        (t.cfg.joining = true → Apart o (fun v => t.minus.apply v v) l) :=
  ⟨loopSelf_fine h hl hi, fun ⟨h1, h2⟩ => subSelf_ok h hl hi h1 h2⟩

theorem addSelf_exact {t : MapType V} {l : List (I × V)} (hl : WF o mapSeg l)
    (hi : ∀ s ∈ l, absorbable t.cfg s.2 = false) :
    addSelf o t l = .ok (l.map fun s => (s.1, t.plus.apply s.2 s.2)) ↔
      (∀ s ∈ l, absorbable t.cfg (t.plus.apply s.2 s.2) = false) ∧
        (t.cfg.joining = true → Apart o (fun v => t.plus.apply v v) l) := by
  refine ⟨fun e => loopSelf_fine h hl hi ?_, fun ⟨h1, h2⟩ => addSelf_ok h hl hi h1 h2⟩
  rw [← e]
  unfold addSelf
  congr 1
  funext z
  exact (addNode_eq_subNode _ _ _).symm

end ICL.IMap
