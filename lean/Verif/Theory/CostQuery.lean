import Verif.QuerySpec
import Verif.Theory.CostFun
import Verif.Theory.Compare
import Verif.Theory.MapQuery
import Verif.Theory.Observe
import Mathlib.Tactic.SplitIfs

set_option linter.unusedSectionVars false
set_option linter.unusedVariables false

namespace ICL
namespace Counted

section
variable {α β : Type}

/-- Whatever comes out, it took no more than that. -/
def AtMost (q : Counted α) (s t : Nat) : Prop :=
  ∀ a w, q = some (a, w) → w.searches ≤ s ∧ w.steps ≤ t ∧ w.hinted = 0 ∧ w.erased = 0 ∧ w.allocated = 0

@[simp] theorem value_done (a : α) : (done a).value = some a := rfl
@[simp] theorem value_fail : (fail : Counted α).value = none := rfl
@[simp] theorem value_tick (w : Work) (q : Counted α) : (tick w q).value = q.value := by
  cases q <;> rfl
@[simp] theorem value_charge (w : Work) (p : Option α) : (charge w p).value = p := by
  cases p <;> rfl
@[simp] theorem value_andThen (q : Counted α) (f : α → Counted β) :
    (andThen q f).value = q.value.bind fun a => (f a).value := by
  cases q with
  | none => rfl
  | some r => cases h : f r.1 <;> simp [andThen, value, h]

theorem AtMost.mono {q : Counted α} {s t s' t' : Nat} (h : AtMost q s t) (hs : s ≤ s') (ht : t ≤ t') : AtMost q s' t' := by
  intro a w e
  obtain ⟨h1, h2, h3⟩ := h a w e
  exact ⟨h1.trans hs, h2.trans ht, h3⟩

theorem AtMost.done (a : α) (s t : Nat) : AtMost (Counted.done a) s t := by
  intro b w e
  cases e
  simp
theorem AtMost.fail (s t : Nat) : AtMost (Counted.fail : Counted α) s t := by
  intro b w e
  cases e
theorem AtMost.charge {s t : Nat} {w : Work} (p : Option α) (hs : w.searches ≤ s) (ht : w.steps ≤ t)
    (hw : w.hinted = 0 ∧ w.erased = 0 ∧ w.allocated = 0) : AtMost (Counted.charge w p) s t := by
  intro b w' e
  cases p with
  | none => cases e
  | some a => cases e; exact ⟨hs, ht, hw⟩
theorem AtMost.tick {q : Counted α} {s t s' t' : Nat} {w : Work} (h : AtMost q s t) (hs : w.searches + s ≤ s') (ht : w.steps + t ≤ t')
    (hw : w.hinted = 0 ∧ w.erased = 0 ∧ w.allocated = 0) : AtMost (Counted.tick w q) s' t' := by
  intro b w' e
  cases q with
  | none => cases e
  | some r =>
    obtain ⟨h1, h2, h3, h4, h5⟩ := h r.1 r.2 rfl
    obtain ⟨w1, w2, w3⟩ := hw
    cases e
    show w.searches + r.2.searches ≤ s' ∧ w.steps + r.2.steps ≤ t' ∧ w.hinted + r.2.hinted = 0 ∧ w.erased + r.2.erased = 0 ∧
      w.allocated + r.2.allocated = 0
    omega
theorem AtMost.andThen {q : Counted α} {f : α → Counted β} {s t s' t' s'' t'' : Nat} (h : AtMost q s t)
    (hf : ∀ a, q.value = some a → AtMost (f a) s' t') (hs : s + s' ≤ s'') (ht : t + t' ≤ t'') :
    AtMost (Counted.andThen q f) s'' t'' := by
  intro b w e
  cases q with
  | none => cases e
  | some r =>
    obtain ⟨h1, h2, h3, h4, h5⟩ := h r.1 r.2 rfl
    have hr := hf r.1 rfl
    cases hq : f r.1 with
    | none => simp [Counted.andThen, hq] at e
    | some u =>
      obtain ⟨k1, k2, k3, k4, k5⟩ := hr u.1 u.2 hq
      simp only [Counted.andThen, Option.bind_some, hq, Option.map_some] at e
      cases e
      show r.2.searches + u.2.searches ≤ s'' ∧ r.2.steps + u.2.steps ≤ t'' ∧ r.2.hinted + u.2.hinted = 0 ∧
        r.2.erased + u.2.erased = 0 ∧ r.2.allocated + u.2.allocated = 0
      omega

theorem answers {q : Counted α} {p : Option α} {s t : Nat} (hv : q.value = p) (hp : ∃ a, p = some a) (h : AtMost q s t) :
    Spec.Answers q p s t := by
  obtain ⟨a, rfl⟩ := hp
  cases q with
  | none => cases hv
  | some r =>
    refine ⟨r.1, r.2, rfl, ?_, h r.1 r.2 rfl⟩
    exact hv.symm

end

theorem pairInd {S : Type} {P : List S → Prop} (case1 : P []) (case2 : ∀ s, P [s])
    (case3 : ∀ s t l, P (t :: l) → P (s :: t :: l)) (l : List S) : P l := by
  match l with
  | [] => exact case1
  | [s] => exact case2 s
  | s :: t :: l => exact case3 s t l (pairInd case1 case2 case3 (t :: l))

theorem value_ite {α : Type} {c : Prop} [Decidable c] (p q : Counted α) : (if c then p else q).value = if c then p.value else q.value := by
  split <;> rfl

section
variable {D I V S : Type} [LinearOrder D] {o : IntervalOps D I} {g : SegOps I V S}

@[simp] theorem value_findI (l : List S) (k : I) : (findI o g l k).value = ICL.findI o g l k := by simp [findI]
theorem atMost_findI (l : List S) (k : I) : AtMost (findI o g l k) 1 0 := .charge _ le_rfl le_rfl ⟨rfl, rfl, rfl⟩

@[simp] theorem value_findE (lk : Lookup D I) (l : List S) (x : D) : (findE o g lk l x).value = ICL.findE o g lk l x := by
  cases lk with
  | exact key => simp [findE, ICL.findE]
  | lower trail =>
    simp only [findE, ICL.findE, value_andThen, value_charge, value_tick, value_done]
    cases lowerBound o g l (trail x) <;> rfl
  | upper trail =>
    simp only [findE, ICL.findE, value_andThen, value_charge, value_tick, value_done]
    cases lastCollision o g l (trail x) <;> rfl
theorem atMost_findE (lk : Lookup D I) (l : List S) (x : D) : AtMost (findE o g lk l x) 1 3 := by
  cases lk with
  | exact key => exact (atMost_findI l _).mono le_rfl (by omega)
  | lower trail =>
    exact (AtMost.charge (s := 1) (t := 0) _ le_rfl le_rfl ⟨rfl, rfl, rfl⟩).andThen
      (fun a _ => (AtMost.done _ 0 0).tick (s' := 0) (t' := 1) le_rfl le_rfl ⟨rfl, rfl, rfl⟩) (by omega) (by omega)
  | upper trail =>
    exact (AtMost.charge (s := 1) (t := 2) _ le_rfl le_rfl ⟨rfl, rfl, rfl⟩).andThen
      (fun a _ => (AtMost.done _ 0 0).tick (s' := 0) (t' := 1) le_rfl le_rfl ⟨rfl, rfl, rfl⟩) (by omega) (by omega)

theorem value_containsE (lk : Lookup D I) (l : List S) (x : D) : (containsE o g lk l x).value = ICL.containsE o g lk l x := by
  simp only [containsE, ICL.containsE, value_andThen, value_findE, value_done]
  cases ICL.findE o g lk l x <;> rfl
theorem atMost_containsE (lk : Lookup D I) (l : List S) (x : D) : AtMost (containsE o g lk l x) 1 3 :=
  (atMost_findE lk l x).andThen (fun a _ => .done _ 0 0) (by omega) (by omega)

theorem value_intersectsSeg (l : List S) (k : I) : (intersectsSeg o g l k).value = ICL.intersectsSeg o g l k := by
  unfold intersectsSeg ICL.intersectsSeg
  split
  · rfl
  · simp only [value_andThen, value_findI, value_done]
    cases ICL.findI o g l k <;> rfl
theorem atMost_intersectsSeg (l : List S) (k : I) : AtMost (intersectsSeg o g l k) 1 0 := by
  unfold intersectsSeg
  split
  · exact .done _ _ _
  · exact (atMost_findI l k).andThen (fun a _ => .done _ 0 0) (by omega) (by omega)

theorem value_allTouch (l : List S) : (allTouch o g l).value = ICL.allTouch o g l := by
  induction l using pairInd with
  | case1 => rfl
  | case2 => rfl
  | case3 s t l ih =>
    unfold allTouch ICL.allTouch
    rw [value_tick]
    cases o.touchesC (g.key s) (g.key t) with
    | none => rfl
    | some b => cases b with
      | false => rfl
      | true => exact ih

theorem atMost_allTouch (l : List S) : AtMost (allTouch o g l) 0 (4 * (l.length - 1)) := by
  induction l using pairInd with
  | case1 => exact .done _ _ _
  | case2 => exact .done _ _ _
  | case3 s t l ih =>
    unfold allTouch
    refine AtMost.tick (s := 0) (t := 4 * l.length) ?_ le_rfl (by simp; omega) ⟨rfl, rfl, rfl⟩
    cases o.touchesC (g.key s) (g.key t) with
    | none => exact .fail _ _
    | some b => cases b with
      | false => exact .done _ _ _
      | true => exact ih.mono le_rfl (by simp)

/-- Segments that do not touch: only the first two are looked at. -/
theorem atMost_allTouch_joined (l : List S) (hj : ∀ s t l', l = s :: t :: l' → o.touchesC (g.key s) (g.key t) = some false) :
    AtMost (allTouch o g l) 0 4 := by
  match l with
  | [] => exact .done _ _ _
  | [_] => exact .done _ _ _
  | s :: t :: l =>
    unfold allTouch
    rw [hj s t l rfl]
    exact (AtMost.done _ 0 0).tick le_rfl le_rfl ⟨rfl, rfl, rfl⟩

theorem eqC_length [DecidableEq V] {l r : List S} (h : ICL.eqC o g l r = true) : l.length = r.length := by
  induction l generalizing r with
  | nil => cases r with
    | nil => rfl
    | cons => cases h
  | cons s l ih => cases r with
    | nil => cases h
    | cons t r =>
      simp only [ICL.eqC, Bool.and_eq_true] at h
      simp [ih h.2]

theorem value_eqC [DecidableEq V] (l r : List S) : (eqC o g l r).value = some (ICL.eqC o g l r) := by
  have hl : ∀ l r : List S, l.length = r.length → (eqC.loop o g l r).value = some (ICL.eqC o g l r) := by
    intro l
    induction l with
    | nil => intro r hr; cases r with
      | nil => rfl
      | cons => cases hr
    | cons s l ih => intro r hr; cases r with
      | nil => cases hr
      | cons t r =>
        unfold eqC.loop ICL.eqC
        rw [value_tick]
        split
        · rename_i hc
          rw [ih r (by simpa using hr), hc, Bool.true_and]
        · rename_i hc
          rw [Bool.eq_false_iff.2 hc, Bool.false_and]; rfl
  unfold eqC
  split
  · rename_i he
    exact hl l r he
  · rename_i he
    cases hc : ICL.eqC o g l r with
    | false => rfl
    | true => exact absurd (eqC_length hc) he

theorem atMost_eqC [DecidableEq V] (l r : List S) : AtMost (eqC o g l r) 0 (4 * min l.length r.length) := by
  have hl : ∀ l r : List S, AtMost (eqC.loop o g l r) 0 (4 * min l.length r.length) := by
    intro l
    induction l with
    | nil => intro r; cases r <;> exact .done _ _ _
    | cons s l ih => intro r; cases r with
      | nil => exact .done _ _ _
      | cons t r =>
        unfold eqC.loop
        refine AtMost.tick (s := 0) (t := 4 * min l.length r.length) ?_ le_rfl (by simp; omega) ⟨rfl, rfl, rfl⟩
        split
        · exact ih r
        · exact .done _ _ _
  unfold eqC
  split
  · exact hl l r
  · exact .done _ _ _

theorem value_sum {N : Type} [Add N] (f : S → N) (n : N) (l : List S) :
    (sum f n l).value = some (l.foldl (fun a s => a + f s) n) := by
  induction l generalizing n with
  | nil => rfl
  | cons s l ih => simp [sum, ih]
theorem atMost_sum {N : Type} [Add N] (f : S → N) (n : N) (l : List S) : AtMost (sum f n l) 0 (2 * l.length) := by
  induction l generalizing n with
  | nil => exact .done _ _ _
  | cons s l ih => exact (ih _).tick le_rfl (by simp; omega) ⟨rfl, rfl, rfl⟩

/-- The middle of `equal_range` is what is overlapped. -/
theorem overlapped_run (h : o.Lawful) {l : List S} (hw : WF o g l) {k : I} (hk : o.Nonempty k) :
    ∃ a b c, equalRange o g l k = some (a, b, c) ∧ l = a ++ b ++ c ∧ b.length = Spec.overlapped o (l.map g.key) k := by
  obtain ⟨a, b, c, e, e1, h1, h2, h3⟩ := equalRange_spec h hw hk
  refine ⟨a, b, c, e, e1, ?_⟩
  rw [e1, List.map_append, List.map_append, Cost.overlapped_append, Cost.overlapped_append]
  have ha : Spec.overlapped o (a.map g.key) k = 0 := by
    simp only [Spec.overlapped, List.length_eq_zero_iff, List.filter_eq_nil_iff, List.mem_map, decide_eq_true_eq]
    rintro i ⟨s, hs, rfl⟩ ⟨x, hx, hx'⟩
    exact lt_irrefl _ (h1 s hs x x hx hx')
  have hc : Spec.overlapped o (c.map g.key) k = 0 := by
    simp only [Spec.overlapped, List.length_eq_zero_iff, List.filter_eq_nil_iff, List.mem_map, decide_eq_true_eq]
    rintro i ⟨s, hs, rfl⟩ ⟨x, hx, hx'⟩
    exact lt_irrefl _ (h3 s hs x x hx' hx)
  have hb : Spec.overlapped o (b.map g.key) k = b.length := by
    unfold Spec.overlapped
    rw [List.filter_eq_self.2]
    · simp
    · simp only [List.mem_map, decide_eq_true_eq]
      rintro i ⟨s, hs, rfl⟩
      exact h2 s hs
  omega

end

namespace ISet
variable {D I : Type} [LinearOrder D] {o : IntervalOps D I}

theorem value_containsSeg (l : List I) (k : I) : (containsSeg o l k).value = ICL.ISet.containsSeg o l k := by
  unfold containsSeg ICL.ISet.containsSeg
  split
  · rfl
  · rw [value_andThen, value_charge]
    congr 1
    funext r
    cases r.2.1 with
    | nil => rfl
    | cons f b =>
      show (tick _ _).value = _
      rw [value_tick, value_ite, value_allTouch]
      rfl

theorem atMost_containsSeg {t : Nat} (l : List I) (k : I)
    (h : ∀ a f b c, o.isEmpty k = false → equalRange o setSeg l k = some (a, f :: b, c) → AtMost (allTouch o setSeg (f :: b)) 0 t) :
    AtMost (containsSeg o l k) 1 (t + 5) := by
  unfold containsSeg
  split
  · exact .done _ _ _
  · rename_i he
    refine (AtMost.charge (s := 1) (t := 0) _ le_rfl le_rfl ⟨rfl, rfl, rfl⟩).andThen (s' := 0) (t' := t + 5) (fun r hr => ?_)
      (by omega) (by omega)
    obtain ⟨a, b, c⟩ := r
    rw [value_charge] at hr
    cases b with
    | nil => exact .done _ _ _
    | cons f b =>
      refine AtMost.tick (s := 0) (t := t) ?_ le_rfl (by simp; omega) ⟨rfl, rfl, rfl⟩
      split
      · exact h a f b c (by simpa using he) hr
      · exact .done _ _ _

end ISet

namespace IMap
variable {D I V : Type} [LinearOrder D] {o : IntervalOps D I}

theorem value_select (lk : Lookup D I) (ident : V) (m : List (I × V)) (x : D) :
    (select o lk ident m x).value = ICL.IMap.select o lk ident m x := by
  simp only [select, ICL.IMap.select, value_andThen, value_findE, value_tick, value_done]
  cases ICL.findE o mapSeg lk m x <;> rfl
theorem atMost_select (lk : Lookup D I) (ident : V) (m : List (I × V)) (x : D) : AtMost (select o lk ident m x) 1 4 :=
  (atMost_findE lk m x).andThen (fun a _ => (AtMost.done _ 0 0).tick (s' := 0) (t' := 1) le_rfl le_rfl ⟨rfl, rfl, rfl⟩)
    (by omega) (by omega)

theorem value_containsKeys (total : Bool) (m : List (I × V)) (k : I) :
    (containsKeys o total m k).value = ICL.IMap.containsKeys o total m k := by
  unfold containsKeys ICL.IMap.containsKeys
  split
  · rfl
  split
  · rfl
  · rw [value_andThen, value_charge]
    congr 1
    funext r
    cases r.2.1 with
    | nil => rfl
    | cons f b =>
      show (tick _ _).value = _
      rw [value_tick, value_ite, value_allTouch]
      rfl

theorem atMost_containsKeys {t : Nat} (total : Bool) (m : List (I × V)) (k : I)
    (h : ∀ a f b c, o.isEmpty k = false → equalRange o mapSeg m k = some (a, f :: b, c) → AtMost (allTouch o mapSeg (f :: b)) 0 t) :
    AtMost (containsKeys o total m k) 1 (t + 4) := by
  unfold containsKeys
  split
  · exact .done _ _ _
  split
  · exact .done _ _ _
  · rename_i he
    refine (AtMost.charge (s := 1) (t := 0) _ le_rfl le_rfl ⟨rfl, rfl, rfl⟩).andThen (s' := 0) (t' := t + 4) (fun r hr => ?_)
      (by omega) (by omega)
    obtain ⟨a, b, c⟩ := r
    rw [value_charge] at hr
    cases b with
    | nil => exact .done _ _ _
    | cons f b =>
      refine AtMost.tick (s := 0) (t := t) ?_ le_rfl (by simp; omega) ⟨rfl, rfl, rfl⟩
      split
      · exact h a f b c (by simpa using he) hr
      · exact .done _ _ _

variable [DecidableEq V]

theorem value_containsPair (lk : Lookup D I) (m : List (I × V)) (x : D) (v : V) :
    (containsPair o lk m x v).value = ICL.IMap.containsPair o lk m x v := by
  simp only [containsPair, ICL.IMap.containsPair, value_andThen, value_findE]
  cases ICL.findE o mapSeg lk m x with
  | none => rfl
  | some r => cases r <;> simp
theorem atMost_containsPair (lk : Lookup D I) (m : List (I × V)) (x : D) (v : V) : AtMost (containsPair o lk m x v) 1 4 := by
  refine (atMost_findE lk m x).andThen (s' := 0) (t' := 1) (fun a _ => ?_) (by omega) (by omega)
  cases a with
  | none => exact .done _ _ _
  | some s => exact (AtMost.done _ 0 0).tick le_rfl le_rfl ⟨rfl, rfl, rfl⟩

theorem value_allJoinable (v : V) (l : List (I × V)) : (allJoinable o v l).value = ICL.IMap.allJoinable o v l := by
  induction l using pairInd with
  | case1 => rfl
  | case2 => rfl
  | case3 s t l ih =>
    unfold allJoinable ICL.IMap.allJoinable
    rw [value_tick]
    split
    · rfl
    cases o.touchesC s.1 t.1 with
    | none => rfl
    | some b => cases b with
      | false => rfl
      | true => exact ih

theorem atMost_allJoinable (v : V) (l : List (I × V)) : AtMost (allJoinable o v l) 0 (5 * (l.length - 1)) := by
  induction l using pairInd with
  | case1 => exact .done _ _ _
  | case2 => exact .done _ _ _
  | case3 s t l ih =>
    unfold allJoinable
    refine AtMost.tick (s := 0) (t := 5 * l.length) ?_ le_rfl (by simp; omega) ⟨rfl, rfl, rfl⟩
    split
    · exact .done _ _ _
    cases o.touchesC s.1 t.1 with
    | none => exact .fail _ _
    | some b => cases b with
      | false => exact .done _ _ _
      | true => exact ih.mono le_rfl (by simp)

theorem atMost_allJoinable_joined (v : V) (l : List (I × V))
    (hj : ∀ s t l', l = s :: t :: l' → t.2 = v → o.touchesC s.1 t.1 = some false) :
    AtMost (allJoinable o v l) 0 5 := by
  match l with
  | [] => exact .done _ _ _
  | [_] => exact .done _ _ _
  | s :: t :: l =>
    unfold allJoinable
    refine AtMost.tick (s := 0) (t := 0) ?_ le_rfl le_rfl ⟨rfl, rfl, rfl⟩
    split
    · exact .done _ _ _
    · rename_i he
      rw [hj s t l rfl (by simpa using he)]
      exact .done _ _ _

theorem value_containsSeg (m : List (I × V)) (k : I) (v : V) :
    (containsSeg o m k v).value = ICL.IMap.containsSeg o m k v := by
  unfold containsSeg ICL.IMap.containsSeg
  split
  · rfl
  · rw [value_andThen, value_charge]
    congr 1
    funext r
    cases r.2.1 with
    | nil => rfl
    | cons f b =>
      show (tick _ _).value = _
      rw [value_tick, value_ite, value_ite, value_allJoinable]
      rfl

theorem atMost_containsSeg {t : Nat} (m : List (I × V)) (k : I) (v : V)
    (h : ∀ a f b c, o.isEmpty k = false → equalRange o mapSeg m k = some (a, f :: b, c) →
      AtMost (allJoinable o f.2 (f :: b)) 0 t) :
    AtMost (containsSeg o m k v) 1 (t + 6) := by
  unfold containsSeg
  split
  · exact .done _ _ _
  · rename_i he
    refine (AtMost.charge (s := 1) (t := 0) _ le_rfl le_rfl ⟨rfl, rfl, rfl⟩).andThen (s' := 0) (t' := t + 6) (fun r hr => ?_)
      (by omega) (by omega)
    obtain ⟨a, b, c⟩ := r
    rw [value_charge] at hr
    cases b with
    | nil => exact .done _ _ _
    | cons f b =>
      refine AtMost.tick (s := 0) (t := t) ?_ le_rfl (by simp; omega) ⟨rfl, rfl, rfl⟩
      split
      · exact .done _ _ _
      split
      · exact h a f b c (by simpa using he) hr
      · exact .done _ _ _

end IMap

section
variable {D I V W S T : Type} [LinearOrder D] {o : IntervalOps D I} {g : SegOps I V S} {k : SegOps I W T}

theorem value_compareLoop (co : CoCompare V W) (n : Nat) (st : CmpState I) (res : Incl) (l : List S) (r : List T) :
    (compareLoop o g k co n st res l r).value = ICL.compareLoop o g k co n st res l r := by
  induction n generalizing st res l r with
  | zero => rfl
  | succ n ih =>
    unfold compareLoop ICL.compareLoop
    simp only [value_tick]
    cases st with
    | both =>
      cases l with
      | nil => cases r <;> rfl
      | cons s l => cases r with
        | nil => rfl
        | cons t r =>
          simp only [value_ite, ih, value_done, value_fail, value_tick]
          cases l.dropWhile fun s => o.neLess (g.key s) (k.key t) <;>
            cases r.dropWhile fun t => o.neLess (k.key t) (g.key s) <;> simp only [ih, value_done]
    | left p =>
      cases l with
      | nil => rfl
      | cons s l => cases r with
        | nil => rfl
        | cons t r =>
          simp only [value_ite, value_fail]
          cases o.touchesC p (g.key s) with
          | none => rfl
          | some b => simp only [value_ite, ih, value_done]
    | right p =>
      cases r with
      | nil => cases l <;> rfl
      | cons t r => cases l with
        | nil => rfl
        | cons s l =>
          simp only [value_ite, value_fail]
          cases o.touchesC p (k.key t) with
          | none => rfl
          | some b => simp only [value_ite, ih, value_done]

theorem AtMost.ite {α : Type} {c : Prop} [Decidable c] {p q : Counted α} {s t : Nat} (hp : AtMost p s t) (hq : AtMost q s t) :
    AtMost (if c then p else q) s t := by
  split
  · exact hp
  · exact hq

theorem atMost_compareLoop (co : CoCompare V W) (n : Nat) (st : CmpState I) (res : Incl) (l : List S) (r : List T) :
    AtMost (compareLoop o g k co n st res l r) n (12 * n) := by
  induction n generalizing st res l r with
  | zero => exact .fail _ _
  | succ n ih =>
    have ih' : ∀ (st : CmpState I) (res : Incl) (l : List S) (r : List T),
      AtMost (compareLoop o g k co n st res l r) (n + 1) (12 * n) := fun st res l r => (ih st res l r).mono (by omega) le_rfl
    unfold compareLoop
    refine AtMost.tick (s := n + 1) (t := 12 * n) ?_ (by simp) (by simp; omega) ⟨rfl, rfl, rfl⟩
    cases st with
    | both =>
      cases l with
      | nil => cases r <;> exact .done _ _ _
      | cons s l => cases r with
        | nil => exact .done _ _ _
        | cons t r =>
          refine .ite (.ite (.done _ _ _) (.ite (.fail _ _) (AtMost.tick (s := n) (t := 12 * n) ?_ (by simp; omega) (by simp)
            ⟨rfl, rfl, rfl⟩))) (.ite (.ite (.done _ _ _) (.ite (.fail _ _) (AtMost.tick (s := n) (t := 12 * n) ?_ (by simp; omega)
            (by simp) ⟨rfl, rfl, rfl⟩))) ?_)
          · split
            · exact .done _ _ _
            · exact ih _ _ _ _
          · split
            · exact .done _ _ _
            · exact ih _ _ _ _
          · repeat' first
              | exact .done _ _ _
              | exact ih' _ _ _ _
              | apply AtMost.ite
    | left p =>
      cases l with
      | nil => exact .done _ _ _
      | cons s l => cases r with
        | nil => exact .fail _ _
        | cons t r =>
          refine .ite (.fail _ _) ?_
          cases o.touchesC p (g.key s) with
          | none => exact .fail _ _
          | some b =>
            repeat' first
              | exact .done _ _ _
              | exact ih' _ _ _ _
              | apply AtMost.ite
    | right p =>
      cases r with
      | nil => cases l <;> exact .done _ _ _
      | cons t r => cases l with
        | nil => exact .fail _ _
        | cons s l =>
          refine .ite (.fail _ _) ?_
          cases o.touchesC p (k.key t) with
          | none => exact .fail _ _
          | some b =>
            repeat' first
              | exact .done _ _ _
              | exact ih' _ _ _ _
              | apply AtMost.ite

theorem compare_answers (h : o.Lawful) (co : CoCompare V W) {l : List S} {r : List T} (hl : WF o g l) (hr : WF o k r) :
    let n := l.length + r.length + 1
    Spec.Answers (inclusionCompare o g k co l r) (ICL.inclusionCompare o g k co l r) n (12 * n) ∧
    Spec.Answers (containsC o g k co l r) (ICL.containsC o g k co l r) n (12 * n) ∧
    Spec.Answers (withinC o g k co l r) (ICL.withinC o g k co l r) n (12 * n) ∧
    Spec.Answers (isElementEqual o g k co l r) (ICL.isElementEqual o g k co l r) n (12 * n) := by
  intro n
  obtain ⟨c, e, -⟩ := inclusionCompare_spec h co hl hr
  have hv : (inclusionCompare o g k co l r).value = some c := (value_compareLoop _ _ _ _ _ _).trans e
  have hm : AtMost (inclusionCompare o g k co l r) n (12 * n) := atMost_compareLoop _ _ _ _ _ _
  refine ⟨answers (hv.trans e.symm) ⟨c, e⟩ hm, ?_, ?_, ?_⟩
  all_goals
    refine answers ?_ ⟨_, by simp only [ICL.containsC, ICL.withinC, ICL.isElementEqual, e]; rfl⟩
      (hm.andThen (fun a _ => .done _ 0 0) le_rfl le_rfl)
    first | unfold containsC | unfold withinC | unfold isElementEqual
    rw [value_andThen, hv]
    simp only [ICL.containsC, ICL.withinC, ICL.isElementEqual, e]
    rfl

omit [LinearOrder D] in
/-- A run that is joinable throughout has been looked at throughout. -/
theorem allTouch_steps (l : List S) (w : Work) (h : allTouch o g l = some (true, w)) : w.steps = 4 * (l.length - 1) := by
  induction l using pairInd generalizing w with
  | case1 => cases h; rfl
  | case2 s => cases h; rfl
  | case3 s t l ih =>
    unfold allTouch at h
    cases ht : o.touchesC (g.key s) (g.key t) with
    | none => rw [ht] at h; cases h
    | some b =>
      rw [ht] at h
      cases b with
      | false => cases h
      | true =>
        cases hq : allTouch o g (t :: l) with
        | none => simp [tick, hq] at h
        | some r =>
          obtain ⟨b, w'⟩ := r
          simp only [tick, hq, Option.map_some] at h
          cases h
          have := ih w' hq
          show 4 + w'.steps = _
          simp only [List.length_cons] at this ⊢
          omega

omit [LinearOrder D] in
theorem tick_some {α : Type} {q : Counted α} {w w' : Work} {a : α} (h : tick w q = some (a, w')) :
    ∃ w'', q = some (a, w'') ∧ w' = w + w'' := by
  cases q with
  | none => cases h
  | some r =>
    obtain ⟨b, u⟩ := r
    cases h
    exact ⟨u, rfl, rfl⟩

theorem andThen_some {α β : Type} {q : Counted α} {f : α → Counted β} {w : Work} {b : β} (h : andThen q f = some (b, w)) :
    ∃ a u v, q = some (a, u) ∧ f a = some (b, v) ∧ w = u + v := by
  cases q with
  | none => cases h
  | some r =>
    obtain ⟨a, u⟩ := r
    cases hf : f a with
    | none => simp [andThen, hf] at h
    | some v =>
      obtain ⟨b', v⟩ := v
      simp only [andThen, Option.bind_some, hf, Option.map_some] at h
      cases h
      exact ⟨a, u, v, rfl, hf, rfl⟩

end
end Counted
end ICL
