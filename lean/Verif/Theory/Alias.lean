import Verif.Model.Alias
import Verif.Theory.MapFlip
import Verif.Theory.SetFlip

/-!
# Lemmas on operations of a container with itself
-/

set_option linter.unusedSectionVars false
set_option linter.unusedVariables false

namespace ICL

section
variable {D I V S : Type} [LinearOrder D] {o : IntervalOps D I} {g : SegOps I V S}

theorem forSelf_map (φ : S → S) (body : Zip S → Outcome (Zip S)) (post : List S) (s : S) (pre : List S) {n : Nat}
    (hn : post.length < n)
    (hb : ∀ a t c, pre ++ s :: post = a ++ t :: c →
      body ⟨(a.map φ).reverse, t, c⟩ = .ok ⟨(a.map φ).reverse, φ t, c⟩) :
    forSelf body n ⟨(pre.map φ).reverse, s, post⟩ = .ok ((pre ++ s :: post).map φ) := by
  induction post generalizing s pre n with
  | nil =>
    obtain ⟨n, rfl⟩ : ∃ m, n = m + 1 := ⟨n - 1, by simp at hn; omega⟩
    unfold forSelf
    rw [hb pre s [] rfl]
    simp [Zip.toList, bind, Except.bind]
  | cons q post ih =>
    obtain ⟨n, rfl⟩ : ∃ m, n = m + 1 := ⟨n - 1, by simp at hn; omega⟩
    unfold forSelf
    rw [hb pre s (q :: post) rfl]
    simp only [bind, Except.bind]
    have := ih q (pre ++ [s]) (n := n) (by simp at hn; omega) (fun a t c e => hb a t c (by rw [← e]; simp))
    simpa using this

/-- A loop whose rounds change no node but the own one. -/
theorem loopSelf_map (φ : S → S) (body : Zip S → Outcome (Zip S)) (l : List S)
    (hb : ∀ a t c, l = a ++ t :: c → body ⟨(a.map φ).reverse, t, c⟩ = .ok ⟨(a.map φ).reverse, φ t, c⟩) :
    loopSelf body l = .ok (l.map φ) := by
  cases l with
  | nil => rfl
  | cons s r => exact forSelf_map φ body r s [] (by simp) hb

/-- A loop whose rounds erase the nodes one by one. -/
theorem whileSelf_erase [DecidableEq S] (f : List S → S → Option (List S)) (com : List S)
    (hf : ∀ a s r, com = a ++ s :: r → f (s :: r) s = some r) : whileSelf f [] com com = .ok [] := by
  induction com with
  | nil => rfl
  | cons s com ih =>
    unfold whileSelf
    rw [hf [] s com rfl]
    simp only [orFail, bind, Except.bind, List.append_nil]
    rw [if_pos (List.isSuffixOf_iff_suffix.2 (List.suffix_refl _))]
    exact ih fun a t r e => hf (s :: a) t r (by rw [e]; rfl)

variable (h : o.Lawful)
include h

/-- The search for a key that has the elements of a node. -/
theorem equalRange_own {a c : List S} {s : S} {k : I} (hw : WF o g (a ++ s :: c))
    (hk : ∀ x, o.Mem x k ↔ o.Mem x (g.key s)) : equalRange o g (a ++ s :: c) k = some (a, [s], c) := by
  have hs : o.Nonempty (g.key s) := hw.nonempty s (by simp)
  have hn : o.Nonempty k := by obtain ⟨x, hx⟩ := hs; exact ⟨x, (hk x).2 hx⟩
  have h1 : ∀ p ∈ a, o.neLess (g.key p) k = true := fun p hp => by
    rw [h.neLess_iff _ _ (hw.nonempty p (by simp [hp])) hn]
    intro x y hx hy
    exact (wf_append.1 hw).2.2 x y ⟨p, hp, hx⟩ ⟨s, by simp, (hk y).1 hy⟩
  have h2 : o.neLess (g.key s) k = false := by
    rw [Bool.eq_false_iff]
    intro hc
    rw [h.neLess_iff _ _ hs hn] at hc
    obtain ⟨x, hx⟩ := hs
    exact lt_irrefl _ (hc x x hx ((hk x).2 hx))
  have h3 : o.neLess k (g.key s) = false := by
    rw [Bool.eq_false_iff]
    intro hc
    rw [h.neLess_iff _ _ hn hs] at hc
    obtain ⟨x, hx⟩ := hs
    exact lt_irrefl _ (hc x x ((hk x).2 hx) hx)
  have h4 : ∀ p ∈ c, o.neLess k (g.key p) = true := fun p hp => by
    rw [h.neLess_iff _ _ hn (hw.nonempty p (by simp [hp]))]
    intro x y hx hy
    exact (wf_cons.1 (wf_append.1 hw).2.1).2.2 x y ((hk x).1 hx) ⟨p, hp, hy⟩
  unfold equalRange
  rw [if_pos (cmpOk_of h hw.nonempty hn)]
  have e1 : (a ++ s :: c).dropWhile (fun s => o.neLess (g.key s) k) = s :: c := by
    rw [List.dropWhile_append_of_pos h1]; simp [h2]
  have e2 : (a ++ s :: c).takeWhile (fun s => o.neLess (g.key s) k) = a := by
    rw [List.takeWhile_append_of_pos h1]; simp [h2]
  have e3 : c.takeWhile (fun s => !o.neLess k (g.key s)) = [] := by
    cases c with
    | nil => rfl
    | cons q c => simp [h4 q (by simp)]
  have e4 : c.dropWhile (fun s => !o.neLess k (g.key s)) = c := by
    cases c with
    | nil => rfl
    | cons q c => simp [h4 q (by simp)]
  simp only [e1, e2]
  simp [h3, e3, e4]

theorem findSelf_ok {a c : List S} {s : S} (hw : WF o g (a ++ s :: c)) :
    findSelf o g ⟨a.reverse, s, c⟩ = .ok () := by
  unfold findSelf
  simp only [Zip.toList, List.reverse_reverse]
  rw [equalRange_own h hw fun _ => Iff.rfl]

/-- Joining does nothing. -/
theorem joinSelf_ok [DecidableEq V] {a c : List S} {s : S} (hw : WF o g (a ++ s :: c))
    (hl : ∀ a' p, a = a' ++ [p] → joinable o g p s = false)
    (hr : ∀ q c', c = q :: c' → joinable o g s q = false) :
    joinSelf o g ⟨a.reverse, s, c⟩ = .ok ⟨a.reverse, s, c⟩ := by
  have e1 : joinLeftSelf o g ⟨a.reverse, s, c⟩ = .ok ⟨a.reverse, s, c⟩ := by
    unfold joinLeftSelf
    rcases List.eq_nil_or_concat a with rfl | ⟨a', p, rfl⟩
    · rfl
    · simp only [List.concat_eq_append, List.reverse_append, List.reverse_cons, List.reverse_nil, List.nil_append,
        List.cons_append]
      have hw' := wf_append.1 hw
      rw [joinableC_before h (hw.nonempty p (by simp)) (hw.nonempty s (by simp))
        (fun x y hx hy => hw'.2.2 x y ⟨p, by simp, hx⟩ ⟨s, by simp, hy⟩), hl a' p (by simp)]
  have e2 : joinRight o g ⟨a.reverse, s, c⟩ = some ⟨a.reverse, s, c⟩ := by
    unfold joinRight
    cases c with
    | nil => rfl
    | cons q c =>
      have hw' := wf_cons.1 (wf_append.1 hw).2.1
      simp only []
      rw [joinableC_before h (hw.nonempty s (by simp)) (hw.nonempty q (by simp))
        (fun x y hx hy => hw'.2.2 x y hx ⟨q, by simp, hy⟩), hr q c rfl]
  unfold joinSelf
  rw [e1]
  simp [bind, Except.bind, e2, orFail]

/-- The common range of a container with itself is the container. -/
theorem commonRange_self {l : List S} (hl : WF o g l) (hne : l ≠ []) {x2 : List I} (e : x2 = l.map g.key) :
    commonRange o g l x2 = some (some ([], l, [])) := by
  have hw : WF o setSeg x2 := by
    subst e
    refine ⟨fun s hs => ?_, ?_⟩
    · obtain ⟨t, ht, rfl⟩ := List.mem_map.1 hs
      exact hl.nonempty t ht
    · rw [List.pairwise_map]; exact hl.sorted
  have hd : ∀ x, Dom o setSeg x2 x ↔ Dom o g l x := by
    subst e; intro x; simp [Dom]
  obtain ⟨r, e1, h1, h2⟩ := commonRange_spec h hl hw
  rw [e1]
  cases r with
  | none =>
    exfalso
    cases l with
    | nil => exact hne rfl
    | cons s l =>
      obtain ⟨x, hx⟩ := hl.nonempty s (by simp)
      exact h1 rfl x ⟨s, by simp, hx⟩ ((hd x).2 ⟨s, by simp, hx⟩)
  | some r =>
    obtain ⟨p, c, q⟩ := r
    obtain ⟨e2, h3, h4⟩ := h2 p c q rfl
    have hp : p = [] := by
      cases p with
      | nil => rfl
      | cons s p =>
        obtain ⟨x, hx⟩ := hl.nonempty s (by simp [e2])
        exact absurd (h3 x x ⟨s, by simp, hx⟩ ((hd x).2 ⟨s, by simp [e2], hx⟩)) (lt_irrefl _)
    have hq : q = [] := by
      cases q with
      | nil => rfl
      | cons s q =>
        obtain ⟨x, hx⟩ := hl.nonempty s (by simp [e2])
        exact absurd (h4 x x ((hd x).2 ⟨s, by simp [e2], hx⟩) ⟨s, by simp, hx⟩) (lt_irrefl _)
    subst hp hq
    simp [e2]

theorem leftSubtract_same {i j : I} (hj : ∀ x, o.Mem x j ↔ o.Mem x i) : o.isEmpty (o.leftSubtract i j) = true := by
  rw [h.isEmpty_iff]
  intro x hx
  have := (h.mem_leftSubtract i j x).1 hx
  exact lt_irrefl _ (this.2 x ((hj x).2 this.1))

theorem rightSubtract_same {i j : I} (hj : ∀ x, o.Mem x j ↔ o.Mem x i) : o.isEmpty (o.rightSubtract i j) = true := by
  rw [h.isEmpty_iff]
  intro x hx
  have := (h.mem_rightSubtract i j x).1 hx
  exact lt_irrefl _ (this.2 x ((hj x).2 this.1))

theorem inter_same (i : I) (x : D) : o.Mem x (o.inter i i) ↔ o.Mem x i := by
  rw [h.mem_inter]; exact and_self_iff

end

section sets
variable {D I : Type} [LinearOrder D] {o : IntervalOps D I} (h : o.Lawful)
include h

theorem ISet.addSelf_ok (st : Style) {l : List I} (hl : WF o setSeg l) (hj : st = .joining → Joined o setSeg l) :
    ISet.addSelf o st l = .ok l := by
  have := loopSelf_map id (ISet.addNode o st) l (fun a s c e => ?_)
  · rw [List.map_id] at this; exact this
  · subst e
    simp only [List.map_id, id]
    have hn : o.Nonempty s := hl.nonempty s (by simp)
    unfold ISet.addNode
    rw [if_neg (by simp [isEmpty_false h hn]), findSelf_ok h hl]
    simp only [bind, Except.bind]
    rw [if_pos ((h.eq_iff _ _ hn hn).2 fun _ => Iff.rfl)]
    cases st with
    | separating => rfl
    | splitting => rfl
    | joining =>
      have hj := hj rfl
      have hw := wf_append.1 hl
      refine joinSelf_ok h hl (fun a' p e => ?_) fun q c' e => ?_
      · subst e
        exact hj p (by simp) s (by simp) fun x y hx hy => hw.2.2 x y ⟨p, by simp, hx⟩ ⟨s, by simp, hy⟩
      · subst e
        exact hj s (by simp) q (by simp)
          fun x y hx hy => (wf_cons.1 hw.2.1).2.2 x y hx ⟨q, by simp, hy⟩

theorem ISet.subtract_own {s k : I} {r : List I} (hw : WF o setSeg (s :: r)) (hk : ∀ x, o.Mem x k ↔ o.Mem x s) :
    ISet.subtract o (s :: r) k = some r := by
  have hs : o.Nonempty s := hw.nonempty s (by simp)
  have hn : o.Nonempty k := by obtain ⟨x, hx⟩ := hs; exact ⟨x, (hk x).2 hx⟩
  unfold ISet.subtract
  have e := equalRange_own h (a := []) (k := k) hw hk
  simp only [List.nil_append] at e
  rw [if_neg (by simp [isEmpty_false h hn]), e]
  simp only [Option.bind_eq_bind, Option.bind_some, List.nil_append, List.getLastD_nil]
  have e1 := rightSubtract_same h (i := s) (j := k) hk
  have e2 := leftSubtract_same h (i := s) (j := k) hk
  simp [ISet.insertResid, e1, e2]

variable [DecidableEq I]

theorem ISet.subSelf_ok {l : List I} (hl : WF o setSeg l) : ISet.subSelf o l = .ok [] := by
  unfold ISet.subSelf
  cases l with
  | nil => rfl
  | cons s r =>
    rw [commonRange_self h hl (by simp) (by simp [setSeg])]
    simp only [orFail, bind, Except.bind]
    exact whileSelf_erase _ _ fun a t r' e =>
      ISet.subtract_own h (by rw [e] at hl; exact (wf_append.1 hl).2.1) fun _ => Iff.rfl

theorem ISet.flipSeg_own (st : Style) {s : I} {r : List I} (hw : WF o setSeg (s :: r)) :
    ISet.flipSeg o st (s :: r) s = some r := by
  unfold ISet.flipSeg
  have e := equalRange_own h (a := []) (k := s) hw fun _ => Iff.rfl
  simp only [List.nil_append] at e
  rw [e]
  have e1 := rightSubtract_same h (i := s) (j := s) fun _ => Iff.rfl
  have e2 := leftSubtract_same h (i := s) (j := s) fun _ => Iff.rfl
  simp only [Option.bind_eq_bind, Option.bind_some, ISet.flipLoop]
  rw [ISet.subtract_own h hw (inter_same h s)]
  simp [ISet.add, e1, e2]

theorem ISet.flipSelf_ok (st : Style) {l : List I} (hl : WF o setSeg l) : ISet.flipSelf o st l = .ok [] := by
  unfold ISet.flipSelf
  cases l with
  | nil => rfl
  | cons s r =>
    rw [commonRange_self h hl (by simp) (by simp [setSeg])]
    simp only [orFail, bind, Except.bind]
    exact whileSelf_erase _ _ fun a t r' e =>
      ISet.flipSeg_own h st (by rw [e] at hl; exact (wf_append.1 hl).2.1)

end sets

namespace IMap
variable {D I V : Type} [LinearOrder D] {o : IntervalOps D I} [DecidableEq V] (h : o.Lawful)
include h

theorem wf_mapVal {l : List (I × V)} (φ : V → V) (hl : WF o mapSeg l) :
    WF o mapSeg (l.map fun s => (s.1, φ s.2)) := wf_map h (f := φ) hl

/-- What the joins of a combination of each segment with itself must not meet. -/
def Apart (o : IntervalOps D I) (φ : V → V) (l : List (I × V)) : Prop :=
  ∀ a p s c, l = a ++ p :: s :: c → o.touches p.1 s.1 = true → φ p.2 ≠ s.2 ∧ φ p.2 ≠ φ s.2

theorem combineNode_ok {t : MapCfg V} {f : Combiner V} {l a c : List (I × V)} {s : I × V}
    (hl : WF o mapSeg l) (e : l = a ++ s :: c)
    (hs : absorbable t (f.apply s.2 s.2) = false)
    (hj : t.joining = true → Apart o (fun v => f.apply v v) l) :
    combineNode o t f ⟨(a.map fun s => (s.1, f.apply s.2 s.2)).reverse, s, c⟩ =
      .ok ⟨(a.map fun s => (s.1, f.apply s.2 s.2)).reverse, (s.1, f.apply s.2 s.2), c⟩ := by
  unfold combineNode
  dsimp only [combine]
  simp only [hs, Bool.false_eq_true, if_false]
  cases ht : t.joining with
  | false => rfl
  | true =>
    have hj := hj ht
    have hw : WF o mapSeg (a.map (fun s => (s.1, f.apply s.2 s.2)) ++ (s.1, f.apply s.2 s.2) :: c) := by
      rw [e] at hl
      have h1 := wf_append.1 hl
      have h2 := wf_cons.1 h1.2.1
      refine wf_append.2 ⟨wf_mapVal h (fun v => f.apply v v) h1.1, wf_cons.2 ⟨h2.1, h2.2.1, h2.2.2⟩, ?_⟩
      rintro x y ⟨p, hp, hx⟩ hy
      obtain ⟨q, hq, rfl⟩ := List.mem_map.1 hp
      refine h1.2.2 x y ⟨q, hq, hx⟩ ?_
      simpa using hy
    rw [if_pos rfl]
    refine joinSelf_ok h hw (fun a' p ea => ?_) fun q c' ec => ?_
    · rcases List.eq_nil_or_concat a with rfl | ⟨b, r, rfl⟩
      · simp at ea
      · simp only [List.concat_eq_append, List.map_append, List.map_cons, List.map_nil] at ea
        have := List.append_inj_right' ea rfl
        simp only [List.cons.injEq, and_true] at this
        subst this
        unfold joinable
        cases htc : o.touches r.1 s.1 with
        | false => simp [htc]
        | true =>
          have := (hj b r s c (by rw [e]; simp) htc).2
          simp [this]
    · subst ec
      unfold joinable
      cases htc : o.touches s.1 q.1 with
      | false => simp [htc]
      | true =>
        have := (hj a s q c' e htc).1
        simp [this]

theorem wf_done {φ : V → V} {l a c : List (I × V)} {s : I × V} (hl : WF o mapSeg l) (e : l = a ++ s :: c) :
    WF o mapSeg (a.map (fun s => (s.1, φ s.2)) ++ s :: c) := by
  rw [e] at hl
  have h1 := wf_append.1 hl
  refine wf_append.2 ⟨wf_mapVal h φ h1.1, h1.2.1, ?_⟩
  rintro x y ⟨p, hp, hx⟩ hy
  obtain ⟨q, hq, rfl⟩ := List.mem_map.1 hp
  exact h1.2.2 x y ⟨q, hq, hx⟩ hy

theorem addNode_ok {t : MapCfg V} {f : Combiner V} {l a c : List (I × V)} {s : I × V}
    (hl : WF o mapSeg l) (e : l = a ++ s :: c) (hi : absorbable t s.2 = false)
    (hs : absorbable t (f.apply s.2 s.2) = false)
    (hj : t.joining = true → Apart o (fun v => f.apply v v) l) :
    addNode o t f ⟨(a.map fun s => (s.1, f.apply s.2 s.2)).reverse, s, c⟩ =
      .ok ⟨(a.map fun s => (s.1, f.apply s.2 s.2)).reverse, (s.1, f.apply s.2 s.2), c⟩ := by
  have hk := combineNode_ok h hl e hs hj
  have hn : o.Nonempty s.1 := hl.nonempty s (by simp [e])
  unfold addNode
  simp only []
  rw [if_neg (by simp [isEmpty_false h hn]), if_neg (by simp [hi]),
    findSelf_ok h (wf_done h (φ := fun v => f.apply v v) hl e)]
  simp only [bind, Except.bind]
  rw [hk]
  split_ifs with h1 h2
  · unfold combineNode at hk
    simp only [combine, hs, h2, if_true, if_false, Bool.false_eq_true] at hk
    exact hk
  · rfl
  · rfl

theorem subNode_ok {t : MapCfg V} {f : Combiner V} {l a c : List (I × V)} {s : I × V}
    (hl : WF o mapSeg l) (e : l = a ++ s :: c) (hi : absorbable t s.2 = false)
    (hs : absorbable t (f.apply s.2 s.2) = false)
    (hj : t.joining = true → Apart o (fun v => f.apply v v) l) :
    subNode o t f ⟨(a.map fun s => (s.1, f.apply s.2 s.2)).reverse, s, c⟩ =
      .ok ⟨(a.map fun s => (s.1, f.apply s.2 s.2)).reverse, (s.1, f.apply s.2 s.2), c⟩ := by
  have hn : o.Nonempty s.1 := hl.nonempty s (by simp [e])
  unfold subNode
  simp only []
  rw [if_neg (by simp [isEmpty_false h hn]), if_neg (by simp [hi]),
    findSelf_ok h (wf_done h (φ := fun v => f.apply v v) hl e)]
  exact combineNode_ok h hl e hs hj

theorem addSelf_ok {t : MapType V} {l : List (I × V)} (hl : WF o mapSeg l)
    (hi : ∀ s ∈ l, absorbable t.cfg s.2 = false) (hs : ∀ s ∈ l, absorbable t.cfg (t.plus.apply s.2 s.2) = false)
    (hj : t.cfg.joining = true → Apart o (fun v => t.plus.apply v v) l) :
    addSelf o t l = .ok (l.map fun s => (s.1, t.plus.apply s.2 s.2)) :=
  loopSelf_map _ _ l fun a s c e =>
    addNode_ok h hl e (hi s (by simp [e])) (hs s (by simp [e])) hj

theorem subSelf_ok {t : MapType V} {l : List (I × V)} (hl : WF o mapSeg l)
    (hi : ∀ s ∈ l, absorbable t.cfg s.2 = false) (hs : ∀ s ∈ l, absorbable t.cfg (t.minus.apply s.2 s.2) = false)
    (hj : t.cfg.joining = true → Apart o (fun v => t.minus.apply v v) l) :
    subSelf o t l = .ok (l.map fun s => (s.1, t.minus.apply s.2 s.2)) :=
  loopSelf_map _ _ l fun a s c e =>
    subNode_ok h hl e (hi s (by simp [e])) (hs s (by simp [e])) hj

theorem subSelf_dangling {t : MapType V} {s : I × V} {r : List (I × V)} (hl : WF o mapSeg (s :: r))
    (hi : absorbable t.cfg s.2 = false) (hs : absorbable t.cfg (t.minus.apply s.2 s.2) = true) :
    subSelf o t (s :: r) = .error .dangling := by
  have hn : o.Nonempty s.1 := hl.nonempty s (by simp)
  have hf := findSelf_ok h (g := mapSeg) (a := []) hl
  simp only [List.reverse_nil] at hf
  simp only [subSelf, loopSelf, forSelf, subNode, combineNode, combine]
  rw [if_neg (by simp [isEmpty_false h hn]), if_neg (by simp [hi]), hf]
  simp only [bind, Except.bind, hs, if_true]

theorem insertSelf_ok {t : MapType V} {l : List (I × V)} (hl : WF o mapSeg l)
    (hj : t.cfg.joining = true → Joined o mapSeg l) : insertSelf o t l = .ok l := by
  have := loopSelf_map id (insertNode o t.cfg) l (fun a s c e => ?_)
  · rw [List.map_id] at this; exact this
  · subst e
    simp only [List.map_id, id]
    have hn : o.Nonempty s.1 := hl.nonempty s (by simp)
    unfold insertNode
    simp only []
    rw [if_neg (by simp [isEmpty_false h hn])]
    by_cases ha : absorbable t.cfg s.2 = true
    · rw [if_pos ha]
    rw [if_neg ha, findSelf_ok h hl]
    simp only [bind, Except.bind]
    rw [if_pos ((h.eq_iff _ _ hn hn).2 fun _ => Iff.rfl)]
    cases hjo : t.cfg.joining with
    | false => rfl
    | true =>
      have hj := hj hjo
      have hw := wf_append.1 hl
      rw [if_pos rfl]
      refine joinSelf_ok h hl (fun a' p e => ?_) fun q c' e => ?_
      · subst e
        exact hj p (by simp) s (by simp) fun x y hx hy => hw.2.2 x y ⟨p, by simp, hx⟩ ⟨s, by simp, hy⟩
      · subst e
        exact hj s (by simp) q (by simp)
          fun x y hx hy => (wf_cons.1 hw.2.1).2.2 x y hx ⟨q, by simp, hy⟩

theorem eraseSeg_own {c : MapCfg V} {s : I × V} {r : List (I × V)} (hw : WF o mapSeg (s :: r))
    (hi : absorbable c s.2 = false) : eraseSeg o c (s :: r) s.1 s.2 = some r := by
  have hs : o.Nonempty s.1 := hw.nonempty s (by simp)
  have e := equalRange_own h (a := []) (k := s.1) hw fun _ => Iff.rfl
  simp only [List.nil_append] at e
  unfold eraseSeg
  rw [if_neg (by simp [isEmpty_false h hs]), if_neg (by simp [hi]), e]
  have e1 := rightSubtract_same h (i := s.1) (j := s.1) fun _ => Iff.rfl
  have e2 := leftSubtract_same h (i := s.1) (j := s.1) fun _ => Iff.rfl
  simp [e1, e2]

theorem eraseItv_own {s : I × V} {a r : List (I × V)} {k : I} (hw : WF o mapSeg (a ++ s :: r))
    (hk : ∀ x, o.Mem x k ↔ o.Mem x s.1) : eraseItv o (a ++ s :: r) k = some (a ++ r) := by
  have hs : o.Nonempty s.1 := hw.nonempty s (by simp)
  have hn : o.Nonempty k := by obtain ⟨x, hx⟩ := hs; exact ⟨x, (hk x).2 hx⟩
  have e := equalRange_own h (k := k) hw hk
  unfold eraseItv
  rw [if_neg (by simp [isEmpty_false h hn]), e]
  have e1 := rightSubtract_same h (i := s.1) (j := k) hk
  have e2 := leftSubtract_same h (i := s.1) (j := k) hk
  simp [e1, e2]

variable [DecidableEq I]

theorem eraseSelf_ok {t : MapType V} {l : List (I × V)} (hl : WF o mapSeg l)
    (hi : ∀ s ∈ l, absorbable t.cfg s.2 = false) : eraseSelf o t l = .ok [] := by
  unfold eraseSelf
  cases l with
  | nil => rfl
  | cons s r =>
    rw [commonRange_self h hl (by simp) (x2 := List.map Prod.fst (s :: r)) rfl]
    simp only [orFail, bind, Except.bind]
    exact whileSelf_erase _ _ fun a t r' e =>
      eraseSeg_own h (by rw [e] at hl; exact (wf_append.1 hl).2.1) (hi t (by simp [e]))

theorem flipSeg_own {t : MapType V} (ht : t.cfg.total = false) (oracle : List (I × V) → I → Nat) {s : I × V}
    {r : List (I × V)} (hw : WF o mapSeg (s :: r)) (hf : absorbable t.cfg (flipValue t s.2 s.2) = true) :
    flipSeg o t oracle (s :: r) s.1 s.2 = some r := by
  have hs : o.Nonempty s.1 := hw.nonempty s (by simp)
  have e := equalRange_own h (a := []) (k := s.1) hw fun _ => Iff.rfl
  simp only [List.nil_append] at e
  have e1 := rightSubtract_same h (i := s.1) (j := s.1) fun _ => Iff.rfl
  have e2 := leftSubtract_same h (i := s.1) (j := s.1) fun _ => Iff.rfl
  have hin := inter_same h s.1
  have hne : o.Nonempty (o.inter s.1 s.1) := by obtain ⟨x, hx⟩ := hs; exact ⟨x, (hin x).2 hx⟩
  have ie := isEmpty_false h hne
  unfold flipSeg
  simp only [ht, Bool.false_eq_true, if_false, e, Option.bind_eq_bind, Option.bind_some, flipLoop, flipCommon, ie]
  have ha : ISet.add o .joining [] (o.inter s.1 s.1) = some [o.inter s.1 s.1] := by
    simp [ISet.add, ISet.handleInserted, ie, equalRange, cmpOk, joinNeighbours, joinLeft, joinRight, Zip.toList]
  have hadd : ∀ m : List (I × V), ∀ k v, o.isEmpty k = true → addSeg o t m k v = some m := by
    intro m k v hk; simp [addSeg, addC, hk]
  have hx : addC o t.cfg t.plus [] (o.inter s.1 s.1) (flipValue t s.2 s.2) = some [] := by
    simp [addC, ie, hf]
  rw [ha]
  simp only [Option.bind_some, hx, Option.pure_def, hadd _ _ _ e1, List.nil_append]
  have hsuf : r.isSuffixOf (s :: r) = true := List.isSuffixOf_iff_suffix.2 (List.suffix_cons _ _)
  simp only [hsuf, if_true, Option.bind_some, hadd _ _ _ e2]
  have he : eraseSet o (s :: r) [o.inter s.1 s.1] = some r := by
    have hwk : WF o setSeg [o.inter s.1 s.1] := ⟨by simpa using hne, by simp⟩
    obtain ⟨res, e3, h1, h2⟩ := commonRange_spec h hwk (wf_fst.2 hw)
    unfold eraseSet
    rw [e3]
    simp only [Option.bind_eq_bind, Option.bind_some]
    have hd : ∀ x, o.Mem x s.1 → Dom o setSeg ((s :: r).map Prod.fst) x := fun x hx => ⟨s.1, by simp, hx⟩
    obtain ⟨x, hxs⟩ := hs
    cases res with
    | none => exact absurd (hd x hxs) (h1 rfl x ⟨_, List.mem_singleton.2 rfl, (hin x).2 hxs⟩)
    | some res =>
      obtain ⟨p, c, q⟩ := res
      obtain ⟨e4, h3, h4⟩ := h2 p c q rfl
      have hc : c = [o.inter s.1 s.1] := by
        have hp : p = [] := by
          cases p with
          | nil => rfl
          | cons a p =>
            have : a = o.inter s.1 s.1 := by simp at e4; exact e4.1.symm
            subst this
            exact absurd (h3 x x ⟨_, by simp, (hin x).2 hxs⟩ (hd x hxs)) (lt_irrefl _)
        have hq : q = [] := by
          cases q with
          | nil => rfl
          | cons a q =>
            have : a ∈ [o.inter s.1 s.1] := by rw [e4]; simp
            have := List.mem_singleton.1 this
            subst this
            exact absurd (h4 x x (hd x hxs) ⟨_, by simp, (hin x).2 hxs⟩) (lt_irrefl _)
        subst hp hq
        simpa using e4.symm
      subst hc
      have := eraseItv_own h (a := []) hw hin
      simp only [List.nil_append] at this
      simp [forEach, this]
  rw [he]
  simp [addMap, forEach]

theorem flipSelf_ok {t : MapType V} (ht : t.cfg.total = false) (oracle : List (I × V) → I → Nat) {l : List (I × V)}
    (hl : WF o mapSeg l) (hf : ∀ s ∈ l, absorbable t.cfg (flipValue t s.2 s.2) = true) :
    flipSelf o t oracle l = .ok [] := by
  unfold flipSelf
  simp only [ht, Bool.false_eq_true, if_false]
  cases l with
  | nil => rfl
  | cons s r =>
    rw [commonRange_self h hl (by simp) (x2 := List.map Prod.fst (s :: r)) rfl]
    simp only [orFail, bind, Except.bind]
    exact whileSelf_erase _ _ fun a t' r' e =>
      flipSeg_own h ht oracle (by rw [e] at hl; exact (wf_append.1 hl).2.1) (hf t' (by simp [e]))

theorem setNode_dangling {t : MapType V} {z : Zip (I × V)} (hl : WF o mapSeg z.toList) :
    setNode o t z = .error .dangling := by
  obtain ⟨a, s, c⟩ := z
  unfold setNode
  simp only [Zip.toList] at hl ⊢
  rw [eraseItv_own h hl fun _ => Iff.rfl]
  simp only [orFail, bind, Except.bind]
  rw [if_neg]
  intro hm
  obtain ⟨x, hx⟩ := hl.nonempty s (by simp)
  have hw := wf_append.1 hl
  rcases List.mem_append.1 hm with hm | hm
  · exact lt_irrefl _ (hw.2.2 x x ⟨s, hm, hx⟩ ⟨s, by simp, hx⟩)
  · exact lt_irrefl _ ((wf_cons.1 hw.2.1).2.2 x x hx ⟨s, hm, hx⟩)

end IMap
end ICL
