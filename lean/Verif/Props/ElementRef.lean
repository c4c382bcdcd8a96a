import Verif.Theory.ElementRef
import Verif.Props.Observers
import Verif.Props.Examples
import Mathlib.Tactic.Tauto

/-!
# C50: element references

`os : Operands` ranges over what is compared: two references, a reference with a `std::pair`, and a `std::pair` with a
reference.
-/

set_option linter.unusedSectionVars false
set_option linter.unusedVariables false

namespace ICL.Props
open Spec ElemRef

section
variable {K V : Type}

/-- Comparing references with each other and with pairs, on either side, is comparing what they denote: keys first, then
values. -/
theorem C50_operators [LinearOrder K] [LinearOrder V] (os : Operands) (op : CmpOp) (a b : K × V) :
    apply (.ofOrder K) (.ofOrder V) os op a b = true ↔ CmpOp.Says op a b := by
  obtain ⟨a1, a2⟩ := a
  obtain ⟨b1, b2⟩ := b
  have k := lt_trichotomy a1 b1
  have v := lt_trichotomy a2 b2
  cases os <;> cases op <;>
    simp only [apply, refEq, refNe, refLt, refGt, refLe, refGe, pairEq, pairNe, pairLt, pairGt, pairLe, pairGe,
      Cmp.ofOrder, CmpOp.Says, Precedes, Bool.and_eq_true, Bool.or_eq_true, Bool.not_eq_true', decide_eq_true_eq,
      decide_eq_false_iff_not, Bool.or_eq_false_iff, Bool.and_eq_false_iff, Bool.not_eq_false', Prod.mk.injEq, ne_eq,
      not_lt] <;> rcases k with k | rfl | k <;> rcases v with v | rfl | v <;>
    simp_all [lt_asymm, ne_of_lt, ne_of_gt, le_of_lt, not_le_of_gt]

example : apply (.ofOrder ℤ) (.ofOrder ℤ) .pairRef .lt (1, 5) (1, 7) = true ∧
    apply (.ofOrder ℤ) (.ofOrder ℤ) .refPair .ge (1, 5) (1, 7) = false ∧ Precedes ((1, 5) : ℤ × ℤ) (1, 7) :=
  ⟨by decide, by decide, .inr ⟨rfl, by decide⟩⟩

/-- Without total orders: if `<` is a strict weak order for keys and for values, and `>` its converse, then `<` is a strict
weak order for references and pairs, the same one whatever is a reference and whatever is a pair; `>` is its converse, and
`<=` and `>=` are the negations of `>` and `<`. -/
theorem C50_weak_order {k : Cmp K} {v : Cmp V} (hk : StrictWeak k.lt) (hv : StrictWeak v.lt)
    (hkg : ∀ a b, k.gt a b = k.lt b a) (hvg : ∀ a b, v.gt a b = v.lt b a) :
    ∃ r : K × V → K × V → Bool, StrictWeak r ∧ ∀ os a b,
      apply k v os .lt a b = r a b ∧ apply k v os .gt a b = r b a ∧ apply k v os .le a b = !r b a ∧
      apply k v os .ge a b = !r a b := by
  have hg : ∀ a b, refGt k v a b = refLt k v b a := fun a b => by simp only [refGt, refLt, hkg, hvg]
  refine ⟨refLt k v, ⟨?_, ?_, ?_⟩, fun os a b => ?_⟩
  · intro a
    simp [refLt, hk.irrefl, hv.irrefl]
  · intro a b c h1 h2
    simp only [refLt, Bool.or_eq_true, Bool.and_eq_true, Bool.not_eq_true'] at h1 h2 ⊢
    have t1 := hk.trans a.1 b.1 c.1
    have t2 := hv.trans a.2 b.2 c.2
    have u1 := hk.cotrans a.1 c.1 b.1
    have u2 := hk.cotrans b.1 a.1 c.1
    have u3 := hk.cotrans c.1 b.1 a.1
    grind
  · intro a b c h1
    simp only [refLt, Bool.or_eq_true, Bool.and_eq_true, Bool.not_eq_true'] at h1 ⊢
    have t1 := hk.cotrans a.1 b.1 c.1
    have t2 := hv.cotrans a.2 b.2 c.2
    have u1 := hk.cotrans b.1 c.1 a.1
    have u2 := hk.cotrans c.1 a.1 b.1
    grind
  · cases os <;> simp [apply, refLe, refGe, pairLt, pairGt, pairLe, pairGe, hg]

/-- Complex numbers ordered by their real parts: a strict weak order that is not total. -/
example : StrictWeak fun a b : ℤ × ℤ => decide (a.1 < b.1) where
  irrefl a := by simp
  trans a b c h1 h2 := by simp only [decide_eq_true_eq] at *; omega
  cotrans a b c h := by simp only [decide_eq_true_eq] at *; omega

end

section
variable {I V : Type} [DecidableEq I] {o : IntervalOps ℤ I} {e : ElementOps ℤ I}

/-- A loop over the elements of a map meets references that are ordered by `<`, whatever the order of the values. -/
theorem C50_iteration_ascending (h : DiscreteClass o e) {m : List (I × V)} (hm : MapWellFormed o m) (v : Cmp V)
    (os : Operands) {xs : List (ℤ × V)}
    (hx : Forward (ElemIt.deref (ElemIt.fwd e mapSeg) m) (ElemIt.incr o e mapSeg m) (ElemIt.end_ m) ElemIt.begin xs) :
    xs.Pairwise fun a b => apply (.ofOrder ℤ) v os .lt a b = true ∧ apply (.ofOrder ℤ) v os .gt b a = true := by
  obtain ⟨ys, hy, hq, hf, hq2⟩ := C28_map h hm
  clear hq hq2
  have hxy : xs = ys := by
    clear hy
    generalize ElemIt.begin = it at hx hf
    induction hx generalizing ys with
    | done =>
      cases hf with
      | done => rfl
      | step hn => exact absurd rfl hn
    | step hn hd hi ht ih =>
      cases hf with
      | done => exact absurd rfl hn
      | step hn' hd' hi' ht' =>
        rw [hd] at hd'
        rw [hi] at hi'
        cases hd'
        cases hi'
        rw [ih _ ht']
  subst hxy
  rw [List.pairwise_map] at hy
  refine hy.imp fun {a b} hab => ?_
  have hn : ¬ b.1 < a.1 := by omega
  cases os <;> simp [apply, refLt, refGt, pairLt, pairGt, Cmp.ofOrder, hab, hn]

/-- Whatever a program did with its element iterators: the reference that one of them gives now denotes an element of the
map. -/
theorem C50_element (h : DiscreteClass o e) {m : List (I × V)} (hm : MapWellFormed o m) {d : Dir I V}
    (hd : d = .forward e m ∨ d = .reverse e m) {cs : List Cmd} {M M' : Mem} (hr : run o e d cs [] = some M) {i : Nat}
    {r : Ref V} (hi : ElemRef.deref d i M = some (r, M')) : ∃ x v, read M' r = some (x, v) ∧ Assoc o m x v := by
  have hw := (mapWellFormed_iff.1 hm).nonempty
  obtain ⟨c, x, hc, hx, _, _, hrd⟩ := deref_some hi
  refine ⟨x.1, x.2, hrd, ?_⟩
  rcases hd with rfl | rfl
  · exact deref_forward h (run_valid h hw valid_nil hr i c hc) hx
  · exact deref_reverse h (run_valid h (fun s hs => hw s (by simpa [Dir.reverse] using hs)) valid_nil hr i c hc) hx

/-- Partial: a reference goes on denoting the element at which it was obtained - under the condition that the iterator
that gave it lives, and has neither been dereferenced nor assigned to since. It may have been moved.

Missing: see the counterexamples. -/
theorem C50_reference_partial {d : Dir I V} {i : Nat} {M M' M'' : Mem} {r : Ref V}
    (hi : ElemRef.deref d i M = some (r, M')) {cs : List Cmd} (hr : run o e d cs M' = some M'')
    (hl : ∀ c ∈ cs, Leaves i c) : ∃ x, read M' r = some x ∧ read M'' r = some x := by
  obtain ⟨c, x, hc, hx, rfl, hc', hrd⟩ := deref_some hi
  refine ⟨x, hrd, ?_⟩
  obtain ⟨c2, h2, h3⟩ := run_leaves hl hr hc'
  simp [ElemRef.read, h2, h3]

/-- Exactly what disturbs a reference, command by command: the iterator that gave it is destroyed, or is dereferenced at
another key, or is assigned an iterator whose references denote another key, or dangle. -/
theorem C50_reference_exact {d : Dir I V} {M M' : Mem} {r : Ref V} {p : ℤ × V} (hp : read M r = some p) {c : Cmd}
    (hs : step o e d c M = some M') :
    read M' r = some p ↔
      c ≠ .destroy r.cell ∧
      (c = .deref r.cell → ∃ s M'' w, ElemRef.deref d r.cell M = some (s, M'') ∧ read M'' s = some (p.1, w)) ∧
      ∀ j, c = .assign r.cell j → read M ⟨j, r.val⟩ = some p := by
  obtain ⟨i, w⟩ := r
  have hp' := hp
  simp only [ElemRef.read, Option.bind_eq_some_iff, Option.map_eq_some_iff] at hp'
  obtain ⟨c0, hc0, x, hx, rfl⟩ := hp'
  have hlt : i < M.length := by
    by_contra hn
    simp [cell, List.getElem?_eq_none (by omega : M.length ≤ i)] at hc0
  have happ : ∀ q : Option Cell, cell (M ++ [q]) i = some c0 := fun q => by
    simpa [cell, List.getElem?_append_left hlt] using hc0
  have hset : ∀ j (q : Option Cell), j ≠ i → cell (M.set j q) i = some c0 := fun j q hj => by
    simpa [cell, List.getElem?_set_ne hj] using hc0
  have hown : ∀ q : Option Cell, cell (M.set i q) i = q := fun q => by simp [cell, hlt]
  cases c with
  | first => cases hs; simp [ElemRef.read, happ, hx]
  | last => cases hs; simp [ElemRef.read, happ, hx]
  | copy j =>
    simp only [step, Option.map_eq_some_iff] at hs
    obtain ⟨_, _, rfl⟩ := hs
    simp [ElemRef.read, happ, hx]
  | convert j =>
    simp only [step, Option.map_eq_some_iff] at hs
    obtain ⟨_, _, rfl⟩ := hs
    simp [ElemRef.read, happ, hx]
  | assign j k =>
    simp only [step, Option.map_eq_some_iff, Option.bind_eq_some_iff] at hs
    obtain ⟨_, _, cj, hcj, rfl⟩ := hs
    by_cases hj : j = i
    · subst hj
      simp [ElemRef.read, hown, hcj]
    · simp [ElemRef.read, hset _ _ hj, hx, hj]
  | incr j =>
    simp only [step, Option.map_eq_some_iff, Option.bind_eq_some_iff] at hs
    obtain ⟨cj, hcj, q, _, rfl⟩ := hs
    by_cases hj : j = i
    · subst hj
      rw [hc0] at hcj; cases hcj
      simp [ElemRef.read, hown, hx]
    · simp [ElemRef.read, hset _ _ hj, hx]
  | decr j =>
    simp only [step, Option.map_eq_some_iff, Option.bind_eq_some_iff] at hs
    obtain ⟨cj, hcj, q, _, rfl⟩ := hs
    by_cases hj : j = i
    · subst hj
      rw [hc0] at hcj; cases hcj
      simp [ElemRef.read, hown, hx]
    · simp [ElemRef.read, hset _ _ hj, hx]
  | deref j =>
    simp only [step, Option.map_eq_some_iff] at hs
    obtain ⟨⟨s, M2⟩, hd, rfl⟩ := hs
    obtain ⟨cj, y, hcj, hy, rfl, hc', hrd⟩ := deref_some hd
    by_cases hj : j = i
    · subst hj
      have h1 : read M2 ⟨j, w⟩ = some (x, w) ↔ y.1 = x := by simp [ElemRef.read, hc']
      simp only [h1, ne_eq, reduceCtorEq, not_false_eq_true, true_and, forall_const, hd, Option.some.injEq,
        Prod.mk.injEq, false_imp_iff, implies_true, and_true]
      constructor
      · rintro rfl; exact ⟨_, _, y.2, ⟨rfl, rfl⟩, hrd⟩
      · rintro ⟨_, _, w', ⟨rfl, rfl⟩, h3⟩
        rw [hrd] at h3; cases h3; rfl
    · have : cell M2 i = some c0 := by
        simp only [ElemRef.deref, Option.map_eq_some_iff, Option.bind_eq_some_iff, Prod.mk.injEq] at hd
        obtain ⟨_, _, _, _, _, rfl⟩ := hd
        exact hset _ _ hj
      simp [ElemRef.read, this, hx, hj]
  | destroy j =>
    simp only [step, Option.map_eq_some_iff] at hs
    obtain ⟨_, _, rfl⟩ := hs
    by_cases hj : j = i
    · subst hj; simp [ElemRef.read, hown]
    · simp [ElemRef.read, hset _ _ hj, hx, hj]

/-- All references that one iterator gave have the same key, that of the last one, and each of them keeps its value. -/
theorem C50_reference_last {d : Dir I V} {i : Nat} {M M' M'' M''' : Mem} {r s : Ref V}
    (hi : ElemRef.deref d i M = some (r, M')) {cs : List Cmd} (hr : run o e d cs M' = some M'')
    (hl : ∀ c ∈ cs, Spares i c) (hj : ElemRef.deref d i M'' = some (s, M''')) :
    ∃ x v y w, read M' r = some (x, v) ∧ read M''' s = some (y, w) ∧ read M''' r = some (y, v) := by
  obtain ⟨c, x, hc, hx, rfl, hc', hrd⟩ := deref_some hi
  obtain ⟨c2, y, hc2, hy, rfl, hc2', hrd2⟩ := deref_some hj
  exact ⟨x.1, x.2, y.1, y.2, hrd, hrd2, by simp [ElemRef.read, hc2']⟩

end

/-- `{[0,2)->1, [2,4)->7}` -/
def exRef : List (SItv ℤ × ℤ) := [(Ex.r 0 2, 1), (Ex.r 2 4, 7)]

/-- `it = elements_begin(m); jt = it; ++it; ++it;` and `*it` is `(2, 7)`; then `++jt; *jt; --it;` and the reference still
denotes `(2, 7)`. -/
example : ∃ M M' M'' r, run Ex.ro Ex.roE (.forward Ex.roE exRef) [.first, .copy 0, .incr 0, .incr 0] [] = some M ∧
    ElemRef.deref (.forward Ex.roE exRef) 0 M = some (r, M') ∧
    run Ex.ro Ex.roE (.forward Ex.roE exRef) [.incr 1, .deref 1, .decr 0] M' = some M'' ∧
    read M' r = some (2, 7) ∧ read M'' r = some (2, 7) ∧ ∀ c ∈ [Cmd.incr 1, .deref 1, .decr 0], Leaves 0 c :=
  ⟨_, _, _, _, rfl, rfl, rfl, by decide, by decide, by simp [Leaves]⟩

/-- `r = *it; jt = it; *jt; it = jt; *it;`: nothing of that disturbs `r`. -/
example : ∃ M M' M'' r, run Ex.ro Ex.roE (.forward Ex.roE exRef) [.first] [] = some M ∧
    ElemRef.deref (.forward Ex.roE exRef) 0 M = some (r, M') ∧
    run Ex.ro Ex.roE (.forward Ex.roE exRef) [.copy 0, .deref 1, .assign 0 1, .deref 0] M' = some M'' ∧
    read M' r = some (0, 1) ∧ read M'' r = some (0, 1) := ⟨_, _, _, _, rfl, rfl, rfl, by decide, by decide⟩

/-- `r = *it`, `++it` and again `*it`: now `r` denotes a pair that is not in the map. The map is `{[0,1)->1, [1,2)->7}`. -/
theorem C50_counterexample_moved :
    ∃ (m : List (SItv ℤ × ℤ)) (M M' M'' : Mem) (r : Ref ℤ), MapWellFormed Ex.ro m ∧
      run Ex.ro Ex.roE (.forward Ex.roE m) [.first] [] = some M ∧
      ElemRef.deref (.forward Ex.roE m) 0 M = some (r, M') ∧ read M' r = some (0, 1) ∧
      run Ex.ro Ex.roE (.forward Ex.roE m) [.incr 0, .deref 0] M' = some M'' ∧ read M'' r = some (1, 1) ∧
      Assoc Ex.ro m 0 1 ∧ ¬ Assoc Ex.ro m 1 1 := by
  have hw : MapWellFormed Ex.ro [(Ex.r 0 1, (1 : ℤ)), (Ex.r 1 2, 7)] := wellFormed_ro _ (by decide) (by decide)
  refine ⟨[(Ex.r 0 1, 1), (Ex.r 1 2, 7)], _, _, _, _, hw, rfl, rfl, by decide, rfl, by decide, ?_, ?_⟩
  · exact ⟨_, List.mem_cons_self, show Ex.ro.contains (Ex.r 0 1) 0 = true by decide, rfl⟩
  · rintro ⟨s, hs, h1, h2⟩
    simp only [List.mem_cons, List.not_mem_nil, or_false] at hs
    rcases hs with rfl | rfl
    · exact absurd (show Ex.ro.contains (Ex.r 0 1) 1 = true from h1) (by decide)
    · revert h2; decide

/-- `r = *it++`, for any iterator of any map: `operator++(int)` copies the iterator, moves it, and returns the copy, that
is dereferenced and ceases to exist at the end of the expression. The reference dangles. -/
theorem C50_counterexample_postincrement {I V : Type} {o : IntervalOps ℤ I} {e : ElementOps ℤ I} (d : Dir I V) (i : Nat)
    {M M1 M2 M3 : Mem} {r : Ref V} (h1 : run o e d [.copy i, .incr i] M = some M1)
    (h2 : ElemRef.deref d M.length M1 = some (r, M2)) (h3 : run o e d [.destroy M.length] M2 = some M3) :
    read M3 r = none := by
  obtain ⟨c, x, hc, hx, rfl, hc', hrd⟩ := deref_some h2
  have hlt : M.length < M2.length := by
    by_contra hn
    simp [cell, List.getElem?_eq_none (by omega : M2.length ≤ M.length)] at hc'
  simp only [run, step, Option.bind_eq_some_iff, Option.map_eq_some_iff] at h3
  obtain ⟨M4, ⟨_, _, rfl⟩, h5⟩ := h3
  cases h5
  simp [ElemRef.read, cell, hlt]

example : ∃ M M1 M2 M3 r, run Ex.ro Ex.roE (.forward Ex.roE exRef) [.first] [] = some M ∧
    run Ex.ro Ex.roE (.forward Ex.roE exRef) [.copy 0, .incr 0] M = some M1 ∧
    ElemRef.deref (.forward Ex.roE exRef) M.length M1 = some (r, M2) ∧
    run Ex.ro Ex.roE (.forward Ex.roE exRef) [.destroy M.length] M2 = some M3 ∧ read M2 r = some (0, 1) ∧
    read M3 r = none := ⟨_, _, _, _, _, rfl, rfl, rfl, rfl, by decide, by decide⟩

end ICL.Props
