import Verif.Theory.ElementHistory
import Verif.Props.Maps

/-!
# Properties of containers of elements: C33 and C38

The keys range over all linearly ordered types, the values over all types. A map type `t` ranges over the four traits
(`t.cfg.absorbs`, `t.cfg.total`) and all functors. A container is the list of its nodes in the order of iteration;
`Ascending` says that this order is strictly ascending (`C33_ascending`, `C38_ascending`: it always is), and
`valueOf m x` is the value that the map associates to the key `x` (`none` if there is none).
-/

set_option linter.unusedSectionVars false
set_option linter.unusedVariables false
set_option linter.unusedSimpArgs false

namespace ICL.Props
open Spec

variable {D V : Type} [LinearOrder D] [DecidableEq V]

/-- `icl::map<int, int>` with the pairs `(1, 10)`, `(4, 20)`, `(7, -5)` -/
abbrev exEM : List (ℤ × ℤ) := [(1, 10), (4, 20), (7, -5)]
/-- `icl::map<int, int>` with the pairs `(0, 3)`, `(4, 2)`, `(7, 5)` -/
abbrev exEN : List (ℤ × ℤ) := [(0, 3), (4, 2), (7, 5)]
/-- `icl::map<int, std::set<int>>` -/
abbrev exEC : List (ℤ × Finset ℤ) := [(1, {1, 2}), (4, {3})]

theorem exEM_asc : Ascending Prod.fst exEM ∧ Ascending Prod.fst exEN ∧ Ascending Prod.fst exEC := by
  unfold Ascending; decide

/-! ## C33: invariants of all histories -/

/-- Every map that any history of operations produces has its keys in strictly ascending order: no key occurs
twice. -/
theorem C33_ascending {t : MapType V} {m : List (D × V)} (h : EReachable t m) : Ascending Prod.fst m := h.asc

/-- No absorbing map that any history of operations produces stores the identity element, unless `m[x] = v` or the
constructor from a range are used. -/
theorem C33_no_identity {t : MapType V} (hv : Versions t) (ht : t.cfg.absorbs = true) {m : List (D × V)}
    (h : EAbsorbing t m) : ∀ s ∈ m, s.2 ≠ t.cfg.ident :=
  fun s hs he => h.noIdentity hv s hs ⟨ht, he⟩

/-- `m[1] = 0` and the constructor from a range store the identity element in an absorbing map. -/
theorem C33_counterexample_identity :
    EReachable (exMap true true false) [((1 : ℤ), 0)] ∧
    EMap.bracket (exMap true true false) [] (1 : ℤ) 0 = [(1, 0)] ∧ EMap.ofRange [((1 : ℤ), (0 : ℤ))] = [(1, 0)] :=
  ⟨.range _ [(1, 0)], by decide, by decide⟩

/-- A reachable map: `{} += (4, 20)`, `+= (1, 10)`, `-= (4, 20)` (absorbed), `insert (7, -5)`, `flip (4, 20)`. -/
example : EAbsorbing (exMap true true false) exEM := by
  have h : exEM = (((EOp.flip (4 : ℤ) (20 : ℤ)).run (exMap true true false)
    ((EOp.insert 7 (-5)).run (exMap true true false) ((EOp.subtract 4 20).run (exMap true true false)
    ((EOp.add 1 10).run (exMap true true false) ((EOp.add 4 20).run (exMap true true false) [])))))) := by decide
  rw [h]
  exact .op _ rfl (.op _ rfl (.op _ rfl (.op _ rfl (.op _ rfl (.empty _) .empty) .empty) .empty) .empty) .empty

/-- Two maps with the same values are the same. -/
theorem C33_ext {m n : List (D × V)} (hm : Ascending Prod.fst m) (hn : Ascending Prod.fst n) :
    m = n ↔ ∀ x, valueOf m x = valueOf n x :=
  ⟨fun h _ => by rw [h], valueOf_ext hm hn⟩

/-- `valueOf` is the function that the pairs of a map are the graph of. -/
theorem C33_value_of {m : List (D × V)} (hm : Ascending Prod.fst m) (x : D) (v : V) :
    valueOf m x = some v ↔ (x, v) ∈ m := valueOf_eq_some hm

/-! ## C33: observers -/

/-- `m(x)` -/
theorem C33_select (t : MapType V) {m : List (D × V)} (hm : Ascending Prod.fst m) (x : D) :
    EMap.select t m x = (valueOf m x).getD t.cfg.ident := by
  unfold EMap.select
  rw [find_valueOf hm]
  cases valueOf m x <;> rfl

/-- `find(m, x)` -/
theorem C33_find {m : List (D × V)} (hm : Ascending Prod.fst m) (x : D) :
    EMap.find m x = (valueOf m x).map fun v => (x, v) := find_valueOf hm x

/-- `contains(m, x)`, `within(x, m)`, and `intersects(m, x)` for a partial map -/
theorem C33_contains_key {m : List (D × V)} (hm : Ascending Prod.fst m) (x : D) :
    EMap.containsKey m x = true ↔ ∃ v, (x, v) ∈ m := by
  unfold EMap.containsKey
  rw [find_valueOf hm, Option.isSome_map, Option.isSome_iff_exists]
  exact exists_congr fun v => valueOf_eq_some hm

/-- `contains(m, {x, v})`, `within({x, v}, m)` -/
theorem C33_contains_pair {m : List (D × V)} (hm : Ascending Prod.fst m) (x : D) (v : V) :
    EMap.containsPair m x v = true ↔ (x, v) ∈ m := by
  unfold EMap.containsPair
  rw [find_valueOf hm, ← valueOf_eq_some hm]
  cases valueOf m x <;> simp

example : EMap.select (exMap true true false) exEM 4 = 20 ∧ EMap.select (exMap true true false) exEM 5 = 0 ∧
    EMap.containsKey exEM 7 = true ∧ EMap.containsPair exEM 7 5 = false := by decide

/-! ## C33: operations with a pair or a key -/

/-- `m.add({x, v})`, `m += {x, v}` -/
theorem C33_add (t : MapType V) {m : List (D × V)} (hm : Ascending Prod.fst m) (x : D) (v : V) :
    Ascending Prod.fst (EMap.add t m x v) ∧ valueOf (EMap.add t m x v) x = added t v (valueOf m x) ∧
    ∀ y, y ≠ x → valueOf (EMap.add t m x v) y = valueOf m y := by
  obtain ⟨h1, h2⟩ := EMap.addC_acts (t := t) t.plus hm x v
  exact ⟨h1, by rw [EMap.add, h2]; simp [added], fun y hy => by rw [EMap.add, h2]; simp [hy]⟩

/-- `m.add(prior, {x, v})`, whatever the hint -/
theorem C33_add_hint (t : MapType V) {m : List (D × V)} (hm : Ascending Prod.fst m) (x : D) (v : V) :
    Ascending Prod.fst (EMap.addHint t m x v) ∧ valueOf (EMap.addHint t m x v) x = addedHint t v (valueOf m x) ∧
    ∀ y, y ≠ x → valueOf (EMap.addHint t m x v) y = valueOf m y := by
  obtain ⟨h1, h2⟩ := EMap.addHintC_acts (t := t) t.plus hm x v
  exact ⟨h1, by rw [EMap.addHint, h2]; simp [addedHint], fun y hy => by rw [EMap.addHint, h2]; simp [hy]⟩

/-- Adding with and without a hint is the same, provided the identity element is neutral. -/
theorem addedHint_eq {t : MapType V} (hN : Neutral t) (v : V) {a : Option V} : addedHint t v a = added t v a := by
  unfold addedHint added
  cases a with
  | none =>
    by_cases hi : Ignored t v
    · simp [combined, hi]
    · simp only [combined, hi, if_false, Option.getD_none, hN.plus_ident]
      have : ¬ Ignored t (t.plus.version v) := fun h => hN.plus_ne v (fun e => hi ⟨h.1, e⟩) h.2
      simp [stored, this]
  | some u => by_cases hi : Ignored t v <;> simp [combined, hi]

theorem C33_hint {t : MapType V} (hN : Neutral t) {m : List (D × V)} (hm : Ascending Prod.fst m) (x : D) (v : V) :
    EMap.addHint t m x v = EMap.add t m x v := by
  obtain ⟨h1, h2, h3⟩ := C33_add_hint t hm x v
  obtain ⟨g1, g2, g3⟩ := C33_add t hm x v
  refine valueOf_ext h1 g1 fun y => ?_
  by_cases e : y = x
  · subst e; rw [h2, g2, addedHint_eq hN]
  · rw [h3 y e, g3 y e]

/-- Otherwise it is not: in an enriching map of maxima, adding `(0, -1)` without a hint stores `-1`, with a hint
`0`; an absorbing map stores nothing in the second case. -/
theorem C33_counterexample_hint :
    EMap.add (.maxima true false false) [] (0 : ℤ) (-1) = [(0, -1)] ∧
    EMap.addHint (.maxima true false false) [] (0 : ℤ) (-1) = [(0, 0)] ∧
    EMap.add (.maxima true true false) [] (0 : ℤ) (-1) = [(0, -1)] ∧
    EMap.addHint (.maxima true true false) [] (0 : ℤ) (-1) = [] := by decide

/-- `m.subtract({x, v})`, `m -= {x, v}` -/
theorem C33_subtract (t : MapType V) {m : List (D × V)} (hm : Ascending Prod.fst m) (x : D) (v : V) :
    Ascending Prod.fst (EMap.subtract t m x v) ∧
    valueOf (EMap.subtract t m x v) x = subtractedElem t v (valueOf m x) ∧
    ∀ y, y ≠ x → valueOf (EMap.subtract t m x v) y = valueOf m y := by
  obtain ⟨h1, h2⟩ := EMap.subtract_acts (t := t) hm x v
  exact ⟨h1, by rw [h2]; simp, fun y hy => by rw [h2]; simp [hy]⟩

/-- For absorbing maps of numbers: adding and then subtracting the same pair changes nothing, unless the map is not total
and the addition cancels the value of the key. -/
theorem C33_subtract_undoes_add {W : Type} [DecidableEq W] [AddGroup W] (joining total signed : Bool)
    {m : List (D × W)} (hm : Ascending Prod.fst m) (hn : NoIdentity (.numeric joining true total signed) m) (x : D)
    (v : W) (hx : (total = true ∧ signed = true) ∨ valueOf m x ≠ some (-v)) :
    EMap.subtract (.numeric joining true total signed) (EMap.add (.numeric joining true total signed) m x v) x v
      = m := by
  set t : MapType W := .numeric joining true total signed with htt
  obtain ⟨h1, h2, h3⟩ := C33_add t hm x v
  obtain ⟨g1, g2, g3⟩ := C33_subtract t h1 x v
  refine valueOf_ext g1 hm fun y => ?_
  by_cases e : y = x
  · subst e
    rw [g2, h2]
    have hn := (noIdentity_valueOf hm).1 hn y
    have ht1 : t.cfg.absorbs = true := rfl
    have ht2 : t.cfg.ident = 0 := rfl
    have ht3 : t.cfg.total = total := rfl
    have ht4 : t.invertible = signed := rfl
    have ht5 : ∀ u w, t.plus.apply u w = u + w := fun _ _ => rfl
    have ht6 : ∀ w, t.plus.version w = w := fun _ => rfl
    have ht7 : ∀ u w, t.minus.apply u w = u - w := fun _ _ => rfl
    have ht8 : ∀ w, t.minus.version w = 0 - w := fun _ => rfl
    clear_value t
    simp only [Ignored, ht1, ht2, true_and] at hn
    simp only [added, subtractedElem, ht3, ht4]
    cases hv : valueOf m y with
    | none =>
      by_cases h0 : v = 0 <;>
        simp [combined, stored, Ignored, ht1, ht2, ht5, ht6, ht7, ht8, h0]
    | some u =>
      have hu := hn u hv
      rw [hv] at hx
      by_cases h0 : v = 0
      · simp [combined, stored, Ignored, ht1, ht2, ht5, ht6, ht7, ht8, h0, hu]
      · by_cases hc : u + v = 0
        · have hc' : u = -v := eq_neg_of_add_eq_zero_left hc
          have := hx.resolve_right (by simp [hc'])
          simp [combined, stored, Ignored, ht1, ht2, ht5, ht6, ht7, ht8, h0, hc, this]
          exact hc'.symm
        · simp [combined, stored, Ignored, ht1, ht2, ht5, ht6, ht7, ht8, h0, hc, hu]
  · rw [g3 y e, h3 y e]

example : valueOf exEM 4 ≠ some (-3) ∧ NoIdentity (exMap true true false) exEM ∧
    EMap.add (exMap true true false) exEM 4 3 = [(1, 10), (4, 23), (7, -5)] := by
  unfold NoIdentity; decide
/-- A partial map does not restore a value that has been cancelled. -/
example : EMap.subtract (exMap true true false) (EMap.add (exMap true true false) exEM 4 (-20)) 4 (-20) = [(1, 10), (7, -5)] := by
  decide

/-- `m.insert({x, v})`, with and without a hint, and the flag that is the second component of the result -/
theorem C33_insert (t : MapType V) {m : List (D × V)} (hm : Ascending Prod.fst m) (x : D) (v : V) :
    Ascending Prod.fst (EMap.insert t m x v).1 ∧ valueOf (EMap.insert t m x v).1 x = inserted t v (valueOf m x) ∧
    (∀ y, y ≠ x → valueOf (EMap.insert t m x v).1 y = valueOf m y) ∧
    ((EMap.insert t m x v).2 = true ↔ Ignored t v ∨ valueOf m x = none) := by
  obtain ⟨⟨h1, h2⟩, h3, -⟩ := EMap.insert_acts (t := t) hm x v
  exact ⟨h1, by rw [h2]; simp, fun y hy => by rw [h2]; simp [hy], h3⟩

/-- `m.erase(x)`, `erase(m, x)`, `m.subtract(x)` -/
theorem C33_erase_key {m : List (D × V)} (hm : Ascending Prod.fst m) (x : D) :
    Ascending Prod.fst (EMap.eraseKey m x) ∧ valueOf (EMap.eraseKey m x) x = none ∧
    ∀ y, y ≠ x → valueOf (EMap.eraseKey m x) y = valueOf m y := by
  obtain ⟨h1, h2⟩ := EMap.eraseKey_acts hm x
  exact ⟨h1, by rw [h2]; simp, fun y hy => by rw [h2]; simp [hy]⟩

/-- `m.erase({x, v})` and the number that it returns -/
theorem C33_erase (t : MapType V) {m : List (D × V)} (hm : Ascending Prod.fst m) (x : D) (v : V) :
    Ascending Prod.fst (EMap.erasePair t m x v).1 ∧ valueOf (EMap.erasePair t m x v).1 x = erased t v (valueOf m x) ∧
    (∀ y, y ≠ x → valueOf (EMap.erasePair t m x v).1 y = valueOf m y) ∧
    (EMap.erasePair t m x v).2 = m.length - (EMap.erasePair t m x v).1.length := by
  obtain ⟨⟨h1, h2⟩, h3⟩ := EMap.erasePair_acts (t := t) hm x v
  refine ⟨h1, by rw [h2]; simp, fun y hy => by rw [h2]; simp [hy], ?_⟩
  unfold EMap.erasePair
  rw [find_valueOf hm]
  split_ifs with ha
  · simp
  · cases hv : valueOf m x with
    | none => simp
    | some u =>
      simp only [Option.map_some]
      split_ifs with e
      · simp only
        have hl : (StdTree.erase Prod.fst m x).length + 1 = m.length := by
          obtain ⟨e1, -, -, -⟩ := StdTree.split_spec hm x
          have hf : EMap.find m x = some (x, u) := by rw [find_valueOf hm, hv]; rfl
          unfold EMap.find StdTree.find at hf
          unfold StdTree.erase
          rw [hf] at e1
          revert e1
          rcases StdTree.split Prod.fst m x with ⟨pre, mid, post⟩
          intro e1
          rw [e1]
          simp only [List.length_append, Option.toList_some, List.length_cons, List.length_nil]
          omega
        omega
      · simp

/-- `m[x] = v` -/
theorem C33_bracket (t : MapType V) {m : List (D × V)} (hm : Ascending Prod.fst m) (x : D) (v : V) :
    Ascending Prod.fst (EMap.bracket t m x v) ∧ valueOf (EMap.bracket t m x v) x = some v ∧
    ∀ y, y ≠ x → valueOf (EMap.bracket t m x v) y = valueOf m y := by
  obtain ⟨h1, h2⟩ := EMap.bracket_acts (t := t) hm x v
  exact ⟨h1, by rw [h2]; simp, fun y hy => by rw [h2]; simp [hy]⟩

/-- The constructor from a range: the first pair of each key is taken. -/
theorem C33_range (l : List (D × V)) :
    Ascending Prod.fst (EMap.ofRange l) ∧ ∀ x v, (x, v) ∈ EMap.ofRange l ↔
      ∃ pre post, l = pre ++ (x, v) :: post ∧ ∀ s ∈ pre, s.1 ≠ x := by
  refine ⟨EMap.ofRange_asc l, fun x v => ?_⟩
  rw [← valueOf_eq_some (EMap.ofRange_asc l), EMap.ofRange_value]
  unfold valueOf
  rw [Option.map_eq_some_iff]
  constructor
  · rintro ⟨s, h, rfl⟩
    obtain ⟨h1, pre, post, rfl, h2⟩ := List.find?_eq_some_iff_append.1 h
    simp only [decide_eq_true_eq] at h1
    subst h1
    exact ⟨pre, post, rfl, fun a ha => by simpa using h2 a ha⟩
  · rintro ⟨pre, post, rfl, h⟩
    exact ⟨(x, v), List.find?_eq_some_iff_append.2 ⟨by simp, pre, post, rfl, fun a ha => by simpa using h a ha⟩, rfl⟩

/-- `m.flip({x, v})`, `m ^= {x, v}` for partial maps -/
theorem C33_flip {t : MapType V} (ht : t.cfg.total = false) {m : List (D × V)} (hm : Ascending Prod.fst m) (x : D)
    (v : V) :
    Ascending Prod.fst (EMap.flip t m x v) ∧ valueOf (EMap.flip t m x v) x = flippedElem t v (valueOf m x) ∧
    ∀ y, y ≠ x → valueOf (EMap.flip t m x v) y = valueOf m y := by
  obtain ⟨h1, h2⟩ := EMap.flip_acts ht hm x v
  exact ⟨h1, by rw [h2]; simp, fun y hy => by rw [h2]; simp [hy]⟩

/-- `m.flip({x, v})`, `m ^= {x, v}` for total maps: an absorbing map is cleared, in an enriching map all values
become the identity element. -/
theorem C33_flip_total {t : MapType V} (ht : t.cfg.total = true) {m : List (D × V)} (hm : Ascending Prod.fst m)
    (x : D) (v : V) :
    Ascending Prod.fst (EMap.flip t m x v) ∧ ∀ y w, (y, w) ∈ EMap.flip t m x v ↔
      t.cfg.absorbs = false ∧ w = t.cfg.ident ∧ (y = x ∨ ∃ u, (y, u) ∈ m) := by
  cases ha : t.cfg.absorbs with
  | true => unfold EMap.flip; simp only [ht, ha, if_true]; exact ⟨StdTree.asc_nil, fun y w => by simp⟩
  | false =>
    obtain ⟨h1, h2⟩ := EMap.flip_total ht ha hm x v
    refine ⟨h1, fun y w => ?_⟩
    rw [← valueOf_eq_some h1, h2]
    simp only [← valueOf_eq_some hm, true_and, ← Option.isSome_iff_exists]
    split_ifs with hc
    · simp only [Option.some.injEq, hc, and_true]; exact eq_comm
    · simp [hc]

/-- `m &= {x, v}` for partial maps -/
theorem C33_intersect_pair {t : MapType V} (ht : t.cfg.total = false) {m : List (D × V)} (hm : Ascending Prod.fst m)
    (x : D) (v : V) :
    Ascending Prod.fst (EMap.andPair t m x v) ∧
    valueOf (EMap.andPair t m x v) x = ((valueOf m x).bind fun u => sectioned t u v) ∧
    ∀ y, y ≠ x → valueOf (EMap.andPair t m x v) y = none := by
  obtain ⟨h1, h2⟩ := EMap.andPair_acts ht hm x v
  exact ⟨h1, by rw [h2]; simp, fun y hy => by rw [h2]; simp [hy]⟩

/-- `m &= {x, v}` for total maps adds the pair. -/
theorem C33_intersect_pair_total {t : MapType V} (ht : t.cfg.total = true) (m : List (D × V)) (x : D) (v : V) :
    EMap.andPair t m x v = EMap.add t m x v := by
  unfold EMap.andPair; simp [ht]

/-- `m &= x` -/
theorem C33_intersect_key (t : MapType V) {m : List (D × V)} (hm : Ascending Prod.fst m) (x : D) :
    Ascending Prod.fst (EMap.andKey t m x) ∧
    valueOf (EMap.andKey t m x) x = ((valueOf m x).bind fun u => added t u none) ∧
    ∀ y, y ≠ x → valueOf (EMap.andKey t m x) y = none := by
  obtain ⟨h1, h2⟩ := EMap.andKey_acts (t := t) hm x
  exact ⟨h1, by rw [h2]; simp, fun y hy => by rw [h2]; simp [hy]⟩

/-- `intersects(m, {x, v})` for partial maps -/
theorem C33_intersects_pair {t : MapType V} (ht : t.cfg.total = false) {m : List (D × V)}
    (hm : Ascending Prod.fst m) (x : D) (v : V) :
    EMap.intersectsPair t m x v = true ↔ ∃ u, (x, u) ∈ m ∧ sectioned t u v ≠ none := by
  obtain ⟨h1, h2, h3⟩ := C33_intersect_pair ht hm x v
  unfold EMap.andPair at h1 h2 h3
  unfold EMap.intersectsPair
  simp only [ht, Bool.false_eq_true, if_false] at *
  simp only [← valueOf_eq_some hm]
  rw [Bool.not_eq_true', List.isEmpty_eq_false_iff_exists_mem]
  constructor
  · rintro ⟨⟨y, w⟩, hs⟩
    have hw := (valueOf_eq_some h1).2 hs
    by_cases e : y = x
    · subst e
      rw [h2] at hw
      obtain ⟨u, hu, hw⟩ := Option.bind_eq_some_iff.1 hw
      exact ⟨u, hu, by rw [hw]; simp⟩
    · rw [h3 y e] at hw; cases hw
  · rintro ⟨u, hu, hne⟩
    obtain ⟨w, hw⟩ := Option.ne_none_iff_exists'.1 hne
    exact ⟨(x, w), (valueOf_eq_some h1).1 (by rw [h2, hu]; exact hw)⟩

example : (EMap.insert (exMap true true false) exEM 4 1) = (exEM, false) ∧
    (EMap.insert (exMap true true false) exEM 5 0) = (exEM, true) ∧
    EMap.erasePair (exMap true true false) exEM 4 20 = ([(1, 10), (7, -5)], 1) ∧
    EMap.erasePair (exMap true true false) exEM 4 21 = (exEM, 0) ∧
    EMap.flip (exMap true true false) exEM 4 1 = [(1, 10), (7, -5)] ∧
    EMap.flip exCollect exEC 1 {2, 5} = [(1, {1, 5}), (4, {3})] ∧
    EMap.flip (exMap true false true) exEM 5 3 = [(1, 0), (4, 0), (5, 0), (7, 0)] ∧
    EMap.andPair exCollect exEC 1 {2, 5} = [(1, {2})] ∧ EMap.andPair (exMap true true false) exEM 1 3 = [(1, 13)] ∧
    EMap.intersectsPair exCollect exEC 1 {5} = false ∧
    EMap.ofRange [((4 : ℤ), (1 : ℤ)), (2, 2), (4, 3)] = [(2, 2), (4, 1)] := by decide

/-! ## C33: operations with a map -/

theorem onKeys {m m' r : List (D × V)} {g : V → Option V → Option V}
    (p : ActsAll m m' fun y a => match valueOf r y with | none => a | some v => g v a) :
    Ascending Prod.fst m' ∧ (∀ x v, (x, v) ∈ r → valueOf r x = some v → valueOf m' x = g v (valueOf m x)) ∧
    ∀ x, valueOf r x = none → valueOf m' x = valueOf m x :=
  ⟨p.1, fun x v _ h => by rw [p.2]; dsimp only; rw [h], fun x h => by rw [p.2]; dsimp only; rw [h]⟩

/-- `m += r` -/
theorem C33_add_map (t : MapType V) {m r : List (D × V)} (hm : Ascending Prod.fst m) (hr : Ascending Prod.fst r) :
    Ascending Prod.fst (EMap.addMap t m r) ∧
    (∀ x v, valueOf r x = some v → valueOf (EMap.addMap t m r) x = addedHint t v (valueOf m x)) ∧
    ∀ x, valueOf r x = none → valueOf (EMap.addMap t m r) x = valueOf m x := by
  obtain ⟨h1, h2, h3⟩ := onKeys (EMap.addMap_acts (t := t) hm hr)
  exact ⟨h1, fun x v h => h2 x v ((valueOf_eq_some hr).1 h) h, h3⟩

/-- `m -= r` -/
theorem C33_subtract_map (t : MapType V) {m r : List (D × V)} (hm : Ascending Prod.fst m)
    (hr : Ascending Prod.fst r) :
    Ascending Prod.fst (EMap.subMap t m r) ∧
    (∀ x v, valueOf r x = some v → valueOf (EMap.subMap t m r) x = subtractedElem t v (valueOf m x)) ∧
    ∀ x, valueOf r x = none → valueOf (EMap.subMap t m r) x = valueOf m x := by
  obtain ⟨h1, h2, h3⟩ := onKeys (EMap.subMap_acts (t := t) hm hr)
  exact ⟨h1, fun x v h => h2 x v ((valueOf_eq_some hr).1 h) h, h3⟩

/-- `insert(m, r)` -/
theorem C33_insert_map (t : MapType V) {m r : List (D × V)} (hm : Ascending Prod.fst m) (hr : Ascending Prod.fst r) :
    Ascending Prod.fst (EMap.insertMap t m r) ∧
    (∀ x v, valueOf r x = some v → valueOf (EMap.insertMap t m r) x = inserted t v (valueOf m x)) ∧
    ∀ x, valueOf r x = none → valueOf (EMap.insertMap t m r) x = valueOf m x := by
  obtain ⟨h1, h2, h3⟩ := onKeys (EMap.insertMap_acts (t := t) hm hr)
  exact ⟨h1, fun x v h => h2 x v ((valueOf_eq_some hr).1 h) h, h3⟩

/-- `erase(m, r)` -/
theorem C33_erase_map (t : MapType V) {m r : List (D × V)} (hm : Ascending Prod.fst m) (hr : Ascending Prod.fst r) :
    Ascending Prod.fst (EMap.eraseMap t m r) ∧
    (∀ x v, valueOf r x = some v → valueOf (EMap.eraseMap t m r) x = erased t v (valueOf m x)) ∧
    ∀ x, valueOf r x = none → valueOf (EMap.eraseMap t m r) x = valueOf m x := by
  obtain ⟨h1, h2, h3⟩ := onKeys (EMap.eraseMap_acts (t := t) hm hr)
  exact ⟨h1, fun x v h => h2 x v ((valueOf_eq_some hr).1 h) h, h3⟩

/-- `m &= r` for partial maps -/
theorem C33_intersect_map {t : MapType V} (ht : t.cfg.total = false) {m r : List (D × V)}
    (hm : Ascending Prod.fst m) (hr : Ascending Prod.fst r) :
    Ascending Prod.fst (EMap.andMap t m r) ∧
    (∀ x u v, valueOf m x = some u → valueOf r x = some v → valueOf (EMap.andMap t m r) x = sectioned t u v) ∧
    ∀ x, valueOf m x = none ∨ valueOf r x = none → valueOf (EMap.andMap t m r) x = none := by
  obtain ⟨h1, h2⟩ := EMap.andMap_acts ht hm hr
  refine ⟨h1, fun x u v hu hv => by rw [h2, hu, hv]; rfl, fun x h => ?_⟩
  rw [h2]
  rcases h with h | h
  · rw [h]; rfl
  · rw [h]; cases valueOf m x <;> rfl

/-- `m &= r` for total maps adds the pairs. -/
theorem C33_intersect_map_total {t : MapType V} (ht : t.cfg.total = true) (m r : List (D × V)) :
    EMap.andMap t m r = EMap.addMap t m r := by
  unfold EMap.andMap; simp [ht]

/-- `m ^= r` for partial maps -/
theorem C33_flip_map {t : MapType V} (ht : t.cfg.total = false) {m r : List (D × V)} (hm : Ascending Prod.fst m)
    (hr : Ascending Prod.fst r) :
    Ascending Prod.fst (EMap.flipMap t m r) ∧
    (∀ x v, valueOf r x = some v → valueOf (EMap.flipMap t m r) x = flippedElem t v (valueOf m x)) ∧
    ∀ x, valueOf r x = none → valueOf (EMap.flipMap t m r) x = valueOf m x := by
  obtain ⟨h1, h2, h3⟩ := onKeys (EMap.flipMap_acts ht hm hr)
  exact ⟨h1, fun x v h => h2 x v ((valueOf_eq_some hr).1 h) h, h3⟩

/-- `m ^= r` for total maps: an absorbing map is cleared, an enriching map has the identity element for all keys of
both. -/
theorem C33_flip_map_total {t : MapType V} (ht : t.cfg.total = true) {m r : List (D × V)}
    (hm : Ascending Prod.fst m) (hr : Ascending Prod.fst r) :
    Ascending Prod.fst (EMap.flipMap t m r) ∧ ∀ y w, (y, w) ∈ EMap.flipMap t m r ↔
      t.cfg.absorbs = false ∧ w = t.cfg.ident ∧ ((∃ u, (y, u) ∈ m) ∨ ∃ u, (y, u) ∈ r) := by
  cases ha : t.cfg.absorbs with
  | true => unfold EMap.flipMap; simp only [ht, ha, if_true]; exact ⟨StdTree.asc_nil, fun y w => by simp⟩
  | false =>
    obtain ⟨h1, h2⟩ := EMap.flipMap_total ht ha hr hm
    refine ⟨h1, fun y w => ?_⟩
    rw [← valueOf_eq_some h1, h2]
    simp only [← valueOf_eq_some hm, ← valueOf_eq_some hr, true_and, ← Option.isSome_iff_exists]
    split_ifs with hc
    · simp only [Option.some.injEq, hc, and_true]; exact eq_comm
    · simp [hc]

/-- `intersects(m, r)` for partial maps: a common key, whatever its values -/
theorem C33_intersects_map {t : MapType V} (ht : t.cfg.total = false) {m r : List (D × V)}
    (hm : Ascending Prod.fst m) (hr : Ascending Prod.fst r) :
    EMap.intersectsMap t m r = true ↔ ∃ x u v, (x, u) ∈ m ∧ (x, v) ∈ r := by
  unfold EMap.intersectsMap
  simp only [ht, Bool.false_eq_true, if_false]
  rw [StdTree.intersectsC_spec hm hr]
  constructor
  · rintro ⟨⟨x, u⟩, h1, ⟨y, v⟩, h2, e⟩
    simp only at e; subst e; exact ⟨_, _, _, h1, h2⟩
  · rintro ⟨x, u, v, h1, h2⟩; exact ⟨_, h1, _, h2, rfl⟩

/-- That there is a common key does not say that the intersection is not empty, as it does for interval maps
(`C23_intersects`): the sets `{1, 2}` and `{5}` have no common element. -/
theorem C33_counterexample_intersects :
    EMap.intersectsMap exCollect exEC [(1, {5})] = true ∧ EMap.andMap exCollect exEC [(1, {5})] = [] ∧
    EMap.intersectsPair exCollect exEC 1 {5} = false := by decide

example : EMap.addMap (exMap true true false) exEM exEN = [(0, 3), (1, 10), (4, 22)] ∧
    EMap.subMap (exMap true true false) exEM exEN = [(1, 10), (4, 18), (7, -10)] ∧
    EMap.subMap (exMap true true true) exEM exEN = [(0, -3), (1, 10), (4, 18), (7, -10)] ∧
    EMap.insertMap (exMap true true false) exEM exEN = [(0, 3), (1, 10), (4, 20), (7, -5)] ∧
    EMap.eraseMap (exMap true true false) exEM [(4, 20), (7, 5)] = [(1, 10), (7, -5)] ∧
    EMap.andMap (exMap true true false) exEM exEN = [(4, 22)] ∧
    EMap.flipMap (exMap true true false) exEM exEN = [(0, 3), (1, 10)] ∧
    EMap.flipMap (exMap true false true) exEM exEN = [(0, 0), (1, 0), (4, 0), (7, 0)] ∧
    EMap.intersectsMap (exMap true true false) exEM [(2, 1), (3, 1)] = false := by decide

/-! ## C33: operations with a set of keys -/

/-- `erase(m, s)` -/
theorem C33_erase_set {m : List (D × V)} (hm : Ascending Prod.fst m) (s : List D) :
    Ascending Prod.fst (EMap.eraseSet m s) ∧
    ∀ y w, (y, w) ∈ EMap.eraseSet m s ↔ (y, w) ∈ m ∧ y ∉ s := by
  obtain ⟨h1, h2⟩ := EMap.eraseSet_acts hm s
  refine ⟨h1, fun y w => ?_⟩
  rw [← valueOf_eq_some h1, ← valueOf_eq_some hm, h2]
  dsimp only
  split_ifs with h <;> simp [h]

/-- `m -= s` -/
theorem C33_subtract_set {m : List (D × V)} (hm : Ascending Prod.fst m) {s : List D}
    (hs : Ascending (fun x => x) s) :
    Ascending Prod.fst (EMap.subSet m s) ∧ ∀ y w, (y, w) ∈ EMap.subSet m s ↔ (y, w) ∈ m ∧ y ∉ s := by
  obtain ⟨h1, h2⟩ := EMap.subSet_acts hm hs
  refine ⟨h1, fun y w => ?_⟩
  rw [← valueOf_eq_some h1, ← valueOf_eq_some hm, h2]
  dsimp only
  split_ifs with h <;> simp [h]

/-- `m &= s`. The values are added to an empty map, which changes nothing but that an absorber drops identity
elements if the functor leaves values alone where there are none. -/
theorem C33_intersect_set (t : MapType V) (ht : ∀ v, t.plus.version v = v) {m : List (D × V)}
    (hm : Ascending Prod.fst m) {s : List D} (hs : Ascending (fun x => x) s) :
    Ascending Prod.fst (EMap.andSet t m s) ∧
    ∀ y w, (y, w) ∈ EMap.andSet t m s ↔ (y, w) ∈ m ∧ y ∈ s ∧ ¬ Ignored t w := by
  obtain ⟨h1, h2⟩ := EMap.andSet_acts (t := t) hm hs
  refine ⟨h1, fun y w => ?_⟩
  rw [← valueOf_eq_some h1, ← valueOf_eq_some hm, h2]
  split_ifs with h
  · rw [Option.bind_eq_some_iff]
    constructor
    · rintro ⟨u, hu, hw⟩
      unfold added combined at hw
      split_ifs at hw with hi
      rw [ht] at hw; cases hw; exact ⟨hu, h, hi⟩
    · rintro ⟨hu, -, hi⟩
      exact ⟨w, hu, by simp [added, combined, hi, ht]⟩
  · simp [h]

/-- `intersects(m, s)` for partial maps -/
theorem C33_intersects_set {t : MapType V} (ht : t.cfg.total = false) {m : List (D × V)} (hm : Ascending Prod.fst m)
    {s : List D} (hs : Ascending (fun x => x) s) :
    EMap.intersectsSet t m s = true ↔ ∃ x u, (x, u) ∈ m ∧ x ∈ s := by
  unfold EMap.intersectsSet
  simp only [ht, Bool.false_eq_true, if_false]
  rw [StdTree.intersectsC_spec hm hs]
  constructor
  · rintro ⟨⟨x, u⟩, h1, y, h2, e⟩
    simp only at e; subst e; exact ⟨_, _, h1, h2⟩
  · rintro ⟨x, u, h1, h2⟩; exact ⟨_, h1, _, h2, rfl⟩

/-- Total maps intersect with everything. -/
theorem C33_intersects_total {t : MapType V} (ht : t.cfg.total = true) (m r : List (D × V)) (s : List D) (x : D)
    (v : V) :
    EMap.intersectsMap t m r = true ∧ EMap.intersectsSet t m s = true ∧ EMap.intersectsPair t m x v = true := by
  simp [EMap.intersectsMap, EMap.intersectsSet, EMap.intersectsPair, ht]

/-- `domain(s, m)` adds the keys of `m` to `s`. -/
theorem C33_domain {m : List (D × V)} {s : List D} (hs : Ascending (fun x => x) s) :
    Ascending (fun x => x) (EMap.domain s m) ∧ ∀ x, x ∈ EMap.domain s m ↔ x ∈ s ∨ ∃ v, (x, v) ∈ m := by
  have e : EMap.domain s m = ESet.addSet s (m.map Prod.fst) := by
    unfold EMap.domain ESet.addSet ESet.add; rw [List.foldl_map]
  obtain ⟨h1, h2⟩ := ESet.addSet_spec hs (m.map Prod.fst)
  rw [e]
  refine ⟨h1, fun x => ?_⟩
  rw [h2, List.mem_map]
  constructor
  · rintro (h | ⟨s, h, rfl⟩)
    · exact Or.inl h
    · exact Or.inr ⟨s.2, h⟩
  · rintro (h | ⟨v, h⟩)
    · exact Or.inl h
    · exact Or.inr ⟨_, h, rfl⟩

example : Ascending (fun x => x) [(-1 : ℤ), 4, 6] ∧ EMap.eraseSet exEM [-1, 4, 6] = [(1, 10), (7, -5)] ∧
    EMap.subSet exEM [-1, 4, 6] = [(1, 10), (7, -5)] ∧
    EMap.andSet (exMap true true false) exEM [-1, 4, 6] = [(4, 20)] ∧
    EMap.intersectsSet (exMap true true false) exEM [-1, 5, 6] = false ∧
    EMap.domain [2, 4] exEM = [1, 2, 4, 7] := by
  refine ⟨?_, by decide⟩
  unfold Ascending; decide

/-! ## C38: sets of elements -/

/-- Every set that any history of operations produces has its elements in strictly ascending order. -/
theorem C38_ascending {s : List D} (h : ESReachable s) : Ascending (fun x => x) s := h.asc

/-- Conversely, every strictly ascending list is such a set. -/
theorem C38_reachable (s : List D) : ESReachable s ↔ Ascending (fun x => x) s := ⟨ESReachable.asc, .of_asc⟩

/-- Two sets with the same elements are the same. -/
theorem C38_ext {s r : List D} (hs : Ascending (fun x => x) s) (hr : Ascending (fun x => x) r) :
    s = r ↔ ∀ x, x ∈ s ↔ x ∈ r :=
  ⟨fun h _ => by rw [h], ESet.ext hs hr⟩

/-- `contains(s, x)`, `within(x, s)`, `intersects(s, x)` -/
theorem C38_contains {s : List D} (hs : Ascending (fun x => x) s) (x : D) : ESet.contains s x = true ↔ x ∈ s :=
  ESet.contains_iff hs x

/-- `s += x`, `s -= x`, `s &= x`, `s ^= x` -/
theorem C38_element {s : List D} (hs : Ascending (fun x => x) s) (x y : D) :
    (y ∈ ESet.add s x ↔ y ∈ s ∨ y = x) ∧ (y ∈ ESet.subtract s x ↔ y ∈ s ∧ y ≠ x) ∧
    (y ∈ ESet.andKey s x ↔ y ∈ s ∧ y = x) ∧ (y ∈ ESet.flip s x ↔ Xor (y ∈ s) (y = x)) :=
  ⟨(ESet.add_spec hs x).2 y, (ESet.subtract_spec hs x).2 y, (ESet.andKey_spec hs x).2 y, (ESet.flip_spec hs x).2 y⟩

/-- `s += r`, `s -= r`, `s &= r`, `s ^= r` -/
theorem C38_set {s r : List D} (hs : Ascending (fun x => x) s) (hr : Ascending (fun x => x) r) (y : D) :
    (y ∈ ESet.addSet s r ↔ y ∈ s ∨ y ∈ r) ∧ (y ∈ ESet.subSet s r ↔ y ∈ s ∧ y ∉ r) ∧
    (y ∈ ESet.andSet s r ↔ y ∈ s ∧ y ∈ r) ∧ (y ∈ ESet.flipSet s r ↔ Xor (y ∈ s) (y ∈ r)) :=
  ⟨(ESet.addSet_spec hs r).2 y, (ESet.subSet_spec hs r).2 y, (ESet.andSet_spec hs hr).2 y,
    (ESet.flipSet_spec hs hr).2 y⟩

/-- `intersects(s, r)` -/
theorem C38_intersects {s r : List D} (hs : Ascending (fun x => x) s) (hr : Ascending (fun x => x) r) :
    ESet.intersects s r = true ↔ ∃ x, x ∈ s ∧ x ∈ r := by
  unfold ESet.intersects
  rw [StdTree.intersectsC_spec hs hr]
  constructor
  · rintro ⟨x, h1, y, h2, e⟩
    exact ⟨x, h1, by rwa [e]⟩
  · rintro ⟨x, h1, h2⟩; exact ⟨x, h1, x, h2, rfl⟩

/-- `within(s, r)`, `contains(r, s)` -/
theorem C38_within {s r : List D} (hs : Ascending (fun x => x) s) (hr : Ascending (fun x => x) r) :
    ESet.within s r = true ↔ ∀ x ∈ s, x ∈ r := by
  unfold ESet.within
  rw [StdTree.within_spec hs hr]
  simp

/-- `inclusion_compare(s, r)`: bit `sub` (left is contained in right) and bit `sup` (left contains right) are exact. -/
theorem C38_inclusion_compare {s r : List D} (hs : Ascending (fun x => x) s) (hr : Ascending (fun x => x) r) :
    ∃ c, ESet.inclusionCompare s r = some c ∧ (c.sub = true ↔ ∀ x ∈ s, x ∈ r) ∧ (c.sup = true ↔ ∀ x ∈ r, x ∈ s) := by
  obtain ⟨c, e, h1, h2⟩ := StdTree.inclusionCompare_spec (fun _ _ => .equal) hs hr
  exact ⟨c, e, h1.trans (by simp [StdTree.Covered, Incl.equal]), h2.trans (by simp [StdTree.Covered, Incl.equal])⟩

/-- `s == r` -/
theorem C38_eq {s r : List D} (hs : Ascending (fun x => x) s) (hr : Ascending (fun x => x) r) :
    ESet.eq s r = true ↔ ∀ x, x ∈ s ↔ x ∈ r :=
  (zip_all_eq s r).trans (C38_ext hs hr)

/-- `s < r` is irreflexive and transitive, and two sets neither of which is less than the other are equal. -/
theorem C38_less (s r u : List D) :
    ESet.less s s = false ∧ (ESet.less s r = true → ESet.less r u = true → ESet.less s u = true) ∧
    ((ESet.less s r = false ∧ ESet.less r s = false) ↔ s = r) := by
  have w := WeakOrderOn.linear (V := D)
  have tr : ∀ s : List D, ∀ x ∈ s, (fun _ : D => True) x := fun _ _ _ => trivial
  refine ⟨w.lex_irrefl (tr s), w.lex_trans (tr s) (tr r) (tr u), ?_⟩
  rw [← List.forall₂_eq_eq_eq]
  exact w.lex_incomp (tr s) (tr r)

example : Ascending (fun x => x) [(1 : ℤ), 4, 6] ∧ Ascending (fun x => x) [(0 : ℤ), 4, 7] ∧
    ESet.andSet [(1 : ℤ), 4, 6] [0, 4, 7] = [4] ∧ ESet.flipSet [(1 : ℤ), 4, 6] [0, 4, 7] = [0, 1, 6, 7] ∧
    ESet.subSet [(1 : ℤ), 4, 6] [0, 4, 7] = [1, 6] ∧ ESet.addSet [(1 : ℤ), 4, 6] [0, 4, 7] = [0, 1, 4, 6, 7] ∧
    ESet.within [(4 : ℤ), 6] [1, 4, 6] = true ∧ ESet.intersects [(1 : ℤ), 4, 6] [0, 5] = false ∧
    ESet.inclusionCompare [(1 : ℤ), 4, 6] [1, 6] = some .superset ∧
    ESet.inclusionCompare [(1 : ℤ), 4, 6] [1, 5, 6] = some .unrelated ∧
    ESet.less [(1 : ℤ), 4, 6] [1, 5] = true := by
  refine ⟨?_, ?_, by decide⟩ <;> · unfold Ascending; decide

/-! ## C38: comparison of maps of elements -/

/-- `within(m, n)`, `contains(n, m)` -/
theorem C38_within_map {m n : List (D × V)} (hm : Ascending Prod.fst m) (hn : Ascending Prod.fst n) :
    EMap.within m n = true ↔ ∀ s ∈ m, s ∈ n := by
  unfold EMap.within
  rw [StdTree.within_spec hm hn]
  refine forall₂_congr fun s hs => ?_
  constructor
  · rintro ⟨⟨y, w⟩, h, e1, e2⟩
    simp only [decide_eq_true_eq] at e1 e2
    have : s = (y, w) := Prod.ext e1 e2
    rwa [this]
  · intro h; exact ⟨s, h, rfl, by simp⟩

/-- `within(s, m)`, `contains(m, s)` for a set of keys -/
theorem C38_within_keys {m : List (D × V)} (hm : Ascending Prod.fst m) {s : List D}
    (hs : Ascending (fun x => x) s) : EMap.withinSet s m = true ↔ ∀ x ∈ s, ∃ v, (x, v) ∈ m := by
  unfold EMap.withinSet
  rw [StdTree.within_spec hs hm]
  refine forall₂_congr fun x hx => ?_
  constructor
  · rintro ⟨⟨y, w⟩, h, e1, -⟩
    simp only at e1; subst e1; exact ⟨w, h⟩
  · rintro ⟨v, h⟩; exact ⟨_, h, rfl, rfl⟩

/-- `inclusion_compare(m, n)` for maps whose values are compared by equality -/
theorem C38_inclusion_compare_map {m n : List (D × V)} (hm : Ascending Prod.fst m) (hn : Ascending Prod.fst n) :
    ∃ c, EMap.inclusionCompare atomicCompare m n = some c ∧
      (c.sub = true ↔ ∀ s ∈ m, s ∈ n) ∧ (c.sup = true ↔ ∀ s ∈ n, s ∈ m) := by
  obtain ⟨c, e, h1, h2⟩ := StdTree.inclusionCompare_spec (fun s s' => atomicCompare s.2 s'.2) hm hn
  refine ⟨c, e, h1.trans ?_, h2.trans ?_⟩ <;> refine forall₂_congr fun s hs => ?_
  · constructor
    · rintro ⟨s', h, e1, e2⟩
      have : s.2 = s'.2 := by by_contra hc; simp [atomicCompare, hc, Incl.unrelated] at e2
      have : s = s' := Prod.ext e1 this
      rwa [this]
    · intro h; exact ⟨s, h, rfl, by simp [atomicCompare, Incl.equal]⟩
  · constructor
    · rintro ⟨s', h, e1, e2⟩
      have : s'.2 = s.2 := by by_contra hc; simp [atomicCompare, hc, Incl.unrelated] at e2
      have : s = s' := Prod.ext e1 this.symm
      rwa [this]
    · intro h; exact ⟨s, h, rfl, by simp [atomicCompare, Incl.equal]⟩

/-- `inclusion_compare(m, n)` for maps whose values are sets, compared by `co` (the `inclusion_compare` of the value
type), where `co` decides the inclusion `Sub` of values -/
theorem C38_inclusion_compare_set_valued (co : CoCompare V V) (Sub : V → V → Prop)
    (hsub : ∀ v w, (co v w).sub = true ↔ Sub v w) (hsup : ∀ v w, (co v w).sup = true ↔ Sub w v)
    {m n : List (D × V)} (hm : Ascending Prod.fst m) (hn : Ascending Prod.fst n) :
    ∃ c, EMap.inclusionCompare co m n = some c ∧
      (c.sub = true ↔ ∀ x v, (x, v) ∈ m → ∃ w, (x, w) ∈ n ∧ Sub v w) ∧
      (c.sup = true ↔ ∀ x v, (x, v) ∈ n → ∃ w, (x, w) ∈ m ∧ Sub v w) := by
  obtain ⟨c, e, h1, h2⟩ := StdTree.inclusionCompare_spec (fun s s' => co s.2 s'.2) hm hn
  have key : ∀ l r : List (D × V), (∀ a ∈ l, ∃ b ∈ r, a.1 = b.1 ∧ Sub a.2 b.2) ↔
      ∀ x v, (x, v) ∈ l → ∃ w, (x, w) ∈ r ∧ Sub v w := by
    intro l r
    constructor
    · intro h x v hx
      obtain ⟨⟨y, w⟩, hb, e, hs⟩ := h _ hx
      simp only at e; subst e; exact ⟨w, hb, hs⟩
    · intro h a ha
      obtain ⟨w, hw, hs⟩ := h a.1 a.2 ha
      exact ⟨_, hw, rfl, hs⟩
  simp only [StdTree.Covered, hsub, hsup] at h1 h2
  exact ⟨c, e, h1.trans (key m n), h2.trans (key n m)⟩

/-- `m == n` -/
theorem C38_eq_map {m n : List (D × V)} (hm : Ascending Prod.fst m) (hn : Ascending Prod.fst n) :
    EMap.eq m n = true ↔ ∀ x, valueOf m x = valueOf n x :=
  (zip_all_eq m n).trans (C33_ext hm hn)

/-- `m < n` is irreflexive and transitive, and two maps neither of which is less than the other are equal; the values
are linearly ordered. -/
theorem C38_less_map {W : Type} [LinearOrder W] (m n p : List (D × W)) :
    let lt := EMap.less (D := D) fun v w : W => decide (v < w)
    lt m m = false ∧ (lt m n = true → lt n p = true → lt m p = true) ∧ ((lt m n = false ∧ lt n m = false) ↔ m = n) := by
  have w := (WeakOrderOn.linear (V := D)).pair (WeakOrderOn.linear (V := W))
  have tr : ∀ s : List (D × W), ∀ x ∈ s, (fun _ : D × W => True) x := fun _ _ _ => trivial
  refine ⟨w.lex_irrefl (tr m), w.lex_trans (tr m) (tr n) (tr p), ?_⟩
  have e : (fun a b : D × W => a.1 = b.1 ∧ a.2 = b.2) = Eq := by
    funext a b; exact propext Prod.ext_iff.symm
  rw [← List.forall₂_eq_eq_eq, ← e]
  exact w.lex_incomp (tr m) (tr n)

/-- `is_distinct_equal(m, n)`: equality of all values except the identity element -/
theorem C38_distinct_equal (t : MapType V) {m n : List (D × V)} (hm : Ascending Prod.fst m)
    (hn : Ascending Prod.fst n) :
    EMap.isDistinctEqual t m n = true ↔ ∀ x, (valueOf m x).getD t.cfg.ident = (valueOf n x).getD t.cfg.ident := by
  rw [isDistinctEqual_iff hm hn]
  refine forall_congr' fun x => ?_
  cases h1 : valueOf m x <;> cases h2 : valueOf n x <;> simp only [Option.getD_none, Option.getD_some,
    Option.some.injEq, reduceCtorEq, false_iff, iff_false, iff_self, implies_true]
  · rename_i w
    constructor
    · intro h; by_contra hc; exact h w (fun e => hc e.symm) rfl
    · rintro rfl v hv e; exact hv e.symm
  · rename_i u
    constructor
    · intro h; by_contra hc; exact h u hc rfl
    · rintro rfl v hv e; exact hv e.symm
  · rename_i u w
    constructor
    · intro h
      by_contra hc
      by_cases hu : u = t.cfg.ident
      · exact hc (((h w (fun e => hc (hu.trans e.symm))).2 rfl))
      · exact hc ((h u hu).1 rfl).symm
    · rintro rfl v _; rfl

example : EMap.within [((4 : ℤ), (20 : ℤ))] exEM = true ∧ EMap.within [((4 : ℤ), (21 : ℤ))] exEM = false ∧
    EMap.withinSet [1, 7] exEM = true ∧ EMap.inclusionCompare atomicCompare exEM [(1, 10)] = some .superset ∧
    EMap.inclusionCompare atomicCompare exEM [(1, 11)] = some .unrelated ∧
    EMap.isDistinctEqual (exMap true false false) exEM [(0, 0), (1, 10), (4, 20), (5, 0), (7, -5), (9, 0)] = true ∧
    EMap.eq exEM exEN = false ∧ EMap.less (fun v w => decide (v < w)) exEM [(1, 10), (4, 21)] = true := by decide

end ICL.Props
