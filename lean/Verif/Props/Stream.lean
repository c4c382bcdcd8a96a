import Verif.Theory.Stream
import Verif.Props.MapOps

/-!
# What is written to a stream determines what was written: C52

`text` is `to_string<Type>::apply`, the text a new stream receives from `<<`.
-/

set_option linter.unusedSectionVars false

namespace ICL.Props
open ICL.Spec ICL.Stream

section
variable {D I V : Type} [LinearOrder D] {o : IntervalOps D I} {w : View D I} {st : Bool} {p : D → Text}
  {q : V → Text}

/-- Different bounds are written differently. -/
theorem C52_bounds (b c : Bounds) : text Stream.bounds b = text Stream.bounds c ↔ b = c := by
  obtain ⟨_ | _, _ | _⟩ := b <;> obtain ⟨_ | _, _ | _⟩ := c <;> decide

/-- Two intervals that write the same text are the same, or both are empty.  In particular they have the same
elements. -/
theorem C52_interval (h : Prints o w st) (hp : ReadableElements p) (hn : NeverStarts p [')', ']']) {i j : I}
    (e : text (interval o w p) i = text (interval o w p) j) :
    (i = j ∨ ((∀ x, ¬ In o x i) ∧ ∀ x, ¬ In o x j)) ∧ SameElems o i j := by
  have key : i = j ∨ ((∀ x, ¬ In o x i) ∧ ∀ x, ¬ In o x j) := by
    have e' : interval o w p i ++ [] = interval o w p j ++ [] := by simpa [text] using e
    rcases (interval_read_any h hp hn e').1 with h' | ⟨h1, h2, -⟩
    · exact .inl h'
    · exact .inr ⟨(C01_isEmpty h.cls i).1 h1, (C01_isEmpty h.cls j).1 h2⟩
  refine ⟨key, fun x => ?_⟩
  rcases key with rfl | ⟨h1, h2⟩
  · exact Iff.rfl
  · exact iff_of_false (h1 x) (h2 x)

/-- Intervals with static bounds write the same text exactly if they have the same elements. -/
theorem C52_interval_static (h : Prints o w true) (hp : ReadableElements p) (hn : NeverStarts p [')', ']'])
    (i j : I) : text (interval o w p) i = text (interval o w p) j ↔ SameElems o i j := by
  refine ⟨fun e => (C52_interval h hp hn e).2, fun e => ?_⟩
  by_cases hi : ∃ x, In o x i
  · rw [h.static hi e]
  · have h1 : o.isEmpty i = true := (C01_isEmpty h.cls i).2 (by simpa using hi)
    have h2 : o.isEmpty j = true := (C01_isEmpty h.cls j).2 fun x hx => hi ⟨x, (e x).2 hx⟩
    simp only [text, interval, h1, h2, if_true]
    cases h <;> rfl

/-- Interval sets: whatever is written behind it, the text of an interval set tells its intervals and where it
ends. -/
theorem C52_set (h : Prints o w st) (hp : ReadableElements p) :
    SelfContained (WellFormed o) (intervalSet o w p) := by
  intro s t hs ht
  exact intervalSet_self h hp s t (fun i hi => isEmpty_false h.cls (hs.1 i hi))
    (fun i hi => isEmpty_false h.cls (ht.1 i hi))

/-- Two interval sets that write the same text consist of the same intervals; they are equal, and have the same
elements. -/
theorem C52_set_equal (h : Prints o w st) (hp : ReadableElements p) {s t : List I} (hs : WellFormed o s)
    (ht : WellFormed o t) (e : text (intervalSet o w p) s = text (intervalSet o w p) t) :
    s = t ∧ eqC o setSeg s t = true ∧ ∀ x, Elem o s x ↔ Elem o t x := by
  have e' : s = t := ((C52_set h hp).inj hs ht).1 (by simpa [text] using e)
  subst e'
  exact ⟨rfl, (C31_set_eq h.cls hs hs).2 (List.forall₂_same.2 fun _ _ _ => Iff.rfl), fun _ => Iff.rfl⟩

/-- Interval sets of intervals with static bounds: the texts are the same exactly if the sets are equal, and for
joining sets exactly if they have the same elements. -/
theorem C52_set_static (h : Prints o w true) (hp : ReadableElements p) {s t : List I} (hs : WellFormed o s)
    (ht : WellFormed o t) :
    (text (intervalSet o w p) s = text (intervalSet o w p) t ↔ eqC o setSeg s t = true) ∧
    (FullyJoined o s → FullyJoined o t →
      (text (intervalSet o w p) s = text (intervalSet o w p) t ↔ ∀ x, Elem o s x ↔ Elem o t x)) := by
  have key : SameIntervals o s t → s = t := fun hst => by
    have : List.Forall₂ Eq s t := by
      have hne := hs.1
      clear hs ht
      induction hst with
      | nil => exact .nil
      | cons e _ ih =>
        exact .cons (h.static (hne _ (by simp)) e) (ih fun i hi => hne i (by simp [hi]))
    exact List.forall₂_eq_eq_eq ▸ this
  have first : text (intervalSet o w p) s = text (intervalSet o w p) t ↔ eqC o setSeg s t = true := by
    refine ⟨fun e => (C52_set_equal h hp hs ht e).2.1, fun e => ?_⟩
    rw [key ((C31_set_eq h.cls hs ht).1 e)]
  refine ⟨first, fun js jt => ⟨fun e => (C52_set_equal h hp hs ht e).2.2, fun e => ?_⟩⟩
  refine first.2 ((eqC_joined h.cls.lawful (wellFormed_iff.1 hs) (wellFormed_iff.1 ht)
    ((fullyJoined_iff h.cls.lawful (wellFormed_iff.1 hs)).1 js)
    ((fullyJoined_iff h.cls.lawful (wellFormed_iff.1 ht)).1 jt)).2 fun x u => ?_)
  rw [elem_maps, elem_maps, e x]

/-- Interval maps: whatever is written behind it, the text of an interval map tells its segments and where it
ends, if the texts of its values can be read up to a closing parenthesis. -/
theorem C52_map (h : Prints o w st) (hp : ReadableElements p) {A : V → Prop} (hq : Readable A q [[')']]) :
    SelfContained (fun m => MapWellFormed o m ∧ ∀ s ∈ m, A s.2) (intervalMap o w p q) := by
  intro m n hm hn
  exact intervalMap_self h hp hq m n
    (fun s hs => ⟨isEmpty_false h.cls (hm.1.1 s.1 (List.mem_map_of_mem hs)), hm.2 s hs⟩)
    (fun s hs => ⟨isEmpty_false h.cls (hn.1.1 s.1 (List.mem_map_of_mem hs)), hn.2 s hs⟩)

/-- Two interval maps that write the same text consist of the same segments; they are equal, and yield the same
values. -/
theorem C52_map_equal [DecidableEq V] (h : Prints o w st) (hp : ReadableElements p) {A : V → Prop}
    (hq : Readable A q [[')']]) {m n : List (I × V)} (hm : MapWellFormed o m) (hn : MapWellFormed o n)
    (am : ∀ s ∈ m, A s.2) (an : ∀ s ∈ n, A s.2)
    (e : text (intervalMap o w p q) m = text (intervalMap o w p q) n) :
    m = n ∧ eqC o mapSeg m n = true ∧ ∀ x, valueAt o m x = valueAt o n x := by
  have e' : m = n := ((C52_map h hp hq).inj ⟨hm, am⟩ ⟨hn, an⟩).1 (by simpa [text] using e)
  subst e'
  exact ⟨rfl, (C31_map_eq h.cls hm hm).2 (List.forall₂_same.2 fun _ _ => ⟨fun _ => Iff.rfl, rfl⟩), fun _ => rfl⟩

/-- Interval maps of intervals with static bounds: the texts are the same exactly if the maps are equal, and for
joining maps exactly if they are the same function. -/
theorem C52_map_static [DecidableEq V] (h : Prints o w true) (hp : ReadableElements p) {A : V → Prop}
    (hq : Readable A q [[')']]) {m n : List (I × V)} (hm : MapWellFormed o m) (hn : MapWellFormed o n)
    (am : ∀ s ∈ m, A s.2) (an : ∀ s ∈ n, A s.2) :
    (text (intervalMap o w p q) m = text (intervalMap o w p q) n ↔ eqC o mapSeg m n = true) ∧
    (MapFullyJoined o m → MapFullyJoined o n →
      (text (intervalMap o w p q) m = text (intervalMap o w p q) n ↔
        ∀ x, valueAt o m x = valueAt o n x)) := by
  have key : SameSegments o m n → m = n := fun hst => by
    have : List.Forall₂ Eq m n := by
      have hne : ∀ s ∈ m, ∃ x, In o x s.1 := fun s hs => hm.1 s.1 (List.mem_map_of_mem hs)
      clear hm hn am an
      induction hst with
      | nil => exact .nil
      | cons e _ ih =>
        exact .cons (Prod.ext (h.static (hne _ (by simp)) e.1) e.2) (ih fun i hi => hne i (by simp [hi]))
    exact List.forall₂_eq_eq_eq ▸ this
  have first : text (intervalMap o w p q) m = text (intervalMap o w p q) n ↔ eqC o mapSeg m n = true := by
    refine ⟨fun e => (C52_map_equal h hp hq hm hn am an e).2.1, fun e => ?_⟩
    rw [key ((C31_map_eq h.cls hm hn).1 e)]
  exact ⟨first, fun jm jn => first.trans (C22_canonical h.cls hm hn jm jn)⟩

/-- Interval maps with interval sets as values, to any depth: the texts of interval sets are values that can be
read up to a closing parenthesis, although they contain closing parentheses. -/
theorem C52_nested {D' I' : Type} [LinearOrder D'] {o' : IntervalOps D' I'} {w' : View D' I'} {st' : Bool}
    {p' : D' → Text} (h : Prints o w st) (hp : ReadableElements p) (h' : Prints o' w' st')
    (hp' : ReadableElements p') :
    SelfContained (fun m : List (I × List I') => MapWellFormed o m ∧ ∀ s ∈ m, WellFormed o' s.2)
      (intervalMap o w p (intervalSet o' w' p')) ∧
    SelfContained (fun m : List (I × List (I × List I')) => MapWellFormed o m ∧
        ∀ s ∈ m, MapWellFormed o s.2 ∧ ∀ t ∈ s.2, WellFormed o' t.2)
      (intervalMap o w p (intervalMap o w p (intervalSet o' w' p'))) := by
  have mark : ∀ c ∈ [[')']], ∀ d ∈ [[')']], ∀ r s : Text, c ++ r = d ++ s → c = d ∧ r = s := by
    intro c hc d hd r s e
    simp only [List.mem_singleton] at hc hd
    subst hc; subst hd
    simpa using e
  have inner := C52_map h hp ((C52_set h' hp').readable mark)
  exact ⟨inner, C52_map h hp (inner.readable mark)⟩

/-- Element sets: the text tells the elements, in their order, and where it ends, if the texts of elements can be
read up to a blank and do not start with a closing brace. -/
theorem C52_element_set {α : Type} {A : α → Prop} {p : α → Text} (hp : Readable A p [[' ']])
    (hn : NeverStarts p ['}']) : SelfContained (fun s : List α => ∀ x ∈ s, A x) (elementSet p) :=
  elementSet_self hp hn

/-- Element maps: the text tells the pairs, in their order, and where it ends, if the texts of keys can be read up
to an arrow and the texts of values up to a closing parenthesis. -/
theorem C52_element_map {α : Type} {B : α → Prop} {A : V → Prop} {p : α → Text} (hp : Readable B p [['-', '>']])
    (hq : Readable A q [[')']]) :
    SelfContained (fun m : List (α × V) => ∀ s ∈ m, B s.1 ∧ A s.2) (elementMap p q) :=
  elementMap_self hp hq

end

/-- Integers, as `<<` writes them in decimal notation, meet all these conditions. -/
theorem C52_integers : ReadableElements decimal ∧ NeverStarts decimal [')', ']', '}'] ∧
    Readable (fun _ => True) decimal [[')']] ∧ Readable (fun _ => True) decimal [[' ']] ∧
    Readable (fun _ => True) decimal [['-', '>']] := by
  have key : ∀ ends : List Text, (∀ c ∈ ends, ∀ d ∈ c.head?, ¬ IsDigit d) → (∀ c ∈ ends, c ≠ []) →
      (∀ c ∈ ends, ∀ d ∈ ends, ∀ r s : Text, c ++ r = d ++ s → c = d ∧ r = s) →
      Readable (fun _ => True) decimal ends := by
    intro ends h1 h2 h3 a b _ _ c hc d hd r s e
    rw [List.append_assoc, List.append_assoc] at e
    have hh : ∀ c ∈ ends, ∀ r : Text, ∀ x ∈ (c ++ r).head?, ¬ IsDigit x := by
      intro c hc r x hx
      have h1 := h1 c hc
      have h2 := h2 c hc
      cases c with
      | nil => exact absurd rfl h2
      | cons y c => exact h1 x (by simpa using hx)
    obtain ⟨e1, e2⟩ := decimal_read (hh c hc r) (hh d hd s) e
    exact ⟨e1, h3 c hc d hd r s e2⟩
  refine ⟨⟨?_, ?_⟩, ?_, ?_, ?_, ?_⟩
  · exact key _ (by simp [IsDigit]) (by simp) (by simp)
  · exact key _ (by simp [IsDigit]) (by simp) (by simp)
  · intro n c hc hd
    have : c = '-' ∨ IsDigit c := by
      unfold decimal at hd
      split at hd
      · simp at hd; exact .inl hd.symm
      · exact .inr (digits_isDigit _ c (List.mem_of_mem_head? hd))
    revert this
    simp only [List.mem_cons, List.not_mem_nil, or_false] at hc
    rcases hc with rfl | rfl | rfl <;> simp [IsDigit]
  · exact key _ (by simp [IsDigit]) (by simp) (by simp)
  · exact key _ (by simp [IsDigit]) (by simp) (by simp)
  · exact key _ (by simp [IsDigit]) (by simp) (by simp)

/-- So do texts that identify the value and contain none of the characters the marks begin with. -/
theorem C52_plain_texts {α : Type} {A : α → Prop} {p : α → Text} (inj : ∀ a b, A a → A b → p a = p b → a = b)
    {marks : List Char} (hm : ∀ a, A a → ∀ c ∈ p a, c ∉ marks) :
    Readable A p (marks.map fun c => [c]) := by
  intro a b ha hb c hc d hd r s e
  simp only [List.mem_map] at hc hd
  obtain ⟨c, hc, rfl⟩ := hc
  obtain ⟨d, hd, rfl⟩ := hd
  rw [List.append_assoc, List.append_assoc] at e
  obtain ⟨e1, e2⟩ := split_class (K := fun x => x ∉ marks) (hm a ha) (hm b hb) (by simpa using hc)
    (by simpa using hd) e
  simp only [List.cons_append, List.nil_append, List.cons.injEq] at e2
  exact ⟨inj a b ha hb e1, by simp [e2.1], e2.2⟩

/-- `interval_set<int>`: `{[0,2)[5,7)}`, and `interval_map<int,int>`: `{([0,4)->1)([5,9)->-3)}` -/
example : text (intervalSet Ex.ro rightOpenView decimal) [Ex.r 0 2, Ex.r 5 7] = "{[0,2)[5,7)}".toList ∧
    text (intervalMap Ex.ro rightOpenView decimal decimal) [(Ex.r 0 4, 1), (Ex.r (-5) 9, -3)] =
      "{([0,4)->1)([-5,9)->-3)}".toList ∧
    text (interval Ex.di dynamicView decimal) ⟨1, 20, Bounds.leftOpen⟩ = "(1,20]".toList ∧
    text (elementSet decimal) [1, 2, 305] = "{1 2 305 }".toList ∧
    text (elementMap decimal decimal) [(-1, 2), (3, -4)] = "{(-1->2)(3->-4)}".toList :=
  ⟨by decide, by decide, by decide, by decide, by decide⟩
/-- An empty interval and a non-empty one -/
example : text (interval Ex.ro rightOpenView decimal) (Ex.r 4 4) = "[)".toList ∧
    text (interval Ex.ro rightOpenView decimal) (Ex.r 4 5) = "[4,5)".toList := ⟨by decide, by decide⟩
example : ReadableElements decimal ∧ Prints Ex.ro rightOpenView true ∧ WellFormed Ex.ro exS ∧
    FullyJoined Ex.ro exS :=
  ⟨C52_integers.1, .rightOpen 0, ex_wf.1,
    (fullyJoined_iff Ex.ro_cls.lawful (wellFormed_iff.1 ex_wf.1)).2 (joined_of (by decide))⟩

/-- Values whose texts contain closing parentheses, such as strings, make texts ambiguous: a map with one segment
and a map with two segments write `{([0,1)->a)([1,2)->b)}`. -/
theorem C52_counterexample_strings :
    let m : List (SItv ℤ × Text) := [(Ex.r 0 1, "a)([1,2)->b".toList)]
    let n : List (SItv ℤ × Text) := [(Ex.r 0 1, "a".toList), (Ex.r 1 2, "b".toList)]
    MapWellFormed Ex.ro m ∧ MapWellFormed Ex.ro n ∧
    text (intervalMap Ex.ro rightOpenView decimal id) m = text (intervalMap Ex.ro rightOpenView decimal id) n ∧
    valueAt Ex.ro m 1 ≠ valueAt Ex.ro n 1 := by
  refine ⟨wellFormed_ro _ (by decide) (by decide), wellFormed_ro _ (by decide) (by decide), by decide, by decide⟩

/-- With dynamic bounds equal intervals can be written differently: `[0,1]` and `[0,2)` -/
theorem C52_counterexample_dynamic :
    let i : DItv ℤ := ⟨0, 1, Bounds.closed⟩
    let j : DItv ℤ := ⟨0, 2, Bounds.rightOpen⟩
    SameElems Ex.di i j ∧ eqC Ex.di setSeg [i] [j] = true ∧
    text (interval Ex.di dynamicView decimal) i ≠ text (interval Ex.di dynamicView decimal) j := by
  refine ⟨fun x => ?_, by decide, by decide⟩
  simp [In, discreteOps, Dyn.contains, Bounds.isLeftClosed, Bounds.isRightClosed, Bounds.closed, Bounds.rightOpen]

end ICL.Props
