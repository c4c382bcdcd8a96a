import Verif.StreamSpec
import Verif.Props.Compare
import Mathlib.Data.Nat.Digits.Lemmas
import Mathlib.Tactic.IntervalCases

/-!
# Lemmas on the texts written to streams
-/

set_option linter.unusedSectionVars false

namespace ICL.Stream
open ICL.Spec

section
variable {α : Type} {A : α → Prop} {p : α → Text}

theorem SelfContained.readable (h : SelfContained A p) {ends : List Text}
    (he : ∀ c ∈ ends, ∀ d ∈ ends, ∀ r s : Text, c ++ r = d ++ s → c = d ∧ r = s) : Readable A p ends := by
  intro a b ha hb c hc d hd r s e
  rw [List.append_assoc, List.append_assoc] at e
  obtain ⟨rfl, e'⟩ := h a b ha hb _ _ e
  exact ⟨rfl, he c hc d hd r s e'⟩

theorem SelfContained.inj (h : SelfContained A p) {a b : α} (ha : A a) (hb : A b) : p a = p b ↔ a = b :=
  ⟨fun e => (h a b ha hb [] [] (by rw [e])).1, fun e => by rw [e]⟩

/-- The first characters that are in a class `K` -/
theorem split_class {K : Char → Prop} {t u r s : Text} (ht : ∀ c ∈ t, K c) (hu : ∀ c ∈ u, K c)
    (hr : ∀ c ∈ r.head?, ¬ K c) (hs : ∀ c ∈ s.head?, ¬ K c) (e : t ++ r = u ++ s) : t = u ∧ r = s := by
  induction t generalizing u with
  | nil =>
    cases u with
    | nil => exact ⟨rfl, e⟩
    | cons c u =>
      subst e
      exact absurd (hu c (by simp)) (hr c (by simp))
  | cons c t ih =>
    cases u with
    | nil =>
      rw [List.nil_append] at e
      subst e
      exact absurd (ht c (by simp)) (hs c (by simp))
    | cons d u =>
      simp only [List.cons_append, List.cons.injEq] at e
      obtain ⟨rfl, e⟩ := e
      obtain ⟨rfl, e'⟩ := ih (fun c hc => ht c (by simp [hc])) (fun c hc => hu c (by simp [hc])) e
      exact ⟨rfl, e'⟩

/-- Repeating a self-contained text that never starts with the end mark, then writing the end mark -/
theorem SelfContained.list (h : SelfContained A p) {e : Char} (hn : ∀ a, A a → ∀ r : Text, (p a ++ r).head? ≠ some e) :
    SelfContained (fun l : List α => ∀ a ∈ l, A a) fun l => ['{'] ++ l.flatMap p ++ [e] := by
  intro l m hl hm r s he
  simp only [List.append_assoc, List.cons_append, List.nil_append, List.cons.injEq, true_and] at he
  induction l generalizing m with
  | nil =>
    cases m with
    | nil => simpa using he
    | cons b m =>
      simp only [List.flatMap_nil, List.nil_append, List.flatMap_cons, List.append_assoc] at he
      refine absurd ?_ (hn b (hm b (by simp)) (List.flatMap p m ++ e :: s))
      rw [← he]; rfl
  | cons a l ih =>
    cases m with
    | nil =>
      simp only [List.flatMap_nil, List.nil_append, List.flatMap_cons, List.append_assoc] at he
      refine absurd ?_ (hn a (hl a (by simp)) (List.flatMap p l ++ e :: r))
      rw [he]; rfl
    | cons b m =>
      simp only [List.flatMap_cons, List.append_assoc] at he
      obtain ⟨rfl, he'⟩ := h a b (hl a (by simp)) (hm b (by simp)) _ _ he
      obtain ⟨rfl, hr⟩ := ih m (fun x hx => hl x (by simp [hx])) (fun x hx => hm x (by simp [hx])) he'
      exact ⟨rfl, hr⟩

end

section
variable {D I V : Type} [LinearOrder D] {o : IntervalOps D I} {w : View D I} {st : Bool}

theorem Prints.cls (h : Prints o w st) : IntervalClass o := by
  cases h with
  | rightOpen zero => exact .rightOpen zero
  | leftOpen zero => exact .leftOpen zero
  | closed s zero unit h => exact .closed s zero unit h
  | opn s zero => exact .opn s zero
  | discrete s zero => exact .discrete s zero
  | continuous zero => exact .continuous zero

theorem Prints.ext (h : Prints o w st) {i j : I} (h1 : w.lb i = w.lb j) (h2 : w.rb i = w.rb j)
    (h3 : w.lower i = w.lower j) (h4 : w.upper i = w.upper j) : i = j := by
  cases h
  case discrete | continuous =>
    obtain ⟨a, b, ⟨_ | _, _ | _⟩⟩ := i <;> obtain ⟨c, d, ⟨_ | _, _ | _⟩⟩ := j <;>
      simp_all [dynamicView, leftBracket, rightBracket, Bounds.isLeftClosed, Bounds.isRightClosed]
  all_goals
    obtain ⟨a, b⟩ := i
    obtain ⟨c, d⟩ := j
    simp_all [rightOpenView, leftOpenView, closedView, openView]

theorem Prints.lb (h : Prints o w st) (i : I) : w.lb i = '[' ∨ w.lb i = '(' := by
  cases h <;> simp [rightOpenView, leftOpenView, closedView, openView, dynamicView, leftBracket]

theorem Prints.rb (h : Prints o w st) (i : I) : w.rb i = ']' ∨ w.rb i = ')' := by
  cases h <;> simp [rightOpenView, leftOpenView, closedView, openView, dynamicView, rightBracket]

theorem Prints.static (h : Prints o w true) {i j : I} (hi : ∃ x, In o x i) (hj : SameElems o i j) : i = j := by
  obtain ⟨z, hz⟩ := hi
  have hz' := (hj z).1 hz
  cases h <;> obtain ⟨a, b⟩ := i <;> obtain ⟨c, d⟩ := j <;>
    simp only [SameElems, In, rightOpenOps, leftOpenOps, closedOps, openOps, Bool.and_eq_true,
      decide_eq_true_eq] at hj hz hz' <;>
    simp only [SItv.mk.injEq] <;>
    (have h1 := hj a; have h2 := hj b; have h3 := hj c; have h4 := hj d)
  · constructor
    · rcases lt_trichotomy a c with h | h | h <;> grind
    · rcases lt_trichotomy b d with h | h | h <;> grind
  · constructor
    · rcases lt_trichotomy a c with h | h | h <;> grind
    · rcases lt_trichotomy b d with h | h | h <;> grind
  · constructor
    · rcases lt_trichotomy a c with h | h | h <;> grind
    · rcases lt_trichotomy b d with h | h | h <;> grind
  · constructor
    · rcases lt_trichotomy a c with h | h | h <;> grind
    · rcases lt_trichotomy b d with h | h | h <;> grind

variable {p : D → Text} {q : V → Text}

theorem interval_start (h : Prints o w st) (i : I) (r : Text) :
    (interval o w p i ++ r).head? = some '[' ∨ (interval o w p i ++ r).head? = some '(' := by
  unfold interval
  split <;> simpa using h.lb i

/-- Two intervals that write the same text, whatever follows -/
theorem interval_read (h : Prints o w st) (hp : ReadableElements p) {i j : I} (hi : o.isEmpty i = false)
    (hj : o.isEmpty j = false) {r s : Text} (e : interval o w p i ++ r = interval o w p j ++ s) :
    i = j ∧ r = s := by
  simp only [interval, hi, hj, Bool.false_eq_true, if_false, List.append_assoc, List.cons_append,
    List.nil_append, List.cons.injEq] at e
  obtain ⟨e1, e⟩ := e
  obtain ⟨e2, -, e⟩ := hp.1 _ _ trivial trivial [','] (by simp) [','] (by simp) _ _
    (by simpa only [List.append_assoc, List.cons_append, List.nil_append] using e)
  obtain ⟨e3, e4, e⟩ := hp.2 _ _ trivial trivial [w.rb i] (by rcases h.rb i with h | h <;> simp [h]) [w.rb j]
    (by rcases h.rb j with h | h <;> simp [h]) _ _
    (by simpa only [List.append_assoc, List.cons_append, List.nil_append] using e)
  exact ⟨h.ext e1 (by simpa using e4) e2 e3, e⟩

theorem interval_self (h : Prints o w st) (hp : ReadableElements p) :
    SelfContained (fun i => o.isEmpty i = false) (interval o w p) :=
  fun _ _ hi hj _ _ e => interval_read h hp hi hj e

/-- Any two intervals, empty or not -/
theorem interval_read_any (h : Prints o w st) (hp : ReadableElements p) (hn : NeverStarts p [')', ']']) {i j : I}
    {r s : Text} (e : interval o w p i ++ r = interval o w p j ++ s) :
    (i = j ∨ (o.isEmpty i = true ∧ o.isEmpty j = true ∧ w.lb i = w.lb j ∧ w.rb i = w.rb j)) ∧ r = s := by
  have key : ∀ (i j : I) (r s : Text), o.isEmpty i = true → o.isEmpty j = false →
      interval o w p i ++ r ≠ interval o w p j ++ s := by
    intro i j r s hi hj e
    simp only [interval, hi, hj, Bool.false_eq_true, if_false, if_true, List.append_assoc, List.cons_append,
      List.nil_append, List.cons.injEq] at e
    have e := congrArg List.head? e.2
    have hn := hn (w.lower j)
    cases hpl : p (w.lower j) with
    | nil =>
      rw [hpl] at e
      rcases h.rb i with hb | hb <;> simp [hb] at e
    | cons c t =>
      rw [hpl] at e hn
      have h1 := hn ')' (by simp)
      have h2 := hn ']' (by simp)
      simp only [List.head?_cons, List.cons_append, Option.some.injEq] at e h1 h2
      rcases h.rb i with hb | hb
      · exact h2 (by rw [← e, hb])
      · exact h1 (by rw [← e, hb])
  cases hi : o.isEmpty i <;> cases hj : o.isEmpty j
  · exact ⟨.inl (interval_read h hp hi hj e).1, (interval_read h hp hi hj e).2⟩
  · exact absurd e.symm (key j i s r hj hi)
  · exact absurd e (key i j r s hi hj)
  · simp only [interval, hi, hj, if_true, List.cons_append, List.nil_append, List.cons.injEq] at e
    exact ⟨.inr ⟨rfl, rfl, e.1, e.2.1⟩, e.2.2⟩

theorem intervalSet_self (h : Prints o w st) (hp : ReadableElements p) :
    SelfContained (fun s : List I => ∀ i ∈ s, o.isEmpty i = false) (intervalSet o w p) := by
  refine (interval_self h hp).list (e := '}') fun i _ r => ?_
  rcases interval_start h (p := p) i r with e | e <;> rw [e] <;> decide

theorem segment_self (h : Prints o w st) (hp : ReadableElements p) {A : V → Prop} (hq : Readable A q [[')']]) :
    SelfContained (fun s : I × V => o.isEmpty s.1 = false ∧ A s.2) (segment o w p q) := by
  rintro ⟨i, v⟩ ⟨j, u⟩ ⟨hi, hv⟩ ⟨hj, hu⟩ r s e
  simp only [segment, List.append_assoc, List.cons_append, List.nil_append, List.cons.injEq, true_and] at e
  obtain ⟨rfl, e'⟩ := interval_read h hp hi hj e
  simp only [List.cons.injEq, true_and] at e'
  obtain ⟨rfl, -, rfl⟩ := hq _ _ hv hu [')'] (by simp) [')'] (by simp) r s (by simpa using e')
  exact ⟨rfl, rfl⟩

theorem intervalMap_self (h : Prints o w st) (hp : ReadableElements p) {A : V → Prop} (hq : Readable A q [[')']]) :
    SelfContained (fun m : List (I × V) => ∀ s ∈ m, o.isEmpty s.1 = false ∧ A s.2) (intervalMap o w p q) := by
  refine (segment_self h hp hq).list (e := '}') fun i _ r => ?_
  simp [segment]

theorem elementSet_self {α : Type} {A : α → Prop} {p : α → Text} (hp : Readable A p [[' ']])
    (hn : NeverStarts p ['}']) :
    SelfContained (fun s : List α => ∀ x ∈ s, A x) (elementSet p) := by
  refine SelfContained.list (p := fun x => p x ++ [' ']) (e := '}') ?_ fun x _ r => ?_
  · intro a b ha hb r s e
    obtain ⟨rfl, -, rfl⟩ := hp a b ha hb [' '] (by simp) [' '] (by simp) r s e
    exact ⟨rfl, rfl⟩
  · have := hn x '}' (by simp)
    cases hx : p x with
    | nil => simp
    | cons c t => rw [hx] at this; simpa using this

theorem elementMap_self {α : Type} {B : α → Prop} {A : V → Prop} {p : α → Text} (hp : Readable B p [['-', '>']])
    (hq : Readable A q [[')']]) :
    SelfContained (fun m : List (α × V) => ∀ s ∈ m, B s.1 ∧ A s.2) (elementMap p q) := by
  refine SelfContained.list (p := fun a : α × V => ['('] ++ p a.1 ++ ['-', '>'] ++ q a.2 ++ [')']) (e := '}') ?_
    fun x _ r => by simp
  rintro ⟨a, v⟩ ⟨b, u⟩ ⟨ha, hv⟩ ⟨hb, hu⟩ r s e
  simp only [List.append_assoc, List.cons_append, List.nil_append, List.cons.injEq, true_and] at e
  obtain ⟨rfl, -, e'⟩ := hp a b ha hb ['-', '>'] (by simp) ['-', '>'] (by simp) (q v ++ ')' :: r) (q u ++ ')' :: s)
    (by simpa using e)
  obtain ⟨rfl, -, rfl⟩ := hq _ _ hv hu [')'] (by simp) [')'] (by simp) r s (by simpa using e')
  exact ⟨rfl, rfl⟩

end

/-! ## Texts of integers -/

/-- A decimal digit -/
def IsDigit (c : Char) : Prop := c ∈ ['0', '1', '2', '3', '4', '5', '6', '7', '8', '9']

theorem digitChar_inj {a b : ℕ} (ha : a < 10) (hb : b < 10) (h : Nat.digitChar a = Nat.digitChar b) : a = b := by
  interval_cases a <;> interval_cases b <;> first | rfl | (exact absurd h (by decide))

theorem digitChar_isDigit {a : ℕ} (ha : a < 10) : IsDigit (Nat.digitChar a) := by
  interval_cases a <;> simp [IsDigit, Nat.digitChar]

theorem digits_isDigit (n : ℕ) : ∀ c ∈ digits n, IsDigit c := by
  intro c hc
  unfold digits at hc
  split at hc
  · simp at hc; subst hc; simp [IsDigit]
  · simp only [List.mem_map, List.mem_reverse] at hc
    obtain ⟨a, ha, rfl⟩ := hc
    exact digitChar_isDigit (Nat.digits_lt_base (by norm_num) ha)

theorem map_digitChar_inj {l m : List ℕ} (hl : ∀ a ∈ l, a < 10) (hm : ∀ a ∈ m, a < 10)
    (h : l.map Nat.digitChar = m.map Nat.digitChar) : l = m := by
  induction l generalizing m with
  | nil => cases m with
    | nil => rfl
    | cons _ _ => simp at h
  | cons a l ih => cases m with
    | nil => simp at h
    | cons b m =>
      simp only [List.map_cons, List.cons.injEq] at h
      rw [digitChar_inj (hl a (by simp)) (hm b (by simp)) h.1,
        ih (fun x hx => hl x (by simp [hx])) (fun x hx => hm x (by simp [hx])) h.2]

theorem digits_ne_nil (n : ℕ) : digits n ≠ [] := by
  unfold digits
  split
  · simp
  · rename_i h
    simpa [Nat.digits_eq_nil_iff_eq_zero] using h

theorem digits_zero_ne {n : ℕ} (h : n ≠ 0) : digits n ≠ ['0'] := by
  unfold digits
  rw [if_neg h]
  intro e
  have e : (Nat.digits 10 n).reverse.map Nat.digitChar = [0].map Nat.digitChar := e
  have e := map_digitChar_inj (fun a ha => Nat.digits_lt_base (by norm_num) (List.mem_reverse.1 ha))
    (by simp) e
  have e : Nat.digits 10 n = [0] := by simpa using congrArg List.reverse e
  have := Nat.ofDigits_digits 10 n
  rw [e] at this
  simp [Nat.ofDigits] at this
  omega

theorem digits_inj {m n : ℕ} (h : digits m = digits n) : m = n := by
  by_cases hm : m = 0
  · by_cases hn : n = 0
    · omega
    · subst hm
      exact absurd h.symm (digits_zero_ne hn)
  · by_cases hn : n = 0
    · subst hn
      exact absurd h (digits_zero_ne hm)
    · simp only [digits, hm, hn, if_false] at h
      have e := map_digitChar_inj (fun a ha => Nat.digits_lt_base (by norm_num) (List.mem_reverse.1 ha))
        (fun a ha => Nat.digits_lt_base (by norm_num) (List.mem_reverse.1 ha)) h
      exact Nat.digits_inj_iff.1 (List.reverse_inj.1 e)

theorem decimal_read {m n : ℤ} {r s : Text} (hr : ∀ c ∈ r.head?, ¬ IsDigit c) (hs : ∀ c ∈ s.head?, ¬ IsDigit c)
    (e : decimal m ++ r = decimal n ++ s) : m = n ∧ r = s := by
  have minus : ∀ (k : ℕ) (t u : Text), '-' :: t ≠ digits k ++ u := by
    intro k t u e
    cases hd : digits k with
    | nil => exact digits_ne_nil k hd
    | cons c l =>
      rw [hd] at e
      simp only [List.cons_append, List.cons.injEq] at e
      have := digits_isDigit k c (by simp [hd])
      rw [← e.1] at this
      simp [IsDigit] at this
  unfold decimal at e
  split at e <;> rename_i hm <;> split at e <;> rename_i hn
  · simp only [List.cons_append, List.cons.injEq, true_and] at e
    obtain ⟨e1, e2⟩ := split_class (K := IsDigit) (digits_isDigit _) (digits_isDigit _) hr hs e
    have := digits_inj e1
    exact ⟨by omega, e2⟩
  · exact absurd e (by simpa using minus _ _ _)
  · exact absurd e.symm (by simpa using minus _ _ _)
  · obtain ⟨e1, e2⟩ := split_class (K := IsDigit) (digits_isDigit _) (digits_isDigit _) hr hs e
    have := digits_inj e1
    exact ⟨by omega, e2⟩

end ICL.Stream
