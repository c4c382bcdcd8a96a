import Verif.ElementSpec
import Verif.Model.ElementMap
import Mathlib.Tactic.Order
import Mathlib.Tactic.Tauto
import Mathlib.Data.List.Basic
import Mathlib.Data.List.Perm.Subperm

/-!
# Lemmas on containers of elements
-/

set_option linter.unusedSectionVars false
set_option linter.unusedSimpArgs false
set_option linter.unusedVariables false

namespace ICL
open Spec

variable {D V S T : Type} [LinearOrder D]

namespace StdTree
variable {key : S → D} {key' : T → D}

theorem asc_nil : Ascending key [] := List.Pairwise.nil

theorem asc_cons {s : S} {m : List S} :
    Ascending key (s :: m) ↔ (∀ a ∈ m, key s < key a) ∧ Ascending key m := List.pairwise_cons

theorem asc_append {a b : List S} :
    Ascending key (a ++ b) ↔ Ascending key a ∧ Ascending key b ∧ ∀ x ∈ a, ∀ y ∈ b, key x < key y :=
  List.pairwise_append

theorem asc_unique {m : List S} (h : Ascending key m) {a b : S} (ha : a ∈ m) (hb : b ∈ m) (e : key a = key b) :
    a = b := by
  induction m with
  | nil => cases ha
  | cons s m ih =>
    obtain ⟨h1, h2⟩ := asc_cons.1 h
    rcases List.mem_cons.1 ha with ha' | ha' <;> rcases List.mem_cons.1 hb with hb' | hb'
    · exact ha'.trans hb'.symm
    · subst ha'; exact absurd e (h1 _ hb').ne
    · subst hb'; exact absurd e.symm (h1 _ ha').ne
    · exact ih h2 ha' hb'

theorem dropWhile_lt {m : List S} (h : Ascending key m) (k : D) :
    ∀ s ∈ m.dropWhile (fun s => decide (key s < k)), k ≤ key s := by
  induction m with
  | nil => intro s hs; cases hs
  | cons a m ih =>
    obtain ⟨h1, h2⟩ := asc_cons.1 h
    intro s hs
    by_cases ha : key a < k
    · rw [List.dropWhile_cons_of_pos (by simpa using ha)] at hs
      exact ih h2 s hs
    · rw [List.dropWhile_cons_of_neg (by simpa using ha)] at hs
      rcases List.mem_cons.1 hs with rfl | hs
      · exact not_lt.1 ha
      · exact (not_lt.1 ha).trans (h1 _ hs).le

theorem takeWhile_lt (m : List S) (k : D) :
    ∀ s ∈ m.takeWhile (fun s => decide (key s < k)), key s < k := fun s hs => by
  simpa using List.all_eq_true.1 List.all_takeWhile s hs

/-- `split` splits the list into smaller, equal and greater keys. -/
theorem split_spec {m : List S} (h : Ascending key m) (k : D) :
    m = (split key m k).1 ++ (split key m k).2.1.toList ++ (split key m k).2.2 ∧
    (∀ s ∈ (split key m k).1, key s < k) ∧ (∀ s ∈ (split key m k).2.1, key s = k) ∧
    ∀ s ∈ (split key m k).2.2, k < key s := by
  have e := List.takeWhile_append_dropWhile (p := fun s => decide (key s < k)) (l := m)
  have hd := dropWhile_lt h k
  have ht := takeWhile_lt (key := key) m k
  have hs : Ascending key (m.dropWhile fun s => decide (key s < k)) :=
    List.Pairwise.sublist (List.dropWhile_sublist _) h
  unfold split
  revert e hd hs
  cases m.dropWhile fun s => decide (key s < k) with
  | nil => intro e hd hs; simp at e ⊢; exact ⟨e.symm, by simpa using ht⟩
  | cons s post =>
    intro e hd hs
    obtain ⟨h1, h2⟩ := asc_cons.1 hs
    by_cases hk : k < key s
    · simp only [hk, if_true, Option.toList_none, List.append_nil, e, Option.not_mem_none, false_imp_iff,
        implies_true, true_and]
      refine ⟨ht, ?_⟩
      intro a ha
      rcases List.mem_cons.1 ha with rfl | ha
      · exact hk
      · exact hk.trans (h1 _ ha)
    · have he : key s = k := le_antisymm (not_lt.1 hk) (hd s (List.mem_cons_self ..))
      simp only [hk, if_false, Option.toList_some, List.append_assoc, List.singleton_append, e, true_and]
      refine ⟨ht, ?_, ?_⟩
      · intro a ha; rw [← Option.mem_some_iff.1 ha]; exact he
      · intro a ha; rw [← he]; exact h1 a ha

theorem find_eq_some {m : List S} (h : Ascending key m) {k : D} {s : S} :
    find key m k = some s ↔ s ∈ m ∧ key s = k := by
  obtain ⟨e, h1, h2, h3⟩ := split_spec h k
  unfold find
  constructor
  · intro hs
    refine ⟨?_, h2 s hs⟩
    rw [e, hs]; simp
  · rintro ⟨hm, hk⟩
    rw [e] at hm
    simp only [List.mem_append, Option.mem_toList] at hm
    rcases hm with (hm | hm) | hm
    · exact absurd hk (h1 s hm).ne
    · exact hm
    · exact absurd hk (h3 s hm).ne'

theorem find_eq_none {m : List S} (h : Ascending key m) {k : D} :
    find key m k = none ↔ ∀ s ∈ m, key s ≠ k := by
  rw [Option.eq_none_iff_forall_ne_some]
  constructor
  · intro hh s hs e; exact hh s ((find_eq_some h).2 ⟨hs, e⟩)
  · intro hh s e; exact hh s ((find_eq_some h).1 e).1 ((find_eq_some h).1 e).2

theorem find_isSome {m : List S} (h : Ascending key m) {k : D} :
    (find key m k).isSome = true ↔ ∃ s ∈ m, key s = k := by
  rw [Option.isSome_iff_exists]
  exact exists_congr fun s => find_eq_some h

theorem insert_spec {m : List S} (h : Ascending key m) (s : S) :
    Ascending key (insert key m s).1 ∧
    (∀ a, a ∈ (insert key m s).1 ↔ a ∈ m ∨ a = s ∧ ∀ b ∈ m, key b ≠ key s) ∧
    ((insert key m s).2 = true ↔ ∀ b ∈ m, key b ≠ key s) ∧
    ((insert key m s).2 = false → (insert key m s).1 = m) := by
  obtain ⟨e, h1, h2, h3⟩ := split_spec h (key s)
  have hf := find_eq_none h (k := key s)
  have hfs := fun a => find_eq_some h (k := key s) (s := a)
  unfold find at hf hfs
  unfold insert
  revert e h1 h2 h3 hf hfs
  rcases split key m (key s) with ⟨pre, c, post⟩
  intro e h1 h2 h3 hf hfs
  cases c with
  | none =>
    have hn := hf.1 rfl
    simp only [Option.toList_none, List.append_nil] at e
    subst e
    obtain ⟨a1, a2, a3⟩ := asc_append.1 h
    refine ⟨?_, ?_, by simp only [true_iff]; exact hn, by simp⟩
    · rw [asc_append, asc_cons]
      refine ⟨a1, ⟨h3, a2⟩, ?_⟩
      intro x hx y hy
      rcases List.mem_cons.1 hy with rfl | hy
      · exact h1 x hx
      · exact a3 x hx y hy
    · intro a; simp only [List.mem_append, List.mem_cons] at hn ⊢
      constructor
      · rintro (h | rfl | h)
        · exact .inl (.inl h)
        · exact .inr ⟨rfl, hn⟩
        · exact .inl (.inr h)
      · rintro ((h | h) | ⟨rfl, -⟩)
        · exact .inl h
        · exact .inr (.inr h)
        · exact .inr (.inl rfl)
  | some b =>
    have hb := (hfs b).1 rfl
    have : ¬ ∀ b ∈ m, key b ≠ key s := fun hh => hh b hb.1 hb.2
    refine ⟨h, ?_, by simp [this], by simp⟩
    intro a; constructor
    · exact .inl
    · rintro (h | ⟨-, h⟩)
      · exact h
      · exact absurd h this

theorem erase_spec {m : List S} (h : Ascending key m) (k : D) :
    Ascending key (erase key m k) ∧ ∀ a, a ∈ erase key m k ↔ a ∈ m ∧ key a ≠ k := by
  obtain ⟨e, h1, h2, h3⟩ := split_spec h k
  unfold erase
  revert e h1 h2 h3
  rcases split key m k with ⟨pre, c, post⟩
  intro e h1 h2 h3
  simp only at e h1 h2 h3 ⊢
  have hsub : (pre ++ post).Sublist m := by
    rw [e]; exact List.Sublist.append (List.sublist_append_left ..) (List.Sublist.refl _)
  refine ⟨h.sublist hsub, ?_⟩
  intro a
  constructor
  · intro ha
    refine ⟨hsub.subset ha, ?_⟩
    rcases List.mem_append.1 ha with ha | ha
    · exact (h1 a ha).ne
    · exact (h3 a ha).ne'
  · rintro ⟨ha, hk⟩
    rw [e] at ha
    simp only [List.mem_append, Option.mem_toList] at ha ⊢
    rcases ha with (ha | ha) | ha
    · exact .inl ha
    · exact absurd (h2 a ha) hk
    · exact .inr ha

theorem modify_spec {m : List S} (h : Ascending key m) (k : D) {f : S → S} (hf : ∀ s, key (f s) = key s) :
    Ascending key (modify key m k f) ∧
    ∀ a, a ∈ modify key m k f ↔ (a ∈ m ∧ key a ≠ k) ∨ ∃ s ∈ m, key s = k ∧ a = f s := by
  obtain ⟨e, h1, h2, h3⟩ := split_spec h k
  have hfn := find_eq_none h (k := k)
  unfold find at hfn
  unfold modify
  revert e h1 h2 h3 hfn
  rcases split key m k with ⟨pre, c, post⟩
  intro e h1 h2 h3 hfn
  cases c with
  | none =>
    have hn := hfn.1 rfl
    refine ⟨h, fun a => ?_⟩
    constructor
    · exact fun ha => .inl ⟨ha, hn a ha⟩
    · rintro (⟨ha, -⟩ | ⟨s, hs, hk, -⟩)
      · exact ha
      · exact absurd hk (hn s hs)
  | some b =>
    have hb : key b = k := h2 b rfl
    simp only [Option.toList_some, List.append_assoc, List.singleton_append] at e
    subst e
    obtain ⟨a1, a2, a3⟩ := asc_append.1 h
    obtain ⟨a4, a5⟩ := asc_cons.1 a2
    refine ⟨?_, fun a => ?_⟩
    · rw [asc_append, asc_cons]
      refine ⟨a1, ⟨fun a ha => by rw [hf]; exact a4 a ha, a5⟩, ?_⟩
      intro x hx y hy
      rcases List.mem_cons.1 hy with rfl | hy
      · rw [hf]; exact a3 x hx b (List.mem_cons_self ..)
      · exact a3 x hx y (List.mem_cons_of_mem _ hy)
    · simp only [List.mem_append, List.mem_cons]
      constructor
      · rintro (ha | rfl | ha)
        · exact .inl ⟨.inl ha, (h1 a ha).ne⟩
        · exact .inr ⟨b, .inr (.inl rfl), hb, rfl⟩
        · exact .inl ⟨.inr (.inr ha), (h3 a ha).ne'⟩
      · rintro (⟨ha | rfl | ha, hk⟩ | ⟨s, hs | rfl | hs, hk, rfl⟩)
        · exact .inl ha
        · exact absurd hb hk
        · exact .inr (.inr ha)
        · exact absurd hk (h1 s hs).ne
        · exact .inr (.inl rfl)
        · exact absurd hk (h3 s hs).ne'

/-- A container is determined by its members. -/
theorem asc_ext {l r : List S} (hl : Ascending key l) (hr : Ascending key r) (h : ∀ s, s ∈ l ↔ s ∈ r) : l = r := by
  induction l generalizing r with
  | nil => cases r with
    | nil => rfl
    | cons b r => exact absurd ((h b).2 (List.mem_cons_self ..)) (by simp)
  | cons a l ih =>
    cases r with
    | nil => exact absurd ((h a).1 (List.mem_cons_self ..)) (by simp)
    | cons b r =>
      obtain ⟨a1, a2⟩ := asc_cons.1 hl
      obtain ⟨b1, b2⟩ := asc_cons.1 hr
      have hab : a = b := by
        rcases List.mem_cons.1 ((h a).1 (List.mem_cons_self ..)) with e | e
        · exact e
        · rcases List.mem_cons.1 ((h b).2 (List.mem_cons_self ..)) with e' | e'
          · exact e'.symm
          · exact absurd (b1 _ e) (a1 _ e').asymm
      subst hab
      congr 1
      apply ih a2 b2
      intro s
      have := h s
      simp only [List.mem_cons] at this
      constructor
      · intro hs
        rcases this.1 (.inr hs) with rfl | h'
        · exact absurd (a1 _ hs) (lt_irrefl _)
        · exact h'
      · intro hs
        rcases this.2 (.inr hs) with rfl | h'
        · exact absurd (b1 _ hs) (lt_irrefl _)
        · exact h'

theorem dropWhile_cons_of_lt {m : List S} {k : D} {s : S} (h : key s < k) :
    (s :: m).dropWhile (fun s => decide (key s < k)) = m.dropWhile fun s => decide (key s < k) :=
  List.dropWhile_cons_of_pos (by simpa using h)

theorem mem_dropWhile_lt {m : List S} (h : Ascending key m) (k : D) {a : S} :
    a ∈ m.dropWhile (fun s => decide (key s < k)) ↔ a ∈ m ∧ k ≤ key a := by
  constructor
  · exact fun ha => ⟨(List.dropWhile_sublist _).subset ha, dropWhile_lt h k a ha⟩
  · rintro ⟨ha, hk⟩
    rw [← List.takeWhile_append_dropWhile (p := fun s => decide (key s < k)) (l := m)] at ha
    rcases List.mem_append.1 ha with ha | ha
    · exact absurd hk (not_le.2 (takeWhile_lt m k a ha))
    · exact ha

theorem mem_takeWhile_le {m : List S} (h : Ascending key m) (k : D) {a : S} :
    a ∈ m.takeWhile (fun s => !decide (k < key s)) ↔ a ∈ m ∧ key a ≤ k := by
  induction m with
  | nil => simp
  | cons s m ih =>
    obtain ⟨h1, h2⟩ := asc_cons.1 h
    by_cases hs : k < key s
    · rw [List.takeWhile_cons_of_neg (by simpa using hs)]
      simp only [List.not_mem_nil, List.mem_cons, false_iff, not_and, not_le]
      rintro (rfl | ha)
      · exact hs
      · exact hs.trans (h1 _ ha)
    · rw [List.takeWhile_cons_of_pos (by simpa using hs)]
      simp only [List.mem_cons, ih h2]
      constructor
      · rintro (rfl | h)
        · exact ⟨.inl rfl, not_lt.1 hs⟩
        · exact ⟨.inr h.1, h.2⟩
      · rintro ⟨rfl | h, hk⟩
        · exact .inl rfl
        · exact .inr ⟨h, hk⟩

theorem asc_head_le {m : List S} (h : Ascending key m) {f : S} (hf : m.head? = some f) {a : S} (ha : a ∈ m) :
    key f ≤ key a := by
  cases m with
  | nil => cases ha
  | cons s m =>
    cases hf
    rcases List.mem_cons.1 ha with rfl | ha
    · exact le_refl _
    · exact ((asc_cons.1 h).1 a ha).le

theorem asc_le_last {m : List S} (h : Ascending key m) {f : S} (hf : m.getLast? = some f) {a : S} (ha : a ∈ m) :
    key a ≤ key f := by
  have hne : m ≠ [] := by rintro rfl; cases ha
  rw [List.getLast?_eq_some_getLast hne] at hf
  cases hf
  rw [← List.dropLast_append_getLast hne] at h ha
  obtain ⟨_, _, h3⟩ := asc_append.1 h
  rcases List.mem_append.1 ha with ha | ha
  · exact (h3 a ha _ (List.mem_singleton.2 rfl)).le
  · rw [List.mem_singleton.1 ha]

/-- The common range has all nodes of `x1` whose keys are keys of `x2`. -/
theorem commonRange_spec {x1 : List S} {x2 : List T} (h1 : Ascending key x1) (h2 : Ascending key' x2) :
    match commonRange key' key x1 x2 with
    | none => ∀ a ∈ x1, ∀ b ∈ x2, key a ≠ key' b
    | some com => Ascending key com ∧ (∀ a ∈ com, a ∈ x1) ∧ ∀ a ∈ x1, ∀ b ∈ x2, key a = key' b → a ∈ com := by
  unfold commonRange
  cases e1 : x1.head? with
  | none =>
    have : x1 = [] := List.head?_eq_none_iff.1 e1
    subst this; simp
  | some f1 =>
    cases e2 : x1.getLast? with
    | none =>
      have : x1 = [] := List.getLast?_eq_none_iff.1 e2
      subst this; simp
    | some l1 =>
      cases e3 : x2.head? with
      | none =>
        have : x2 = [] := List.head?_eq_none_iff.1 e3
        subst this; simp
      | some f2 =>
        cases e4 : x2.getLast? with
        | none =>
          have : x2 = [] := List.getLast?_eq_none_iff.1 e4
          subst this; simp
        | some l2 =>
          simp only
          split_ifs with c1 c2
          · intro a ha b hb e
            have := asc_le_last h1 e2 ha
            have := asc_head_le h2 e3 hb
            order
          · intro a ha b hb e
            have := asc_head_le h1 e1 ha
            have := asc_le_last h2 e4 hb
            order
          · have hs : Ascending key (x1.dropWhile fun s => decide (key s < key' f2)) :=
              h1.sublist (List.dropWhile_sublist _)
            refine ⟨hs.sublist (List.takeWhile_sublist _), ?_, ?_⟩
            · intro a ha
              exact (List.dropWhile_sublist _).subset ((List.takeWhile_sublist _).subset ha)
            · intro a ha b hb e
              rw [mem_takeWhile_le hs, mem_dropWhile_lt h1]
              have := asc_head_le h2 e3 hb
              have := asc_le_last h2 e4 hb
              refine ⟨⟨ha, ?_⟩, ?_⟩ <;> order

theorem intersects_spec {l : List S} {r : List T} (hl : Ascending key l) (hr : Ascending key' r) :
    intersects key' key l r = true ↔ ∃ a ∈ l, ∃ b ∈ r, key a = key' b := by
  have h := commonRange_spec hr hl
  unfold intersects
  revert h
  cases commonRange key key' r l with
  | none =>
    intro h
    simp only [Bool.false_eq_true, false_iff]
    rintro ⟨a, ha, b, hb, e⟩
    exact h b hb a ha e.symm
  | some com =>
    rintro ⟨h1, h2, h3⟩
    simp only [List.any_eq_true, find_isSome hl]
    constructor
    · rintro ⟨b, hb, a, ha, e⟩; exact ⟨a, ha, b, h2 b hb, e⟩
    · rintro ⟨a, ha, b, hb, e⟩; exact ⟨b, h3 b hb a ha e.symm, a, ha, e⟩

theorem intersectsC_spec {l : List S} {r : List T} (hl : Ascending key l) (hr : Ascending key' r) :
    intersectsC key' key l r = true ↔ ∃ a ∈ l, ∃ b ∈ r, key a = key' b := by
  unfold intersectsC
  split_ifs
  · exact intersects_spec hl hr
  · rw [intersects_spec hr hl]
    constructor
    · rintro ⟨a, ha, b, hb, e⟩; exact ⟨b, hb, a, ha, e.symm⟩
    · rintro ⟨a, ha, b, hb, e⟩; exact ⟨b, hb, a, ha, e.symm⟩

theorem length_le_of_keys {l : List S} {r : List T} (hl : Ascending key l) (hr : Ascending key' r)
    (h : ∀ a ∈ l, ∃ b ∈ r, key a = key' b) : l.length ≤ r.length := by
  have n1 : (l.map key).Nodup := (List.pairwise_map.2 (hl.imp fun h => h.ne))
  have : l.map key ⊆ r.map key' := by
    intro x hx
    obtain ⟨a, ha, rfl⟩ := List.mem_map.1 hx
    obtain ⟨b, hb, e⟩ := h a ha
    exact e ▸ List.mem_map_of_mem hb
  simpa using (List.subperm_of_subset n1 this).length_le

theorem within_spec {co : S → T → Bool} {l : List S} {r : List T} (hl : Ascending key l) (hr : Ascending key' r) :
    within key' co key l r = true ↔ ∀ a ∈ l, ∃ b ∈ r, key a = key' b ∧ co a b = true := by
  have hc := commonRange_spec hl hr
  unfold within
  split_ifs with h1 h2 h3
  · simp only [List.isEmpty_iff] at h1; subst h1; simp
  · simp only [List.isEmpty_iff] at h1 h2
    subst h2
    cases l with
    | nil => exact absurd rfl h1
    | cons a l =>
      simp only [Bool.false_eq_true, false_iff]
      intro h
      obtain ⟨b, hb, -⟩ := h a (List.mem_cons_self ..)
      cases hb
  · simp only [Bool.false_eq_true, false_iff]
    intro h
    exact absurd (length_le_of_keys hl hr fun a ha => let ⟨b, hb, e, _⟩ := h a ha; ⟨b, hb, e⟩) (not_le.2 h3)
  · revert hc
    cases commonRange key' key l r with
    | none =>
      intro hc
      cases l with
      | nil => simp at h1
      | cons a l =>
        simp only [Bool.false_eq_true, false_iff]
        intro h
        obtain ⟨b, hb, e, _⟩ := h a (List.mem_cons_self ..)
        exact hc a (List.mem_cons_self ..) b hb e
    | some com =>
      intro hc
      simp only [List.all_eq_true]
      apply forall₂_congr
      intro a ha
      cases hf : find key' r (key a) with
      | none =>
        simp only [Bool.false_eq_true, false_iff]
        rintro ⟨b, hb, e, -⟩
        exact (find_eq_none hr).1 hf b hb e.symm
      | some b =>
        obtain ⟨hb, e⟩ := (find_eq_some hr).1 hf
        simp only
        constructor
        · exact fun h => ⟨b, hb, e.symm, h⟩
        · rintro ⟨b', hb', e', h⟩
          rwa [asc_unique hr hb hb' (e.trans e')]

/-! ### Inclusion comparison -/

/-- Every node of `l` has a counterpart in `r` that satisfies `p`. -/
def Covered (key : S → D) (key' : T → D) (p : S → T → Prop) (l : List S) (r : List T) : Prop :=
  ∀ a ∈ l, ∃ b ∈ r, key a = key' b ∧ p a b

theorem covered_cons {p : S → T → Prop} {s : S} {l : List S} {b : T} {r : List T} (hl : Ascending key (s :: l))
    (hr : Ascending key' (b :: r)) (e : key s = key' b) :
    Covered key key' p (s :: l) (b :: r) ↔ p s b ∧ Covered key key' p l r := by
  obtain ⟨l1, l2⟩ := asc_cons.1 hl
  obtain ⟨r1, r2⟩ := asc_cons.1 hr
  constructor
  · intro h
    constructor
    · obtain ⟨b', hb, e', h'⟩ := h s (List.mem_cons_self ..)
      rwa [asc_unique hr (List.mem_cons_self ..) hb (e.symm.trans e')]
    · intro a ha
      obtain ⟨b', hb, e', h'⟩ := h a (List.mem_cons_of_mem _ ha)
      rcases List.mem_cons.1 hb with rfl | hb
      · exact absurd (e'.trans e.symm) (l1 a ha).ne'
      · exact ⟨b', hb, e', h'⟩
  · rintro ⟨h1, h2⟩ a ha
    rcases List.mem_cons.1 ha with rfl | ha
    · exact ⟨b, List.mem_cons_self .., e, h1⟩
    · obtain ⟨b', hb, h⟩ := h2 a ha
      exact ⟨b', List.mem_cons_of_mem _ hb, h⟩

theorem not_covered_of_lt {p : S → T → Prop} {s : S} {l : List S} {r : List T} (hr : ∀ b ∈ r, key s < key' b) :
    ¬ Covered key key' p (s :: l) r := by
  intro h
  obtain ⟨b, hb, e, -⟩ := h s (List.mem_cons_self ..)
  exact absurd e (hr b hb).ne

/-- Dropping nodes that are less than all on the other side does not change what is covered. -/
theorem covered_dropWhile {p : S → T → Prop} {l : List S} {r : List T} {k : D} (hr : Ascending key' r)
    (hl : ∀ a ∈ l, k ≤ key a) :
    Covered key key' p l (r.dropWhile fun b => decide (key' b < k)) ↔ Covered key key' p l r := by
  apply forall₂_congr
  intro a ha
  constructor
  · rintro ⟨b, hb, h⟩; exact ⟨b, ((mem_dropWhile_lt hr k).1 hb).1, h⟩
  · rintro ⟨b, hb, e, h⟩; exact ⟨b, (mem_dropWhile_lt hr k).2 ⟨hb, e ▸ hl a ha⟩, e, h⟩

theorem restrict_unrelated {a b : Incl} (h : a.restrict b = .unrelated) :
    ¬ (a.sub = true ∧ b.sub = true) ∧ ¬ (a.sup = true ∧ b.sup = true) := by
  rcases a with ⟨_ | _, _ | _⟩ <;> rcases b with ⟨_ | _, _ | _⟩ <;> simp_all [Incl.restrict, Incl.unrelated]

theorem compareLoop_spec (co : S → T → Incl) (n : Nat) (res : Incl) {l : List S} {r : List T}
    (hl : Ascending key l) (hr : Ascending key' r) (hn : l.length + r.length < n) :
    ∃ c, compareLoop key' co key n res l r = some c ∧
      (c.sub = true ↔ res.sub = true ∧ Covered key key' (fun a b => (co a b).sub = true) l r) ∧
      (c.sup = true ↔ res.sup = true ∧ Covered key' key (fun b a => (co a b).sup = true) r l) := by
  induction n generalizing res l r with
  | zero => exact absurd hn (Nat.not_lt_zero _)
  | succ n ih =>
    have same : ∀ (res : Incl) (s : S) (l : List S) (b : T) (r : List T), Ascending key (s :: l) →
        Ascending key' (b :: r) → key s = key' b → l.length + r.length < n →
        ∃ c, (if res.restrict (co s b) = .unrelated then some (res.restrict (co s b))
            else compareLoop key' co key n (res.restrict (co s b)) l r) = some c ∧
          (c.sub = true ↔ res.sub = true ∧ Covered key key' (fun a b => (co a b).sub = true) (s :: l) (b :: r)) ∧
          (c.sup = true ↔ res.sup = true ∧ Covered key' key (fun b a => (co a b).sup = true) (b :: r) (s :: l)) := by
      intro res s l b r hl hr e hn
      rw [covered_cons hl hr e, covered_cons hr hl e.symm]
      split_ifs with hu
      · obtain ⟨u1, u2⟩ := restrict_unrelated hu
        refine ⟨_, rfl, ?_, ?_⟩ <;> rw [hu] <;> simp only [Incl.unrelated, Bool.false_eq_true, false_iff] <;> tauto
      · obtain ⟨c, h1, h2, h3⟩ := ih (res.restrict (co s b)) (asc_cons.1 hl).2 (asc_cons.1 hr).2 hn
        refine ⟨c, h1, ?_, ?_⟩
        · rw [h2]; simp only [Incl.restrict, Bool.and_eq_true]; tauto
        · rw [h3]; simp only [Incl.restrict, Bool.and_eq_true]; tauto
    unfold compareLoop
    cases l with
    | nil =>
      cases r with
      | nil => exact ⟨res, rfl, by simp [Covered], by simp [Covered]⟩
      | cons b r =>
        refine ⟨_, rfl, ?_, ?_⟩
        · simp [Covered, Incl.restrict, Incl.subset]
        · have : ¬ Covered key' key (fun b a => (co a b).sup = true) (b :: r) [] :=
            not_covered_of_lt (by simp)
          simp [this, Incl.restrict, Incl.subset]
    | cons s l =>
      cases r with
      | nil =>
        refine ⟨_, rfl, ?_, ?_⟩
        · have : ¬ Covered key key' (fun a b => (co a b).sub = true) (s :: l) [] :=
            not_covered_of_lt (by simp)
          simp [this, Incl.restrict, Incl.superset]
        · simp [Covered, Incl.restrict, Incl.superset]
      | cons b r =>
        obtain ⟨l1, l2⟩ := asc_cons.1 hl
        obtain ⟨r1, r2⟩ := asc_cons.1 hr
        simp only [List.length_cons] at hn
        dsimp only
        split_ifs with c1 c2 c3 c4
        · -- `s` is not in `b :: r`, and the result was a subset already
          have hsub : ¬ Covered key key' (fun a b => (co a b).sub = true) (s :: l) (b :: r) :=
            not_covered_of_lt fun a ha => by
              rcases List.mem_cons.1 ha with rfl | ha
              · exact c1
              · exact c1.trans (r1 a ha)
          refine ⟨_, rfl, ?_, ?_⟩ <;> rw [c2]
          · simp [hsub, Incl.unrelated]
          · obtain ⟨-, u⟩ := restrict_unrelated c2
            simp only [Incl.superset, and_true] at u
            simp [u, Incl.unrelated]
        · have hsub : ¬ Covered key key' (fun a b => (co a b).sub = true) (s :: l) (b :: r) :=
            not_covered_of_lt fun a ha => by
              rcases List.mem_cons.1 ha with rfl | ha
              · exact c1
              · exact c1.trans (r1 a ha)
          have hsup : Covered key' key (fun b a => (co a b).sup = true) (b :: r) (s :: l) ↔
              Covered key' key (fun b a => (co a b).sup = true) (b :: r)
                (l.dropWhile fun s => decide (key s < key' b)) := by
            rw [← dropWhile_cons_of_lt c1 (m := l), covered_dropWhile hl]
            intro a ha
            rcases List.mem_cons.1 ha with rfl | ha
            · exact le_refl _
            · exact (r1 a ha).le
          have hasc : Ascending key (l.dropWhile fun s => decide (key s < key' b)) :=
            l2.sublist (List.dropWhile_sublist _)
          have hge := dropWhile_lt l2 (key' b)
          have hlen := (List.dropWhile_sublist (fun s => decide (key s < key' b)) (l := l)).length_le
          revert hsup hasc hge hlen
          cases l.dropWhile fun s => decide (key s < key' b) with
          | nil =>
            intro hsup _ _ _
            have : ¬ Covered key' key (fun b a => (co a b).sup = true) (b :: r) (s :: l) := by
              rw [hsup]; exact not_covered_of_lt (by simp)
            exact ⟨_, rfl, by simp [hsub, Incl.unrelated], by simp [this, Incl.unrelated]⟩
          | cons j l' =>
            intro hsup hasc hge hlen
            by_cases hj : key' b < key j
            · have : ¬ Covered key' key (fun b a => (co a b).sup = true) (b :: r) (s :: l) := by
                rw [hsup]; exact not_covered_of_lt fun a ha => by
                  rcases List.mem_cons.1 ha with rfl | ha
                  · exact hj
                  · exact hj.trans ((asc_cons.1 hasc).1 a ha)
              simp only [hj, if_true]
              exact ⟨_, rfl, by simp [hsub, Incl.unrelated], by simp [this, Incl.unrelated]⟩
            · simp only [hj, if_false]
              have e : key j = key' b := le_antisymm (not_lt.1 hj) (hge j (List.mem_cons_self ..))
              obtain ⟨c, h1, h2, h3⟩ := same (res.restrict .superset) j l' b r hasc hr e
                (by simp only [List.length_cons] at hlen; omega)
              refine ⟨c, h1, ?_, ?_⟩
              · rw [h2]; simp [hsub, Incl.restrict, Incl.superset]
              · rw [h3, hsup]; simp [Incl.restrict, Incl.superset]
        · have hsup : ¬ Covered key' key (fun b a => (co a b).sup = true) (b :: r) (s :: l) :=
            not_covered_of_lt fun a ha => by
              rcases List.mem_cons.1 ha with rfl | ha
              · exact c3
              · exact c3.trans (l1 a ha)
          refine ⟨_, rfl, ?_, ?_⟩ <;> rw [c4]
          · obtain ⟨u, -⟩ := restrict_unrelated c4
            simp only [Incl.subset, and_true] at u
            simp [u, Incl.unrelated]
          · simp [hsup, Incl.unrelated]
        · have hsup : ¬ Covered key' key (fun b a => (co a b).sup = true) (b :: r) (s :: l) :=
            not_covered_of_lt fun a ha => by
              rcases List.mem_cons.1 ha with rfl | ha
              · exact c3
              · exact c3.trans (l1 a ha)
          have hsub : Covered key key' (fun a b => (co a b).sub = true) (s :: l) (b :: r) ↔
              Covered key key' (fun a b => (co a b).sub = true) (s :: l)
                (r.dropWhile fun b => decide (key' b < key s)) := by
            rw [← dropWhile_cons_of_lt c3 (m := r), covered_dropWhile hr]
            intro a ha
            rcases List.mem_cons.1 ha with rfl | ha
            · exact le_refl _
            · exact (l1 a ha).le
          have hasc : Ascending key' (r.dropWhile fun b => decide (key' b < key s)) :=
            r2.sublist (List.dropWhile_sublist _)
          have hge := dropWhile_lt r2 (key s)
          have hlen := (List.dropWhile_sublist (fun b => decide (key' b < key s)) (l := r)).length_le
          revert hsub hasc hge hlen
          cases r.dropWhile fun b => decide (key' b < key s) with
          | nil =>
            intro hsub _ _ _
            have : ¬ Covered key key' (fun a b => (co a b).sub = true) (s :: l) (b :: r) := by
              rw [hsub]; exact not_covered_of_lt (by simp)
            exact ⟨_, rfl, by simp [this, Incl.unrelated], by simp [hsup, Incl.unrelated]⟩
          | cons j r' =>
            intro hsub hasc hge hlen
            by_cases hj : key s < key' j
            · have : ¬ Covered key key' (fun a b => (co a b).sub = true) (s :: l) (b :: r) := by
                rw [hsub]; exact not_covered_of_lt fun a ha => by
                  rcases List.mem_cons.1 ha with rfl | ha
                  · exact hj
                  · exact hj.trans ((asc_cons.1 hasc).1 a ha)
              simp only [hj, if_true]
              exact ⟨_, rfl, by simp [this, Incl.unrelated], by simp [hsup, Incl.unrelated]⟩
            · simp only [hj, if_false]
              have e : key s = key' j := le_antisymm (hge j (List.mem_cons_self ..)) (not_lt.1 hj)
              obtain ⟨c, h1, h2, h3⟩ := same (res.restrict .subset) s l j r' hl hasc e
                (by simp only [List.length_cons] at hlen; omega)
              refine ⟨c, h1, ?_, ?_⟩
              · rw [h2, hsub]; simp [Incl.restrict, Incl.subset]
              · rw [h3]; simp [hsup, Incl.restrict, Incl.subset]
        · have := same res s l b r hl hr (le_antisymm (not_lt.1 c3) (not_lt.1 c1)) (by omega)
          rwa [if_pos (by assumption)] at this
        · have := same res s l b r hl hr (le_antisymm (not_lt.1 c3) (not_lt.1 c1)) (by omega)
          rwa [if_neg (by assumption)] at this

theorem inclusionCompare_spec (co : S → T → Incl) {l : List S} {r : List T} (hl : Ascending key l)
    (hr : Ascending key' r) :
    ∃ c, inclusionCompare key' co key l r = some c ∧
      (c.sub = true ↔ Covered key key' (fun a b => (co a b).sub = true) l r) ∧
      (c.sup = true ↔ Covered key' key (fun b a => (co a b).sup = true) r l) := by
  obtain ⟨c, h1, h2, h3⟩ := compareLoop_spec co (l.length + r.length + 1) .equal hl hr (Nat.lt_succ_self _)
  exact ⟨c, h1, by simpa [Incl.equal] using h2, by simpa [Incl.equal] using h3⟩

end StdTree

/-! ## Values of keys -/

section Values
variable {m r : List (D × V)}

theorem valueOf_eq_some (h : Ascending Prod.fst m) {x : D} {v : V} : valueOf m x = some v ↔ (x, v) ∈ m := by
  unfold valueOf
  rw [Option.map_eq_some_iff]
  constructor
  · rintro ⟨⟨a, b⟩, h1, rfl⟩
    have := List.find?_some h1
    have h3 := List.mem_of_find?_eq_some h1
    simp only [decide_eq_true_eq] at this
    exact this ▸ h3
  · intro hm
    cases hf : m.find? fun s => decide (s.1 = x) with
    | none => exact absurd (List.find?_eq_none.1 hf _ hm) (by simp)
    | some s =>
      have h1 := List.find?_some hf
      have h3 := List.mem_of_find?_eq_some hf
      simp only [decide_eq_true_eq] at h1
      exact ⟨s, rfl, by rw [StdTree.asc_unique h h3 hm h1]⟩

theorem valueOf_eq_none (h : Ascending Prod.fst m) {x : D} : valueOf m x = none ↔ ∀ s ∈ m, s.1 ≠ x := by
  unfold valueOf
  simp [List.find?_eq_none]

/-- Two lists of pairs with the same members have the same values. -/
theorem valueOf_congr (hm : Ascending Prod.fst m) {g : D → Option V}
    (h : ∀ x v, (x, v) ∈ m ↔ g x = some v) (x : D) : valueOf m x = g x := by
  apply Option.ext
  intro v
  rw [← h x v]
  exact valueOf_eq_some hm

theorem find_valueOf (h : Ascending Prod.fst m) (x : D) : EMap.find m x = (valueOf m x).map fun v => (x, v) := by
  apply Option.ext
  rintro ⟨a, b⟩
  unfold EMap.find
  rw [StdTree.find_eq_some h]
  simp only [Option.map_eq_some_iff, Prod.mk.injEq, valueOf_eq_some h]
  constructor
  · rintro ⟨h1, rfl⟩; exact ⟨b, h1, rfl, rfl⟩
  · rintro ⟨v, h1, rfl, rfl⟩; exact ⟨h1, rfl⟩

theorem valueOf_insert (h : Ascending Prod.fst m) (x : D) (v : V) :
    Ascending Prod.fst (StdTree.insert Prod.fst m (x, v)).1 ∧
    (∀ y, valueOf (StdTree.insert Prod.fst m (x, v)).1 y = if y = x then some ((valueOf m x).getD v) else valueOf m y) ∧
    ((StdTree.insert Prod.fst m (x, v)).2 = true ↔ valueOf m x = none) ∧
    ((StdTree.insert Prod.fst m (x, v)).2 = false → (StdTree.insert Prod.fst m (x, v)).1 = m) := by
  obtain ⟨h1, h2, h3, h4⟩ := StdTree.insert_spec h (x, v)
  have hN := valueOf_eq_none h (x := x)
  refine ⟨h1, ?_, by rw [h3, hN], h4⟩
  refine valueOf_congr h1 ?_
  intro y w
  rw [h2, ← hN]
  split_ifs with hy
  · subst hy
    cases hv : valueOf m y with
    | none =>
      have := (valueOf_eq_none h).1 hv
      simp only [Prod.mk.injEq, true_and, and_true, Option.getD_none, Option.some.injEq]
      constructor
      · rintro (hm | rfl)
        · exact absurd rfl (this _ hm)
        · rfl
      · exact fun e => .inr e.symm
    | some u =>
      simp only [reduceCtorEq, and_false, or_false, Option.getD_some, ← valueOf_eq_some h, hv]
  · simp only [Prod.mk.injEq, hy, false_and, or_false, ← valueOf_eq_some h]

theorem valueOf_erase (h : Ascending Prod.fst m) (x : D) :
    Ascending Prod.fst (StdTree.erase Prod.fst m x) ∧
    ∀ y, valueOf (StdTree.erase Prod.fst m x) y = if y = x then none else valueOf m y := by
  obtain ⟨h1, h2⟩ := StdTree.erase_spec h x
  refine ⟨h1, ?_⟩
  refine valueOf_congr h1 ?_
  intro y w
  rw [h2]
  split_ifs with hy
  · simp [hy]
  · simp [hy, ← valueOf_eq_some h]

theorem valueOf_modify (h : Ascending Prod.fst m) (x : D) (f : V → V) :
    Ascending Prod.fst (StdTree.modify Prod.fst m x fun s => (s.1, f s.2)) ∧
    ∀ y, valueOf (StdTree.modify Prod.fst m x fun s => (s.1, f s.2)) y =
      if y = x then (valueOf m x).map f else valueOf m y := by
  obtain ⟨h1, h2⟩ := StdTree.modify_spec h x (f := fun s => (s.1, f s.2)) fun _ => rfl
  refine ⟨h1, ?_⟩
  refine valueOf_congr h1 ?_
  intro y w
  rw [h2]
  split_ifs with hy
  · subst hy
    simp only [ne_eq, not_true_eq_false, and_false, false_or, Prod.mk.injEq, Option.map_eq_some_iff,
      valueOf_eq_some h]
    constructor
    · rintro ⟨⟨a, b⟩, h3, rfl, e1, rfl⟩; exact ⟨b, h3, rfl⟩
    · rintro ⟨b, h3, rfl⟩; exact ⟨(y, b), h3, rfl, rfl, rfl⟩
  · simp only [ne_eq, hy, not_false_eq_true, and_true, Prod.mk.injEq, valueOf_eq_some h, or_iff_left_iff_imp]
    rintro ⟨s, -, e1, e2, -⟩
    exact absurd (e2.trans e1) hy

theorem valueOf_map (f : V → V) (h : Ascending Prod.fst m) :
    Ascending Prod.fst (m.map fun s => (s.1, f s.2)) ∧
    ∀ y, valueOf (m.map fun s => (s.1, f s.2)) y = (valueOf m y).map f := by
  have h1 : Ascending Prod.fst (m.map fun s => (s.1, f s.2)) := List.pairwise_map.2 h
  refine ⟨h1, valueOf_congr h1 ?_⟩
  intro y w
  simp only [List.mem_map, Prod.mk.injEq, Option.map_eq_some_iff, valueOf_eq_some h]
  constructor
  · rintro ⟨⟨a, b⟩, h3, rfl, rfl⟩; exact ⟨b, h3, rfl⟩
  · rintro ⟨b, h3, rfl⟩; exact ⟨(y, b), h3, rfl, rfl⟩

/-- Two element maps with the same values are equal. -/
theorem valueOf_ext (hm : Ascending Prod.fst m) (hr : Ascending Prod.fst r)
    (h : ∀ x, valueOf m x = valueOf r x) : m = r := by
  apply StdTree.asc_ext hm hr
  rintro ⟨x, v⟩
  rw [← valueOf_eq_some hm, ← valueOf_eq_some hr, h]

/-- What a loop over a map does if each round acts on one key. -/
theorem foldl_valueOf {g : List (D × V) → D → V → List (D × V)} {h : V → Option V → Option V}
    (hg : ∀ m, Ascending Prod.fst m → ∀ x v, Ascending Prod.fst (g m x v) ∧
      ∀ y, valueOf (g m x v) y = if y = x then h v (valueOf m y) else valueOf m y)
    (hr : Ascending Prod.fst r) (hm : Ascending Prod.fst m) :
    Ascending Prod.fst (r.foldl (fun m s => g m s.1 s.2) m) ∧
    ∀ y, valueOf (r.foldl (fun m s => g m s.1 s.2) m) y =
      match valueOf r y with
      | none => valueOf m y
      | some v => h v (valueOf m y) := by
  induction r generalizing m with
  | nil => exact ⟨hm, fun y => rfl⟩
  | cons s r ih =>
    obtain ⟨r1, r2⟩ := StdTree.asc_cons.1 hr
    obtain ⟨g1, g2⟩ := hg m hm s.1 s.2
    obtain ⟨i1, i2⟩ := ih r2 g1
    refine ⟨i1, fun y => ?_⟩
    rw [List.foldl_cons, i2 y, g2 y]
    by_cases hy : y = s.1
    · subst hy
      have e1 : valueOf r s.1 = none := (valueOf_eq_none r2).2 fun a ha => (r1 a ha).ne'
      have e2 : valueOf (s :: r) s.1 = some s.2 := (valueOf_eq_some hr).2 (List.mem_cons_self ..)
      rw [e1, e2]; simp
    · have e : valueOf (s :: r) y = valueOf r y := by
        unfold valueOf
        rw [List.find?_cons_of_neg]
        simpa using fun e => hy e.symm
      rw [e]; simp [hy]

/-- What a loop over a list of keys does if each round acts on one key. -/
theorem foldl_keys {g : List (D × V) → D → List (D × V)} {h : D → Option V → Option V}
    (hh : ∀ x a, h x (h x a) = h x a)
    (hg : ∀ m, Ascending Prod.fst m → ∀ x, Ascending Prod.fst (g m x) ∧
      ∀ y, valueOf (g m x) y = if y = x then h x (valueOf m y) else valueOf m y)
    (l : List D) (hm : Ascending Prod.fst m) :
    Ascending Prod.fst (l.foldl g m) ∧
    ∀ y, valueOf (l.foldl g m) y = if y ∈ l then h y (valueOf m y) else valueOf m y := by
  induction l generalizing m with
  | nil => exact ⟨hm, fun y => by simp⟩
  | cons s l ih =>
    obtain ⟨g1, g2⟩ := hg m hm s
    obtain ⟨i1, i2⟩ := ih g1
    refine ⟨i1, fun y => ?_⟩
    rw [List.foldl_cons, i2 y, g2 y]
    by_cases hy : y = s
    · subst hy; simp [hh]
    · simp [hy]

end Values
end ICL
