import Verif.Theory.Checked
import Verif.Model.Machine
import Mathlib.Data.Int.Interval
import Mathlib.Data.Finset.Image

/-!
# The element functions with checks, and machine integers
-/

set_option linter.unusedSimpArgs false
set_option linter.unusedSectionVars false

namespace ICL

section
variable {D I : Type} [LinearOrder D]

theorem Steps.next_none (s : Steps D) {x : D} : s.next x = none ↔ ∀ y, y ≤ x := by
  rw [Steps.next]
  constructor
  · intro h y
    by_contra hc
    rw [if_pos ((s.hasNx_iff x).2 ⟨y, not_le.1 hc⟩)] at h
    cases h
  · intro h
    rw [if_neg]
    intro hc
    obtain ⟨y, hy⟩ := (s.hasNx_iff x).1 hc
    exact absurd (h y) (not_le.2 hy)

theorem Steps.prior_none (s : Steps D) {x : D} : s.prior x = none ↔ ∀ y, x ≤ y := by
  rw [Steps.prior]
  constructor
  · intro h y
    by_contra hc
    rw [if_pos ((s.hasPr_iff x).2 ⟨y, not_le.1 hc⟩)] at h
    cases h
  · intro h
    rw [if_neg]
    intro hc
    obtain ⟨y, hy⟩ := (s.hasPr_iff x).1 hc
    exact absurd (h y) (not_le.2 hy)

theorem Steps.next_some (s : Steps D) {x n : D} (h : s.next x = some n) : n = s.nx x ∧ x < s.nx x := by
  rw [Steps.next] at h
  by_cases hc : s.hasNx x = true
  · rw [if_pos hc] at h
    obtain ⟨y, hy⟩ := (s.hasNx_iff x).1 hc
    exact ⟨(Option.some.inj h).symm, s.lt_nx hy⟩
  · rw [if_neg hc] at h; cases h

theorem Steps.prior_some (s : Steps D) {x p : D} (h : s.prior x = some p) : p = s.pr x ∧ s.pr x < x := by
  rw [Steps.prior] at h
  by_cases hc : s.hasPr x = true
  · rw [if_pos hc] at h
    obtain ⟨y, hy⟩ := (s.hasPr_iff x).1 hc
    exact ⟨(Option.some.inj h).symm, s.pr_lt hy⟩
  · rw [if_neg hc] at h; cases h

theorem callC_eq_some {α β γ : Type} {f : α → β → γ} {a : Option α} {b : Option β} {r : γ} (h : callC f a b = some r) :
    ∃ x y, a = some x ∧ b = some y ∧ r = f x y := by
  cases a with
  | none => cases h
  | some x =>
    cases b with
    | none => cases h
    | some y => exact ⟨x, y, rfl, rfl, (Option.some.inj h).symm⟩

variable {o : IntervalOps D I} {e : ElementOps D I} {c : CheckedOps I} {ec : CheckedElementOps D I}

theorem CheckedClass.ends (h : CheckedClass o e c ec) {i : I} (hi : o.Nonempty i) :
    ec.first i = some (e.first i) ∧ ec.last i = some (e.last i) := by
  unfold IntervalOps.Nonempty IntervalOps.Mem at hi
  cases h with
  | rightOpen s zero =>
    obtain ⟨z, hz⟩ := hi
    simp only [rightOpenOps, Bool.and_eq_true, decide_eq_true_eq] at hz
    exact ⟨rfl, s.prior_eq hz.2⟩
  | leftOpen s zero =>
    obtain ⟨z, hz⟩ := hi
    simp only [leftOpenOps, Bool.and_eq_true, decide_eq_true_eq] at hz
    exact ⟨s.next_eq hz.1, rfl⟩
  | closed s zero unit h => exact ⟨rfl, rfl⟩
  | opn s zero =>
    obtain ⟨z, hz⟩ := hi
    simp only [openOps, Bool.and_eq_true, decide_eq_true_eq] at hz
    exact ⟨s.next_eq hz.1, s.prior_eq hz.2⟩
  | discrete s zero =>
    obtain ⟨z, hz⟩ := hi
    have hz' := (Dyn.contains_iff _ _).1 hz
    exact ⟨Disc.firstC_eq s hz'.1, Disc.lastC_eq s hz'.2⟩

theorem CheckedClass.lastNext_some (h : CheckedClass o e c ec) {i : I} {z : D} (hi : o.Nonempty i) (hz : e.last i < z) :
    ec.lastNext i = some (e.lastNext i) := by
  cases h with
  | rightOpen s zero => rfl
  | leftOpen s zero => exact s.next_eq hz
  | closed s zero unit h => exact s.next_eq hz
  | opn s zero => rfl
  | discrete s zero =>
    obtain ⟨lo, up, ⟨_ | _, _ | _⟩⟩ := i
    · rfl
    · exact s.next_eq hz
    · rfl
    · exact s.next_eq hz

theorem CheckedClass.lastNext_none (h : CheckedClass o e c ec) {i : I} (hi : o.Nonempty i) (hm : ∀ y, y ≤ e.last i) :
    ec.lastNext i = none := by
  unfold IntervalOps.Nonempty IntervalOps.Mem at hi
  obtain ⟨z, hz⟩ := hi
  cases h with
  | rightOpen s zero =>
    simp only [rightOpenOps, Bool.and_eq_true, decide_eq_true_eq] at hz
    have h1 := s.pr_lt hz.2
    exact absurd (hm i.up) (not_le.2 h1)
  | leftOpen s zero => exact s.next_none.2 hm
  | closed s zero unit h => exact s.next_none.2 hm
  | opn s zero =>
    simp only [openOps, Bool.and_eq_true, decide_eq_true_eq] at hz
    have h1 := s.pr_lt hz.2
    exact absurd (hm i.up) (not_le.2 h1)
  | discrete s zero =>
    have hz' := (Dyn.contains_iff _ _).1 hz
    obtain ⟨lo, up, ⟨_ | _, _ | _⟩⟩ := i
    · have h1 : z < up := hz'.2
      have h2 := s.pr_lt h1
      exact absurd (hm up) (not_le.2 h2)
    · exact s.next_none.2 hm
    · have h1 : z < up := hz'.2
      have h2 := s.pr_lt h1
      exact absurd (hm up) (not_le.2 h2)
    · exact s.next_none.2 hm

theorem containsFLC_eq {fc lc : I → Option D} {f l : I → D} {i : I} (h1 : fc i = some (f i)) (h2 : lc i = some (l i))
    (x : D) : containsFLC fc lc i x = some (containsFL f l i x) := by
  rw [containsFLC, containsFL, h1, h2, Option.map_some, Option.map_some, andC_some]

theorem CheckedClass.contains_eq (h : CheckedClass o e c ec) {i : I} (hi : o.Nonempty i) (x : D) :
    ec.contains i x = some (e.contains i x) := by
  have he := h.ends hi
  cases h with
  | discrete s zero => rfl
  | _ => exact containsFLC_eq he.1 he.2 x

theorem CheckedClass.singleton_mem (h : CheckedClass o e c ec) {x : D} {i : I} (hi : ec.singleton x = some i) :
    i = e.singleton x ∧ ∀ y, o.Mem y i ↔ y = x := by
  have key : i = e.singleton x ∧ o.isEmpty (e.singleton x) = false := by
    cases h with
    | rightOpen s zero =>
      obtain ⟨n, hn, rfl⟩ := Option.map_eq_some_iff.1 hi
      obtain ⟨rfl, hlt⟩ := s.next_some hn
      exact ⟨rfl, decide_eq_false (not_le.2 hlt)⟩
    | leftOpen s zero =>
      obtain ⟨n, hn, rfl⟩ := Option.map_eq_some_iff.1 hi
      obtain ⟨rfl, hlt⟩ := s.prior_some hn
      exact ⟨rfl, decide_eq_false (not_le.2 hlt)⟩
    | closed s zero unit h => exact ⟨(Option.some.inj hi).symm, decide_eq_false (lt_irrefl x)⟩
    | opn s zero =>
      obtain ⟨p, n, hp, hn, rfl⟩ := callC_eq_some hi
      obtain ⟨rfl, hlt⟩ := s.next_some hn
      obtain ⟨rfl, hlt'⟩ := s.prior_some hp
      refine ⟨rfl, ?_⟩
      show (decide (s.nx x ≤ s.pr x) || decide (s.nx x ≤ s.nx (s.pr x))) = false
      rw [s.nx_pr hlt', Bool.or_eq_false_iff, decide_eq_false_iff_not, decide_eq_false_iff_not, not_le, not_le]
      exact ⟨lt_trans hlt' hlt, hlt⟩
    | discrete s zero =>
      refine ⟨(Option.some.inj hi).symm, ?_⟩
      show decide (x < x) = false
      exact decide_eq_false (lt_irrefl x)
  obtain ⟨rfl, he⟩ := key
  exact ⟨rfl, h.disc.mem_singleton he⟩

end

section
variable {lo hi : ℤ} {I : Type} {o : IntervalOps (MInt lo hi) I} {e : ElementOps (MInt lo hi) I} {c : CheckedOps I}
  {ec : CheckedElementOps (MInt lo hi) I}

/-- The number of elements of a non-empty interval -/
theorem DiscreteClass.card (h : DiscreteClass o e) {i : I} (hne : o.Nonempty i) {F : Finset (MInt lo hi)}
    (hF : ∀ x, x ∈ F ↔ o.Mem x i) : (F.card : ℤ) = (e.last i).1 + 1 - (e.first i).1 ∧ (e.first i).1 ≤ (e.last i).1 := by
  have hle : (e.first i).1 ≤ (e.last i).1 := by
    obtain ⟨x, hx⟩ := hne
    have := (h.mem_iff ⟨x, hx⟩ x).1 hx
    exact le_trans this.1 this.2
  have hm : F.map (Function.Embedding.subtype _) = Finset.Icc (e.first i).1 (e.last i).1 := by
    ext x
    rw [Finset.mem_map, Finset.mem_Icc]
    constructor
    · rintro ⟨y, hy, rfl⟩
      exact (h.mem_iff hne y).1 ((hF y).1 hy)
    · intro hx
      refine ⟨⟨x, le_trans (e.first i).2.1 hx.1, le_trans hx.2 (e.last i).2.2⟩, (hF _).2 ((h.mem_iff hne _).2 hx), rfl⟩
  have hc : F.card = ((e.last i).1 + 1 - (e.first i).1).toNat := by
    rw [← Finset.card_map (Function.Embedding.subtype _), hm, Int.card_Icc]
  refine ⟨?_, hle⟩
  rw [hc, Int.toNat_of_nonneg (by omega)]

theorem MInt.isMax {x : MInt lo hi} : (∀ y, y ≤ x) ↔ x.1 = hi := by
  constructor
  · intro h
    have h1 : hi ≤ x.1 := h ⟨hi, le_trans x.2.1 x.2.2, le_refl _⟩
    have := x.2
    omega
  · intro h y
    show y.1 ≤ x.1
    have := y.2
    omega

/-- On machine integers `++x` is `x + 1` if it does not overflow, whatever it is otherwise. -/
theorem MInt.nx_val (s : Steps (MInt lo hi)) {x : MInt lo hi} (h : x.1 < hi) : (s.nx x).1 = x.1 + 1 := by
  have h0 := x.2
  have h1 : x < (⟨x.1 + 1, by omega, by omega⟩ : MInt lo hi) := show x.1 < x.1 + 1 by omega
  have h2 : x.1 < (s.nx x).1 := s.lt_nx h1
  have h3 : (s.nx x).1 ≤ x.1 + 1 := s.le_nx h1
  omega

theorem MInt.pr_val (s : Steps (MInt lo hi)) {x : MInt lo hi} (h : lo < x.1) : (s.pr x).1 = x.1 - 1 := by
  have h0 := x.2
  have h1 : (⟨x.1 - 1, by omega, by omega⟩ : MInt lo hi) < x := show x.1 - 1 < x.1 by omega
  have h2 : (s.pr x).1 < x.1 := s.pr_lt h1
  have h3 : x.1 - 1 ≤ (s.pr x).1 := s.pr_le h1
  omega

theorem CheckedClass.lastNext_val (h : CheckedClass o e c ec) {i : I} (hi' : o.Nonempty i) (hz : (e.last i).1 < hi) :
    ec.lastNext i = some (e.lastNext i) ∧ (e.lastNext i).1 = (e.last i).1 + 1 := by
  have h0 := (e.last i).2
  have h1 : e.last i < (⟨(e.last i).1 + 1, by omega, by omega⟩ : MInt lo hi) := show (e.last i).1 < (e.last i).1 + 1 by omega
  refine ⟨h.lastNext_some hi' h1, ?_⟩
  have h2 := h.disc.lastNext_eq hi' h1
  have h3 : e.last i < e.lastNext i := (h2 (e.last i)).2 (le_refl _)
  have h3' : (e.last i).1 < (e.lastNext i).1 := h3
  have h4 : ¬ (⟨(e.last i).1 + 1, by omega, by omega⟩ : MInt lo hi) < e.lastNext i := by
    rw [h2]; exact not_le.2 h1
  have h4' : ¬ (e.last i).1 + 1 < (e.lastNext i).1 := h4
  omega

end

section
variable {hi : ℤ} {I : Type} {o : IntervalOps (MInt 0 hi) I} {e : ElementOps (MInt 0 hi) I}

theorem UnsignedClass.disc (h : UnsignedClass hi o e) : DiscreteClass o e := by
  cases h with
  | rightOpen zero => exact .rightOpen _ zero
  | leftOpen zero => exact .leftOpen _ zero
  | closed zero unit h => exact .closed _ zero unit h
  | opn zero => exact .opn _ zero
  | discrete zero => exact .discrete _ zero

theorem wrapNext_mod (x : MInt 0 hi) : ((wrapSteps 0 hi).nx x).1 % (hi + 1) = (x.1 + 1) % (hi + 1) := by
  show (wrapNext x).1 % (hi + 1) = _
  rw [wrapNext]
  have := x.2
  by_cases h : x.1 < hi
  · rw [dif_pos h]
  · rw [dif_neg h, show x.1 = hi by omega, Int.emod_self, Int.zero_emod]

theorem wrapPrior_mod (x : MInt 0 hi) : x.1 % (hi + 1) = (((wrapSteps 0 hi).pr x).1 + 1) % (hi + 1) := by
  show _ = ((wrapPrior x).1 + 1) % (hi + 1)
  rw [wrapPrior]
  have := x.2
  by_cases h : 0 < x.1
  · rw [dif_pos h]; simp
  · rw [dif_neg h, show x.1 = 0 by omega, Int.emod_self, Int.zero_emod]

theorem UnsignedClass.lastNext_mod (h : UnsignedClass hi o e) (i : I) :
    (e.lastNext i).1 % (hi + 1) = ((e.last i).1 + 1) % (hi + 1) := by
  cases h with
  | rightOpen zero => exact wrapPrior_mod _
  | leftOpen zero => exact wrapNext_mod _
  | closed zero unit h => exact wrapNext_mod _
  | opn zero => exact wrapPrior_mod _
  | discrete zero =>
    obtain ⟨l, u, ⟨_ | _, _ | _⟩⟩ := i
    · exact wrapPrior_mod _
    · exact wrapNext_mod _
    · exact wrapPrior_mod _
    · exact wrapNext_mod _

end
end ICL
