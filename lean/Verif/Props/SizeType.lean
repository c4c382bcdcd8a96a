import Mathlib.Data.Set.Card
import Mathlib.Order.Interval.Set.Infinite
import Verif.SizeSpec
import Verif.Props.Observers

/-!
# C69: `cardinality` over continuous domains tells finite from infinite containers

The type of sizes has a value `infinity`, which may also be a number of elements.
-/

set_option linter.unusedSectionVars false

namespace ICL.Props
open Spec

section
variable {D I V S Z : Type} [LinearOrder D] [DecidableEq I] [DecidableEq Z] {o : IntervalOps D I} {z : SizeOps Z}
  {card : I → Z}

/-- The same class with sizes in `ℕ∞` -/
theorem SizedClass.extended (h : SizedClass z o card) : ∃ cardE lo up, ContinuousClass o cardE lo up ∧
    ∀ i, (cardE i = 0 ∧ card i = z.zero) ∨ (cardE i = 1 ∧ card i = z.one) ∨ (cardE i = ⊤ ∧ card i = z.inf) := by
  cases h with
  | rightOpen zero =>
    refine ⟨_, _, _, .rightOpen zero, fun i => ?_⟩
    simp only [cardinalityHalfOpen, Sized.cardinalityHalfOpen]; split <;> simp
  | leftOpen zero =>
    refine ⟨_, _, _, .leftOpen zero, fun i => ?_⟩
    simp only [cardinalityHalfOpen, Sized.cardinalityHalfOpen]; split <;> simp
  | continuous zero =>
    refine ⟨_, _, _, .continuous zero, fun i => ?_⟩
    simp only [cardinalityDyn, Sized.cardinalityDyn]; split
    · simp
    · split <;> simp

/-- `cardinality(i)`: zero for an empty interval, one for one element, else there are infinitely many elements and it is
`infinity`. -/
theorem C69_interval (h : SizedClass z o card) (i : I) :
    ({x | In o x i} = ∅ ∧ card i = z.zero) ∨ ((∃ a, {x | In o x i} = {a}) ∧ card i = z.one) ∨
      ({x | In o x i}.Infinite ∧ card i = z.inf) := by
  obtain ⟨cardE, lo, up, hc, hz⟩ := SizedClass.extended h
  have he := C28_continuous_cardinality_interval hc i
  rcases hz i with ⟨e, h'⟩ | ⟨e, h'⟩ | ⟨e, h'⟩ <;> rw [e] at he
  · exact .inl ⟨Set.encard_eq_zero.1 he.symm, h'⟩
  · exact .inr (.inl ⟨Set.encard_eq_one.1 he.symm, h'⟩)
  · exact .inr (.inr ⟨Set.encard_eq_top_iff.1 he.symm, h'⟩)

private theorem loop_tally (g : SegOps I V S) {cardE : I → ℕ∞}
    (hc : ∀ i, (∃ x, In o x i) → (cardE i = 1 ∧ card i = z.one) ∨ (cardE i = ⊤ ∧ card i = z.inf))
    (l : List S) (hl : ∀ s ∈ l, ∃ x, In o x (g.key s)) (n : Nat) :
    (ICL.cardinalityLoop cardE g n l = ⊤ → Sized.cardinalityLoop z card g (tally z n) l = z.inf) ∧
    ∀ k : Nat, z.one ≠ z.inf → ICL.cardinalityLoop cardE g n l = k →
      Sized.cardinalityLoop z card g (tally z n) l = tally z k := by
  induction l generalizing n with
  | nil =>
    refine ⟨fun h => absurd h (ENat.natCast_ne_top n), fun k _ h => ?_⟩
    simp only [ICL.cardinalityLoop, Nat.cast_inj] at h
    rw [h]; rfl
  | cons s l ih =>
    simp only [ICL.cardinalityLoop, Sized.cardinalityLoop]
    rcases hc (g.key s) (hl s (List.mem_cons_self ..)) with ⟨e, e'⟩ | ⟨e, e'⟩
    · have ih := ih (fun s' h => hl s' (List.mem_cons_of_mem _ h)) (n + 1)
      rw [e, e', if_neg (by decide)]
      have hn : ((n + 1 : Nat) : ℕ∞) = n + 1 := by push_cast; rfl
      rw [hn] at ih
      refine ⟨fun h => ?_, fun k h1 h => ?_⟩
      · by_cases h1 : z.one = z.inf
        · rw [if_pos h1, h1]
        · rw [if_neg h1]; exact ih.1 h
      · rw [if_neg h1]; exact ih.2 k h1 h
    · rw [e, e', if_pos rfl, if_pos rfl]
      exact ⟨fun _ => rfl, fun k _ h => absurd h.symm (ENat.natCast_ne_top k)⟩

private theorem cardinality_both (h : SizedClass z o card) (g : SegOps I V S) {l : List S} (hw : WF o g l) :
    ({x | Dom o g l x}.Infinite → Sized.cardinality z card g l = z.inf) ∧
    (z.one ≠ z.inf → {x | Dom o g l x}.Finite → Sized.cardinality z card g l = tally z {x | Dom o g l x}.ncard) := by
  obtain ⟨cardE, lo, up, hc, hz⟩ := SizedClass.extended h
  have hcard := hc.cardinality_eq hw
  have hne : ∀ s ∈ l, ∃ x, In o x (g.key s) := hw.nonempty
  have hcase : ∀ i, (∃ x, In o x i) → (cardE i = 1 ∧ card i = z.one) ∨ (cardE i = ⊤ ∧ card i = z.inf) := fun i hi => by
    rcases hz i with ⟨e, _⟩ | h | h
    · rw [C28_continuous_cardinality_interval hc, Set.encard_eq_zero] at e
      obtain ⟨x, hx⟩ := hi
      exact absurd (show x ∈ {x | In o x i} from hx) (by rw [e]; exact Set.notMem_empty x)
    · exact .inl h
    · exact .inr h
  have key := loop_tally (z := z) g hcase l hne 0
  refine ⟨fun hi => key.1 ?_, fun h1 hf => key.2 _ h1 ?_⟩
  · exact hcard.trans (Set.encard_eq_top_iff.2 hi)
  · exact hcard.trans hf.cast_ncard_eq.symm

/-- `cardinality(s)`: `infinity` if there are infinitely many elements, else as many ones as there are elements, added
up in the type of sizes. -/
theorem C69_set (h : SizedClass z o card) {s : List I} (hs : WellFormed o s) :
    ({x | Elem o s x}.Infinite → Sized.cardinality z card setSeg s = z.inf) ∧
    (z.one ≠ z.inf → {x | Elem o s x}.Finite →
      Sized.cardinality z card setSeg s = tally z {x | Elem o s x}.ncard) :=
  cardinality_both h setSeg (wellFormed_iff.1 hs)

/-- The same for maps and their keys -/
theorem C69_map (h : SizedClass z o card) {m : List (I × V)} (hm : MapWellFormed o m) :
    ({x | Key o m x}.Infinite → Sized.cardinality z card mapSeg m = z.inf) ∧
    (z.one ≠ z.inf → {x | Key o m x}.Finite →
      Sized.cardinality z card mapSeg m = tally z {x | Key o m x}.ncard) :=
  cardinality_both h mapSeg (mapWellFormed_iff.1 hm)

/-- If `infinity` is the default constructed value, which is zero as well, infinite sets have cardinality zero. -/
theorem C69_default (h : SizedClass z o card) (hz : z.inf = z.zero) {s : List I} (hs : WellFormed o s)
    (hi : {x | Elem o s x}.Infinite) : Sized.cardinality z card setSeg s = z.zero := by
  rw [(C69_set h hs).1 hi, hz]

end

/-! ## Which types of sizes tell finite from infinite sets -/

section
variable {D Z : Type} [LinearOrder D] [DecidableEq Z] {z : SizeOps Z}

/-- `{[f 0, f 0], ..., [f (n-1), f (n-1)]}` -/
def points (f : Nat → D) (n : Nat) : List (DItv D) := (List.range n).map fun i => ⟨f i, f i, Bounds.closed⟩

theorem in_point (zero a x : D) : In (continuousOps zero) x ⟨a, a, Bounds.closed⟩ ↔ x = a := by
  simp only [In, continuousOps, Dyn.contains, Bounds.closed, Bounds.isLeftClosed, Bounds.isRightClosed, if_true,
    Bool.and_eq_true, decide_eq_true_eq]
  exact ⟨fun h => le_antisymm h.2 h.1, fun e => ⟨e.ge, e.le⟩⟩

theorem points_spec (zero : D) {f : Nat → D} (hf : StrictMono f) (n : Nat) :
    WellFormed (continuousOps zero) (points f n) ∧
    {x | Elem (continuousOps zero) (points f n) x} = f '' (Finset.range n : Set Nat) := by
  refine ⟨⟨fun i hi => ?_, ?_⟩, Set.ext fun x => ?_⟩
  · obtain ⟨k, _, rfl⟩ := List.mem_map.1 hi
    exact ⟨f k, (in_point ..).2 rfl⟩
  · refine List.pairwise_map.2 (List.pairwise_lt_range.imp fun {a b} hab x y hx hy => ?_)
    rw [in_point] at hx hy
    rw [hx, hy]; exact hf hab
  · constructor
    · rintro ⟨i, hi, hx⟩
      obtain ⟨k, hk, rfl⟩ := List.mem_map.1 hi
      exact ⟨k, by simpa using hk, ((in_point ..).1 hx).symm⟩
    · rintro ⟨k, hk, rfl⟩
      exact ⟨_, List.mem_map.2 ⟨k, by simpa using hk, rfl⟩, (in_point ..).2 rfl⟩

theorem points_card (zero : D) {f : Nat → D} (hf : StrictMono f) (n : Nat) :
    {x | Elem (continuousOps zero) (points f n) x}.Finite ∧
    {x | Elem (continuousOps zero) (points f n) x}.ncard = n := by
  rw [(points_spec zero hf n).2]
  exact ⟨(Finset.finite_toSet _).image f, by
    rw [Set.ncard_image_of_injective _ hf.injective, Set.ncard_coe_finset, Finset.card_range]⟩

/-- `cardinality(s) == infinity` holds exactly for the infinite sets `s` of `continuous_interval`s, if and only if no
sum of ones is `infinity`. -/
theorem C69_continuous_exact [DenselyOrdered D] [NoMaxOrder D] [NoMinOrder D] (zero : D) :
    (∀ s, WellFormed (continuousOps zero) s →
      (Sized.cardinality z (Sized.cardinalityDyn z (continuousOps zero)) setSeg s = z.inf ↔
        {x | Elem (continuousOps zero) s x}.Infinite)) ↔ z.one ≠ z.inf ∧ ∀ n, tally z n ≠ z.inf := by
  have hcl : SizedClass z (continuousOps zero) (Sized.cardinalityDyn z (continuousOps zero)) := .continuous zero
  have : Nonempty D := ⟨zero⟩
  obtain ⟨f, hf⟩ := Nat.exists_strictMono D
  constructor
  · intro h
    have h1 : z.one ≠ z.inf := fun e => by
      have hi := (h (points f 1) (points_spec zero hf 1).1).1 (by
        have hne : (continuousOps zero).isEmpty ⟨f 0, f 0, Bounds.closed⟩ = false :=
          (nonempty_iff (IntervalClass.continuous zero).lawful).1 ⟨f 0, (in_point ..).2 rfl⟩
        have : Sized.cardinalityDyn z (continuousOps zero) ⟨f 0, f 0, Bounds.closed⟩ = z.inf := by
          simp [Sized.cardinalityDyn, hne, e]
        simp [points, Sized.cardinality, Sized.cardinalityLoop, setSeg, this])
      exact hi (points_card zero hf 1).1
    refine ⟨h1, fun n e => ?_⟩
    obtain ⟨hfin, hn⟩ := points_card zero hf n
    have hw := (points_spec zero hf n).1
    exact (h _ hw).1 (by rw [(C69_set hcl hw).2 h1 hfin, hn, e]) hfin
  · rintro ⟨h1, h⟩ s hs
    refine ⟨fun e hfin => ?_, (C69_set hcl hs).1⟩
    rw [(C69_set hcl hs).2 h1 hfin] at e
    exact h _ e

/-- Sets of half open intervals have no element or infinitely many, so `infinity` has only to differ from zero. -/
theorem C69_half_open_exact [DenselyOrdered D] (zero : D) :
    (∀ s, WellFormed (rightOpenOps zero) s →
      (Sized.cardinality z (Sized.cardinalityHalfOpen z (rightOpenOps zero)) setSeg s = z.inf ↔
        {x | Elem (rightOpenOps zero) s x}.Infinite)) ↔ z.zero ≠ z.inf := by
  have hcl : SizedClass z (rightOpenOps zero) (Sized.cardinalityHalfOpen z (rightOpenOps zero)) := .rightOpen zero
  constructor
  · intro h e
    have := (h [] ⟨by simp, by simp⟩).1 (by simpa [Sized.cardinality, Sized.cardinalityLoop] using e)
    exact this (by simp [Elem])
  · intro h0 s hs
    refine ⟨fun e => ?_, (C69_set hcl hs).1⟩
    cases s with
    | nil => exact absurd (by simpa [Sized.cardinality, Sized.cardinalityLoop] using e) h0
    | cons i s =>
      obtain ⟨x, hx⟩ := hs.1 i (List.mem_cons_self ..)
      have hlt : i.lo ≤ x ∧ x < i.up := by simpa [In, rightOpenOps] using hx
      refine Set.Infinite.mono ?_ (Set.Ico_infinite (hlt.1.trans_lt hlt.2))
      rintro y ⟨h1, h2⟩
      exact ⟨i, List.mem_cons_self .., by simp [In, rightOpenOps, h1, h2]⟩

/-! ## `std::size_t` -/

theorem tally_unsigned (w n : Nat) : tally (SizeOps.unsigned w) n = BitVec.ofNat w n := by
  induction n with
  | zero => rfl
  | succ n ih => rw [tally, ih]; simp [SizeOps.unsigned, BitVec.ofNat_add]

private theorem one_ne_inf {w : Nat} (hw : 2 ≤ w) : (SizeOps.unsigned w).one ≠ (SizeOps.unsigned w).inf := fun e => by
  have := congrArg BitVec.toNat e
  have h4 : 2 ^ 2 ≤ 2 ^ w := Nat.pow_le_pow_right (by decide) hw
  simp only [SizeOps.unsigned, BitVec.toNat_allOnes, BitVec.toNat_ofNat] at this
  rw [Nat.mod_eq_of_lt (by omega)] at this
  omega

end

section
variable {D I : Type} [LinearOrder D] [DecidableEq I] {o : IntervalOps D I}

/-- With sizes of `w` bits `cardinality(s)` is `infinity`, the greatest value, for infinite sets, and the number of the
elements modulo `2^w` for finite ones. -/
theorem C69_unsigned {w : Nat} (hw : 2 ≤ w) {card : I → BitVec w} (h : SizedClass (SizeOps.unsigned w) o card)
    {s : List I} (hs : WellFormed o s) :
    ({x | Elem o s x}.Infinite → (Sized.cardinality (SizeOps.unsigned w) card setSeg s).toNat = 2 ^ w - 1) ∧
    ({x | Elem o s x}.Finite →
      (Sized.cardinality (SizeOps.unsigned w) card setSeg s).toNat = {x | Elem o s x}.ncard % 2 ^ w) := by
  obtain ⟨h1, h2⟩ := C69_set h hs
  refine ⟨fun hi => ?_, fun hf => ?_⟩
  · rw [h1 hi]; simp [SizeOps.unsigned]
  · rw [h2 (one_ne_inf hw) hf, tally_unsigned, BitVec.toNat_ofNat]

/-- A finite set whose cardinality is `infinity`: `2^w - 1` points; with one more point the cardinality is zero. -/
theorem C69_counterexample_unsigned {w : Nat} (hw : 2 ≤ w) :
    ∃ s t : List (DItv ℚ), WellFormed Ex.co s ∧ WellFormed Ex.co t ∧ {x | Elem Ex.co s x}.Finite ∧
      {x | Elem Ex.co t x}.ncard = 2 ^ w ∧
      Sized.cardinality (SizeOps.unsigned w) (Sized.cardinalityDyn (SizeOps.unsigned w) Ex.co) setSeg s
        = (SizeOps.unsigned w).inf ∧
      Sized.cardinality (SizeOps.unsigned w) (Sized.cardinalityDyn (SizeOps.unsigned w) Ex.co) setSeg t
        = (SizeOps.unsigned w).zero := by
  have hcl : SizedClass (SizeOps.unsigned w) Ex.co (Sized.cardinalityDyn (SizeOps.unsigned w) Ex.co) := .continuous 0
  have hf : StrictMono (fun n : Nat => (n : ℚ)) := Nat.strictMono_cast
  refine ⟨points (fun n => (n : ℚ)) (2 ^ w - 1), points (fun n => (n : ℚ)) (2 ^ w), (points_spec 0 hf _).1,
    (points_spec 0 hf _).1, (points_card 0 hf _).1, (points_card 0 hf _).2, ?_, ?_⟩
  · rw [(C69_set hcl (points_spec 0 hf _).1).2 (one_ne_inf hw) (points_card 0 hf _).1]
    show tally _ ({x | Elem (continuousOps 0) _ x}.ncard) = _
    rw [(points_card 0 hf _).2, tally_unsigned]
    apply BitVec.eq_of_toNat_eq
    simp [SizeOps.unsigned]
  · rw [(C69_set hcl (points_spec 0 hf _).1).2 (one_ne_inf hw) (points_card 0 hf _).1]
    show tally _ ({x | Elem (continuousOps 0) _ x}.ncard) = _
    rw [(points_card 0 hf _).2, tally_unsigned]
    apply BitVec.eq_of_toNat_eq
    simp [SizeOps.unsigned]

end

/-! ## The type of sizes of a domain type -/

/-- The type of sizes is the one that the members of the domain type say. -/
theorem C69_size_type (t u : SizedTy) : sizeTypeOf t = u ↔ HasSize t u := by
  constructor
  · rintro rfl
    match t with
    | .numeric b => exact .number b
    | .cls r (some s) d => exact .size r s d
    | .cls r none (some d) => exact .diff r d
    | .cls (some r) none none => exact .self r
    | .cls none none none => exact .plain
  · rintro ⟨⟩ <;> rfl

/-- `infinity` is the default constructed value, and so not greater than zero, exactly for the classes that take no value
from a number. -/
theorem C69_infinity (t : SizedTy) : infinity t = .default ↔ Numberless t := by
  constructor
  · intro h
    match t with
    | .numeric true => cases h
    | .numeric false => cases h
    | .cls (some (.numeric true)) _ _ => cases h
    | .cls (some (.numeric false)) _ _ => cases h
    | .cls (some (.cls r s d)) size diff => exact .rep r s d size diff
    | .cls none (some (.numeric true)) _ => cases h
    | .cls none (some (.numeric false)) _ => cases h
    | .cls none (some (.cls r s d)) diff => exact .size r s d diff
    | .cls none none diff => exact .none diff
  · rintro ⟨⟩ <;> rfl

/-- For numbers, and for classes without `rep`, `size_type` and `difference_type`, sizes are built-in numbers. -/
theorem C69_plain (t : SizedTy) (ht : (∃ b, t = .numeric b) ∨ t = .cls none none none) :
    sizeTypeOf t = .numeric false ∧ infinity (sizeTypeOf t) = .greatest := by
  rcases ht with ⟨b, rfl⟩ | rfl <;> exact ⟨rfl, rfl⟩

/-- A domain class whose `difference_type` is a class without members: `infinity` is zero, and the interval `[0, 1)`, which
has infinitely many elements, has cardinality zero. -/
theorem C69_counterexample_difference {Z : Type} [DecidableEq Z] {z : SizeOps Z} (hz : z.inf = z.zero) :
    infinity (sizeTypeOf (.cls none none (some (.cls none none none)))) = .default ∧
    ∃ s : List (SItv ℚ), WellFormed (rightOpenOps 0) s ∧ {x | Elem (rightOpenOps 0) s x}.Infinite ∧
      Sized.cardinality z (Sized.cardinalityHalfOpen z (rightOpenOps 0)) setSeg s = z.zero := by
  have hm : ∀ x : ℚ, In (rightOpenOps 0) x ⟨0, 1⟩ ↔ 0 ≤ x ∧ x < 1 := fun x => by simp [In, rightOpenOps]
  have hw : WellFormed (rightOpenOps (0 : ℚ)) [⟨0, 1⟩] := ⟨by simpa using ⟨0, (hm 0).2 (by simp)⟩, by simp⟩
  have hi : {x : ℚ | Elem (rightOpenOps 0) [⟨0, 1⟩] x}.Infinite :=
    (Set.Ico_infinite (show (0 : ℚ) < 1 by simp)).mono fun y hy => ⟨_, List.mem_cons_self .., (hm y).2 hy⟩
  exact ⟨rfl, _, hw, hi, C69_default (.rightOpen 0) hz hw hi⟩

/-- `std::chrono::duration<double>`: sizes are durations, `infinity` is that of `double`. -/
example : sizeTypeOf (.cls (some (.numeric true)) none none) = .cls (some (.numeric true)) none none ∧
    infinity (sizeTypeOf (.cls (some (.numeric true)) none none)) = .infinite := ⟨rfl, rfl⟩

/-- `{[0,0], [1,1], [2,2]}` has three elements. -/
example : Sized.cardinality (SizeOps.unsigned 64) (Sized.cardinalityDyn (SizeOps.unsigned 64) Ex.co) setSeg
    (points (fun n => (n : ℚ)) 3) = 3#64 := by
  have hf : StrictMono (fun n : Nat => (n : ℚ)) := Nat.strictMono_cast
  rw [(C69_set (.continuous 0) (points_spec 0 hf _).1).2 (one_ne_inf (by decide)) (points_card 0 hf _).1]
  show tally _ ({x | Elem (continuousOps 0) _ x}.ncard) = _
  rw [(points_card 0 hf _).2]; rfl

end ICL.Props
