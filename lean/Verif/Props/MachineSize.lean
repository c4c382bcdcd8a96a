import Verif.Props.Machine
import Mathlib.Data.Finset.Card
import Mathlib.Data.Finset.Filter

/-!
# C32: sizes of containers over integers with a least and a greatest value

`cardinality` and `size` of a container add up in `std::size_t`, `length` in the type of the elements. The elements of a container are
given as a finite set `F`.
-/

set_option linter.unusedSectionVars false

namespace ICL.Props
open Spec

section
variable {lo hi : ℤ} {I V S : Type} {o : IntervalOps (MInt lo hi) I} {g : SegOps I V S}

open Classical in
/-- The number of elements in an interval. -/
noncomputable def countIn (o : IntervalOps (MInt lo hi) I) (F : Finset (MInt lo hi)) (i : I) : ℤ :=
  ((F.filter fun x => In o x i).card : ℤ)

theorem countIn_nonneg (F : Finset (MInt lo hi)) (i : I) : 0 ≤ countIn o F i := Int.natCast_nonneg _

/-- The segments share no elements. -/
theorem sum_countIn {l : List S} (hl : WF o g l) {F : Finset (MInt lo hi)} (hF : ∀ x, x ∈ F ↔ Dom o g l x) :
    (F.card : ℤ) = (l.map fun s => countIn o F (g.key s)).sum := by
  classical
  have key : ∀ (l : List S), WF o g l → ∀ F : Finset (MInt lo hi),
      ((F.filter fun x => Dom o g l x).card : ℤ) = (l.map fun s => countIn o F (g.key s)).sum := by
    intro l
    induction l with
    | nil => intro _ F; simp [Dom]
    | cons s l ih =>
      intro hw F
      have hw' := wf_cons.1 hw
      rw [List.map_cons, List.sum_cons, ← ih hw'.2.1 F, countIn, ← Nat.cast_add, ← Finset.card_union_of_disjoint]
      · congr 2
        ext x
        simp only [Finset.mem_filter, Finset.mem_union, ← and_or_left]
        exact and_congr_right fun _ => dom_cons _ _ _
      · rw [Finset.disjoint_left]
        intro x h1 h2
        rw [Finset.mem_filter] at h1 h2
        exact lt_irrefl x (hw'.2.2 x x h1.2 h2.2)
  rw [← key l hl F]
  congr 2
  ext x
  rw [Finset.mem_filter, ← hF, and_self]

theorem mem_filter_seg {l : List S} {F : Finset (MInt lo hi)} (hF : ∀ x, x ∈ F ↔ Dom o g l x) {s : S} (hs : s ∈ l) :
    ∃ G : Finset (MInt lo hi), (∀ x, x ∈ G ↔ In o x (g.key s)) ∧ countIn o F (g.key s) = G.card := by
  classical
  refine ⟨F.filter fun x => In o x (g.key s), fun x => ?_, rfl⟩
  rw [Finset.mem_filter, hF]
  exact and_iff_right_of_imp fun hx => ⟨s, hs, hx⟩

theorem sum_nonneg {F : Finset (MInt lo hi)} (l : List S) : 0 ≤ (l.map fun s => countIn o F (g.key s)).sum := by
  induction l with
  | nil => exact le_refl _
  | cons s l ih =>
    have := countIn_nonneg (o := o) F (g.key s)
    rw [List.map_cons, List.sum_cons]; omega

theorem exists_assoc {m : List (I × V)} {x : MInt lo hi} : (∃ v, Assoc o m x v) ↔ Dom o mapSeg m x :=
  ⟨fun ⟨_, s, hs, hx, _⟩ => ⟨s, hs, hx⟩, fun ⟨s, hs, hx⟩ => ⟨s.2, s, hs, hx, rfl⟩⟩

theorem elem_iff {s : List I} {x : MInt lo hi} : Elem o s x ↔ Dom o setSeg s x := Iff.rfl

/-- The number of values of the type, all but `x`. -/
theorem card_lt {F : Finset (MInt lo hi)} {x : MInt lo hi} (hx : x ∉ F) : (F.card : ℤ) ≤ hi - lo := by
  have h1 : F.map (Function.Embedding.subtype _) ⊆ (Finset.Icc lo hi).erase x.1 := by
    intro y hy
    rw [Finset.mem_map] at hy
    obtain ⟨z, hz, rfl⟩ := hy
    rw [Finset.mem_erase, Finset.mem_Icc]
    exact ⟨fun hc => hx (by rwa [← Subtype.ext hc]), z.2⟩
  have h2 := Finset.card_le_card h1
  rw [Finset.card_map, Finset.card_erase_of_mem (Finset.mem_Icc.2 x.2), Int.card_Icc] at h2
  have := x.2
  omega

theorem card_all (hle : lo ≤ hi) {F : Finset (MInt lo hi)} (hF : ∀ x, x ∈ F) : (F.card : ℤ) = hi + 1 - lo := by
  have h1 : F.map (Function.Embedding.subtype _) = Finset.Icc lo hi := by
    ext y
    rw [Finset.mem_map, Finset.mem_Icc]
    constructor
    · rintro ⟨z, _, rfl⟩; exact z.2
    · intro hy; exact ⟨⟨y, hy⟩, hF _, rfl⟩
  rw [← Finset.card_map (Function.Embedding.subtype _), h1, Int.card_Icc, Int.toNat_of_nonneg (by omega)]

/-! ## Signed types -/

variable {e : ElementOps (MInt lo hi) I} {c : CheckedOps I} {ec : CheckedElementOps (MInt lo hi) I}

/-- A segment whose size can be computed. -/
def Fits (o : IntervalOps (MInt lo hi) I) (i : I) : Prop :=
  (∀ G : Finset (MInt lo hi), (∀ x, x ∈ G ↔ In o x i) → (G.card : ℤ) ≤ hi) ∧ ¬ HasGreatest o i

theorem card_seg (hlo : lo ≤ 0) (h : CheckedClass o e c ec) {l : List S} (hl : WF o g l) {F : Finset (MInt lo hi)}
    (hF : ∀ x, x ∈ F ↔ Dom o g l x) {s : S} (hs : s ∈ l) :
    (Fits o (g.key s) → cardinalitySigned c ec (g.key s) = some (countIn o F (g.key s))) ∧
    (¬ Fits o (g.key s) → cardinalitySigned c ec (g.key s) = none) ∧ (Fits o (g.key s) → countIn o F (g.key s) ≤ hi) := by
  obtain ⟨G, hG, hc⟩ := mem_filter_seg hF hs
  obtain ⟨h1, h2⟩ := C32_cardinality_signed hlo h (g.key s) hG
  rw [hc]
  refine ⟨fun hf => h1 ⟨hf.1 G hG, hf.2⟩, fun hf => h2 (hl.nonempty s hs) fun hn => hf ⟨fun G' hG' => ?_, hn.2⟩,
    fun hf => hf.1 G hG⟩
  rw [show G' = G by ext x; rw [hG, hG']]
  exact hn.1

theorem size_signed (hlo : lo ≤ 0) (h : CheckedClass o e c ec) {W : ℤ} (hW : hi - lo < W) {l : List S} (hl : WF o g l)
    {F : Finset (MInt lo hi)} (hF : ∀ x, x ∈ F ↔ Dom o g l x) :
    ((∀ s ∈ l, Fits o (g.key s)) → cardinalitySumSigned c ec W g l = some (F.card : ℤ)) ∧
    (¬ (∀ s ∈ l, Fits o (g.key s)) → cardinalitySumSigned c ec W g l = none) := by
  have hW0 : l ≠ [] → 0 < W := by
    intro hne
    obtain ⟨s, hs⟩ := List.exists_mem_of_ne_nil _ hne
    obtain ⟨x, _⟩ := hl.nonempty s hs
    have := x.2
    omega
  have key : ∀ r : List S, (∀ s ∈ r, s ∈ l) → ∀ a : ℤ, a % W = a →
      ((∀ s ∈ r, Fits o (g.key s)) → r.foldlM (fun size s => (cardinalitySigned c ec (g.key s)).map fun n =>
        (size + n % W) % W) a = some ((a + (r.map fun s => countIn o F (g.key s)).sum) % W)) ∧
      (¬ (∀ s ∈ r, Fits o (g.key s)) → r.foldlM (fun size s => (cardinalitySigned c ec (g.key s)).map fun n =>
        (size + n % W) % W) a = none) := by
    intro r
    induction r with
    | nil => intro _ a ha; exact ⟨fun _ => by simp [ha], fun hc => absurd (by simp) hc⟩
    | cons s r ih =>
      intro hr a ha
      have hs := hr s (by simp)
      obtain ⟨q1, q2, _⟩ := card_seg hlo h hl hF hs
      by_cases hf : Fits o (g.key s)
      · obtain ⟨i1, i2⟩ := ih (fun t ht => hr t (by simp [ht])) ((a + countIn o F (g.key s) % W) % W) (Int.emod_emod _ _)
        simp only [List.foldlM_cons, q1 hf, Option.map_some, Option.bind_eq_bind, Option.bind_some, List.forall_mem_cons, hf,
          true_and]
        refine ⟨fun hc => ?_, fun hc => i2 hc⟩
        rw [i1 hc, List.map_cons, List.sum_cons]
        simp only [Int.emod_add_emod, Int.add_emod_emod, Option.some.injEq]
        rw [Int.add_assoc]
      · simp only [List.foldlM_cons, q2 hf, Option.map_none, Option.bind_eq_bind, Option.bind_none, List.forall_mem_cons, hf,
          false_and, false_imp_iff, implies_true, and_self]
  obtain ⟨k1, k2⟩ := key l (fun _ h => h) 0 (Int.zero_emod _)
  refine ⟨fun hc => ?_, k2⟩
  rw [cardinalitySumSigned, k1 hc, zero_add, ← sum_countIn hl hF]
  congr 1
  rcases l.eq_nil_or_concat with rfl | ⟨l', s, e⟩
  · have : F = ∅ := Finset.eq_empty_of_forall_notMem fun x hx => by simpa [Dom] using (hF x).1 hx
    simp [this]
  · have hs : s ∈ l := by rw [e]; simp
    obtain ⟨x, hx⟩ := hl.nonempty s hs
    have hm : (⟨hi, le_trans x.2.1 x.2.2, le_refl _⟩ : MInt lo hi) ∉ F := by
      intro hm
      obtain ⟨t, ht, hx⟩ := (hF _).1 hm
      exact (hc t ht).2 ⟨_, hx, fun y => y.2.2⟩
    have := card_lt hm
    exact Int.emod_eq_of_lt (Int.natCast_nonneg _) (by omega)

theorem length_signed (hlo : lo ≤ 0) (h : CheckedClass o e c ec) {l : List S} (hl : WF o g l)
    {F : Finset (MInt lo hi)} (hF : ∀ x, x ∈ F ↔ Dom o g l x) (hhi : 0 ≤ hi) :
    (((F.card : ℤ) ≤ hi ∧ ¬ ∃ x, Dom o g l x ∧ ∀ y, y ≤ x) → lengthSumSigned c ec g l = some (F.card : ℤ)) ∧
    (¬ ((F.card : ℤ) ≤ hi ∧ ¬ ∃ x, Dom o g l x ∧ ∀ y, y ≤ x) → lengthSumSigned c ec g l = none) := by
  have key : ∀ r : List S, (∀ s ∈ r, s ∈ l) → ∀ a : ℤ, 0 ≤ a → a ≤ hi →
      (((∀ s ∈ r, Fits o (g.key s)) ∧ a + (r.map fun s => countIn o F (g.key s)).sum ≤ hi) →
        r.foldlM (fun len s => (cardinalitySigned c ec (g.key s)).bind fun n => addSigned lo hi len n) a =
          some (a + (r.map fun s => countIn o F (g.key s)).sum)) ∧
      (¬ ((∀ s ∈ r, Fits o (g.key s)) ∧ a + (r.map fun s => countIn o F (g.key s)).sum ≤ hi) →
        r.foldlM (fun len s => (cardinalitySigned c ec (g.key s)).bind fun n => addSigned lo hi len n) a = none) := by
    intro r
    induction r with
    | nil => intro _ a _ ha; exact ⟨fun _ => by simp, fun hc => absurd (by simpa using ha) hc⟩
    | cons s r ih =>
      intro hr a ha0 ha
      have hs := hr s (by simp)
      obtain ⟨q1, q2, _⟩ := card_seg hlo h hl hF hs
      have hn := countIn_nonneg (o := o) F (g.key s)
      have hsn := sum_nonneg (o := o) (g := g) (F := F) r
      by_cases hf : Fits o (g.key s)
      · simp only [List.foldlM_cons, q1 hf, Option.bind_eq_bind, Option.bind_some, List.forall_mem_cons, hf,
          true_and, List.map_cons, List.sum_cons, addSigned]
        by_cases hle : a + countIn o F (g.key s) ≤ hi
        · obtain ⟨i1, i2⟩ := ih (fun t ht => hr t (by simp [ht])) (a + countIn o F (g.key s)) (by omega) hle
          rw [if_pos ⟨by omega, hle⟩, Option.bind_some, ← add_assoc]
          exact ⟨i1, i2⟩
        · rw [if_neg (fun hc => hle hc.2)]
          exact ⟨fun hc => absurd hc.2 (by omega), fun _ => rfl⟩
      · simp only [List.foldlM_cons, q2 hf, Option.bind_eq_bind, Option.bind_none, List.forall_mem_cons, hf,
          false_and, false_imp_iff, implies_true, and_self]
  have hiff : ((F.card : ℤ) ≤ hi ∧ ¬ ∃ x, Dom o g l x ∧ ∀ y, y ≤ x) ↔
      ((∀ s ∈ l, Fits o (g.key s)) ∧ 0 + (l.map fun s => countIn o F (g.key s)).sum ≤ hi) := by
    rw [zero_add, ← sum_countIn hl hF]
    constructor
    · rintro ⟨h1, h2⟩
      refine ⟨fun s hs => ⟨fun G hG => ?_, ?_⟩, h1⟩
      · have hsub : G ⊆ F := fun x hx => (hF x).2 ⟨s, hs, (hG x).1 hx⟩
        have := Finset.card_le_card hsub
        omega
      · rintro ⟨x, hx, hm⟩; exact h2 ⟨x, ⟨s, hs, hx⟩, hm⟩
    · rintro ⟨h1, h2⟩
      refine ⟨h2, ?_⟩
      rintro ⟨x, ⟨s, hs, hx⟩, hm⟩
      exact (h1 s hs).2 ⟨x, hx, hm⟩
  obtain ⟨k1, k2⟩ := key l (fun _ h => h) 0 (le_refl _) hhi
  rw [hiff]
  refine ⟨fun hc => ?_, k2⟩
  rw [lengthSumSigned, k1 hc, zero_add, ← sum_countIn hl hF]

/-- Signed types: `cardinality(s)` and `size(s)` are the number of elements of `s`; they overflow exactly if the size of a segment does,
that is if a segment has more elements than the greatest value of the type, or contains the greatest value. `W` is the number of values
of `std::size_t`, the type of sizes, which has at least as many as the type of the elements. -/
theorem C32_size_signed (hlo : lo ≤ 0) (h : CheckedClass o e c ec) {W : ℤ} (hW : hi - lo < W) {s : List I}
    (hs : WellFormed o s) {F : Finset (MInt lo hi)} (hF : ∀ x, x ∈ F ↔ Elem o s x) :
    ((∀ i ∈ s, Fits o i) → cardinalitySumSigned c ec W setSeg s = some (F.card : ℤ)) ∧
    ((∃ i ∈ s, ¬ Fits o i) → cardinalitySumSigned c ec W setSeg s = none) := by
  have := size_signed hlo h hW (wellFormed_iff.1 hs) hF
  simp only [not_forall, exists_prop] at this
  exact this

/-- Maps. -/
theorem C32_size_signed_map (hlo : lo ≤ 0) (h : CheckedClass o e c ec) {W : ℤ} (hW : hi - lo < W) {m : List (I × V)}
    (hm : MapWellFormed o m) {F : Finset (MInt lo hi)} (hF : ∀ x, x ∈ F ↔ ∃ v, Assoc o m x v) :
    ((∀ s ∈ m, Fits o s.1) → cardinalitySumSigned c ec W mapSeg m = some (F.card : ℤ)) ∧
    ((∃ s ∈ m, ¬ Fits o s.1) → cardinalitySumSigned c ec W mapSeg m = none) := by
  have := size_signed hlo h hW (mapWellFormed_iff.1 hm) (fun x => (hF x).trans exists_assoc)
  simp only [not_forall, exists_prop] at this
  exact this

/-- Signed types: `length(s)` is the number of elements of `s`; it overflows exactly if that number is no value of the type of the
elements, or if the greatest value is an element. -/
theorem C32_length_signed (hlo : lo ≤ 0) (hhi : 0 ≤ hi) (h : CheckedClass o e c ec) {s : List I}
    (hs : WellFormed o s) {F : Finset (MInt lo hi)} (hF : ∀ x, x ∈ F ↔ Elem o s x) :
    (((F.card : ℤ) ≤ hi ∧ ¬ ∃ x, Elem o s x ∧ ∀ y, y ≤ x) → lengthSumSigned c ec setSeg s = some (F.card : ℤ)) ∧
    (¬ ((F.card : ℤ) ≤ hi ∧ ¬ ∃ x, Elem o s x ∧ ∀ y, y ≤ x) → lengthSumSigned c ec setSeg s = none) :=
  length_signed hlo h (wellFormed_iff.1 hs) hF hhi

/-- Maps. -/
theorem C32_length_signed_map (hlo : lo ≤ 0) (hhi : 0 ≤ hi) (h : CheckedClass o e c ec) {m : List (I × V)}
    (hm : MapWellFormed o m) {F : Finset (MInt lo hi)} (hF : ∀ x, x ∈ F ↔ ∃ v, Assoc o m x v) :
    (((F.card : ℤ) ≤ hi ∧ ¬ ∃ x, (∃ v, Assoc o m x v) ∧ ∀ y, y ≤ x) → lengthSumSigned c ec mapSeg m = some (F.card : ℤ)) ∧
    (¬ ((F.card : ℤ) ≤ hi ∧ ¬ ∃ x, (∃ v, Assoc o m x v) ∧ ∀ y, y ≤ x) → lengthSumSigned c ec mapSeg m = none) := by
  simp only [exists_assoc]
  exact length_signed hlo h (mapWellFormed_iff.1 hm) (fun x => (hF x).trans exists_assoc) hhi

end

/-! ## Unsigned types -/

section
variable {hi : ℤ} {I V S : Type} {o : IntervalOps (MInt 0 hi) I} {e : ElementOps (MInt 0 hi) I} {g : SegOps I V S}

theorem card_seg_unsigned (hhi : 0 ≤ hi) (h : UnsignedClass hi o e) {l : List S} {F : Finset (MInt 0 hi)}
    (hF : ∀ x, x ∈ F ↔ Dom o g l x) {s : S} (hs : s ∈ l) :
    ((∃ x, ¬ In o x (g.key s)) → cardinalityUnsigned o e (g.key s) = countIn o F (g.key s)) ∧
    ((∀ x, In o x (g.key s)) → cardinalityUnsigned o e (g.key s) = 0) ∧
    cardinalityUnsigned o e (g.key s) % (hi + 1) = countIn o F (g.key s) % (hi + 1) := by
  obtain ⟨G, hG, hc⟩ := mem_filter_seg hF hs
  obtain ⟨h1, h2⟩ := C32_cardinality_unsigned hhi h (g.key s) hG
  rw [hc]
  refine ⟨h1, fun ha => (h2 ha).1, ?_⟩
  by_cases ha : ∀ x, In o x (g.key s)
  · rw [(h2 ha).1, (h2 ha).2]; simp
  · rw [h1 (not_forall.1 ha)]

theorem length_unsigned (hhi : 0 ≤ hi) (h : UnsignedClass hi o e) {l : List S} (hl : WF o g l)
    {F : Finset (MInt 0 hi)} (hF : ∀ x, x ∈ F ↔ Dom o g l x) : lengthSumUnsigned o e g l = (F.card : ℤ) % (hi + 1) := by
  have key : ∀ r : List S, (∀ s ∈ r, s ∈ l) → ∀ a : ℤ, a % (hi + 1) = a →
      r.foldl (fun len s => (len + cardinalityUnsigned o e (g.key s)) % (hi + 1)) a =
        (a + (r.map fun s => countIn o F (g.key s)).sum) % (hi + 1) := by
    intro r
    induction r with
    | nil => intro _ a ha; simp [ha]
    | cons s r ih =>
      intro hr a ha
      rw [List.foldl_cons, ih (fun t ht => hr t (by simp [ht])) _ (Int.emod_emod _ _), List.map_cons, List.sum_cons,
        Int.emod_add_emod, ← add_assoc, Int.add_emod, Int.add_emod a, (card_seg_unsigned hhi h hF (hr s (by simp))).2.2,
        ← Int.add_emod a, ← Int.add_emod]
  rw [lengthSumUnsigned, key l (fun _ h => h) 0 (Int.zero_emod _), zero_add, ← sum_countIn hl hF]

theorem size_unsigned (hhi : 0 ≤ hi) (h : UnsignedClass hi o e) {W : ℤ} (hW : hi < W) {l : List S} (hl : WF o g l)
    {F : Finset (MInt 0 hi)} (hF : ∀ x, x ∈ F ↔ Dom o g l x) (hn : ∀ s ∈ l, ∃ x, ¬ In o x (g.key s)) :
    cardinalitySumUnsigned o e W g l = (F.card : ℤ) % W := by
  have key : ∀ r : List S, (∀ s ∈ r, s ∈ l) → ∀ a : ℤ, a % W = a →
      r.foldl (fun size s => (size + cardinalityUnsigned o e (g.key s) % W) % W) a =
        (a + (r.map fun s => countIn o F (g.key s)).sum) % W := by
    intro r
    induction r with
    | nil => intro _ a ha; simp [ha]
    | cons s r ih =>
      intro hr a ha
      rw [List.foldl_cons, ih (fun t ht => hr t (by simp [ht])) _ (Int.emod_emod _ _), List.map_cons, List.sum_cons,
        Int.emod_add_emod, ← add_assoc, Int.add_right_comm, Int.add_emod_emod, Int.add_right_comm,
        (card_seg_unsigned hhi h hF (hr s (by simp))).1 (hn s (hr s (by simp)))]
  rw [cardinalitySumUnsigned, key l (fun _ h => h) 0 (Int.zero_emod _), zero_add, ← sum_countIn hl hF]

theorem card_lt_of {P : MInt 0 hi → Prop} {F : Finset (MInt 0 hi)} (hF : ∀ x, x ∈ F ↔ P x) (hx : ∃ x, ¬ P x) :
    0 ≤ (F.card : ℤ) ∧ (F.card : ℤ) < hi + 1 := by
  obtain ⟨x, hx⟩ := hx
  have := card_lt (fun hc => hx ((hF x).1 hc))
  omega

theorem size_unsigned_cases (hhi : 0 ≤ hi) (h : UnsignedClass hi o e) {W : ℤ} (hW : hi < W) {l : List S} (hl : WF o g l)
    {F : Finset (MInt 0 hi)} (hF : ∀ x, x ∈ F ↔ Dom o g l x) :
    ((∃ x, ¬ Dom o g l x) → cardinalitySumUnsigned o e W g l = (F.card : ℤ)) ∧
    ((∀ x, Dom o g l x) → cardinalitySumUnsigned o e W g l = if l.length = 1 then 0 else (hi + 1) % W) := by
  constructor
  · rintro ⟨x, hx⟩
    obtain ⟨h1, h2⟩ := card_lt_of hF ⟨x, hx⟩
    rw [size_unsigned hhi h hW hl hF fun s hs => ⟨x, fun hc => hx ⟨s, hs, hc⟩⟩, Int.emod_eq_of_lt h1 (by omega)]
  · intro ha
    split
    · rename_i h1
      obtain ⟨s, rfl⟩ := List.length_eq_one_iff.1 h1
      have hall : ∀ x, In o x (g.key s) := fun x => by
        obtain ⟨t, ht, hx⟩ := ha x
        cases List.mem_singleton.1 ht
        exact hx
      simp [cardinalitySumUnsigned, (card_seg_unsigned hhi h hF (List.mem_singleton.2 rfl)).2.1 hall]
    · rename_i h1
      rw [size_unsigned hhi h hW hl hF, card_all hhi (fun x => (hF x).2 (ha x)), sub_zero]
      intro s hs
      -- another segment has elements
      obtain ⟨t, ht, hts⟩ : ∃ t ∈ l, o.Before (g.key s) (g.key t) ∨ o.Before (g.key t) (g.key s) := by
        obtain ⟨a, b, rfl⟩ := List.append_of_mem hs
        have hp := List.pairwise_append.1 hl.sorted
        cases a with
        | cons t a => exact ⟨t, by simp, .inr (hp.2.2 t (by simp) s (by simp))⟩
        | nil =>
          cases b with
          | nil => exact absurd rfl h1
          | cons t b => exact ⟨t, by simp, .inl ((List.pairwise_cons.1 hp.2.1).1 t (by simp))⟩
      obtain ⟨x, hx⟩ := hl.nonempty t ht
      refine ⟨x, fun hc => ?_⟩
      rcases hts with hb | hb
      · exact lt_irrefl x (hb x x hc hx)
      · exact lt_irrefl x (hb x x hx hc)

/-- Unsigned types: `cardinality(s)` and `size(s)` are the number of elements of `s`, unless these are all values of the type: then it is
0 if `s` has one segment; otherwise it is the number of values, or 0 if `std::size_t` has no more values. -/
theorem C32_size_unsigned (hhi : 0 ≤ hi) (h : UnsignedClass hi o e) {W : ℤ} (hW : hi < W) {s : List I}
    (hs : WellFormed o s) {F : Finset (MInt 0 hi)} (hF : ∀ x, x ∈ F ↔ Elem o s x) :
    ((∃ x, ¬ Elem o s x) → cardinalitySumUnsigned o e W setSeg s = (F.card : ℤ)) ∧
    ((∀ x, Elem o s x) → cardinalitySumUnsigned o e W setSeg s = if s.length = 1 then 0 else (hi + 1) % W) :=
  size_unsigned_cases hhi h hW (wellFormed_iff.1 hs) hF

/-- Maps. -/
theorem C32_size_unsigned_map (hhi : 0 ≤ hi) (h : UnsignedClass hi o e) {W : ℤ} (hW : hi < W) {m : List (I × V)}
    (hm : MapWellFormed o m) {F : Finset (MInt 0 hi)} (hF : ∀ x, x ∈ F ↔ ∃ v, Assoc o m x v) :
    ((∃ x, ¬ ∃ v, Assoc o m x v) → cardinalitySumUnsigned o e W mapSeg m = (F.card : ℤ)) ∧
    ((∀ x, ∃ v, Assoc o m x v) → cardinalitySumUnsigned o e W mapSeg m = if m.length = 1 then 0 else (hi + 1) % W) := by
  simp only [exists_assoc]
  exact size_unsigned_cases hhi h hW (mapWellFormed_iff.1 hm) (fun x => (hF x).trans exists_assoc)

/-- Unsigned types: `length(s)` is the number of elements of `s`, unless these are all values of the type: then it is 0. -/
theorem C32_length_unsigned (hhi : 0 ≤ hi) (h : UnsignedClass hi o e) {s : List I}
    (hs : WellFormed o s) {F : Finset (MInt 0 hi)} (hF : ∀ x, x ∈ F ↔ Elem o s x) :
    ((∃ x, ¬ Elem o s x) → lengthSumUnsigned o e setSeg s = (F.card : ℤ)) ∧
    ((∀ x, Elem o s x) → lengthSumUnsigned o e setSeg s = 0) := by
  rw [length_unsigned hhi h (wellFormed_iff.1 hs) hF]
  refine ⟨fun hx => Int.emod_eq_of_lt (card_lt_of hF hx).1 (card_lt_of hF hx).2, fun ha => ?_⟩
  rw [card_all hhi (fun x => (hF x).2 (ha x))]; simp

/-- Maps. -/
theorem C32_length_unsigned_map (hhi : 0 ≤ hi) (h : UnsignedClass hi o e) {m : List (I × V)}
    (hm : MapWellFormed o m) {F : Finset (MInt 0 hi)} (hF : ∀ x, x ∈ F ↔ ∃ v, Assoc o m x v) :
    ((∃ x, ¬ ∃ v, Assoc o m x v) → lengthSumUnsigned o e mapSeg m = (F.card : ℤ)) ∧
    ((∀ x, ∃ v, Assoc o m x v) → lengthSumUnsigned o e mapSeg m = 0) := by
  rw [length_unsigned hhi h (mapWellFormed_iff.1 hm) (fun x => (hF x).trans exists_assoc)]
  refine ⟨fun hx => Int.emod_eq_of_lt (card_lt_of hF hx).1 (card_lt_of hF hx).2, fun ha => ?_⟩
  rw [card_all hhi (fun x => (hF x).2 (ha x))]; simp

end

/-! ## Examples -/

/-- `{[-128,-60] [-3,2] [5,9]}` over `closed_interval<signed char>` has 80 elements; `length` too. The segments of
`{[-128,-60] [-3,100]}` fit, and its 173 elements are counted by `size`, but not by `length`, which overflows. -/
example : WellFormed clI8 [⟨i8 (-128), i8 (-60)⟩, ⟨i8 (-3), i8 2⟩, ⟨i8 5, i8 9⟩] ∧
    cardinalitySumSigned (closedChecked (wrapSteps _ _) (i8 0) (i8 1)) (closedEC (wrapSteps _ _)) (2 ^ 64) setSeg
      [⟨i8 (-128), i8 (-60)⟩, ⟨i8 (-3), i8 2⟩, ⟨i8 5, i8 9⟩] = some 80 ∧
    lengthSumSigned (closedChecked (wrapSteps _ _) (i8 0) (i8 1)) (closedEC (wrapSteps _ _)) setSeg
      [⟨i8 (-128), i8 (-60)⟩, ⟨i8 (-3), i8 2⟩, ⟨i8 5, i8 9⟩] = some 80 ∧
    cardinalitySumSigned (closedChecked (wrapSteps _ _) (i8 0) (i8 1)) (closedEC (wrapSteps _ _)) (2 ^ 64) setSeg
      [⟨i8 (-128), i8 (-60)⟩, ⟨i8 (-3), i8 100⟩] = some 173 ∧
    lengthSumSigned (closedChecked (wrapSteps _ _) (i8 0) (i8 1)) (closedEC (wrapSteps _ _)) setSeg
      [⟨i8 (-128), i8 (-60)⟩, ⟨i8 (-3), i8 100⟩] = none := by
  refine ⟨C06_well_formed ⟨clI8_checked.disc.cls, fun _ h => by cases h⟩ (E := none) (.op (.add ⟨i8 5, i8 9⟩)
    (.op (.add ⟨i8 (-3), i8 2⟩) (.op (.add ⟨i8 (-128), i8 (-60)⟩) (.empty .joining) (l' := [⟨i8 (-128), i8 (-60)⟩]) (by decide))
      (l' := [⟨i8 (-128), i8 (-60)⟩, ⟨i8 (-3), i8 2⟩]) (by decide)) (by decide)), by decide, by decide, by decide, by decide⟩

/-- The `split_interval_set` `{[0,99][100,255]}` over `closed_interval<unsigned char>` has the size 256, `{[0,255]}` the size 0, and
both the length 0. -/
theorem C32_counterexample_size :
    cardinalitySumUnsigned (closedOps (wrapSteps 0 255) (u8 0) (u8 1)) (closedE (wrapSteps 0 255)) (2 ^ 64) setSeg
      [⟨u8 0, u8 99⟩, ⟨u8 100, u8 255⟩] = 256 ∧
    cardinalitySumUnsigned (closedOps (wrapSteps 0 255) (u8 0) (u8 1)) (closedE (wrapSteps 0 255)) (2 ^ 64) setSeg
      [⟨u8 0, u8 255⟩] = 0 ∧
    lengthSumUnsigned (closedOps (wrapSteps 0 255) (u8 0) (u8 1)) (closedE (wrapSteps 0 255)) setSeg
      [⟨u8 0, u8 99⟩, ⟨u8 100, u8 255⟩] = 0 := by decide

end ICL.Props
