import Verif.Theory.LargeBitset

/-!
# C49: the large bit set is a set of numbers

`mini::large_bitset`, example/large_bitset_/large_bitset.hpp: the demonstration that an interval map of bit sets is a
compact set of numbers.  A bit set stands for the numbers `x` with `Bit m x`.
-/

namespace ICL.Props

open Spec LargeBitset

variable {N n : Nat}

/-- Words as bit sets: `contains` tells if a bit is set. -/
theorem C49_word_contains (h : Sizes N n) (w : BitVec n) {b : Nat} (hb : b < n) :
    LargeBitset.contains w b = w.getLsbD b := by
  obtain ⟨s, z⟩ := h.sz
  exact contains_lsb z w hb

/-- No operation fails, whatever has been done before. -/
theorem C49_no_failure (h : Sizes N n) {m : BitMap N n} (hm : Made m) (c : BitOp N n) :
    ∃ m', c.run m = some m' ∧ Made m' := by
  obtain ⟨s, z⟩ := h.sz
  obtain ⟨m', e, _⟩ := op_inv z (hm.inv z) c
  exact ⟨m', e, .op c hm e⟩

/-- Every operation does what it should do with the set of numbers, except that intersections with intervals need a
non-empty interval within one chunk: for other intervals see `C49_intersect_wide` and `C49_intersect_empty`. -/
theorem C49_operation_partial (h : Sizes N n) {m : BitMap N n} (hm : Made m) (c : BitOp N n) (hc : c.Works) :
    ∃ m', c.run m = some m' ∧ ∀ x, Bit m' x ↔ x ∈ c.meaning {x | Bit m x} := by
  obtain ⟨s, z⟩ := h.sz
  have hi := hm.inv z
  have hadd : ∀ k, ∃ m', LargeBitset.add m k = some m' ∧ ∀ x, Bit m' x ↔ Bit m x ∨ In (itv N) x k := fun k => by
    obtain ⟨m', e, i, g⟩ := add_inv z hi k
    refine ⟨m', e, fun x => ?_⟩
    rw [i.bit, hi.bit, g _ (fin_div z x), Bool.or_eq_true, inB_iff]
  have hsub : ∀ k, ∃ m', LargeBitset.subtract m k = some m' ∧ ∀ x, Bit m' x ↔ Bit m x ∧ ¬ In (itv N) x k := fun k => by
    obtain ⟨m', e, i, g⟩ := subtract_inv z hi k
    refine ⟨m', e, fun x => ?_⟩
    rw [i.bit, hi.bit, g _ (fin_div z x), Bool.and_eq_true, Bool.not_eq_true', ← Bool.not_eq_true, inB_iff]
  have hflip : ∀ oracle k, ∃ m', LargeBitset.flip oracle m k = some m' ∧
      ∀ x, Bit m' x ↔ Xor (Bit m x) (In (itv N) x k) := fun oracle k => by
    obtain ⟨m', e, i, g⟩ := flip_inv z oracle hi k
    refine ⟨m', e, fun x => ?_⟩
    rw [i.bit, hi.bit, g _ (fin_div z x), ← inB_iff, Xor]
    cases bitB m x.val <;> cases inB k x.val <;> simp
  have hint : ∀ oracle k, (∃ x, In (itv N) x k) → OneChunk n k → ∃ m', LargeBitset.intersect oracle m k = some m' ∧
      ∀ x, Bit m' x ↔ Bit m x ∧ In (itv N) x k := fun oracle k h0 h1 => by
    obtain ⟨m', e, p, g⟩ := intersect_one z oracle hi.proper ((nonempty_iff (cls N).cls.lawful).1 h0) h1
    refine ⟨m', e, fun x => ?_⟩
    have : Bit m' x ↔ bitB m' x.val = true := bit_word p x
    rw [this, hi.bit, g _ (fin_div z x), Bool.and_eq_true, inB_iff]
  cases c with
  | add k => exact hadd k
  | subtract k => exact hsub k
  | intersect oracle k => exact hint oracle k hc.1 hc.2
  | flip oracle k => exact hflip oracle k
  | addE y =>
    obtain ⟨m', e, g⟩ := hadd (dynSingleton y)
    exact ⟨m', e, fun x => by rw [g, (oneChunk_singleton (n := n) y).2.2]; rfl⟩
  | subtractE y =>
    obtain ⟨m', e, g⟩ := hsub (dynSingleton y)
    exact ⟨m', e, fun x => by rw [g, (oneChunk_singleton (n := n) y).2.2]; rfl⟩
  | intersectE oracle y =>
    obtain ⟨m', e, g⟩ := hint oracle (dynSingleton y) ⟨y, ((oneChunk_singleton (n := n) y).2.2 y).2 rfl⟩
      (oneChunk_singleton y).2.1
    exact ⟨m', e, fun x => by rw [g, (oneChunk_singleton (n := n) y).2.2]; rfl⟩
  | flipE oracle y =>
    obtain ⟨m', e, g⟩ := hflip oracle (dynSingleton y)
    exact ⟨m', e, fun x => by rw [g, (oneChunk_singleton (n := n) y).2.2]; rfl⟩

/-- Any series of such operations does. -/
theorem C49_history_partial (h : Sizes N n) {m : BitMap N n} (hm : Made m) (cs : List (BitOp N n))
    (hc : ∀ c ∈ cs, c.Works) :
    ∃ m', cs.foldlM BitOp.run m = some m' ∧ Made m' ∧
      ∀ x, Bit m' x ↔ x ∈ cs.foldl (fun S c => c.meaning S) {x | Bit m x} := by
  induction cs generalizing m with
  | nil => exact ⟨m, rfl, hm, fun x => Iff.rfl⟩
  | cons c cs ih =>
    obtain ⟨m1, e1, g1⟩ := C49_operation_partial h hm c (hc c (List.mem_cons_self ..))
    obtain ⟨m', e, p, g⟩ := ih (.op c hm e1) (fun c' h' => hc c' (List.mem_cons_of_mem _ h'))
    refine ⟨m', by rw [List.foldlM_cons, e1]; exact e, p, fun x => ?_⟩
    rw [g, List.foldl_cons, show {x | Bit m1 x} = c.meaning {x | Bit m x} from Set.ext g1]

/-- Operations with another large bit set are the operations on sets of numbers: union, difference, intersection and
symmetric difference. -/
theorem C49_operation2 (h : Sizes N n) {m b : BitMap N n} (hm : Made m) (hb : Made b) (c : BitOp2 N n) :
    ∃ m', c.run m b = some m' ∧ Made m' ∧ ∀ x, Bit m' x ↔ x ∈ c.meaning {x | Bit m x} {x | Bit b x} := by
  obtain ⟨s, z⟩ := h.sz
  have hi := hm.inv z
  have hj := hb.inv z
  obtain ⟨m', e, i, g⟩ := op2_inv z hi hj c
  refine ⟨m', e, .op2 c hm hb e, fun x => ?_⟩
  rw [i.bit, g _ (fin_div z x)]
  cases c <;> simp only [BitOp2.fn, BitOp2.meaning, Set.mem_ofPred_eq, hi.bit, hj.bit, Xor] <;>
    cases bitB m x.val <;> cases bitB b x.val <;> simp

/-- `==` tells if two large bit sets hold the same numbers, whatever histories made them. -/
theorem C49_equal (h : Sizes N n) {m b : BitMap N n} (hm : Made m) (hb : Made b) :
    LargeBitset.eq m b = true ↔ ∀ x, Bit m x ↔ Bit b x := by
  obtain ⟨s, z⟩ := h.sz
  exact eq_bits z (hm.inv z) (hb.inv z)

/-- The empty large bit set is the only one without numbers, and it needs no segment. -/
theorem C49_empty (h : Sizes N n) {m : BitMap N n} (hm : Made m) : intervalCount m = 0 ↔ ∀ x, ¬ Bit m x := by
  have he := C49_equal h hm .new
  obtain ⟨s, z⟩ := h.sz
  constructor
  · rintro h0 x ⟨w, ⟨s, hs, _⟩, _⟩
    rw [List.eq_nil_of_length_eq_zero h0] at hs; cases hs
  · intro hx
    have hn : ∀ x, ¬ Bit ([] : BitMap N n) x := by rintro x ⟨w, ⟨s, hs, _⟩, _⟩; cases hs
    have h1 := (eq_words (hm.inv z).proper Inv.nil.proper).1 (he.2 fun x => iff_of_false (hx x) (hn x))
    rw [eq_nil_of_words (hm.inv z).proper h1]; rfl

/-- Large bit sets are compact: the number of segments is less than six times the number of intervals that were used to
make it, whatever the number of bits. -/
theorem C49_compact {K : List (DItv (Fin (2 ^ N)))} {m : BitMap N n} (hm : MadeOf K m) :
    intervalCount m = 0 ∨ intervalCount m < 6 * K.length := by
  rcases C42_map_history_size (cls N) hm.mmade with h | h
  · exact .inl (by rw [h]; rfl)
  · rw [length_flatMap_chunks] at h
    exact .inr (by unfold intervalCount; omega)

/-! ## Intersections with intervals -/

/-- What is missing in `C49_operation_partial`: `&=` with an interval that spreads over more than one chunk removes all
numbers, because the parts of the interval are intersected one after the other (large_bitset.hpp:186-191). -/
theorem C49_intersect_wide (h : Sizes N n) {m : BitMap N n} (hm : Made m)
    (oracle : BitMap N n → DItv (Fin (2 ^ N)) → Nat) {k : DItv (Fin (2 ^ N))} (hk : ¬ OneChunk n k) :
    LargeBitset.intersect oracle m k = some [] := by
  obtain ⟨s, z⟩ := h.sz
  obtain ⟨m', e, p, g⟩ := intersect_wide z oracle (hm.inv z).proper hk
  rw [e, eq_nil_of_words p g]

/-- `&=` with an empty interval changes nothing (large_bitset.hpp:170-171). -/
theorem C49_intersect_empty (m : BitMap N n) (oracle : BitMap N n → DItv (Fin (2 ^ N)) → Nat)
    {k : DItv (Fin (2 ^ N))} (hk : ∀ x, ¬ In (itv N) x k) : LargeBitset.intersect oracle m k = some m := by
  unfold LargeBitset.intersect segmentApply
  rw [if_pos (((cls N).cls.lawful.isEmpty_iff k).2 hk)]

/-- Exactly when `&=` with an interval gives the numbers of the set that are in the interval: the interval must be
non-empty and lie within one chunk, or have nothing in common with the set; an empty interval needs an empty set. -/
theorem C49_intersect_exact (h : Sizes N n) {m : BitMap N n} (hm : Made m)
    (oracle : BitMap N n → DItv (Fin (2 ^ N)) → Nat) (k : DItv (Fin (2 ^ N))) :
    (∃ m', LargeBitset.intersect oracle m k = some m' ∧ ∀ x, Bit m' x ↔ Bit m x ∧ In (itv N) x k) ↔
      ((∃ x, In (itv N) x k) → OneChunk n k ∨ ∀ x, Bit m x → ¬ In (itv N) x k) ∧
      ((∀ x, ¬ In (itv N) x k) → ∀ x, ¬ Bit m x) := by
  have hn : ∀ x, ¬ Bit ([] : BitMap N n) x := by rintro x ⟨w, ⟨s, hs, _⟩, _⟩; cases hs
  by_cases h0 : ∃ x, In (itv N) x k
  · by_cases h1 : OneChunk n k
    · exact ⟨fun _ => ⟨fun _ => .inl h1, fun h2 => absurd h0 (not_exists.2 h2)⟩,
        fun _ => C49_operation_partial h hm (.intersect oracle k) ⟨h0, h1⟩⟩
    · rw [C49_intersect_wide h hm oracle h1]
      constructor
      · rintro ⟨m', e, g⟩
        cases e
        exact ⟨fun _ => .inr fun x hx hk => hn x ((g x).2 ⟨hx, hk⟩), fun h2 => absurd h0 (not_exists.2 h2)⟩
      · rintro ⟨h2, _⟩
        rcases h2 h0 with h2 | h2
        · exact absurd h2 h1
        · exact ⟨[], rfl, fun x => ⟨fun hx => absurd hx (hn x), fun hx => absurd hx.2 (h2 x hx.1)⟩⟩
  · have h0' : ∀ x, ¬ In (itv N) x k := fun x hx => h0 ⟨x, hx⟩
    rw [C49_intersect_empty m oracle h0']
    constructor
    · rintro ⟨m', e, g⟩
      cases e
      exact ⟨fun h1 => absurd h1 h0, fun _ x hx => h0' x ((g x).1 hx).2⟩
    · exact fun h1 => ⟨m, rfl, fun x => ⟨fun hx => absurd hx (h1.2 h0' x), fun hx => absurd hx.2 (h0' x)⟩⟩

/-! ## Examples -/

section
private abbrev kk (a b : Fin (2 ^ 8)) : DItv (Fin (2 ^ 8)) := ⟨a, b, Bounds.closed⟩
private abbrev oo : BitMap 8 8 → DItv (Fin (2 ^ 8)) → Nat := fun _ _ => 0

/-- Numbers of 8 bits, words of 8 bits -/
theorem ex_sizes : Sizes 8 8 := ⟨⟨3, by omega, rfl⟩, by omega⟩

private def m1 : BitMap 8 8 := [(rightOpen 0 1, 0xe0#8), (rightOpen 1 25, 0xff#8), (rightOpen 25 26, 0x01#8)]
private def m2 : BitMap 8 8 := [(rightOpen 0 1, 0x60#8), (rightOpen 25 26, 0x01#8)]

private theorem m1_made : MadeOf [kk 5 200, kk 7 199] m1 :=
  .op (.add (kk 5 200)) (List.mem_cons_self ..) .new (by decide +kernel)
private theorem m2_made : MadeOf [kk 5 200, kk 7 199] m2 :=
  .op (.flip oo (kk 7 199)) (List.mem_cons_of_mem _ (List.mem_cons_self ..)) m1_made (by decide +kernel)

private theorem m1_ok : Made m1 := .op (.add (kk 5 200)) .new (by decide +kernel)
private theorem m2_ok : Made m2 := .op (.flip oo (kk 7 199)) m1_ok (by decide +kernel)

example : intervalCount m1 = 3 ∧ intervalCount m2 = 2 := by decide

/-- The numbers of the first example are those from 5 to 200. -/
theorem ex_bits (x : Fin (2 ^ 8)) : Bit m1 x ↔ 5 ≤ x ∧ x ≤ 200 := by
  obtain ⟨m', e, g⟩ := C49_operation_partial ex_sizes .new (.add (kk 5 200)) trivial
  have : BitOp.run ([] : BitMap 8 8) (.add (kk 5 200)) = some m1 := by decide +kernel
  rw [e] at this; cases this
  rw [g]
  have hn : ¬ Bit ([] : BitMap 8 8) x := by rintro ⟨w, ⟨s, hs, _⟩, _⟩; cases hs
  have : x ∈ BitOp.meaning {x | Bit ([] : BitMap 8 8) x} (BitOp.add (n := 8) (kk 5 200)) ↔
      Bit ([] : BitMap 8 8) x ∨ In (itv 8) x (kk 5 200) := Iff.rfl
  rw [this]
  simp only [hn, false_or]
  simp [In, discreteOps, Dyn.contains, Bounds.closed, Bounds.isLeftClosed, Bounds.isRightClosed]

/-- Without the restriction the claim on `&=` is false: `{5, ..., 200} &= [7, 199]` is empty, and
`{5, ..., 200} &= [7, 7)` is `{5, ..., 200}`. -/
theorem C49_counterexample_intersect :
    (LargeBitset.intersect oo m1 (kk 7 199) = some [] ∧ Bit m1 100 ∧ In (itv 8) 100 (kk 7 199)) ∧
    LargeBitset.intersect oo m1 (rightOpen 7 7) = some m1 ∧ Bit m1 100 ∧ ∀ x, ¬ In (itv 8) x (rightOpen 7 7) := by
  have hb : Bit m1 100 := (ex_bits 100).2 (by decide)
  refine ⟨⟨by decide +kernel, hb, show (itv 8).contains (kk 7 199) 100 = true by decide⟩, by decide +kernel, hb, fun x hx => ?_⟩
  have := (in_rightOpen (7 : Fin (2 ^ 8)) 7 x).1 hx
  exact absurd this.1 (not_le.2 this.2)

example : ¬ OneChunk 8 (kk 7 199) := fun ⟨c, hc⟩ => by
  have h1 := hc 7 (show (itv 8).contains (kk 7 199) 7 = true by decide)
  have h2 := hc 199 (show (itv 8).contains (kk 7 199) 199 = true by decide)
  rw [← h2] at h1; exact absurd h1 (by decide)
/-- A wide interval that has nothing in common with the set -/
example : ∃ m', LargeBitset.intersect oo m1 (kk 201 250) = some m' ∧
    ∀ x, Bit m' x ↔ Bit m1 x ∧ In (itv 8) x (kk 201 250) := by
  have h0 : In (itv 8) 201 (kk 201 250) := show (itv 8).contains (kk 201 250) 201 = true by decide
  refine (C49_intersect_exact ex_sizes m1_ok oo _).2 ⟨fun _ => .inr fun x hx hk => ?_, fun h => absurd h0 (h _)⟩
  have h1 : x.val ≤ 200 := ((ex_bits x).1 hx).2
  have h2 : 201 ≤ x ∧ x ≤ 250 := by
    simpa [In, discreteOps, Dyn.contains, Bounds.closed, Bounds.isLeftClosed, Bounds.isRightClosed] using hk
  have h3 : 201 ≤ x.val := h2.1
  omega
/-- Intersection within one chunk -/
example : (BitOp.intersect oo (kk 17 19)).Works ∧
    LargeBitset.intersect oo m1 (kk 17 19) = some [(rightOpen 2 3, 0x0e#8)] := by
  refine ⟨⟨⟨17, show (itv 8).contains (kk 17 19) 17 = true by decide⟩, 2, fun x hx => ?_⟩, by decide +kernel⟩
  have : 17 ≤ x ∧ x ≤ 19 := by
    simpa [In, discreteOps, Dyn.contains, Bounds.closed, Bounds.isLeftClosed, Bounds.isRightClosed] using hx
  have h1 : (17 : Nat) ≤ x.val := this.1
  have h2 : x.val ≤ 19 := this.2
  omega
/-- The whole domain, up to the greatest number, and the removal of that -/
example : LargeBitset.add ([] : BitMap 8 8) (kk 0 255) = some [(rightOpen 0 32, 0xff#8)] ∧
    BitOp.run [(rightOpen 0 32, 0xff#8)] (.subtractE (255 : Fin (2 ^ 8))) =
      some [(rightOpen 0 31, 0xff#8), (rightOpen 31 32, 0x7f#8)] := by
  refine ⟨by decide +kernel, by decide +kernel⟩
/-- Equal sets made in different ways -/
example : Made m2 ∧ (BitOp2.add oo).run m2 m1 = some m1 ∧ LargeBitset.eq m1 m1 = true ∧ LargeBitset.eq m2 m1 = false :=
  ⟨m2_ok, by decide +kernel, by decide +kernel, by decide +kernel⟩
example : intervalCount m2 = 0 ∨ intervalCount m2 < 6 * 2 := C49_compact m2_made
example : ∃ m', [BitOp.flip oo (kk 7 199), .addE 9].foldlM BitOp.run m1 = some m' ∧ Made m' ∧ Bit m' 9 := by
  obtain ⟨m', e, p, g⟩ := C49_history_partial ex_sizes m1_ok [BitOp.flip oo (kk 7 199), .addE 9]
    (by intro c hc; simp only [List.mem_cons, List.not_mem_nil, or_false] at hc; rcases hc with rfl | rfl <;> trivial)
  exact ⟨m', e, p, (g 9).2 (Or.inr rfl)⟩
end

end ICL.Props
