import Verif.BitsetSpec
import Verif.Props.Maps
import Verif.Props.MapOps
import Verif.Props.MapLaws
import Verif.Props.Borders

/-!
# Lemmas on the large bit set
-/

namespace ICL.LargeBitset

open Spec Props

variable {N n : Nat}

/-! ## Words -/

theorem logGo_pow (s : Nat) : ∀ fuel, s ≤ fuel → logGo fuel (2 ^ s) = s := by
  induction s with
  | zero => intro fuel _; cases fuel <;> simp [logGo]
  | succ s ih =>
    intro fuel hf
    obtain ⟨f, rfl⟩ : ∃ f, fuel = f + 1 := ⟨fuel - 1, by omega⟩
    have h2 : 0 < 2 ^ s := Nat.two_pow_pos s
    have h1 : ¬ 2 ^ (s + 1) ≤ 1 := by rw [Nat.pow_succ]; omega
    rw [logGo, if_neg h1, Nat.pow_succ, Nat.mul_div_cancel _ (by omega : 0 < 2), ih f (by omega)]
    omega

theorem log2_pow (s : Nat) : log2 (2 ^ s) = s := logGo_pow s _ (Nat.lt_two_pow_self).le

/-- What the proofs use of the sizes. -/
structure Sz (N n s : Nat) : Prop where
  n_eq : n = 2 ^ s
  two : 2 ≤ n
  fit : n < 2 ^ n
  s_lt : s < 2 ^ n
  dom : 2 ≤ 2 ^ N

theorem Sizes.sz (h : Sizes N n) : ∃ s, Sz N n s := by
  obtain ⟨⟨s, hs, e⟩, hN⟩ := h
  refine ⟨s, e, ?_, Nat.lt_two_pow_self, ?_, ?_⟩
  · rw [e]; exact (Nat.pow_le_pow_right (by omega) hs : 2 ^ 1 ≤ 2 ^ s)
  · exact lt_trans (by rw [e]; exact Nat.lt_two_pow_self) (Nat.lt_two_pow_self (n := n))
  · exact (Nat.pow_le_pow_right (by omega) hN : 2 ^ 1 ≤ 2 ^ N)

section
variable {s : Nat} (z : Sz N n s)
include z

theorem digits_toNat : (digits n).toNat = n := by
  rw [digits, BitVec.toNat_ofNat, Nat.mod_eq_of_lt z.fit]
theorem one_toNat : (1#n).toNat = 1 := by
  rw [BitVec.toNat_ofNat, Nat.mod_eq_of_lt]; have := z.fit; have := z.two; omega
theorem last_toNat : (last n).toNat = n - 1 := by
  have := z.fit; have := z.two
  rw [last, BitVec.toNat_sub, digits_toNat z, one_toNat z]
  rw [show 2 ^ n - 1 + n = 2 ^ n + (n - 1) by omega, Nat.add_mod_left]
  exact Nat.mod_eq_of_lt (by omega)
theorem mask_toNat : (mask n).toNat = n - 1 := last_toNat z
theorem shift_toNat : (shift n).toNat = s := by
  rw [shift, BitVec.toNat_ofNat, divisor, digits_toNat z, z.n_eq, log2_pow, ← z.n_eq, Nat.mod_eq_of_lt z.s_lt]
theorem rest_eq (x : Nat) : x &&& (mask n).toNat = x % n := by
  rw [mask_toNat z, z.n_eq, Nat.and_two_pow_sub_one_eq_mod]
theorem base_eq (x : Nat) : x >>> (shift n).toNat = x / n := by
  rw [shift_toNat z, Nat.shiftRight_eq_div_pow, ← z.n_eq]

theorem lsb_ones {k b : Nat} (hk : k < n) : ((1#n <<< k) - 1#n).getLsbD b = decide (b < k) := by
  have h1 : (1#n <<< k).toNat = 2 ^ k := by
    rw [BitVec.toNat_shiftLeft, one_toNat z, Nat.shiftLeft_eq, Nat.one_mul]
    exact Nat.mod_eq_of_lt (Nat.pow_lt_pow_right (by omega) hk)
  have h2 : 2 ^ k < 2 ^ n := Nat.pow_lt_pow_right (by omega) hk
  have h3 : 0 < 2 ^ k := Nat.two_pow_pos k
  have h4 : ((1#n <<< k) - 1#n).toNat = 2 ^ k - 1 := by
    rw [BitVec.toNat_sub, h1, one_toNat z, show 2 ^ n - 1 + 2 ^ k = 2 ^ n + (2 ^ k - 1) by omega, Nat.add_mod_left]
    exact Nat.mod_eq_of_lt (by omega)
  rw [BitVec.getLsbD, h4, Nat.testBit_two_pow_sub_one]

omit z in
theorem lsb_all {b : Nat} (hb : b < n) : (all n).getLsbD b = true := by simp [all, hb]

theorem ofNat_toNat {r : Nat} (hr : r < n) : (BitVec.ofNat n r).toNat = r := by
  rw [BitVec.toNat_ofNat, Nat.mod_eq_of_lt]; have := z.fit; omega

theorem lsb_from {r b : Nat} (hr : r < n) (hb : b < n) :
    (fromLowerTo (BitVec.ofNat n r)).getLsbD b = decide (b ≤ r) := by
  have hz := z.fit
  unfold fromLowerTo
  by_cases h : BitVec.ofNat n r = last n
  · have : r = n - 1 := by rw [← ofNat_toNat z hr, h, last_toNat z]
    rw [if_pos h, lsb_all hb]; symm; rw [decide_eq_true_eq]; omega
  · have hne : r ≠ n - 1 := fun e => h (BitVec.eq_of_toNat_eq (by rw [ofNat_toNat z hr, last_toNat z, e]))
    have hk : (BitVec.ofNat n r + 1#n).toNat = r + 1 := by
      rw [BitVec.toNat_add, ofNat_toNat z hr, one_toNat z]; exact Nat.mod_eq_of_lt (by omega)
    rw [if_neg h, BitVec.shiftLeft_eq', hk, lsb_ones z (by omega)]
    exact decide_eq_decide.2 (by omega)

theorem lsb_upper {r b : Nat} (hr : r < n) (hb : b < n) :
    (toUpperFrom (BitVec.ofNat n r)).getLsbD b = decide (r ≤ b) := by
  unfold toUpperFrom
  by_cases h : BitVec.ofNat n r = last n
  · have hr' : r = n - 1 := by rw [← ofNat_toNat z hr, h, last_toNat z]
    have hl : (digits n - 1#n).toNat = n - 1 := last_toNat z
    have h1 : (1#n <<< (n - 1)).toNat = 2 ^ (n - 1) := by
      rw [BitVec.toNat_shiftLeft, one_toNat z, Nat.shiftLeft_eq, Nat.one_mul]
      exact Nat.mod_eq_of_lt (Nat.pow_lt_pow_right (by omega) (by omega))
    rw [if_pos h, top, BitVec.shiftLeft_eq', hl, BitVec.getLsbD, h1, Nat.testBit_two_pow]
    exact decide_eq_decide.2 (by omega)
  · rw [if_neg h, BitVec.shiftLeft_eq', ofNat_toNat z hr, BitVec.getLsbD_not, lsb_ones z hr]
    by_cases hrb : r ≤ b
    · simp [hb, hrb, not_lt.2 hrb]
    · simp [hb, hrb, not_le.1 hrb]

theorem contains_lsb (w : BitVec n) {b : Nat} (hb : b < n) : contains w b = w.getLsbD b := by
  have e : ∀ i, i < n → ((1#n <<< b) &&& w).getLsbD i = (decide (i = b) && w.getLsbD i) := by
    intro i hi
    have h1 : (1#n <<< b).toNat = 2 ^ b := by
      rw [BitVec.toNat_shiftLeft, one_toNat z, Nat.shiftLeft_eq, Nat.one_mul]
      exact Nat.mod_eq_of_lt (Nat.pow_lt_pow_right (by omega) hb)
    rw [BitVec.getLsbD_and, BitVec.getLsbD, h1, Nat.testBit_two_pow]
    congr 1; exact decide_eq_decide.2 eq_comm
  unfold contains
  cases hw : w.getLsbD b with
  | true =>
    rw [bne_iff_ne]; intro h0
    have := e b hb
    rw [h0, hw] at this; simp at this
  | false =>
    rw [bne_eq_false_iff_eq]
    refine BitVec.eq_of_getLsbD_eq fun i hi => ?_
    rw [e i hi]
    by_cases hib : i = b
    · subst hib; simp [hw]
    · simp [hib]
end

/-! ## Chunk numbers -/

section
variable {s : Nat} (z : Sz N n s)
include z

theorem div_lt (x : Fin (2 ^ N)) : x.val / n + 1 < 2 ^ N := by
  have h1 : x.val / n ≤ x.val / 2 := Nat.div_le_div_left z.two (by omega)
  have hx := x.isLt
  have hd : 2 ^ N = 2 * 2 ^ (N - 1) := by
    have : N ≠ 0 := by rintro rfl; have := z.dom; simp at this
    rw [← Nat.pow_succ']; congr 1; omega
  have h3 : 0 < 2 ^ (N - 1) := Nat.two_pow_pos _
  have := z.dom
  rcases Nat.lt_or_ge 2 (2 ^ N) with h | h
  · omega
  · omega

theorem chunk_val (x : Fin (2 ^ N)) : (chunk N (x.val / n)).val = x.val / n :=
  Nat.mod_eq_of_lt (by have := div_lt z x; omega)

theorem succ_val {c : Fin (2 ^ N)} (h : c.val + 1 < 2 ^ N) : (c + 1).val = c.val + 1 := by
  have hd := z.dom
  rw [Fin.val_add, Fin.coe_ofNat_eq_mod, Nat.mod_eq_of_lt (show 1 < 2 ^ N by omega)]
  exact Nat.mod_eq_of_lt h
end

/-! ## Maps of words -/

theorem cls (N : Nat) : SetClass (itv N) none := ⟨.discrete _ _, fun _ h => by cases h⟩

theorem bitSets_neutral (joining absorbs total : Bool) : Neutral (.bitSets (n := n) joining absorbs total) where
  plus_ident := by intro v; simp [MapType.bitSets, Combiner.bitAdd]
  plus_ne := by intro v hv; exact hv
  minus_ne := by intro _ hh; simp [MapType.bitSets] at hh
  sect_ne := by intro v hv; exact hv

/-- The word of a chunk -/
def word (m : BitMap N n) (c : Fin (2 ^ N)) : BitVec n := (valueAt (itv N) m c).getD 0#n

/-- The maps that large bit sets have -/
abbrev Proper (m : BitMap N n) : Prop := MReachable (itv N) none (bitmap n) m

theorem Proper.wf {m : BitMap N n} (hm : Proper m) : MapWellFormed (itv N) m := C15_well_formed (cls N) hm
theorem Proper.noId {m : BitMap N n} (hm : Proper m) : NoIdentity (bitmap n) m :=
  noIdentity_iff.2 ((hm.good (cls N)).noIdent (bitSets_neutral _ _ _))

theorem bit_word {m : BitMap N n} (hm : Proper m) (x : Fin (2 ^ N)) :
    Bit m x ↔ (word m (chunk N (x.val / n))).getLsbD (x.val % n) = true := by
  unfold Bit word
  constructor
  · rintro ⟨w, ha, hb⟩
    rw [(valueAt_assoc hm.wf _ _).2 ha]; exact hb
  · intro h
    cases hv : valueAt (itv N) m (chunk N (x.val / n)) with
    | none => rw [hv] at h; simp at h
    | some w => rw [hv] at h; exact ⟨w, (valueAt_assoc hm.wf _ _).1 hv, h⟩

theorem added_word (v : BitVec n) (a : Option (BitVec n)) :
    (added (bitmap n) v a).getD 0#n = a.getD 0#n ||| v := by
  cases a with
  | none => by_cases hv : v = 0#n <;> simp [added, combined, Ignored, MapType.bitSets, Combiner.bitAdd, hv]
  | some u =>
    by_cases hv : v = 0#n
    · simp [added, combined, Ignored, MapType.bitSets, hv]
    · by_cases hu : u ||| v = 0#n <;>
        simp [added, combined, stored, Ignored, MapType.bitSets, Combiner.bitAdd, hv, hu]

theorem subtracted_word (v : BitVec n) (a : Option (BitVec n)) :
    (subtracted (bitmap n) v a).getD 0#n = a.getD 0#n &&& ~~~ v := by
  cases a with
  | none => simp [subtracted, MapType.bitSets]
  | some u =>
    by_cases hv : v = 0#n
    · simp [subtracted, combined, Ignored, MapType.bitSets, hv]
    · by_cases hu : u &&& ~~~ v = 0#n <;>
        simp [subtracted, combined, stored, Ignored, MapType.bitSets, Combiner.bitSubtract, hv, hu]

theorem flipped_word (u v : BitVec n) : (flipped (bitmap n) u v).getD 0#n = u ^^^ v := by
  by_cases hu : u = v
  · simp [flipped, Ignored, MapType.bitSets, Combiner.bitXor, hu]
  · have hvu : v ^^^ u ≠ 0#n := fun h => hu (BitVec.xor_eq_zero_iff.1 h).symm
    have h0 : ¬ Ignored (bitmap n) (v ^^^ u) := fun h => hvu h.2
    show (if Ignored (bitmap n) (v ^^^ u) then none else some (v ^^^ u)).getD 0#n = u ^^^ v
    rw [if_neg h0, Option.getD_some, BitVec.xor_comm]

theorem sectioned_word (u v : BitVec n) (hu : u ≠ 0#n) :
    (sectioned (bitmap n) u v).getD 0#n = if v = 0#n then u else u &&& v := by
  by_cases hv : v = 0#n
  · simp [sectioned, combined, Ignored, MapType.bitSets, Combiner.bitAdd, hv, hu]
  · by_cases h : u &&& v = 0#n <;>
      simp [sectioned, combined, stored, Ignored, MapType.bitSets, Combiner.bitAnd, Combiner.bitAdd, hv, hu, h]

/-! ## The combiners -/

theorem in_rightOpen (lo up c : Fin (2 ^ N)) : In (itv N) c (rightOpen lo up) ↔ lo ≤ c ∧ c < up := by
  simp [In, discreteOps, Dyn.contains, rightOpen, Bounds.rightOpen, Bounds.isLeftClosed, Bounds.isRightClosed]

/-- A combiner that changes the bits it is given by the Boolean function `g`. -/
def Combines (combine : SegmentCombiner N n) (g : Bool → Bool → Bool) : Prop :=
  ∀ m lo up bits, Proper m → lo < up → ∃ m', combine m lo up bits = some m' ∧ Proper m' ∧
    ∀ c b, b < n → (word m' c).getLsbD b =
      if lo ≤ c ∧ c < up then g ((word m c).getLsbD b) (bits.getLsbD b) else (word m c).getLsbD b

theorem add_combines : Combines (N := N) (n := n) addCombiner (fun a b => a || b) := by
  intro m lo up bits hm hlu
  obtain ⟨m', e, w, h1, h2⟩ := C18_add (cls N).cls (bitmap n) hm.wf (rightOpen lo up) bits
  refine ⟨m', e, .op (.add _ _) hm e, fun c b hb => ?_⟩
  split
  · rename_i hc
    rw [word, h1 c ((in_rightOpen _ _ _).2 hc), added_word, BitVec.getLsbD_or]; rfl
  · rename_i hc
    rw [word, h2 c (fun h => hc ((in_rightOpen _ _ _).1 h))]; rfl

theorem subtract_combines : Combines (N := N) (n := n) subtractCombiner (fun a b => a && !b) := by
  intro m lo up bits hm hlu
  obtain ⟨m', e, w, h1, h2⟩ := C19_subtract (cls N).cls (bitmap n) hm.wf (rightOpen lo up) bits
  refine ⟨m', e, .op (.subtract _ _) hm e, fun c b hb => ?_⟩
  split
  · rename_i hc
    rw [word, h1 c ((in_rightOpen _ _ _).2 hc), subtracted_word, BitVec.getLsbD_and, BitVec.getLsbD_not]
    simp [hb, word]
  · rename_i hc
    rw [word, h2 c (fun h => hc ((in_rightOpen _ _ _).1 h))]; rfl

theorem flip_combines (oracle : BitMap N n → DItv (Fin (2 ^ N)) → Nat) :
    Combines (N := N) (n := n) (flipCombiner oracle) (fun a b => a != b) := by
  intro m lo up bits hm hlu
  obtain ⟨m', e, w, h1, h1', h2⟩ := C23_flip_segment (cls N).cls (bitSets_neutral (n := n) true true false) rfl
    oracle hm.wf hm.noId (rightOpen lo up) ⟨lo, (in_rightOpen _ _ _).2 ⟨le_refl _, hlu⟩⟩ bits
  refine ⟨m', e, .op (.flip oracle _ _) hm e, fun c b hb => ?_⟩
  split
  · rename_i hc
    have hi := (in_rightOpen _ _ _).2 hc
    cases hv : valueAt (itv N) m c with
    | none => rw [word, h1 c hi hv, added_word, word, hv]; simp
    | some u => rw [word, h1' c u hi hv, flipped_word, word, hv, BitVec.getLsbD_xor]; simp
  · rename_i hc
    rw [word, h2 c (fun h => hc ((in_rightOpen _ _ _).1 h))]; rfl

/-- The combiner for intersections deletes all bits outside its range. -/
theorem intersect_combines (oracle : BitMap N n → DItv (Fin (2 ^ N)) → Nat) {m : BitMap N n} (hm : Proper m)
    (lo up : Fin (2 ^ N)) {bits : BitVec n} (hb : bits ≠ 0#n) :
    ∃ m', intersectCombiner oracle m lo up bits = some m' ∧ Proper m' ∧
      ∀ c, word m' c = if lo ≤ c ∧ c < up then word m c &&& bits else 0#n := by
  obtain ⟨m', e, w, h1, h2⟩ := C23_intersect_segment (cls N).cls (bitSets_neutral (n := n) true true false).toVersions
    rfl oracle hm.wf (rightOpen lo up) bits
  refine ⟨m', e, .op (.inter oracle _ _) hm e, fun c => ?_⟩
  split
  · rename_i hc
    rw [word, h1 c ((in_rightOpen _ _ _).2 hc)]
    cases hv : valueAt (itv N) m c with
    | none => simp [word, hv]
    | some u =>
      have hu : u ≠ 0#n := by
        intro h0
        obtain ⟨s, hs, hx, rfl⟩ := (valueAt_assoc hm.wf _ _).1 hv
        exact hm.noId s hs ⟨rfl, h0⟩
      rw [Option.bind_some, sectioned_word u bits hu, if_neg hb]; simp [word, hv]
  · rename_i hc
    rw [word, h2 c (fun h => hc ((in_rightOpen _ _ _).1 h))]; rfl

/-! ## `segment_apply` -/

theorem le_chunks {n : Nat} (hn : 0 < n) (a b : Nat) :
    a ≤ b ↔ a / n < b / n ∨ (a / n = b / n ∧ a % n ≤ b % n) := by
  have ha := Nat.div_add_mod a n
  have hb := Nat.div_add_mod b n
  have hra := Nat.mod_lt a hn
  have hrb := Nat.mod_lt b hn
  constructor
  · intro h
    rcases Nat.lt_or_ge (a / n) (b / n) with h1 | h1
    · exact .inl h1
    · have h2 : a / n = b / n := le_antisymm (Nat.div_le_div_right h) h1
      refine .inr ⟨h2, ?_⟩
      rw [h2] at ha; omega
  · rintro (h | ⟨h1, h2⟩)
    · have : n * (a / n + 1) ≤ n * (b / n) := Nat.mul_le_mul_left n h
      rw [Nat.mul_add, Nat.mul_one] at this; omega
    · rw [h1] at ha; omega

/-- The bit of the number `x` -/
def bitB (m : BitMap N n) (x : Nat) : Bool := (word m (chunk N (x / n))).getLsbD (x % n)

/-- The interval holds the number `x`. -/
def inB (k : DItv (Fin (2 ^ N))) (x : Nat) : Bool := if h : x < 2 ^ N then (itv N).contains k ⟨x, h⟩ else false

section
variable {s : Nat} (z : Sz N n s)
include z

theorem Combines.at {combine : SegmentCombiner N n} {g : Bool → Bool → Bool} (hc : Combines combine g)
    {m : BitMap N n} (hm : Proper m) {lo up : Fin (2 ^ N)} (hlu : lo < up) (bits : BitVec n) :
    ∃ m', combine m lo up bits = some m' ∧ Proper m' ∧ ∀ x, x / n < 2 ^ N → bitB m' x =
      if lo.val ≤ x / n ∧ x / n < up.val then g (bitB m x) (bits.getLsbD (x % n)) else bitB m x := by
  obtain ⟨m', e, p, h⟩ := hc m lo up bits hm hlu
  refine ⟨m', e, p, fun x hx => ?_⟩
  have := h (chunk N (x / n)) (x % n) (Nat.mod_lt _ (by have := z.two; omega))
  simp only [Fin.le_def, Fin.lt_def, show (chunk N (x / n)).val = x / n from Nat.mod_eq_of_lt hx] at this
  exact this

theorem segmentApply_at {combine : SegmentCombiner N n} {g : Bool → Bool → Bool} (hg : ∀ a, g a false = a)
    (hc : Combines combine g) {m : BitMap N n} (hm : Proper m) (k : DItv (Fin (2 ^ N))) :
    ∃ m', segmentApply combine m k = some m' ∧ Proper m' ∧
      ∀ x, x / n < 2 ^ N → bitB m' x = g (bitB m x) (inB k x) := by
  have hn : 0 < n := by have := z.two; omega
  unfold segmentApply
  by_cases hk : (itv N).isEmpty k = true
  · rw [if_pos hk]
    refine ⟨m, rfl, hm, fun x hxN => ?_⟩
    have hx : inB k x = false := by
      unfold inB
      split
      · rw [← Bool.not_eq_true]; intro hx
        have := ((cls N).cls.lawful.isEmpty_iff k).1 hk
        exact this _ hx
      · rfl
    rw [hx, hg]
  · rw [if_neg hk]
    have hin : ∀ x, (itv N).contains k x = true ↔ Disc.first (stepsFin N) k ≤ x ∧ x ≤ Disc.last (stepsFin N) k :=
      fun x => (DiscreteClass.discrete (stepsFin N) 0).mem_iff ((nonempty_iff (cls N).cls.lawful).2
        (by simpa using hk)) x
    obtain ⟨x0, hx0⟩ := (nonempty_iff (cls N).cls.lawful).2 (show (itv N).isEmpty k = false by simpa using hk)
    have hfl := le_trans ((hin x0).1 hx0).1 ((hin x0).1 hx0).2
    generalize Disc.first (stepsFin N) k = f at *
    generalize Disc.last (stepsFin N) k = l at *
    dsimp only
    rw [base_eq z, base_eq z, rest_eq z, rest_eq z]
    have hcont : ∀ x, inB k x = decide (f.val ≤ x ∧ x ≤ l.val) := fun x => by
      unfold inB
      split
      · rw [Bool.eq_iff_iff, hin, decide_eq_true_eq, Fin.le_def, Fin.le_def]
      · have := l.isLt; exact (decide_eq_false (by omega)).symm
    have hfn := Nat.mod_lt f.val hn
    have hln := Nat.mod_lt l.val hn
    have hBC := (le_chunks hn f.val l.val).1 hfl
    have eB := chunk_val z f
    have eC := chunk_val z l
    have eB1 : (chunk N (f.val / n) + 1).val = f.val / n + 1 := by
      rw [succ_val z (by rw [eB]; exact div_lt z f), eB]
    have eC1 : (chunk N (l.val / n) + 1).val = l.val / n + 1 := by
      rw [succ_val z (by rw [eC]; exact div_lt z l), eC]
    unfold chunk at eB eC eB1 eC1
    generalize Fin.ofNat (2 ^ N) (f.val / n) = B at *
    generalize Fin.ofNat (2 ^ N) (l.val / n) = C at *
    by_cases hbc : B = C
    · rw [if_pos hbc]
      have hbc' : f.val / n = l.val / n := by rw [← eB, ← eC, hbc]
      obtain ⟨m', e, p, h⟩ := hc.at z hm (show B < B + 1 by rw [Fin.lt_def, eB, eB1]; omega)
        (toUpperFrom (BitVec.ofNat n (f.val % n)) &&& fromLowerTo (BitVec.ofNat n (l.val % n)))
      refine ⟨m', e, p, fun x hxN => ?_⟩
      have hxn := Nat.mod_lt x hn
      rw [h x hxN, hcont, BitVec.getLsbD_and, lsb_upper z hfn hxn, lsb_from z hln hxn, eB, eB1, ← Bool.decide_and]
      have h1 := le_chunks hn f.val x
      have h2 := le_chunks hn x l.val
      by_cases hx : f.val / n ≤ x / n ∧ x / n < f.val / n + 1
      · rw [if_pos hx]; congr 1
        exact decide_eq_decide.2 (by omega)
      · rw [if_neg hx, decide_eq_false (by omega), hg]
    · rw [if_neg hbc]
      have hbc' : f.val / n < l.val / n := by
        have : f.val / n ≠ l.val / n := fun h => hbc (Fin.ext (by rw [eB, eC, h]))
        omega
      have hz := z.fit
      have hall : (all n).toNat = 2 ^ n - 1 := by simp [all]
      have hlt : BitVec.ofNat n (l.val % n) < all n := by
        rw [BitVec.lt_def, ofNat_toNat z hln, hall]; omega
      have hne : BitVec.ofNat n (l.val % n) ≠ all n := fun h => by
        rw [h, BitVec.lt_def] at hlt; omega
      have hpos : 0#n < BitVec.ofNat n (f.val % n) ↔ 0 < f.val % n := by
        rw [BitVec.lt_def, ofNat_toNat z hfn]; simp
      have hzero : BitVec.ofNat n (f.val % n) = 0#n ↔ f.val % n = 0 := by
        rw [← BitVec.toNat_inj, ofNat_toNat z hfn]; simp
      obtain ⟨m1, e1, p1, h1⟩ : ∃ m1, (if 0#n < BitVec.ofNat n (f.val % n) then
          combine m B (B + 1) (toUpperFrom (BitVec.ofNat n (f.val % n))) else some m) = some m1 ∧ Proper m1 ∧
          ∀ x, x / n < 2 ^ N → bitB m1 x = if 0 < f.val % n ∧ x / n = f.val / n
            then g (bitB m x) (decide (f.val % n ≤ x % n)) else bitB m x := by
        by_cases h0 : 0 < f.val % n
        · rw [if_pos (hpos.2 h0)]
          obtain ⟨m1, e, p, h⟩ := hc.at z hm (show B < B + 1 by rw [Fin.lt_def, eB, eB1]; omega)
            (toUpperFrom (BitVec.ofNat n (f.val % n)))
          refine ⟨m1, e, p, fun x hxN => ?_⟩
          rw [h x hxN, lsb_upper z hfn (Nat.mod_lt x hn), eB, eB1]
          by_cases hx : x / n = f.val / n
          · rw [if_pos (by omega), if_pos ⟨h0, hx⟩]
          · rw [if_neg (by omega), if_neg (by omega)]
        · rw [if_neg (fun h => h0 (hpos.1 h))]
          exact ⟨m, rfl, hm, fun x hxN => by rw [if_neg (fun h => h0 h.1)]⟩
      obtain ⟨m2, e2, p2, h2⟩ := hc.at z p1 (show C < C + 1 by rw [Fin.lt_def, eC, eC1]; omega)
        (fromLowerTo (BitVec.ofNat n (l.val % n)))
      rw [if_neg hne, e1, Option.bind_some, if_pos hlt, e2, Option.bind_some]
      have eM : (if BitVec.ofNat n (f.val % n) = 0#n then B else B + 1).val =
          if f.val % n = 0 then f.val / n else f.val / n + 1 := by
        by_cases h0 : f.val % n = 0
        · rw [if_pos (hzero.2 h0), if_pos h0, eB]
        · rw [if_neg (fun h => h0 (hzero.1 h)), if_neg h0, eB1]
      generalize (if BitVec.ofNat n (f.val % n) = 0#n then B else B + 1) = M at *
      obtain ⟨m3, e3, p3, h3⟩ : ∃ m3, (if M < C then combine m2 M C (all n) else some m2) = some m3 ∧ Proper m3 ∧
          ∀ x, x / n < 2 ^ N → bitB m3 x = if M.val ≤ x / n ∧ x / n < l.val / n
            then g (bitB m2 x) true else bitB m2 x := by
        by_cases hM : M < C
        · rw [if_pos hM]
          obtain ⟨m3, e, p, h⟩ := hc.at z p2 hM (all n)
          refine ⟨m3, e, p, fun x hxN => ?_⟩
          rw [h x hxN, lsb_all (Nat.mod_lt x hn), eC]
        · rw [if_neg hM]
          rw [Fin.lt_def, eC] at hM
          exact ⟨m2, rfl, p2, fun x hxN => by rw [if_neg (by omega)]⟩
      refine ⟨m3, e3, p3, fun x hxN => ?_⟩
      have hxn := Nat.mod_lt x hn
      rw [h3 x hxN, h2 x hxN, h1 x hxN, hcont, lsb_from z hln hxn, eC, eC1]
      have l1 := le_chunks hn f.val x
      have l2 := le_chunks hn x l.val
      rcases Nat.lt_trichotomy (x / n) (f.val / n) with hx | hx | hx
      · have hM : ¬ (M.val ≤ x / n ∧ x / n < l.val / n) := by split at eM <;> omega
        rw [if_neg hM, if_neg (by omega), if_neg (by omega), decide_eq_false (by omega), hg]
      · by_cases h0 : f.val % n = 0
        · rw [if_pos h0] at eM
          rw [if_pos (by omega), if_neg (by omega), if_neg (by omega), decide_eq_true (by omega)]
        · rw [if_neg h0] at eM
          rw [if_neg (by omega), if_neg (by omega), if_pos ⟨by omega, hx⟩]
          congr 1; exact decide_eq_decide.2 (by omega)
      · rcases Nat.lt_trichotomy (x / n) (l.val / n) with hy | hy | hy
        · have hM : M.val ≤ x / n ∧ x / n < l.val / n := by split at eM <;> omega
          rw [if_pos hM, if_neg (by omega), if_neg (by omega), decide_eq_true (by omega)]
        · rw [if_neg (by omega), if_pos (by omega), if_neg (by omega)]
          congr 1; exact decide_eq_decide.2 (by omega)
        · rw [if_neg (by omega), if_neg (by omega), if_neg (by omega), decide_eq_false (by omega), hg]

/-- Intersection with an interval within one chunk -/
theorem intersect_one (oracle : BitMap N n → DItv (Fin (2 ^ N)) → Nat) {m : BitMap N n} (hm : Proper m)
    {k : DItv (Fin (2 ^ N))} (hk : (itv N).isEmpty k = false) (h1 : OneChunk n k) :
    ∃ m', intersect oracle m k = some m' ∧ Proper m' ∧
      ∀ x, x / n < 2 ^ N → bitB m' x = (bitB m x && inB k x) := by
  have hn : 0 < n := by have := z.two; omega
  unfold intersect segmentApply
  rw [if_neg (by simp [hk])]
  have hin : ∀ x, (itv N).contains k x = true ↔ Disc.first (stepsFin N) k ≤ x ∧ x ≤ Disc.last (stepsFin N) k :=
    fun x => (DiscreteClass.discrete (stepsFin N) 0).mem_iff ((nonempty_iff (cls N).cls.lawful).2 hk) x
  obtain ⟨x0, hx0⟩ := (nonempty_iff (cls N).cls.lawful).2 hk
  have hfl := le_trans ((hin x0).1 hx0).1 ((hin x0).1 hx0).2
  generalize Disc.first (stepsFin N) k = f at *
  generalize Disc.last (stepsFin N) k = l at *
  dsimp only
  rw [base_eq z, base_eq z, rest_eq z, rest_eq z]
  obtain ⟨c0, hc0⟩ := h1
  have hbc' : f.val / n = l.val / n := by
    rw [hc0 f ((hin f).2 ⟨le_refl _, hfl⟩), hc0 l ((hin l).2 ⟨hfl, le_refl _⟩)]
  have hcont : ∀ x, inB k x = decide (f.val ≤ x ∧ x ≤ l.val) := fun x => by
    unfold inB
    split
    · rw [Bool.eq_iff_iff, hin, decide_eq_true_eq, Fin.le_def, Fin.le_def]
    · have := l.isLt; exact (decide_eq_false (by omega)).symm
  have hfn := Nat.mod_lt f.val hn
  have hln := Nat.mod_lt l.val hn
  have hBC := (le_chunks hn f.val l.val).1 hfl
  have eB := chunk_val z f
  have eB1 : (chunk N (f.val / n) + 1).val = f.val / n + 1 := by
    rw [succ_val z (by rw [eB]; exact div_lt z f), eB]
  rw [hbc', if_pos rfl, ← hbc']
  have hne : toUpperFrom (BitVec.ofNat n (f.val % n)) &&& fromLowerTo (BitVec.ofNat n (l.val % n)) ≠ 0#n := by
    intro h
    have := congrArg (fun w => w.getLsbD (f.val % n)) h
    simp only [BitVec.getLsbD_and, lsb_upper z hfn hfn, lsb_from z hln hfn, BitVec.getLsbD_zero] at this
    rw [decide_eq_true (le_refl _), decide_eq_true (by omega)] at this
    cases this
  obtain ⟨m', e, p, h⟩ := intersect_combines oracle hm (chunk N (f.val / n)) (chunk N (f.val / n) + 1) hne
  refine ⟨m', e, p, fun x hxN => ?_⟩
  have hxn := Nat.mod_lt x hn
  have hl1 := le_chunks hn f.val x
  have hl2 := le_chunks hn x l.val
  have ex : (chunk N (x / n)).val = x / n := Nat.mod_eq_of_lt hxN
  rw [bitB, h, hcont]
  simp only [Fin.le_def, Fin.lt_def, ex, eB, eB1]
  by_cases hx : f.val / n ≤ x / n ∧ x / n < f.val / n + 1
  · rw [if_pos hx, BitVec.getLsbD_and, BitVec.getLsbD_and, lsb_upper z hfn hxn, lsb_from z hln hxn, ← Bool.decide_and]
    show (bitB m x && _) = _
    congr 1; exact decide_eq_decide.2 (by omega)
  · rw [if_neg hx, decide_eq_false (by omega), Bool.and_false]; simp

/-- Intersection with an interval that does not lie within one chunk -/
theorem intersect_wide (oracle : BitMap N n → DItv (Fin (2 ^ N)) → Nat) {m : BitMap N n} (hm : Proper m)
    {k : DItv (Fin (2 ^ N))} (h1 : ¬ OneChunk n k) :
    ∃ m', intersect oracle m k = some m' ∧ Proper m' ∧ ∀ c, word m' c = 0#n := by
  have hn : 0 < n := by have := z.two; omega
  have hk : (itv N).isEmpty k = false := by
    rw [← Bool.not_eq_true]; intro h
    exact h1 ⟨0, fun x hx => absurd hx (((cls N).cls.lawful.isEmpty_iff k).1 h x)⟩
  unfold intersect segmentApply
  rw [if_neg (by simp [hk])]
  have hin : ∀ x, (itv N).contains k x = true ↔ Disc.first (stepsFin N) k ≤ x ∧ x ≤ Disc.last (stepsFin N) k :=
    fun x => (DiscreteClass.discrete (stepsFin N) 0).mem_iff ((nonempty_iff (cls N).cls.lawful).2 hk) x
  obtain ⟨x0, hx0⟩ := (nonempty_iff (cls N).cls.lawful).2 hk
  have hfl := le_trans ((hin x0).1 hx0).1 ((hin x0).1 hx0).2
  generalize Disc.first (stepsFin N) k = f at *
  generalize Disc.last (stepsFin N) k = l at *
  dsimp only
  rw [base_eq z, base_eq z, rest_eq z, rest_eq z]
  have hbc' : f.val / n < l.val / n := by
    have h2 := Nat.div_le_div_right (c := n) (show f.val ≤ l.val from hfl)
    rcases Nat.lt_or_ge (f.val / n) (l.val / n) with h3 | h3
    · exact h3
    · refine absurd ⟨f.val / n, fun x hx => ?_⟩ h1
      have h4 := Nat.div_le_div_right (c := n) (show f.val ≤ x.val from ((hin x).1 hx).1)
      have h5 := Nat.div_le_div_right (c := n) (show x.val ≤ l.val from ((hin x).1 hx).2)
      omega
  have hfn := Nat.mod_lt f.val hn
  have hln := Nat.mod_lt l.val hn
  have eB := chunk_val z f
  have eC := chunk_val z l
  have eB1 : (chunk N (f.val / n) + 1).val = f.val / n + 1 := by
    rw [succ_val z (by rw [eB]; exact div_lt z f), eB]
  have eC1 : (chunk N (l.val / n) + 1).val = l.val / n + 1 := by
    rw [succ_val z (by rw [eC]; exact div_lt z l), eC]
  unfold chunk at eB eC eB1 eC1
  generalize Fin.ofNat (2 ^ N) (f.val / n) = B at *
  generalize Fin.ofNat (2 ^ N) (l.val / n) = C at *
  have hbc : B ≠ C := fun h => by rw [← eB, ← eC, h] at hbc'; omega
  rw [if_neg hbc]
  have hz := z.fit
  have hall : (all n).toNat = 2 ^ n - 1 := by simp [all]
  have hlt : BitVec.ofNat n (l.val % n) < all n := by
    rw [BitVec.lt_def, ofNat_toNat z hln, hall]; omega
  have hne : BitVec.ofNat n (l.val % n) ≠ all n := fun h => by
    rw [h, BitVec.lt_def] at hlt; omega
  have hpos : 0#n < BitVec.ofNat n (f.val % n) ↔ 0 < f.val % n := by
    rw [BitVec.lt_def, ofNat_toNat z hfn]; simp
  have hzero : BitVec.ofNat n (f.val % n) = 0#n ↔ f.val % n = 0 := by
    rw [← BitVec.toNat_inj, ofNat_toNat z hfn]; simp
  have nz : ∀ (w : BitVec n) b, w.getLsbD b = true → w ≠ 0#n := by
    rintro w b h rfl; simp at h
  rw [if_neg hne]
  have lowerNe : fromLowerTo (BitVec.ofNat n (l.val % n)) ≠ 0#n := nz _ 0 (by rw [lsb_from z hln hn]; simp)
  have allNe : all n ≠ 0#n := nz _ 0 (lsb_all hn)
  by_cases h0 : f.val % n = 0
  · rw [if_neg (fun h => by rw [hpos] at h; omega), Option.bind_some, if_pos hlt, if_pos (hzero.2 h0)]
    obtain ⟨m2, e2, p2, g2⟩ := intersect_combines oracle hm C (C + 1) lowerNe
    rw [e2, Option.bind_some, if_pos (show B < C by rw [Fin.lt_def, eB, eC]; exact hbc')]
    obtain ⟨m3, e3, p3, g3⟩ := intersect_combines oracle p2 B C allNe
    refine ⟨m3, e3, p3, fun c => ?_⟩
    rw [g3, g2]
    by_cases hc : B ≤ c ∧ c < C
    · rw [if_pos hc, if_neg (fun h => absurd h.1 (not_le.2 hc.2))]; simp
    · rw [if_neg hc]
  · rw [if_pos (hpos.2 (by omega)), if_neg (fun h => h0 (hzero.1 h))]
    obtain ⟨m1, e1, p1, g1⟩ := intersect_combines oracle hm B (B + 1)
      (bits := toUpperFrom (BitVec.ofNat n (f.val % n))) (nz _ (f.val % n) (by rw [lsb_upper z hfn hfn]; simp))
    obtain ⟨m2, e2, p2, g2⟩ := intersect_combines oracle p1 C (C + 1) lowerNe
    rw [e1, Option.bind_some, if_pos hlt, e2, Option.bind_some]
    have w2 : ∀ c, word m2 c = 0#n := fun c => by
      rw [g2, g1]
      by_cases hc : C ≤ c ∧ c < C + 1
      · rw [if_pos hc, if_neg (fun h => by
          have := hc.1; have := h.2; rw [Fin.le_def] at *; rw [Fin.lt_def] at *; omega)]; simp
      · rw [if_neg hc]
    by_cases hM : B + 1 < C
    · rw [if_pos hM]
      obtain ⟨m3, e3, p3, g3⟩ := intersect_combines oracle p2 (B + 1) C allNe
      refine ⟨m3, e3, p3, fun c => ?_⟩
      rw [g3, w2]; simp
    · rw [if_neg hM]; exact ⟨m2, rfl, p2, w2⟩
end

/-! ## Operations with large bit sets -/

theorem addMap_word (oracle : BitMap N n → DItv (Fin (2 ^ N)) → Nat) {m b : BitMap N n} (hm : Proper m)
    (hb : Proper b) : ∃ m', IMap.addMap (itv N) (bitmap n) oracle m b = some m' ∧ Proper m' ∧
      ∀ c, word m' c = word m c ||| word b c := by
  obtain ⟨m', e, w, h1, h2⟩ := C23_add (cls N).cls (bitSets_neutral (n := n) true true false) oracle hm.wf hb.wf hm.noId
  refine ⟨m', e, .op2 (.add oracle) hm hb e, fun c => ?_⟩
  cases hv : valueAt (itv N) b c with
  | none => rw [word, h2 c hv, word, word, hv]; simp
  | some v => rw [word, h1 c v hv, added_word, word, word, hv]; simp

theorem subMap_word {m b : BitMap N n} (hm : Proper m) (hb : Proper b) :
    ∃ m', IMap.subMap (itv N) (bitmap n) m b = some m' ∧ Proper m' ∧
      ∀ c, word m' c = word m c &&& ~~~ (word b c) := by
  obtain ⟨m', e, w, h1, h2⟩ := C23_subtract (cls N).cls (bitmap n) hm.wf hb.wf
  refine ⟨m', e, .op2 .sub hm hb e, fun c => ?_⟩
  cases hv : valueAt (itv N) b c with
  | none => rw [word, h2 c hv, word, word, hv]; simp
  | some v => rw [word, h1 c v hv, subtracted_word, word, word, hv]; simp

theorem interMap_word (oracle : BitMap N n → DItv (Fin (2 ^ N)) → Nat) {m b : BitMap N n} (hm : Proper m)
    (hb : Proper b) : ∃ m', IMap.addInterMap (itv N) (bitmap n) oracle [] m b = some m' ∧ Proper m' ∧
      ∀ c, word m' c = word m c &&& word b c := by
  obtain ⟨m', e, w, h1, h2⟩ := C23_intersect (cls N).cls (bitSets_neutral (n := n) true true false).toVersions rfl
    oracle hm.wf hb.wf
  have nz : ∀ {l : BitMap N n}, Proper l → ∀ c u, valueAt (itv N) l c = some u → u ≠ 0#n := by
    intro l hl c u hv h0
    obtain ⟨s, hs, hx, rfl⟩ := (valueAt_assoc hl.wf _ _).1 hv
    exact hl.noId s hs ⟨rfl, h0⟩
  refine ⟨m', e, .op2 (.inter oracle) hm hb e, fun c => ?_⟩
  cases hv : valueAt (itv N) b c with
  | none => rw [word, h2 c (.inr hv), word, word, hv]; simp
  | some v =>
    cases hu : valueAt (itv N) m c with
    | none => rw [word, h2 c (.inl hu), word, word, hu]; simp
    | some u =>
      rw [word, h1 c u v hu hv, sectioned_word u v (nz hm c u hu), if_neg (nz hb c v hv), word, word, hu, hv]; simp

theorem flipMap_word (oracle : BitMap N n → DItv (Fin (2 ^ N)) → Nat) {m b : BitMap N n} (hm : Proper m)
    (hb : Proper b) : ∃ m', IMap.flipMap (itv N) (bitmap n) oracle m b = some m' ∧ Proper m' ∧
      ∀ c, word m' c = word m c ^^^ word b c := by
  obtain ⟨m', e, w, h1, h1', h2⟩ := C23_flip (cls N).cls (bitSets_neutral (n := n) true true false) rfl oracle hm.wf
    hb.wf hm.noId
  refine ⟨m', e, .op2 (.flip oracle) hm hb e, fun c => ?_⟩
  cases hv : valueAt (itv N) b c with
  | none => rw [word, h2 c hv, word, word, hv]; simp
  | some v =>
    cases hu : valueAt (itv N) m c with
    | none => rw [word, h1 c v hu hv, added_word, word, word, hu, hv]; simp
    | some u => rw [word, h1' c u v hu hv, flipped_word, word, word, hu, hv]; simp

theorem eq_words {m b : BitMap N n} (hm : Proper m) (hb : Proper b) :
    eq m b = true ↔ ∀ c, word m c = word b c := by
  have hc : ∀ {l : BitMap N n}, Proper l → MapFullyJoined (itv N) l := fun hl => C16_fully_joined (cls N) rfl hl
  rw [eq, C22_canonical (cls N).cls hm.wf hb.wf (hc hm) (hc hb)]
  have nz : ∀ {l : BitMap N n}, Proper l → ∀ c u, valueAt (itv N) l c = some u → u ≠ 0#n := by
    intro l hl c u hv h0
    obtain ⟨s, hs, hx, rfl⟩ := (valueAt_assoc hl.wf _ _).1 hv
    exact hl.noId s hs ⟨rfl, h0⟩
  constructor
  · intro h c; rw [word, h, word]
  · intro h c
    have := h c
    unfold word at this
    cases hu : valueAt (itv N) m c with
    | none =>
      cases hv : valueAt (itv N) b c with
      | none => rfl
      | some v => rw [hu, hv] at this; exact absurd this.symm (nz hb c v hv)
    | some u =>
      cases hv : valueAt (itv N) b c with
      | none => rw [hu, hv] at this; exact absurd this (nz hm c u hu)
      | some v => rw [hu, hv] at this; simpa using this

theorem eq_nil_of_words {m : BitMap N n} (hm : Proper m) (h : ∀ c, word m c = 0#n) : m = [] := by
  cases m with
  | nil => rfl
  | cons s l =>
    obtain ⟨x, hx⟩ := hm.wf.1 s.1 (by simp)
    have := h x
    rw [word, (valueAt_assoc hm.wf x s.2).2 ⟨s, List.mem_cons_self .., hx, rfl⟩] at this
    exact absurd ⟨rfl, this⟩ (hm.noId s (List.mem_cons_self ..))

/-! ## Large bit sets that programs make -/

/-- A proper map without bits that stand for no number of the domain -/
structure Inv (m : BitMap N n) : Prop where
  proper : Proper m
  tight : ∀ x, x / n < 2 ^ N → bitB m x = true → x < 2 ^ N

theorem Inv.nil : Inv ([] : BitMap N n) := ⟨.empty _, fun x _ h => by simp [bitB, word, valueAt] at h⟩

theorem inB_iff (k : DItv (Fin (2 ^ N))) (x : Fin (2 ^ N)) : inB k x.val = true ↔ In (itv N) x k := by
  simp [inB, In]

theorem inB_lt {k : DItv (Fin (2 ^ N))} {x : Nat} (h : inB k x = true) : x < 2 ^ N := by
  unfold inB at h; split at h
  · assumption
  · cases h

section
variable {s : Nat} (z : Sz N n s)
include z

omit z in
theorem Inv.of_at {m m' : BitMap N n} (hm : Inv m) (hp : Proper m') {g : Bool → Bool → Bool} {S : Nat → Bool}
    (hS : ∀ x, S x = true → x < 2 ^ N) (hg : g false false = false)
    (h : ∀ x, x / n < 2 ^ N → bitB m' x = g (bitB m x) (S x)) : Inv m' := by
  refine ⟨hp, fun x hx hb => ?_⟩
  by_contra hc
  rw [h x hx] at hb
  have h1 : bitB m x = false := by rw [← Bool.not_eq_true]; exact fun h => hc (hm.tight x hx h)
  have h2 : S x = false := by rw [← Bool.not_eq_true]; exact fun h => hc (hS x h)
  rw [h1, h2, hg] at hb; cases hb

theorem add_inv {m : BitMap N n} (hm : Inv m) (k : DItv (Fin (2 ^ N))) : ∃ m', add m k = some m' ∧ Inv m' ∧
    ∀ x, x / n < 2 ^ N → bitB m' x = (bitB m x || inB k x) := by
  obtain ⟨m', e, p, h⟩ := segmentApply_at z (g := fun a b => a || b) (by simp) add_combines hm.proper k
  exact ⟨m', e, hm.of_at p (S := inB k) (g := fun a b => a || b) (fun _ => inB_lt) rfl h, h⟩

theorem subtract_inv {m : BitMap N n} (hm : Inv m) (k : DItv (Fin (2 ^ N))) : ∃ m', subtract m k = some m' ∧ Inv m' ∧
    ∀ x, x / n < 2 ^ N → bitB m' x = (bitB m x && !inB k x) := by
  obtain ⟨m', e, p, h⟩ := segmentApply_at z (g := fun a b => a && !b) (by simp) subtract_combines hm.proper k
  exact ⟨m', e, hm.of_at p (S := inB k) (g := fun a b => a && !b) (fun _ => inB_lt) rfl h, h⟩

theorem flip_inv (oracle : BitMap N n → DItv (Fin (2 ^ N)) → Nat) {m : BitMap N n} (hm : Inv m)
    (k : DItv (Fin (2 ^ N))) : ∃ m', flip oracle m k = some m' ∧ Inv m' ∧
    ∀ x, x / n < 2 ^ N → bitB m' x = (bitB m x != inB k x) := by
  obtain ⟨m', e, p, h⟩ := segmentApply_at z (g := fun a b => a != b) (by simp) (flip_combines oracle) hm.proper k
  exact ⟨m', e, hm.of_at p (S := inB k) (g := fun a b => a != b) (fun _ => inB_lt) rfl h, h⟩

theorem intersect_inv (oracle : BitMap N n → DItv (Fin (2 ^ N)) → Nat) {m : BitMap N n} (hm : Inv m)
    (k : DItv (Fin (2 ^ N))) : ∃ m', intersect oracle m k = some m' ∧ Inv m' := by
  by_cases hk : (itv N).isEmpty k = true
  · exact ⟨m, by unfold intersect segmentApply; rw [if_pos hk], hm⟩
  · by_cases h1 : OneChunk n k
    · obtain ⟨m', e, p, h⟩ := intersect_one z oracle hm.proper (by simpa using hk) h1
      exact ⟨m', e, hm.of_at p (S := inB k) (g := fun a b => a && b) (fun _ => inB_lt) rfl h⟩
    · obtain ⟨m', e, p, h⟩ := intersect_wide z oracle hm.proper h1
      rw [eq_nil_of_words p h] at e
      exact ⟨[], e, .nil⟩

omit z in
theorem oneChunk_singleton (x : Fin (2 ^ N)) :
    (itv N).isEmpty (dynSingleton x) = false ∧ OneChunk n (dynSingleton x) ∧
      ∀ y, In (itv N) y (dynSingleton x) ↔ y = x := by
  have h : ∀ y, In (itv N) y (dynSingleton x) ↔ y = x := fun y => by
    simp only [In, discreteOps, Dyn.contains, dynSingleton, Bounds.closed, Bounds.isLeftClosed, Bounds.isRightClosed]
    simp only [Bool.and_eq_true]
    constructor
    · rintro ⟨h1, h2⟩
      exact le_antisymm (by simpa using h2) (by simpa using h1)
    · rintro rfl; simp
  refine ⟨?_, ⟨x.val / n, fun y hy => by rw [(h y).1 hy]⟩, h⟩
  exact (nonempty_iff (cls N).cls.lawful).1 ⟨x, (h x).2 rfl⟩

theorem op_inv {m : BitMap N n} (hm : Inv m) (c : BitOp N n) : ∃ m', c.run m = some m' ∧ Inv m' := by
  cases c with
  | add k => obtain ⟨m', e, p, _⟩ := add_inv z hm k; exact ⟨m', e, p⟩
  | subtract k => obtain ⟨m', e, p, _⟩ := subtract_inv z hm k; exact ⟨m', e, p⟩
  | intersect oracle k => exact intersect_inv z oracle hm k
  | flip oracle k => obtain ⟨m', e, p, _⟩ := flip_inv z oracle hm k; exact ⟨m', e, p⟩
  | addE x => obtain ⟨m', e, p, _⟩ := add_inv z hm (dynSingleton x); exact ⟨m', e, p⟩
  | subtractE x => obtain ⟨m', e, p, _⟩ := subtract_inv z hm (dynSingleton x); exact ⟨m', e, p⟩
  | intersectE oracle x => exact intersect_inv z oracle hm (dynSingleton x)
  | flipE oracle x => obtain ⟨m', e, p, _⟩ := flip_inv z oracle hm (dynSingleton x); exact ⟨m', e, p⟩

/-- The Boolean function of an operation with another large bit set -/
def BitOp2.fn : BitOp2 N n → Bool → Bool → Bool
  | .add _, a, b => a || b
  | .subtract, a, b => a && !b
  | .intersect _, a, b => a && b
  | .flip _, a, b => a != b

theorem op2_inv {m b : BitMap N n} (hm : Inv m) (hb : Inv b) (c : BitOp2 N n) :
    ∃ m', c.run m b = some m' ∧ Inv m' ∧ ∀ x, x / n < 2 ^ N → bitB m' x = c.fn (bitB m x) (bitB b x) := by
  have hn : 0 < n := by have := z.two; omega
  have key : ∃ m', c.run m b = some m' ∧ Proper m' ∧ ∀ x, bitB m' x = c.fn (bitB m x) (bitB b x) := by
    cases c with
    | add oracle =>
      obtain ⟨m', e, p, h⟩ := addMap_word oracle hm.proper hb.proper
      exact ⟨m', e, p, fun x => by simp [bitB, h, BitOp2.fn]⟩
    | subtract =>
      obtain ⟨m', e, p, h⟩ := subMap_word hm.proper hb.proper
      exact ⟨m', e, p, fun x => by simp [bitB, h, BitOp2.fn, Nat.mod_lt x hn]⟩
    | intersect oracle =>
      obtain ⟨m', e, p, h⟩ := interMap_word oracle hm.proper hb.proper
      exact ⟨m', e, p, fun x => by simp [bitB, h, BitOp2.fn]⟩
    | flip oracle =>
      obtain ⟨m', e, p, h⟩ := flipMap_word oracle hm.proper hb.proper
      exact ⟨m', e, p, fun x => by simp [bitB, h, BitOp2.fn]⟩
  obtain ⟨m', e, p, h⟩ := key
  refine ⟨m', e, ⟨p, fun x hx h1 => ?_⟩, fun x _ => h x⟩
  by_contra hc
  have h2 : bitB m x = false := by rw [← Bool.not_eq_true]; exact fun h => hc (hm.tight x hx h)
  have h3 : bitB b x = false := by rw [← Bool.not_eq_true]; exact fun h => hc (hb.tight x hx h)
  rw [h, h2, h3] at h1
  cases c <;> cases h1

theorem Made.inv {m : BitMap N n} (hm : Made m) : Inv m := by
  induction hm with
  | new => exact .nil
  | op c _ e ih =>
    obtain ⟨m', e', p⟩ := op_inv z ih c
    rw [e] at e'; cases e'; exact p
  | op2 c _ _ e ih1 ih2 =>
    obtain ⟨m', e', p, _⟩ := op2_inv z ih1 ih2 c
    rw [e] at e'; cases e'; exact p

omit z in
theorem Inv.bit {m : BitMap N n} (hm : Inv m) (x : Fin (2 ^ N)) : Bit m x ↔ bitB m x.val = true :=
  bit_word hm.proper x

theorem fin_div (x : Fin (2 ^ N)) : x.val / n < 2 ^ N := by have := div_lt z x; omega

theorem eq_bits {m b : BitMap N n} (hm : Inv m) (hb : Inv b) : eq m b = true ↔ ∀ x, Bit m x ↔ Bit b x := by
  have hn : 0 < n := by have := z.two; omega
  rw [eq_words hm.proper hb.proper]
  constructor
  · intro h x; rw [hm.bit, hb.bit, bitB, bitB, h]
  · intro h c
    refine BitVec.eq_of_getLsbD_eq fun i hi => ?_
    have hq : (c.val * n + i) / n = c.val := by
      rw [Nat.mul_comm, Nat.mul_add_div hn, Nat.div_eq_of_lt hi]; rfl
    have hr : (c.val * n + i) % n = i := by
      rw [Nat.mul_comm, Nat.mul_add_mod, Nat.mod_eq_of_lt hi]
    have hcc : chunk N c.val = c := Fin.ext (Nat.mod_eq_of_lt c.isLt)
    have e : ∀ l : BitMap N n, (word l c).getLsbD i = bitB l (c.val * n + i) := fun l => by rw [bitB, hq, hr, hcc]
    rw [e, e, Bool.eq_iff_iff]
    have hlt : (c.val * n + i) / n < 2 ^ N := by rw [hq]; exact c.isLt
    by_cases hx : c.val * n + i < 2 ^ N
    · have := h ⟨_, hx⟩
      rwa [hm.bit, hb.bit] at this
    · exact ⟨fun h => absurd (hm.tight _ hlt h) hx, fun h => absurd (hb.tight _ hlt h) hx⟩
end

/-! ## Sizes -/

/-- The intervals of chunks that `segment_apply` uses -/
def chunks (n : Nat) (k : DItv (Fin (2 ^ N))) : List (DItv (Fin (2 ^ N))) :=
  let fst := Disc.first (stepsFin N) k
  let lst := Disc.last (stepsFin N) k
  let base : Fin (2 ^ N) := Fin.ofNat _ (fst.val >>> (shift n).toNat)
  let ceil : Fin (2 ^ N) := Fin.ofNat _ (lst.val >>> (shift n).toNat)
  let baseRest : BitVec n := BitVec.ofNat n (fst.val &&& (mask n).toNat)
  let ceilRest : BitVec n := BitVec.ofNat n (lst.val &&& (mask n).toNat)
  [rightOpen base (base + 1), rightOpen ceil (ceil + 1),
    rightOpen (if baseRest = 0#n then base else base + 1) (if ceilRest = all n then ceil + 1 else ceil)]

theorem ite_some {P : Prop} [Decidable P] {a b : Option (BitMap N n)} {m : BitMap N n}
    (e : (if P then a else b) = some m) : a = some m ∨ b = some m := by
  split at e
  · exact .inl e
  · exact .inr e

theorem segmentApply_keeps {combine : SegmentCombiner N n} {Q : BitMap N n → Prop} {k : DItv (Fin (2 ^ N))}
    (hc : ∀ m m' lo up bits, rightOpen lo up ∈ chunks n k → Q m → combine m lo up bits = some m' → Q m')
    {m m' : BitMap N n} (hm : Q m) (e : segmentApply combine m k = some m') : Q m' := by
  unfold segmentApply at e
  have c1 : rightOpen _ _ ∈ chunks n k := List.mem_cons_self ..
  have c2 : rightOpen _ _ ∈ chunks n k := List.mem_cons_of_mem _ (List.mem_cons_self ..)
  have c3 : rightOpen _ _ ∈ chunks n k := List.mem_cons_of_mem _ (List.mem_cons_of_mem _ (List.mem_cons_self ..))
  split at e
  · cases e; exact hm
  · dsimp only at e
    split at e
    · exact hc _ _ _ _ _ c1 hm e
    · obtain ⟨m1, e1, e⟩ := Option.bind_eq_some_iff.1 e
      obtain ⟨m2, e2, e⟩ := Option.bind_eq_some_iff.1 e
      have h1 : Q m1 := by
        split at e1
        · exact hc _ _ _ _ _ c1 hm e1
        · cases e1; exact hm
      have h2 : Q m2 := by
        split at e2
        · exact hc _ _ _ _ _ c2 h1 e2
        · cases e2; exact h1
      rcases ite_some e with e | e
      · exact hc _ _ _ _ _ c3 h2 e
      · cases e; exact h2

theorem MadeOf.mmade {K : List (DItv (Fin (2 ^ N)))} {m : BitMap N n} (hm : MadeOf K m) :
    MMadeFrom (itv N) none (K.flatMap (chunks n)) (bitmap n) m := by
  have key : ∀ (k) (_ : k ∈ K) (combine : SegmentCombiner N n)
      (_ : ∀ m lo up bits, ∃ c : MapOp (Fin (2 ^ N)) (DItv (Fin (2 ^ N))) (BitVec n),
        c.operands none = [rightOpen lo up] ∧ combine m lo up bits = c.run (itv N) none (bitmap n) m)
      (m m' : BitMap N n), MMadeFrom (itv N) none (K.flatMap (chunks n)) (bitmap n) m →
      segmentApply combine m k = some m' → MMadeFrom (itv N) none (K.flatMap (chunks n)) (bitmap n) m' := by
    intro k hk combine hcomb m m' hm e
    refine segmentApply_keeps (fun m m' lo up bits hin hq e => ?_) hm e
    obtain ⟨c, hc, he⟩ := hcomb m lo up bits
    rw [he] at e
    refine .op c hq (fun k' hk' => ?_) e
    rw [hc, List.mem_singleton] at hk'
    subst hk'
    exact List.mem_flatMap.2 ⟨k, hk, hin⟩
  induction hm with
  | new => exact .empty _
  | op c hc _ e ih =>
    cases c with
    | add k => exact key _ hc addCombiner (fun m lo up bits => ⟨.add _ bits, rfl, rfl⟩) _ _ ih e
    | subtract k => exact key _ hc subtractCombiner (fun m lo up bits => ⟨.subtract _ bits, rfl, rfl⟩) _ _ ih e
    | intersect oracle k => exact key _ hc (intersectCombiner oracle) (fun m lo up bits => ⟨.inter oracle _ bits, rfl, rfl⟩) _ _ ih e
    | flip oracle k => exact key _ hc (flipCombiner oracle) (fun m lo up bits => ⟨.flip oracle _ bits, rfl, rfl⟩) _ _ ih e
    | addE x => exact key _ hc addCombiner (fun m lo up bits => ⟨.add _ bits, rfl, rfl⟩) _ _ ih e
    | subtractE x => exact key _ hc subtractCombiner (fun m lo up bits => ⟨.subtract _ bits, rfl, rfl⟩) _ _ ih e
    | intersectE oracle x => exact key _ hc (intersectCombiner oracle) (fun m lo up bits => ⟨.inter oracle _ bits, rfl, rfl⟩) _ _ ih e
    | flipE oracle x => exact key _ hc (flipCombiner oracle) (fun m lo up bits => ⟨.flip oracle _ bits, rfl, rfl⟩) _ _ ih e
  | op2 c _ _ e ih1 ih2 =>
    cases c with
    | add oracle => exact .op2 (.add oracle) ih1 ih2 e
    | subtract => exact .op2 .sub ih1 ih2 e
    | intersect oracle => exact .op2 (.inter oracle) ih1 ih2 e
    | flip oracle => exact .op2 (.flip oracle) ih1 ih2 e

theorem length_flatMap_chunks (K : List (DItv (Fin (2 ^ N)))) : (K.flatMap (chunks n)).length = 3 * K.length := by
  induction K with
  | nil => rfl
  | cons k K ih => rw [List.flatMap_cons, List.length_append, ih, List.length_cons]; simp [chunks]; omega

end ICL.LargeBitset
