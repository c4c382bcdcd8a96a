import Verif.OverloadSpec
import Mathlib.Tactic.Tauto

/-! Helper lemmas for the theorems on overload resolution. -/

namespace ICL
namespace Overload

/-! ## Resolution as a case distinction -/

/-- One template for compound assignment, several mutually exclusive conditions. -/
theorem resolve_assign1 (f : Ty → Ty → Bool) (l r : Arg) :
    resolve [assign f] l r
      = if l.cat = .lvalue ∧ f l.ty r.ty = true then .result l.ty true else .noMatch := by
  obtain ⟨lt, lc⟩ := l
  cases lc <;> cases h : f lt r.ty <;>
    simp [resolve, assign, Cand.viable, deduce, picks, Cand.resultType, h]

theorem resolve_assign2 (f g : Ty → Ty → Bool) (l r : Arg)
    (hx : ¬ (f l.ty r.ty = true ∧ g l.ty r.ty = true)) :
    resolve [assign f, assign g] l r
      = if l.cat = .lvalue ∧ (f l.ty r.ty = true ∨ g l.ty r.ty = true)
        then .result l.ty true else .noMatch := by
  obtain ⟨lt, lc⟩ := l
  cases lc <;> cases h : f lt r.ty <;> cases h' : g lt r.ty <;>
    simp_all [resolve, assign, Cand.viable, deduce, picks, Cand.resultType]

theorem resolve_assign4 (f g f' g' : Ty → Ty → Bool) (l r : Arg)
    (h1 : ¬ (f l.ty r.ty = true ∧ g l.ty r.ty = true))
    (h2 : ¬ (f l.ty r.ty = true ∧ f' l.ty r.ty = true))
    (h3 : ¬ (f l.ty r.ty = true ∧ g' l.ty r.ty = true))
    (h4 : ¬ (g l.ty r.ty = true ∧ f' l.ty r.ty = true))
    (h5 : ¬ (g l.ty r.ty = true ∧ g' l.ty r.ty = true))
    (h6 : ¬ (f' l.ty r.ty = true ∧ g' l.ty r.ty = true)) :
    resolve [assign f, assign g, assign f', assign g'] l r
      = if l.cat = .lvalue ∧ (f l.ty r.ty = true ∨ g l.ty r.ty = true ∨ f' l.ty r.ty = true
            ∨ g' l.ty r.ty = true)
        then .result l.ty true else .noMatch := by
  obtain ⟨lt, lc⟩ := l
  cases lc <;> cases h : f lt r.ty <;> cases h' : g lt r.ty <;> cases h'' : f' lt r.ty <;>
    cases h''' : g' lt r.ty <;>
    simp_all [resolve, assign, Cand.viable, deduce, picks, Cand.resultType]

/-- The side a template for two operands of one type works on. -/
def oneSide (modern : Bool) (l r : Arg) : Bool :=
  !(modern && decide (r.cat = .rvalue) && !decide (l.cat = .rvalue))

theorem resolve_infix (modern : Bool) (f : Ty → Ty → Bool) (l r : Arg)
    (hx : ¬ (f l.ty r.ty = true ∧ f r.ty l.ty = true)) :
    resolve (infixCands modern f) l r
      = if l.ty = r.ty ∧ isIntervalContainer l.ty = true
          then .result l.ty (oneSide modern l r)
        else if f l.ty r.ty = true then .result l.ty true
        else if f r.ty l.ty = true then .result r.ty false
        else .noMatch := by
  obtain ⟨lt, lc⟩ := l
  obtain ⟨rt, rc⟩ := r
  simp only at hx
  by_cases e : lt = rt
  · subst e
    have hf : f lt lt = false := by cases h : f lt lt <;> simp_all
    cases modern <;> cases lc <;> cases rc <;> cases hc : isIntervalContainer lt <;>
      simp [resolve, infixCands, Cand.viable, deduce, picks, Cand.resultType, oneSide, hf, hc,
        Cand.better, rank]
  · cases h1 : f lt rt <;> cases h2 : f rt lt <;> simp_all <;>
    cases modern <;> cases lc <;> cases rc <;>
      simp [resolve, infixCands, Cand.viable, deduce, picks, Cand.resultType, h1, h2, e,
        Cand.better, rank]

/-- The candidates of `&`, with the one for intervals. -/
theorem resolve_and (modern : Bool) (f : Ty → Ty → Bool) (l r : Arg)
    (hx : ¬ (f l.ty r.ty = true ∧ f r.ty l.ty = true))
    (hi : isInterval l.ty = true → isIntervalContainer l.ty = false) :
    resolve (infixCands modern f ++ [⟨.value, .constRef, true, true, fun t _ => isInterval t⟩]) l r
      = if l.ty = r.ty ∧ isInterval l.ty = true then .result l.ty true
        else resolve (infixCands modern f) l r := by
  obtain ⟨lt, lc⟩ := l
  obtain ⟨rt, rc⟩ := r
  simp only at hx hi
  by_cases e : lt = rt ∧ isInterval lt = true
  · obtain ⟨e, h⟩ := e
    subst e
    have hf : f lt lt = false := by cases h : f lt lt <;> simp_all
    rw [if_pos ⟨rfl, h⟩]
    cases modern <;> cases lc <;> cases rc <;>
      simp [resolve, infixCands, Cand.viable, deduce, picks, Cand.resultType, hf, hi h, h]
  · rw [if_neg e]
    have : (Cand.mk .value .constRef true true (fun t _ => isInterval t)).viable ⟨lt, lc⟩ ⟨rt, rc⟩
        = false := by
      simp [Cand.viable, deduce]
      simpa using e
    unfold resolve
    rw [List.filter_append]
    simp [this]

/-- The two candidates of `-`. -/
theorem resolve_sub (f : Ty → Ty → Bool) (l r : Arg) :
    resolve [⟨.constRef, .constRef, false, true, f⟩, ⟨.forwarding, .constRef, false, true, f⟩] l r
      = if f l.ty r.ty = true then .result l.ty true else .noMatch := by
  obtain ⟨lt, lc⟩ := l
  cases lc <;> cases h : f lt r.ty <;>
    simp [resolve, Cand.viable, deduce, picks, Cand.resultType, h, Cand.better, rank]

theorem resolve_sub_old (f : Ty → Ty → Bool) (l r : Arg) :
    resolve [⟨.value, .constRef, false, true, f⟩] l r
      = if f l.ty r.ty = true then .result l.ty true else .noMatch := by
  cases h : f l.ty r.ty <;>
    simp [resolve, Cand.viable, deduce, picks, Cand.resultType, h]

/-! ## The conditions in words -/

/-- `a` is an element, an interval or an interval set for the interval set `t`. -/
def SetPart (t a : Ty) : Prop :=
  ∃ st c d k o, t = .set st c d k o ∧
    (a = d ∨ a = .interval c d k ∨ ∃ st' o', a = .set st' c d k o')

/-- `a` is an element-value pair, an interval-value pair or an interval map for the interval map
    `t`. -/
def MapPart (t a : Ty) : Prop :=
  ∃ f c d k v o, t = .map f c d k v o ∧
    (a = .mapping d v ∨ (∃ b, a = .pair b (.interval c d k) v) ∨ ∃ f' o', a = .map f' c d k v o')

/-- `a` is an element, an interval or an interval set for the interval map `t`. -/
def CrossPart (t a : Ty) : Prop :=
  ∃ f c d k v o, t = .map f c d k v o ∧
    (a = d ∨ a = .interval c d k ∨ ∃ st' o', a = .set st' c d k o')

theorem dom_ne_interval (c k : Nat) (d : Ty) : d ≠ .interval c d k := by
  intro h; have := congrArg sizeOf h; simp at this; omega

theorem dom_ne_set (st : Style) (c k o : Nat) (d : Ty) : d ≠ .set st c d k o := by
  intro h; have := congrArg sizeOf h; simp at this; omega

theorem dom_ne_map (f : Bool) (c k : Nat) (o : MapOpts) (d v : Ty) : d ≠ .map f c d k v o := by
  intro h; have := congrArg sizeOf h; simp at this; omega

theorem dom_ne_mapping (d v : Ty) : d ≠ .mapping d v := by
  intro h; have := congrArg sizeOf h; simp at this; omega

theorem dom_ne_pair (b : Bool) (c k : Nat) (d v : Ty) : d ≠ .pair b (.interval c d k) v := by
  intro h; have := congrArg sizeOf h; simp at this; omega

theorem intraDerivative_iff (t a : Ty) : isIntraDerivative t a = true ↔
    (∃ st c d k o, t = .set st c d k o ∧ (a = d ∨ a = .interval c d k)) ∨
    (∃ f c d k v o, t = .map f c d k v o ∧
      (a = .mapping d v ∨ ∃ b, a = .pair b (.interval c d k) v)) := by
  cases t <;>
    simp [isIntraDerivative, isIntervalSet, isIntervalMap, isIntervalContainer, isMap,
      isIntervalSetDerivative, isIntervalMapDerivative, Ty.domainType, Ty.intervalType,
      Ty.domainMapping, Ty.intervalMapping, Ty.valueType]
  all_goals grind

theorem crossDerivative_iff (t a : Ty) : isCrossDerivative t a = true ↔
    (∃ f c d k v o, t = .map f c d k v o ∧ (a = d ∨ a = .interval c d k)) := by
  cases t <;>
    simp [isCrossDerivative, isIntervalMap, isIntervalContainer, isMap,
      isIntervalSetDerivative, Ty.domainType, Ty.intervalType]
  all_goals grind

theorem compatibleSet_iff (t a : Ty) : isConceptCompatible isIntervalSet t a = true ↔
    (∃ st c d k o st' o', t = .set st c d k o ∧ a = .set st' c d k o') := by
  cases t <;> cases a <;>
    simp [isConceptCompatible, isIntervalSet, isIntervalMap, isIntervalContainer, isMap,
      isCodomainTypeEqual, isKeyCompareEqual, isCodomainEqual, Ty.keyCompare, Ty.codomainType,
      Ty.intervalType]
  grind

theorem compatibleMap_iff (t a : Ty) : isConceptCompatible isIntervalMap t a = true ↔
    (∃ f c d k v o f' o', t = .map f c d k v o ∧ a = .map f' c d k v o') := by
  cases t <;> cases a <;>
    simp [isConceptCompatible, isIntervalMap, isIntervalContainer, isMap,
      isCodomainTypeEqual, isKeyCompareEqual, isCodomainEqual, Ty.keyCompare, Ty.codomainType,
      Ty.intervalType]
  grind

theorem combinesSet_iff (t a : Ty) : combinesRightToIntervalSet t a = true ↔
    (∃ st c d k o st' o', t = .set st c d k o ∧ a = .set st' c d k o') ∨
    (∃ f c d k v o st' o', t = .map f c d k v o ∧ a = .set st' c d k o') := by
  cases t <;> cases a <;>
    simp [combinesRightToIntervalSet, isConceptCombinable, isIntervalSet, isIntervalMap,
      isIntervalContainer, isMap, isKeyCompareEqual, Ty.keyCompare, Ty.intervalType]
  all_goals grind

theorem combinableMapSet_iff (t a : Ty) :
    isConceptCombinable isIntervalMap isIntervalSet t a = true ↔
    (∃ f c d k v o st' o', t = .map f c d k v o ∧ a = .set st' c d k o') := by
  cases t <;> cases a <;>
    simp [isConceptCombinable, isIntervalSet, isIntervalMap,
      isIntervalContainer, isMap, isKeyCompareEqual, Ty.keyCompare, Ty.intervalType]
  all_goals grind

theorem setDerivative_iff (t a : Ty) : isIntervalSetDerivative t a = true ↔
    (∃ st c d k o, t = .set st c d k o ∧ (a = d ∨ a = .interval c d k)) ∨
    (∃ f c d k v o, t = .map f c d k v o ∧ (a = d ∨ a = .interval c d k)) := by
  cases t <;>
    simp [isIntervalContainer,
      isIntervalSetDerivative, Ty.domainType, Ty.intervalType]
  all_goals grind

theorem mapDerivative_iff (t a : Ty) : isIntervalMapDerivative t a = true ↔
    (∃ f c d k v o, t = .map f c d k v o ∧
      (a = .mapping d v ∨ ∃ b, a = .pair b (.interval c d k) v)) := by
  cases t <;>
    simp [isIntervalContainer, isIntervalMapDerivative,
      Ty.domainMapping, Ty.intervalMapping, Ty.valueType]
  all_goals grind

theorem isSet_iff (t : Ty) : isIntervalSet t = true ↔ ∃ st c d k o, t = .set st c d k o := by
  cases t <;> simp [isIntervalSet, isIntervalContainer, isIntervalMap, isMap]

theorem isMap_iff (t : Ty) : isIntervalMap t = true ↔ ∃ f c d k v o, t = .map f c d k v o := by
  cases t <;> simp [isIntervalContainer, isIntervalMap, isMap]

/-- The conditions of `+=` and `^=`. -/
theorem intra_iff (t a : Ty) :
    (isIntraDerivative t a = true ∨ isIntraCombinable t a = true) ↔ SetPart t a ∨ MapPart t a := by
  simp only [isIntraCombinable, Bool.or_eq_true, intraDerivative_iff, compatibleSet_iff,
    compatibleMap_iff, SetPart, MapPart]
  grind

theorem rightIntra_iff (t a : Ty) :
    isRightIntraCombinable t a = true ↔ SetPart t a ∨ MapPart t a := by
  simp only [isRightIntraCombinable, isIntervalSetRightCombinable,
    isIntervalMapRightIntraCombinable, Bool.or_eq_true, Bool.and_eq_true, isSet_iff, isMap_iff,
    setDerivative_iff, mapDerivative_iff, compatibleSet_iff, compatibleMap_iff, SetPart, MapPart]
  grind

theorem rightInter_iff (t a : Ty) :
    isRightInterCombinable t a = true ↔ SetPart t a ∨ MapPart t a ∨ CrossPart t a := by
  simp only [isRightInterCombinable, isIntervalSetRightCombinable,
    isIntervalMapRightInterCombinable, isIntervalMapRightCrossCombinable,
    isIntervalMapRightIntraCombinable, Bool.or_eq_true, Bool.and_eq_true, isSet_iff, isMap_iff,
    setDerivative_iff, mapDerivative_iff, compatibleSet_iff, compatibleMap_iff,
    crossDerivative_iff, combinableMapSet_iff, SetPart, MapPart, CrossPart]
  grind

/-- The conditions of `-=`. -/
theorem sub_iff (t a : Ty) :
    (isConceptCompatible isIntervalMap t a = true ∨ isIntraDerivative t a = true
      ∨ isCrossDerivative t a = true ∨ combinesRightToIntervalSet t a = true)
      ↔ SetPart t a ∨ MapPart t a ∨ CrossPart t a := by
  simp only [compatibleMap_iff, intraDerivative_iff, crossDerivative_iff, combinesSet_iff,
    SetPart, MapPart, CrossPart]
  grind

theorem binaryIntra_iff (t a : Ty) : isBinaryIntraCombinable t a = true ↔
    (SetPart t a ∨ MapPart t a) ∧ fineness a < fineness t := by
  simp only [isBinaryIntraCombinable, isBinaryIntervalSetCombinable,
    isBinaryIntervalMapCombinable, isCoarserIntervalSetCompanion, isCoarserIntervalMapCompanion,
    isIntervalSetCompanion, isIntervalMapCompanion, combinesRightToIntervalMap,
    Bool.or_eq_true, Bool.and_eq_true, isSet_iff, isMap_iff, decide_eq_true_eq,
    setDerivative_iff, mapDerivative_iff, combinesSet_iff, compatibleMap_iff, SetPart, MapPart]
  grind

theorem binaryInter_iff (t a : Ty) : isBinaryInterCombinable t a = true ↔
    ((SetPart t a ∨ MapPart t a) ∧ fineness a < fineness t) ∨ CrossPart t a := by
  simp only [isBinaryInterCombinable, isBinaryCrossCombinable, isBinaryIntraCombinable,
    isBinaryIntervalSetCombinable,
    isBinaryIntervalMapCombinable, isCoarserIntervalSetCompanion, isCoarserIntervalMapCompanion,
    isIntervalSetCompanion, isIntervalMapCompanion, combinesRightToIntervalMap,
    Bool.or_eq_true, Bool.and_eq_true, isSet_iff, isMap_iff, decide_eq_true_eq,
    setDerivative_iff, mapDerivative_iff, combinesSet_iff, compatibleMap_iff, SetPart, MapPart,
    CrossPart]
  grind

/-! ## The conditions exclude each other -/

theorem derivative_not_combinable (t a : Ty) :
    ¬ (isIntraDerivative t a = true ∧ isIntraCombinable t a = true) := by
  simp only [isIntraCombinable, Bool.or_eq_true, intraDerivative_iff, compatibleSet_iff,
    compatibleMap_iff]
  rintro ⟨⟨st, c, d, k, o, rfl, h⟩ | ⟨f, c, d, k, v, o, rfl, h⟩, h'⟩
  · rcases h with rfl | rfl
    · rcases h' with ⟨_, _, _, _, _, _, _, e, e'⟩ | ⟨_, _, _, _, _, _, _, _, e, e'⟩
      · cases e; exact dom_ne_set _ _ _ _ _ e'
      · cases e
    · simp at h'
  · rcases h with rfl | ⟨b, rfl⟩ <;> simp at h'

theorem cross_not_rev (t a : Ty) (h : CrossPart t a) :
    ¬ (SetPart a t ∨ MapPart a t ∨ CrossPart a t) := by
  obtain ⟨f, c, d, k, v, o, rfl, h⟩ := h
  rintro (⟨st', c', d', k', o', rfl, h'⟩ | ⟨f', c', d', k', v', o', rfl, h'⟩
    | ⟨f', c', d', k', v', o', rfl, h'⟩)
  · rcases h with rfl | h | ⟨_, _, h⟩
    · rcases h' with h' | h' | ⟨_, _, h'⟩
      · have := congrArg sizeOf h'; simp at this; omega
      · cases h'
      · cases h'
    · cases h
    · cases h
      rcases h' with h' | h' | ⟨_, _, h'⟩
      · have := congrArg sizeOf h'; simp at this; omega
      · cases h'
      · cases h'
  · rcases h with rfl | h | ⟨_, _, h⟩
    · rcases h' with h' | ⟨_, h'⟩ | ⟨_, _, h'⟩
      · cases h'
      · cases h'
      · simp only [Ty.map.injEq] at h'
        have := congrArg sizeOf h'.2.2.1; simp at this; omega
    · cases h
    · cases h
  · rcases h with rfl | h | ⟨_, _, h⟩
    · rcases h' with h' | h' | ⟨_, _, h'⟩
      · have := congrArg sizeOf h'; simp at this; omega
      · cases h'
      · cases h'
    · cases h
    · cases h

theorem binaryIntra_excl (t a : Ty) :
    ¬ (isBinaryIntraCombinable t a = true ∧ isBinaryIntraCombinable a t = true) := by
  rw [binaryIntra_iff, binaryIntra_iff]
  rintro ⟨⟨_, h⟩, _, h'⟩
  omega

theorem binaryInter_excl (t a : Ty) :
    ¬ (isBinaryInterCombinable t a = true ∧ isBinaryInterCombinable a t = true) := by
  rw [binaryInter_iff, binaryInter_iff]
  rintro ⟨⟨h1, h⟩ | h, ⟨h2, h'⟩ | h'⟩
  · omega
  · exact cross_not_rev _ _ h' (h1.elim .inl fun h => .inr (.inl h))
  · exact cross_not_rev _ _ h (h2.elim .inl fun h => .inr (.inl h))
  · exact cross_not_rev _ _ h (.inr (.inr h'))

theorem part_excl (t a : Ty) :
    ¬ (MapPart t a ∧ CrossPart t a) := by
  rintro ⟨⟨f, c, d, k, v, o, rfl, h⟩, f', c', d', k', v', o', e, h'⟩
  simp only [Ty.map.injEq] at e
  obtain ⟨rfl, rfl, rfl, rfl, rfl, rfl⟩ := e
  rcases h with rfl | ⟨b, rfl⟩ | ⟨_, _, rfl⟩ <;> rcases h' with h' | h' | ⟨_, _, h'⟩
  all_goals cases h'

/-! ## What every call means -/

open Classical in
theorem call_plusAssign (mo : Bool) (op : Op) (hop : op = .addAssign ∨ op = .orAssign ∨ op = .xorAssign)
    (l r : Arg) :
    call mo op l r
      = if l.cat = .lvalue ∧ (SetPart l.ty r.ty ∨ MapPart l.ty r.ty)
        then .result l.ty true else .noMatch := by
  have h := derivative_not_combinable l.ty r.ty
  rcases hop with rfl | rfl | rfl <;> unfold call candidates
  · rw [resolve_assign2 _ _ _ _ h]
    simp only [intra_iff]
  · rw [resolve_assign1]
    simp only [rightIntra_iff]
  · rw [resolve_assign2 _ _ _ _ (fun x => h x.symm)]
    simp only [intra_iff, or_comm (a := isIntraCombinable l.ty r.ty = true)]

theorem sub_excl (t a : Ty) :
    ¬ (isConceptCompatible isIntervalMap t a = true ∧ isIntraDerivative t a = true) ∧
    ¬ (isConceptCompatible isIntervalMap t a = true ∧ isCrossDerivative t a = true) ∧
    ¬ (isConceptCompatible isIntervalMap t a = true ∧ combinesRightToIntervalSet t a = true) ∧
    ¬ (isIntraDerivative t a = true ∧ isCrossDerivative t a = true) ∧
    ¬ (isIntraDerivative t a = true ∧ combinesRightToIntervalSet t a = true) ∧
    ¬ (isCrossDerivative t a = true ∧ combinesRightToIntervalSet t a = true) := by
  have hc : isConceptCompatible isIntervalMap t a = true → MapPart t a := fun h => by
    obtain ⟨f, c, d, k, v, o, f', o', rfl, rfl⟩ := (compatibleMap_iff t a).1 h
    exact ⟨f, c, d, k, v, o, rfl, .inr (.inr ⟨f', o', rfl⟩)⟩
  have hx : isCrossDerivative t a = true → CrossPart t a := fun h => by
    obtain ⟨f, c, d, k, v, o, rfl, h0⟩ := (crossDerivative_iff t a).1 h
    exact ⟨f, c, d, k, v, o, rfl, h0.elim .inl fun h => .inr (.inl h)⟩
  refine ⟨?_, ?_, ?_, ?_, ?_, ?_⟩
  · rintro ⟨h, h'⟩
    refine derivative_not_combinable t a ⟨h', ?_⟩
    simp [isIntraCombinable, h]
  · rintro ⟨h, h'⟩
    exact part_excl t a ⟨hc h, hx h'⟩
  · rintro ⟨h, h'⟩
    rw [compatibleMap_iff] at h
    rw [combinesSet_iff] at h'
    obtain ⟨f, c, d, k, v, o, f', o', rfl, rfl⟩ := h
    simp at h'
  · rintro ⟨h, h'⟩
    rw [intraDerivative_iff] at h
    rcases h with ⟨st, c, d, k, o, rfl, h⟩ | ⟨f, c, d, k, v, o, rfl, h⟩
    · rw [crossDerivative_iff] at h'
      simp at h'
    · exact part_excl _ a ⟨⟨f, c, d, k, v, o, rfl, h.elim .inl fun h => .inr (.inl h)⟩, hx h'⟩
  · rintro ⟨h, h'⟩
    rw [combinesSet_iff] at h'
    rcases h' with h' | ⟨f, c, d, k, v, o, st', o', rfl, h'⟩
    · refine derivative_not_combinable t a ⟨h, ?_⟩
      simp [isIntraCombinable, (compatibleSet_iff t a).2 h']
    · subst h'
      rw [intraDerivative_iff] at h
      simp at h
  · rintro ⟨h, h'⟩
    rw [crossDerivative_iff] at h
    obtain ⟨f, c, d, k, v, o, rfl, h⟩ := h
    rw [combinesSet_iff] at h'
    rcases h' with ⟨_, _, _, _, _, _, _, e, _⟩ | ⟨_, _, _, _, _, _, _, _, e, h'⟩
    · cases e
    · cases e
      subst h'
      rcases h with h | h
      · exact dom_ne_set _ _ _ _ _ h.symm
      · cases h

open Classical in
theorem call_minusAssign (mo : Bool) (op : Op) (hop : op = .subAssign ∨ op = .andAssign)
    (l r : Arg) :
    call mo op l r
      = if l.cat = .lvalue ∧ (SetPart l.ty r.ty ∨ MapPart l.ty r.ty ∨ CrossPart l.ty r.ty)
        then .result l.ty true else .noMatch := by
  rcases hop with rfl | rfl <;> unfold call candidates
  · obtain ⟨h1, h2, h3, h4, h5, h6⟩ := sub_excl l.ty r.ty
    rw [resolve_assign4 _ _ _ _ _ _ h1 h2 h3 h4 h5 h6]
    simp only [sub_iff]
  · rw [resolve_assign1]
    simp only [rightInter_iff]

open Classical in
theorem call_sub (mo : Bool) (l r : Arg) :
    call mo .sub l r
      = if SetPart l.ty r.ty ∨ MapPart l.ty r.ty ∨ CrossPart l.ty r.ty
        then .result l.ty true else .noMatch := by
  cases mo <;> unfold call candidates
  · simp only [Bool.false_eq_true, if_false]
    rw [resolve_sub_old]
    simp only [rightInter_iff]
  · simp only [if_true]
    rw [resolve_sub]
    simp only [rightInter_iff]

open Classical in
theorem call_plus (mo : Bool) (op : Op) (hop : op = .add ∨ op = .or ∨ op = .xor) (l r : Arg) :
    call mo op l r
      = if l.ty = r.ty ∧ isIntervalContainer l.ty = true then .result l.ty (oneSide mo l r)
        else if (SetPart l.ty r.ty ∨ MapPart l.ty r.ty) ∧ fineness r.ty < fineness l.ty
          then .result l.ty true
        else if (SetPart r.ty l.ty ∨ MapPart r.ty l.ty) ∧ fineness l.ty < fineness r.ty
          then .result r.ty false
        else .noMatch := by
  have : call mo op l r = resolve (infixCands mo isBinaryIntraCombinable) l r := by
    rcases hop with rfl | rfl | rfl <;> rfl
  rw [this, resolve_infix _ _ _ _ (binaryIntra_excl _ _)]
  simp only [binaryIntra_iff]

theorem interval_not_container (t : Ty) (h : isInterval t = true) :
    isIntervalContainer t = false := by
  cases t <;> simp_all [isInterval, isIntervalContainer]

open Classical in
theorem call_and (mo : Bool) (l r : Arg) :
    call mo .and l r
      = if l.ty = r.ty ∧ isInterval l.ty = true then .result l.ty true
        else if l.ty = r.ty ∧ isIntervalContainer l.ty = true then .result l.ty (oneSide mo l r)
        else if ((SetPart l.ty r.ty ∨ MapPart l.ty r.ty) ∧ fineness r.ty < fineness l.ty)
            ∨ CrossPart l.ty r.ty
          then .result l.ty true
        else if ((SetPart r.ty l.ty ∨ MapPart r.ty l.ty) ∧ fineness l.ty < fineness r.ty)
            ∨ CrossPart r.ty l.ty
          then .result r.ty false
        else .noMatch := by
  unfold call candidates
  rw [resolve_and _ _ _ _ (binaryInter_excl _ _) (interval_not_container _),
    resolve_infix _ _ _ _ (binaryInter_excl _ _)]
  simp only [binaryInter_iff]

/-! ## Placeholders -/

open OverloadSpec

/-- Is the placeholder one for interval sets? -/
def _root_.ICL.OverloadSpec.Sym.isS : Sym → Bool
  | .S1 => true | .S2 => true | .S3 => true | _ => false

/-- Is the placeholder one for interval maps? -/
def _root_.ICL.OverloadSpec.Sym.isM : Sym → Bool
  | .M1 => true | .M3 => true | _ => false

/-- The fineness of what a placeholder stands for. -/
def _root_.ICL.OverloadSpec.Sym.fine : Sym → Nat
  | .S1 => 1 | .S2 => 2 | .S3 => 3 | .M1 => 1 | .M3 => 3 | _ => 0

variable {q : Params}

theorem like_set (hq : PlainDomain q) {x : Sym} {t : Ty} (h : x.Like q t) :
    x.isS = true ↔ ∃ st c d k o, t = .set st c d k o := by
  obtain ⟨s, m, h⟩ := h
  cases x <;> simp only [Sym.Is] at h
  all_goals first
    | subst h
    | (obtain ⟨b, rfl⟩ := h)
  all_goals simp [Sym.isS]
  exact fun st c d k o => hq.2.1 st c d k o

theorem like_map (hq : PlainDomain q) {x : Sym} {t : Ty} (h : x.Like q t) :
    x.isM = true ↔ ∃ f c d k v o, t = .map f c d k v o := by
  obtain ⟨s, m, h⟩ := h
  cases x <;> simp only [Sym.Is] at h
  all_goals first
    | subst h
    | (obtain ⟨b, rfl⟩ := h)
  all_goals simp [Sym.isM]
  exact ⟨hq.2.2 false, hq.2.2 true⟩

theorem like_fine (hq : PlainDomain q) {x : Sym} {t : Ty} (h : x.Like q t) :
    fineness t = x.fine := by
  obtain ⟨s, m, h⟩ := h
  cases x <;> simp only [Sym.Is] at h
  all_goals first
    | subst h
    | (obtain ⟨b, rfl⟩ := h)
  all_goals simp only [Sym.fine]
  all_goals try rfl
  cases e : q.dom
  all_goals try rfl
  · exact absurd e (hq.2.1 _ _ _ _ _)
  · exact absurd e (hq.2.2 _ _ _ _ _ _)

theorem like_params_set {x : Sym} {t : Ty} (h : x.Like q t) (hx : x.isS = true) :
    ∃ st o, t = .set st q.cls q.dom q.cmp o := by
  obtain ⟨s, m, h⟩ := h
  cases x <;> simp only [Sym.Is] at h <;> simp [Sym.isS] at hx
  all_goals subst h
  all_goals simp

theorem like_params_map {x : Sym} {t : Ty} (h : x.Like q t) (hx : x.isM = true) :
    ∃ f o, t = .map f q.cls q.dom q.cmp q.cod o := by
  obtain ⟨s, m, h⟩ := h
  cases x <;> simp only [Sym.Is] at h <;> simp [Sym.isM] at hx
  all_goals subst h
  all_goals simp

/-- Which placeholders are elements, intervals and sets. -/
def _root_.ICL.OverloadSpec.Sym.isKey : Sym → Bool
  | .e => true | .i => true | .S1 => true | .S2 => true | .S3 => true | _ => false

theorem like_key {x : Sym} {t : Ty} (h : x.Like q t) :
    x.isKey = true ↔
      (t = q.dom ∨ t = .interval q.cls q.dom q.cmp
        ∨ ∃ st o, t = .set st q.cls q.dom q.cmp o) := by
  obtain ⟨s, m, h⟩ := h
  have h1 := dom_ne_mapping q.dom q.cod
  have h2 := fun b => dom_ne_pair b q.cls q.cmp q.dom q.cod
  have h3 := fun f => dom_ne_map f q.cls q.cmp m q.dom q.cod
  cases x <;> simp only [Sym.Is] at h
  all_goals first
    | subst h
    | (obtain ⟨b, rfl⟩ := h)
  all_goals simp [Sym.isKey]
  · exact fun h => h1 h.symm
  · exact fun h => h2 _ h.symm
  · exact fun h => h3 _ h.symm
  · exact fun h => h3 _ h.symm

/-- Which placeholders are pairs and maps. -/
def _root_.ICL.OverloadSpec.Sym.isPair : Sym → Bool
  | .b => true | .p => true | .M1 => true | .M3 => true | _ => false

theorem like_pair {x : Sym} {t : Ty} (h : x.Like q t) :
    x.isPair = true ↔
      (t = .mapping q.dom q.cod ∨ (∃ b, t = .pair b (.interval q.cls q.dom q.cmp) q.cod)
        ∨ ∃ f o, t = .map f q.cls q.dom q.cmp q.cod o) := by
  obtain ⟨s, m, h⟩ := h
  have h1 := dom_ne_mapping q.dom q.cod
  have h2 := fun b => dom_ne_pair b q.cls q.cmp q.dom q.cod
  have h3 := fun f o => dom_ne_map f q.cls q.cmp o q.dom q.cod
  cases x <;> simp only [Sym.Is] at h
  all_goals first
    | subst h
    | (obtain ⟨b, rfl⟩ := h)
  all_goals simp [Sym.isPair]
  exact ⟨h1, ⟨h2 false, h2 true⟩, ⟨h3 false, h3 true⟩⟩

theorem setPart_like (hq : PlainDomain q) {x y : Sym} {t a : Ty} (hx : x.Like q t)
    (hy : y.Like q a) : SetPart t a ↔ x.isS = true ∧ y.isKey = true := by
  rw [like_key hy]
  constructor
  · rintro ⟨st, c, d, k, o, e, h⟩
    have hS := (like_set hq hx).2 ⟨st, c, d, k, o, e⟩
    obtain ⟨st', o', e'⟩ := like_params_set hx hS
    rw [e'] at e
    cases e
    exact ⟨hS, h⟩
  · rintro ⟨hS, h⟩
    obtain ⟨st', o', e'⟩ := like_params_set hx hS
    exact ⟨st', _, _, _, o', e', h⟩

theorem crossPart_like (hq : PlainDomain q) {x y : Sym} {t a : Ty} (hx : x.Like q t)
    (hy : y.Like q a) : CrossPart t a ↔ x.isM = true ∧ y.isKey = true := by
  rw [like_key hy]
  constructor
  · rintro ⟨f, c, d, k, v, o, e, h⟩
    have hS := (like_map hq hx).2 ⟨f, c, d, k, v, o, e⟩
    obtain ⟨f', o', e'⟩ := like_params_map hx hS
    rw [e'] at e
    cases e
    exact ⟨hS, h⟩
  · rintro ⟨hS, h⟩
    obtain ⟨st', o', e'⟩ := like_params_map hx hS
    exact ⟨st', _, _, _, _, o', e', h⟩

theorem mapPart_like (hq : PlainDomain q) {x y : Sym} {t a : Ty} (hx : x.Like q t)
    (hy : y.Like q a) : MapPart t a ↔ x.isM = true ∧ y.isPair = true := by
  rw [like_pair hy]
  constructor
  · rintro ⟨f, c, d, k, v, o, e, h⟩
    have hS := (like_map hq hx).2 ⟨f, c, d, k, v, o, e⟩
    obtain ⟨f', o', e'⟩ := like_params_map hx hS
    rw [e'] at e
    cases e
    exact ⟨hS, h⟩
  · rintro ⟨hS, h⟩
    obtain ⟨st', o', e'⟩ := like_params_map hx hS
    exact ⟨st', _, _, _, _, o', e', h⟩

/-! ## Functions -/

theorem like_isSet (hq : PlainDomain q) {x : Sym} {t : Ty} (h : x.Like q t) :
    isIntervalSet t = x.isS := by
  rw [Bool.eq_iff_iff, isSet_iff, like_set hq h]

theorem like_isMap (hq : PlainDomain q) {x : Sym} {t : Ty} (h : x.Like q t) :
    isIntervalMap t = x.isM := by
  rw [Bool.eq_iff_iff, isMap_iff, like_map hq h]

theorem like_isContainer (hq : PlainDomain q) {x : Sym} {t : Ty} (h : x.Like q t) :
    isIntervalContainer t = (x.isS || x.isM) := by
  rw [← like_isSet hq h, ← like_isMap hq h]
  cases t <;> rfl

theorem like_shape {x : Sym} {t : Ty} (h : x.Like q t) (hx : x.isS = true ∨ x.isM = true) :
    (∃ st o, t = .set st q.cls q.dom q.cmp o ∧ x.isS = true ∧ x.isM = false)
      ∨ ∃ f o, t = .map f q.cls q.dom q.cmp q.cod o ∧ x.isM = true ∧ x.isS = false := by
  rcases hx with hx | hx
  · obtain ⟨st, o, e⟩ := like_params_set h hx
    refine .inl ⟨st, o, e, hx, ?_⟩
    cases x <;> simp_all [Sym.isS, Sym.isM]
  · obtain ⟨st, o, e⟩ := like_params_map h hx
    refine .inr ⟨st, o, e, hx, ?_⟩
    cases x <;> simp_all [Sym.isS, Sym.isM]

theorem like_e {y : Sym} {a : Ty} (h : y.Like q a) : a = q.dom ↔ y = .e := by
  obtain ⟨s, m, h⟩ := h
  have h0 := dom_ne_interval q.cls q.cmp q.dom
  have h1 := dom_ne_mapping q.dom q.cod
  have h2 := fun b => dom_ne_pair b q.cls q.cmp q.dom q.cod
  have h3 := fun f => dom_ne_map f q.cls q.cmp m q.dom q.cod
  have h4 := fun f => dom_ne_set f q.cls q.cmp s q.dom
  cases y <;> simp only [Sym.Is] at h
  all_goals first
    | subst h
    | (obtain ⟨b, rfl⟩ := h)
  all_goals simp
  · exact h0.symm
  · exact h1.symm
  · exact (h2 _).symm
  · exact (h4 _).symm
  · exact (h4 _).symm
  · exact (h4 _).symm
  · exact (h3 _).symm
  · exact (h3 _).symm

theorem like_i {y : Sym} {a : Ty} (h : y.Like q a) :
    a = .interval q.cls q.dom q.cmp ↔ y = .i := by
  obtain ⟨s, m, h⟩ := h
  have h0 := dom_ne_interval q.cls q.cmp q.dom
  cases y <;> simp only [Sym.Is] at h
  all_goals first
    | subst h
    | (obtain ⟨b, rfl⟩ := h)
  all_goals simp
  exact h0

theorem like_b {y : Sym} {a : Ty} (h : y.Like q a) :
    a = .mapping q.dom q.cod ↔ y = .b := by
  obtain ⟨s, m, h⟩ := h
  have h0 := dom_ne_mapping q.dom q.cod
  cases y <;> simp only [Sym.Is] at h
  all_goals first
    | subst h
    | (obtain ⟨b, rfl⟩ := h)
  all_goals simp
  exact h0

theorem like_p {y : Sym} {a : Ty} (h : y.Like q a) :
    (∃ b, a = .pair b (.interval q.cls q.dom q.cmp) q.cod) ↔ y = .p := by
  obtain ⟨s, m, h⟩ := h
  have h0 := fun b => dom_ne_pair b q.cls q.cmp q.dom q.cod
  cases y <;> simp only [Sym.Is] at h
  all_goals first
    | subst h
    | (obtain ⟨b, rfl⟩ := h)
  all_goals simp
  exact ⟨h0 _, h0 _⟩

theorem fits_iff (t a : Ty) : fits (some t) a = true ↔
    a = t ∨ ∃ k v, t = .pair false k v ∧ a = .pair true k v := by
  unfold fits
  split
  · next k v k' v' h =>
      cases h
      simp only [Bool.and_eq_true, beq_iff_eq, Ty.pair.injEq]
      constructor
      · rintro ⟨rfl, rfl⟩; exact .inr ⟨k, v, by simp, by simp⟩
      · rintro (⟨h, -⟩ | ⟨_, _, ⟨-, rfl, rfl⟩, -, rfl, rfl⟩)
        · cases h
        · exact ⟨rfl, rfl⟩
  · next t' hn h =>
      cases hn
      simp only [beq_iff_eq]
      constructor
      · exact fun h => .inl h.symm
      · rintro (h | ⟨k, v, rfl, rfl⟩)
        · exact h.symm
        · exact (h k v k v rfl rfl).elim
  · next h => cases h

/-- What the parameters of member types take. -/
theorem fits_dom {y : Sym} {a : Ty} (h : y.Like q a) :
    fits (some q.dom) a = decide (y = .e) := by
  rw [Bool.eq_iff_iff, fits_iff, decide_eq_true_iff, like_e h]
  refine ⟨?_, .inl⟩
  rintro (h' | ⟨k, v, hd, ha⟩)
  · exact h'
  · obtain ⟨s, m, h⟩ := h
    cases y <;> simp only [Sym.Is] at h
    case e => rfl
    case p =>
      obtain ⟨b, hb⟩ := h
      rw [ha] at hb
      cases hb
      exact (dom_ne_pair _ _ _ _ _ hd).elim
    all_goals rw [ha] at h; cases h

theorem fits_itv {y : Sym} {a : Ty} (h : y.Like q a) :
    fits (some (.interval q.cls q.dom q.cmp)) a = decide (y = .i) := by
  rw [Bool.eq_iff_iff, fits_iff, decide_eq_true_iff, like_i h]
  refine ⟨?_, .inl⟩
  rintro (h' | ⟨k, v, hd, ha⟩)
  · exact h'
  · cases hd

theorem fits_mapping {y : Sym} {a : Ty} (h : y.Like q a) :
    fits (some (.mapping q.dom q.cod)) a = decide (y = .b) := by
  rw [Bool.eq_iff_iff, fits_iff, decide_eq_true_iff, like_b h]
  refine ⟨?_, .inl⟩
  rintro (h' | ⟨k, v, hd, ha⟩)
  · exact h'
  · cases hd

theorem fits_pair {y : Sym} {a : Ty} (h : y.Like q a) :
    fits (some (.pair false (.interval q.cls q.dom q.cmp) q.cod)) a = decide (y = .p) := by
  rw [Bool.eq_iff_iff, fits_iff, decide_eq_true_iff, ← like_p h]
  constructor
  · rintro (h' | ⟨k, v, hd, ha⟩)
    · exact ⟨_, h'⟩
    · cases hd; exact ⟨_, ha⟩
  · rintro ⟨b, h⟩
    cases b
    · exact .inl h
    · exact .inr ⟨_, _, rfl, h⟩

section conditions

variable (hq : PlainDomain q) {x y : Sym} {t a : Ty} (hx : x.Like q t) (hy : y.Like q a)
include hq hx hy

theorem like_segment :
    (isIntervalSet t && fits t.segmentType a) = (x.isS && decide (y = .i))
    ∧ (isIntervalMap t && fits t.segmentType a) = (x.isM && decide (y = .p)) := by
  rw [like_isSet hq hx, like_isMap hq hx]
  constructor
  · cases h : x.isS
    · rfl
    · obtain ⟨st, o, rfl⟩ := like_params_set hx h
      simp only [Bool.true_and]; exact fits_itv hy
  · cases h : x.isM
    · rfl
    · obtain ⟨st, o, rfl⟩ := like_params_map hx h
      simp only [Bool.true_and]; exact fits_pair hy

theorem like_element :
    (isIntervalSet t && fits t.elementType a) = (x.isS && decide (y = .e))
    ∧ (isIntervalMap t && fits t.elementType a) = (x.isM && decide (y = .b)) := by
  rw [like_isSet hq hx, like_isMap hq hx]
  constructor
  · cases h : x.isS
    · rfl
    · obtain ⟨st, o, rfl⟩ := like_params_set hx h
      simp only [Bool.true_and]; exact fits_dom hy
  · cases h : x.isM
    · rfl
    · obtain ⟨st, o, rfl⟩ := like_params_map hx h
      simp only [Bool.true_and]; exact fits_mapping hy

theorem like_key_members :
    (isIntervalMap t && fits t.intervalType a) = (x.isM && decide (y = .i))
    ∧ (isIntervalMap t && fits t.domainType a) = (x.isM && decide (y = .e)) := by
  rw [like_isMap hq hx]
  constructor
  · cases h : x.isM
    · rfl
    · obtain ⟨st, o, rfl⟩ := like_params_map hx h
      simp only [Bool.true_and]; exact fits_itv hy
  · cases h : x.isM
    · rfl
    · obtain ⟨st, o, rfl⟩ := like_params_map hx h
      simp only [Bool.true_and]; exact fits_dom hy

theorem like_compatibleMap : isConceptCompatible isIntervalMap t a = (x.isM && y.isM) := by
  rw [Bool.eq_iff_iff, Bool.and_eq_true, compatibleMap_iff]
  constructor
  · rintro ⟨f, c, d, k, v, o, f', o', e, e'⟩
    exact ⟨(like_map hq hx).2 ⟨_, _, _, _, _, _, e⟩, (like_map hq hy).2 ⟨_, _, _, _, _, _, e'⟩⟩
  · rintro ⟨h, h'⟩
    obtain ⟨_, _, e⟩ := like_params_map hx h
    obtain ⟨_, _, e'⟩ := like_params_map hy h'
    exact ⟨_, _, _, _, _, _, _, _, e, e'⟩

theorem like_compatibleSet : isConceptCompatible isIntervalSet t a = (x.isS && y.isS) := by
  rw [Bool.eq_iff_iff, Bool.and_eq_true, compatibleSet_iff]
  constructor
  · rintro ⟨f, c, d, k, o, f', o', e, e'⟩
    exact ⟨(like_set hq hx).2 ⟨_, _, _, _, _, e⟩, (like_set hq hy).2 ⟨_, _, _, _, _, e'⟩⟩
  · rintro ⟨h, h'⟩
    obtain ⟨_, _, e⟩ := like_params_set hx h
    obtain ⟨_, _, e'⟩ := like_params_set hy h'
    exact ⟨_, _, _, _, _, _, _, e, e'⟩

theorem like_mapSet :
    isConceptCombinable isIntervalMap isIntervalSet t a = (x.isM && y.isS) := by
  rw [Bool.eq_iff_iff, Bool.and_eq_true, combinableMapSet_iff]
  constructor
  · rintro ⟨f, c, d, k, v, o, f', o', e, e'⟩
    exact ⟨(like_map hq hx).2 ⟨_, _, _, _, _, _, e⟩, (like_set hq hy).2 ⟨_, _, _, _, _, e'⟩⟩
  · rintro ⟨h, h'⟩
    obtain ⟨_, _, e⟩ := like_params_map hx h
    obtain ⟨_, _, e'⟩ := like_params_set hy h'
    exact ⟨_, _, _, _, _, _, _, _, e, e'⟩

theorem like_intra : isIntraCombinable t a = (x.isS && y.isS || x.isM && y.isM) := by
  unfold isIntraCombinable
  rw [like_compatibleSet hq hx hy, like_compatibleMap hq hx hy]

theorem like_cross_derivative :
    isCrossDerivative t a = (x.isM && (decide (y = .e) || decide (y = .i))) := by
  rw [Bool.eq_iff_iff, crossDerivative_iff]
  simp only [Bool.and_eq_true, Bool.or_eq_true, decide_eq_true_eq, ← like_e hy, ← like_i hy]
  constructor
  · rintro ⟨f, c, d, k, v, o, e, h⟩
    have hM := (like_map hq hx).2 ⟨_, _, _, _, _, _, e⟩
    obtain ⟨_, _, e'⟩ := like_params_map hx hM
    rw [e'] at e
    cases e
    exact ⟨hM, h⟩
  · rintro ⟨h, h'⟩
    obtain ⟨_, _, e⟩ := like_params_map hx h
    exact ⟨_, _, _, _, _, _, e, h'⟩

theorem like_intra_derivative :
    isIntraDerivative t a = (x.isS && (decide (y = .e) || decide (y = .i))
      || x.isM && (decide (y = .b) || decide (y = .p))) := by
  rw [Bool.eq_iff_iff, intraDerivative_iff]
  simp only [Bool.and_eq_true, Bool.or_eq_true, decide_eq_true_eq, ← like_e hy, ← like_i hy,
    ← like_b hy, ← like_p hy]
  constructor
  · rintro (⟨f, c, d, k, o, e, h⟩ | ⟨f, c, d, k, v, o, e, h⟩)
    · have hM := (like_set hq hx).2 ⟨_, _, _, _, _, e⟩
      obtain ⟨_, _, e'⟩ := like_params_set hx hM
      rw [e'] at e
      cases e
      exact .inl ⟨hM, h⟩
    · have hM := (like_map hq hx).2 ⟨_, _, _, _, _, _, e⟩
      obtain ⟨_, _, e'⟩ := like_params_map hx hM
      rw [e'] at e
      cases e
      exact .inr ⟨hM, h⟩
  · rintro (⟨h, h'⟩ | ⟨h, h'⟩)
    · obtain ⟨_, _, e⟩ := like_params_set hx h
      exact .inl ⟨_, _, _, _, _, e, h'⟩
    · obtain ⟨_, _, e⟩ := like_params_map hx h
      exact .inr ⟨_, _, _, _, _, _, e, h'⟩

theorem like_cross : isCrossCombinable t a = (x.isS && y.isM || x.isM && y.isS) := by
  unfold isCrossCombinable
  rw [like_mapSet hq hx hy]
  congr 1
  have h := like_mapSet hq hy hx
  rw [Bool.and_comm x.isS, ← h]
  simp only [isConceptCombinable, isKeyCompareEqual]
  rw [Bool.and_comm (isIntervalSet t), Bool.beq_comm]

theorem like_combines :
    combinesRightToIntervalContainer t a = ((x.isS || x.isM) && y.isS || x.isM && y.isM) := by
  unfold combinesRightToIntervalContainer combinesRightToIntervalMap
  rw [like_compatibleMap hq hx hy]
  congr 1
  rw [Bool.eq_iff_iff, combinesSet_iff]
  have h1 := like_compatibleSet hq hx hy
  have h2 := like_mapSet hq hx hy
  rw [Bool.eq_iff_iff, compatibleSet_iff] at h1
  rw [Bool.eq_iff_iff, combinableMapSet_iff] at h2
  rw [h1, h2]
  cases x.isS <;> cases x.isM <;> cases y.isS <;> simp

theorem like_same :
    (isIntervalContainer t && some a == t.domainType) = ((x.isS || x.isM) && decide (y = .e))
    ∧ (isIntervalContainer t && some a == t.intervalType) = ((x.isS || x.isM) && decide (y = .i))
    ∧ (isIntervalMap t && some a == t.elementType) = (x.isM && decide (y = .b)) := by
  rw [like_isContainer hq hx, like_isMap hq hx]
  have key : ∀ {u : Ty}, (some a == some u) = decide (a = u) := by
    intro u; rw [Bool.eq_iff_iff]; simp
  refine ⟨?_, ?_, ?_⟩
  · by_cases h : x.isS = true ∨ x.isM = true
    · rcases like_shape hx h with ⟨st, o, rfl, hs, hm⟩ | ⟨f, o, rfl, hm, hs⟩ <;>
        simp only [hs, hm, Ty.domainType, key, like_e hy]
    · have : (x.isS || x.isM) = false := by simpa using h
      rw [this]; rfl
  · by_cases h : x.isS = true ∨ x.isM = true
    · rcases like_shape hx h with ⟨st, o, rfl, hs, hm⟩ | ⟨f, o, rfl, hm, hs⟩ <;>
        simp only [hs, hm, Ty.intervalType, key, like_i hy]
    · have : (x.isS || x.isM) = false := by simpa using h
      rw [this]; rfl
  · cases h : x.isM
    · rfl
    · obtain ⟨st, o, rfl⟩ := like_params_map hx h
      simp only [Ty.elementType, key, like_b hy]

end conditions

end Overload
end ICL
