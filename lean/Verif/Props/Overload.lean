import Verif.Theory.Overload
import Mathlib.Tactic.SplitIfs
import Mathlib.Tactic.ClearExcept

/-!
# C51 — Every call of an operator compiles exactly when the documentation says so
-/

namespace ICL.Props

open ICL.Overload ICL.OverloadSpec

/-- The template arguments of `interval_map<int, double>` and its companions, for the examples. -/
def exParams : Params := ⟨0, .other 0, 0, .other 1, 0, 0⟩

theorem exParams_plain : PlainDomain exParams := by
  refine ⟨?_, ?_, ?_⟩ <;> intros <;> exact fun h => nomatch h

/-- **No call is ambiguous.**  Whatever the types of the two arguments, however they are nested in
    each other, whether the arguments are objects with names, constants or temporaries, and whether or
    not the compiler has rvalue references: never are there two candidates none of which is
    better. -/
theorem C51_unambiguous (modern : Bool) (op : Op) (l r : Arg) :
    call modern op l r ≠ .ambiguous := by
  classical
  cases op
  · rw [call_plusAssign _ _ (by simp)]; split <;> simp
  · rw [call_plusAssign _ _ (by simp)]; split <;> simp
  · rw [call_minusAssign _ _ (by simp)]; split <;> simp
  · rw [call_minusAssign _ _ (by simp)]; split <;> simp
  · rw [call_plusAssign _ _ (by simp)]; split <;> simp
  · rw [call_plus _ _ (by simp)]; split_ifs <;> simp
  · rw [call_plus _ _ (by simp)]; split_ifs <;> simp
  · rw [call_sub]; split <;> simp
  · rw [call_and]; split_ifs <;> simp
  · rw [call_plus _ _ (by simp)]; split_ifs <;> simp

/-- Several candidates are viable for the sum of two temporaries of one type, and still it means one
    function. -/
example :
    ((candidates true .add).filter fun c =>
      c.viable ⟨.set .joining 0 (.other 0) 0 0, .rvalue⟩
        ⟨.set .joining 0 (.other 0) 0 0, .rvalue⟩).length = 4
    ∧ call true .add ⟨.set .joining 0 (.other 0) 0 0, .rvalue⟩
        ⟨.set .joining 0 (.other 0) 0 0, .rvalue⟩
      = .result (.set .joining 0 (.other 0) 0 0) true := by
  decide

/-- **Compound assignments.**  For a modifiable object on the left, `+=`, `|=`, `-=`, `&=` and `^=`
    compile exactly for the combinations with a filled cell in their tables, and the cell shows the
    result type.  The two containers may differ in traits, combiners and allocators. -/
theorem C51_assignments (modern : Bool) (op : Op) (hop : Assigns op) (q : Params)
    (hq : PlainDomain q) (x y : Sym) (tl tr : Ty) (hx : x.Like q tl) (hy : y.Like q tr) (cr : Cat) :
    Agrees (Sym.Like q) (cell op x y) (call modern op ⟨tl, .lvalue⟩ ⟨tr, cr⟩) := by
  classical
  have hp : op = .addAssign ∨ op = .orAssign ∨ op = .xorAssign →
      Agrees (Sym.Like q) (cell .addAssign x y) (call modern op ⟨tl, .lvalue⟩ ⟨tr, cr⟩) := by
    intro h
    rw [call_plusAssign _ _ h]
    simp only [setPart_like hq hx hy, mapPart_like hq hx hy, true_and]
    clear h hop hy
    cases x <;> cases y <;> first
      | rfl
      | exact ⟨_, _, rfl, hx⟩
  have hm : op = .subAssign ∨ op = .andAssign →
      Agrees (Sym.Like q) (cell .subAssign x y) (call modern op ⟨tl, .lvalue⟩ ⟨tr, cr⟩) := by
    intro h
    rw [call_minusAssign _ _ h]
    simp only [setPart_like hq hx hy, mapPart_like hq hx hy, crossPart_like hq hx hy, true_and]
    clear h hop hy
    cases x <;> cases y <;> first
      | rfl
      | exact ⟨_, _, rfl, hx⟩
  rcases hop with rfl | rfl | rfl | rfl | rfl
  · exact hp (by simp)
  · exact hp (by simp)
  · exact hm (by simp)
  · exact hm (by simp)
  · exact hp (by simp)

/-- `interval_map<int, double> -= split_interval_set<int>` compiles, `+=` does not. -/
example :
    Sym.Like exParams .M1 (.map false 0 (.other 0) 0 (.other 1) 7)
    ∧ Sym.Like exParams .S3 (.set .splitting 0 (.other 0) 0 3)
    ∧ call true .subAssign ⟨.map false 0 (.other 0) 0 (.other 1) 7, .lvalue⟩
        ⟨.set .splitting 0 (.other 0) 0 3, .constLvalue⟩
      = .result (.map false 0 (.other 0) 0 (.other 1) 7) true
    ∧ call true .addAssign ⟨.map false 0 (.other 0) 0 (.other 1) 7, .lvalue⟩
        ⟨.set .splitting 0 (.other 0) 0 3, .constLvalue⟩ = .noMatch :=
  ⟨⟨0, 7, rfl⟩, ⟨3, 0, rfl⟩, by decide, by decide⟩

/-- **Compound assignments need something to assign to.**  On a constant, or on a temporary, none of
    them compiles. -/
theorem C51_assignments_const (modern : Bool) (op : Op) (hop : Assigns op) (l r : Arg)
    (hl : l.cat ≠ .lvalue) : call modern op l r = .noMatch := by
  classical
  rcases hop with rfl | rfl | rfl | rfl | rfl
  · rw [call_plusAssign _ _ (by simp), if_neg (by simp [hl])]
  · rw [call_plusAssign _ _ (by simp), if_neg (by simp [hl])]
  · rw [call_minusAssign _ _ (by simp), if_neg (by simp [hl])]
  · rw [call_minusAssign _ _ (by simp), if_neg (by simp [hl])]
  · rw [call_plusAssign _ _ (by simp), if_neg (by simp [hl])]

example : (⟨.set .joining 0 (.other 0) 0 0, .rvalue⟩ : Arg).cat ≠ .lvalue := by decide

private theorem is_like {q : Params} {x : Sym} {t : Ty} (h : x.Is q t) : x.Like q t :=
  ⟨q.setOpts, q.mapOpts, h⟩

private theorem container_iff {t : Ty} : isIntervalContainer t = true ↔
    (∃ st c d k o, t = .set st c d k o) ∨ ∃ f c d k v o, t = .map f c d k v o := by
  cases t <;> simp [isIntervalContainer]

/-- The same type on both sides means the same placeholder, for `S1` … `M3`. -/
private theorem sym_eq {q : Params} (hq : PlainDomain q) {x y : Sym} {tl tr : Ty}
    (hx : x.Is q tl) (hy : y.Is q tr) :
    (tl = tr ∧ isIntervalContainer tl = true) ↔ (x = y ∧ (x.isS = true ∨ x.isM = true)) := by
  rw [container_iff, ← like_set hq (is_like hx), ← like_map hq (is_like hx)]
  constructor
  · rintro ⟨rfl, h⟩
    refine ⟨?_, h⟩
    have h' := h
    rw [like_set hq (is_like hx), like_map hq (is_like hx), ← like_set hq (is_like hy),
      ← like_map hq (is_like hy)] at h'
    cases x <;> simp [Sym.isS, Sym.isM] at h <;> cases y <;> simp [Sym.isS, Sym.isM] at h' <;>
      simp only [Sym.Is] at hx hy <;> simp [hx] at hy <;> rfl
  · rintro ⟨rfl, h⟩
    refine ⟨?_, h⟩
    cases x <;> simp [Sym.isS, Sym.isM] at h <;> simp only [Sym.Is] at hx hy <;> rw [hx, hy]

private theorem interval_iff {t : Ty} : isInterval t = true ↔ ∃ c d k, t = .interval c d k := by
  cases t <;> simp [isInterval]

private theorem sym_interval {q : Params} (hq : PlainDomain q) {x y : Sym} {tl tr : Ty}
    (hx : x.Is q tl) (hy : y.Is q tr) :
    (tl = tr ∧ isInterval tl = true) ↔ (x = .i ∧ y = .i) := by
  have key : ∀ {z : Sym} {t : Ty}, z.Is q t → (isInterval t = true ↔ z = .i) := by
    intro z t h
    rw [interval_iff]
    cases z <;> simp only [Sym.Is] at h
    all_goals first
      | subst h
      | (obtain ⟨b, rfl⟩ := h)
    all_goals simp
    exact hq.1
  constructor
  · rintro ⟨rfl, h⟩
    exact ⟨(key hx).1 h, (key hy).1 h⟩
  · rintro ⟨rfl, rfl⟩
    exact ⟨by simp only [Sym.Is] at hx hy; rw [hx, hy], (key hx).2 rfl⟩

/-- **Infix operators.**  For operands over the same template arguments, in any combination of
    constants, objects with names and temporaries, `+`, `|`, `-`, `&` and `^` compile exactly for the
    combinations with a filled cell in their tables, and the cell shows the result type: of two
    interval containers it is the finer one, and a map for an intersection with a map. -/
theorem C51_infix (modern : Bool) (op : Op) (hop : ¬ Assigns op) (q : Params)
    (hq : PlainDomain q) (x y : Sym) (tl tr : Ty) (hx : x.Is q tl) (hy : y.Is q tr) (cl cr : Cat) :
    Agrees (Sym.Is q) (cell op x y) (call modern op ⟨tl, cl⟩ ⟨tr, cr⟩) := by
  classical
  have hp : op = .add ∨ op = .or ∨ op = .xor →
      Agrees (Sym.Is q) (cell .add x y) (call modern op ⟨tl, cl⟩ ⟨tr, cr⟩) := by
    intro h
    rw [call_plus _ _ h]
    simp only [setPart_like hq (is_like hx) (is_like hy), mapPart_like hq (is_like hx) (is_like hy),
      setPart_like hq (is_like hy) (is_like hx), mapPart_like hq (is_like hy) (is_like hx),
      like_fine hq (is_like hx), like_fine hq (is_like hy), sym_eq hq hx hy]
    clear h hop
    cases x <;> cases y <;> first
      | rfl
      | exact ⟨_, _, rfl, hx⟩
      | exact ⟨_, _, rfl, hy⟩
  have hs : op = .sub →
      Agrees (Sym.Is q) (cell .sub x y) (call modern op ⟨tl, cl⟩ ⟨tr, cr⟩) := by
    rintro rfl
    rw [call_sub]
    simp only [setPart_like hq (is_like hx) (is_like hy), mapPart_like hq (is_like hx) (is_like hy),
      crossPart_like hq (is_like hx) (is_like hy)]
    clear hop
    cases x <;> cases y <;> first
      | rfl
      | exact ⟨_, _, rfl, hx⟩
  have ha : op = .and →
      Agrees (Sym.Is q) (cell .and x y) (call modern op ⟨tl, cl⟩ ⟨tr, cr⟩) := by
    rintro rfl
    rw [call_and]
    simp only [setPart_like hq (is_like hx) (is_like hy), mapPart_like hq (is_like hx) (is_like hy),
      setPart_like hq (is_like hy) (is_like hx), mapPart_like hq (is_like hy) (is_like hx),
      crossPart_like hq (is_like hx) (is_like hy), crossPart_like hq (is_like hy) (is_like hx),
      like_fine hq (is_like hx), like_fine hq (is_like hy), sym_eq hq hx hy,
      sym_interval hq hx hy]
    clear hop
    cases x <;> cases y <;> first
      | rfl
      | exact ⟨_, _, rfl, hx⟩
      | exact ⟨_, _, rfl, hy⟩
  cases op
  case add => exact hp (by simp)
  case or => exact hp (by simp)
  case xor => exact hp (by simp)
  case sub => exact hs rfl
  case and => exact ha rfl
  all_goals exact absurd (by simp [Assigns]) hop

/-- `interval_set<int> + split_interval_set<int>` is a `split_interval_set<int>`, and
    `separate_interval_set<int> & interval_map<int, double>` is an `interval_map<int, double>`. -/
example :
    call true .add ⟨.set .joining 0 (.other 0) 0 0, .lvalue⟩
        ⟨.set .splitting 0 (.other 0) 0 0, .rvalue⟩
      = .result (.set .splitting 0 (.other 0) 0 0) false
    ∧ cell .add .S1 .S3 = some .S3
    ∧ call true .and ⟨.set .separating 0 (.other 0) 0 0, .constLvalue⟩
        ⟨.map false 0 (.other 0) 0 (.other 1) 0, .lvalue⟩
      = .result (.map false 0 (.other 0) 0 (.other 1) 0) false
    ∧ cell .and .S2 .M1 = some .M1
    ∧ Sym.Is exParams .S3 (.set .splitting 0 (.other 0) 0 0) := by
  refine ⟨by decide, by decide, by decide, by decide, rfl⟩

/-! ### Nothing else compiles -/

private theorem setPart_sym {t a : Ty} (h : SetPart t a) :
    ∃ (q : Params) (x y : Sym), x.Like q t ∧ y.Like q a ∧ x.isS = true ∧ y.isKey = true
      ∧ (x.fine = fineness t) ∧ (y.isS = true → y.fine = fineness a) := by
  obtain ⟨st, c, d, k, o, rfl, h⟩ := h
  have hx : ∃ x : Sym, x.Like ⟨c, d, k, d, 0, 0⟩ (.set st c d k o) ∧ x.isS = true
      ∧ x.fine = fineness (.set st c d k o) := by
    cases st
    · exact ⟨.S1, ⟨o, 0, rfl⟩, rfl, rfl⟩
    · exact ⟨.S2, ⟨o, 0, rfl⟩, rfl, rfl⟩
    · exact ⟨.S3, ⟨o, 0, rfl⟩, rfl, rfl⟩
  obtain ⟨x, hx, hxs, hxf⟩ := hx
  rcases h with rfl | rfl | ⟨st', o', rfl⟩
  · exact ⟨_, x, .e, hx, ⟨0, 0, rfl⟩, hxs, rfl, hxf, by simp [Sym.isS]⟩
  · exact ⟨_, x, .i, hx, ⟨0, 0, rfl⟩, hxs, rfl, hxf, by simp [Sym.isS]⟩
  · cases st'
    · exact ⟨_, x, .S1, hx, ⟨o', 0, rfl⟩, hxs, rfl, hxf, fun _ => rfl⟩
    · exact ⟨_, x, .S2, hx, ⟨o', 0, rfl⟩, hxs, rfl, hxf, fun _ => rfl⟩
    · exact ⟨_, x, .S3, hx, ⟨o', 0, rfl⟩, hxs, rfl, hxf, fun _ => rfl⟩

private theorem crossPart_sym {t a : Ty} (h : CrossPart t a) :
    ∃ (q : Params) (x y : Sym), x.Like q t ∧ y.Like q a ∧ x.isM = true ∧ y.isKey = true := by
  obtain ⟨f, c, d, k, v, o, rfl, h⟩ := h
  have hx : ∃ x : Sym, x.Like ⟨c, d, k, v, 0, 0⟩ (.map f c d k v o) ∧ x.isM = true := by
    cases f
    · exact ⟨.M1, ⟨0, o, rfl⟩, rfl⟩
    · exact ⟨.M3, ⟨0, o, rfl⟩, rfl⟩
  obtain ⟨x, hx, hxs⟩ := hx
  rcases h with rfl | rfl | ⟨st', o', rfl⟩
  · exact ⟨_, x, .e, hx, ⟨0, 0, rfl⟩, hxs, rfl⟩
  · exact ⟨_, x, .i, hx, ⟨0, 0, rfl⟩, hxs, rfl⟩
  · cases st'
    · exact ⟨_, x, .S1, hx, ⟨o', 0, rfl⟩, hxs, rfl⟩
    · exact ⟨_, x, .S2, hx, ⟨o', 0, rfl⟩, hxs, rfl⟩
    · exact ⟨_, x, .S3, hx, ⟨o', 0, rfl⟩, hxs, rfl⟩

private theorem mapPart_sym {t a : Ty} (h : MapPart t a) :
    ∃ (q : Params) (x y : Sym), x.Like q t ∧ y.Like q a ∧ x.isM = true ∧ y.isPair = true
      ∧ (x.fine = fineness t) ∧ (y.isM = true → y.fine = fineness a) := by
  obtain ⟨f, c, d, k, v, o, rfl, h⟩ := h
  have hx : ∃ x : Sym, x.Like ⟨c, d, k, v, 0, 0⟩ (.map f c d k v o) ∧ x.isM = true
      ∧ x.fine = fineness (.map f c d k v o) := by
    cases f
    · exact ⟨.M1, ⟨0, o, rfl⟩, rfl, rfl⟩
    · exact ⟨.M3, ⟨0, o, rfl⟩, rfl, rfl⟩
  obtain ⟨x, hx, hxs, hxf⟩ := hx
  rcases h with rfl | ⟨b, rfl⟩ | ⟨f', o', rfl⟩
  · exact ⟨_, x, .b, hx, ⟨0, 0, rfl⟩, hxs, rfl, hxf, by simp [Sym.isM]⟩
  · exact ⟨_, x, .p, hx, ⟨0, 0, b, rfl⟩, hxs, rfl, hxf, by simp [Sym.isM]⟩
  · cases f'
    · exact ⟨_, x, .M1, hx, ⟨0, o', rfl⟩, hxs, rfl, hxf, fun _ => rfl⟩
    · exact ⟨_, x, .M3, hx, ⟨0, o', rfl⟩, hxs, rfl, hxf, fun _ => rfl⟩

private theorem doc_plusAssign {op : Op} (hop : op = .addAssign ∨ op = .orAssign ∨ op = .xorAssign)
    {l r : Ty} (h : SetPart l r ∨ MapPart l r) : Documented op l r l := by
  have ht : ∀ x y, cell op x y = cell .addAssign x y := by
    rcases hop with rfl | rfl | rfl <;> intros <;> rfl
  rcases h with h | h
  · obtain ⟨q, x, y, hx, hy, h1, h2, -⟩ := setPart_sym h
    refine ⟨q, x, y, x, hx, hy, ?_, hx⟩
    rw [ht]
    revert h1 h2; clear * -
    cases x <;> cases y <;> decide
  · obtain ⟨q, x, y, hx, hy, h1, h2, -⟩ := mapPart_sym h
    refine ⟨q, x, y, x, hx, hy, ?_, hx⟩
    rw [ht]
    revert h1 h2; clear * -
    cases x <;> cases y <;> decide

private theorem doc_minus {op : Op} (hop : op = .subAssign ∨ op = .andAssign ∨ op = .sub)
    {l r : Ty} (h : SetPart l r ∨ MapPart l r ∨ CrossPart l r) : Documented op l r l := by
  have ht : ∀ x y, cell op x y = cell .subAssign x y := by
    rcases hop with rfl | rfl | rfl <;> intros <;> rfl
  rcases h with h | h | h
  · obtain ⟨q, x, y, hx, hy, h1, h2, -⟩ := setPart_sym h
    refine ⟨q, x, y, x, hx, hy, ?_, hx⟩
    rw [ht]
    revert h1 h2; clear * -
    cases x <;> cases y <;> decide
  · obtain ⟨q, x, y, hx, hy, h1, h2, -⟩ := mapPart_sym h
    refine ⟨q, x, y, x, hx, hy, ?_, hx⟩
    rw [ht]
    revert h1 h2; clear * -
    cases x <;> cases y <;> decide
  · obtain ⟨q, x, y, hx, hy, h1, h2⟩ := crossPart_sym h
    refine ⟨q, x, y, x, hx, hy, ?_, hx⟩
    rw [ht]
    revert h1 h2; clear * -
    cases x <;> cases y <;> decide

private theorem doc_infix {op : Op} (hop : op = .add ∨ op = .or ∨ op = .xor ∨ op = .and)
    {t a : Ty} (h : (SetPart t a ∨ MapPart t a) ∧ fineness a < fineness t) :
    Documented op t a t ∧ Documented op a t t := by
  have ht : ∀ x y : Sym, (x.isS = true ∧ y.isKey = true ∨ x.isM = true ∧ y.isPair = true) →
      (y.isS = true ∨ y.isM = true → y.fine < x.fine) →
      cell op x y = some x ∧ cell op y x = some x := by
    rcases hop with rfl | rfl | rfl | rfl <;> intro x y <;> cases x <;> cases y <;> decide
  obtain ⟨h | h, hf⟩ := h
  · obtain ⟨q, x, y, hx, hy, h1, h2, h3, h4⟩ := setPart_sym h
    have := ht x y (.inl ⟨h1, h2⟩) (by
      rintro (h | h)
      · rw [h3, h4 h]; exact hf
      · exfalso; revert h2 h; clear * -; cases y <;> decide)
    exact ⟨⟨q, x, y, x, hx, hy, this.1, hx⟩, q, y, x, x, hy, hx, this.2, hx⟩
  · obtain ⟨q, x, y, hx, hy, h1, h2, h3, h4⟩ := mapPart_sym h
    have := ht x y (.inr ⟨h1, h2⟩) (by
      rintro (h | h)
      · exfalso; revert h2 h; clear * -; cases y <;> decide
      · rw [h3, h4 h]; exact hf)
    exact ⟨⟨q, x, y, x, hx, hy, this.1, hx⟩, q, y, x, x, hy, hx, this.2, hx⟩

private theorem doc_cross {t a : Ty} (h : CrossPart t a) :
    Documented .and t a t ∧ Documented .and a t t := by
  obtain ⟨q, x, y, hx, hy, h1, h2⟩ := crossPart_sym h
  have : cell .and x y = some x ∧ cell .and y x = some x := by
    revert h1 h2; clear * -; cases x <;> cases y <;> decide
  exact ⟨⟨q, x, y, x, hx, hy, this.1, hx⟩, q, y, x, x, hy, hx, this.2, hx⟩

private theorem doc_same {op : Op} (hop : op = .add ∨ op = .or ∨ op = .xor ∨ op = .and)
    {t : Ty} (h : isIntervalContainer t = true) : Documented op t t t := by
  have ht : ∀ x : Sym, x.isS = true ∨ x.isM = true → cell op x x = some x := by
    rcases hop with rfl | rfl | rfl | rfl <;> intro x <;> cases x <;> decide
  rw [container_iff] at h
  rcases h with ⟨st, c, d, k, o, rfl⟩ | ⟨f, c, d, k, v, o, rfl⟩
  · obtain ⟨q, x, y, hx, -, h1, -⟩ := setPart_sym (t := .set st c d k o) (a := d)
      ⟨st, c, d, k, o, rfl, .inl rfl⟩
    exact ⟨q, x, x, x, hx, hx, ht x (.inl h1), hx⟩
  · obtain ⟨q, x, y, hx, -, h1, -⟩ := crossPart_sym (t := .map f c d k v o) (a := d)
      ⟨f, c, d, k, v, o, rfl, .inl rfl⟩
    exact ⟨q, x, x, x, hx, hx, ht x (.inr h1), hx⟩

/-- **Nothing else compiles.**  Whatever the types of the arguments: if a call of an operator
    compiles, there are template arguments for which the two types are a documented combination and
    the result type is the documented one.  In particular containers over different domains, with
    different orders or interval types, or maps with different codomains, are never combined. -/
theorem C51_only_documented (modern : Bool) (op : Op) (l r : Arg) (t : Ty) (left : Bool)
    (h : call modern op l r = .result t left) : Documented op l.ty r.ty t := by
  classical
  have hp : ∀ o' : Op, (o' = .addAssign ∨ o' = .orAssign ∨ o' = .xorAssign) →
      call modern o' l r = .result t left → Documented o' l.ty r.ty t := by
    intro o' ho h
    rw [call_plusAssign _ _ ho] at h
    split at h
    · next hc =>
        simp only [Outcome.result.injEq] at h
        rw [← h.1]; exact doc_plusAssign ho hc.2
    · cases h
  have hm : ∀ o' : Op, (o' = .subAssign ∨ o' = .andAssign) →
      call modern o' l r = .result t left → Documented o' l.ty r.ty t := by
    intro o' ho h
    rw [call_minusAssign _ _ ho] at h
    split at h
    · next hc =>
        simp only [Outcome.result.injEq] at h
        rw [← h.1]; exact doc_minus (ho.elim .inl fun h => .inr (.inl h)) hc.2
    · cases h
  have hi : ∀ o' : Op, (o' = .add ∨ o' = .or ∨ o' = .xor) →
      call modern o' l r = .result t left → Documented o' l.ty r.ty t := by
    intro o' ho h
    have ho' : o' = .add ∨ o' = .or ∨ o' = .xor ∨ o' = .and := by
      rcases ho with rfl | rfl | rfl <;> simp
    rw [call_plus _ _ ho] at h
    split_ifs at h with h1 h2 h3 <;> simp only [Outcome.result.injEq] at h <;> rw [← h.1]
    · rw [← h1.1]; exact doc_same ho' h1.2
    · exact (doc_infix ho' h2).1
    · exact (doc_infix ho' h3).2
  cases op
  · exact hp _ (by simp) h
  · exact hp _ (by simp) h
  · exact hm _ (by simp) h
  · exact hm _ (by simp) h
  · exact hp _ (by simp) h
  · exact hi _ (by simp) h
  · exact hi _ (by simp) h
  · rw [call_sub] at h
    split at h
    · next hc =>
        simp only [Outcome.result.injEq] at h
        rw [← h.1]; exact doc_minus (by simp) hc
    · cases h
  · rw [call_and] at h
    split_ifs at h with h1 h2 h3 h4 <;> simp only [Outcome.result.injEq] at h <;> rw [← h.1]
    · rw [← h1.1]
      obtain ⟨c, d, k, e⟩ := interval_iff.1 h1.2
      rw [e]
      exact ⟨⟨c, d, k, d, 0, 0⟩, .i, .i, .i, ⟨0, 0, rfl⟩, ⟨0, 0, rfl⟩, rfl, 0, 0, rfl⟩
    · rw [← h2.1]; exact doc_same (by simp) h2.2
    · rcases h3 with h3 | h3
      · exact (doc_infix (by simp) h3).1
      · exact (doc_cross h3).1
    · rcases h4 with h4 | h4
      · exact (doc_infix (by simp) h4).2
      · exact (doc_cross h4).2
  · exact hi _ (by simp) h

/-- A call that compiles, and two that do not: other codomain, other domain. -/
example :
    call true .add ⟨.map false 0 (.other 0) 0 (.other 1) 0, .lvalue⟩
        ⟨.map true 0 (.other 0) 0 (.other 1) 0, .rvalue⟩
      = .result (.map true 0 (.other 0) 0 (.other 1) 0) false
    ∧ call true .add ⟨.map false 0 (.other 0) 0 (.other 1) 0, .lvalue⟩
        ⟨.map true 0 (.other 0) 0 (.other 2) 0, .rvalue⟩ = .noMatch
    ∧ call true .sub ⟨.map false 0 (.other 0) 0 (.other 1) 0, .lvalue⟩
        ⟨.set .joining 0 (.other 1) 0 0, .rvalue⟩ = .noMatch := by
  decide

/-- **Which operand is worked on.**  The result of a call has the type of the operand that is worked
    on.  Compound assignments and `-` always work on the left one.  For two operands of the same type
    the other operators work on the left one too, except that with rvalue references a temporary on
    the right is preferred to a left operand that is none. -/
theorem C51_object (modern : Bool) (op : Op) (l r : Arg) (t : Ty) (left : Bool)
    (h : call modern op l r = .result t left) :
    t = (if left then l.ty else r.ty)
    ∧ (Assigns op ∨ op = .sub → left = true)
    ∧ (¬ Assigns op → op ≠ .sub → l.ty = r.ty →
        (left = false → modern = true ∧ r.cat = .rvalue ∧ l.cat ≠ .rvalue)) := by
  classical
  cases op
  case addAssign =>
    rw [call_plusAssign _ _ (by simp)] at h; split at h <;> simp_all [Assigns]
  case orAssign =>
    rw [call_plusAssign _ _ (by simp)] at h; split at h <;> simp_all [Assigns]
  case xorAssign =>
    rw [call_plusAssign _ _ (by simp)] at h; split at h <;> simp_all [Assigns]
  case subAssign =>
    rw [call_minusAssign _ _ (by simp)] at h; split at h <;> simp_all [Assigns]
  case andAssign =>
    rw [call_minusAssign _ _ (by simp)] at h; split at h <;> simp_all [Assigns]
  case sub =>
    rw [call_sub] at h; split at h <;> simp_all [Assigns]
  case and =>
    rw [call_and] at h
    split_ifs at h with h1 h2 h3 h4 <;> simp only [Outcome.result.injEq] at h <;>
      obtain ⟨rfl, rfl⟩ := h
    · simp [Assigns]
    · simp_all [Assigns, oneSide]
    · simp [Assigns]
    · refine ⟨by simp, by simp [Assigns], fun _ _ e => ?_⟩
      rw [e] at h4
      rcases h4 with h4 | h4
      · exact absurd h4.2 (Nat.lt_irrefl _)
      · exact absurd (.inr (.inr h4)) (cross_not_rev _ _ h4)
  all_goals
    rw [call_plus _ _ (by simp)] at h
    split_ifs at h with h1 h2 h3 <;> simp only [Outcome.result.injEq] at h <;>
      obtain ⟨rfl, rfl⟩ := h
    · simp_all [Assigns, oneSide]
    · simp [Assigns]
    · refine ⟨by simp, by simp [Assigns], fun _ _ e => ?_⟩
      rw [e] at h3
      exact absurd h3.2 (Nat.lt_irrefl _)

/-- `a + std::move(b)` works on `b`, `std::move(a) + std::move(b)` on `a`. -/
example :
    call true .add ⟨.set .joining 0 (.other 0) 0 0, .lvalue⟩ ⟨.set .joining 0 (.other 0) 0 0, .rvalue⟩
      = .result (.set .joining 0 (.other 0) 0 0) false
    ∧ call true .add ⟨.set .joining 0 (.other 0) 0 0, .rvalue⟩
        ⟨.set .joining 0 (.other 0) 0 0, .rvalue⟩
      = .result (.set .joining 0 (.other 0) 0 0) true := by
  decide

/-- **The infix operators are narrower than the compound assignments.**  Two interval maps of the
    same fineness that differ in their traits, or two interval sets that differ in their allocators,
    can be added with `+=` — and so can their difference be formed with `-` — but `+`, `|`, `&` and
    `^` do not compile for them, in any categories of the operands. -/
theorem C51_counterexample_options (modern : Bool) (cl cr : Cat) :
    (call modern .addAssign ⟨.map false 0 (.other 0) 0 (.other 1) 0, .lvalue⟩
        ⟨.map false 0 (.other 0) 0 (.other 1) 1, cr⟩
      = .result (.map false 0 (.other 0) 0 (.other 1) 0) true)
    ∧ (call modern .sub ⟨.map false 0 (.other 0) 0 (.other 1) 0, cl⟩
        ⟨.map false 0 (.other 0) 0 (.other 1) 1, cr⟩
      = .result (.map false 0 (.other 0) 0 (.other 1) 0) true)
    ∧ (∀ op, op = .add ∨ op = .or ∨ op = .and ∨ op = .xor →
        call modern op ⟨.map false 0 (.other 0) 0 (.other 1) 0, cl⟩
          ⟨.map false 0 (.other 0) 0 (.other 1) 1, cr⟩ = .noMatch)
    ∧ (∀ op, op = .add ∨ op = .or ∨ op = .and ∨ op = .xor →
        call modern op ⟨.set .joining 0 (.other 0) 0 0, cl⟩
          ⟨.set .joining 0 (.other 0) 0 1, cr⟩ = .noMatch) := by
  cases modern <;> cases cl <;> cases cr <;>
    exact ⟨by decide, by decide, by rintro op (rfl | rfl | rfl | rfl) <;> decide,
      by rintro op (rfl | rfl | rfl | rfl) <;> decide⟩

/-- **Sets of sets.**  The domain must not be an interval container: an `interval_set` whose elements
    are `split_interval_set`s takes an element with `+=`, but the documented `S1 + e` does not
    compile. -/
theorem C51_counterexample_nested (modern : Bool) (cl cr : Cat) :
    ∃ (q : Params) (t e : Ty), Sym.Is q .S1 t ∧ Sym.Is q .e e ∧
      call modern .addAssign ⟨t, .lvalue⟩ ⟨e, cr⟩ = .result t true ∧
      cell .add .S1 .e = some .S1 ∧ call modern .add ⟨t, cl⟩ ⟨e, cr⟩ = .noMatch := by
  refine ⟨⟨0, .set .splitting 0 (.other 0) 0 0, 0, .other 1, 0, 0⟩, _, _, rfl, rfl, ?_, rfl, ?_⟩ <;>
    cases modern <;> cases cl <;> cases cr <;> decide

/-! ### Functions -/

/-- **`insert`, `erase` and the element comparisons** compile exactly for the combinations with a
    filled cell in their tables; traits, combiners and allocators may differ. -/
theorem C51_functions (fn : Fn) (hfn : fn = .insert ∨ fn = .erase ∨ fn = .elementCompare)
    (q : Params) (hq : PlainDomain q) (x y : Sym) (t a : Ty) (hx : x.Like q t) (hy : y.Like q a) :
    callFn fn t a = if fnCell fn x y then .compiles else .noMatch := by
  obtain ⟨s1, s2⟩ := like_segment hq hx hy
  obtain ⟨e1, e2⟩ := like_element hq hx hy
  obtain ⟨k1, k2⟩ := like_key_members hq hx hy
  have h1 := like_intra hq hx hy
  have h2 := like_combines hq hx hy
  rcases hfn with rfl | rfl | rfl
  all_goals
    simp only [callFn, select, fnConditions, List.filter_cons, List.filter_nil, s1, s2, e1, e2, k1,
      k2, h1, h2]
    clear * -
    cases x <;> cases y <;> rfl

/-- `erase(m, *it)` compiles, `insert(m, s)` does not. -/
example :
    callFn .erase (.map false 0 (.other 0) 0 (.other 1) 0)
        (.pair true (.interval 0 (.other 0) 0) (.other 1)) = .compiles
    ∧ callFn .insert (.map false 0 (.other 0) 0 (.other 1) 0) (.set .joining 0 (.other 0) 0 0)
      = .noMatch
    ∧ fnCell .insert .M1 .S1 = false ∧ fnCell .erase .M1 .p = true := by
  decide

private theorem same_segment {q : Params} {x y : Sym} {t a : Ty} (hx : x.Like q t)
    (hy : y.Like q a) (hM : x.isM = true) (hp : y = .p → ∀ k v, a ≠ .pair true k v) :
    (some a == t.segmentType) = decide (y = .p) := by
  obtain ⟨f, o, rfl⟩ := like_params_map hx hM
  rw [Bool.eq_iff_iff, decide_eq_true_iff, ← like_p hy]
  simp only [Ty.segmentType, beq_iff_eq, Option.some.injEq]
  constructor
  · exact fun h => ⟨_, h⟩
  · rintro ⟨b, h⟩
    cases b
    · exact h
    · exact absurd h (hp ((like_p hy).1 ⟨_, h⟩) _ _)

private theorem contains_cells (q : Params) (hq : PlainDomain q) (x y : Sym) (t a : Ty)
    (hx : x.Like q t) (hy : y.Like q a) :
    select .contains t a =
      if fnCell .contains x y && !(x.isM && isTotal t && y.isS) then .compiles else .noMatch := by
  obtain ⟨s1, s2⟩ := like_segment hq hx hy
  obtain ⟨e1, e2⟩ := like_element hq hx hy
  obtain ⟨k1, k2⟩ := like_key_members hq hx hy
  have h1 := like_compatibleMap hq hx hy
  have h2 := like_mapSet hq hx hy
  have h3 := like_cross_derivative hq hx hy
  have h4 := like_isSet hq hx
  have h5 := like_isSet hq hy
  have h6 := like_isMap hq hx
  have a1 : (isIntervalMap t && !isTotal t && fits t.domainType a)
      = (x.isM && decide (y = .e) && !isTotal t) := by
    rw [← k2]; cases isIntervalMap t <;> cases isTotal t <;> simp
  have a2 : (isIntervalMap t && !isTotal t && fits t.intervalType a)
      = (x.isM && decide (y = .i) && !isTotal t) := by
    rw [← k1]; cases isIntervalMap t <;> cases isTotal t <;> simp
  rw [h4] at s1 e1
  rw [h6] at s2 e2 a1 a2
  simp only [select, fnConditions, List.filter_cons, List.filter_nil, h4, h5, h6, s1, s2, e1, e2,
    a1, a2, h1, h2, h3]
  generalize isTotal t = b
  clear * -
  cases b <;> cases x <;> cases y <;> rfl

private theorem intersects_cells (q : Params) (hq : PlainDomain q) (x y : Sym) (t a : Ty)
    (hx : x.Like q t) (hy : y.Like q a) (hp : y = .p → ∀ k v, a ≠ .pair true k v) :
    select .intersects t a =
      if fnCell .intersects x y || x.isS && y.isM then .compiles else .noMatch := by
  obtain ⟨m1, m2, m3⟩ := like_same hq hx hy
  have h1 := like_intra hq hx hy
  have h2 := like_cross hq hx hy
  have h6 := like_isMap hq hx
  have a1 : ∀ b, (isIntervalMap t && b && some a == t.segmentType)
      = (x.isM && decide (y = .p) && b) := by
    intro b
    rw [h6]
    cases hM : x.isM
    · rfl
    · rw [same_segment hx hy hM hp]; cases b <;> simp
  simp only [select, fnConditions, List.filter_cons, List.filter_nil, m1, m2, m3, a1, h1, h2]
  generalize isTotal t = b
  generalize isTotal a = b'
  clear * -
  cases b <;> cases b' <;> cases x <;> cases y <;> rfl

/-- **`contains`, `within`, `intersects` and `disjoint`** compile for every combination with a filled
    cell in their tables, provided that
    * an interval set is asked for in a map that is not total, in the case of `contains` and `within`;
    * an interval-value pair is one without a const, in the case of `intersects` and `disjoint`.
    They do not compile for the combinations with an empty cell, but for `intersects` and `disjoint`
    of a set and a map.  No call is ambiguous.  What is missing is shown by
    `C51_counterexample_contains` and `C51_counterexample_intersects`. -/
theorem C51_queries_partial (fn : Fn)
    (hfn : fn = .contains ∨ fn = .within ∨ fn = .intersects ∨ fn = .disjoint)
    (q : Params) (hq : PlainDomain q) (x y : Sym) (t a : Ty) (hx : x.Like q t) (hy : y.Like q a)
    (ht : fn = .contains ∨ fn = .within → x.isM = true → y.isS = true → isTotal t = false)
    (hp : fn = .intersects ∨ fn = .disjoint → ∀ k v, a ≠ .pair true k v) :
    (fnCell fn x y = true → callFn fn t a = .compiles)
    ∧ (fnCell fn x y = false →
        ¬ ((fn = .intersects ∨ fn = .disjoint) ∧ x.isS = true ∧ y.isM = true) →
        callFn fn t a ≠ .compiles)
    ∧ callFn fn t a ≠ .ambiguous := by
  have hc := contains_cells q hq x y t a hx hy
  have hcont := like_isContainer hq hx
  rcases hfn with rfl | rfl | rfl | rfl
  · replace ht := ht (.inl rfl)
    simp only [callFn, hc]
    revert ht; generalize isTotal t = b; clear * -
    cases b <;> cases x <;> cases y <;> decide
  · replace ht := ht (.inr rfl)
    have hw : select .within t a = if x.isS || x.isM then .compiles else .noMatch := by
      simp only [select, fnConditions, List.filter_cons, List.filter_nil, hcont]
      cases (x.isS || x.isM) <;> rfl
    simp only [callFn, hc, hw]
    revert ht; generalize isTotal t = b; clear * -
    cases b <;> cases x <;> cases y <;> decide
  · have hi := intersects_cells q hq x y t a hx hy (fun _ => hp (.inl rfl))
    simp only [callFn, hi]
    clear * -
    cases x <;> cases y <;> decide
  · have hi := intersects_cells q hq x y t a hx hy (fun _ => hp (.inr rfl))
    have hd : select .disjoint t a
        = if fnCell .disjoint x y || x.isS && y.isM then .compiles else .noMatch := by
      simp only [select, fnConditions, List.filter_cons, List.filter_nil, isInterCombinable,
        isInterDerivative, like_intra hq hx hy, like_cross hq hx hy,
        like_intra_derivative hq hx hy, like_cross_derivative hq hx hy]
      clear * -
      cases x <;> cases y <;> rfl
    simp only [callFn, hi, hd]
    clear * -
    cases x <;> cases y <;> decide

private theorem intersects_cells_const (q : Params) (hq : PlainDomain q) (x : Sym) (t k v : Ty)
    (hx : x.Like q t) (hy : Sym.p.Like q (.pair true k v)) :
    select .intersects t (.pair true k v) = .noMatch := by
  obtain ⟨m1, m2, m3⟩ := like_same hq hx hy
  have h1 := like_intra hq hx hy
  have h2 := like_cross hq hx hy
  have a1 : ∀ b, (isIntervalMap t && b && some (.pair true k v) == t.segmentType) = false := by
    intro b
    cases t <;> simp [isIntervalMap, Ty.segmentType]
  simp only [select, fnConditions, List.filter_cons, List.filter_nil, m1, m2, m3, a1, h1, h2]
  generalize isTotal t = b
  generalize isTotal (.pair true k v) = b'
  clear * -
  cases b <;> cases b' <;> cases x <;> rfl

/-- **Exactly when they compile.**  `contains` and `within`: for the combinations with a filled cell,
    except an interval set in a total map.  `intersects` and `disjoint`: for those with a filled cell and
    for a set and a map, except an interval-value pair with a const, which is what iterators
    give. -/
theorem C51_queries_exact (q : Params) (hq : PlainDomain q) (x y : Sym)
    (t a : Ty) (hx : x.Like q t) (hy : y.Like q a) :
    (∀ fn, fn = .contains ∨ fn = .within → (callFn fn t a = .compiles ↔
      fnCell fn x y = true ∧ ¬ (x.isM = true ∧ y.isS = true ∧ isTotal t = true))) ∧
    (∀ fn, fn = .intersects ∨ fn = .disjoint → (callFn fn t a = .compiles ↔
      (fnCell fn x y = true ∨ x.isS = true ∧ y.isM = true) ∧ ¬ (y = .p ∧ ∃ k v, a = .pair true k v))) := by
  have hc := contains_cells q hq x y t a hx hy
  have hcont := like_isContainer hq hx
  have hw : select .within t a = if x.isS || x.isM then .compiles else .noMatch := by
    simp only [select, fnConditions, List.filter_cons, List.filter_nil, hcont]
    cases (x.isS || x.isM) <;> rfl
  have hd : select .disjoint t a
      = if fnCell .disjoint x y || x.isS && y.isM then .compiles else .noMatch := by
    simp only [select, fnConditions, List.filter_cons, List.filter_nil, isInterCombinable,
      isInterDerivative, like_intra hq hx hy, like_cross hq hx hy,
      like_intra_derivative hq hx hy, like_cross_derivative hq hx hy]
    clear * -
    cases x <;> cases y <;> rfl
  constructor
  · rintro fn (rfl | rfl)
    · simp only [callFn, hc]
      generalize isTotal t = b
      clear * -
      cases b <;> cases x <;> cases y <;> decide
    · simp only [callFn, hc, hw]
      generalize isTotal t = b
      clear * -
      cases b <;> cases x <;> cases y <;> decide
  · by_cases hp : y = .p ∧ ∃ k v, a = .pair true k v
    · obtain ⟨rfl, k, v, rfl⟩ := hp
      have hi := intersects_cells_const q hq x t k v hx hy
      rintro fn (rfl | rfl)
      · simp [callFn, hi]
      · simp only [callFn, hi, hd]
        refine iff_of_false ?_ (by simp)
        clear * -
        cases x <;> decide
    · have hi := intersects_cells q hq x y t a hx hy (fun h1 k v h2 => hp ⟨h1, k, v, h2⟩)
      rintro fn (rfl | rfl)
      · simp only [callFn, hi, hp]
        clear * -
        cases x <;> cases y <;> decide
      · simp only [callFn, hi, hd, hp]
        clear * -
        cases x <;> cases y <;> decide

/-- A map that is not total and a set; a map and a pair of an interval and a value. -/
example :
    isTotal (.map false 0 (.other 0) 0 (.other 1) 0) = false
    ∧ callFn .within (.map false 0 (.other 0) 0 (.other 1) 0) (.set .joining 0 (.other 0) 0 0)
      = .compiles
    ∧ callFn .disjoint (.map false 0 (.other 0) 0 (.other 1) 0)
        (.pair false (.interval 0 (.other 0) 0) (.other 1)) = .compiles := by
  decide

/-- **`contains` misses a case.**  For a total interval map, the documented `contains(M, S)` does not
    compile, and neither does `within(S, M)`: the candidate for total maps, whose comment announces
    elements, intervals and sets, takes only elements and intervals.  `contains(M, i)` compiles. -/
theorem C51_counterexample_contains :
    ∃ (q : Params) (t a i : Ty), PlainDomain q ∧ Sym.Is q .M1 t ∧ Sym.Is q .S1 a ∧ Sym.Is q .i i
      ∧ fnCell .contains .M1 .S1 = true ∧ fnCell .within .M1 .S1 = true
      ∧ callFn .contains t a = .noMatch ∧ callFn .within t a = .brokenBody
      ∧ callFn .contains t i = .compiles :=
  ⟨⟨0, .other 0, 0, .other 1, 0, ⟨true, 0⟩⟩, _, _, _,
    ⟨fun _ _ _ h => (by cases h), fun _ _ _ _ _ h => (by cases h),
      fun _ _ _ _ _ _ h => (by cases h)⟩,
    rfl, rfl, rfl, by decide, by decide, by decide, by decide, by decide⟩

/-- **`intersects` does not take what iterators give.**  For an interval map `m` and an iterator `it`
    of it, `contains(m, *it)` and `m -= *it` compile, but `intersects(m, *it)` does not, and
    `disjoint(m, *it)` is accepted by its condition and then fails in its body. -/
theorem C51_counterexample_intersects (finer : Bool) (o : MapOpts) :
    ∃ m it : Ty, m = .map finer 0 (.other 0) 0 (.other 1) o ∧ m.valueType = some it
      ∧ callFn .contains m it = .compiles
      ∧ call true .subAssign ⟨m, .lvalue⟩ ⟨it, .constLvalue⟩ = .result m true
      ∧ callFn .intersects m it = .noMatch ∧ callFn .disjoint m it = .brokenBody := by
  obtain ⟨b, n⟩ := o
  refine ⟨_, _, rfl, rfl, ?_, ?_, ?_, ?_⟩
  · cases finer <;> cases b <;> rfl
  · rw [call_minusAssign _ _ (by simp), if_pos]
    exact ⟨rfl, .inr (.inl ⟨_, _, _, _, _, _, rfl, .inr (.inl ⟨_, rfl⟩)⟩)⟩
  · cases finer <;> cases b <;> rfl
  · cases finer <;> cases b <;> rfl

end ICL.Props
