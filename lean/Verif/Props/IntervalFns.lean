import Verif.IntervalFnSpec

/-! C71: for which interval types the functions of intervals can be called. -/

namespace ICL.Props
open IntervalFn IntervalFnSpec

namespace IntervalFnAux

/-- Nesting depth of the calls -/
def rank : Fn → Nat
  | .lower | .upper | .bounds | .construct | .constructWith | .constructBounded | .iterativeSize | .leftBracket
  | .rightBracket | .singleton | .unitTrail => 0
  | .span | .hullValues | .first | .last | .lastNext | .boundedLower | .reverseBoundedLower | .boundedUpper
  | .reverseBoundedUpper | .isEmpty => 1
  | .lowerLess | .upperLess | .lowerEqual | .upperEqual | .exclusiveLess | .exclusiveLessNonEmpty | .containsElement
  | .touches | .cardinality | .length | .distance | .stream => 2
  | .lowerMin | .lowerMax | .upperMax | .upperMin | .lowerLessEqual | .upperLessEqual | .eq | .lt | .size | .intersects
  | .disjoint => 3
  | .containsNonEmpty | .ne | .gt | .ge | .hull | .leftSubtract | .rightSubtract | .inter => 4
  | .contains | .le | .innerComplement => 5
  | .within | .between | .findValue | .addValue => 6

theorem rank_lt (f : Fn) : ∀ c ∈ candidates f, ∀ g ∈ c.calls, rank g < rank f := by
  cases f <;> simp [candidates, rank]

/-- One step: the call compiles if the calls of the body are known to. -/
def step (t : Ty) (U : Fn → Bool) (f : Fn) : Bool :=
  match viable t f with
  | [c] => c.calls.all U && c.needs.all (·.holds t)
  | _ => false

theorem compiles_of_step {t : Ty} {U : Fn → Bool} (h : ∀ f, U f = step t U f) (f : Fn) :
    Compiles t f ↔ U f = true := by
  constructor
  · intro hc
    induction hc with
    | intro f c hv _ hn ih =>
      rw [h, step, hv]
      simp only [Bool.and_eq_true, List.all_eq_true]
      exact ⟨ih, hn⟩
  · intro hu
    induction hk : rank f using Nat.strongRecOn generalizing f with
    | ind k ih =>
      rw [h, step] at hu
      split at hu
      · rename_i c hv
        simp only [Bool.and_eq_true, List.all_eq_true] at hu
        have hm : c ∈ candidates f := (List.mem_filter (p := fun c => c.cond t)
          |>.1 (by rw [show List.filter _ _ = [c] from hv]; exact List.mem_singleton_self c)).1
        exact .intro f c hv (fun g hg => ih _ (hk ▸ rank_lt f c hm g hg) g (hu.1 g hg) rfl) hu.2
      · simp at hu

end IntervalFnAux
open IntervalFnAux

set_option maxHeartbeats 4000000 in
theorem IntervalFnAux.usable_step {t : Ty} (h : WellTraited t) (f : Fn) : usable t f = step t (usable t) f := by
  obtain ⟨b, di, ci, bd, id, ⟨d, inc, nx, pr, mn, df⟩⟩ := t
  cases b <;> cases di <;> cases ci <;>
    first
    | (exfalso; revert h; simp [WellTraited]; done)
    | (clear h
       cases d <;> cases f <;>
        simp [step, viable, candidates, usable, ro, lo, cl, op, dyn, dd, dc, steps, Need.holds, Ty.isInterval,
          Ty.hasStaticBounds, Ty.hasDynamicBounds, Ty.hasAsymmetricBounds, Ty.hasSymmetricBounds, Ty.isDiscreteStatic,
          Ty.isStaticRightOpen, Ty.isStaticLeftOpen, Ty.isStaticOpen, Ty.isStaticClosed, Ty.isDiscreteStaticClosed,
          Ty.isDiscreteStaticOpen, Ty.isContinuousRightOpen, Ty.isContinuousLeftOpen, Ty.isAsymmetricInterval,
          Ty.isContinuousAsymmetric, Ty.isDiscreteAsymmetric] <;>
        (revert bd id inc nx pr mn df; decide))

/-- **C71.** A function of intervals can be called for exactly the types of its line in the table `usable`. -/
theorem C71_table {t : Ty} (h : WellTraited t) (f : Fn) : Compiles t f ↔ usable t f = true :=
  compiles_of_step (usable_step h) f

set_option maxHeartbeats 4000000 in
/-- No call is ambiguous, for a type whose traits are used as they are meant, and only for those. -/
theorem C71_unambiguous (t : Ty) : (∀ f, (viable t f).length ≤ 1) ↔ WellTraited t := by
  constructor
  · intro h
    have h := h .isEmpty
    obtain ⟨b, di, ci, bd, id, d⟩ := t
    revert h
    cases b <;> cases di <;> cases ci <;>
      simp [viable, candidates, WellTraited, Ty.isAsymmetricInterval, Ty.isInterval, Ty.hasStaticBounds,
        Ty.hasAsymmetricBounds, Ty.isStaticClosed, Ty.isStaticOpen]
  · intro h f
    obtain ⟨b, di, ci, bd, id, ⟨d, inc, nx, pr, mn, df⟩⟩ := t
    cases b <;> cases di <;> cases ci <;>
      first
      | (exfalso; revert h; simp [WellTraited]; done)
      | (clear h
         cases d <;> cases f <;>
          first
          | exact Nat.le_of_ble_eq_true rfl
          | (cases bd <;> cases inc <;> cases df <;> exact Nat.le_of_ble_eq_true rfl))

/-- Where the traits clash, not even `is_empty` can be called, and so none of the functions on segments. -/
theorem C71_clash {t : Ty} (h : ¬WellTraited t) : ¬Compiles t .isEmpty := by
  rintro ⟨_, c, hv, -, -⟩
  have hl : (viable t .isEmpty).length = 1 := by rw [hv]; rfl
  obtain ⟨b, di, ci, bd, id, d⟩ := t
  revert h hl
  cases b <;> cases di <;> cases ci <;>
    simp [viable, candidates, WellTraited, Ty.isAsymmetricInterval, Ty.isInterval, Ty.hasStaticBounds,
      Ty.hasAsymmetricBounds, Ty.isStaticClosed, Ty.isStaticOpen]

/-- A type with dynamic bounds has to specialise exactly one of the two traits. -/
theorem C71_dynamic {t : Ty} (hb : t.bound = .dynamic) :
    Compiles t .isEmpty ↔ (t.discreteInterval = true ∧ t.continuousInterval = false ∧ t.dom.next = true) ∨
      (t.discreteInterval = false ∧ t.continuousInterval = true) := by
  by_cases h : WellTraited t
  · rw [C71_table h]
    obtain ⟨b, di, ci, bd, id, ⟨d, inc, nx, pr, mn, df⟩⟩ := t
    subst hb
    revert h
    cases di <;> cases ci <;> simp [usable, WellTraited, ro, lo, cl, op, dc, dd]
  · refine iff_of_false (C71_clash h) fun hc => h ?_
    refine ⟨fun hh => ?_, fun _ => .inl hb⟩
    rcases hc with hc | hc <;> simp_all

theorem IntervalFnAux.wellTraited_ty (d : Dom) (k : Class) : WellTraited (k.ty d) := by
  cases k <;> simp [WellTraited, Class.ty]

/-- **C71, documentation.** For the classes of the library over the numeric domain types they are meant for, the functions
the documentation lists can be called exactly where it lists them, except for `first` and `last` where a continuous
interval has no such value. -/
theorem C71_documented {d : Dom} {k : Class} (hf : Fits d k) (hd : Numeric d) {f : Fn} (h : f ∈ documentedFns) :
    Compiles (k.ty d) f ↔ documented d k f = true ∧ noEnd d k f = false := by
  rw [C71_table (wellTraited_ty d k)]
  obtain ⟨ds, inc, nx, pr, mn, df⟩ := d
  obtain ⟨rfl, rfl, rfl, rfl, rfl⟩ : inc = true ∧ nx = true ∧ pr = true ∧ mn = true ∧ df = true := hd
  revert hf h
  cases k <;> cases ds <;> cases f <;> simp [Fits] <;> decide

/-- **C71, continuous domains that are not numeric**, such as strings: the same, except that `length` and `distance` need
subtraction, and that `hull` of two values needs the step out of the interval. -/
theorem C71_continuous {d : Dom} {k : Class} (hc : d.discrete = false) (hf : Fits d k) {f : Fn}
    (h : f ∈ documentedFns) :
    Compiles (k.ty d) f ↔ documented d k f = true ∧ noEnd d k f = false ∧
      (f = .length → d.minus = true) ∧ (f = .distance → d.minus = true ∧ d.difference = true) ∧
      (f = .hullValues → k = .rightOpen → d.next = true) ∧ (f = .hullValues → k = .leftOpen → d.prior = true) := by
  rw [C71_table (wellTraited_ty d k)]
  obtain ⟨ds, inc, nx, pr, mn, df⟩ := d
  subst hc
  revert hf h
  cases k <;> cases f <;>
    simp [Fits, documentedFns, usable, documented, noEnd, Class.ty, ro, lo, cl, op, dyn, dd, dc, steps, and_comm]

/-- **C71, containers.** The types whose intervals containers can have as segments. -/
theorem C71_segments {t : Ty} (h : WellTraited t) :
    (∀ f ∈ segmentFns, Compiles t f) ↔ t.ident = true ∧
      (t.bound = .staticRightOpen ∨ t.bound = .staticLeftOpen ∨
       ((t.bound = .staticClosed ∨ t.bound = .staticOpen) ∧ t.dom.discrete = true ∧ t.dom.next = true ∧ t.dom.prior = true) ∨
       (t.bound = .dynamic ∧ t.bounded = true ∧ (t.continuousInterval = true ∨
         (t.discreteInterval = true ∧ t.dom.next = true ∧ t.dom.prior = true)))) := by
  simp only [C71_table h]
  clear h
  obtain ⟨b, di, ci, bd, id, ⟨d, inc, nx, pr, mn, df⟩⟩ := t
  cases b <;> revert di ci bd id d inc nx pr mn df <;> decide

/-- Closed or open intervals of a continuous domain cannot be segments, whatever else the type offers. -/
theorem C71_symmetric_continuous {t : Ty} (hb : t.bound = .staticClosed ∨ t.bound = .staticOpen)
    (hd : t.dom.discrete = false) : ¬∀ f ∈ segmentFns, Compiles t f := by
  intro hs
  have hw : WellTraited t := by
    refine Decidable.byContradiction fun h => C71_clash h (hs _ (by decide))
  have := (C71_segments hw).1 hs
  rcases hb with hb | hb <;> simp [hb, hd] at this

/-- Over a domain with steps, the classes of the library can be segments exactly for the domain types they are meant
for. -/
theorem C71_library {d : Dom} (hn : d.next = true) (hp : d.prior = true) (k : Class) :
    (∀ f ∈ segmentFns, Compiles (k.ty d) f) ↔ Fits d k := by
  rw [C71_segments (wellTraited_ty d k)]
  cases k <;> simp [Class.ty, Fits, hn, hp]

/-- Over any domain: those classes whose bounds are stepped over need `++` and `--`. -/
theorem C71_library_exact (d : Dom) (k : Class) :
    (∀ f ∈ segmentFns, Compiles (k.ty d) f) ↔
      Fits d k ∧ (k = .discrete ∨ k = .closed ∨ k = .open → d.next = true ∧ d.prior = true) := by
  rw [C71_segments (wellTraited_ty d k)]
  cases k <;> simp [Class.ty, Fits]

/-- The right open and left open intervals can be segments over any domain, with or without steps, and so can
continuous intervals over every continuous domain. -/
theorem C71_any_domain {d : Dom} {k : Class} (hf : Fits d k) (hk : k = .rightOpen ∨ k = .leftOpen ∨ k = .continuous) :
    ∀ f ∈ segmentFns, Compiles (k.ty d) f := by
  rw [C71_segments (wellTraited_ty d k)]
  rcases hk with rfl | rfl | rfl <;> simp_all [Class.ty, Fits]

/-- **C71, values.** For static half open intervals over a continuous domain, finding a value of the domain in a container
needs `++`, and `--` for left open ones, and adding a value is never there.  For the other classes both always are, as far
as the domain fits and has steps. -/
theorem C71_values {d : Dom} {k : Class} (hf : Fits d k) (hs : d.discrete = true → Numeric d) :
    (Compiles (k.ty d) .findValue ↔ (k = .rightOpen → d.incrementable = true ∧ d.next = true) ∧
      (k = .leftOpen → d.incrementable = true ∧ d.prior = true)) ∧
    (Compiles (k.ty d) .addValue ↔ (k = .rightOpen ∨ k = .leftOpen → d.discrete = true)) := by
  rw [C71_table (wellTraited_ty d k), C71_table (wellTraited_ty d k)]
  obtain ⟨ds, inc, nx, pr, mn, df⟩ := d
  revert hf hs
  cases k <;> cases ds <;> simp [Fits, Numeric, usable, Class.ty, ro, lo, cl, op, dyn, steps] <;> simp_all

/-! Examples: `int`, `double`, `std::string`. -/

namespace Ex71
def int : Dom := ⟨true, true, true, true, true, true⟩
def double : Dom := ⟨false, true, true, true, true, true⟩
def string : Dom := ⟨false, false, false, false, false, false⟩

example : Fits int .discrete ∧ Fits double .continuous ∧ Fits string .rightOpen ∧ ¬Fits double .closed := by
  simp [Fits, int, double]
example : Numeric int ∧ Numeric double ∧ ¬Numeric string := by simp [Numeric, int, double, string]
example : WellTraited (Class.ty double .continuous) := by decide
/-- Closed intervals of floating point numbers: two of them can be compared, but they cannot be segments. -/
example : Compiles (Class.ty double .closed) .exclusiveLess ∧ ¬Compiles (Class.ty double .closed) .touches := by
  constructor
  · rw [C71_table (by decide)]; decide
  · rw [C71_table (by decide)]; decide
/-- Half open intervals of strings: no lookup of a string, no hull of two strings, but intersections. -/
example : ¬Compiles (Class.ty string .rightOpen) .findValue ∧ ¬Compiles (Class.ty string .rightOpen) .hullValues ∧
    Compiles (Class.ty string .rightOpen) .inter := by
  refine ⟨?_, ?_, ?_⟩ <;> rw [C71_table (by decide)] <;> decide
/-- The last value of a half open interval of floating point numbers is missing, the first is there. -/
example : ¬Compiles (Class.ty double .rightOpen) .last ∧ Compiles (Class.ty double .rightOpen) .first := by
  constructor <;> rw [C71_table (by decide)] <;> decide
/-- A user's class with dynamic bounds that specialises neither trait, or both. -/
example : ¬Compiles ⟨.dynamic, false, false, true, true, int⟩ .isEmpty ∧
    ¬Compiles ⟨.dynamic, true, true, true, true, int⟩ .isEmpty ∧
    Compiles ⟨.dynamic, true, false, true, true, int⟩ .isEmpty := by
  refine ⟨?_, ?_, ?_⟩ <;> rw [C71_dynamic rfl] <;> decide
example : ¬WellTraited ⟨.staticClosed, true, false, false, true, int⟩ := by decide
end Ex71

end ICL.Props
