/-!
# Which function an operator call means

The operators of interval containers are function templates whose parameters match nearly
everything; `enable_if` conditions built from the traits of `type_traits/is_combinable.hpp` decide
which of them are candidates for a call.  This file models the types a call can mention, those
traits, the candidates each operator offers, and the rules by which a C++ compiler chooses among
them.

Simplification: a type is a term, so two types are the same exactly when they are the same term.
Implicit conversions of arguments are left out; the parameters are deduced from the arguments, so
the language does not apply any.
-/

namespace ICL
namespace Overload

/-- The three kinds of interval sets and the two kinds of interval maps.
    interval_set.hpp:20-35, separate_interval_set.hpp:18-33, split_interval_set.hpp:18-34,
    interval_map.hpp:23-43, split_interval_map.hpp:20-38. -/
inductive Style
  | joining | separating | splitting
  deriving DecidableEq, Repr

/-- The remaining template arguments of an interval map: whether its traits are total, which
    `is_total` asks for (type_traits/is_total.hpp:14-18, interval_map.hpp:271-276,
    split_interval_map.hpp:223-228), and a number for all the rest of Traits, Combine, Section and
    Alloc. -/
structure MapOpts where
  total : Bool
  rest : Nat
  deriving DecidableEq, Repr

instance (n : Nat) : OfNat MapOpts n := ⟨⟨false, n⟩⟩

/-- The types an operator call can mention.  Template parameters the traits cannot look into
    (comparison, allocator, interval template, map traits) are numbers: equal numbers stand for the
    same argument.
    * `other n`: any type that is none of the following, element containers included;
    * `interval cls dom cmp`: `Interval<DomainT, Compare>`, e.g. discrete_interval.hpp:24-37;
    * `mapping k v`: `mapping_pair<DomainT, CodomainT>`, interval_base_map.hpp:33-57;
    * `pair c k v`: `std::pair<K, V>`, with `c` saying whether the first component is const;
    * `set st cls dom cmp opts`: an interval set over that interval type, interval_base_set.hpp:44-55,
      where `opts` stands for the argument Alloc;
    * `map finer cls dom cmp cod opts`: an interval map, interval_base_map.hpp:59-76, the splitting kind
      when `finer`, where `opts` stands for the arguments Traits, Combine, Section and Alloc together. -/
inductive Ty
  | other (n : Nat)
  | interval (cls : Nat) (dom : Ty) (cmp : Nat)
  | mapping (key val : Ty)
  | pair (constKey : Bool) (key val : Ty)
  | set (st : Style) (cls : Nat) (dom : Ty) (cmp : Nat) (opts : Nat)
  | map (finer : Bool) (cls : Nat) (dom : Ty) (cmp : Nat) (cod : Ty) (opts : MapOpts)
  deriving DecidableEq, Repr

/-! ## Members and elementary traits -/

/-- `domain_type`: interval_base_set.hpp:69, interval_base_map.hpp:89; intervals have the
    member as well (discrete_interval.hpp:34).  `none`: no such member. -/
def Ty.domainType : Ty → Option Ty
  | .interval _ d _ => some d
  | .set _ _ d _ _ => some d
  | .map _ _ d _ _ _ => some d
  | _ => none

/-- `interval_type`: interval_base_set.hpp:77, interval_base_map.hpp:98. -/
def Ty.intervalType : Ty → Option Ty
  | .set _ c d k _ => some (.interval c d k)
  | .map _ c d k _ _ => some (.interval c d k)
  | _ => none

/-- `codomain_type`: of a set its domain type, interval_base_set.hpp:71;
    of a map interval_base_map.hpp:92. -/
def Ty.codomainType : Ty → Option Ty
  | .set _ _ d _ _ => some d
  | .map _ _ _ _ v _ => some v
  | _ => none

/-- `key_compare` is `exclusive_less_than<interval_type>`: interval_base_set.hpp:101,
    interval_base_map.hpp:138.  The interval type stands for it. -/
def Ty.keyCompare (t : Ty) : Option Ty := t.intervalType

/-- `domain_mapping_type` = `mapping_pair<domain_type, codomain_type>`:
    interval_base_map.hpp:94. -/
def Ty.domainMapping : Ty → Option Ty
  | .map _ _ d _ v _ => some (.mapping d v)
  | _ => none

/-- `interval_mapping_type` = `std::pair<interval_type, codomain_type>`:
    interval_base_map.hpp:100. -/
def Ty.intervalMapping : Ty → Option Ty
  | .map _ c d k v _ => some (.pair false (.interval c d k) v)
  | _ => none

/-- `value_type` = `std::pair<const interval_type, codomain_type>`: interval_base_map.hpp:150-154. -/
def Ty.valueType : Ty → Option Ty
  | .map _ c d k v _ => some (.pair true (.interval c d k) v)
  | _ => none

/-- is_interval_container: the primary template is false, is_interval_container.hpp:17-21; the
    specialisations are at interval_set.hpp:203-208, separate_interval_set.hpp:189-194,
    split_interval_set.hpp:207-212, interval_map.hpp:257-262, split_interval_map.hpp:202-207. -/
def isIntervalContainer : Ty → Bool
  | .set .. => true
  | .map .. => true
  | _ => false

/-- is_map: type_traits/is_map.hpp:15-20, interval_map.hpp:242-247, split_interval_map.hpp:188-193.
    Simplification: element maps, which are maps too, are among `other`; every use below asks for
    is_interval_container as well. -/
def isMap : Ty → Bool
  | .map .. => true
  | _ => false

/-- is_interval_map: type_traits/is_interval_container.hpp:23-30. -/
def isIntervalMap (t : Ty) : Bool := isIntervalContainer t && isMap t

/-- is_interval_set: type_traits/is_interval_container.hpp:32-40. -/
def isIntervalSet (t : Ty) : Bool := isIntervalContainer t && !isIntervalMap t

/-- is_interval: type_traits/is_interval.hpp:18-30, restricted to the interval templates. -/
def isInterval : Ty → Bool
  | .interval .. => true
  | _ => false

/-- segmentational_fineness: is_combinable.hpp:411-431, with the constants at interval_set.hpp:88,
    separate_interval_set.hpp:85, split_interval_set.hpp:84, interval_map.hpp:69,
    split_interval_map.hpp:63. -/
def fineness : Ty → Nat
  | .set .joining _ _ _ _ => 1
  | .set .separating _ _ _ _ => 2
  | .set .splitting _ _ _ _ => 3
  | .map false _ _ _ _ _ => 1
  | .map true _ _ _ _ _ => 3
  | _ => 0

/-! ## is_combinable.hpp -/

/-- is_key_compare_equal: is_combinable.hpp:45-53. -/
def isKeyCompareEqual (l r : Ty) : Bool := l.keyCompare == r.keyCompare

/-- is_codomain_equal: is_combinable.hpp:34-43. -/
def isCodomainEqual (l r : Ty) : Bool := l.codomainType == r.codomainType

/-- is_codomain_type_equal: is_combinable.hpp:55-63. -/
def isCodomainTypeEqual (l r : Ty) : Bool := isKeyCompareEqual l r && isCodomainEqual l r

/-- is_concept_compatible: is_combinable.hpp:66-79. -/
def isConceptCompatible (C : Ty → Bool) (l r : Ty) : Bool :=
  C l && C r && isCodomainTypeEqual l r

/-- is_concept_combinable: is_combinable.hpp:81-93. -/
def isConceptCombinable (C D : Ty → Bool) (l r : Ty) : Bool :=
  C l && D r && isKeyCompareEqual l r

/-- is_intra_combinable: is_combinable.hpp:95-106. -/
def isIntraCombinable (l r : Ty) : Bool :=
  isConceptCompatible isIntervalSet l r || isConceptCompatible isIntervalMap l r

/-- is_interval_set_derivative: is_combinable.hpp:184-206. -/
def isIntervalSetDerivative (t a : Ty) : Bool :=
  (t.domainType == some a || t.intervalType == some a) && isIntervalContainer t

/-- is_interval_map_derivative: is_combinable.hpp:211-240. -/
def isIntervalMapDerivative (t a : Ty) : Bool :=
  (t.domainMapping == some a || t.intervalMapping == some a || t.valueType == some a)
    && isIntervalContainer t

/-- is_intra_derivative: is_combinable.hpp:245-258. -/
def isIntraDerivative (t a : Ty) : Bool :=
  isIntervalSet t && isIntervalSetDerivative t a || isIntervalMap t && isIntervalMapDerivative t a

/-- is_cross_derivative: is_combinable.hpp:260-270. -/
def isCrossDerivative (t a : Ty) : Bool := isIntervalMap t && isIntervalSetDerivative t a

/-- is_interval_set_right_combinable: is_combinable.hpp:288-303. -/
def isIntervalSetRightCombinable (g c : Ty) : Bool :=
  isIntervalSet g && (isIntervalSetDerivative g c || isConceptCompatible isIntervalSet g c)

/-- is_interval_map_right_intra_combinable: is_combinable.hpp:305-320. -/
def isIntervalMapRightIntraCombinable (g c : Ty) : Bool :=
  isIntervalMap g && (isIntervalMapDerivative g c || isConceptCompatible isIntervalMap g c)

/-- is_interval_map_right_cross_combinable: is_combinable.hpp:322-337. -/
def isIntervalMapRightCrossCombinable (g c : Ty) : Bool :=
  isIntervalMap g &&
    (isCrossDerivative g c || isConceptCombinable isIntervalMap isIntervalSet g c)

/-- is_interval_map_right_inter_combinable: is_combinable.hpp:339-349. -/
def isIntervalMapRightInterCombinable (g c : Ty) : Bool :=
  isIntervalMapRightIntraCombinable g c || isIntervalMapRightCrossCombinable g c

/-- is_right_intra_combinable: is_combinable.hpp:352-363. -/
def isRightIntraCombinable (g c : Ty) : Bool :=
  isIntervalSetRightCombinable g c || isIntervalMapRightIntraCombinable g c

/-- is_right_inter_combinable: is_combinable.hpp:365-376. -/
def isRightInterCombinable (g c : Ty) : Bool :=
  isIntervalSetRightCombinable g c || isIntervalMapRightInterCombinable g c

/-- combines_right_to_interval_set: is_combinable.hpp:378-386. -/
def combinesRightToIntervalSet (g c : Ty) : Bool :=
  isConceptCombinable isIntervalContainer isIntervalSet g c

/-- combines_right_to_interval_map: is_combinable.hpp:388-394. -/
def combinesRightToIntervalMap (g c : Ty) : Bool := isConceptCompatible isIntervalMap g c

/-- is_interval_set_companion: is_combinable.hpp:440-450. -/
def isIntervalSetCompanion (g c : Ty) : Bool :=
  combinesRightToIntervalSet g c || isIntervalSetDerivative g c

/-- is_interval_map_companion: is_combinable.hpp:457-467. -/
def isIntervalMapCompanion (g c : Ty) : Bool :=
  combinesRightToIntervalMap g c || isIntervalMapDerivative g c

/-- is_coarser_interval_set_companion: is_combinable.hpp:473-485. -/
def isCoarserIntervalSetCompanion (g c : Ty) : Bool :=
  isIntervalSetCompanion g c && decide (fineness g > fineness c)

/-- is_coarser_interval_map_companion: is_combinable.hpp:487-499. -/
def isCoarserIntervalMapCompanion (g c : Ty) : Bool :=
  isIntervalMapCompanion g c && decide (fineness g > fineness c)

/-- is_binary_interval_set_combinable: is_combinable.hpp:504-512. -/
def isBinaryIntervalSetCombinable (g c : Ty) : Bool :=
  isIntervalSet g && isCoarserIntervalSetCompanion g c

/-- is_binary_interval_map_combinable: is_combinable.hpp:514-522. -/
def isBinaryIntervalMapCombinable (g c : Ty) : Bool :=
  isIntervalMap g && isCoarserIntervalMapCompanion g c

/-- is_binary_intra_combinable: is_combinable.hpp:524-533. -/
def isBinaryIntraCombinable (g c : Ty) : Bool :=
  isBinaryIntervalSetCombinable g c || isBinaryIntervalMapCombinable g c

/-- is_binary_cross_combinable: is_combinable.hpp:535-546. -/
def isBinaryCrossCombinable (g c : Ty) : Bool :=
  isIntervalMap g && (isCoarserIntervalMapCompanion g c || isIntervalSetCompanion g c)

/-- is_binary_inter_combinable: is_combinable.hpp:548-562. -/
def isBinaryInterCombinable (g c : Ty) : Bool :=
  isIntervalMap g && isBinaryCrossCombinable g c || isIntervalSet g && isBinaryIntraCombinable g c

/-! ## Arguments, parameters and deduction -/

/-- What an argument expression is: a modifiable or a const object with a name, or a temporary,
    modifiable or const. -/
inductive Cat
  | lvalue | constLvalue | rvalue | constRvalue
  deriving DecidableEq, Repr

/-- An argument expression: its type without const, and its category. -/
structure Arg where
  ty : Ty
  cat : Cat
  deriving DecidableEq, Repr

/-- The forms of parameters the operators have: `const T&`, `T&&`, `T&` and `T`, with `T` a template
    parameter. -/
inductive Par
  | constRef | forwarding | ref | value
  deriving DecidableEq, Repr

/-- What a template parameter was deduced as. -/
inductive Qual
  | plain | reference | constReference | const
  deriving DecidableEq, Repr

/-- A deduced template argument. -/
structure Deduced where
  ty : Ty
  qual : Qual
  deriving DecidableEq, Repr

/-- Template argument deduction, C++ standard [temp.deduct.call]: `const T&` and `T` give the bare
    type; a forwarding reference gives a reference type for arguments with a name; `T&` keeps const
    and does not take modifiable temporaries. -/
def deduce : Par → Arg → Option Deduced
  | .constRef, a => some ⟨a.ty, .plain⟩
  | .value, a => some ⟨a.ty, .plain⟩
  | .forwarding, a =>
    match a.cat with
    | .lvalue => some ⟨a.ty, .reference⟩
    | .constLvalue => some ⟨a.ty, .constReference⟩
    | .rvalue => some ⟨a.ty, .plain⟩
    | .constRvalue => some ⟨a.ty, .const⟩
  | .ref, a =>
    match a.cat with
    | .lvalue => some ⟨a.ty, .plain⟩
    | .constLvalue => some ⟨a.ty, .const⟩
    | .rvalue => none
    | .constRvalue => some ⟨a.ty, .const⟩

/-- How well a parameter takes an argument, C++ standard [over.ics.rank]: binding an rvalue
    reference to a temporary is better than binding a const reference; all else is alike.
    Simplification: a forwarding reference bound to an object with a name is also an exact match;
    it is given the same rank as the others, which can only make a choice harder. -/
def rank : Par → Cat → Nat
  | .forwarding, .rvalue => 1
  | .forwarding, .constRvalue => 1
  | _, _ => 0

/-! ## Candidates -/

/-- One of the operator templates.
    * `left`, `right`: its parameters;
    * `same`: both are of the same template parameter `Type`, and `enabled` is asked about it twice;
      otherwise one is of `Type` and the other of `OperandT`;
    * `objectLeft`: the object that is returned, of type `Type`, is the left one;
    * `enabled`: the condition of `enable_if` on `Type` and `OperandT`. -/
structure Cand where
  left : Par
  right : Par
  same : Bool
  objectLeft : Bool
  enabled : Ty → Ty → Bool

/-- Is the candidate viable for the arguments?  Deduction must succeed, must agree where one template
    parameter is used twice, and the condition must hold.  The traits are specialised for bare
    container types only, so a `Type` deduced as a reference or a const type satisfies none of the
    conditions (is_interval_container.hpp:17-21). -/
def Cand.viable (c : Cand) (l r : Arg) : Bool :=
  match deduce c.left l, deduce c.right r with
  | some dl, some dr =>
    (!c.same || dl == dr) &&
    (if c.objectLeft then dl.qual == .plain && c.enabled dl.ty dr.ty
     else dr.qual == .plain && c.enabled dr.ty dl.ty)
  | _, _ => false

/-- C++ standard [over.match.best]: `c` is a better function than `d` when it takes no argument worse
    and one argument better. -/
def Cand.better (c d : Cand) (l r : Arg) : Bool :=
  decide (rank d.left l.cat ≤ rank c.left l.cat) && decide (rank d.right r.cat ≤ rank c.right r.cat)
    && (decide (rank d.left l.cat < rank c.left l.cat)
        || decide (rank d.right r.cat < rank c.right r.cat))

/-- The outcome of overload resolution: the call does not compile because no function takes the
    arguments or because several do and none is best, or it means a function that returns the type
    `ty` and works on the left or on the right argument. -/
inductive Outcome
  | noMatch
  | ambiguous
  | result (ty : Ty) (objectLeft : Bool)
  deriving DecidableEq, Repr

/-- The type a candidate returns: that of its object. -/
def Cand.resultType (c : Cand) (l r : Arg) : Ty := if c.objectLeft then l.ty else r.ty

/-- All ways of taking one element out of a list. -/
def picks {α : Type} : List α → List (α × List α)
  | [] => []
  | a :: as => (a, as) :: (picks as).map (fun p => (p.1, a :: p.2))

/-- Overload resolution: the viable candidate that is better than every other viable one. -/
def resolve (cands : List Cand) (l r : Arg) : Outcome :=
  let vs := cands.filter (fun c => c.viable l r)
  match vs with
  | [] => .noMatch
  | _ =>
    match (picks vs).find? (fun p => p.2.all (fun d => p.1.better d l r)) with
    | some p => .result (p.1.resultType l r) p.1.objectLeft
    | none => .ambiguous

/-- The operators. -/
inductive Op
  | addAssign | orAssign | subAssign | andAssign | xorAssign
  | add | or | sub | and | xor
  deriving DecidableEq, Repr

/-- A compound assignment `T& operator op= (T& object, const OperandT& operand)`. -/
def assign (enabled : Ty → Ty → Bool) : Cand := ⟨.ref, .constRef, false, true, enabled⟩

/-- The eight or three templates of a commutative infix operator, e.g. for `+`
    concept/interval_associator.hpp:331-397 with operands of two types and 399-444 with operands of
    one type.  `modern` tells compilers with rvalue references from those without.
    Simplification: without rvalue references the left parameter of `^` for operands of one type is
    declared as `typename Type::overloadable_type`, which is `Type` again (interval_set.hpp:38). -/
def infixCands (modern : Bool) (enabled : Ty → Ty → Bool) : List Cand :=
  let one := fun t _ => isIntervalContainer t
  if modern then
    [⟨.constRef, .constRef, false, true, enabled⟩,
     ⟨.forwarding, .constRef, false, true, enabled⟩,
     ⟨.constRef, .constRef, false, false, enabled⟩,
     ⟨.constRef, .forwarding, false, false, enabled⟩,
     ⟨.constRef, .constRef, true, true, one⟩,
     ⟨.forwarding, .constRef, true, true, one⟩,
     ⟨.constRef, .forwarding, true, false, one⟩,
     ⟨.forwarding, .forwarding, true, true, one⟩]
  else
    [⟨.value, .constRef, false, true, enabled⟩,
     ⟨.constRef, .value, false, false, enabled⟩,
     ⟨.value, .constRef, true, true, one⟩]

/-- The candidates of each operator.
    `+=` concept/interval_associator.hpp:299-327, `|=` 472-480, `-=` 667-710, `&=` 768-776,
    `^=` 996-1014; `+` 331-444, `|` 483-595, `-` 713-741, `&` 779-883 and for intervals
    concept/interval.hpp:1266-1317, `^` 1016-1120. -/
def candidates (modern : Bool) : Op → List Cand
  | .addAssign => [assign isIntraDerivative, assign isIntraCombinable]
  | .orAssign => [assign isRightIntraCombinable]
  | .subAssign =>
    [assign (isConceptCompatible isIntervalMap), assign isIntraDerivative,
     assign isCrossDerivative, assign combinesRightToIntervalSet]
  | .andAssign => [assign isRightInterCombinable]
  | .xorAssign => [assign isIntraCombinable, assign isIntraDerivative]
  | .add => infixCands modern isBinaryIntraCombinable
  | .or => infixCands modern isBinaryIntraCombinable
  | .sub =>
    if modern then
      [⟨.constRef, .constRef, false, true, isRightInterCombinable⟩,
       ⟨.forwarding, .constRef, false, true, isRightInterCombinable⟩]
    else [⟨.value, .constRef, false, true, isRightInterCombinable⟩]
  | .and =>
    infixCands modern isBinaryInterCombinable
      ++ [⟨.value, .constRef, true, true, fun t _ => isInterval t⟩]
  | .xor => infixCands modern isBinaryIntraCombinable

/-- What the call `l op r` means. -/
def call (modern : Bool) (op : Op) (l r : Arg) : Outcome := resolve (candidates modern op) l r

/-! ## Functions -/

/-- is_total: type_traits/is_total.hpp:14-18, with the specialisations for interval maps. -/
def isTotal : Ty → Bool
  | .map _ _ _ _ _ o => o.total
  | _ => false

/-- `segment_type`: interval_base_set.hpp:79, interval_base_map.hpp:102. -/
def Ty.segmentType : Ty → Option Ty
  | .set _ c d k _ => some (.interval c d k)
  | .map _ c d k v _ => some (.pair false (.interval c d k) v)
  | _ => none

/-- `element_type`: interval_base_set.hpp:74, interval_base_map.hpp:96. -/
def Ty.elementType : Ty → Option Ty
  | .set _ _ d _ _ => some d
  | .map _ _ d _ v _ => some (.mapping d v)
  | _ => none

/-- Does an argument of type `a` fit a parameter declared as `const p&` with `p` a member type of the
    other argument?  Such a parameter is not deduced, so implicit conversions apply; of them the one
    from a pair with a const first component to one without is modelled, since that is what
    dereferencing an iterator of an interval map gives. -/
def fits (p : Option Ty) (a : Ty) : Bool :=
  match p, a with
  | some (.pair false k v), .pair true k' v' => k == k' && v == v'
  | some t, a => t == a
  | none, _ => false

/-- is_cross_combinable: is_combinable.hpp:111-121. -/
def isCrossCombinable (l r : Ty) : Bool :=
  isConceptCombinable isIntervalSet isIntervalMap l r
    || isConceptCombinable isIntervalMap isIntervalSet l r

/-- is_inter_combinable: is_combinable.hpp:123-131. -/
def isInterCombinable (l r : Ty) : Bool := isIntraCombinable l r || isCrossCombinable l r

/-- is_inter_derivative: is_combinable.hpp:272-282. -/
def isInterDerivative (t a : Ty) : Bool := isIntraDerivative t a || isCrossDerivative t a

/-- combines_right_to_interval_container: is_combinable.hpp:396-405. -/
def combinesRightToIntervalContainer (g c : Ty) : Bool :=
  combinesRightToIntervalSet g c || combinesRightToIntervalMap g c

/-- The functions with overload tables, apart from the operators.  `elementCompare` stands for
    is_element_equal, is_element_less and is_element_greater, whose conditions are the same. -/
inductive Fn
  | insert | erase | contains | within | intersects | disjoint | elementCompare
  deriving DecidableEq, Repr

/-- The conditions of the candidates of each function with two arguments, on the types of the
    container and of the other argument.  All candidates take their arguments in the same way, so
    none is better than another.  Simplification: the candidates for element containers and for
    intervals as first argument are left out, their conditions fail for interval containers; so are
    the candidates with hints, which take three arguments.
    * insert: concept/interval_set.hpp:99-112, concept/interval_map.hpp:176-189,
      concept/interval_associator.hpp:603-612;
    * erase: concept/interval_set.hpp:151-164, concept/interval_map.hpp:208-239,
      concept/interval_associator.hpp:620-638;
    * contains: concept/interval_set.hpp:26-60, concept/interval_map.hpp:41-137;
    * within: concept/interval_associator.hpp:30-35, for any type of the part;
    * intersects: concept/interval_associator.hpp:890-964, concept/interval_map.hpp:429-459;
    * disjoint: concept/interval_associator.hpp:970-987;
    * is_element_equal, _less, _greater: concept/interval_associator.hpp:57-85. -/
def fnConditions : Fn → List (Ty → Ty → Bool)
  | .insert =>
    [fun t a => isIntervalSet t && fits t.segmentType a,
     fun t a => isIntervalSet t && fits t.elementType a,
     fun t a => isIntervalMap t && fits t.segmentType a,
     fun t a => isIntervalMap t && fits t.elementType a,
     isIntraCombinable]
  | .erase =>
    [fun t a => isIntervalSet t && fits t.segmentType a,
     fun t a => isIntervalSet t && fits t.elementType a,
     fun t a => isIntervalMap t && fits t.intervalType a,
     fun t a => isIntervalMap t && fits t.domainType a,
     fun t a => isIntervalMap t && fits t.segmentType a,
     fun t a => isIntervalMap t && fits t.elementType a,
     combinesRightToIntervalContainer]
  | .contains =>
    [fun t a => isIntervalSet t && fits t.elementType a,
     fun t a => isIntervalSet t && fits t.segmentType a,
     fun t a => isIntervalSet t && isIntervalSet a,
     fun t a => isIntervalMap t && fits t.elementType a,
     fun t a => isIntervalMap t && fits t.segmentType a,
     fun t a => isConceptCompatible isIntervalMap t a,
     fun t a => isIntervalMap t && isTotal t && isCrossDerivative t a,
     fun t a => isIntervalMap t && !isTotal t && fits t.domainType a,
     fun t a => isIntervalMap t && !isTotal t && fits t.intervalType a,
     fun t a => isConceptCombinable isIntervalMap isIntervalSet t a && !isTotal t]
  | .within => [fun t _ => isIntervalContainer t]
  | .intersects =>
    [fun t a => isIntervalContainer t && some a == t.domainType,
     fun t a => isIntervalContainer t && some a == t.intervalType,
     fun t a => isIntraCombinable t a && (isTotal t || isTotal a),
     fun t a => isIntraCombinable t a && !(isTotal t || isTotal a),
     isCrossCombinable,
     fun t a => isIntervalMap t && isTotal t && some a == t.segmentType,
     fun t a => isIntervalMap t && !isTotal t && some a == t.segmentType,
     fun t a => isIntervalMap t && some a == t.elementType]
  | .disjoint => [isInterCombinable, isInterDerivative]
  | .elementCompare => [isIntraCombinable]

/-- What becomes of a call of a function. -/
inductive FnOutcome
  | noMatch | ambiguous | brokenBody | compiles
  deriving DecidableEq, Repr

/-- Does exactly one candidate take the call? -/
def select (fn : Fn) (t a : Ty) : FnOutcome :=
  match (fnConditions fn).filter (fun f => f t a) with
  | [] => .noMatch
  | [_] => .compiles
  | _ => .ambiguous

/-- The call of a function on a container of type `t` and another argument of type `a`; for `within`
    the container is the second argument.  The bodies of `within` and `disjoint` call `contains` and
    `intersects`, which must compile in turn: concept/interval_associator.hpp:34, 974, 986.
    Simplification: the other bodies are taken to compile. -/
def callFn (fn : Fn) (t a : Ty) : FnOutcome :=
  match select fn t a with
  | .compiles =>
    match fn with
    | .within => if select .contains t a = .compiles then .compiles else .brokenBody
    | .disjoint => if select .intersects t a = .compiles then .compiles else .brokenBody
    | _ => .compiles
  | out => out

end Overload
end ICL
