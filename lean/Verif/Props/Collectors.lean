import Verif.Theory.MapColl
import Verif.Props.SetMaps

/-!
# C37: partial maps of sets ("collectors") behave like sets of pairs

`==`, `=e=` and `=d=` and the values the laws range over are those of C27.
-/

set_option linter.unusedSectionVars false
set_option linter.unusedVariables false

namespace ICL.Props
open Spec

variable {D I α : Type} [LinearOrder D] {o : IntervalOps D I} [DecidableEq I] [DecidableEq α]
  {joining absorbs : Bool} {oracle : List (I × Finset α) → I → Nat} {A B C : MapExpr I (Finset α)}

/-- The pair `(x, e)` is in the set of pairs that the map `m` stands for. -/
def HasPair (o : IntervalOps D I) (m : List (I × Finset α)) (x : D) (e : α) : Prop := ∃ u, Assoc o m x u ∧ e ∈ u

theorem hasPair_iff {m : List (I × Finset α)} (hm : WF o mapSeg m) (x : D) (e : α) :
    HasPair o m x e ↔ Has (valueAt o m x) e := by
  unfold HasPair Has
  simp only [← valueAt_assoc (mapWellFormed_iff.2 hm)]

theorem collN : Neutral (Coll α joining absorbs) := collector_neutral joining absorbs false
theorem collV : Versions (Coll α joining absorbs) := collN.toVersions
theorem collM : CommMonoidValues (Coll α joining absorbs) := collector_comm joining absorbs false
theorem collA (p q : Option (Finset α)) (h1 : Norm (Coll α joining absorbs) p) (h2 : Norm (Coll α joining absorbs) q) :
    pAdd (Coll α joining absorbs) p q = pAdd (Coll α joining absorbs) q p := add_comm' collM collV p q h1 h2
theorem collI (p q : Option (Finset α)) (h1 : Norm (Coll α joining absorbs) p) (h2 : Norm (Coll α joining absorbs) q) :
    pInter (Coll α joining absorbs) p q = pInter (Coll α joining absorbs) q p := coll_inter_comm collV h1 h2

section
variable (h : IntervalClass o)
include h

/-! ## Sets of pairs -/

/-- The operators on the maps are the operators on the sets of pairs. -/
theorem C37_pairs (hA : A.Leaves (MapValue o (Coll α joining absorbs)))
    (hB : B.Leaves (MapValue o (Coll α joining absorbs))) {a b : List (I × Finset α)}
    (e1 : A.eval o (Coll α joining absorbs) oracle = some a) (e2 : B.eval o (Coll α joining absorbs) oracle = some b) :
    (∃ m, (A + B).eval o (Coll α joining absorbs) oracle = some m ∧
      ∀ x e, HasPair o m x e ↔ HasPair o a x e ∨ HasPair o b x e) ∧
    (∃ m, (A - B).eval o (Coll α joining absorbs) oracle = some m ∧
      ∀ x e, HasPair o m x e ↔ HasPair o a x e ∧ ¬ HasPair o b x e) ∧
    (∃ m, (A &&& B).eval o (Coll α joining absorbs) oracle = some m ∧
      ∀ x e, HasPair o m x e ↔ HasPair o a x e ∧ HasPair o b x e) ∧
    (∃ m, (A ^^^ B).eval o (Coll α joining absorbs) oracle = some m ∧
      ∀ x e, HasPair o m x e ↔ (HasPair o a x e ∧ ¬ HasPair o b x e) ∨ (HasPair o b x e ∧ ¬ HasPair o a x e)) :=
  C60_pairs h coll_sets rfl hA hB e1 e2

/-- Absorbers stand for the same set of pairs iff they are `=e=`. -/
theorem C37_pairs_elem {a b : List (I × Finset α)} (ha : MapValue o (Coll α joining true) a)
    (hb : MapValue o (Coll α joining true) b) (he : ∀ x e, HasPair o a x e ↔ HasPair o b x e) (x : D) (u : Finset α) :
    Assoc o a x u ↔ Assoc o b x u :=
  C60_pairs_elem h coll_sets rfl rfl ha hb he x u

/-! ## Union, intersection and difference -/

/-- `a + (b + c) == (a + b) + c` -/
theorem C37_add_assoc (hA : A.Leaves (MapValue o (Coll α joining absorbs)))
    (hB : B.Leaves (MapValue o (Coll α joining absorbs))) (hC : C.Leaves (MapValue o (Coll α joining absorbs))) :
    MapLexEq o (Coll α joining absorbs) oracle (A + (B + C)) ((A + B) + C) :=
  C60_add_assoc h coll_sets rfl hA hB hC

/-- `a + C() == a` and `C() + a == a` -/
theorem C37_add_neutral (hA : A.Leaves (MapValue o (Coll α joining absorbs))) : MapLexEq o (Coll α joining absorbs) oracle (A + ∅) A ∧
    MapLexEq o (Coll α joining absorbs) oracle (∅ + A) A :=
  C60_add_neutral h coll_sets rfl hA

/-- `a + b == b + a` -/
theorem C37_add_comm (hA : A.Leaves (MapValue o (Coll α joining absorbs)))
    (hB : B.Leaves (MapValue o (Coll α joining absorbs))) :
    MapLexEq o (Coll α joining absorbs) oracle (A + B) (B + A) :=
  C60_add_comm h coll_sets rfl hA hB

/-- `a & b == b & a` -/
theorem C37_inter_comm (hA : A.Leaves (MapValue o (Coll α joining absorbs)))
    (hB : B.Leaves (MapValue o (Coll α joining absorbs))) :
    MapLexEq o (Coll α joining absorbs) oracle (A &&& B) (B &&& A) :=
  C60_inter_comm h coll_sets rfl hA hB

/-- `a & (b & c) == (a & b) & c` -/
theorem C37_inter_assoc (hA : A.Leaves (MapValue o (Coll α joining absorbs)))
    (hB : B.Leaves (MapValue o (Coll α joining absorbs))) (hC : C.Leaves (MapValue o (Coll α joining absorbs))) :
    MapLexEq o (Coll α joining absorbs) oracle (A &&& (B &&& C)) ((A &&& B) &&& C) :=
  C60_inter_assoc h coll_sets rfl hA hB hC

/-- `a - C() == a` -/
theorem C37_sub_neutral (hA : A.Leaves (MapValue o (Coll α joining absorbs))) : MapLexEq o (Coll α joining absorbs) oracle (A - ∅) A :=
  C60_sub_neutral h coll_sets rfl hA

/-- `a - a == C()` for absorbers, `a - a =d= C()` for all -/
theorem C37_sub_self (hA : A.Leaves (MapValue o (Coll α joining absorbs))) : (absorbs = true → MapLexEq o (Coll α joining absorbs) oracle (A - A) ∅) ∧
    MapDistEq o (Coll α joining absorbs) oracle (A - A) ∅ :=
  C60_sub_self h coll_sets rfl hA

/-! ## Distributivity -/

/-- `a + (b & c) =e= (a + b) & (a + c)`, and `==` if the map joins. -/
theorem C37_add_inter (hA : A.Leaves (MapValue o (Coll α joining absorbs)))
    (hB : B.Leaves (MapValue o (Coll α joining absorbs))) (hC : C.Leaves (MapValue o (Coll α joining absorbs))) :
    MapElemEq o (Coll α joining absorbs) oracle (A + (B &&& C)) ((A + B) &&& (A + C)) ∧
    (joining = true → MapLexEq o (Coll α joining absorbs) oracle (A + (B &&& C)) ((A + B) &&& (A + C))) :=
  C60_add_inter h coll_sets rfl hA hB hC

/-- `a & (b + c) =e= (a & b) + (a & c)`, and `==` if the map joins or is an enricher. -/
theorem C37_inter_add (hA : A.Leaves (MapValue o (Coll α joining absorbs)))
    (hB : B.Leaves (MapValue o (Coll α joining absorbs))) (hC : C.Leaves (MapValue o (Coll α joining absorbs))) :
    MapElemEq o (Coll α joining absorbs) oracle (A &&& (B + C)) ((A &&& B) + (A &&& C)) ∧
    (joining = true ∨ absorbs = false →
      MapLexEq o (Coll α joining absorbs) oracle (A &&& (B + C)) ((A &&& B) + (A &&& C))) :=
  C60_inter_add h coll_sets rfl hA hB hC

/-- `(a + b) - c =e= (a - c) + (b - c)`, and `==` if the map joins. -/
theorem C37_add_sub (hA : A.Leaves (MapValue o (Coll α joining absorbs)))
    (hB : B.Leaves (MapValue o (Coll α joining absorbs))) (hC : C.Leaves (MapValue o (Coll α joining absorbs))) :
    MapElemEq o (Coll α joining absorbs) oracle ((A + B) - C) ((A - C) + (B - C)) ∧
    (joining = true → MapLexEq o (Coll α joining absorbs) oracle ((A + B) - C) ((A - C) + (B - C))) :=
  C60_add_sub h coll_sets rfl hA hB hC

/-- `(a & b) - c == (a - c) & (b - c)` -/
theorem C37_inter_sub (hA : A.Leaves (MapValue o (Coll α joining absorbs)))
    (hB : B.Leaves (MapValue o (Coll α joining absorbs))) (hC : C.Leaves (MapValue o (Coll α joining absorbs))) :
    MapLexEq o (Coll α joining absorbs) oracle ((A &&& B) - C) ((A - C) &&& (B - C)) :=
  C60_inter_sub h coll_sets rfl hA hB hC

/-! ## De Morgan's laws and the symmetric difference -/

/-- `a - (b + c) == (a - b) & (a - c)` -/
theorem C37_sub_add (hA : A.Leaves (MapValue o (Coll α joining absorbs)))
    (hB : B.Leaves (MapValue o (Coll α joining absorbs))) (hC : C.Leaves (MapValue o (Coll α joining absorbs))) :
    MapLexEq o (Coll α joining absorbs) oracle (A - (B + C)) ((A - B) &&& (A - C)) :=
  C60_sub_add h coll_sets rfl hA hB hC

/-- `a - (b & c) =e= (a - b) + (a - c)`, and `==` if the map joins. -/
theorem C37_sub_inter (hA : A.Leaves (MapValue o (Coll α joining absorbs)))
    (hB : B.Leaves (MapValue o (Coll α joining absorbs))) (hC : C.Leaves (MapValue o (Coll α joining absorbs))) :
    MapElemEq o (Coll α joining absorbs) oracle (A - (B &&& C)) ((A - B) + (A - C)) ∧
    (joining = true → MapLexEq o (Coll α joining absorbs) oracle (A - (B &&& C)) ((A - B) + (A - C))) :=
  C60_sub_inter h coll_sets rfl hA hB hC

/-- `(a + b) - (a & b) == (a - b) + (b - a)` -/
theorem C37_symmetric_difference (hA : A.Leaves (MapValue o (Coll α joining absorbs)))
    (hB : B.Leaves (MapValue o (Coll α joining absorbs))) :
    MapLexEq o (Coll α joining absorbs) oracle ((A + B) - (A &&& B)) ((A - B) + (B - A)) :=
  C60_symmetric_difference h coll_sets rfl hA hB

/-- `a ^ b =e= (a + b) - (a & b)`, and `==` if the map joins. -/
theorem C37_flip (hA : A.Leaves (MapValue o (Coll α joining absorbs)))
    (hB : B.Leaves (MapValue o (Coll α joining absorbs))) :
    MapElemEq o (Coll α joining absorbs) oracle (A ^^^ B) ((A + B) - (A &&& B)) ∧
    (joining = true → MapLexEq o (Coll α joining absorbs) oracle (A ^^^ B) ((A + B) - (A &&& B))) :=
  C60_flip h coll_sets rfl hA hB

end

/-! ## What does not hold -/

/-- In splitting absorbers `a & (b + c) == (a & b) + (a & c)` does not hold: the border in `c` is lost where `a & c`
has no values. -/
theorem C37_counterexample_inter_add :
    (obj [(Ex.r 0 4, ({1} : Finset ℤ))] &&& (obj [(Ex.r 0 4, {1})] + obj [(Ex.r 0 2, {2}), (Ex.r 2 4, {2})])).eval
      Ex.ro (.collector false true false) (fun _ _ => 0) = some [(Ex.r 0 2, {1}), (Ex.r 2 4, {1})] ∧
    ((obj [(Ex.r 0 4, ({1} : Finset ℤ))] &&& obj [(Ex.r 0 4, {1})]) +
      (obj [(Ex.r 0 4, {1})] &&& obj [(Ex.r 0 2, {2}), (Ex.r 2 4, {2})])).eval
      Ex.ro (.collector false true false) (fun _ _ => 0) = some [(Ex.r 0 4, {1})] := by
  decide

/-- In enrichers `a - a == C()` does not hold. -/
theorem C37_counterexample_sub_self :
    (obj [(Ex.r 0 4, ({1} : Finset ℤ))] - obj [(Ex.r 0 4, {1})]).eval
      Ex.ro (.collector true false false) (fun _ _ => 0) = some [(Ex.r 0 4, ∅)] := by
  decide

/-! ## Examples: the hypotheses of the laws can be met -/

section
variable (j ab : Bool) (oracle : List (SItv ℤ × Finset ℤ) → SItv ℤ → Nat)

abbrev exKA : MapExpr (SItv ℤ) (Finset ℤ) := obj [(Ex.r 0 4, {1}), (Ex.r 4 9, {1, 2})]
abbrev exKB : MapExpr (SItv ℤ) (Finset ℤ) := .leaf true [(Ex.r 2 5, {2, 3})]
abbrev exKC : MapExpr (SItv ℤ) (Finset ℤ) := obj [(Ex.r 3 7, {1})]

theorem ex_kleaves (j ab : Bool) : exKA.Leaves (MapValue Ex.ro (Coll ℤ j ab)) ∧
    exKB.Leaves (MapValue Ex.ro (Coll ℤ j ab)) ∧ exKC.Leaves (MapValue Ex.ro (Coll ℤ j ab)) :=
  ex_collValue j ab false

example : MapLexEq Ex.ro (Coll ℤ j ab) oracle (exKA + (exKB + exKC)) ((exKA + exKB) + exKC) ∧
    MapLexEq Ex.ro (Coll ℤ j ab) oracle (exKA &&& (exKB &&& exKC)) ((exKA &&& exKB) &&& exKC) ∧
    MapLexEq Ex.ro (Coll ℤ true ab) oracle (exKA + (exKB &&& exKC)) ((exKA + exKB) &&& (exKA + exKC)) ∧
    MapLexEq Ex.ro (Coll ℤ j false) oracle (exKA &&& (exKB + exKC)) ((exKA &&& exKB) + (exKA &&& exKC)) ∧
    MapLexEq Ex.ro (Coll ℤ j ab) oracle (exKA - (exKB + exKC)) ((exKA - exKB) &&& (exKA - exKC)) ∧
    MapLexEq Ex.ro (Coll ℤ true ab) oracle (exKA ^^^ exKB) ((exKA + exKB) - (exKA &&& exKB)) :=
  have v := ex_kleaves
  ⟨C37_add_assoc Ex.ro_cls (v ..).1 (v ..).2.1 (v ..).2.2, C37_inter_assoc Ex.ro_cls (v ..).1 (v ..).2.1 (v ..).2.2,
    (C37_add_inter Ex.ro_cls (v ..).1 (v ..).2.1 (v ..).2.2).2 rfl,
    (C37_inter_add Ex.ro_cls (v ..).1 (v ..).2.1 (v ..).2.2).2 (Or.inr rfl),
    C37_sub_add Ex.ro_cls (v ..).1 (v ..).2.1 (v ..).2.2, (C37_flip Ex.ro_cls (v ..).1 (v ..).2.1).2 rfl⟩

/-- The hypotheses of `C37_pairs`: the leaves are maps and both operands have a value. -/
example : exKA.Leaves (MapValue Ex.ro (Coll ℤ true true)) ∧
    exKA.eval Ex.ro (Coll ℤ true true) (fun _ _ => 0) = some [(Ex.r 0 4, {1}), (Ex.r 4 9, {1, 2})] ∧
    (exKA ^^^ exKB).eval Ex.ro (Coll ℤ true true) (fun _ _ => 0) =
      some [(Ex.r 0 2, {1}), (Ex.r 2 4, {1, 2, 3}), (Ex.r 4 5, {1, 3}), (Ex.r 5 9, {1, 2})] ∧
    (exKA - exKC).eval Ex.ro (Coll ℤ true true) (fun _ _ => 0) =
      some [(Ex.r 0 3, {1}), (Ex.r 4 7, {2}), (Ex.r 7 9, {1, 2})] :=
  ⟨(ex_kleaves true true).1, by decide, by decide, by decide⟩

end

end ICL.Props
