import Verif.Theory.MapSets
import Mathlib.Data.Finset.SymmDiff

/-!
# The algebra of the values of a key of a partial map of sets
-/

set_option linter.unusedSectionVars false
set_option linter.unusedVariables false
set_option linter.unusedSimpArgs false

namespace ICL
open Spec IMap

variable {α : Type} [DecidableEq α] {joining absorbs : Bool}

/-- Partial maps of sets -/
abbrev Coll (α : Type) [DecidableEq α] (joining absorbs : Bool) : MapType (Finset α) :=
  .collector joining absorbs false

/-- Finite sets are sets. -/
theorem coll_sets : SetValues (Coll α joining absorbs) (fun e (u : Finset α) => e ∈ u) where
  ext u v he := Finset.ext he
  ident e := Finset.notMem_empty e
  plus u v e := Finset.mem_union
  minus u v e := Finset.mem_sdiff
  sect u v e := Finset.mem_inter
  unsect u v e := Finset.mem_symmDiff
  plus_version v := rfl
  sect_version v := rfl
  setLike := rfl
  invertible := rfl

theorem coll_flip {a b : Option (Finset α)} (h1 : Norm (Coll α joining absorbs) a)
    (h2 : Norm (Coll α joining absorbs) b) : pFlip (Coll α joining absorbs) a b =
      match a, b with
      | a, none => a
      | none, b => b
      | some u, some v => keep (Coll α joining absorbs).cfg (symmDiff u v) := by
  rw [sets_flip coll_sets rfl h1 h2]
  cases a <;> cases b <;> rfl

/-! ### The pairs a key stands for -/

/-- The element `e` is in the set of the key. -/
def Has (a : Option (Finset α)) (e : α) : Prop := ∃ u, a = some u ∧ e ∈ u

theorem has_none (e : α) : Has none e ↔ False := by simp [Has]
theorem has_some (u : Finset α) (e : α) : Has (some u) e ↔ e ∈ u := by simp [Has]

section
variable {a b : Option (Finset α)}

theorem coll_ext (h1 : Norm (Coll α joining absorbs) a) (h2 : Norm (Coll α joining absorbs) b)
    (h : ∀ e, Has a e ↔ Has b e) (hs : absorbs = false → (a.isSome ↔ b.isSome)) : a = b :=
  sets_ext coll_sets h1 h2 h hs

theorem has_add (e : α) : Has (pAdd (Coll α joining absorbs) a b) e ↔ Has a e ∨ Has b e := hasE_add coll_sets e

theorem has_sub (h2 : Norm (Coll α joining absorbs) b) (e : α) :
    Has (pSub (Coll α joining absorbs) a b) e ↔ Has a e ∧ ¬ Has b e := hasE_sub coll_sets rfl h2 e

theorem has_inter (h1 : Norm (Coll α joining absorbs) a) (h2 : Norm (Coll α joining absorbs) b) (e : α) :
    Has (pInter (Coll α joining absorbs) a b) e ↔ Has a e ∧ Has b e := hasE_inter coll_sets rfl h1 h2 e

theorem has_flip (h1 : Norm (Coll α joining absorbs) a) (h2 : Norm (Coll α joining absorbs) b) (e : α) :
    Has (pFlip (Coll α joining absorbs) a b) e ↔ (Has a e ∧ ¬ Has b e) ∨ (Has b e ∧ ¬ Has a e) :=
  hasE_flip coll_sets rfl h1 h2 e

end

/-! ### The laws -/

section
variable (hV : Versions (Coll α joining absorbs))
  {a b c : Option (Finset α)} (h1 : Norm (Coll α joining absorbs) a) (h2 : Norm (Coll α joining absorbs) b)
  (h3 : Norm (Coll α joining absorbs) c)
include hV h1 h2

local notation "T" => Coll α joining absorbs

theorem coll_inter_comm : pInter T a b = pInter T b a := sets_inter_comm coll_sets rfl h1 h2
theorem coll_flip_comm : pFlip T a b = pFlip T b a := sets_flip_comm coll_sets rfl h1 h2
theorem coll_symm : pSub T (pAdd T a b) (pInter T a b) = pAdd T (pSub T a b) (pSub T b a) :=
  sets_symm coll_sets rfl h1 h2
theorem coll_flip_eq : pFlip T a b = pSub T (pAdd T a b) (pInter T a b) := sets_flip_eq coll_sets rfl h1 h2

include h3
theorem coll_inter_assoc : pInter T a (pInter T b c) = pInter T (pInter T a b) c :=
  sets_inter_assoc coll_sets rfl h1 h2 h3
theorem coll_add_inter : pAdd T a (pInter T b c) = pInter T (pAdd T a b) (pAdd T a c) :=
  sets_add_inter coll_sets rfl h1 h2 h3
theorem coll_inter_add : pInter T a (pAdd T b c) = pAdd T (pInter T a b) (pInter T a c) :=
  sets_inter_add coll_sets rfl h1 h2 h3
theorem coll_add_sub : pSub T (pAdd T a b) c = pAdd T (pSub T a c) (pSub T b c) := sets_add_sub coll_sets rfl h1 h2 h3
theorem coll_inter_sub : pSub T (pInter T a b) c = pInter T (pSub T a c) (pSub T b c) :=
  sets_inter_sub coll_sets rfl h1 h2 h3
theorem coll_sub_add : pSub T a (pAdd T b c) = pInter T (pSub T a b) (pSub T a c) := sets_sub_add coll_sets rfl h1 h2 h3
theorem coll_sub_inter : pSub T a (pInter T b c) = pAdd T (pSub T a b) (pSub T a c) :=
  sets_sub_inter coll_sets rfl h1 h2 h3

end

end ICL
