import Verif.MapSpec

/-!
# Specification vocabulary for maps whose values are sets
-/

namespace ICL.Spec

variable {V α : Type}

/-- The associated values of the map type `t` are sets: `mem e v` says which elements a value has, values with the same
elements are equal, and the functors of the map act as the operations of sets. -/
structure SetValues (t : MapType V) (mem : α → V → Prop) : Prop where
  ext : ∀ u v, (∀ e, mem e u ↔ mem e v) → u = v
  ident : ∀ e, ¬ mem e t.cfg.ident
  plus : ∀ u v e, mem e (t.plus.apply u v) ↔ mem e u ∨ mem e v
  minus : ∀ u v e, mem e (t.minus.apply u v) ↔ mem e u ∧ ¬ mem e v
  sect : ∀ u v e, mem e (t.sect.apply u v) ↔ mem e u ∧ mem e v
  unsect : ∀ u v e, mem e (t.unsect u v) ↔ (mem e u ∧ ¬ mem e v) ∨ (mem e v ∧ ¬ mem e u)
  plus_version : ∀ v, t.plus.version v = v
  sect_version : ∀ v, t.sect.version v = v
  setLike : t.setLike = true
  invertible : t.invertible = false

end ICL.Spec
