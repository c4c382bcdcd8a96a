import Verif.NestSpec
import Verif.Theory.MapAlg
import Mathlib.Tactic.Tauto

/-!
# The algebra of the values of a key of a partial map of sets
-/

set_option linter.unusedSectionVars false
set_option linter.unusedVariables false
set_option linter.unusedSimpArgs false

namespace ICL
open Spec IMap

variable {V α : Type} [DecidableEq V] {t : MapType V} {mem : α → V → Prop}

namespace Spec.SetValues

theorem eq_ident (hS : SetValues t mem) {u : V} : u = t.cfg.ident ↔ ∀ e, ¬ mem e u := by
  constructor
  · rintro rfl; exact hS.ident
  · intro hu
    exact hS.ext _ _ fun e => ⟨fun h => absurd h (hu e), fun h => absurd h (hS.ident e)⟩

theorem comm (hS : SetValues t mem) : CommMonoidValues t where
  assoc u v w := hS.ext _ _ fun e => by simp only [hS.plus, or_assoc]
  ident_left v := hS.ext _ _ fun e => by simp [hS.plus, hS.ident]
  ident_right v := hS.ext _ _ fun e => by simp [hS.plus, hS.ident]
  version := hS.plus_version
  comm u v := hS.ext _ _ fun e => by simp only [hS.plus, or_comm]

theorem neutral (hS : SetValues t mem) : Neutral t where
  plus_ne v hv := by rw [hS.plus_version]; exact hv
  sect_ne v hv := by rw [hS.sect_version]; exact hv
  minus_ne _ hh := by rw [hS.invertible] at hh; cases hh
  plus_ident v := by rw [hS.plus_version, hS.comm.ident_left]

theorem noCancel (hS : SetValues t mem) : NoCancel t := by
  intro u v he
  rw [hS.eq_ident] at he
  simp only [hS.plus, not_or] at he
  exact ⟨hS.eq_ident.2 fun e => (he e).1, hS.eq_ident.2 fun e => (he e).2⟩

theorem minus_self (hS : SetValues t mem) (u : V) : t.minus.apply u u = t.cfg.ident :=
  hS.eq_ident.2 fun e => by simp [hS.minus]

theorem unsect_comm (hS : SetValues t mem) (u v : V) : t.unsect u v = t.unsect v u :=
  hS.ext _ _ fun e => by simp only [hS.unsect, or_comm]

end Spec.SetValues

section
variable (hS : SetValues t mem) (ht : t.cfg.total = false)
include hS ht

theorem sets_inter {a b : Option V} (h1 : Norm t a) (h2 : Norm t b) : pInter t a b =
      a.bind fun u => b.bind fun v => keep t.cfg (t.sect.apply u v) := by
  unfold pInter interF
  rw [ht]
  simp only [Bool.false_eq_true, if_false]
  cases b with
  | none => cases a <;> rfl
  | some v =>
    cases a with
    | none => rfl
    | some u =>
      have e1 : addF t.cfg t.plus u none = some u := by
        simp only [addF, h1 u rfl, hS.plus_version]; rfl
      dsimp only [Option.bind_some]
      rw [e1]
      simp only [addF, h2 v rfl]
      rfl

theorem sets_sub {a b : Option V} (h2 : Norm t b) : pSub t a b =
      a.bind fun u => match b with
        | none => some u
        | some v => keep t.cfg (t.minus.apply u v) := by
  cases a with
  | none => exact sub_none_left (Or.inl ht) b
  | some u =>
    cases b with
    | none => rfl
    | some v => rw [sub_some, h2 v rfl]; rfl

theorem sets_flip {a b : Option V} (h1 : Norm t a) (h2 : Norm t b) : pFlip t a b =
      match a, b with
      | a, none => a
      | none, b => b
      | some u, some v => keep t.cfg (t.unsect u v) := by
  unfold pFlip
  rw [ht]
  simp only [Bool.false_eq_true, if_false]
  cases b with
  | none => rfl
  | some v =>
    cases a with
    | none => simp only [flipF, addF, h2 v rfl, hS.plus_version]; rfl
    | some u =>
      simp only [flipF, flipValue, hS.setLike, if_true, hS.unsect_comm v u]
      unfold addF keep
      cases hc : absorbable t.cfg (t.unsect u v) <;> simp [hc, hS.plus_version]

end

/-! ### The pairs a key stands for -/

/-- The element `e` is in the set of the key. -/
def HasE (mem : α → V → Prop) (a : Option V) (e : α) : Prop := ∃ u, a = some u ∧ mem e u

theorem hasE_none (e : α) : HasE mem none e ↔ False := by simp [HasE]
theorem hasE_some (u : V) (e : α) : HasE mem (some u) e ↔ mem e u := by simp [HasE]

section
variable (hS : SetValues t mem)
include hS

theorem hasE_keep (u : V) (e : α) : HasE mem (keep t.cfg u) e ↔ mem e u := by
  unfold keep
  split
  · rename_i hc
    simp only [absorbable, Bool.and_eq_true, decide_eq_true_eq] at hc
    simp [hasE_none, hc.2, hS.ident e]
  · exact hasE_some _ _

variable {a b : Option V}

theorem sets_ext (h1 : Norm t a) (h2 : Norm t b)
    (h : ∀ e, HasE mem a e ↔ HasE mem b e) (hs : t.cfg.absorbs = false → (a.isSome ↔ b.isSome)) : a = b := by
  cases hab : t.cfg.absorbs with
  | true =>
    refine gv_inj hab h1 h2 (hS.ext _ _ fun e => ?_)
    have : ∀ c : Option V, mem e (gv t c) ↔ HasE mem c e := by
      intro c
      cases c with
      | none => simp [gv, hasE_none, hS.ident e]
      | some u => simp [gv, hasE_some]
    rw [this, this, h]
  | false =>
    have hs := hs hab
    cases a with
    | none => cases b <;> simp at hs ⊢
    | some u =>
      cases b with
      | none => simp at hs
      | some v =>
        congr 1
        exact hS.ext _ _ fun e => by simpa only [hasE_some] using h e

theorem hasE_add (e : α) : HasE mem (pAdd t a b) e ↔ HasE mem a e ∨ HasE mem b e := by
  unfold pAdd addF
  cases b with
  | none => simp [hasE_none]
  | some v =>
    dsimp only
    split
    · rename_i hv
      have : v = t.cfg.ident := by
        simp only [absorbable, Bool.and_eq_true, decide_eq_true_eq] at hv
        exact hv.2
      subst this
      simp [hasE_some, hS.ident e]
    · cases a with
      | none => simp only [hasE_none, false_or, hS.plus_version]
      | some u =>
        dsimp only
        rw [hasE_keep hS]
        simp only [hasE_some, hS.plus]

theorem some_adds (ha : t.cfg.absorbs = false) : (pAdd t a b).isSome ↔ a.isSome ∨ b.isSome := by
  unfold pAdd
  cases b with
  | none => simp
  | some v => dsimp only; rw [addF_enricher ha]; simp

variable (ht : t.cfg.total = false)
include ht

theorem hasE_sub (h2 : Norm t b) (e : α) : HasE mem (pSub t a b) e ↔ HasE mem a e ∧ ¬ HasE mem b e := by
  rw [sets_sub hS ht h2]
  cases a with
  | none => simp [hasE_none]
  | some u => cases b <;> simp [hasE_none, hasE_some, hasE_keep hS, hS.minus]

theorem hasE_inter (h1 : Norm t a) (h2 : Norm t b) (e : α) :
    HasE mem (pInter t a b) e ↔ HasE mem a e ∧ HasE mem b e := by
  rw [sets_inter hS ht h1 h2]
  cases a <;> cases b <;> simp [hasE_none, hasE_some, hasE_keep hS, hS.sect]

theorem hasE_flip (h1 : Norm t a) (h2 : Norm t b) (e : α) :
    HasE mem (pFlip t a b) e ↔ (HasE mem a e ∧ ¬ HasE mem b e) ∨ (HasE mem b e ∧ ¬ HasE mem a e) := by
  rw [sets_flip hS ht h1 h2]
  cases a <;> cases b <;> simp [hasE_none, hasE_some, hasE_keep hS, hS.unsect]

theorem norm_flips (h1 : Norm t a) (h2 : Norm t b) : Norm t (pFlip t a b) := by
  rw [sets_flip hS ht h1 h2]
  cases a <;> cases b
  · exact norm_none
  · exact h2
  · exact h1
  · exact norm_keep _

theorem some_subs (ha : t.cfg.absorbs = false) (h2 : Norm t b) : (pSub t a b).isSome ↔ a.isSome := by
  rw [sets_sub hS ht h2]
  cases a <;> cases b <;> simp [keep_enricher ha]

theorem some_inters (ha : t.cfg.absorbs = false) (h1 : Norm t a) (h2 : Norm t b) :
    (pInter t a b).isSome ↔ a.isSome ∧ b.isSome := by
  rw [sets_inter hS ht h1 h2]
  cases a <;> cases b <;> simp [keep_enricher ha]

theorem some_flips (ha : t.cfg.absorbs = false) (h1 : Norm t a) (h2 : Norm t b) :
    (pFlip t a b).isSome ↔ a.isSome ∨ b.isSome := by
  rw [sets_flip hS ht h1 h2]
  cases a <;> cases b <;> simp [keep_enricher ha]

end

/-! ### The laws -/

section
variable (hS : SetValues t mem) (ht : t.cfg.total = false)
  {a b c : Option V} (h1 : Norm t a) (h2 : Norm t b) (h3 : Norm t c)
include hS ht h1 h2

/-- Is a value that an operation can yield. -/
local macro "nrm" : tactic =>
  `(tactic| solve_by_elim (maxDepth := 12) only [norm_add, norm_sub, norm_inter, norm_flips, *])

/-- A law holds if it holds for the elements of the sets and, in enrichers, for the presence of keys. -/
local macro "set_law" : tactic => `(tactic| (
  have hV := hS.neutral.toVersions
  refine sets_ext hS (by nrm) (by nrm) (fun e => ?_) (fun ha => ?_)
  · simp (disch := first | assumption | nrm) only [hasE_add, hasE_sub, hasE_inter, hasE_flip]; tauto
  · simp (disch := first | assumption | nrm) only [some_adds hS, some_subs hS ht, some_inters hS ht, some_flips hS ht] <;> tauto))

theorem sets_inter_comm : pInter t a b = pInter t b a := by set_law
theorem sets_flip_comm : pFlip t a b = pFlip t b a := by set_law
theorem sets_symm : pSub t (pAdd t a b) (pInter t a b) = pAdd t (pSub t a b) (pSub t b a) := by set_law
theorem sets_flip_eq : pFlip t a b = pSub t (pAdd t a b) (pInter t a b) := by set_law

include h3
theorem sets_inter_assoc : pInter t a (pInter t b c) = pInter t (pInter t a b) c := by set_law
theorem sets_add_inter : pAdd t a (pInter t b c) = pInter t (pAdd t a b) (pAdd t a c) := by set_law
theorem sets_inter_add : pInter t a (pAdd t b c) = pAdd t (pInter t a b) (pInter t a c) := by set_law
theorem sets_add_sub : pSub t (pAdd t a b) c = pAdd t (pSub t a c) (pSub t b c) := by set_law
theorem sets_inter_sub : pSub t (pInter t a b) c = pInter t (pSub t a c) (pSub t b c) := by set_law
theorem sets_sub_add : pSub t a (pAdd t b c) = pInter t (pSub t a b) (pSub t a c) := by set_law
theorem sets_sub_inter : pSub t a (pInter t b c) = pAdd t (pSub t a b) (pSub t a c) := by set_law

end

end ICL
