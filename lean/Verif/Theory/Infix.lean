import Verif.InfixSpec
import Verif.Theory.SetLaws
import Verif.Theory.MapLaws

/-!
# Infix operators: either order of the operands leads to the same value
-/

set_option linter.unusedSectionVars false

namespace ICL
open Spec IMap

variable {D I V : Type} [LinearOrder D] {o : IntervalOps D I} [DecidableEq I] [DecidableEq V]

/-! ### Sets -/

section
variable (h : o.Lawful) {oracle oracle' : List I → I → Nat}
include h

theorem copying_den_joining (A : SetExpr I) (hA : A.Leaves (Good o .joining)) :
    ∃ P S R, Den o .joining (A.eval o .joining oracle) P S ∧ Den o .joining (copying o .joining oracle' A) P R := by
  induction A with
  | leaf b l => exact ⟨_, _, _, den_some hA, den_some hA⟩
  | add a b iha ihb =>
    obtain ⟨P, S, R, h1, h2⟩ := iha hA.1
    obtain ⟨Q, T, U, h3, h4⟩ := ihb hA.2
    obtain ⟨X, h5⟩ := den_plus h (oracle := oracle) (a.swapped b) h1 h3
    obtain ⟨Y, h6⟩ := den_plus h (oracle := oracle') false h2 h4
    exact ⟨_, _, _, h5, h6⟩
  | sub a b iha ihb =>
    obtain ⟨P, S, R, h1, h2⟩ := iha hA.1
    obtain ⟨Q, T, U, h3, h4⟩ := ihb hA.2
    exact ⟨_, _, _, den_minus h h1 h3, den_minus h h2 h4⟩
  | inter a b iha ihb =>
    obtain ⟨P, S, R, h1, h2⟩ := iha hA.1
    obtain ⟨Q, T, U, h3, h4⟩ := ihb hA.2
    obtain ⟨X, h5, _⟩ := den_meet h (oracle := oracle) (a.swapped b) h1 h3
    obtain ⟨Y, h6, _⟩ := den_meet h (oracle := oracle') false h2 h4
    exact ⟨_, _, _, h5, h6⟩
  | flip a b iha ihb =>
    obtain ⟨P, S, R, h1, h2⟩ := iha hA.1
    obtain ⟨Q, T, U, h3, h4⟩ := ihb hA.2
    obtain ⟨X, h5, _⟩ := den_symd h (oracle := oracle) (a.swapped b) h1 h3
    obtain ⟨Y, h6, _⟩ := den_symd h (oracle := oracle') false h2 h4
    exact ⟨_, _, _, h5, h6⟩

theorem copying_den_splitting (A : SetExpr I) (hA : A.Leaves (Good o .splitting)) :
    ∃ P S, Den o .splitting (A.eval o .splitting oracle) P S ∧
      Den o .splitting (copying o .splitting oracle' A) P S := by
  induction A with
  | leaf b l => exact ⟨_, _, den_some hA, den_some hA⟩
  | add a b iha ihb =>
    obtain ⟨P, S, h1, h2⟩ := iha hA.1
    obtain ⟨Q, T, h3, h4⟩ := ihb hA.2
    exact ⟨_, _, den_plus_split h (a.swapped b) h1 h3, den_plus_split h false h2 h4⟩
  | sub a b iha ihb =>
    obtain ⟨P, S, h1, h2⟩ := iha hA.1
    obtain ⟨Q, T, h3, h4⟩ := ihb hA.2
    exact ⟨_, _, den_minus h h1 h3, den_minus h h2 h4⟩
  | inter a b iha ihb =>
    obtain ⟨P, S, h1, h2⟩ := iha hA.1
    obtain ⟨Q, T, h3, h4⟩ := ihb hA.2
    obtain ⟨X, h5, e1⟩ := den_meet h (oracle := oracle) (a.swapped b) h1 h3
    obtain ⟨Y, h6, e2⟩ := den_meet h (oracle := oracle') false h2 h4
    exact ⟨_, _, h5, h6.congr (fun _ => Iff.rfl) fun x y =>
      (e2 (by decide) x y).trans (e1 (by decide) x y).symm⟩
  | flip a b iha ihb =>
    obtain ⟨P, S, h1, h2⟩ := iha hA.1
    obtain ⟨Q, T, h3, h4⟩ := ihb hA.2
    obtain ⟨X, h5, e1⟩ := den_symd h (oracle := oracle) (a.swapped b) h1 h3
    obtain ⟨Y, h6, e2⟩ := den_symd h (oracle := oracle') false h2 h4
    exact ⟨_, _, h5, h6.congr (fun _ => Iff.rfl) fun x y =>
      (e2 (by decide) x y).trans (e1 (by decide) x y).symm⟩

theorem copying_den_separating (A : SetExpr I) (hA : A.Leaves (Good o .separating)) :
    ∃ P X, DenX o .separating (A.eval o .separating oracle) P X ∧
      DenX o .separating (copying o .separating oracle' A) P X := by
  induction A with
  | leaf b l => exact ⟨_, _, denX_some hA, denX_some hA⟩
  | add a b iha ihb =>
    obtain ⟨P, S, h1, h2⟩ := iha hA.1
    obtain ⟨Q, T, h3, h4⟩ := ihb hA.2
    exact ⟨_, _, denX_plus h (a.swapped b) h1 h3, denX_plus h false h2 h4⟩
  | sub a b iha ihb =>
    obtain ⟨P, S, h1, h2⟩ := iha hA.1
    obtain ⟨Q, T, h3, h4⟩ := ihb hA.2
    exact ⟨_, _, denX_minus h h1 h3, denX_minus h h2 h4⟩
  | inter a b iha ihb =>
    obtain ⟨P, S, h1, h2⟩ := iha hA.1
    obtain ⟨Q, T, h3, h4⟩ := ihb hA.2
    exact ⟨_, _, denX_meet h (by decide) (a.swapped b) h1 h3, denX_meet h (by decide) false h2 h4⟩
  | flip a b iha ihb =>
    obtain ⟨P, S, h1, h2⟩ := iha hA.1
    obtain ⟨Q, T, h3, h4⟩ := ihb hA.2
    exact ⟨_, _, denX_symd h (by decide) (a.swapped b) h1 h3, denX_symd h (by decide) false h2 h4⟩

theorem copying_equal {st : Style} (A : SetExpr I) (hA : A.Leaves (Good o st)) :
    Equal o (A.eval o st oracle) (copying o st oracle' A) := by
  cases st with
  | joining =>
    obtain ⟨P, S, R, h1, h2⟩ := copying_den_joining h (oracle := oracle) (oracle' := oracle') A hA
    exact equal_of_same h h1 h2 (fun _ => Iff.rfl) (Or.inl rfl)
  | splitting =>
    obtain ⟨P, S, h1, h2⟩ := copying_den_splitting h (oracle := oracle) (oracle' := oracle') A hA
    exact equal_of_same h h1 h2 (fun _ => Iff.rfl) (Or.inr fun _ _ => Iff.rfl)
  | separating =>
    obtain ⟨P, S, h1, h2⟩ := copying_den_separating h (oracle := oracle) (oracle' := oracle') A hA
    exact equal_of_cross h h1 h2 (fun _ => Iff.rfl) fun _ => Iff.rfl

theorem copying_good {st : Style} (A : SetExpr I) (hA : A.Leaves (Good o st)) :
    ∃ l, copying o st oracle A = some l ∧ Good o st l := by
  cases st with
  | joining =>
    obtain ⟨_, _, _, _, l, h1, h2, _⟩ := copying_den_joining h (oracle := oracle) (oracle' := oracle) A hA
    exact ⟨l, h1, h2⟩
  | splitting =>
    obtain ⟨_, _, _, l, h1, h2, _⟩ := copying_den_splitting h (oracle := oracle) (oracle' := oracle) A hA
    exact ⟨l, h1, h2⟩
  | separating =>
    obtain ⟨_, _, _, l, h1, h2, _⟩ := copying_den_separating h (oracle := oracle) (oracle' := oracle) A hA
    exact ⟨l, h1, h2⟩

end

/-! ### Maps -/

section
variable {t : MapType V}

theorem Norm.value {a : Option V} {u : V} (h : Norm t a) (ha : a = some u) : ¬ Ignored t u :=
  absorbable_false_iff.1 (h u ha)

theorem pAdd_comm (hO : OrderFree t) {a b : Option V} (h1 : Norm t a) (h2 : Norm t b) : pAdd t a b = pAdd t b a := by
  unfold pAdd addF
  cases a with
  | none =>
    cases b with
    | none => rfl
    | some v => simp [h2 v rfl, hO.stored v (h2.value rfl)]
  | some u =>
    cases b with
    | none => simp [h1 u rfl, hO.stored u (h1.value rfl)]
    | some v => simp [h1 u rfl, h2 v rfl, hO.plus u v (h1.value rfl) (h2.value rfl)]

theorem pAdd_none (hO : OrderFree t) {a : Option V} (h1 : Norm t a) : pAdd t none a = a := by
  unfold pAdd addF
  cases a with
  | none => rfl
  | some u => simp [h1 u rfl, hO.stored u (h1.value rfl)]

theorem pInter_comm (hO : OrderFree t) {a b : Option V} (h1 : Norm t a) (h2 : Norm t b) :
    pInter t a b = pInter t b a := by
  unfold pInter
  rw [pAdd_none hO h1, pAdd_none hO h2, pAdd_comm hO h1 h2]
  split
  · rfl
  · rename_i ht
    unfold interF addF
    cases a with
    | none => cases b <;> rfl
    | some u =>
      cases b with
      | none => rfl
      | some v => simp [h1 u rfl, h2 v rfl, hO.stored u (h1.value rfl), hO.stored v (h2.value rfl),
          hO.sect (by simpa using ht) u v (h1.value rfl) (h2.value rfl)]

theorem pFlip_comm (hO : OrderFree t) {a b : Option V} (h1 : Norm t a) (h2 : Norm t b) :
    pFlip t a b = pFlip t b a := by
  unfold pFlip
  rw [pAdd_comm hO h1 h2]
  split
  · rfl
  · rename_i ht
    have hf : ∀ u v, ¬ Ignored t u → ¬ Ignored t v → IMap.flipValue t v u = IMap.flipValue t u v := fun u v hu hv => by
      unfold IMap.flipValue
      split
      · rename_i hs; exact hO.unsect (by simpa using ht) hs v u hv hu
      · rfl
    cases a with
    | none =>
      cases b with
      | none => rfl
      | some v => simp [flipF, addF, h2 v rfl, hO.stored v (h2.value rfl)]
    | some u =>
      cases b with
      | none => simp [flipF, addF, h1 u rfl, hO.stored u (h1.value rfl)]
      | some v => simp [flipF, hf u v (h1.value rfl) (h2.value rfl)]

/-- Two maps with the same associations; if they are not joined, with the same borders. -/
structure Twins (o : IntervalOps D I) (t : MapType V) (m n : List (I × V)) : Prop where
  left : MV o t m
  right : MV o t n
  val : ∀ x, valueAt o m x = valueAt o n x
  tog : t.cfg.joining = false → ∀ x y, TogM o m x y ↔ TogM o n x y

theorem Twins.op {F : Option V → Option V → Option V} {a b c d m n : List (I × V)}
    (h1 : Twins o t a c) (h2 : Twins o t b d) (hm : Op o t F a b m) (hn : Op o t F c d n) :
    Twins o t m n where
  left := hm.good
  right := hn.good
  val x := by rw [hm.val, hn.val, h1.val, h2.val]
  tog hj x y := by
    have hv : ∀ z, valueAt o m z = valueAt o n z := fun z => by rw [hm.val, hn.val, h1.val, h2.val]
    by_cases hx : valueAt o m x = none
    · have hx' : valueAt o n x = none := by rw [← hv, hx]
      constructor
      · exact fun hc => tog_of_gap fun z hz => by rw [← hv]; exact gap_of_tog hc hx z hz
      · exact fun hc => tog_of_gap fun z hz => by rw [hv]; exact gap_of_tog hc hx' z hz
    · rw [hm.iff hj hx, hn.iff hj (by rwa [← hv]), h1.tog hj, h2.tog hj]

variable (h : o.Lawful) {oracle oracle' : List (I × V) → I → Nat}
include h

theorem mapCopying_twins (hN : Neutral t) (hO : OrderFree t) (A : MapExpr I V) (hA : A.Leaves (MV o t)) :
    ∃ m n, A.eval o t oracle = some m ∧ mapCopying o t oracle' A = some n ∧ Twins o t m n := by
  induction A with
  | leaf b l => exact ⟨l, l, rfl, rfl, hA, hA, fun _ => rfl, fun _ _ _ => Iff.rfl⟩
  | add a b iha ihb =>
    obtain ⟨p, q, e1, e2, h1⟩ := iha hA.1
    obtain ⟨r, s, e3, e4, h2⟩ := ihb hA.2
    obtain ⟨n, e, hn⟩ := addMap_op h hN oracle' h1.right h2.right
    simp only [MapExpr.eval, mapCopying, e1, e2, e3, e4, Option.bind_eq_bind, Option.bind_some, e]
    split
    · obtain ⟨m, e', hm⟩ := addMap_op h hN oracle h2.left h1.left
      exact ⟨m, n, e', rfl, h1.op h2 (hm.swap (fun _ _ => pAdd_comm hO) h1.left h2.left) hn⟩
    · obtain ⟨m, e', hm⟩ := addMap_op h hN oracle h1.left h2.left
      exact ⟨m, n, e', rfl, h1.op h2 hm hn⟩
  | sub a b iha ihb =>
    obtain ⟨p, q, e1, e2, h1⟩ := iha hA.1
    obtain ⟨r, s, e3, e4, h2⟩ := ihb hA.2
    obtain ⟨n, e, hn⟩ := subMap_op h hN.toVersions h1.right h2.right
    obtain ⟨m, e', hm⟩ := subMap_op h hN.toVersions h1.left h2.left
    simp only [MapExpr.eval, mapCopying, e1, e2, e3, e4, Option.bind_eq_bind, Option.bind_some, e]
    exact ⟨m, n, e', rfl, h1.op h2 hm hn⟩
  | inter a b iha ihb =>
    obtain ⟨p, q, e1, e2, h1⟩ := iha hA.1
    obtain ⟨r, s, e3, e4, h2⟩ := ihb hA.2
    obtain ⟨n, e, hn⟩ := interMap_op h hN oracle' h1.right h2.right
    simp only [MapExpr.eval, mapCopying, e1, e2, e3, e4, Option.bind_eq_bind, Option.bind_some, e]
    split
    · obtain ⟨m, e', hm⟩ := interMap_op h hN oracle h2.left h1.left
      exact ⟨m, n, e', rfl, h1.op h2 (hm.swap (fun _ _ => pInter_comm hO) h1.left h2.left) hn⟩
    · obtain ⟨m, e', hm⟩ := interMap_op h hN oracle h1.left h2.left
      exact ⟨m, n, e', rfl, h1.op h2 hm hn⟩
  | flip a b iha ihb =>
    obtain ⟨p, q, e1, e2, h1⟩ := iha hA.1
    obtain ⟨r, s, e3, e4, h2⟩ := ihb hA.2
    obtain ⟨n, e, hn⟩ := flipMap_op h hN oracle' h1.right h2.right
    simp only [MapExpr.eval, mapCopying, e1, e2, e3, e4, Option.bind_eq_bind, Option.bind_some, e]
    split
    · obtain ⟨m, e', hm⟩ := flipMap_op h hN oracle h2.left h1.left
      exact ⟨m, n, e', rfl, h1.op h2 (hm.swap (fun _ _ => pFlip_comm hO) h1.left h2.left) hn⟩
    · obtain ⟨m, e', hm⟩ := flipMap_op h hN oracle h1.left h2.left
      exact ⟨m, n, e', rfl, h1.op h2 hm hn⟩

theorem mexpr_flip (hN : Neutral t) (hO : OrderFree t) {A B : MapExpr I V} {a b : List (I × V)} (ha : MV o t a)
    (hb : MV o t b) (e1 : A.eval o t oracle = some a) (e2 : B.eval o t oracle = some b) :
    ∃ m, (MapExpr.flip A B).eval o t oracle = some m ∧ Op o t (pFlip t) a b m := by
  simp only [MapExpr.eval, e1, e2, Option.bind_eq_bind, Option.bind_some]
  split
  · obtain ⟨m, e, hm⟩ := flipMap_op h hN oracle hb ha
    exact ⟨m, e, hm.swap (fun _ _ => pFlip_comm hO) ha hb⟩
  · exact flipMap_op h hN oracle ha hb

end
end ICL
