import Verif.Theory.ProgramRun
import Verif.Props.MapLaws

/-!
# C47: programs over interval containers

A client uses interval sets and interval maps in any number of variables, and decides by the answers it has got what it
does next. It cannot tell them from mathematical sets and functions (`Verif.ProgSpec`): the answers are the same, and
so is what the variables hold in the end.
-/

set_option linter.unusedSectionVars false
set_option linter.unusedVariables false

namespace ICL.Props
open Spec

section
variable {D I V : Type} [LinearOrder D] {o : IntervalOps D I} [DecidableEq I] [DecidableEq V]
  {E : Option (ElemFns D I)} {τ : VarTypes V} {ρ : Remains I V}

/-- A client that does nothing that is not allowed on sets and functions (`hp`) gets the same answers from interval
containers: no operation fails, and the final contents are the same. -/
theorem C47_programs (h : SetClass o E) (hN : ∀ m, Neutral (τ.map m)) (hv : ∀ m v, (τ.map m).plus.version v = v)
    (hρ : LeavesValid o ρ) (client : List (Answer V) → Act D I V) (n : Nat) {α : Contents D V} {answers : List (Answer V)}
    (hp : play (specStep o E τ) client n .empty [] = some (α, answers)) :
    ∃ σ, play (step o E τ ρ) client n ⟨fun _ => [], fun _ => []⟩ [] = some (σ, answers) ∧
      (∀ a, WellFormed o (σ.set a) ∧ (τ.set a = .joining → FullyJoined o (σ.set a))) ∧
      (∀ a S, α.set a = some S → ∀ x, Elem o (σ.set a) x ↔ S x) ∧
      (∀ m, MapWellFormed o (σ.map m) ∧ ((τ.map m).cfg.joining = true → MapFullyJoined o (σ.map m)) ∧
        NoIdentity (τ.map m) (σ.map m)) ∧
      (∀ m f, α.map m = some f → ∀ x, valueAt o (σ.map m) x = f x) := by
  have hs := setting_of h hN hv hρ
  have hL := h.cls.lawful
  obtain ⟨σ, e, hh⟩ := play_ok hs client n holds_empty [] hp
  exact ⟨σ, e, fun a => ⟨wellFormed_iff.2 (hh.good a).1, fun hj => (fullyJoined_iff hL (hh.good a).1).2 ((hh.good a).2 hj)⟩,
    hh.elems, fun m => ⟨mapWellFormed_iff.2 (hh.mgood m).wf,
      fun hj => (mapFullyJoined_iff hL (hh.mgood m).wf).2 ((hh.mgood m).joined hj),
      noIdentity_iff.2 ((hh.mgood m).noIdent (hN m))⟩, hh.isFun⟩

/-- The classes of the variables may be exchanged: a client that is allowed to do what it does with two choices of
classes gets the same answers. -/
theorem C47_classes (h : SetClass o E) {τ' : VarTypes V} {ρ' : Remains I V} (ht : ∀ m, (τ.map m).Alike (τ'.map m))
    (hN : ∀ m, Neutral (τ.map m)) (hv : ∀ m v, (τ.map m).plus.version v = v) (hρ : LeavesValid o ρ)
    (hρ' : LeavesValid o ρ') (client : List (Answer V) → Act D I V) (n : Nat)
    (hp : (play (specStep o E τ) client n .empty []).isSome) (hp' : (play (specStep o E τ') client n .empty []).isSome) :
    ∃ σ σ' answers, play (step o E τ ρ) client n ⟨fun _ => [], fun _ => []⟩ [] = some (σ, answers) ∧
      play (step o E τ' ρ') client n ⟨fun _ => [], fun _ => []⟩ [] = some (σ', answers) := by
  obtain ⟨⟨α, tr⟩, e⟩ := Option.isSome_iff_exists.1 hp
  obtain ⟨⟨α', tr'⟩, e'⟩ := Option.isSome_iff_exists.1 hp'
  cases alike_play ht client n _ _ e e'
  have hN' : ∀ m, Neutral (τ'.map m) := fun m => (ht m).regular (hN m)
  have hv' : ∀ m v, (τ'.map m).plus.version v = v := fun m v => by rw [ht m]; exact hv m v
  obtain ⟨σ, e1, _⟩ := C47_programs h hN hv hρ client n e
  obtain ⟨σ', e2, _⟩ := C47_programs h hN' hv' hρ' client n e'
  exact ⟨σ, σ', tr, e1, e2⟩

/-- Hints, and the choices that the library makes where it is free, do not matter: two clients that differ in nothing
else get the same answers. -/
theorem C47_hints (h : SetClass o E) (hN : ∀ m, Neutral (τ.map m)) (hv : ∀ m v, (τ.map m).plus.version v = v)
    (hρ : LeavesValid o ρ) {client client' : List (Answer V) → Act D I V}
    (hc : ∀ got, (client got).plainly = (client' got).plainly) (n : Nat)
    (hp : (play (specStep o E τ) client n .empty []).isSome) :
    ∃ σ σ' answers, play (step o E τ ρ) client n ⟨fun _ => [], fun _ => []⟩ [] = some (σ, answers) ∧
      play (step o E τ ρ) client' n ⟨fun _ => [], fun _ => []⟩ [] = some (σ', answers) := by
  obtain ⟨⟨α, tr⟩, e⟩ := Option.isSome_iff_exists.1 hp
  have e' := e
  rw [plainly_play hc] at e'
  obtain ⟨σ, e1, _⟩ := C47_programs h hN hv hρ client n e
  obtain ⟨σ', e2, _⟩ := C47_programs h hN hv hρ client' n e'
  exact ⟨σ, σ', tr, e1, e2⟩

end

/-! ## A program -/

/-- Sets of all three classes, and `interval_map`s. -/
def exτ : VarTypes ℤ := ⟨fun a => if a < 3 then .joining else if a = 3 then .separating else .splitting,
  fun _ => exMap true true false⟩

/-- The same variables, all sets and maps split. -/
def exτ' : VarTypes ℤ := ⟨fun _ => .splitting, fun _ => exMap false true false⟩

/-- Nothing is left in a container after a move. -/
def exρ : Remains (SItv ℤ) ℤ := ⟨fun _ _ => [], fun _ _ => []⟩

/-- `a += [0,4); b += [2,6); c = a ^ std::move(b); if (contains(c, 1)) m += ([0,9), 5); else a.clear(); m -= c; m(3)` -/
def exClient : List (Answer ℤ) → Act ℤ (SItv ℤ) ℤ
  | [] => .set 0 (.add (Ex.r 0 4))
  | [_] => .set 1 (.addHint 7 (Ex.r 2 6))
  | [_, _] => .setBin 2 0 1 false true .flip fun _ _ => 0
  | [_, _, _] => .ask (.contains 2 1)
  | [_, _, _, .bool true] => .map 0 (.add (Ex.r 0 9) 5)
  | [_, _, _, _] => .set 0 .clear
  | [_, _, _, _, _] => .map3 0 2 .erase
  | _ => .ask (.select 0 3)

theorem leavesValid_ex : LeavesValid Ex.ro exρ where
  set st l _ _ := by
    have w : WF Ex.ro setSeg ([] : List (SItv ℤ)) := wf_nil
    exact ⟨wellFormed_iff.2 w, fun _ => (fullyJoined_iff Ex.ro_cls.lawful w).2 joined_nil⟩
  map t l _ _ _ := by
    have w : WF Ex.ro mapSeg ([] : List (SItv ℤ × ℤ)) := wf_nil
    exact ⟨mapWellFormed_iff.2 w, fun _ => (mapFullyJoined_iff Ex.ro_cls.lawful w).2 joined_nil, by simp [NoIdentity, exρ]⟩

theorem play_succ {S D I V : Type} {next : S → Act D I V → Option (S × Answer V)}
    {client : List (Answer V) → Act D I V} {n : Nat} {s s' : S} {got : List (Answer V)} {r : Answer V}
    (h : next s (client got) = some (s', r)) :
    play next client (n + 1) s got = play next client n s' (got ++ [r]) := by
  simp only [play, h, Option.bind_eq_bind, Option.bind_some]

theorem allowed_of {A : Type} {P : Prop} (h : P) (a : A) : allowed P a = some a := if_pos h

theorem exClient_allowed (τ : VarTypes ℤ) (h1 : τ.set 2 = τ.set 0 ∧ τ.set 0 = τ.set 1)
    (hm : ∃ j, τ.map 0 = exMap j true false) :
    (play (specStep Ex.ro (some exE) τ) exClient 7 .empty []).map Prod.snd =
      some [.done, .done, .done, .bool true, .done, .done, .value 5] := by
  obtain ⟨j, hm⟩ := hm
  have hin : ∀ a b x : ℤ, In Ex.ro x (Ex.r a b) ↔ a ≤ x ∧ x < b := by intro a b x; simp [In, rightOpenOps]
  have he : ∀ x : ℤ, HasElem Ex.ro (some exE) x := by
    intro x
    refine ⟨exE, rfl, ?_, ?_⟩
    · simp [rightOpenOps, Ex.roE, rightOpenE, Asym.isEmpty, rightOpenSingleton, stepsInt]
    · change Asym.isEmpty (rightOpenSingleton stepsInt x) = false
      simp [Asym.isEmpty, rightOpenSingleton, stepsInt]
  have asks : ∀ (α : Contents ℤ ℤ) S, α.set 2 = some S → S 1 →
      specStep Ex.ro (some exE) τ α (.ask (.contains 2 1)) = some (α, .bool true) := by
    intro α S hS h1
    simp [specStep, answer, hS, allowed_of (he 1), h1]
  have selects : ∀ (α : Contents ℤ ℤ) f, α.map 0 = some f → f 3 = some 5 →
      specStep Ex.ro (some exE) τ α (.ask (.select 0 3)) = some (α, .value 5) := by
    intro α f hf h1
    simp [specStep, answer, hf, allowed_of (he 3), h1]
  rw [play_succ (s' := _) (r := .done) rfl, play_succ (s' := _) (r := .done) rfl]
  rw [play_succ (s' := _) (r := .done) (allowed_of h1 _)]
  rw [play_succ (asks _ _ rfl (by simp [setBin, hin, Xor]))]
  rw [play_succ (s' := _) (r := .done) rfl, play_succ (s' := _) (r := .done) rfl]
  rw [play_succ (selects _ _ rfl (by simp [mapStep3, onPart, hin, setBin, hm, Xor, added, combined, Ignored]; exact ⟨fun _ => show ¬ (5 : ℤ) = 0 by decide, rfl⟩))]
  rfl

/-- The hypotheses of the theorems are met. -/
example : SetClass Ex.ro (some exE) ∧ (∀ m, Neutral (exτ.map m)) ∧ (∀ m v, (exτ.map m).plus.version v = v) ∧
    LeavesValid Ex.ro exρ ∧ (∀ m, (exτ.map m).Alike (exτ'.map m)) ∧
    (play (specStep Ex.ro (some exE) exτ) exClient 7 .empty []).isSome ∧
    (play (specStep Ex.ro (some exE) exτ') exClient 7 .empty []).isSome := by
  refine ⟨ex_cls, fun m => ?_, fun m v => rfl, leavesValid_ex, fun m => rfl, ?_, ?_⟩
  · exact (numeric_neutral true true false true)
  · rw [← Option.isSome_map (f := Prod.snd), exClient_allowed exτ ⟨rfl, rfl⟩ ⟨true, rfl⟩]; rfl
  · rw [← Option.isSome_map (f := Prod.snd), exClient_allowed exτ' ⟨rfl, rfl⟩ ⟨false, rfl⟩]; rfl

/-- This is what the containers answer and hold in the end. -/
example :
    let r := play (step Ex.ro (some exE) exτ exρ) exClient 7 ⟨fun _ => [], fun _ => []⟩ []
    r.map (fun r => r.2) = some [.done, .done, .done, .bool true, .done, .done, .value 5] ∧
    r.map (fun r => (r.1.set 0, r.1.set 1, r.1.set 2)) = some ([Ex.r 0 4], [], [Ex.r 0 2, Ex.r 4 6]) ∧
    r.map (fun r => r.1.map 0) = some [(Ex.r 2 4, 5), (Ex.r 6 9, 5)] := by decide

/-! ## Self-assignment -/

/-- `a.assign(a)` empties `a`: the function clears the object before it copies the operand. So do `domain(a, a)` and
`between(a, a)`. `a = a` keeps it. -/
theorem C40_counterexample_assign : ∃ s : List (SItv ℤ), WellFormed Ex.ro s ∧ s ≠ [] ∧
    SetOp2.runSelf Ex.ro .joining s (.assign fun _ _ => 0) = some [] ∧
    SetOp2.runSelf Ex.ro .joining s (.domain fun _ _ => 0) = some [] ∧
    SetOp2.runSelf Ex.ro .joining s .copy = some s :=
  ⟨exS, ex_wf.1, by decide, by decide, by decide, by decide⟩

end ICL.Props
