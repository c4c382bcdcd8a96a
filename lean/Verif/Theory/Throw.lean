import Verif.Model.Throw
import Verif.Theory.MapHistory

/-!
# Functions with exceptions: without an exception they are the functions without exceptions
-/

set_option linter.unusedSectionVars false
set_option linter.unusedVariables false
set_option linter.unusedSimpArgs false

namespace ICL
open Run

namespace Run
variable {S α β : Type}

@[simp] theorem result_bind (x : Run S α) (f : α → Run S β) :
    (x >>= f).result = x.result.bind fun a => (f a).result := by
  change (andThen x f).result = _
  unfold andThen
  cases x.result <;> rfl

@[simp] theorem result_pure (a : α) : (pure a : Run S α).result = some a := rfl
@[simp] theorem result_ofOption (x : Option α) : (ofOption x : Run S α).result = x := rfl
@[simp] theorem result_mayThrow (l : List S) : (mayThrow l).result = some () := rfl

theorem mem_thrown_bind {x : Run S α} {f : α → Run S β} {m : List S} :
    m ∈ (x >>= f).thrown ↔ m ∈ x.thrown ∨ ∃ a, x.result = some a ∧ m ∈ (f a).thrown := by
  change m ∈ (andThen x f).thrown ↔ _
  unfold andThen
  cases x.result <;> simp

@[simp] theorem thrown_pure (a : α) : (pure a : Run S α).thrown = [] := rfl
@[simp] theorem thrown_ofOption (x : Option α) : (ofOption x : Run S α).thrown = [] := rfl
@[simp] theorem thrown_mayThrow (l : List S) : (mayThrow l).thrown = [l] := rfl

end Run

section
variable {D I V S : Type} {o : IntervalOps D I} {g : SegOps I V S}

@[simp] theorem insertAtX_result (left : List S) (s : S) (right : List S) :
    (insertAtX o g left s right).result = insertAt o g left s right := by simp [insertAtX]

@[simp] theorem stdInsertX_result (l : List S) (s : S) :
    (stdInsertX o g l s).result = stdInsert o g l s := by simp [stdInsertX]

theorem forEachX_result {T : Type} {f : List S → T → Run S (List S)} {f' : List S → T → Option (List S)}
    (hf : ∀ l t, (f l t).result = f' l t) (l : List S) (ts : List T) :
    (forEachX f l ts).result = forEach f' l ts := by
  induction ts generalizing l with
  | nil => rfl
  | cons t ts ih => simp [forEachX, forEach, hf, ih]

end

namespace ISet
variable {D I : Type} {o : IntervalOps D I}

theorem forEachX_fold {f : List I → I → Run I (List I)} {f' : List I → I → Option (List I)}
    (hf : ∀ l t, (f l t).result = f' l t) (l : List I) (ts : List I) :
    (forEachX f l ts).result = fold f' l ts := by
  induction ts generalizing l with
  | nil => rfl
  | cons t ts ih => simp [forEachX, fold, hf, ih]

@[simp] theorem addFrontX_result (left : List I) (cur : I) (right : List I) (k : I) :
    (addFrontX o left cur right k).result = addFront o left cur right k := by
  unfold addFrontX addFront
  dsimp only
  split <;> simp

@[simp] theorem addLeadGapX_result (left : List I) (cur : I) (right : List I) (k : I) :
    (addLeadGapX o left cur right k).result = addLeadGap o left cur right k := by
  unfold addLeadGapX addLeadGap
  dsimp only
  split <;> simp
  cases insertAt o setSeg left (o.rightSubtract k cur) (cur :: right) <;> rfl

@[simp] theorem addMainX_result (left : List I) (rest cur : I) (mid post : List I) :
    (addMainX o left rest cur mid post).result = addMain o left rest cur mid post := by
  induction mid generalizing left rest cur with
  | nil => rfl
  | cons nxt more ih =>
    simp only [addMainX, addMain, addSegment, result_bind, addLeadGapX_result, ih, Option.bind_eq_bind]
    cases addLeadGap o left cur (nxt :: more ++ post) rest <;> rfl

@[simp] theorem addRearX_result (left : List I) (cur : I) (post : List I) (k : I) :
    (addRearX o left cur post k).result = addRear o left cur post k := by
  unfold addRearX addRear
  simp only [result_bind, addLeadGapX_result, Option.bind_eq_bind]
  congr 1
  funext l1
  split
  · simp
  · split <;> simp

@[simp] theorem addOverX_result (st : Style) (a : List I) (f : I) (b c : List I) (k : I) :
    (addOverX o st a f b c k).result = addOver o st a f b c k := by
  cases st
  · rfl
  · rfl
  · simp only [addOverX, addOver, result_bind, addFrontX_result, addMainX_result, addRearX_result,
      Option.bind_eq_bind]

@[simp] theorem addX_result (st : Style) (l : List I) (k : I) : (addX o st l k).result = add o st l k := by
  unfold addX add
  split
  · rfl
  · simp only [result_bind, result_mayThrow, Option.bind_some, result_ofOption, Option.bind_eq_bind]
    congr 1
    funext r
    obtain ⟨a, b, c⟩ := r
    cases b <;> simp

@[simp] theorem addHintX_result (st : Style) (n : Nat) (l : List I) (k : I) :
    (addHintX o st n l k).result = addHint o st n l k := by
  unfold addHintX addHint
  split
  · rfl
  · simp only [result_bind, result_mayThrow, Option.bind_some, result_ofOption, Option.bind_eq_bind]
    congr 1
    funext r
    obtain ⟨a, b, c⟩ := r
    cases b with
    | nil => rfl
    | cons f b => dsimp only; split <;> simp

@[simp] theorem insertResidX_result (l : List I) (k : I) :
    (insertResidX o l k).result = insertResid o l k := by
  unfold insertResidX insertResid
  split <;> simp

@[simp] theorem subtractX_result (l : List I) (k : I) : (subtractX o l k).result = subtract o l k := by
  unfold subtractX subtract
  split
  · rfl
  · simp only [result_bind, Option.bind_some, result_ofOption, Option.bind_eq_bind]
    congr 1
    funext r
    obtain ⟨a, b, c⟩ := r
    cases b <;> simp

@[simp] theorem addSetX_result (st : Style) (oracle : List I → I → Nat) (l r : List I) :
    (addSetX o st oracle l r).result = addSet o st oracle l r :=
  forEachX_fold (fun l k => by simp) l r

@[simp] theorem subSetX_result (l r : List I) : (subSetX o l r).result = subSet o l r := by
  unfold subSetX subSet
  simp only [result_bind, result_ofOption, Option.bind_eq_bind]
  congr 1
  funext x
  cases x with
  | none => rfl
  | some x => exact forEachX_fold (fun l k => by simp) l x.2.1

@[simp] theorem strongX_result {S : Type} (l : List S) (r : Option (List S)) : (strongX l r).result = r := rfl

variable [DecidableEq I]

@[simp] theorem flipLoopX_result (st : Style) (post l : List I) (span : I) (mid : List I) :
    (flipLoopX o st post l span mid).result = flipLoop o st post l span mid := by
  induction mid generalizing l span with
  | nil => rfl
  | cons c mid ih =>
    simp only [flipLoopX, flipLoop, result_bind, subtractX_result, addX_result, Option.bind_eq_bind]
    congr 1; funext l1
    congr 1; funext l2
    split <;> simp [ih]

@[simp] theorem flipSegX_result (st : Style) (l : List I) (k : I) :
    (flipSegX o st l k).result = flipSeg o st l k := by
  simp [flipSegX, flipSeg]

@[simp] theorem flipSetX_result (st : Style) (oracle : List I → I → Nat) (l r : List I) :
    (flipSetX o st oracle l r).result = flipSet o st oracle l r := by
  unfold flipSetX flipSet
  simp only [result_bind, result_ofOption, Option.bind_eq_bind]
  congr 1
  funext x
  cases x with
  | none => simp
  | some x =>
    obtain ⟨a, b, c⟩ := x
    simp only [result_bind]
    rw [forEachX_fold (f' := fun l k => add o st l k) (fun l k => by simp)]
    congr 1; funext l1
    rw [forEachX_fold (f' := fun l k => flipSeg o st l k) (fun l k => by simp)]
    congr 1; funext l2
    rw [forEachX_fold (f' := fun l k => add o st l k) (fun l k => by simp)]

omit [DecidableEq I] in
@[simp] theorem flipEX_result (st : Style) (sing : D → I) (lk : Lookup D I) (l : List I) (x : D) :
    (flipEX o st sing lk l x).result = flipE o st sing lk l x := by
  unfold flipEX flipE
  simp only [result_bind, result_ofOption, Option.bind_eq_bind]
  congr 1; funext b
  cases b <;> simp [addE, subE]

omit [DecidableEq I] in
@[simp] theorem assignX_result (st : Style) (oracle : List I → I → Nat) (src : List I) :
    (assignX o st oracle src).result = assign o st oracle src := by
  cases st
  · simp [assignX, assign]
  · exact forEachX_fold (fun l k => by simp) _ _
  · exact forEachX_fold (fun l k => by simp) _ _

end ISet

section
variable {D I : Type} {o : IntervalOps D I} [DecidableEq I]

theorem SetOp.runX_result (E : Option (ElemFns D I)) (st : Style) (l : List I) (c : SetOp D I) :
    (c.runX o E st l).result = c.run o E st l := by
  cases c <;> simp [SetOp.runX, SetOp.run, ISet.addE, ISet.subE]

theorem SetOp2.runX_result (st st' : Style) (l r : List I) (c : SetOp2 I) :
    (c.runX o st st' l r).result = c.run o st st' l r := by
  cases c <;> simp [SetOp2.runX, SetOp2.run, ISet.domain, ISet.between]

end

namespace IMap
variable {D I V : Type} {o : IntervalOps D I} [DecidableEq V] {junk : V}

omit [DecidableEq V] in
@[simp] theorem combineX_result (f : Combiner V) (left : List (I × V)) (cur : I × V) (right : List (I × V)) (v : V) :
    (combineX junk f left cur right v).result = some (combine f cur v) := by simp [combineX]

@[simp] theorem gapInsertX_result (c : MapCfg V) (f : Combiner V) (left : List (I × V)) (k : I) (v : V)
    (right : List (I × V)) : (gapInsertX o c f left k v right).result = gapInsert o c f left k v right := by
  simp [gapInsertX]

@[simp] theorem gapInsertAtX_result (c : MapCfg V) (f : Combiner V) (left : List (I × V)) (cur : I × V)
    (right : List (I × V)) (k : I) (v : V) :
    (gapInsertAtX o c f left cur right k v).result = gapInsertAt o c f left cur right k v := by
  unfold gapInsertAtX gapInsertAt
  split
  · simp only [result_bind, gapInsertX_result, Option.bind_eq_bind]
    congr 1; funext z
    split <;> simp
  · split
    · simp
    · simp only [result_bind, gapInsertX_result, result_pure]
      cases gapInsert o c f (cur :: left) k v right <;> rfl

omit [DecidableEq V] in
@[simp] theorem addFrontX_result (left : List (I × V)) (cur : I × V) (right : List (I × V)) (k : I) :
    (addFrontX o left cur right k).result = addFront o left cur right k := by
  unfold addFrontX addFront
  dsimp only
  split <;> simp

@[simp] theorem addLeadGapX_result (c : MapCfg V) (f : Combiner V) (first : Option (I × V)) (left : List (I × V))
    (cur : I × V) (right : List (I × V)) (k : I) (v : V) :
    (addLeadGapX o c f first left cur right k v).result = addLeadGap o c f first left cur right k v := by
  unfold addLeadGapX addLeadGap
  dsimp only
  split <;> simp

@[simp] theorem addSegmentX_result (c : MapCfg V) (f : Combiner V) (left : List (I × V))
    (cur : I × V) (right : List (I × V)) (k : I) (v : V) :
    (addSegmentX o junk c f left cur right k v).result = addSegment o c f left cur right k v := by
  simp [addSegmentX, addSegment]

@[simp] theorem addMainX_result (c : MapCfg V) (f : Combiner V) (v : V) (left : List (I × V)) (rest : I)
    (cur : I × V) (mid post : List (I × V)) :
    (addMainX o junk c f v left rest cur mid post).result = addMain o c f v left rest cur mid post := by
  induction mid generalizing left rest cur with
  | nil => rfl
  | cons nxt more ih => simp [addMainX, addMain, ih]

@[simp] theorem addRearX_result (c : MapCfg V) (f : Combiner V) (v : V) (left : List (I × V)) (cur : I × V)
    (post : List (I × V)) (k : I) :
    (addRearX o junk c f v left cur post k).result = addRear o c f v left cur post k := by
  unfold addRearX addRear
  simp only [result_bind, addLeadGapX_result, Option.bind_eq_bind]
  congr 1; funext l1
  split
  · simp
  · split
    · simp
    · simp only [result_bind, insertAtX_result, result_ofOption, combineX_result, Option.bind_some]
      cases insertAt o mapSeg ((o.rightSubtract cur.1 (o.leftSubtract cur.1 k), cur.2) :: l1)
        (o.leftSubtract cur.1 k, cur.2) post with
      | none => rfl
      | some ins =>
        simp only [Option.bind_some]
        split <;> rename_i hc
        · cases joinRight o mapSeg ins <;> rfl
        · rfl

@[simp] theorem addOverX_result (c : MapCfg V) (f : Combiner V) (a : List (I × V)) (g : I × V)
    (b post : List (I × V)) (k : I) (v : V) :
    (addOverX o junk c f a g b post k v).result = addOver o c f a g b post k v := by
  simp [addOverX, addOver]

@[simp] theorem addCX_result (c : MapCfg V) (f : Combiner V) (m : List (I × V)) (k : I) (v : V) :
    (addCX o junk c f m k v).result = addC o c f m k v := by
  unfold addCX addC
  split
  · rfl
  · split
    · rfl
    · simp only [result_bind, result_mayThrow, Option.bind_some, result_ofOption, Option.bind_eq_bind]
      congr 1; funext r
      obtain ⟨a, b, c⟩ := r
      cases b <;> simp

@[simp] theorem addHintCX_result (c : MapCfg V) (f : Combiner V) (n : Nat) (m : List (I × V)) (k : I) (v : V) :
    (addHintCX o junk c f n m k v).result = addHintC o c f n m k v := by
  unfold addHintCX addHintC
  split
  · rfl
  · split
    · rfl
    · simp only [result_bind, result_mayThrow, Option.bind_some, result_ofOption, Option.bind_eq_bind]
      congr 1; funext r
      obtain ⟨a, b, c⟩ := r
      cases b with
      | nil => simp [combine]
      | cons g b => dsimp only; split <;> simp

@[simp] theorem subMainX_result (c : MapCfg V) (f : Combiner V) (v : V) (left : List (I × V))
    (cur : I × V) (mid post : List (I × V)) :
    (subMainX o junk c f v left cur mid post).result = subMain o c f v left cur mid post := by
  induction mid generalizing left cur with
  | nil => rfl
  | cons nxt more ih => simp [subMainX, subMain, ih]

@[simp] theorem subRearX_result (c : MapCfg V) (f : Combiner V) (v : V) (left : List (I × V)) (cur : I × V)
    (post : List (I × V)) (k : I) :
    (subRearX o junk c f v left cur post k).result = subRear o c f v left cur post k := by
  unfold subRearX subRear
  dsimp only
  split <;> simp

@[simp] theorem subCX_result (c : MapCfg V) (f : Combiner V) (m : List (I × V)) (k : I) (v : V) :
    (subCX o junk c f m k v).result = subC o c f m k v := by
  unfold subCX subC
  split
  · rfl
  · split
    · rfl
    · simp only [result_bind, Option.bind_some, result_ofOption, Option.bind_eq_bind]
      congr 1; funext r
      obtain ⟨a, b, c⟩ := r
      cases b <;> simp

@[simp] theorem insertLoopX_result (c : MapCfg V) (v : V) (n : Nat) (left : List (I × V)) (rest : I)
    (mid post : List (I × V)) :
    (insertLoopX o c v n left rest mid post).result = insertLoop o c v n left rest mid post := by
  induction n generalizing left rest mid with
  | zero => cases mid <;> rfl
  | succ n ih =>
    cases mid with
    | nil => rfl
    | cons cur mid =>
      unfold insertLoopX insertLoop
      dsimp only
      split
      · exact ih _ _ _
      · simp only [result_bind, insertAtX_result, result_ofOption]
        cases insertAt o mapSeg left (o.rightSubtract rest cur.1, v) (cur :: mid ++ post) with
        | none => rfl
        | some z =>
          simp only [Option.bind_some]
          cases handleInserted o c z with
          | none => rfl
          | some z =>
            simp only [Option.bind_some]
            split <;> exact ih _ _ _

@[simp] theorem insertMainX_result (c : MapCfg V) (a : List (I × V)) (g : I × V) (b post : List (I × V)) (k : I)
    (v : V) : (insertMainX o c a g b post k v).result = insertMain o c a g b post k v := by
  unfold insertMainX insertMain
  simp only [result_bind, insertLoopX_result, Option.bind_eq_bind]
  congr 1; funext r
  split <;> simp

@[simp] theorem insertX_result (c : MapCfg V) (m : List (I × V)) (k : I) (v : V) :
    (insertX o c m k v).result = insert o c m k v := by
  unfold insertX insert
  split
  · rfl
  · split
    · rfl
    · simp only [result_bind, result_mayThrow, Option.bind_some, result_ofOption, Option.bind_eq_bind]
      congr 1; funext r
      obtain ⟨a, b, c⟩ := r
      cases b <;> simp

@[simp] theorem insertHintX_result (c : MapCfg V) (n : Nat) (p : Bool) (m : List (I × V)) (k : I) (v : V) :
    (insertHintX o c n p m k v).result = insertHint o c n p m k v := by
  unfold insertHintX insertHint
  split
  · rfl
  · split
    · rfl
    · simp only [result_bind, result_mayThrow, Option.bind_some, result_ofOption, Option.bind_eq_bind]
      congr 1; funext r
      obtain ⟨a, b, c⟩ := r
      cases b with
      | nil => rfl
      | cons g b => dsimp only; split <;> simp

@[simp] theorem eraseSegX_result (c : MapCfg V) (m : List (I × V)) (k : I) (v : V) :
    (eraseSegX o c m k v).result = eraseSeg o c m k v := by
  unfold eraseSegX
  split
  · simp [eraseSeg, *]
  · split
    · simp [eraseSeg, *]
    · rename_i h1 h2
      simp only [result_bind, result_ofOption]
      cases he : equalRange o mapSeg m k with
      | none => simp [eraseSeg, *]
      | some r =>
        obtain ⟨a, b, post⟩ := r
        simp only [Option.bind_some]
        match b with
        | [] => rfl
        | _ :: _ :: _ => rfl
        | [g] =>
          dsimp only
          split
          · split
            · rename_i h3 h4
              simp only [Bool.and_eq_true] at h4
              simp only [eraseSeg, h1, h2, h3, he, h4.1, h4.2, Option.bind_eq_bind, Option.bind_some, if_true,
                Bool.false_eq_true, if_false, result_bind, insertAtX_result, result_pure]
              rw [← h3]
              cases insertAt o mapSeg ((o.rightSubtract g.1 k, g.2) :: a.reverse) (o.leftSubtract g.1 k, g.2) post <;> rfl
            · rfl
          · rename_i h3
            simp [eraseSeg, h1, h2, h3, he]

omit [DecidableEq V] in
@[simp] theorem eraseItvX_result (m : List (I × V)) (k : I) :
    (eraseItvX o m k).result = eraseItv o m k := by
  unfold eraseItvX
  split
  · simp [eraseItv, *]
  · rename_i h1
    simp only [result_bind, result_ofOption]
    cases he : equalRange o mapSeg m k with
    | none => simp [eraseItv, *]
    | some r =>
      obtain ⟨a, b, post⟩ := r
      simp only [Option.bind_some]
      match b with
      | [] => rfl
      | _ :: _ :: _ => rfl
      | [g] =>
        dsimp only
        split
        · rename_i h4
          simp only [Bool.and_eq_true] at h4
          simp only [eraseItv, h1, he, h4.1, h4.2, Option.bind_eq_bind, Option.bind_some, if_true,
            Bool.false_eq_true, if_false, result_bind, insertAtX_result, result_pure]
          cases insertAt o mapSeg ((o.rightSubtract g.1 k, g.2) :: a.reverse) (o.leftSubtract g.1 k, g.2) post <;> rfl
        · rfl

@[simp] theorem setAtX_result (c : MapCfg V) (m : List (I × V)) (k : I) (v : V) :
    (setAtX o c m k v).result = setAt o c m k v := by
  simp [setAtX, setAt]

variable (t : MapType V)

@[simp] theorem addSegX_result (m : List (I × V)) (k : I) (v : V) :
    (addSegX o junk t m k v).result = addSeg o t m k v := by simp [addSegX, addSeg]

@[simp] theorem addSegHintX_result (n : Nat) (m : List (I × V)) (k : I) (v : V) :
    (addSegHintX o junk t n m k v).result = addHint o t n m k v := by simp [addSegHintX, addHint]

@[simp] theorem subSegX_result (m : List (I × V)) (k : I) (v : V) :
    (subSegX o junk t m k v).result = subSeg o t m k v := by
  unfold subSegX subSeg
  split <;> simp

@[simp] theorem addMapX_result (oracle : List (I × V) → I → Nat) (m r : List (I × V)) :
    (addMapX o junk t oracle m r).result = addMap o t oracle m r :=
  forEachX_result (fun l k => by simp) m r

@[simp] theorem subMapX_result (m r : List (I × V)) :
    (subMapX o junk t m r).result = subMap o t m r :=
  forEachX_result (fun l k => by simp) m r

@[simp] theorem insertMapX_result (oracle : List (I × V) → I → Nat) (m r : List (I × V)) :
    (insertMapX o t oracle m r).result = insertMap o t oracle m r :=
  forEachX_result (fun l k => by simp) m r

@[simp] theorem eraseMapX_result (m r : List (I × V)) :
    (eraseMapX o t m r).result = eraseMap o t m r := by
  unfold eraseMapX eraseMap
  simp only [result_bind, result_ofOption, Option.bind_eq_bind]
  congr 1; funext x
  cases x with
  | none => rfl
  | some x => exact forEachX_result (fun l k => by simp) _ _

omit [DecidableEq V] in
@[simp] theorem eraseSetX_result (m : List (I × V)) (r : List I) :
    (eraseSetX o m r).result = eraseSet o m r := by
  unfold eraseSetX eraseSet
  simp only [result_bind, result_ofOption, Option.bind_eq_bind]
  congr 1; funext x
  cases x with
  | none => rfl
  | some x => exact forEachX_result (fun l k => by simp) _ _

@[simp] theorem flipLoopX_result [DecidableEq I] (v : V) (post m : List (I × V)) (span : I) (er : List I)
    (ins mid : List (I × V)) :
    (flipLoopX o junk t v post m span er ins mid).result = flipLoop o t v post m span er ins mid := by
  induction mid generalizing m span er ins with
  | nil => rfl
  | cons c mid ih =>
    simp only [flipLoopX, flipLoop, result_bind, result_mayThrow, result_ofOption, Option.bind_some, addSegX_result,
      Option.bind_eq_bind]
    congr 1; funext r
    congr 1; funext l
    split <;> simp [ih]

theorem neutralizeX_result (done m : List (I × V)) :
    (neutralizeX o junk t done m).result = (fun m' => if t.cfg.joining then joinAll o mapSeg m' else some m')
      (done.reverse ++ m.map fun s => (s.1, t.cfg.ident)) := by
  induction m generalizing done with
  | nil => simp [neutralizeX]
  | cons s m ih => simp [neutralizeX, ih]

theorem neutralizeX_result' (m : List (I × V)) :
    (neutralizeX o junk t [] m).result = neutralize o t m := by
  rw [neutralizeX_result]; rfl

@[simp] theorem flipSegX_result [DecidableEq I] (oracle : List (I × V) → I → Nat) (m : List (I × V)) (k : I) (v : V) :
    (flipSegX o junk t oracle m k v).result = flipSeg o t oracle m k v := by
  unfold flipSegX flipSeg
  split
  · split
    · rfl
    · simp [neutralizeX_result']
  · simp

@[simp] theorem flipMapX_result [DecidableEq I] (oracle : List (I × V) → I → Nat) (m r : List (I × V)) :
    (flipMapX o junk t oracle m r).result = flipMap o t oracle m r := by
  unfold flipMapX flipMap
  split
  · split
    · rfl
    · simp [neutralizeX_result']
  · simp only [result_bind, result_ofOption, Option.bind_eq_bind]
    congr 1; funext x
    cases x with
    | none => simp
    | some x =>
      obtain ⟨a, b, c⟩ := x
      simp only [result_bind]
      rw [forEachX_result (f' := fun m s => addSeg o t m s.1 s.2) (fun l k => by simp)]
      congr 1; funext l1
      rw [forEachX_result (f' := fun m s => flipSeg o t oracle m s.1 s.2) (fun l k => by simp)]
      congr 1; funext l2
      rw [forEachX_result (f' := fun m s => addSeg o t m s.1 s.2) (fun l k => by simp)]

omit [DecidableEq V] in
theorem eraseIfX_result (p : I × V → Bool) (kept m : List (I × V)) :
    (eraseIfX p kept m).result = some (kept.reverse ++ eraseIf p m) := by
  induction m generalizing kept with
  | nil => simp [eraseIfX, eraseIf]
  | cons s m ih =>
    simp only [eraseIfX, result_bind, result_mayThrow, Option.bind_some]
    cases hp : p s with
    | true => simp [ih, eraseIf, hp]
    | false => simp [ih, eraseIf, hp]

@[simp] theorem assignX_result (oracle : List (I × V) → I → Nat) (src : List (I × V)) :
    (assignX o junk t oracle src).result = assign o t oracle src := by
  unfold assignX assign
  split
  · simp
  · exact forEachX_result (fun l k => by simp) _ _

end IMap

section
variable {D I V : Type} {o : IntervalOps D I} [DecidableEq I] [DecidableEq V] {junk : V}

theorem MapOp.runX_result (E : Option (ElemFns D I)) (t : MapType V) (l : List (I × V)) (c : MapOp D I V) :
    (c.runX o junk E t l).result = c.run o E t l := by
  cases c <;> simp [MapOp.runX, MapOp.run, IMap.eraseIfX_result]

theorem MapOp2.runX_result (t : MapType V) (l r : List (I × V)) (c : MapOp2 I V) :
    (c.runX o junk t l r).result = c.run o t l r := by
  cases c <;> simp [MapOp2.runX, MapOp2.run]

theorem MapOp3.runX_result (t : MapType V) (l : List (I × V)) (r : List I) (c : MapOp3 I V) :
    (c.runX o t l r).result = c.run o t l r := by
  cases c <;> simp [MapOp3.runX, MapOp3.run]

end
end ICL
