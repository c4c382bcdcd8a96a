import Verif.Model.Extremes
import Verif.Theory.MapOps
import Verif.Theory.MapFlip

/-!
# Lemmas on the extremes of a container and on `add_if`
-/

set_option linter.unusedSectionVars false

namespace ICL

section
variable {D I V S : Type} [LinearOrder D] {o : IntervalOps D I} {g : SegOps I V S}

theorem Dyn.mem_ends (j : DItv D) (x : D) : (Dyn.contains j x = true → j.lo ≤ x ∧ x ≤ j.up) ∧
    (j.lo < x → x < j.up → Dyn.contains j x = true) := by
  rw [Dyn.contains_iff]
  unfold Dyn.Lo Dyn.Up
  constructor
  · rintro ⟨h1, h2⟩
    constructor
    · split at h1
      · exact h1
      · exact le_of_lt h1
    · split at h2
      · exact h2
      · exact le_of_lt h2
  · intro h1 h2
    constructor
    · split
      · exact le_of_lt h1
      · exact h1
    · split
      · exact le_of_lt h2
      · exact h2

/-- The elements of an interval lie between its end points, and all values strictly between them belong to it. -/
theorem EndsClass.mem {lo up : I → D} (h : EndsClass o lo up) (i : I) (x : D) :
    (o.Mem x i → lo i ≤ x ∧ x ≤ up i) ∧ (lo i < x → x < up i → o.Mem x i) := by
  unfold IntervalOps.Mem
  induction h with
  | rightOpen zero =>
    simp only [rightOpenOps, Bool.and_eq_true, decide_eq_true_eq]
    exact ⟨fun h => ⟨h.1, le_of_lt h.2⟩, fun h1 h2 => ⟨le_of_lt h1, h2⟩⟩
  | leftOpen zero =>
    simp only [leftOpenOps, Bool.and_eq_true, decide_eq_true_eq]
    exact ⟨fun h => ⟨le_of_lt h.1, h.2⟩, fun h1 h2 => ⟨h1, le_of_lt h2⟩⟩
  | closed s zero unit h =>
    simp only [closedOps, Bool.and_eq_true, decide_eq_true_eq]
    exact ⟨id, fun h1 h2 => ⟨le_of_lt h1, le_of_lt h2⟩⟩
  | opn s zero =>
    simp only [openOps, Bool.and_eq_true, decide_eq_true_eq]
    exact ⟨fun h => ⟨le_of_lt h.1, le_of_lt h.2⟩, fun h1 h2 => ⟨h1, h2⟩⟩
  | discrete s zero => exact Dyn.mem_ends i x
  | continuous zero => exact Dyn.mem_ends i x
  | custom hT h =>
    cases h with
    | rightOpen zero =>
      simp only [Traits.rightOpenOps, Bool.and_eq_true, decide_eq_true_eq]
      exact ⟨fun h => ⟨h.1, le_of_lt h.2⟩, fun h1 h2 => ⟨le_of_lt h1, h2⟩⟩
    | leftOpen zero =>
      simp only [Traits.leftOpenOps, Bool.and_eq_true, decide_eq_true_eq]
      exact ⟨fun h => ⟨le_of_lt h.1, h.2⟩, fun h1 h2 => ⟨h1, le_of_lt h2⟩⟩
    | closed s zero unit hu =>
      simp only [Traits.closedOps, Bool.and_eq_true, decide_eq_true_eq]
      exact ⟨id, fun h1 h2 => ⟨le_of_lt h1, le_of_lt h2⟩⟩
    | opn s zero =>
      simp only [Traits.openOps, Bool.and_eq_true, decide_eq_true_eq]
      exact ⟨fun h => ⟨le_of_lt h.1, le_of_lt h.2⟩, fun h1 h2 => ⟨h1, h2⟩⟩
  | weak h he ih =>
    obtain ⟨h1, h2⟩ := ih _ x
    exact ⟨fun hx => h1 ((h.sim.mem i x).1 hx), fun h3 h4 => (h.sim.mem i x).2 (h2 h3 h4)⟩

theorem lastD_mem {S : Type} : ∀ (b : List S) (f : S), b.getLastD f ∈ f :: b
  | [], f => by simp
  | t :: b, f => by rw [List.getLastD_cons]; exact List.mem_cons_of_mem _ (lastD_mem b t)

/-- The first node is before the others, the last node behind them. -/
theorem ends_of {f : S} {b : List S} (hw : WF o g (f :: b)) {x : D} (hx : Dom o g (f :: b) x) :
    (o.Mem x (g.key f) ∨ ∀ y, o.Mem y (g.key f) → y < x) ∧
      (o.Mem x (g.key (b.getLastD f)) ∨ ∀ y, o.Mem y (g.key (b.getLastD f)) → x < y) := by
  induction b generalizing f with
  | nil =>
    have : o.Mem x (g.key f) := by simpa using hx
    exact ⟨Or.inl this, Or.inl this⟩
  | cons t b ih =>
    have h1 := wf_cons.1 hw
    rw [List.getLastD_cons]
    constructor
    · rcases (dom_cons _ _ _).1 hx with hx | hx
      · exact Or.inl hx
      · exact Or.inr fun y hy => h1.2.2 y x hy hx
    · rcases (dom_cons _ _ _).1 hx with hx | hx
      · exact Or.inr fun y hy => h1.2.2 x y hx ⟨b.getLastD t, lastD_mem b t, hy⟩
      · exact (ih h1.2.1 hx).2

theorem dom_first {f : S} {b : List S} {x : D} (hx : o.Mem x (g.key f)) : Dom o g (f :: b) x := ⟨f, by simp, hx⟩

theorem dom_last {f : S} {b : List S} {x : D} (hx : o.Mem x (g.key (b.getLastD f))) : Dom o g (f :: b) x :=
  ⟨_, lastD_mem b f, hx⟩

theorem wf_last {f : S} {b : List S} (hw : WF o g (f :: b)) : o.Nonempty (g.key (b.getLastD f)) :=
  hw.nonempty _ (lastD_mem b f)

theorem firstOf_spec {e : ElementOps D I} (h : DiscreteClass o e) (unit : D) {l : List S} (hw : WF o g l)
    (hn : ∃ x, Dom o g l x) :
    Dom o g l (firstOf g unit e l) ∧ ∀ x, Dom o g l x → firstOf g unit e l ≤ x := by
  cases l with
  | nil => obtain ⟨x, hx⟩ := hn; simp at hx
  | cons f b =>
    have hf := (wf_cons.1 hw).1
    have h1 : o.Mem (e.first (g.key f)) (g.key f) := by
      obtain ⟨z, hz⟩ := hf
      have := (h.mem_iff ⟨z, hz⟩ z).1 hz
      exact (h.mem_iff ⟨z, hz⟩ _).2 ⟨le_refl _, le_trans this.1 this.2⟩
    refine ⟨dom_first h1, fun x hx => ?_⟩
    rcases (ends_of hw hx).1 with hx | hx
    · exact ((h.mem_iff hf x).1 hx).1
    · exact le_of_lt (hx _ h1)

theorem lastOf_spec {e : ElementOps D I} (h : DiscreteClass o e) (zero : D) {l : List S} (hw : WF o g l)
    (hn : ∃ x, Dom o g l x) :
    Dom o g l (lastOf g zero e l) ∧ ∀ x, Dom o g l x → x ≤ lastOf g zero e l := by
  cases l with
  | nil => obtain ⟨x, hx⟩ := hn; simp at hx
  | cons f b =>
    have hf := wf_last hw
    have h1 : o.Mem (e.last (g.key (b.getLastD f))) (g.key (b.getLastD f)) := by
      obtain ⟨z, hz⟩ := hf
      have := (h.mem_iff ⟨z, hz⟩ z).1 hz
      exact (h.mem_iff ⟨z, hz⟩ _).2 ⟨le_trans this.1 this.2, le_refl _⟩
    refine ⟨dom_last h1, fun x hx => ?_⟩
    rcases (ends_of hw hx).2 with hx | hx
    · exact ((h.mem_iff hf x).1 hx).2
    · exact le_of_lt (hx _ h1)

theorem firstOf_lastOf {e : ElementOps D I} (h : DiscreteClass o e) {zero unit : D} (hu : zero < unit) {l : List S}
    (hw : WF o g l) : firstOf g unit e l ≤ lastOf g zero e l ↔ ∃ x, Dom o g l x := by
  constructor
  · intro hle
    cases l with
    | nil => exact absurd hle (not_le_of_gt hu)
    | cons f b =>
      obtain ⟨z, hz⟩ := (wf_cons.1 hw).1
      exact ⟨z, dom_first hz⟩
  · intro hn
    exact (firstOf_spec h unit hw hn).2 _ (lastOf_spec h zero hw hn).1

theorem endsOf_spec {lo up : I → D} (h : EndsClass o lo up) {zero unit : D} (hu : zero < unit) {l : List S}
    (hw : WF o g l) (x : D) :
    (Dom o g l x → lowerOf g unit lo l ≤ x ∧ x ≤ upperOf g zero up l) ∧
      (lowerOf g unit lo l < x → x < upperOf g zero up l → ∃ y z, Dom o g l y ∧ Dom o g l z ∧ y ≤ x ∧ x ≤ z) := by
  cases l with
  | nil => exact ⟨fun hx => by simp at hx, fun h1 h2 => absurd (lt_trans hu (lt_trans h1 h2)) (lt_irrefl _)⟩
  | cons f b =>
    obtain ⟨a, ha⟩ := (wf_cons.1 hw).1
    obtain ⟨c, hc⟩ := wf_last hw
    refine ⟨fun hx => ⟨?_, ?_⟩, fun h1 h2 => ?_⟩
    · rcases (ends_of hw hx).1 with hx | hx
      · exact ((h.mem _ x).1 hx).1
      · exact le_trans ((h.mem _ a).1 ha).1 (le_of_lt (hx a ha))
    · rcases (ends_of hw hx).2 with hx | hx
      · exact ((h.mem _ x).1 hx).2
      · exact le_trans (le_of_lt (hx c hc)) ((h.mem _ c).1 hc).2
    · have hy : ∃ y, Dom o g (f :: b) y ∧ y ≤ x := by
        rcases le_or_gt a x with hax | hax
        · exact ⟨a, dom_first ha, hax⟩
        · refine ⟨x, dom_first ((h.mem _ x).2 h1 (lt_of_lt_of_le hax ((h.mem _ a).1 ha).2)), le_refl _⟩
      have hz : ∃ z, Dom o g (f :: b) z ∧ x ≤ z := by
        rcases le_or_gt x c with hxc | hxc
        · exact ⟨c, dom_last hc, hxc⟩
        · exact ⟨x, dom_last ((h.mem _ x).2 (lt_of_le_of_lt ((h.mem _ c).1 hc).1 hxc) h2), le_refl _⟩
      obtain ⟨y, hy, hyx⟩ := hy
      obtain ⟨z, hz, hxz⟩ := hz
      exact ⟨y, z, hy, hz, hyx, hxz⟩

theorem endsOf_empty {lo up : I → D} (h : EndsClass o lo up) {zero unit : D} (hu : zero < unit) {l : List S}
    (hw : WF o g l) : lowerOf g unit lo l ≤ upperOf g zero up l ↔ ∃ x, Dom o g l x := by
  constructor
  · intro hle
    cases l with
    | nil => exact absurd hle (not_le_of_gt hu)
    | cons f b =>
      obtain ⟨z, hz⟩ := (wf_cons.1 hw).1
      exact ⟨z, dom_first hz⟩
  · rintro ⟨x, hx⟩
    have := (endsOf_spec h hu hw x).1 hx
    exact le_trans this.1 this.2

end

namespace IMap
section
variable {D I V : Type} [LinearOrder D] [DecidableEq V] {o : IntervalOps D I} {t : MapType V}

/-- The loop does not end if the predicate fails for a segment. -/
theorem addIf_loops {p : I × V → Bool} {s : I × V} (hp : p s = false) :
    ∀ (n : Nat) (m src : List (I × V)), s ∈ src → addIf o t p n m src = none
  | 0, _, _, _ => by rw [addIf]
  | n + 1, m, u :: src, hs => by
    rw [addIf]
    cases hu : p u with
    | false => rw [if_neg (by simp)]; exact addIf_loops hp n m (u :: src) hs
    | true =>
      rw [if_pos rfl]
      have hs' : s ∈ src := by
        rcases List.mem_cons.1 hs with rfl | h
        · rw [hp] at hu; cases hu
        · exact h
      cases addSeg o t m u.1 u.2 with
      | none => rfl
      | some m' => exact addIf_loops hp n m' src hs'

/-- If the predicate holds for all segments the loop adds them one after the other. -/
theorem addIf_all {p : I × V → Bool} : ∀ (src : List (I × V)) (n : Nat) (m : List (I × V)),
    (∀ s ∈ src, p s = true) → src.length < n → addIf o t p n m src = forEach (fun m s => addSeg o t m s.1 s.2) m src
  | [], n + 1, m, _, _ => by rw [addIf, forEach]
  | s :: src, n + 1, m, hp, hn => by
    rw [addIf, if_pos (hp s (by simp)), forEach]
    cases e : addSeg o t m s.1 s.2 with
    | none => rfl
    | some m' => exact addIf_all src n m' (fun u hu => hp u (by simp [hu])) (by simpa using hn)

theorem addSegs_pt (h : o.Lawful) (t : MapType V) {l r : List (I × V)} (hl : WF o mapSeg l) (hr : WF o mapSeg r) :
    ∃ l', forEach (fun m (s : I × V) => addSeg o t m s.1 s.2) l r = some l' ∧
      Pt o t.cfg (Spec.Versions t) l l' (over o r fun _ => addF t.cfg t.plus) :=
  forEach_pt hr (fun l hl s _ => addSeg_ptv h t hl s.1 s.2) hl

end
end IMap
end ICL
