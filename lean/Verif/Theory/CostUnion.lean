import Verif.Theory.CostFun
import Verif.Theory.BordersMap
import Verif.Theory.MapBridge
import Mathlib.Data.Fintype.Card

/-!
# What operations with containers as operands cost in total

A segment of the operand overlaps one segment more than it has borders of the container inside, and no border is inside
of two segments of the operand.
-/

set_option linter.unusedSectionVars false
set_option linter.unusedVariables false

namespace ICL
namespace Cost
open Spec Classical

section
variable {D I : Type} [LinearOrder D] {o : IntervalOps D I}

/-- The place `c` is inside of `k`. -/
def Splits (o : IntervalOps D I) (k : I) (c : Set D) : Prop :=
  (∃ x, o.Mem x k ∧ x ∈ c) ∧ ∃ y, o.Mem y k ∧ y ∉ c

/-- How many borders of `K` are inside of `k`. -/
noncomputable def inside (o : IntervalOps D I) (K : List I) (k : I) : Nat :=
  ((borderList o K).filter fun c => decide (Splits o k c)).length

theorem not_splits {R : List I} (hR : WF o setSeg R) {k i : I} (hk : k ∈ R) (hi : i ∈ R) :
    ¬ Splits o k (LowerBorder o i) ∧ ¬ Splits o k (UpperBorder o i) := by
  obtain ⟨e, he⟩ := hR.nonempty i hi
  change o.Mem e i at he
  by_cases hik : i = k
  · subst hik
    constructor
    · rintro ⟨⟨x, hx, hx'⟩, -⟩
      exact lt_irrefl _ (hx' x hx)
    · rintro ⟨-, y, hy, hy'⟩
      exact hy' ⟨y, hy, le_refl _⟩
  · have hb : o.Before i k ∨ o.Before k i := by
      obtain ⟨p, q, rfl⟩ := List.append_of_mem hi
      have hs := hR.sorted
      rw [List.pairwise_append, List.pairwise_cons] at hs
      rcases List.mem_append.1 hk with hk | hk
      · exact .inr (hs.2.2 k hk i (by simp))
      · rcases List.mem_cons.1 hk with hk | hk
        · exact absurd hk.symm hik
        · exact .inl (hs.2.1.1 k hk)
    rcases hb with hb | hb
    · constructor
      · rintro ⟨⟨x, hx, hx'⟩, -⟩
        exact lt_asymm (hb e x he hx) (hx' e he)
      · rintro ⟨⟨x, hx, z, hz, hz'⟩, -⟩
        exact absurd (hb z x hz hx) (not_lt.2 hz')
    · constructor
      · rintro ⟨-, y, hy, hy'⟩
        exact hy' fun z hz => hb y z hy hz
      · rintro ⟨-, y, hy, hy'⟩
        exact hy' ⟨e, he, (hb y e hy he).le⟩

theorem overlapped_le_inside {K R l : List I} (hl : WF o setSeg l) (hb : Borders o l ⊆ Borders o (K ++ R))
    (hR : WF o setSeg R) {k : I} (hk : k ∈ R) : overlapped o l k ≤ inside o K k + 1 := by
  unfold overlapped
  have hsub := List.filter_sublist (p := fun i => decide (∃ x, In o x i ∧ In o x k)) (l := l)
  have hw : WF o setSeg (l.filter fun i => decide (∃ x, In o x i ∧ In o x k)) :=
    ⟨fun s hs => hl.nonempty s (hsub.subset hs), hl.sorted.sublist hsub⟩
  have hm : ∀ i ∈ l.filter (fun i => decide (∃ x, In o x i ∧ In o x k)), i ∈ l ∧ ∃ x, In o x i ∧ In o x k := by
    intro i hi
    simpa using List.mem_filter.1 hi
  generalize l.filter _ = f at hw hm ⊢
  cases f with
  | nil => simp
  | cons s f =>
    have hnd : (f.map (LowerBorder o)).Nodup :=
      (List.pairwise_cons.1 (wf_lower_pairwise hw)).2.imp fun hab => hab.ne
    have hss : f.map (LowerBorder o) ⊆ (borderList o K).filter fun c => decide (Splits o k c) := by
      intro c hc
      obtain ⟨s', hs', rfl⟩ := List.mem_map.1 hc
      obtain ⟨hsl, x, hx, hx'⟩ := hm s (by simp)
      obtain ⟨hsl', y, hy, hy'⟩ := hm s' (by simp [hs'])
      have hbs := (List.pairwise_cons.1 hw.sorted).1 s' hs'
      have hsp : Splits o k (LowerBorder o s') :=
        ⟨⟨x, hx', fun z hz => hbs x z hx hz⟩, y, hy', fun hc => lt_irrefl _ (hc y hy)⟩
      rw [List.mem_filter, mem_borderList, decide_eq_true_iff]
      refine ⟨?_, hsp⟩
      obtain ⟨i, hi, hn, he⟩ := hb ⟨s', hsl', ⟨y, hy⟩, .inl rfl⟩
      rcases List.mem_append.1 hi with hi | hi
      · exact ⟨i, hi, hn, he⟩
      · exfalso
        have := not_splits hR hk hi
        rcases he with he | he
        · rw [he] at hsp; exact this.1 hsp
        · rw [he] at hsp; exact this.2 hsp
    have := (List.subperm_of_subset hnd hss).length_le
    rw [List.length_map] at this
    unfold inside
    simp only [List.length_cons]
    omega

theorem splits_once {R : List I} (hR : WF o setSeg R) {c : Set D} (hc : IsLowerSet c) :
    (R.filter fun k => decide (Splits o k c)).length ≤ 1 := by
  have hsub := List.filter_sublist (p := fun k => decide (Splits o k c)) (l := R)
  have hs := hR.sorted.sublist hsub
  have hm : ∀ k ∈ R.filter (fun k => decide (Splits o k c)), Splits o k c := by
    intro k hk
    simpa using (List.mem_filter.1 hk).2
  generalize R.filter _ = f at hs hm ⊢
  match f with
  | [] => simp
  | [_] => simp
  | i :: j :: f =>
    exfalso
    obtain ⟨-, y, hy, hyc⟩ := hm i (by simp)
    obtain ⟨⟨x, hx, hxc⟩, -⟩ := hm j (by simp)
    exact hyc (hc ((List.pairwise_cons.1 hs).1 j (by simp) y x hy hx).le hxc)

theorem sum_filter_cons (R : List I) (c : Set D) (L : List (Set D)) :
    (R.map fun k => ((c :: L).filter fun c => decide (Splits o k c)).length).sum =
      (R.filter fun k => decide (Splits o k c)).length +
        (R.map fun k => (L.filter fun c => decide (Splits o k c)).length).sum := by
  induction R with
  | nil => rfl
  | cons k R ih =>
    rw [List.map_cons, List.sum_cons, ih, List.map_cons, List.sum_cons]
    by_cases hk : Splits o k c
    · simp only [List.filter_cons, hk, decide_true, if_true, List.length_cons]; omega
    · simp only [List.filter_cons, hk, decide_false, Bool.false_eq_true, if_false]; omega

theorem sum_inside_le {K R : List I} (hR : WF o setSeg R) : (R.map (inside o K)).sum ≤ 2 * K.length := by
  refine le_trans ?_ (card_borders_list (o := o) (K := K))
  have : ∀ L : List (Set D), (∀ c ∈ L, IsLowerSet c) →
      (R.map fun k => (L.filter fun c => decide (Splits o k c)).length).sum ≤ L.length := by
    intro L
    induction L with
    | nil => intro _; simp
    | cons c L ih =>
      intro hL
      rw [sum_filter_cons]
      have h1 := splits_once hR (hL c (by simp))
      have h2 := ih fun c hc => hL c (by simp [hc])
      simp only [List.length_cons]
      omega
  exact this _ fun c hc => isLowerSet_border (mem_borderList.1 hc)

end

theorem le_times {a b : Nat} (hab : a ≤ b) (u : Work) : Le (times a u) (times b u) :=
  ⟨Nat.mul_le_mul_right _ hab, Nat.mul_le_mul_right _ hab, Nat.mul_le_mul_right _ hab, Nat.mul_le_mul_right _ hab⟩

section
variable {S X : Type}

theorem chain_took {f : It → X → CostM S It} {F : It → X → TreeM S It} {Inv : It → Tree S → Prop} {q : X → Nat}
    {u v : Work} : ∀ {r : List X}, (∀ x ∈ r, ∀ p t, Inv p t → ∃ p' t', Took (f p x) t p' t' (times (q x) u + v) ∧
      F p x t = some (p', t') ∧ Inv p' t') → ∀ {p : It} {t : Tree S}, Inv p t →
    ∃ p' t', Took (chain f p r) t p' t' (times (r.map q).sum u + times r.length v) ∧
      Tree.chain F p r t = some (p', t') ∧ Inv p' t'
  | [], _, p, t, hi => ⟨p, t, ((Costs.pure p).took (t := t) rfl).mono (by work), rfl, hi⟩
  | x :: r, hf, p, t, hi => by
    obtain ⟨p1, t1, k1, r1, i1⟩ := hf x (by simp) p t hi
    obtain ⟨p2, t2, k2, r2, i2⟩ := chain_took (r := r) (fun y hy => hf y (by simp [hy])) i1
    refine ⟨p2, t2, (k1.bind k2).mono ?_, by rw [Tree.chain, Tree.run_bind r1, r2], i2⟩
    simp only [Le, times, add_searches, add_hinted, add_steps, add_allocated, List.map_cons, List.sum_cons,
      List.length_cons, Nat.add_mul, Nat.one_mul]
    omega

end

section
variable {D I : Type} [LinearOrder D] {o : IntervalOps D I} (h : o.Lawful)
include h

theorem Sets.addSet_took (oracle : List I → I → Nat) {t : Tree I} (ht : t.Ok) (hw : WF o setSeg t.segs) {r : List I}
    (hr : WF o setSeg r) :
    ∃ t', Took (Sets.addSet o .splitting oracle r) t () t'
      ⟨2 * r.length, 2 * t.nodes.length + 5 * r.length, 10 * t.nodes.length + 25 * r.length, 0,
        2 * t.nodes.length + 5 * r.length⟩ ∧ Tree.Sets.addSet o .splitting oracle r t = some ((), t') := by
  obtain ⟨p', t', k1, r1, -⟩ := chain_took (f := Sets.addWith o .splitting oracle)
    (F := Tree.Sets.addWith o .splitting oracle) (q := inside o t.segs) (u := ⟨0, 1, 5, 0, 1⟩) (v := ⟨2, 5, 25, 0, 5⟩)
    (r := r) (Inv := fun p t1 => t1.Valid p ∧ t1.Ok ∧ WF o setSeg t1.segs ∧ Fits o setSeg (t.segs ++ r) t1.segs)
    (p := none) (t := t) (by
      rintro x hx p t1 ⟨hp, ho, hw1, hf⟩
      obtain ⟨it, t2, r2, o2, s2, e2, sp, q2⟩ := Tree.Sets.addHint_added h (st := .splitting) ho hw1 x
        (oracle t1.segs x) hp
      obtain ⟨A, B, C, he, hB⟩ := overlapped_range h hw1 (hr.nonempty x hx)
      simp only [setSeg, List.map_id, id] at hB
      have hin := overlapped_le_inside hw1 (hf.borders h) hr hx
      rw [← hB] at hin
      refine ⟨it, t2, ?_, ?_, ?_, o2, sp.wf, ?_⟩
      · have := (Sets.addHint_within h ho s2 hp he).took (Sets.erases_addHint _ _ _ _) r2
        unfold Sets.addWith
        refine ((took_get t1).bind this).mono ?_
        simp only [Le, times, add_searches, add_hinted, add_steps, add_allocated]
        omega
      · unfold Tree.Sets.addWith
        rw [Tree.run_bind (Tree.run_get t1), r2]
      · rcases q2 with ⟨he', rfl⟩ | ⟨-, A, B, C, L, i, s, R, -, rfl, ha, -⟩
        · rw [e2 he']; exact hp
        · exact ha.valid
      · exact AddSpec.fits h hw1 (by simp) sp hf (respects_of_mem (by simp [hx])))
    ⟨Tree.valid_none, ht, hw, fits_of_subset (by simp +contextual)⟩
  have hs := sum_inside_le (K := t.segs) hr
  have hl : t.segs.length = t.nodes.length := by simp [Tree.segs]
  refine ⟨t', ((k1.bind ((Costs.pure ()).took (t := t') rfl)).mono ?_), by
    unfold Tree.Sets.addSet; rw [Tree.run_bind r1]; rfl⟩
  simp only [Le, times, add_searches, add_hinted, add_steps, add_allocated]
  omega

theorem Sets.subSet_took {t : Tree I} (ht : t.Ok) (hw : WF o setSeg t.segs) {r : List I} (hr : WF o setSeg r) :
    ∃ t', Took (Sets.subSet o r) t () t' ⟨4 * r.length + 2, 0, 3 * r.length + 4, 0, 2 * r.length⟩ ∧
      Tree.Sets.subSet o r t = some ((), t') := by
  obtain ⟨l, el, -⟩ := ISet.subSet_spec h hw hr
  obtain ⟨t', r1, -⟩ := Tree.Sets.subSet_run h ht el
  refine ⟨t', ?_, r1⟩
  obtain ⟨cr, h1, -, h3⟩ := commonRange_spec h hr hw
  unfold Sets.subSet
  unfold Tree.Sets.subSet at r1
  rw [Tree.run_bind (Tree.run_get t), h1, Tree.run_bind (Tree.run_ofOption cr t)] at r1
  have hc : Took (common (commonRange o setSeg r t.segs)) t cr t { searches := 2, steps := 4 } :=
    ⟨{ searches := 2, steps := 4 }, by rw [h1]; rfl, by decide, rfl⟩
  cases cr with
  | none =>
    cases r1
    refine Took.mono ((took_get t).bind (hc.bind ((Costs.pure ()).took (t := t) rfl))) (by work)
  | some abc =>
    obtain ⟨a, b, c⟩ := abc
    have hb : b.length ≤ r.length := by rw [(h3 a b c rfl).1]; simp only [List.length_append]; omega
    have := costs_chain (f := fun _ k => do Sets.subtract o k; return none)
      (F := fun _ k => do Tree.Sets.subtract o k; return none) (b := ⟨4, 0, 3, 0, 2⟩)
      (fun p k => ((costs_Sets_subtract k).bind fun _ => Costs.pure none).mono (by decide)) b none
    refine Took.mono ((took_get t).bind (hc.bind ((this.bind fun _ => Costs.pure ()).took r1))) ?_
    simp only [Le, times, add_searches, add_hinted, add_steps, add_allocated]
    omega

end

/-- Elements of different segments. -/
theorem length_ge {D I W S : Type} [LinearOrder D] {o : IntervalOps D I} {g : SegOps I W S} {l : List S} {N : Nat}
    (e : Nat → D) (hd : ∀ i < N, Dom o g l (e i)) (hs : ∀ i j, i < j → j < N → ¬ Same o g l (e i) (e j)) :
    N ≤ l.length := by
  have hd' : ∀ i : Fin N, ∃ s : Fin l.length, o.Mem (e i) (g.key (l.get s)) := by
    intro i
    obtain ⟨s, hs, hx⟩ := hd i i.2
    obtain ⟨k, hk, rfl⟩ := List.getElem_of_mem hs
    exact ⟨⟨k, hk⟩, hx⟩
  choose f hf using hd'
  have hf' : ∀ i j : Fin N, i < j → f i ≠ f j := fun i j hij he =>
    hs i j hij j.2 ⟨l.get (f i), List.get_mem _ _, hf i, he ▸ hf j⟩
  have hinj : Function.Injective f := by
    intro i j he
    rcases lt_trichotomy i j with hij | hij | hij
    · exact absurd he (hf' i j hij)
    · exact hij
    · exact absurd he.symm (hf' j i hij)
  simpa using Fintype.card_le_of_injective f hinj

section
variable {D I V : Type} [LinearOrder D] {o : IntervalOps D I} [DecidableEq V] (h : o.Lawful) (m : MapType V)

include h

/-- A segment of the operand in a map between the calls. -/
theorem map_inside {c : MapCfg V} {K : List I} {r : List (I × V)} (hr : WF o mapSeg r) {x : I × V} (hx : x ∈ r)
    {t : Tree (I × V)} (hf : MFit o c (K ++ r.map Prod.fst) t.segs) :
    ∃ A B C, ICL.equalRange o (Tree.nodeSeg mapSeg) t.nodes x.1 = some (A, B, C) ∧ B.length ≤ inside o K x.1 + 1 := by
  obtain ⟨A, B, C, he, hB⟩ := overlapped_range h hf.wf (hr.nonempty x hx)
  refine ⟨A, B, C, he, ?_⟩
  rw [hB]
  exact overlapped_le_inside (wf_keys.2 hf.wf) ((fits_keys.2 hf.fits).borders h) (wf_keys.2 hr)
    (List.mem_map.2 ⟨x, hx, rfl⟩)

/-- Operations with a map as operand, segment by segment. -/
theorem maps_chain {c : MapCfg V} {f : It → I × V → CostM (I × V) It} {F : It → I × V → TreeM (I × V) It} {u v : Work}
    {K : List I} {r : List (I × V)} (hr : WF o mapSeg r)
    (hs : ∀ x ∈ r, ∀ p t1, t1.Valid p → t1.Ok → MFit o c (K ++ r.map Prod.fst) t1.segs → Respects o (K ++ r.map Prod.fst) x.1 →
      ∀ A B C, ICL.equalRange o (Tree.nodeSeg mapSeg) t1.nodes x.1 = some (A, B, C) →
      ∃ p' t', Took (f p x) t1 p' t' (times B.length u + v) ∧ F p x t1 = some (p', t') ∧ t'.Valid p' ∧ t'.Ok ∧
        MFit o c (K ++ r.map Prod.fst) t'.segs)
    {p : It} {t : Tree (I × V)} (hp : t.Valid p) (ht : t.Ok) (hf : MFit o c (K ++ r.map Prod.fst) t.segs) :
    ∃ p' t', Took (chain f p r) t p' t' (times (2 * K.length + r.length) u + times r.length v) ∧
      Tree.chain F p r t = some (p', t') := by
  obtain ⟨p', t', k1, r1, -⟩ := chain_took (f := f) (F := F) (q := fun x => inside o K x.1 + 1) (u := u) (v := v) (r := r)
    (Inv := fun p t1 => t1.Valid p ∧ t1.Ok ∧ MFit o c (K ++ r.map Prod.fst) t1.segs) (p := p) (t := t) (by
      rintro x hx p t1 ⟨hp, ho, hf⟩
      obtain ⟨A, B, C, he, hB⟩ := map_inside h hr hx hf
      obtain ⟨p', t', k2, r2, i2⟩ := hs x hx p t1 hp ho hf
        (respects_of_mem (by simp only [List.mem_append, List.mem_map]; exact .inr ⟨x, hx, rfl⟩)) A B C he
      refine ⟨p', t', k2.mono ?_, r2, i2⟩
      have := le_times hB u
      simp only [Le, add_searches, add_hinted, add_steps, add_allocated] at this ⊢
      omega) ⟨hp, ht, hf⟩
  refine ⟨p', t', k1.mono ?_, r1⟩
  have h1 := sum_inside_le (K := K) (wf_keys.2 hr)
  have h2 : (r.map fun x => inside o K x.1 + 1).sum = ((r.map Prod.fst).map (inside o K)).sum + r.length := by
    clear * -
    induction r with
    | nil => rfl
    | cons x r ih => simp only [List.map_cons, List.sum_cons, List.length_cons, ih]; omega
  have := le_times (h2 ▸ Nat.add_le_add_right h1 r.length) u
  simp only [Le, add_searches, add_hinted, add_steps, add_allocated] at this ⊢
  omega

omit h in
theorem mfit_operands {c : MapCfg V} {l : List (I × V)} (hw : WF o mapSeg l) (hj : c.joining = true → Joined o mapSeg l)
    (K : List I) : MFit o c (l.map Prod.fst ++ K) l :=
  ⟨hw, hj, fits_of_keys fun s hs => List.mem_append.2 (.inl (List.mem_map.2 ⟨s, hs, rfl⟩))⟩

variable {t : Tree (I × V)} (ht : t.Ok) (hw : WF o mapSeg t.segs) (hj : m.cfg.joining = true → Joined o mapSeg t.segs)
  {r : List (I × V)} (hr : WF o mapSeg r)
include ht hw hj hr

theorem Maps.addMap_took (oracle : List (I × V) → I → Nat) :
    ∃ t', Took (Maps.addMap o m oracle r) t () t'
      ⟨r.length, 2 * t.nodes.length + 5 * r.length, 46 * t.nodes.length + 70 * r.length, 0,
        2 * t.nodes.length + 5 * r.length⟩ ∧ Tree.Maps.addMap o m oracle r t = some ((), t') := by
  obtain ⟨p', t', k1, r1⟩ := maps_chain h (f := Maps.addWith o m oracle) (F := Tree.Maps.addWith o m oracle) (c := m.cfg)
    (u := ⟨0, 1, 23, 0, 1⟩) (v := ⟨1, 4, 47, 0, 4⟩) hr (by
      intro x hx p t1 hp ho hf hk A B C he
      obtain ⟨l, el, -⟩ := IMap.addHintC_gen h m.cfg m.plus (oracle t1.segs x.1) hf.wf x.1 x.2
      obtain ⟨it, t2, r2, o2, s2, q2⟩ := Tree.Maps.addHintC_run h ho el hp
      refine ⟨it, t2, ?_, ?_, q2.1, o2, s2 ▸ addHintC_fits h _ hf hk el⟩
      · have := (Maps.addHintC_within h ho el hp he).took (Maps.erases_addHintC _ _) r2
        unfold Maps.addWith
        refine ((took_get t1).bind this).mono ?_
        simp only [Le, times, add_searches, add_hinted, add_steps, add_allocated]
        omega
      · unfold Tree.Maps.addWith
        rw [Tree.run_bind (Tree.run_get t1), r2])
    Tree.valid_none ht (mfit_operands hw hj _)
  refine ⟨t', ((k1.bind ((Costs.pure ()).took (t := t') rfl)).mono ?_), by
    unfold Tree.Maps.addMap; rw [Tree.run_bind r1]; rfl⟩
  have hl : (t.segs.map Prod.fst).length = t.nodes.length := by simp [Tree.segs]
  simp only [Le, times, add_searches, add_hinted, add_steps, add_allocated, hl]
  omega

theorem Maps.insertMap_took (oracle : List (I × V) → I → Nat) :
    ∃ t', Took (Maps.insertMap o m oracle r) t () t'
      ⟨r.length, 4 * t.nodes.length + 5 * r.length, 76 * t.nodes.length + 81 * r.length, 0,
        4 * t.nodes.length + 5 * r.length⟩ ∧ Tree.Maps.insertMap o m oracle r t = some ((), t') := by
  obtain ⟨p', t', k1, r1⟩ := maps_chain h (f := fun _ s => do
      let _ ← Maps.insertWith o m oracle none s
      return none) (F := fun _ s => do
      let _ ← Tree.Maps.insertWith o m oracle none s
      return none) (c := m.cfg)
    (u := ⟨0, 2, 38, 0, 2⟩) (v := ⟨1, 3, 43, 0, 3⟩) hr (by
      intro x hx p t1 hp ho hf hk A B C he
      have hb := fun b => IMap.insertHint_at h m.cfg (oracle t1.segs x.1) b hf.wf x.1 x.2
      choose l el _ _ _ using hb
      obtain ⟨b, it, t2, r2, o2, s2, q2⟩ := Tree.Maps.insertHint_run h ho el (Tree.valid_none (t := t1))
      have r3 : Tree.Maps.insertWith o m oracle none x t1 = some (it, t2) := by
        unfold Tree.Maps.insertWith
        rw [Tree.run_bind (Tree.run_get t1), r2]
      refine ⟨none, t2, ?_, by rw [Tree.run_bind r3]; rfl, Tree.valid_none, o2, s2 ▸ insertHint_fits h hf hk (el b)⟩
      have := (Maps.insertHint_within h ho el (Tree.valid_none (t := t1)) he).took (Maps.erases_insertHint _ _) r2
      have k3 : Took (Maps.insertWith o m oracle none x) t1 it t2 _ := (took_get t1).bind this
      refine (k3.bind ((Costs.pure none).took (t := t2) rfl)).mono ?_
      simp only [Le, times, add_searches, add_hinted, add_steps, add_allocated]
      omega)
    (p := none) Tree.valid_none ht (mfit_operands hw hj _)
  refine ⟨t', ((k1.bind ((Costs.pure ()).took (t := t') rfl)).mono ?_), by
    unfold Tree.Maps.insertMap; rw [Tree.run_bind r1]; rfl⟩
  have hl : (t.segs.map Prod.fst).length = t.nodes.length := by simp [Tree.segs]
  simp only [Le, times, add_searches, add_hinted, add_steps, add_allocated, hl]
  omega

theorem Maps.subMap_took :
    ∃ t', Took (Maps.subMap o m r) t () t'
      ⟨3 * r.length, 2 * t.nodes.length + 4 * r.length, 46 * t.nodes.length + 68 * r.length, 0,
        2 * t.nodes.length + 5 * r.length⟩ ∧ Tree.Maps.subMap o m r t = some ((), t') := by
  obtain ⟨p', t', k1, r1⟩ := maps_chain h (f := fun _ s => do
      Maps.subtract o m s.1 s.2
      return none) (F := fun _ s => do
      Tree.Maps.subtract o m s.1 s.2
      return none) (c := m.cfg)
    (u := ⟨0, 1, 23, 0, 1⟩) (v := ⟨3, 3, 45, 0, 4⟩) hr (by
      intro x hx p t1 hp ho hf hk A B C he
      obtain ⟨l, el, -⟩ := ICL.subSeg_at h m hf.wf x.1 x.2
      obtain ⟨t2, r2, o2, s2⟩ := Tree.Maps.subtract_run h m ho el
      refine ⟨none, t2, ?_, by rw [Tree.run_bind r2]; rfl, Tree.valid_none, o2, s2 ▸ subSeg_fits h hf hk el⟩
      have := (Maps.subtract_within m h ho el he).took (Maps.erases_subtract m _ _) r2
      refine (this.bind ((Costs.pure none).took (t := t2) rfl)).mono ?_
      simp only [Le, times, add_searches, add_hinted, add_steps, add_allocated]
      omega)
    (p := none) Tree.valid_none ht (mfit_operands hw hj _)
  refine ⟨t', ((k1.bind ((Costs.pure ()).took (t := t') rfl)).mono ?_), by
    unfold Tree.Maps.subMap; rw [Tree.run_bind r1]; rfl⟩
  have hl : (t.segs.map Prod.fst).length = t.nodes.length := by simp [Tree.segs]
  simp only [Le, times, add_searches, add_hinted, add_steps, add_allocated, hl]
  omega

theorem Maps.eraseMap_took :
    ∃ t', Took (Maps.eraseMap o m r) t () t'
      ⟨r.length + 2, r.length, 6 * t.nodes.length + 8 * r.length + 4, 0, r.length⟩ ∧
      Tree.Maps.eraseMap o m r t = some ((), t') := by
  obtain ⟨cr, h1, -, h3⟩ := commonRange_spec h hr (wf_keys.2 hw)
  have hc : Took (common (commonRange o mapSeg r (t.segs.map Prod.fst))) t cr t { searches := 2, steps := 4 } :=
    ⟨{ searches := 2, steps := 4 }, by rw [h1]; rfl, by decide, rfl⟩
  unfold Maps.eraseMap Tree.Maps.eraseMap
  rw [Tree.run_bind (Tree.run_get t), h1, Tree.run_bind (Tree.run_ofOption cr t)]
  cases cr with
  | none => exact ⟨t, Took.mono ((took_get t).bind (hc.bind ((Costs.pure ()).took (t := t) rfl))) (by work), rfl⟩
  | some abc =>
    obtain ⟨a, b, c⟩ := abc
    have hab := (h3 a b c rfl).1
    have hb : b.length ≤ r.length := by rw [hab]; simp only [List.length_append]; omega
    have hrb : WF o mapSeg b := by
      have hsub : b.Sublist r := by
        rw [hab]
        exact (List.sublist_append_right a b).trans (List.sublist_append_left _ _)
      exact ⟨fun s hs => hr.nonempty s (hsub.subset hs), hr.sorted.sublist hsub⟩
    obtain ⟨p', t', k1, r1⟩ := maps_chain h (f := fun _ s => do
        Maps.eraseSeg o m.cfg s.1 s.2
        return none) (F := fun _ s => do
        Tree.Maps.eraseSeg o m.cfg s.1 s.2
        return none) (c := m.cfg)
      (u := ⟨0, 0, 3, 0, 0⟩) (v := ⟨1, 1, 5, 0, 1⟩) hrb (by
        intro x hx p t1 hp ho hf hk A B C he
        obtain ⟨l, el, -⟩ := IMap.eraseSeg_at h m.cfg hf.wf x.1 x.2
        obtain ⟨t2, r2, o2, s2, -⟩ := Tree.Maps.eraseSeg_run h ho el
        refine ⟨none, t2, ?_, by rw [Tree.run_bind r2]; rfl, Tree.valid_none, o2, s2 ▸ eraseSeg_fits h hf hk el⟩
        have := (Maps.eraseSeg_within h ho el he).took Maps.erases_eraseSeg r2
        refine (this.bind ((Costs.pure none).took (t := t2) rfl)).mono ?_
        simp only [Le, times, add_searches, add_hinted, add_steps, add_allocated]
        omega)
      (p := none) Tree.valid_none ht (mfit_operands hw hj _)
    refine ⟨t', Took.mono ((took_get t).bind (hc.bind (k1.bind ((Costs.pure ()).took (t := t') rfl)))) ?_, by
      dsimp only; rw [Tree.run_bind r1]; rfl⟩
    have hl : (t.segs.map Prod.fst).length = t.nodes.length := by simp [Tree.segs]
    simp only [Le, times, add_searches, add_hinted, add_steps, add_allocated, hl]
    omega

omit hj hr in
theorem Maps.eraseSet_took (c : MapCfg V) {r : List I} (hr : WF o setSeg r) :
    ∃ t', Took (Maps.eraseSet (V := V) o r) t () t'
      ⟨2 * r.length + 2, r.length, 6 * r.length + 4, 0, r.length⟩ ∧
      Tree.Maps.eraseSet o r t = some ((), t') := by
  obtain ⟨l, el⟩ := ICL.eraseSet_at h c hw hr
  obtain ⟨t', r1, -⟩ := Tree.Maps.eraseSet_run h ht el.1
  refine ⟨t', ?_, r1⟩
  obtain ⟨cr, h1, -, h3⟩ := commonRange_spec h hr (wf_keys.2 hw)
  unfold Maps.eraseSet
  unfold Tree.Maps.eraseSet at r1
  rw [Tree.run_bind (Tree.run_get t), h1, Tree.run_bind (Tree.run_ofOption cr t)] at r1
  have hc : Took (common (commonRange o setSeg r (t.segs.map Prod.fst))) t cr t { searches := 2, steps := 4 } :=
    ⟨{ searches := 2, steps := 4 }, by rw [h1]; rfl, by decide, rfl⟩
  cases cr with
  | none =>
    cases r1
    refine Took.mono ((took_get t).bind (hc.bind ((Costs.pure ()).took (t := t) rfl))) (by work)
  | some abc =>
    obtain ⟨a, b, c⟩ := abc
    have hb : b.length ≤ r.length := by rw [(h3 a b c rfl).1]; simp only [List.length_append]; omega
    have := costs_chain (f := fun _ k => do
        Maps.eraseItv (V := V) o k
        return none)
      (F := fun _ k => do
        Tree.Maps.eraseItv o k
        return none) (b := ⟨2, 1, 6, 0, 1⟩)
      (fun p k => ((costs_Maps_eraseItv k).bind fun _ => Costs.pure none).mono (by decide)) b none
    refine Took.mono ((took_get t).bind (hc.bind ((this.bind fun _ => Costs.pure ()).took r1))) ?_
    simp only [Le, times, add_searches, add_hinted, add_steps, add_allocated]
    omega

end
end Cost
end ICL
