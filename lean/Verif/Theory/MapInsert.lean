import Verif.Theory.MapErase

/-!
# Insertion of a segment: interval maps
-/

set_option linter.unusedSectionVars false
set_option linter.unusedSimpArgs false
set_option linter.unusedVariables false

namespace ICL

variable {D I V : Type} [LinearOrder D] {o : IntervalOps D I}

namespace IMap
variable [DecidableEq V]

/-- The gaps of `l` in `k` are filled with `v`; nothing else changes. -/
def Fill (o : IntervalOps D I) (v : V) (l : List (I × V)) (k : I) (x y : D) (w : V) : Prop :=
  Joint o l x y w ∨ (o.Mem x k ∧ o.Mem y k ∧ v = w ∧ ∀ z, Btw x y z → ¬ Dom o mapSeg l z)

structure InsSpec (o : IntervalOps D I) (c : MapCfg V) (v : V) (l : List (I × V)) (k : I)
    (l' : List (I × V)) : Prop where
  wf : WF o mapSeg l'
  joint : ∀ x y w, Dg c x y → (Joint o l' x y w ↔ Fill o v l k x y w)
  joined : c.joining = true → Joined o mapSeg l → Joined o mapSeg l'

section
variable (h : o.Lawful)
include h

/-- `handle_inserted` as it is used by `insert_main`: the node on the right is either left alone or joined to the
inserted one. -/
theorem handleInserted_right (c : MapCfg V) {z : Zip (I × V)} (hw : WF o mapSeg z.toList) {q : I × V}
    {r : List (I × V)} (hr : z.right = q :: r) :
    ∃ z', handleInserted o c z = some z' ∧ WF o mapSeg z'.toList ∧ JointEq o c z'.toList z.toList ∧
      (c.joining = true → Joined o mapSeg z.left → Joined o mapSeg z.right →
        Joined o mapSeg z'.toList) ∧
      (z'.right = q :: r ∨ z'.right = r) := by
  obtain ⟨z', e, hw', hj, hjo⟩ := handleInserted_spec h c hw
  refine ⟨z', e, hw', hj, hjo, ?_⟩
  unfold handleInserted at e
  cases hc : c.joining with
  | false =>
    simp only [hc, Bool.false_eq_true, if_false, Option.some.injEq] at e
    subst e; exact Or.inl hr
  | true =>
    simp only [hc, if_true, joinNeighbours, Option.bind_eq_bind] at e
    obtain ⟨z1, e1, w1, _, r1, _⟩ := joinLeft_spec h mapSeg_lawful hw
    simp only [e1, Option.bind_some] at e
    unfold joinRight at e
    rw [r1, hr] at e
    simp only at e
    split at e
    · cases e
    · simp only [Option.bind_eq_bind, Option.bind_eq_some_iff] at e
      obtain ⟨j, _, e⟩ := e
      simp only [Option.pure_def, Option.some.injEq] at e
      subst e; exact Or.inr rfl
    · simp only [Option.some.injEq] at e
      subst e
      exact Or.inl (r1.trans hr)

/-- One step of the loop of `insert_main`. -/
theorem fill_cons (v : V) {cur : I × V} {mid : List (I × V)} {rest : I} (hw : WF o mapSeg (cur :: mid))
    (x y : D) (w : V) :
    Fill o v (cur :: mid) rest x y w ↔
      (o.Mem x (o.rightSubtract rest cur.1) ∧ o.Mem y (o.rightSubtract rest cur.1) ∧ v = w) ∨
      (o.Mem x cur.1 ∧ o.Mem y cur.1 ∧ cur.2 = w) ∨
      Fill o v mid (o.leftSubtract rest cur.1) x y w := by
  have hw' := wf_cons.1 hw
  simp only [mapSeg_key] at hw'
  simp only [Fill, h.mem_rightSubtract, h.mem_leftSubtract, joint_cons]
  constructor
  · rintro ((h1 | h1) | ⟨hx, hy, hf, hfree⟩)
    · exact Or.inr (Or.inl h1)
    · exact Or.inr (Or.inr (Or.inl h1))
    · have hno : ∀ z, o.Mem z cur.1 → ¬ Btw x y z := fun z hz hb => hfree z hb (by simp [hz])
      rcases point_tri h hw'.1 x with h1 | h1 | h1
      · exact absurd (btw_left x y) (hno x h1)
      · rcases point_tri h hw'.1 y with h2 | h2 | h2
        · exact absurd (btw_right x y) (hno y h2)
        · exact Or.inl ⟨⟨hx, h1⟩, ⟨hy, h2⟩, hf⟩
        · obtain ⟨z, hz⟩ := hw'.1
          exact absurd ⟨(min_le_left _ _).trans (h1 z hz).le, (h2 z hz).le.trans (le_max_right _ _)⟩
            (hno z hz)
      · rcases point_tri h hw'.1 y with h2 | h2 | h2
        · exact absurd (btw_right x y) (hno y h2)
        · obtain ⟨z, hz⟩ := hw'.1
          exact absurd ⟨(min_le_right _ _).trans (h2 z hz).le, (h1 z hz).le.trans (le_max_left _ _)⟩
            (hno z hz)
        · refine Or.inr (Or.inr (Or.inr ⟨⟨hx, h1⟩, ⟨hy, h2⟩, hf, fun z hz hd => ?_⟩))
          exact hfree z hz (by simp [hd])
  · rintro (⟨⟨hx, h1⟩, ⟨hy, h2⟩, hf⟩ | h1 | h1 | ⟨⟨hx, h1⟩, ⟨hy, h2⟩, hf, hfree⟩)
    · refine Or.inr ⟨hx, hy, hf, fun z hz hd => ?_⟩
      have hz' : ∀ u, o.Mem u cur.1 → z < u := fun u hu => lt_of_le_of_lt hz.2 (max_lt (h1 u hu) (h2 u hu))
      rw [dom_cons] at hd
      rcases hd with hd | hd
      · exact absurd (hz' z hd) (lt_irrefl _)
      · obtain ⟨u, hu⟩ := hw'.1
        exact lt_asymm (hz' u hu) (hw'.2.2 u z hu hd)
    · exact Or.inl (Or.inl h1)
    · exact Or.inl (Or.inr h1)
    · refine Or.inr ⟨hx, hy, hf, fun z hz hd => ?_⟩
      rw [dom_cons] at hd
      rcases hd with hd | hd
      · exact absurd (lt_of_lt_of_le (lt_min (h1 z hd) (h2 z hd)) hz.1) (lt_irrefl _)
      · exact hfree z hz hd

/-- The state of the loop of `insert_main`. -/
structure LInv (o : IntervalOps D I) (c : MapCfg V) (left : List (I × V)) (rest : I)
    (mid post : List (I × V)) : Prop where
  wf : WF o mapSeg (left.reverse ++ (mid ++ post))
  before : ∀ x y, Dom o mapSeg left x → o.Mem y rest → x < y
  after : ∀ x y, o.Mem x rest → Dom o mapSeg post y → x < y

/-- What the loop of `insert_main` arrives at. -/
structure LPost (o : IntervalOps D I) (c : MapCfg V) (v : V) (left : List (I × V)) (rest : I)
    (mid post left' : List (I × V)) (rest' : I) : Prop where
  inv : LInv o c left' rest' [] post
  past : ∀ x y, Dom o mapSeg left x ∨ Dom o mapSeg mid x → o.Mem y rest' → x < y
  joint : ∀ x y w, Dg c x y → (Joint o left' x y w ∨ (o.Mem x rest' ∧ o.Mem y rest' ∧ v = w) ↔
    Joint o left x y w ∨ Fill o v mid rest x y w)
  joined : c.joining = true → Joined o mapSeg (left.reverse ++ (mid ++ post)) →
    Joined o mapSeg (left'.reverse ++ post)

theorem LInv.skip {c : MapCfg V} {left : List (I × V)} {rest : I} {cur : I × V} {mid post : List (I × V)}
    (hi : LInv o c left rest (cur :: mid) post) :
    LInv o c (cur :: left) (o.leftSubtract rest cur.1) mid post := by
  refine ⟨by simpa using hi.wf, ?_, ?_⟩
  · intro x y hx hy
    rw [h.mem_leftSubtract] at hy
    rw [dom_cons] at hx
    rcases hx with hx | hx
    · exact hy.2 x hx
    · exact hi.before x y hx hy.1
  · intro x y hx hy
    rw [h.mem_leftSubtract] at hx
    exact hi.after x y hx.1 hy

theorem LPost.skip {c : MapCfg V} {v : V} {left : List (I × V)} {rest : I} {cur : I × V}
    {mid post left' : List (I × V)} {rest' : I} (hw : WF o mapSeg (cur :: mid))
    (he : o.isEmpty (o.rightSubtract rest cur.1) = true)
    (hp : LPost o c v (cur :: left) (o.leftSubtract rest cur.1) mid post left' rest') :
    LPost o c v left rest (cur :: mid) post left' rest' := by
  refine ⟨hp.inv, fun x y hx hy => hp.past x y ?_ hy, fun x y w hd => ?_,
    fun hc hj => hp.joined hc (by simpa using hj)⟩
  · rw [dom_cons] at hx ⊢
    clear * - hx
    grind
  rw [hp.joint x y w hd, fill_cons h v hw]
  have := (h.isEmpty_iff _).1 he x
  rw [joint_cons]
  clear * - this
  grind

/-- The loop of `insert_main`. -/
theorem insertLoop_spec (c : MapCfg V) (v : V) (mid : List (I × V)) (n : Nat) (hn : 2 * mid.length ≤ n)
    {left : List (I × V)} {rest : I} {post : List (I × V)} (hi : LInv o c left rest mid post) :
    ∃ left' rest', insertLoop o c v n left rest mid post = some (left', rest', post) ∧
      LPost o c v left rest mid post left' rest' := by
  induction mid generalizing n left rest with
  | nil =>
    refine ⟨left, rest, by cases n <;> rfl, ⟨by simpa using hi,
      fun x y hx hy => hi.before x y (by simpa using hx) hy, fun x y w hd => ?_, fun _ hj => by simpa using hj⟩⟩
    simp [Fill]
  | cons cur mid ih =>
    obtain ⟨n, rfl⟩ : ∃ m, n = m + 2 := ⟨n - 2, by simp at hn; omega⟩
    have hn' : 2 * mid.length ≤ n := by simp at hn; omega
    have hw1 := wf_append.1 hi.wf
    have hwm := (wf_append.1 hw1.2.1).1
    have hwc := wf_cons.1 hw1.2.1
    simp only [mapSeg_key] at hwc
    have hL := h.mem_rightSubtract rest cur.1
    have hR := h.mem_leftSubtract rest cur.1
    unfold insertLoop
    dsimp only
    cases he : o.isEmpty (o.rightSubtract rest cur.1) with
    | true =>
      simp only [if_true]
      obtain ⟨left', rest', e, hp⟩ := ih (n + 1) (by omega) (hi.skip h)
      exact ⟨left', rest', e, hp.skip h hwm he⟩
    | false =>
      have hg : o.Nonempty (o.rightSubtract rest cur.1) := (nonempty_iff h).2 he
      have hb : ∀ x y, Dom o mapSeg left x → o.Mem y (o.rightSubtract rest cur.1) → x < y :=
        fun x y hx hy => hi.before x y hx ((hL y).1 hy).1
      have ha : ∀ x y, o.Mem x (o.rightSubtract rest cur.1) → Dom o mapSeg (cur :: mid ++ post) y → x < y := by
        intro x y hx hy
        obtain ⟨hx1, hx2⟩ := (hL x).1 hx
        rw [List.cons_append, dom_cons] at hy
        rcases hy with hy | hy
        · exact hx2 y hy
        · obtain ⟨z, hz⟩ := hwc.1
          exact lt_trans (hx2 z hz) (hwc.2.2 z y hz hy)
      rw [insertAt_eq h]
      rotate_left
      · intro p hp; exact hw1.1.nonempty p (by simpa using hp)
      · exact hw1.2.1.nonempty
      · exact hg
      · exact hb
      · exact ha
      simp only [Bool.false_eq_true, if_false, Option.bind_some]
      have hwz : WF o mapSeg (Zip.toList ⟨left, (o.rightSubtract rest cur.1, v), cur :: mid ++ post⟩) := by
        simp only [Zip.toList]
        rw [wf_append, wf_cons]
        refine ⟨hw1.1, ⟨hg, hw1.2.1, ha⟩, fun x y hx hy => ?_⟩
        rw [dom_cons] at hy
        rcases hy with hy | hy
        · exact hb x y (by simpa using hx) hy
        · exact hw1.2.2 x y hx hy
      obtain ⟨z, e, hwz', hj, hjo, hcase⟩ := handleInserted_right h c hwz (q := cur) (r := mid ++ post) rfl
      rw [e]
      simp only
      have hjz : ∀ x y w, Dg c x y → (Joint o (z.cur :: z.left) x y w ∨ Joint o z.right x y w ↔
          Joint o left x y w ∨ (o.Mem x (o.rightSubtract rest cur.1) ∧
            o.Mem y (o.rightSubtract rest cur.1) ∧ v = w) ∨ Joint o (cur :: mid ++ post) x y w) := by
        intro x y w hd
        have := hj x y w hd
        simp only [Zip.toList, joint_append, joint_reverse, joint_cons, List.cons_append] at this ⊢
        rw [← or_assoc, or_comm (b := Joint o z.left x y w)] at *
        clear * - this
        grind
      have hwz2 : WF o mapSeg ((z.cur :: z.left).reverse ++ z.right) := by
        simpa [Zip.toList] using hwz'
      have hzd : ∀ x, Dom o mapSeg (z.cur :: z.left) x → Dom o mapSeg left x ∨
          o.Mem x (o.rightSubtract rest cur.1) ∨ Dom o mapSeg (cur :: mid ++ post) x := by
        intro x hx
        obtain ⟨u, hu⟩ := dom_iff_joint.1 hx
        rcases (hjz x x u (dg_self c x)).1 (Or.inl hu) with h1 | h1 | h1
        · exact Or.inl h1.left
        · exact Or.inr (Or.inl h1.1)
        · exact Or.inr (Or.inr h1.left)
      have hjoin : c.joining = true → Joined o mapSeg (left.reverse ++ (cur :: mid ++ post)) →
          Joined o mapSeg ((z.cur :: z.left).reverse ++ z.right) := by
        intro hc hjl
        have := hjo hc (joined_reverse.1 (hjl.mono (by simp +contextual))) (hjl.mono (by simp +contextual))
        simpa [Zip.toList] using this
      rcases hcase with hr | hr
      · -- the gap has not been joined to the next node
        rw [if_neg (by rw [hr]; simp)]
        rw [hr] at hjz hwz2 hjoin
        have hzlt : ∀ x y, Dom o mapSeg (z.cur :: z.left) x → o.Mem y cur.1 → x < y :=
          fun x y hx hy => (wf_append.1 hwz2).2.2 x y ((dom_reverse _ _).2 hx) (by simp [hy])
        have hjz' : ∀ x y w, Dg c x y → (Joint o (z.cur :: z.left) x y w ↔
            Joint o left x y w ∨ (o.Mem x (o.rightSubtract rest cur.1) ∧
              o.Mem y (o.rightSubtract rest cur.1) ∧ v = w)) := by
          intro x y w hd
          have h1 := hjz x y w hd
          have h2 : Joint o (z.cur :: z.left) x y w → ¬ Joint o (cur :: (mid ++ post)) x y w := by
            intro h1 h2
            exact absurd ((wf_append.1 hwz2).2.2 x x ((dom_reverse _ _).2 h1.left) h2.left) (lt_irrefl _)
          have h3 : Joint o left x y w → ¬ Joint o (cur :: (mid ++ post)) x y w := by
            intro h1 h2
            exact absurd (hw1.2.2 x x (by simpa using h1.left) h2.left) (lt_irrefl _)
          have h4 : o.Mem x (o.rightSubtract rest cur.1) → ¬ Joint o (cur :: (mid ++ post)) x y w := by
            intro h1 h2
            exact absurd (ha x x h1 h2.left) (lt_irrefl _)
          simp only [List.cons_append] at h1
          clear * - h1 h2 h3 h4
          grind
        have hi' : LInv o c (z.cur :: z.left) (o.leftSubtract rest cur.1) (cur :: mid) post := by
          refine ⟨by simpa using hwz2, fun x y hx hy => ?_, fun x y hx hy => hi.after x y ((hR x).1 hx).1 hy⟩
          obtain ⟨z0, hz0⟩ := hwc.1
          exact lt_trans (hzlt x z0 hx hz0) (((hR y).1 hy).2 z0 hz0)
        have he' : o.isEmpty (o.rightSubtract (o.leftSubtract rest cur.1) cur.1) = true := by
          rw [h.isEmpty_iff]
          intro x hx
          rw [h.mem_rightSubtract, hR] at hx
          obtain ⟨z0, hz0⟩ := hwc.1
          exact lt_asymm (hx.2 z0 hz0) (hx.1.2 z0 hz0)
        unfold insertLoop
        simp only [he', if_true]
        obtain ⟨left', rest', e', hp⟩ := ih n hn' (hi'.skip h)
        refine ⟨left', rest', e', hp.inv, fun x y hx hy => hp.past x y ?_ hy, fun x y w hd => ?_,
          fun hc hjl => hp.joined hc ?_⟩
        · rw [dom_cons, dom_cons] at *
          rcases hx with hx | hx | hx
          · obtain ⟨u, hu⟩ := dom_iff_joint.1 hx
            have := ((hjz' x x u (dg_self c x)).2 (Or.inl hu)).left
            exact Or.inl (Or.inr ((dom_cons _ _ _).1 this))
          · exact Or.inl (Or.inl hx)
          · exact Or.inr hx
        · rw [hp.joint x y w hd, joint_cons, hjz' x y w hd, fill_cons h v hwm]
          have hmem : ∀ x, o.Mem x (o.leftSubtract (o.leftSubtract rest cur.1) cur.1) ↔
              o.Mem x (o.leftSubtract rest cur.1) := by
            intro x
            rw [h.mem_leftSubtract, hR]
            clear * -
            grind
          simp only [Fill, hmem]
          clear * -
          grind
        · have := hjoin hc hjl
          simpa using this
      · -- the gap has been joined to the next node
        rw [if_pos (by rw [hr]; simp)]
        rw [hr] at hjz hwz2 hjoin
        have hi' : LInv o c (z.cur :: z.left) (o.leftSubtract rest cur.1) mid post := by
          refine ⟨hwz2, fun x y hx hy => ?_, fun x y hx hy => hi.after x y ((hR x).1 hx).1 hy⟩
          have hy' := (hR y).1 hy
          rcases hzd x hx with h1 | h1 | h1
          · exact hi.before x y h1 hy'.1
          · obtain ⟨z0, hz0⟩ := hwc.1
            exact lt_trans (((hL x).1 h1).2 z0 hz0) (hy'.2 z0 hz0)
          · rw [List.cons_append, dom_cons] at h1
            rcases h1 with h1 | h1
            · exact hy'.2 x h1
            · exact absurd ((wf_append.1 hwz2).2.2 x x ((dom_reverse _ _).2 hx) h1) (lt_irrefl _)
        obtain ⟨left', rest', e', hp⟩ := ih (n + 1) (by omega) hi'
        refine ⟨left', rest', e', hp.inv, fun x y hx hy => hp.past x y ?_ hy, fun x y w hd => ?_,
          fun hc hjl => hp.joined hc (hjoin hc hjl)⟩
        · rcases hx with hx | hx
          · obtain ⟨u, hu⟩ := dom_iff_joint.1 hx
            rcases (hjz x x u (dg_self c x)).2 (Or.inl hu) with h1 | h1
            · exact Or.inl h1.left
            · exact absurd (hw1.2.2 x x ((dom_reverse _ _).2 hx)
                ((dom_cons _ _ _).2 (Or.inr h1.left))) (lt_irrefl _)
          · rw [dom_cons] at hx
            rcases hx with hx | hx
            · have hu : Joint o (cur :: mid ++ post) x x cur.2 := ⟨cur, by simp, hx, hx, rfl⟩
              rcases (hjz x x _ (dg_self c x)).2 (Or.inr (Or.inr hu)) with h1 | h1
              · exact Or.inl h1.left
              · exact absurd (hwc.2.2 x x hx h1.left) (lt_irrefl _)
            · exact Or.inr hx
        rw [hp.joint x y w hd, fill_cons h v hwm]
        have h1 := hjz x y w hd
        have h2 : Joint o (z.cur :: z.left) x y w → ¬ Joint o (mid ++ post) x y w := by
          intro h1 h2
          exact absurd ((wf_append.1 hwz2).2.2 x x ((dom_reverse _ _).2 h1.left) h2.left) (lt_irrefl _)
        have h3 : Joint o left x y w → ¬ Joint o (mid ++ post) x y w := by
          intro h1 h2
          exact absurd (hw1.2.2 x x (by simpa using h1.left) (by simpa using Or.inr h2.left)) (lt_irrefl _)
        have h4 : o.Mem x (o.rightSubtract rest cur.1) → ¬ Joint o (mid ++ post) x y w := by
          intro h1 h2
          exact absurd (ha x x h1 (by simpa using Or.inr h2.left)) (lt_irrefl _)
        have h5 : o.Mem x cur.1 → ¬ Joint o (mid ++ post) x y w := by
          intro h1 h2
          exact absurd (hwc.2.2 x x h1 h2.left) (lt_irrefl _)
        simp only [List.cons_append, joint_cons (l := mid ++ post)] at h1
        clear * - h1 h2 h3 h4 h5
        grind

/-- `insert_main`. -/
theorem insertMain_spec (c : MapCfg V) (v : V) {a : List (I × V)} {g : I × V} {b post : List (I × V)} {k : I}
    (hr : Range o mapSeg a g b post k) :
    ∃ l', insertMain o c a g b post k v = some l' ∧ InsSpec o c v (a ++ g :: b ++ post) k l' := by
  have hw1 := wf_append.1 hr.wf
  have hw2 := wf_append.1 hw1.1
  have hi : LInv o c a.reverse k (g :: b) post :=
    ⟨by simpa using hr.wf, fun x y hx hy => hr.before x y (by simpa using hx) hy, hr.after⟩
  obtain ⟨left, rest, e, hp⟩ := insertLoop_spec h c v (g :: b) (2 * (b.length + 1)) (by simp) hi
  have hlast : (b.getLastD g) ∈ g :: b := getLastD_mem g b
  have hpi := wf_append.1 hp.inv.wf
  simp only [List.nil_append] at hpi
  -- the last node lies in `left`, hence before `rest`
  have hend : ∀ x, o.Mem x (o.leftSubtract rest (b.getLastD g).1) ↔ o.Mem x rest := by
    intro x
    rw [h.mem_leftSubtract]
    refine ⟨fun hx => hx.1, fun hx => ⟨hx, fun y hy => ?_⟩⟩
    exact hp.past y x (Or.inr ⟨_, hlast, hy⟩) hx
  have hfin : ∀ x y w, Dg c x y → ((Joint o left x y w ∨ (o.Mem x rest ∧ o.Mem y rest ∧ v = w)) ∨
      Joint o post x y w ↔ Fill o v (a ++ g :: b ++ post) k x y w) := by
    intro x y w hd
    rw [hp.joint x y w hd]
    simp only [Fill, joint_append, joint_reverse, dom_append]
    have hfree : o.Mem x k → o.Mem y k → ∀ z, Btw x y z → ¬ Dom o mapSeg a z ∧ ¬ Dom o mapSeg post z := by
      intro hx hy z hz
      have hzk := mem_btw h hx hy hz
      exact ⟨fun hd => absurd (hr.before z z hd hzk) (lt_irrefl _),
        fun hd => absurd (hr.after z z hzk hd) (lt_irrefl _)⟩
    clear * - hfree
    grind
  unfold insertMain
  simp only [e, Option.bind_eq_bind, Option.bind_some]
  have hjl : c.joining = true → Joined o mapSeg (a ++ g :: b ++ post) →
      Joined o mapSeg (left.reverse ++ post) := fun hc hj => hp.joined hc (by simpa using hj)
  cases he : o.isEmpty (o.leftSubtract rest (b.getLastD g).1) with
  | true =>
    refine ⟨_, rfl, by simpa using hp.inv.wf, fun x y w hd => ?_, hjl⟩
    rw [← hfin x y w hd, joint_append, joint_reverse]
    have := (h.isEmpty_iff _).1 he x
    rw [hend] at this
    clear * - this
    grind
  | false =>
    have hg := (nonempty_iff h).2 he
    rw [insertAt_eq h]
    rotate_left
    · intro p hp'; exact hpi.1.nonempty p (by simpa using hp')
    · exact hpi.2.1.nonempty
    · exact hg
    · intro x y hx hy; exact hp.inv.before x y hx ((hend y).1 hy)
    · intro x y hx hy; exact hp.inv.after x y ((hend x).1 hx) hy
    simp only [Bool.false_eq_true, if_false, Option.bind_some]
    have hwz : WF o mapSeg (Zip.toList ⟨left, (o.leftSubtract rest (b.getLastD g).1, v), post⟩) := by
      simp only [Zip.toList]
      rw [wf_append, wf_cons]
      refine ⟨hpi.1, ⟨hg, hpi.2.1, fun x y hx hy => hp.inv.after x y ((hend x).1 hx) hy⟩, fun x y hx hy => ?_⟩
      rw [dom_cons] at hy
      rcases hy with hy | hy
      · exact hp.inv.before x y ((dom_reverse _ _).1 hx) ((hend y).1 hy)
      · exact hpi.2.2 x y hx hy
    obtain ⟨z, e', hwz', hj, hjo⟩ := handleInserted_spec h c hwz
    refine ⟨z.toList, by rw [e']; rfl, hwz', fun x y w hd => ?_, fun hc hj => hjo hc ?_ ?_⟩
    · rw [hj x y w hd, ← hfin x y w hd]
      simp only [Zip.toList, joint_append, joint_reverse, joint_cons, hend]
      clear * -
      grind
    · exact joined_reverse.1 ((hjl hc hj).mono (by simp +contextual))
    · exact (hjl hc hj).mono (by simp +contextual)

theorem fill_free (v : V) {l : List (I × V)} {k : I} (hn : ∀ x, Dom o mapSeg l x → ¬ o.Mem x k)
    (x y : D) (w : V) : Fill o v l k x y w ↔ Joint o l x y w ∨ (o.Mem x k ∧ o.Mem y k ∧ v = w) := by
  simp only [Fill]
  have : o.Mem x k → o.Mem y k → ∀ z, Btw x y z → ¬ Dom o mapSeg l z :=
    fun hx hy z hz hd => hn z hd (mem_btw h hx hy hz)
  clear * - this
  grind

theorem insSpec_free (c : MapCfg V) (v : V) {a post : List (I × V)} {k : I}
    (hw : WF o mapSeg (a ++ post)) (hk : o.Nonempty k)
    (h1 : ∀ x y, Dom o mapSeg a x → o.Mem y k → x < y)
    (h2 : ∀ x y, o.Mem x k → Dom o mapSeg post y → x < y) :
    ∃ l', (handleInserted o c ⟨a.reverse, (k, v), post⟩).map Zip.toList = some l' ∧
      InsSpec o c v (a ++ post) k l' := by
  have hn : ∀ x, Dom o mapSeg (a ++ post) x → ¬ o.Mem x k := by
    intro x hx hxk
    rw [dom_append] at hx
    rcases hx with hx | hx
    · exact absurd (h1 x x hx hxk) (lt_irrefl _)
    · exact absurd (h2 x x hxk hx) (lt_irrefl _)
  obtain ⟨l', e, hs⟩ := insertFree_spec h c (fun _ => none) (u := v) hw hk h1 h2
  refine ⟨l', e, hs.wf, fun x y w hd => ?_, hs.joined⟩
  rw [hs.joint x y w hd, fill_free h v hn, eff_free hn h]
  simp only [Option.some.injEq]

/-- Insertion of an empty interval. -/
theorem insSpec_empty (c : MapCfg V) (v : V) {l : List (I × V)} {k : I} (hw : WF o mapSeg l)
    (hk : ¬ o.Nonempty k) : InsSpec o c v l k l := by
  refine ⟨hw, fun x y w _ => ?_, fun _ hj => hj⟩
  have : ∀ x, ¬ o.Mem x k := fun x hx => hk ⟨x, hx⟩
  simp [Fill, this]

/-- `insert(segment)`. -/
theorem insert_spec (c : MapCfg V) {l : List (I × V)} (hl : WF o mapSeg l) (k : I) (v : V) :
    ∃ l', insert o c l k v = some l' ∧ (absorbable c v = true → l' = l) ∧
      (absorbable c v = false → InsSpec o c v l k l') := by
  unfold insert
  by_cases hk : o.Nonempty k
  · rw [isEmpty_false h hk]
    simp only [Bool.false_eq_true, if_false]
    cases hv : absorbable c v with
    | true => exact ⟨l, by simp, by simp, by simp⟩
    | false =>
      simp only [Bool.false_eq_true, if_false]
      rcases range_cases h hl hk with ⟨a, p, e, rfl, h1, h2⟩ | ⟨a, g, b, p, e, rfl, hr⟩
      · obtain ⟨l', e', hs⟩ := insSpec_free h c v hl hk h1 h2
        exact ⟨l', by simp only [e, Option.bind_eq_bind, Option.bind_some]; exact e', by simp, fun _ => hs⟩
      · obtain ⟨l', e', hs⟩ := insertMain_spec h c v hr
        exact ⟨l', by simp only [e, Option.bind_eq_bind, Option.bind_some]; exact e', by simp, fun _ => hs⟩
  · rw [(empty_iff h).2 hk]
    exact ⟨l, by simp, by simp, fun _ => insSpec_empty h c v hl hk⟩

/-- `insert(hint, segment)`. -/
theorem insertHint_spec (c : MapCfg V) (oracle : Nat) (isPrior : Bool) {l : List (I × V)}
    (hl : WF o mapSeg l) (k : I) (v : V) :
    ∃ l', insertHint o c oracle isPrior l k v = some l' ∧ (absorbable c v = true → l' = l) ∧
      (absorbable c v = false → InsSpec o c v l k l') := by
  unfold insertHint
  by_cases hk : o.Nonempty k
  · rw [isEmpty_false h hk]
    simp only [Bool.false_eq_true, if_false]
    cases hv : absorbable c v with
    | true => exact ⟨l, by simp, by simp, by simp⟩
    | false =>
      simp only [Bool.false_eq_true, if_false]
      rcases range_cases h hl hk with ⟨a, p, e, rfl, h1, h2⟩ | ⟨a, g, b, p, e, rfl, hr⟩
      · obtain ⟨l', e', hs⟩ := insSpec_free h c v hl hk h1 h2
        exact ⟨l', by simp only [e, Option.bind_eq_bind, Option.bind_some]; exact e', by simp, fun _ => hs⟩
      · simp only [e, Option.bind_eq_bind, Option.bind_some]
        split
        · rename_i hcond
          simp only [Bool.and_eq_true, Bool.not_eq_true'] at hcond
          have hmem : (g :: b).getD (oracle % (b.length + 1)) g ∈ g :: b := by
            rw [List.getD_eq_getElem?_getD]
            cases hq : (g :: b)[oracle % (b.length + 1)]? with
            | none => simp
            | some t => simpa using List.mem_of_getElem? hq
          obtain ⟨rfl, hfg, hgk⟩ := range_eq h hr hmem hcond.2
          simp only [List.length_nil, Nat.zero_add, Nat.mod_one, List.take_zero, List.reverse_nil,
            List.nil_append, List.drop_one, List.tail_cons, List.getD_cons_zero, List.drop_succ_cons,
            List.drop_zero]
          have hwz : WF o mapSeg (Zip.toList ⟨a.reverse, g, p⟩) := by
            simpa [Zip.toList] using hr.wf
          obtain ⟨z, e', hwz', hj, hjo⟩ := handleInserted_spec h c hwz
          refine ⟨z.toList, by rw [e']; rfl, by simp, fun _ => ⟨hwz', fun x y w hd => ?_,
            fun hc hjl => hjo hc ?_ ?_⟩⟩
          · rw [hj x y w hd]
            simp only [Zip.toList, Fill, joint_append, joint_reverse, joint_cons, joint_nil, dom_append,
              dom_cons, mapSeg_key, hgk, or_false, dom_nil]
            have := btw_left x y
            clear * - this
            grind
          · exact joined_reverse.2 (hjl.mono (by simp +contextual))
          · exact hjl.mono (by simp +contextual)
        · obtain ⟨l', e', hs⟩ := insertMain_spec h c v hr
          exact ⟨l', e', by simp, fun _ => hs⟩
  · rw [(empty_iff h).2 hk]
    exact ⟨l, by simp, by simp, fun _ => insSpec_empty h c v hl hk⟩

/-- `set(segment)`: the elements of `k` get the value `v`. -/
structure SetSpec (o : IntervalOps D I) (c : MapCfg V) (v : V) (l : List (I × V)) (k : I)
    (l' : List (I × V)) : Prop where
  wf : WF o mapSeg l'
  joint : ∀ x y w, Dg c x y → (Joint o l' x y w ↔
    (Joint o l x y w ∧ ∀ z, Btw x y z → ¬ o.Mem z k) ∨
    (absorbable c v = false ∧ o.Mem x k ∧ o.Mem y k ∧ v = w))
  joined : c.joining = true → Joined o mapSeg l → Joined o mapSeg l'

omit h in
theorem setAt_spec (h : o.Lawful) (c : MapCfg V) {l : List (I × V)} (hl : WF o mapSeg l) (k : I) (v : V) :
    ∃ l', setAt o c l k v = some l' ∧ SetSpec o c v l k l' := by
  obtain ⟨l1, e1, h1⟩ := eraseItv_spec h hl k
  obtain ⟨l2, e2, h2, h3⟩ := insert_spec h c h1.wf k v
  refine ⟨l2, by simp [setAt, e1, e2], ?_⟩
  have hn : ∀ x, Dom o mapSeg l1 x → ¬ o.Mem x k := by
    intro x hx
    obtain ⟨u, hu⟩ := dom_iff_joint.1 hx
    exact ((h1.joint x x u).1 hu).2 rfl x (btw_left x x)
  cases hv : absorbable c v with
  | true =>
    obtain rfl := h2 hv
    refine ⟨h1.wf, fun x y w hd => ?_, fun _ hj => h1.joined h hl hj⟩
    rw [h1.joint]
    simp [hv]
  | false =>
    have h3 := h3 hv
    refine ⟨h3.wf, fun x y w hd => ?_, fun hc hj => h3.joined hc (h1.joined h hl hj)⟩
    rw [h3.joint x y w hd, fill_free h v hn, h1.joint]
    simp [hv]

end
end IMap
end ICL
