import Verif.Canvas.Props

/-! # Paths beyond a side of the canvas do go -/

namespace Verif.Canvas

open Verif.Segment Verif.Gjk Verif.Tree

/-- The points by which a piece is given. -/
def points : Op → List Segment.Pt
  | .line p q => [p, q]
  | .quad p c q => [p, c, q]
  | .cubic p a b q => [p, a, b, q]
  | .arc p _ q => [p, q]

/-- A piece is no arc. -/
def NoArc : Op → Prop
  | .arc .. => False
  | _ => True

theorem box_attained : ∀ (ps : List (Gjk.Pt ℝ)) (b : Option (Gjk.Pt ℝ × Gjk.Pt ℝ)) (S : Set (Gjk.Pt ℝ)),
    (∀ l h, b = some (l, h) → (∃ p ∈ S, l.1 = p.1) ∧ (∃ p ∈ S, l.2 = p.2) ∧ (∃ p ∈ S, h.1 = p.1) ∧ (∃ p ∈ S, h.2 = p.2)) → (∀ p ∈ ps, p ∈ S) →
      ∀ l h, ps.foldl grow b = some (l, h) → (∃ p ∈ S, l.1 = p.1) ∧ (∃ p ∈ S, l.2 = p.2) ∧ (∃ p ∈ S, h.1 = p.1) ∧ (∃ p ∈ S, h.2 = p.2)
  | [], _, _, hb, _, l, h, e => hb l h e
  | p :: ps, b, S, hb, hs, l, h, e => by
    refine box_attained ps (grow b p) S ?_ (fun q hq => hs q (List.mem_cons_of_mem _ hq)) l h e
    intro l h e
    have hp := hs p List.mem_cons_self
    cases b with
    | none =>
      cases e
      exact ⟨⟨p, hp, rfl⟩, ⟨p, hp, rfl⟩, ⟨p, hp, rfl⟩, ⟨p, hp, rfl⟩⟩
    | some b =>
      obtain ⟨l', h'⟩ := b
      obtain ⟨⟨p1, q1, e1⟩, ⟨p2, q2, e2⟩, ⟨p3, q3, e3⟩, ⟨p4, q4, e4⟩⟩ := hb l' h' rfl
      cases e
      refine ⟨?_, ?_, ?_, ?_⟩
      · rcases min_choice l'.1 p.1 with h | h <;> simp only [h]
        · exact ⟨p1, q1, e1⟩
        · exact ⟨p, hp, rfl⟩
      · rcases min_choice l'.2 p.2 with h | h <;> simp only [h]
        · exact ⟨p2, q2, e2⟩
        · exact ⟨p, hp, rfl⟩
      · rcases max_choice h'.1 p.1 with h | h <;> simp only [h]
        · exact ⟨p3, q3, e3⟩
        · exact ⟨p, hp, rfl⟩
      · rcases max_choice h'.2 p.2 with h | h <;> simp only [h]
        · exact ⟨p4, q4, e4⟩
        · exact ⟨p, hp, rfl⟩

theorem box_some {ps : List (Gjk.Pt ℝ)} (h : ps ≠ []) : ∃ l h, box ps = some (l, h) := by
  have : ∀ (ps : List (Gjk.Pt ℝ)) (b : Gjk.Pt ℝ × Gjk.Pt ℝ), ∃ l h, ps.foldl grow (some b) = some (l, h) := by
    intro ps
    induction ps with
    | nil => intro b; exact ⟨b.1, b.2, rfl⟩
    | cons p ps ih => intro b; exact ih _
  cases ps with
  | nil => exact absurd rfl h
  | cons p ps => exact this ps (p, p)

/-- The half plane of the points whose product with `d` is at least `k`. -/
def Half (d : Gjk.Pt ℝ) (k : ℝ) (x : Gjk.Pt ℝ) : Prop := k ≤ x.1 * d.1 + x.2 * d.2

theorem half_drawn {d : Gjk.Pt ℝ} {k : ℝ} {p : Segment.Pt} {ds : List Segment.Data} {ops : List Op} (h : Drawn p ds ops) (hp : ∀ o ∈ ops, NoArc o ∧
    ∀ q ∈ points o, Half d k (MergePaths.real q)) : ∀ x ∈ (MergePaths.realList p ds).flatMap (Data.nest ArcR.nest), Half d k x := by
  induction h with
  | nil => intro x hx; cases hx
  | @cons p e ds o ops ha _ ih =>
    intro x hx
    simp only [MergePaths.realList, List.flatMap_cons, List.mem_append] at hx
    rcases hx with hx | hx
    · obtain ⟨h1, h2⟩ := hp o List.mem_cons_self
      cases e with
      | lineTo q =>
        obtain rfl : x = MergePaths.real q := by simpa [MergePaths.realData, Data.nest] using hx
        simp only [Data.op] at ha
        generalize e : Op.line p q = o' at ha
        cases ha with
        | refl => subst e; exact h2 q (by simp [points])
        | quad => cases e
        | arc => exact absurd h1 (by simp [NoArc])
      | curveTo a b q =>
        simp only [Data.op] at ha
        generalize e : Op.cubic p a b q = o' at ha
        simp only [MergePaths.realData, Data.nest, List.mem_cons, List.not_mem_nil, or_false] at hx
        cases ha with
        | refl => subst e; rcases hx with rfl | rfl | rfl <;> exact h2 _ (by simp [points])
        | arc => cases e
        | @quad p' a' b' c q' k1 k2 =>
          cases e
          obtain ⟨ax, bx⟩ := MergePaths.raised k1
          obtain ⟨ay, by'⟩ := MergePaths.raised k2
          have hp := h2 p (by simp [points])
          have hc := h2 c (by simp [points])
          have hq := h2 q (by simp [points])
          simp only [Half, MergePaths.real] at hp hc hq
          rcases hx with rfl | rfl | rfl
          · simp only [Half, MergePaths.real, ax, ay]; push_cast; nlinarith
          · simp only [Half, MergePaths.real, bx, by']; push_cast; nlinarith
          · exact hq
      | arcTo a =>
        simp only [Data.op] at ha
        generalize e : Op.arc p a.s a.to = o' at ha
        cases ha with
        | refl => subst e; exact absurd h1 (by simp [NoArc])
        | quad => cases e
        | arc => cases e
    · exact ih (fun o ho => hp o (List.mem_cons_of_mem _ ho)) x hx

theorem agree_back {l : List Segment} {m : List Sub} (h : Agree l m) {s : Segment} (hs : s ∈ l) : ∃ u ∈ m, s.start = u.start ∧ Drawn s.start s.data u.ops := by
  induction h with
  | nil => cases hs
  | cons h1 h2 _ _ ih =>
    rcases List.mem_cons.mp hs with rfl | hs
    · exact ⟨_, List.mem_cons_self, h1, h2⟩
    · obtain ⟨u, hu, r⟩ := ih hs
      exact ⟨u, List.mem_cons_of_mem _ hu, r⟩

theorem marked_back (tol : Rat) : ∀ (l : List Sub) {v : Sub}, v ∈ marked tol l → ∃ u ∈ l, v.start = u.start ∧ v.ops = u.ops
  | [], _, h => by cases h
  | [u], v, h => by
    simp only [marked, List.mem_singleton] at h
    subst h
    exact ⟨u, List.mem_cons_self, rfl, rfl⟩
  | u :: w :: l, v, h => by
    rcases List.mem_cons.mp h with rfl | h
    · exact ⟨u, List.mem_cons_self, rfl, rfl⟩
    · obtain ⟨x, hx, r⟩ := marked_back tol (w :: l) h
      exact ⟨x, List.mem_cons_of_mem _ hx, r⟩

/-- All points of the segments are in a half plane if those of the pieces are. -/
theorem half_segments (tol : Rat) {d : Gjk.Pt ℝ} {k : ℝ} {c : List Cmd} (hg : MergePaths.Good c) (hh : ∀ u ∈ subpaths c, u.ops ≠ [] →
    Half d k (MergePaths.real u.start) ∧ ∀ o ∈ u.ops, NoArc o ∧ ∀ q ∈ points o, Half d k (MergePaths.real q)) : ∃ segs, fromSvg tol c = some segs ∧
      ∀ s ∈ segs, s.data ≠ [] → ∀ x ∈ nest ArcR.nest (MergePaths.realSeg s), Half d k x := by
  obtain ⟨hv, hb, hp⟩ := hg
  rcases hv with rfl | hv
  · exact ⟨[], rfl, fun s hs => by cases hs⟩
  · have hm : BeginsWithMove c := by
      obtain ⟨p, cs, h⟩ := hv
      exact ⟨p, cs, h⟩
    obtain ⟨segs, h1, h2⟩ := fromSvg_spec tol hm hb hp
    refine ⟨segs, h1, fun s hs hne x hx => ?_⟩
    obtain ⟨v, hvm, e1, hd⟩ := agree_back h2 (s := s) (by
      rw [List.mem_filter]
      refine ⟨hs, ?_⟩
      simp only [Segment.hasData]
      cases h : s.data
      · exact absurd h hne
      · rfl)
    rw [List.mem_filter] at hvm
    obtain ⟨u, hu, e2, e3⟩ := marked_back tol _ hvm.1
    have hun : u.ops ≠ [] := by
      intro h
      rw [Sub.hasOps, e3, h] at hvm
      exact absurd hvm.2 (by decide)
    obtain ⟨k1, k2⟩ := hh u hu hun
    rcases List.mem_cons.mp hx with rfl | hx
    · simp only [MergePaths.realSeg, e1, e2]; exact k1
    · rw [e3] at hd
      exact half_drawn hd k2 x hx

/-- The points that a subpath is given by. -/
def corners (c : List Cmd) : List Segment.Pt :=
  ((subpaths c).filter fun u => !u.ops.isEmpty).flatMap fun u => u.start :: u.ops.flatMap points

theorem corners_closed (c : List Cmd) : corners (closed c) = corners c := by
  have : ∀ c, corners c = (((subpaths c).filter fun u => !u.ops.isEmpty).map fun u => (u.start, u.ops)).flatMap fun p => p.1 :: p.2.flatMap points := by
    intro c
    rw [corners, List.flatMap_map]
  unfold closed
  split
  · rw [this, this, subpaths_close]
  · rfl

theorem mem_corners {c : List Cmd} {u : Sub} (hu : u ∈ subpaths c) (hne : u.ops ≠ []) : u.start ∈ corners c ∧ ∀ o ∈ u.ops, ∀ q ∈ points o, q ∈ corners c := by
  have hf : u ∈ (subpaths c).filter fun u => !u.ops.isEmpty := by
    rw [List.mem_filter]
    refine ⟨hu, ?_⟩
    cases h : u.ops
    · exact absurd h hne
    · rfl
  exact ⟨List.mem_flatMap.mpr ⟨u, hf, List.mem_cons_self⟩,
    fun o ho q hq => List.mem_flatMap.mpr ⟨u, hf, List.mem_cons_of_mem _ (List.mem_flatMap.mpr ⟨o, ho, hq⟩)⟩⟩

/-- If the boxes are clear for every segment, the answer is no. -/
theorem intersects_clear {b : Box} {segs : List Segment} (h : ∀ s ∈ segs, s.data ≠ [] → clear (box (nest ArcR.nest (frame b)))
    (box (nest ArcR.nest (MergePaths.realSeg s))) = true) : intersects ArcR.nest [frame b] (segs.map MergePaths.realSeg) = some false := by
  have hn : nests ArcR.nest [frame b] = [nest ArcR.nest (frame b)] := rfl
  unfold intersects
  simp only [hn]
  rw [if_pos]
  rw [Bool.or_eq_true]
  refine .inr ?_
  simp only [List.all_cons, List.all_nil, Bool.and_true, List.all_eq_true]
  intro qs hqs
  obtain ⟨s, hs, hd, rfl⟩ := mem_nests.mp hqs
  obtain ⟨s', hs', rfl⟩ := List.mem_map.mp hs
  refine h s' hs' ?_
  intro e
  exact hd (by simp [MergePaths.realSeg, e, MergePaths.realList])

theorem frame_box {b : Box} (hw : 0 ≤ b.width) (hh : 0 ≤ b.height) : box (nest ArcR.nest (frame b)) =
    some (((b.minX : ℝ), (b.minY : ℝ)), ((b.minX : ℝ) + b.width, (b.minY : ℝ) + b.height)) := by
  have hw' : (0 : ℝ) ≤ b.width := by exact_mod_cast hw
  have hh' : (0 : ℝ) ≤ b.height := by exact_mod_cast hh
  simp [nest, frame, Data.nest, box, grow, hw', hh']

/-- **C64 (the job does something).** A path of lines and curves all of whose points are beyond one side of the canvas goes, if no move is inside of it. -/
theorem beyond_go (tol : Rat) {b : Box} (hw : 0 ≤ b.width) (hh : 0 ≤ b.height) {c : List Cmd} (hg : MergePaths.Good c)
    (hm : c.any (movesIn b) = false) (ha : ∀ u ∈ subpaths c, ∀ o ∈ u.ops, NoArc o)
    (h : (∀ p ∈ corners c, b.minX + b.width ≤ p.x) ∨ (∀ p ∈ corners c, p.x ≤ b.minX) ∨ (∀ p ∈ corners c, b.minY + b.height ≤ p.y) ∨
      ∀ p ∈ corners c, p.y ≤ b.minY) : fate tol b c = some .go := by
  have ha' : ∀ u ∈ subpaths (closed c), ∀ o ∈ u.ops, NoArc o := by
    intro u hu o ho
    unfold closed at hu
    split at hu
    · obtain ⟨v, hv, e⟩ := ops_close hu (fun e => by rw [e] at ho; cases ho)
      exact ha v hv o (e ▸ ho)
    · exact ha u hu o ho
  have key : ∀ (d : Gjk.Pt ℝ) (k : ℝ), (∀ p ∈ corners c, Half d k (MergePaths.real p)) → (∀ ps : List (Gjk.Pt ℝ), ps ≠ [] → (∀ x ∈ ps, Half d k x) →
      clear (box (nest ArcR.nest (frame b))) (box ps) = true) → fate tol b c = some .go := by
    intro d k h1 h2
    obtain ⟨segs, e, hs⟩ := half_segments tol (d := d) (k := k) (good_closed hg) (fun u hu hne => by
      obtain ⟨m1, m2⟩ := mem_corners hu hne
      rw [corners_closed] at m1 m2
      exact ⟨h1 _ m1, fun o ho => ⟨ha' u hu o ho, fun q hq => h1 _ (m2 o ho q hq)⟩⟩)
    have := intersects_clear (b := b) (segs := segs) (fun s hs' hne => h2 _ (List.cons_ne_nil _ _) (hs s hs' hne))
    simp only [fate, hm, Bool.false_eq_true, if_false, e, this]
  rcases h with h | h | h | h
  · refine key (1, 0) (b.minX + b.width) (fun p hp => ?_) (fun ps hne hps => ?_)
    · have := h p hp
      simp only [Half, MergePaths.real, mul_one, mul_zero, add_zero]
      exact_mod_cast this
    · obtain ⟨l, u, e⟩ := box_some hne
      obtain ⟨⟨p, hp, e1⟩, -⟩ := box_attained ps none {p | p ∈ ps} (by intro l h e; cases e) (fun p hp => hp) l u e
      have := hps p hp
      simp only [Half, mul_one, mul_zero, add_zero] at this
      simp only [frame_box hw hh, e, clear, e1, this, decide_true, Bool.true_or]
  · refine key (-1, 0) (-b.minX) (fun p hp => ?_) (fun ps hne hps => ?_)
    · have : ((p.x : ℚ) : ℝ) ≤ b.minX := by exact_mod_cast h p hp
      simp only [Half, MergePaths.real]; linarith
    · obtain ⟨l, u, e⟩ := box_some hne
      obtain ⟨-, -, ⟨p, hp, e1⟩, -⟩ := box_attained ps none {p | p ∈ ps} (by intro l h e; cases e) (fun p hp => hp) l u e
      have hx := hps p hp
      simp only [Half] at hx
      have : p.1 ≤ (b.minX : ℝ) := by linarith
      simp only [frame_box hw hh, e, clear, e1, this, decide_true, Bool.true_or, Bool.or_true]
  · refine key (0, 1) (b.minY + b.height) (fun p hp => ?_) (fun ps hne hps => ?_)
    · have := h p hp
      simp only [Half, MergePaths.real, mul_one, mul_zero, zero_add]
      exact_mod_cast this
    · obtain ⟨l, u, e⟩ := box_some hne
      obtain ⟨-, ⟨p, hp, e1⟩, -⟩ := box_attained ps none {p | p ∈ ps} (by intro l h e; cases e) (fun p hp => hp) l u e
      have := hps p hp
      simp only [Half, mul_one, mul_zero, zero_add] at this
      simp only [frame_box hw hh, e, clear, e1, this, decide_true, Bool.true_or, Bool.or_true]
  · refine key (0, -1) (-b.minY) (fun p hp => ?_) (fun ps hne hps => ?_)
    · have : ((p.y : ℚ) : ℝ) ≤ b.minY := by exact_mod_cast h p hp
      simp only [Half, MergePaths.real]; linarith
    · obtain ⟨l, u, e⟩ := box_some hne
      obtain ⟨-, -, -, ⟨p, hp, e1⟩⟩ := box_attained ps none {p | p ∈ ps} (by intro l h e; cases e) (fun p hp => hp) l u e
      have hx := hps p hp
      simp only [Half] at hx
      have : p.2 ≤ (b.minY : ℝ) := by linarith
      simp only [frame_box hw hh, e, clear, e1, this, decide_true, Bool.or_true]

end Verif.Canvas
