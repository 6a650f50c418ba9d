import Verif.Segment.Spec

/-!
# C23: converting path commands to segments preserves the drawing
-/

namespace Verif.Segment

theorem Pt.add_def (a b : Pt) : a + b = ⟨a.x + b.x, a.y + b.y⟩ := rfl
theorem Pt.sub_def (a b : Pt) : a - b = ⟨a.x - b.x, a.y - b.y⟩ := rfl

theorem reflected_eq (cur : Pt) (c : Option Pt) : reflected cur c = mirror cur c := by
  cases c with
  | none => rfl
  | some c =>
    simp only [reflected, mirror, Pt.reflect, Pt.mk.injEq]
    constructor <;> grind

theorem newQuad_op (c p q : Pt) : Alike ((newQuad c p q).op p) (.quad p c q) := by
  refine .quad ?_ ?_ <;> intro t <;> simp only [Pt.add_def, Pt.sub_def, Pt.scale, bezier2, bezier3] <;> grind

theorem arcOrLine_op {s : Shape} {p q : Pt} (h : Op.Plain (.arc p s q)) :
    Alike ((arcOrLine s q p).op p) (.arc p s q) := by
  obtain ⟨h1, h2⟩ := h
  unfold arcOrLine isLine
  split
  · rename_i hl
    rcases h2 with h2 | h2 | ⟨h2, h3⟩
    · exact .arc (.inl h2)
    · exact .arc (.inr h2)
    · simp only [Bool.or_eq_true, decide_eq_true_eq] at hl
      rcases hl with (hl | hl) | hl
      · exact absurd (Rat.not_lt.2 h2) (by simpa using hl)
      · exact absurd (Rat.not_lt.2 h3) (by simpa using hl)
      · exact absurd hl h1
  · exact .refl _

theorem arcOrLine_end (s : Shape) (p q : Pt) : (arcOrLine s q p).endPoint = q := by
  unfold arcOrLine; split <;> rfl

/-- The control point of the code is that of the kind of curve that came before, and the pen of the
specification has no other. -/
def Holds : Bend → Option Pt → Pen → Prop
  | .cubic, c, s => c = s.cubic ∧ s.quad = none
  | .quad, c, s => c = s.quad ∧ s.cubic = none
  | .other, c, s => c = none ∧ s.cubic = none ∧ s.quad = none

theorem holds_cubic {b : Bend} {c : Option Pt} {s : Pen} (h : Holds b c s) (hb : b ≠ .quad) : c = s.cubic := by
  cases b with
  | cubic => exact h.1
  | quad => exact absurd rfl hb
  | other => rw [h.1, h.2.1]

theorem holds_quad {b : Bend} {c : Option Pt} {s : Pen} (h : Holds b c s) (hb : b ≠ .cubic) : c = s.quad := by
  cases b with
  | quad => exact h.1
  | cubic => exact absurd rfl hb
  | other => rw [h.1, h.2.2]

/-- One command: what the code does is what the specification says. -/
theorem take_spec (c : Cmd) {v : Pos} {s : Pen} {b : Bend} (hc : v.cursor = s.cur) (hh : Holds b v.control s)
    (h1 : c.continues = .cubic → b ≠ .quad) (h2 : c.continues = .quad → b ≠ .cubic) :
    (∃ p, act c s = .move p ∧ take c v = (none, ⟨p, p, none, v.zEnd⟩)) ∨
    (act c s = .close ∧ take c v = (none, ⟨v.start, v.cursor, none, true⟩)) ∨
    (∃ o cu qu d ctl, act c s = .draw o cu qu ∧ take c v = (some d, ⟨v.start, o.stop, ctl, v.zEnd⟩) ∧
      d.endPoint = o.stop ∧ (o.Plain → Alike (d.op s.cur) o) ∧ Holds c.bend ctl ⟨o.stop, s.start, cu, qu⟩) := by
  induction c with
  | implicit c ih => exact ih h1 h2
  | moveTo p => exact .inl ⟨p, rfl, rfl⟩
  | moveBy p => exact .inl ⟨s.cur + p, rfl, by rw [← hc]; rfl⟩
  | closePath => exact .inr (.inl ⟨rfl, rfl⟩)
  | lineTo p => exact .inr (.inr ⟨_, _, _, _, _, rfl, rfl, rfl, fun _ => .refl _, rfl, rfl, rfl⟩)
  | lineBy p =>
    refine .inr (.inr ⟨_, _, _, .lineTo (s.cur + p), _, rfl, ?_, rfl, fun _ => .refl _, rfl, rfl, rfl⟩)
    rw [← hc]; rfl
  | horizontalTo x =>
    refine .inr (.inr ⟨_, _, _, .lineTo ⟨x, s.cur.y⟩, _, rfl, ?_, rfl, fun _ => .refl _, rfl, rfl, rfl⟩)
    rw [← hc]; rfl
  | horizontalBy x =>
    refine .inr (.inr ⟨_, _, _, .lineTo ⟨s.cur.x + x, s.cur.y⟩, _, rfl, ?_, rfl, fun _ => .refl _, rfl, rfl, rfl⟩)
    rw [← hc]; rfl
  | verticalTo x =>
    refine .inr (.inr ⟨_, _, _, .lineTo ⟨s.cur.x, x⟩, _, rfl, ?_, rfl, fun _ => .refl _, rfl, rfl, rfl⟩)
    rw [← hc]; rfl
  | verticalBy x =>
    refine .inr (.inr ⟨_, _, _, .lineTo ⟨s.cur.x, s.cur.y + x⟩, _, rfl, ?_, rfl, fun _ => .refl _, rfl, rfl, rfl⟩)
    rw [← hc]; rfl
  | cubicTo a b' p => exact .inr (.inr ⟨_, _, _, _, _, rfl, rfl, rfl, fun _ => .refl _, rfl, rfl⟩)
  | cubicBy a b' p =>
    refine .inr (.inr ⟨_, _, _, .curveTo (s.cur + a) (s.cur + b') (s.cur + p), _, rfl, ?_, rfl, fun _ => .refl _,
      rfl, rfl⟩)
    rw [← hc]; rfl
  | smoothTo b' p =>
    have hq := holds_cubic hh (h1 rfl)
    refine .inr (.inr ⟨_, _, _, .curveTo (mirror s.cur s.cubic) b' p, _, rfl, ?_, rfl, fun _ => .refl _, rfl, rfl⟩)
    rw [← hc, ← hq, ← reflected_eq]; rfl
  | smoothBy b' p =>
    have hq := holds_cubic hh (h1 rfl)
    refine .inr (.inr ⟨_, _, _, .curveTo (mirror s.cur s.cubic) (s.cur + b') (s.cur + p), _, rfl, ?_, rfl,
      fun _ => .refl _, rfl, rfl⟩)
    rw [← hc, ← hq, ← reflected_eq]; rfl
  | quadTo c p =>
    refine .inr (.inr ⟨_, _, _, newQuad c s.cur p, _, rfl, ?_, rfl, fun _ => newQuad_op _ _ _, rfl, rfl⟩)
    rw [← hc]; rfl
  | quadBy c p =>
    refine .inr (.inr ⟨_, _, _, newQuad (s.cur + c) s.cur (s.cur + p), _, rfl, ?_, rfl, fun _ => newQuad_op _ _ _,
      rfl, rfl⟩)
    rw [← hc]; rfl
  | smoothQuadTo p =>
    have hq := holds_quad hh (h2 rfl)
    refine .inr (.inr ⟨_, _, _, newQuad (mirror s.cur s.quad) s.cur p, _, rfl, ?_, rfl, fun _ => newQuad_op _ _ _,
      rfl, rfl⟩)
    rw [← hc, ← hq, ← reflected_eq]; rfl
  | smoothQuadBy p =>
    have hq := holds_quad hh (h2 rfl)
    refine .inr (.inr ⟨_, _, _, newQuad (mirror s.cur s.quad) s.cur (s.cur + p), _, rfl, ?_, rfl,
      fun _ => newQuad_op _ _ _, rfl, rfl⟩)
    rw [← hc, ← hq, ← reflected_eq]; rfl
  | arcTo a p =>
    refine .inr (.inr ⟨_, _, _, arcOrLine a p s.cur, _, rfl, ?_, arcOrLine_end _ _ _, arcOrLine_op, rfl, rfl, rfl⟩)
    rw [← hc]; rfl
  | arcBy a p =>
    refine .inr (.inr ⟨_, _, _, arcOrLine a (s.cur + p) s.cur, _, rfl, ?_, arcOrLine_end _ _ _, arcOrLine_op,
      rfl, rfl, rfl⟩)
    have : p + s.cur = s.cur + p := by simp only [Pt.add_def, Pt.mk.injEq]; constructor <;> grind
    simp only [take, hc, this, Op.stop]

theorem draw_head (cs : List Cmd) (s : Pen) (ops : List Op) :
    ∃ more z tail, draw cs s ops = ⟨s.start, ops ++ more, z⟩ :: tail := by
  induction cs generalizing s ops with
  | nil => exact ⟨[], false, [], by simp [draw]⟩
  | cons c cs ih =>
    unfold draw
    split
    · exact ⟨[], false, _, by rw [List.append_nil]⟩
    · exact ⟨[], true, _, by rw [List.append_nil]⟩
    · rename_i o cu qu _
      obtain ⟨more, z, tail, h⟩ := ih ⟨o.stop, s.start, cu, qu⟩ (ops ++ [o])
      exact ⟨o :: more, z, tail, by rw [h]; simp⟩

/-- The commands are done, the next is a move, or the next is a close. -/
inductive Tail (s : Pen) : List Cmd → Pos → Bool → List Sub → Prop
  | done {v} : v.start = s.start → v.zEnd = false → Tail s [] v false []
  | move {rest p v} : v.start = p → v.cursor = p → v.zEnd = false →
      Tail s rest v false (draw rest ⟨p, p, none, none⟩ [])
  | close {rest v} : v.start = s.start → v.zEnd = true →
      Tail s rest v true (draw rest ⟨s.start, s.start, none, none⟩ [])

/-- One segment: its data are drawn like the pieces of the subpath, and what is left is drawn as the subpaths that
are left. -/
theorem takeData_spec (cs : List Cmd) {v : Pos} {s : Pen} {b : Bend} (ops : List Op) (hc : v.cursor = s.cur)
    (hs : v.start = s.start) (hz : v.zEnd = false) (hh : Holds b v.control s) (hb : SmoothOk b cs)
    (hp : ∀ u ∈ draw cs s ops, ∀ o ∈ u.ops, o.Plain) :
    ∃ new z tail, draw cs s ops = ⟨s.start, ops ++ new, z⟩ :: tail ∧ Drawn s.cur (takeData cs v).1 new ∧
      SmoothOk .other (takeData cs v).2.2 ∧ Tail s (takeData cs v).2.2 (takeData cs v).2.1 z tail ∧
      (new = [] → z = true → (takeData cs v).2.1.cursor = s.cur) := by
  induction cs generalizing v s b ops with
  | nil => exact ⟨[], false, [], by simp [draw], .nil, trivial, .done hs hz, by simp⟩
  | cons c cs ih =>
    rcases take_spec c hc hh hb.1 hb.2.1 with ⟨p, ha, ht⟩ | ⟨ha, ht⟩ | ⟨o, cu, qu, d, ctl, ha, ht, he, hop, hho⟩
    · have hbend : c.bend = .other := by
        clear ht hp ih hb hh
        induction c with
        | implicit c ih => exact ih ha
        | moveTo | moveBy => rfl
        | _ => cases ha
      refine ⟨[], false, draw cs ⟨p, p, none, none⟩ [], by simp only [draw, ha, List.append_nil], ?_, ?_, ?_, by simp⟩
      · simp only [takeData, ht]; exact .nil
      · simp only [takeData, ht]; exact hbend ▸ hb.2.2
      · simp only [takeData, ht]; exact .move rfl rfl hz
    · have hbend : c.bend = .other := by
        clear ht hp ih hb hh
        induction c with
        | implicit c ih => exact ih ha
        | closePath => rfl
        | _ => cases ha
      refine ⟨[], true, draw cs ⟨s.start, s.start, none, none⟩ [], by simp only [draw, ha, List.append_nil], ?_, ?_, ?_,
        ?_⟩
      · simp only [takeData, ht]; exact .nil
      · simp only [takeData, ht]; exact hbend ▸ hb.2.2
      · simp only [takeData, ht]; exact .close hs rfl
      · intro _ _; simp only [takeData, ht]; exact hc
    · have hd : draw (c :: cs) s ops = draw cs ⟨o.stop, s.start, cu, qu⟩ (ops ++ [o]) := by simp only [draw, ha]
      obtain ⟨new, z, tail, h1, h2, h3, h4, h5⟩ := @ih ⟨v.start, o.stop, ctl, v.zEnd⟩ ⟨o.stop, s.start, cu, qu⟩ c.bend
        (ops ++ [o]) rfl hs hz hho hb.2.2 (hd ▸ hp)
      have hplain : o.Plain := by
        refine hp _ (by rw [hd, h1]; exact List.mem_cons_self) o ?_
        simp
      refine ⟨o :: new, z, tail, ?_, ?_, ?_, ?_, by simp⟩
      · rw [hd, h1]; simp
      · simp only [takeData, ht]; exact .cons (hop hplain) (he ▸ h2)
      · simp only [takeData, ht]; exact h3
      · simp only [takeData, ht]
        generalize takeData cs ⟨v.start, o.stop, ctl, v.zEnd⟩ = r at h4
        obtain ⟨_, v', rest⟩ := r
        cases h4 with
        | done a b => exact .done a b
        | move a b c => exact .move a b c
        | close a b => exact .close a b

theorem drawn_last {p : Pt} {ds : List Data} {ops : List Op} (h : Drawn p ds ops) :
    lastEnd p ds = ops.foldl (fun _ o => o.stop) p := by
  induction h with
  | nil => rfl
  | @cons p d ds o ops h _ ih =>
    have : d.endPoint = o.stop := by
      generalize hx : Data.op p d = x at h
      cases h with
      | refl => subst hx; cases d <;> rfl
      | quad => cases d <;> simp_all [Data.op, Data.endPoint, Op.stop]
      | arc => cases d <;> simp_all [Data.op, Data.endPoint, Op.stop]
    rw [this] at ih
    simp only [lastEnd, List.foldl_cons, this]
    exact ih

theorem drawn_empty {p : Pt} {ds : List Data} {ops : List Op} (h : Drawn p ds ops) : ds.isEmpty = ops.isEmpty := by
  cases h <;> rfl

theorem takeSegments_spec (tol : Rat) (n : Nat) : ∀ (cs : List Cmd) (p : Pt), cs.length ≤ n → SmoothOk .other cs →
    (∀ u ∈ draw cs ⟨p, p, none, none⟩ [], ∀ o ∈ u.ops, o.Plain) →
    Agree ((takeSegments tol cs p p).1.filter Segment.hasData)
      ((marked tol (draw cs ⟨p, p, none, none⟩ [])).filter Sub.hasOps) := by
  induction n with
  | zero =>
    intro cs p hn _ _
    have : cs = [] := List.length_eq_zero_iff.1 (Nat.le_zero.1 hn)
    subst this
    simp only [takeSegments, draw, marked, List.filter_nil, List.filter_cons, Sub.hasOps]
    exact .nil
  | succ n ih =>
    intro cs p hn hb hp
    cases cs with
    | nil =>
      simp only [takeSegments, draw, marked, List.filter_nil, List.filter_cons, Sub.hasOps]
      exact .nil
    | cons c cs =>
      obtain ⟨ops, z, tail, h1, h2, h3, h4, h5⟩ := takeData_spec (c :: cs) (v := ⟨p, p, none, false⟩)
        (s := ⟨p, p, none, none⟩) (b := .other) [] rfl rfl rfl ⟨rfl, rfl, rfl⟩ hb hp
      have hlen := takeData_length (c :: cs) ⟨p, p, none, false⟩
      rw [takeSegments]
      generalize takeData (c :: cs) ⟨p, p, none, false⟩ = r at h2 h3 h4 h5 hlen
      obtain ⟨ds, v, rest⟩ := r
      simp only [List.length_cons, Nat.add_sub_cancel, List.nil_append] at hlen hn h1 h2 h3 h4 h5 ⊢
      rw [h1]
      have hlast := drawn_last h2
      have hempty := drawn_empty h2
      have hrest : rest.length ≤ n := by omega
      have htail : ∀ u ∈ tail, ∀ o ∈ u.ops, o.Plain := fun u hu => hp u (by rw [h1]; exact List.mem_cons_of_mem _ hu)
      -- the closure, the position and the rest, case by case
      have key : ∀ (p' : Pt) (w : Pos), w.start = p' → w.cursor = p' →
          tail = draw rest ⟨p', p', none, none⟩ [] →
          Agree ((takeSegments tol rest w.start w.cursor).1.filter Segment.hasData)
            ((marked tol tail).filter Sub.hasOps) := by
        intro p' w hw1 hw2 ht
        rw [hw1, hw2, ht]
        exact ih rest p' hrest h3 (ht ▸ htail)
      cases h4 with
      | done a b =>
        cases ds with
        | nil =>
          have : ops = [] := by simpa using hempty
          subst this
          simp [finishSegment, takeSegments, marked, Segment.hasData, Sub.hasOps]
          exact .nil
        | cons d ds =>
          have hne : ops.isEmpty = false := by simpa using hempty.symm
          simp only [finishSegment, List.isEmpty_cons, Bool.false_eq_true, if_false, b, takeSegments, marked,
            List.filter_cons, Segment.hasData, Sub.hasOps, hne, Bool.not_false, if_true, List.filter_nil]
          refine .cons rfl h2 ?_ .nil
          simp only [Bool.false_or, Sub.last, ← hlast]
          have a' : v.start = p := a
          rw [a']
      | @move _ p' _ a b e =>
        obtain ⟨more, z', tail', hd⟩ := draw_head rest ⟨p', p', none, none⟩ []
        have hk := key p' v a b rfl
        rw [hd] at hk ⊢
        cases ds with
        | nil =>
          have : ops = [] := by simpa using hempty
          subst this
          simpa [finishSegment, marked, Segment.hasData, Sub.hasOps] using hk
        | cons d ds =>
          have hne : ops.isEmpty = false := by simpa using hempty.symm
          simp only [finishSegment, List.isEmpty_cons, Bool.false_eq_true, if_false, e, marked,
            List.filter_cons, Segment.hasData, Sub.hasOps, hne, Bool.not_false, if_true]
          refine .cons rfl h2 ?_ hk
          simp only [Bool.false_or, Sub.last, ← hlast]
          rw [a]
      | close a e =>
        obtain ⟨more, z', tail', hd⟩ := draw_head rest ⟨p, p, none, none⟩ []
        have a' : v.start = p := a
        cases ds with
        | nil =>
          have : ops = [] := by simpa using hempty
          subst this
          have hk := key p v a' (h5 rfl rfl) rfl
          rw [hd] at hk ⊢
          simpa [finishSegment, marked, Segment.hasData, Sub.hasOps] using hk
        | cons d ds =>
          have hne : ops.isEmpty = false := by simpa using hempty.symm
          have hk := key p { v with cursor := p } a' rfl rfl
          rw [hd] at hk ⊢
          simp only [finishSegment, List.isEmpty_cons, Bool.false_eq_true, if_false, e, marked,
            List.filter_cons, Segment.hasData, Sub.hasOps, hne, Bool.not_false, if_true]
          exact .cons rfl h2 (by simp) hk

theorem orEmpty_filter (r : List Segment × Pt) :
    (orEmpty r).filter Segment.hasData = r.1.filter Segment.hasData := by
  rcases r with ⟨_ | ⟨s, l⟩, p⟩
  · rfl
  · rfl

/-- Path data begin with a move. -/
def BeginsWithMove (cs : List Cmd) : Prop := ∃ p rest, cs = .moveTo p :: rest ∨ cs = .moveBy p :: rest

/-- **C23 (exact).** Path data that begin with a move, in which no smooth command follows a curve of the other kind and
no arc is degenerate, become segments that draw the subpaths of the specification, piece by piece. A subpath is
marked closed if it is closed or if it ends within the tolerance of the start of the next subpath (of its own start
if it is the last one). Subpaths without pieces are not compared. -/
theorem fromSvg_spec (tol : Rat) {cs : List Cmd} (hm : BeginsWithMove cs) (hb : SmoothOk .other cs)
    (hp : ∀ u ∈ subpaths cs, ∀ o ∈ u.ops, o.Plain) :
    ∃ segs, fromSvg tol cs = some segs ∧
      Agree (segs.filter Segment.hasData) ((marked tol (subpaths cs)).filter Sub.hasOps) := by
  obtain ⟨p, rest, rfl | rfl⟩ := hm
  · refine ⟨_, rfl, ?_⟩
    rw [orEmpty_filter]
    exact takeSegments_spec tol rest.length rest p (Nat.le_refl _) hb.2.2 hp
  · have hz : (⟨0 + p.x, 0 + p.y⟩ : Pt) = p := by simp [Rat.zero_add]
    have hsub : subpaths (.moveBy p :: rest) = draw rest ⟨p, p, none, none⟩ [] := by
      simp only [subpaths, act, hz]
    rw [hsub] at hp ⊢
    refine ⟨_, rfl, ?_⟩
    rw [orEmpty_filter]
    exact takeSegments_spec tol rest.length rest p (Nat.le_refl _) hb.2.2 hp

theorem clear_marked (tol : Rat) : ∀ l : List Sub, Clear tol l →
    (marked tol l).filter Sub.hasOps = l.filter Sub.visible
  | [], _ => rfl
  | [u], h => by
    obtain ⟨h1, h2⟩ := h
    rcases u with ⟨st, _ | ⟨o, ops⟩, z⟩
    · cases z with
      | true => exact absurd rfl (h1 rfl)
      | false => rfl
    · cases z with
      | true => simp [marked, Sub.hasOps, Sub.visible]
      | false =>
        have := h2 rfl (by simp)
        simp only [marked, Sub.hasOps, Sub.visible, List.isEmpty_cons, Bool.not_false, Bool.true_or,
          List.filter_cons, if_true, Bool.false_or, decide_eq_false (Rat.not_lt.2 this), List.filter_nil]
  | u :: v :: l, h => by
    obtain ⟨h1, h2, h3⟩ := h
    have ih := clear_marked tol (v :: l) h3
    rcases u with ⟨st, _ | ⟨o, ops⟩, z⟩
    · cases z with
      | true => exact absurd rfl (h1 rfl)
      | false =>
        simp only [marked, List.filter_cons, Sub.hasOps, Sub.visible] at ih ⊢
        simpa using ih
    · cases z with
      | true =>
        simp only [marked, List.filter_cons, Sub.hasOps, Sub.visible] at ih ⊢
        simpa using ih
      | false =>
        have := h2 rfl (by simp)
        simp only [marked, List.filter_cons, Sub.hasOps, Sub.visible, Bool.false_or,
          decide_eq_false (Rat.not_lt.2 this)] at ih ⊢
        simpa using ih

/-- **C23, for all path data whose closures are clear.** The segments are the subpaths of the specification: same
start points, same pieces, same closures. Missing are the inputs that the hypotheses exclude; for each there is a
theorem below that shows a different drawing. -/
theorem fromSvg_partial (tol : Rat) {cs : List Cmd} (hm : BeginsWithMove cs) (hb : SmoothOk .other cs)
    (hp : ∀ u ∈ subpaths cs, ∀ o ∈ u.ops, o.Plain) (hc : Clear tol (subpaths cs)) :
    ∃ segs, fromSvg tol cs = some segs ∧
      Agree (segs.filter Segment.hasData) ((subpaths cs).filter Sub.visible) := by
  obtain ⟨segs, h1, h2⟩ := fromSvg_spec tol hm hb hp
  exact ⟨segs, h1, clear_marked tol _ hc ▸ h2⟩

/-- **C23 (panic).** The conversion fails exactly on data that do not begin with a move. -/
theorem fromSvg_none_iff (tol : Rat) (cs : List Cmd) : fromSvg tol cs = none ↔ cs ≠ [] ∧ ¬ BeginsWithMove cs := by
  unfold fromSvg
  split
  · simp
  · rename_i p cs
    simp only [reduceCtorEq, false_iff, not_and, Classical.not_not]
    exact fun _ => ⟨p, cs, .inl rfl⟩
  · rename_i p cs
    simp only [reduceCtorEq, false_iff, not_and, Classical.not_not]
    exact fun _ => ⟨p, cs, .inr rfl⟩
  · rename_i x h1 h2 h3
    simp only [true_iff]
    refine ⟨fun h => h1 h, ?_⟩
    rintro ⟨p, rest, h | h⟩
    · exact h2 p rest h
    · exact h3 p rest h

/-- **C23 fails (smooth cubic after quadratic).** `M0 0Q1 1 2 0S4 -1 5 0`: the first control point of the second
curve is (3, -1), not the current point (2, 0). -/
theorem smooth_after_quad_violated :
    fromSvg (1 / 100) [.moveTo ⟨0, 0⟩, .quadTo ⟨1, 1⟩ ⟨2, 0⟩, .smoothTo ⟨4, -1⟩ ⟨5, 0⟩] =
      some [⟨⟨0, 0⟩, [newQuad ⟨1, 1⟩ ⟨0, 0⟩ ⟨2, 0⟩, .curveTo ⟨3, -1⟩ ⟨4, -1⟩ ⟨5, 0⟩], false⟩] ∧
    subpaths [.moveTo ⟨0, 0⟩, .quadTo ⟨1, 1⟩ ⟨2, 0⟩, .smoothTo ⟨4, -1⟩ ⟨5, 0⟩] =
      [⟨⟨0, 0⟩, [.quad ⟨0, 0⟩ ⟨1, 1⟩ ⟨2, 0⟩, .cubic ⟨2, 0⟩ ⟨2, 0⟩ ⟨4, -1⟩ ⟨5, 0⟩], false⟩] := by
  constructor
  · simp only [fromSvg, takeSegments]; decide +kernel
  · decide +kernel

/-- **C23 fails (smooth quadratic after cubic).** `M0 0C0 1 1 1 2 0T4 0`: the second curve gets the control point
(3, -1) and should be a straight line. -/
theorem smooth_after_cubic_violated :
    fromSvg (1 / 100) [.moveTo ⟨0, 0⟩, .cubicTo ⟨0, 1⟩ ⟨1, 1⟩ ⟨2, 0⟩, .smoothQuadTo ⟨4, 0⟩] =
      some [⟨⟨0, 0⟩, [.curveTo ⟨0, 1⟩ ⟨1, 1⟩ ⟨2, 0⟩, newQuad ⟨3, -1⟩ ⟨2, 0⟩ ⟨4, 0⟩], false⟩] ∧
    subpaths [.moveTo ⟨0, 0⟩, .cubicTo ⟨0, 1⟩ ⟨1, 1⟩ ⟨2, 0⟩, .smoothQuadTo ⟨4, 0⟩] =
      [⟨⟨0, 0⟩, [.cubic ⟨0, 0⟩ ⟨0, 1⟩ ⟨1, 1⟩ ⟨2, 0⟩, .quad ⟨2, 0⟩ ⟨2, 0⟩ ⟨4, 0⟩], false⟩] := by
  constructor
  · simp only [fromSvg, takeSegments]; decide +kernel
  · decide +kernel

/-- **C23 fails (closed by the next move).** `M0 0L5 0L5 5M5 5L9 9`: the first subpath is open, its segment is closed,
since the end is compared with the start of the next subpath. -/
theorem closed_by_next_move_violated :
    fromSvg (1 / 100) [.moveTo ⟨0, 0⟩, .lineTo ⟨5, 0⟩, .lineTo ⟨5, 5⟩, .moveTo ⟨5, 5⟩, .lineTo ⟨9, 9⟩] =
      some [⟨⟨0, 0⟩, [.lineTo ⟨5, 0⟩, .lineTo ⟨5, 5⟩], true⟩, ⟨⟨5, 5⟩, [.lineTo ⟨9, 9⟩], false⟩] ∧
    (subpaths [.moveTo ⟨0, 0⟩, .lineTo ⟨5, 0⟩, .lineTo ⟨5, 5⟩, .moveTo ⟨5, 5⟩, .lineTo ⟨9, 9⟩]).map Sub.closed =
      [false, false] := by
  constructor
  · simp only [fromSvg, takeSegments]; decide +kernel
  · decide +kernel

/-- **C23 fails (lone close).** `M0 0z` draws a closed subpath (a dot, with round caps); the segment is open. -/
theorem lone_close_violated :
    fromSvg (1 / 100) [.moveTo ⟨0, 0⟩, .closePath] = some [⟨⟨0, 0⟩, [], false⟩] ∧
    subpaths [.moveTo ⟨0, 0⟩, .closePath] = [⟨⟨0, 0⟩, [], true⟩, ⟨⟨0, 0⟩, [], false⟩] := by
  constructor
  · simp only [fromSvg, takeSegments]; decide +kernel
  · decide +kernel

/-- **C23 fails (tiny radii).** An arc with radii below `1e-5` that are not zero has to be scaled up until it reaches
its end (F.6.6); it becomes a line. -/
theorem tiny_radius_violated (s : Shape) (p q tol : Rat) (h : s.r.x.abs < 1 / 100000) :
    fromSvg tol [.moveTo ⟨0, 0⟩, .arcTo s ⟨p, q⟩] =
      some [⟨⟨0, 0⟩, [.lineTo ⟨p, q⟩], decide (Pt.dist2 ⟨0, 0⟩ ⟨p, q⟩ < tol * tol)⟩] := by
  simp [fromSvg, takeSegments, takeData, take, arcOrLine, isLine, h, finishSegment, orEmpty, lastEnd, Data.endPoint]

/-- **C23 fails (arc without extent).** An arc that ends where it begins is to be left out (F.6.2); it becomes a line of
no length, and `M0 0A1 1 0 0 0 0 0` becomes a closed segment. -/
theorem empty_arc_violated (s : Shape) :
    fromSvg (1 / 100) [.moveTo ⟨0, 0⟩, .arcTo s ⟨0, 0⟩] = some [⟨⟨0, 0⟩, [.lineTo ⟨0, 0⟩], true⟩] := by
  simp [fromSvg, takeSegments, takeData, take, arcOrLine, isLine, finishSegment, orEmpty, lastEnd, Data.endPoint]
  decide +kernel

section Examples

/-- `M1 1l9 0S12 5 10 9zm2 2h3Q9 9 7 7t1-4`, for the theorems above. -/
def sample : List Cmd :=
  [.moveTo ⟨1, 1⟩, .lineBy ⟨9, 0⟩, .smoothTo ⟨12, 5⟩ ⟨10, 9⟩, .closePath, .moveBy ⟨2, 2⟩, .horizontalBy 3,
    .quadTo ⟨9, 9⟩ ⟨7, 7⟩, .smoothQuadBy ⟨1, -4⟩, .arcTo ⟨⟨2, 3⟩, 0, true, false⟩ ⟨20, 20⟩]

example : BeginsWithMove sample ∧ SmoothOk .other sample ∧ (∀ u ∈ subpaths sample, ∀ o ∈ u.ops, o.Plain) ∧
    Clear (1 / 100) (subpaths sample) := by
  refine ⟨⟨_, _, .inl rfl⟩, ?_, ?_, ?_⟩
  · simp [sample, SmoothOk, Cmd.continues, Cmd.bend, Cmd.plain]
  · simp only [sample, subpaths, act, draw, Op.stop, List.nil_append, List.cons_append, List.mem_cons,
      List.not_mem_nil, or_false, forall_eq_or_imp, forall_eq, Op.Plain, and_true, true_and, false_implies,
      implies_true]
    decide +kernel
  · simp only [sample, subpaths, act, draw, Op.stop, List.nil_append, List.cons_append, Clear, Sub.last]
    decide +kernel

example : (subpaths sample).map (fun u => (u.start, u.ops.length, u.closed)) =
    [(⟨1, 1⟩, 2, true), (⟨1, 1⟩, 0, false), (⟨3, 3⟩, 4, false)] := by decide +kernel

example : (fromSvg (1 / 100) sample).map (fun l => l.map (fun s => (s.start, s.data.length, s.closed))) =
    some [(⟨1, 1⟩, 2, true), (⟨1, 1⟩, 0, false), (⟨3, 3⟩, 4, false)] := by
  simp only [fromSvg, takeSegments, sample]; decide +kernel

example : fromSvg 1 [.lineTo ⟨1, 1⟩] = none := rfl

end Examples

end Verif.Segment
