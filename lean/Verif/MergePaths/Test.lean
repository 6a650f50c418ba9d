import Verif.ArcTo.Unique
import Verif.Segment.Props
import Verif.MergePaths.Props

/-!
# The test for intersections, from path data on

merge_paths.rs 192-197: both path data are made segments (`Segment.fromSvg`), with arcs by centre and angles (`ArcTo.fromArcTo`), and these are tested
by their hulls (`Gjk.intersects`).
-/

namespace Verif.MergePaths

open Verif.Segment Verif.Gjk

/-- A point with real coordinates. -/
def real (p : Segment.Pt) : Gjk.Pt ℝ := ((p.x : ℝ), (p.y : ℝ))

/-- The arguments of an arc, as real numbers. -/
def args (s : Shape) : ArcTo.Args := ⟨(s.r.x : ℝ), (s.r.y : ℝ), (s.rot : ℝ), s.large, s.sweep⟩

/-- convert.rs 149-164: what is drawn from `p`, with real numbers; the arc is made by `from_arc_to`. -/
noncomputable def realData (p : Segment.Pt) : Segment.Data → Gjk.Data ℝ ArcR
  | .lineTo q => .lineTo (real q)
  | .curveTo a b q => .curveTo (real a) (real b) (real q)
  | .arcTo a => match ArcTo.fromArcTo (args a.s) (real p) (real a.to) with
    | some b => .arcTo b
    | none => .lineTo (real a.to)

/-- All data of a segment. -/
noncomputable def realList : Segment.Pt → List Segment.Data → List (Gjk.Data ℝ ArcR)
  | _, [] => []
  | p, d :: ds => realData p d :: realList d.endPoint ds

/-- A segment with real numbers. -/
noncomputable def realSeg (s : Segment) : Seg ℝ ArcR := ⟨real s.start, realList s.start s.data, s.closed⟩

/-- merge_paths.rs 192-197, with the tolerance `tol`. `true` if it would panic. -/
noncomputable def test (tol : Rat) (c d : List Cmd) : Bool :=
  match fromSvg tol c, fromSvg tol d with
  | some p, some q => (intersects ArcR.nest (p.map realSeg) (q.map realSeg)).getD true
  | _, _ => true

/-! ## Specification -/

/-- A point on a line. -/
def OnLine (p q : Segment.Pt) (x : Gjk.Pt ℝ) : Prop :=
  ∃ t : ℝ, 0 ≤ t ∧ t ≤ 1 ∧ x.1 = (1 - t) * p.x + t * q.x ∧ x.2 = (1 - t) * p.y + t * q.y

/-- A point on a piece of a subpath. An arc without radius is a line (F.6.2). -/
def OnOp : Op → Gjk.Pt ℝ → Prop
  | .line p q, x => OnLine p q x
  | .quad p c q, x => ∃ t : ℝ, 0 ≤ t ∧ t ≤ 1 ∧ x.1 = (1 - t) ^ 2 * p.x + 2 * (1 - t) * t * c.x + t ^ 2 * q.x ∧
    x.2 = (1 - t) ^ 2 * p.y + 2 * (1 - t) * t * c.y + t ^ 2 * q.y
  | .cubic p a b q, x => ∃ t : ℝ, 0 ≤ t ∧ t ≤ 1 ∧
    x.1 = (1 - t) ^ 3 * p.x + 3 * (1 - t) ^ 2 * t * a.x + 3 * (1 - t) * t ^ 2 * b.x + t ^ 3 * q.x ∧
    x.2 = (1 - t) ^ 3 * p.y + 3 * (1 - t) ^ 2 * t * a.y + 3 * (1 - t) * t ^ 2 * b.y + t ^ 3 * q.y
  | .arc p s q, x => ((s.r.x = 0 ∨ s.r.y = 0) ∧ OnLine p q x) ∨
    (¬ (s.r.x = 0 ∨ s.r.y = 0) ∧ ∃ b, ArcTo.Draws (args s) (real p) (real q) b ∧ ∃ t : ℝ, 0 ≤ t ∧ t ≤ 1 ∧ x = ArcTo.pointAt b t)

/-- The points that a subpath draws, with the line that closes it, which filling adds if it is open. -/
def outline (u : Sub) : Set (Gjk.Pt ℝ) := {x | (∃ o ∈ u.ops, OnOp o x) ∨ OnLine u.last u.start x}

/-- All that a subpath may paint, without the width of its stroke. -/
def area (u : Sub) : Set (Gjk.Pt ℝ) := _root_.convexHull ℝ (outline u)

/-- What two lists of subpaths paint does not overlap: for any two of them that have a piece, there is a line between. -/
def Separate (l m : List Sub) : Prop := ∀ u ∈ l, ∀ v ∈ m, u.ops ≠ [] → v.ops ≠ [] →
  Apart (area u) (area v) ∧ Disjoint (interior (area u)) (area v) ∧ Disjoint (area u) (interior (area v))

/-- Path data that the conversion to segments keeps: no smooth command follows a curve of the other kind, and no arc is degenerate (C23). -/
def Good (c : List Cmd) : Prop := Valid c ∧ SmoothOk .other c ∧ ∀ u ∈ subpaths c, ∀ o ∈ u.ops, o.Plain

/-! ## Segments -/

theorem pointAt_eq (b : ArcR) (t : ℝ) : ArcTo.pointAt b t = b.pointAt (b.start + t * b.sweep) := by
  rw [ArcTo.pointAt, ArcR.pointAt, add_comm, mul_comm t]

theorem realData_stop (p : Segment.Pt) (d : Segment.Data) : (realData p d).stop (fun a => a.pointAt (a.start + a.sweep)) = real d.endPoint := by
  cases d with
  | lineTo q => rfl
  | curveTo a b q => rfl
  | arcTo a =>
    simp only [realData]
    split
    · next b h =>
      have := (ArcTo.fromArcTo_draws h).last
      rw [pointAt_eq, one_mul] at this
      exact this
    · rfl

theorem realList_joined : ∀ (p : Segment.Pt) (ds : List Segment.Data), Gjk.Joined (real p) (realList p ds)
  | _, [] => trivial
  | p, d :: ds => by
    refine ⟨?_, ?_⟩
    · cases d with
      | lineTo q => trivial
      | curveTo a b q => trivial
      | arcTo a =>
        simp only [realData]
        split
        · next e =>
          split at e
          · next b h =>
            cases e
            have := (ArcTo.fromArcTo_draws h).first
            rwa [pointAt_eq, zero_mul, add_zero] at this
          · cases e
        · trivial
    · rw [realData_stop]
      exact realList_joined d.endPoint ds

theorem realList_stop : ∀ (p : Segment.Pt) (ds : List Segment.Data),
    stopOf (fun a : ArcR => a.pointAt (a.start + a.sweep)) (real p) (realList p ds) = real (lastEnd p ds)
  | _, [] => rfl
  | p, d :: ds => by
    simp only [realList, stopOf, realData_stop]
    exact realList_stop d.endPoint ds

/-- The control points of a cubic curve that runs like a quadratic one. -/
theorem raised {p a b c q : ℚ} (h : ∀ t, bezier3 p a b q t = bezier2 p c q t) : a = p + 2 / 3 * (c - p) ∧ b = q + 2 / 3 * (c - q) := by
  have h1 := h (1 / 2)
  have h2 := h (1 / 3)
  simp only [bezier3, bezier2] at h1 h2
  constructor <;> linarith

theorem rat_abs (x : ℚ) : x.abs = |x| := by
  unfold Rat.abs
  split
  · next h => rw [abs_of_nonneg h]
  · next h => rw [abs_of_neg (not_le.mp h)]

theorem on_alike {p : Segment.Pt} {d : Segment.Data} {o : Op} (h : Alike (d.op p) o) (hp : o.Plain) {x : Gjk.Pt ℝ} (hx : OnOp o x) :
    (realData p d).On ArcR.On (real p) x := by
  cases d with
  | lineTo q =>
    simp only [Data.op] at h
    generalize e : Op.line p q = o' at h
    cases h with
    | refl => subst e; exact hx
    | quad => cases e
    | arc hr =>
      cases e
      rcases hx with ⟨-, hx⟩ | ⟨hn, -⟩
      · exact hx
      · exact absurd hr hn
  | curveTo a b q =>
    simp only [Data.op] at h
    generalize e : Op.cubic p a b q = o' at h
    cases h with
    | refl => subst e; exact hx
    | arc => cases e
    | @quad p' a' b' c q' h1 h2 =>
      cases e
      obtain ⟨t, t0, t1, e1, e2⟩ := hx
      obtain ⟨ax, bx⟩ := raised h1
      obtain ⟨ay, by'⟩ := raised h2
      refine ⟨t, t0, t1, ?_, ?_⟩
      · simp only [real, e1, ax, bx]; push_cast; ring
      · simp only [real, e2, ay, by']; push_cast; ring
  | arcTo a =>
    simp only [Data.op] at h
    generalize e : Op.arc p a.s a.to = o' at h
    cases h with
    | quad => cases e
    | arc => cases e
    | refl =>
      subst e
      simp only [realData]
      cases hf : ArcTo.fromArcTo (args a.s) (real p) (real a.to) with
      | some b =>
        have hn : ¬ (|(args a.s).rx| < 1 / 100000 ∨ |(args a.s).ry| < 1 / 100000 ∨ real p = real a.to) := by
          rw [← ArcTo.fromArcTo_none_iff, hf]; simp
        simp only [not_or, not_lt] at hn
        rcases hx with ⟨hr, -⟩ | ⟨-, b', hb, t, t0, t1, rfl⟩
        · exfalso
          rcases hr with hr | hr <;> simp only [args, hr] at hn <;> norm_num at hn
        · rw [← ArcTo.fromArcTo_unique hf hb t, pointAt_eq]
          exact (ArcR.on_iff b _).mpr ⟨t, t0, t1, rfl⟩
      | none =>
        rw [ArcTo.fromArcTo_none_iff] at hf
        obtain ⟨hpq, hr⟩ := hp
        have hne : real p ≠ real a.to := by
          intro h
          apply hpq
          have h1 := congrArg Prod.fst h
          have h2 := congrArg Prod.snd h
          simp only [real, Rat.cast_inj] at h1 h2
          cases p
          cases ha : a.to
          rw [ha] at h1 h2
          subst h1 h2
          rfl
        have hr' : a.s.r.x = 0 ∨ a.s.r.y = 0 := by
          rcases hr with hr | hr | ⟨h1, h2⟩
          · exact .inl hr
          · exact .inr hr
          · exfalso
            rw [rat_abs] at h1 h2
            rcases hf with hf | hf | hf
            · have : ((1 / 100000 : ℚ) : ℝ) ≤ ((|a.s.r.x| : ℚ) : ℝ) := Rat.cast_le.mpr h1
              push_cast at this
              exact absurd hf (not_lt.mpr this)
            · have : ((1 / 100000 : ℚ) : ℝ) ≤ ((|a.s.r.y| : ℚ) : ℝ) := Rat.cast_le.mpr h2
              push_cast at this
              exact absurd hf (not_lt.mpr this)
            · exact hne hf
        rcases hx with ⟨-, hx⟩ | ⟨hn, -⟩
        · exact hx
        · exact absurd hr' hn

theorem on_drawn {p : Segment.Pt} {ds : List Segment.Data} {ops : List Op} (h : Drawn p ds ops) (hp : ∀ o ∈ ops, o.Plain) {x : Gjk.Pt ℝ}
    (hx : ∃ o ∈ ops, OnOp o x) : OnData ArcR.On (fun a => a.pointAt (a.start + a.sweep)) (real p) (realList p ds) x := by
  induction h with
  | nil => obtain ⟨o, ho, -⟩ := hx; cases ho
  | cons ha _ ih =>
    obtain ⟨o, ho, hx⟩ := hx
    rcases List.mem_cons.mp ho with rfl | ho
    · exact .inl (on_alike ha (hp _ List.mem_cons_self) hx)
    · refine .inr ?_
      rw [realData_stop]
      exact ih (fun o ho => hp o (List.mem_cons_of_mem _ ho)) ⟨o, ho, hx⟩

theorem alike_stop {p : Segment.Pt} {d : Segment.Data} {o : Op} (h : Alike (d.op p) o) : o.stop = d.endPoint := by
  cases d with
  | lineTo q =>
    simp only [Data.op] at h
    generalize e : Op.line p q = o' at h
    cases h <;> cases e <;> rfl
  | curveTo a b q =>
    simp only [Data.op] at h
    generalize e : Op.cubic p a b q = o' at h
    cases h <;> cases e <;> rfl
  | arcTo a =>
    simp only [Data.op] at h
    generalize e : Op.arc p a.s a.to = o' at h
    cases h <;> cases e <;> rfl

theorem drawn_stop {p : Segment.Pt} {ds : List Segment.Data} {ops : List Op} (h : Drawn p ds ops) : ops.foldl (fun _ o => o.stop) p = lastEnd p ds := by
  induction h with
  | nil => rfl
  | cons ha _ ih =>
    simp only [List.foldl_cons, lastEnd, alike_stop ha]
    exact ih

/-- What a subpath paints, its segment paints. -/
theorem area_sub {s : Segment} {u : Sub} (hs : s.start = u.start) (h : Drawn s.start s.data u.ops) (hp : ∀ o ∈ u.ops, o.Plain) :
    area u ⊆ (realSeg s).paints := by
  apply convexHull_mono
  rintro x (hx | hx)
  · exact .inl (on_drawn h hp hx)
  · refine .inr ?_
    simp only [realSeg, realList_stop]
    rw [← drawn_stop h, hs]
    exact hx

theorem agree_mem {l : List Segment} {m : List Sub} (h : Agree l m) {u : Sub} (hu : u ∈ m) : ∃ s ∈ l, s.start = u.start ∧ Drawn s.start s.data u.ops := by
  induction h with
  | nil => cases hu
  | cons h1 h2 _ _ ih =>
    rcases List.mem_cons.mp hu with rfl | hu
    · exact ⟨_, List.mem_cons_self, h1, h2⟩
    · obtain ⟨s, hs, r⟩ := ih hu
      exact ⟨s, List.mem_cons_of_mem _ hs, r⟩

theorem marked_mem (tol : Rat) : ∀ (l : List Sub) {u : Sub}, u ∈ l → ∃ v ∈ marked tol l, v.start = u.start ∧ v.ops = u.ops
  | [], _, h => by cases h
  | [u], v, h => by
    obtain rfl : v = u := by simpa using h
    exact ⟨_, List.mem_cons_self, rfl, rfl⟩
  | u :: w :: l, v, h => by
    rcases List.mem_cons.mp h with rfl | h
    · exact ⟨_, List.mem_cons_self, rfl, rfl⟩
    · obtain ⟨x, hx, r⟩ := marked_mem tol (w :: l) h
      exact ⟨x, List.mem_cons_of_mem _ hx, r⟩

/-- Every subpath that has a piece is among the segments. -/
theorem segments_cover (tol : Rat) {c : List Cmd} (h : Good c) : ∃ segs, fromSvg tol c = some segs ∧
    ∀ u ∈ subpaths c, u.ops ≠ [] → ∃ s ∈ segs, s.data ≠ [] ∧ area u ⊆ (realSeg s).paints := by
  obtain ⟨hv, hb, hp⟩ := h
  rcases hv with rfl | hv
  · exact ⟨[], rfl, fun u hu => by cases hu⟩
  · have hm : BeginsWithMove c := by
      obtain ⟨p, cs, h⟩ := hv
      exact ⟨p, cs, h⟩
    obtain ⟨segs, h1, h2⟩ := fromSvg_spec tol hm hb hp
    refine ⟨segs, h1, fun u hu hne => ?_⟩
    obtain ⟨v, hvm, e1, e2⟩ := marked_mem tol _ hu
    obtain ⟨s, hs, k1, k2⟩ := agree_mem h2 (u := v) (by
      rw [List.mem_filter]
      refine ⟨hvm, ?_⟩
      simp only [Sub.hasOps, e2]
      cases h : u.ops
      · exact absurd h hne
      · rfl)
    rw [List.mem_filter] at hs
    refine ⟨s, hs.1, ?_, ?_⟩
    · intro h
      rw [Segment.hasData, h] at hs
      exact absurd hs.2 (by decide)
    · rw [e2] at k2
      exact area_sub (k1.trans e1) k2 (hp u hu)

theorem realList_ne {p : Segment.Pt} {ds : List Segment.Data} (h : ds ≠ []) : realList p ds ≠ [] := by
  cases ds with
  | nil => exact absurd rfl h
  | cons d ds => exact List.cons_ne_nil _ _

/-- **C50 (the test).** When the test says that two path data do not intersect, what they paint does not overlap. -/
theorem test_no (tol : Rat) {c d : List Cmd} (hc : Good c) (hd : Good d) (h : test tol c d = false) : Separate (drawn c) (drawn d) := by
  obtain ⟨p, hp, hp'⟩ := segments_cover tol hc
  obtain ⟨q, hq, hq'⟩ := segments_cover tol hd
  simp only [test, hp, hq] at h
  have hi : intersects ArcR.nest (p.map realSeg) (q.map realSeg) = some false := by
    cases hi : intersects ArcR.nest (p.map realSeg) (q.map realSeg) with
    | none => rw [hi] at h; cases h
    | some r => rw [hi] at h; exact congrArg some h
  intro u hu v hv hun hvn
  rw [drawn, List.mem_filter] at hu hv
  obtain ⟨s, hs, hsd, hsa⟩ := hp' u hu.1 hun
  obtain ⟨t, ht, htd, hta⟩ := hq' v hv.1 hvn
  have hj : ∀ s ∈ p.map realSeg ++ q.map realSeg, Gjk.Joined s.start s.data := by
    intro s hs
    rw [← List.map_append, List.mem_map] at hs
    obtain ⟨s', -, rfl⟩ := hs
    exact realList_joined _ _
  obtain ⟨⟨n, hn, k1⟩, k2, k3⟩ := intersects_no_real hj hi (realSeg s) (List.mem_map_of_mem hs) (realSeg t) (List.mem_map_of_mem ht) (realList_ne hsd) (realList_ne htd)
  exact ⟨⟨n, hn, fun x hx y hy => k1 x (hsa hx) y (hta hy)⟩, k2.mono (interior_mono hsa) hta, k3.mono hsa (interior_mono hta)⟩

/-- **C50 (the test).** It does not fail for path data as the parser leaves them. -/
theorem test_total (tol : Rat) {c d : List Cmd} (hc : Valid c) (hd : Valid d) : ∃ p q r, fromSvg tol c = some p ∧ fromSvg tol d = some q ∧
    intersects ArcR.nest (p.map realSeg) (q.map realSeg) = some r ∧ test tol c d = r := by
  have hv : ∀ {c : List Cmd}, Valid c → ∃ p, fromSvg tol c = some p := by
    intro c h
    rcases h with rfl | ⟨p, cs, rfl | rfl⟩ <;> exact ⟨_, rfl⟩
  obtain ⟨p, hp⟩ := hv hc
  obtain ⟨q, hq⟩ := hv hd
  obtain ⟨r, hr⟩ := intersects_total ArcR.nest (p.map realSeg) (q.map realSeg) (by
    intro s hs
    have : Gjk.Joined s.start s.data := by
      rw [← List.map_append, List.mem_map] at hs
      obtain ⟨s', -, rfl⟩ := hs
      exact realList_joined _ _
    exact covered_ne (joined_covers this))
  exact ⟨p, q, r, hp, hq, hr, by simp only [test, hp, hq, hr]; rfl⟩

/-! ## Merging -/

theorem bend_explicit (c : Cmd) : (explicit c).plain = c.plain := by
  induction c with
  | implicit c ih => simpa [explicit, Cmd.plain] using ih
  | _ => rfl

theorem plain_second (c : Cmd) : (second c).plain = c.plain := by
  unfold second
  split
  · split
    · rfl
    · rw [bend_explicit]; rfl
  · rfl

theorem smooth_append : ∀ {cs : List Cmd} {b : Bend} {p : Segment.Pt} {rest : List Cmd}, SmoothOk b cs → SmoothOk .other (.moveTo p :: rest) →
    SmoothOk b (cs ++ .moveTo p :: rest)
  | [], _, _, _, _, h => ⟨fun e => absurd e (by simp [Cmd.continues, Cmd.plain]), fun e => absurd e (by simp [Cmd.continues, Cmd.plain]), h.2.2⟩
  | _ :: _, _, _, _, h, h' => ⟨h.1, h.2.1, smooth_append h.2.2 h'⟩

theorem smooth_dropLast : ∀ {cs : List Cmd} {b : Bend}, SmoothOk b cs → SmoothOk b cs.dropLast
  | [], _, _ => trivial
  | [_], _, _ => trivial
  | _ :: _ :: _, _, h => ⟨h.1, h.2.1, smooth_dropLast h.2.2⟩

theorem good_popMove {c : List Cmd} (h : Good c) : Good (popMove c) := by
  obtain ⟨h1, h2, h3⟩ := h
  refine ⟨valid_popMove h1, ?_, ?_⟩
  · unfold popMove
    split
    · split
      · exact smooth_dropLast h2
      · exact h2
    · exact h2
  · intro u hu o ho
    have hd : u ∈ drawn (popMove c) := by
      rw [drawn, List.mem_filter]
      refine ⟨hu, ?_⟩
      cases e : u.ops
      · rw [e] at ho; cases ho
      · simp
    rw [drawn_popMove, drawn, List.mem_filter] at hd
    exact h3 u hd.1 o ho

theorem good_absolute {c : List Cmd} (h : Good c) : Good (absolute c) := by
  obtain ⟨h1, h2, h3⟩ := h
  have hv : Valid (absolute c) := by
    rcases absolute_valid h1 with e | ⟨p, cs, e⟩
    · exact .inl e
    · exact .inr ⟨p, cs, .inl e⟩
  refine ⟨hv, ?_, ?_⟩
  · unfold absolute
    split
    · refine ⟨fun e => (by cases e), fun e => (by cases e), ?_⟩
      have := h2.2.2
      simp only [SmoothOk, Cmd.continues, Cmd.bend, plain_second] at this ⊢
      exact this
    · exact ⟨fun e => (by cases e), fun e => (by cases e), trivial⟩
    · exact h2
  · intro u hu o ho
    have hd : u ∈ drawn (absolute c) := by
      rw [drawn, List.mem_filter]
      refine ⟨hu, ?_⟩
      cases e : u.ops
      · rw [e] at ho; cases ho
      · simp
    rw [drawn_absolute, drawn, List.mem_filter] at hd
    exact h3 u hd.1 o ho

theorem good_append {c d : List Cmd} (hc : Good c) (hd : Good d) (h : d = [] ∨ ∃ p cs, d = .moveTo p :: cs) : Good (c ++ d) := by
  rcases h with rfl | ⟨p, cs, rfl⟩
  · rwa [List.append_nil]
  · refine ⟨?_, smooth_append hc.2.1 hd.2.1, ?_⟩
    · rcases hc.1 with rfl | ⟨q, ds, rfl | rfl⟩
      · exact hd.1
      · exact .inr ⟨q, _, .inl rfl⟩
      · exact .inr ⟨q, _, .inr rfl⟩
    · rw [subpaths_append hc.1]
      intro u hu
      rcases List.mem_append.mp hu with hu | hu
      · exact hc.2.2 u hu
      · exact hd.2.2 u hu

variable {V : Type}

/-- The path data of an element, if there are any, are such. -/
def El.Good (e : El V) : Prop := ∀ c, e.data = some c → MergePaths.Good c

/-- Only good path data are tested. -/
theorem loop_congr [DecidableEq V] {i j : List Cmd → List Cmd → Bool} {style : El V → Except String Style} (hij : ∀ c d, Good c → Good d → i c d = j c d) :
    ∀ (es : List (El V)) (e : El V) (pending : Option (List Cmd)), e.Good → (∀ c, pending = some c → Good c) → (∀ e ∈ es, e.Good) →
      loop false i style e pending es = loop false j style e pending es
  | [], _, _, _, _, _ => rfl
  | child :: es, e, pending, he, hp, hes => by
    have hchild := hes child List.mem_cons_self
    have hrest := fun x hx => hes x (List.mem_cons_of_mem _ hx)
    have hno := loop_congr (style := style) hij es child none hchild (fun c h => by cases h) hrest
    unfold loop
    rw [hno]
    cases hd : dataOf child.attrs with
    | none => rfl
    | some c =>
      have hg : Good (absolute c) := good_absolute (hchild c (by rw [← dataOf_eq]; exact hd))
      have hchild' : El.Good { child with attrs := setData (absolute c) child.attrs } := by
        intro c' h
        rw [← dataOf_eq, dataOf_setData] at h
        cases h
        exact hg
      have h2 := loop_congr (style := style) hij es _ none hchild' (fun c h => by cases h) hrest
      have hcol : ∀ c', collected pending e = some c' → Good c' := by
        intro c' h
        unfold collected at h
        split at h
        · next c'' => cases h; exact hp _ rfl
        · exact he c' (by rw [← dataOf_eq]; exact h)
      have hdec : decide' false i pending e (absolute c) = decide' false j pending e (absolute c) := by
        unfold decide'
        split
        · rfl
        · next c' h => rw [hij _ _ (good_popMove (hcol c' h)) hg]
      have h3 : ∀ c', decide' false j pending e (absolute c) = .merge c' → Good c' := by
        intro c' h
        unfold decide' at h
        split at h
        · cases h
        · next c'' h' =>
          split at h
          · cases h
            exact good_append (good_popMove (hcol c'' h')) hg (absolute_valid (hchild c (by rw [← dataOf_eq]; exact hd)).1)
          · cases h
      simp only [h2, hdec]
      split
      · rfl
      · split
        · rfl
        · split
          · rfl
          · split
            · rfl
            · split
              · rfl
              · split
                · next c' h => exact loop_congr hij es _ (some c') hchild' (fun x hx => by cases hx; exact h3 _ h) hrest
                · rfl

theorem merge_congr [DecidableEq V] {i j : List Cmd → List Cmd → Bool} {style : El V → Except String Style} (hij : ∀ c d, Good c → Good d → i c d = j c d)
    (kids : List (El V)) (h : ∀ e ∈ kids, e.Good) : mergePaths false i style kids = mergePaths false j style kids := by
  match kids with
  | [] => rfl
  | [e] => rfl
  | e :: e' :: es => exact loop_congr hij (e' :: es) e none (h e List.mem_cons_self) (fun c h => by cases h) (fun x hx => h x (List.mem_cons_of_mem _ hx))

open Classical in
/-- **C50 (the same picture).** With the test that the job makes, the picture is the same: paths are joined only if what they paint does not overlap. -/
theorem merge_picture_test [DecidableEq V] (tol : Rat) {style : El V → Except String Style} (kids out : List (El V)) (hp : ∀ e ∈ kids, e.Proper)
    (hg : ∀ e ∈ kids, e.Good) (h : mergePaths false (test tol) style kids = .ok out) : SamePicture Separate (kids.map thing) (out.map thing) := by
  rw [merge_congr (j := fun c d => if Good c ∧ Good d then test tol c d else true) (fun c d hc hd => by simp [hc, hd]) kids hg] at h
  refine merge_picture_partial (fun c d hcd => ?_) kids out hp h
  split at hcd
  · next hgood => exact test_no tol hgood.1 hgood.2 hcd
  · cases hcd

end Verif.MergePaths
