import Verif.Simplify.Props

/-!
# C25: joining of commands
-/

namespace Verif.Simplify

open Verif.Segment (Pt bezier3 sq_nonneg dist2_nonneg Pt.add_def Pt.sub_def)

variable {A : Type} {g : Geo A} {arc : Arc A → Rat → Pt}

/-! ## Ends -/

theorem joinPair_one {p : Pt} {d e m : Data A} (h : joinPair g p d e = .one m) : m.stop = e.stop := by
  cases d <;> cases e <;> simp only [joinPair, reduceCtorEq] at h
  · split at h
    · cases h; rfl
    · cases h
  · unfold joinedCurves at h
    split at h
    · rename_i d hd
      cases h
      simp only [joinCurves] at hd
      split at hd
      · cases hd; rfl
      · cases hd
    · cases h
  · unfold joinArcs at h
    split at h
    · split at h
      · cases h; rfl
      · cases h
    · cases h

theorem joinPair_two {p : Pt} {d e m n : Data A} (h : joinPair g p d e = .two m n) : n.stop = e.stop := by
  cases d <;> cases e <;> simp only [joinPair, reduceCtorEq] at h
  · split at h <;> cases h
  · unfold joinedCurves at h
    split at h <;> cases h
  · unfold joinArcs at h
    split at h
    · split at h
      · cases h
      · cases h; rfl
    · cases h

theorem joinFrom_last (p : Pt) (d : Data A) (ds : List (Data A)) :
    last p (joinFrom g p d ds) = last p (d :: ds) := by
  induction ds generalizing p d with
  | nil => rfl
  | cons e ds ih =>
    unfold joinFrom
    split
    · simp only [last]; rw [ih d.stop e]; rfl
    · rename_i m hm
      rw [ih p m]
      simp only [last, joinPair_one hm]
    · rename_i m n hm
      simp only [last]; rw [ih m.stop n]
      simp only [last, joinPair_two hm]

theorem joinFrom_ne_nil (p : Pt) (d : Data A) (ds : List (Data A)) : joinFrom g p d ds ≠ [] := by
  induction ds generalizing p d with
  | nil => simp [joinFrom]
  | cons e ds ih =>
    unfold joinFrom
    split
    · simp
    · exact ih _ _
    · simp

/-- Start, end, closure and emptiness of segments. -/
def Segment.ends (s : Segment A) : Pt × Pt × Bool × Bool := (s.start, last s.start s.data, s.closed, s.data.isEmpty)

/-- **C25 (`JoinNodes`).** Segments begin and end at the same points, closed or not as before, and none gets empty. -/
theorem joinNodes_ends (l : List (Segment A)) : (joinNodes g l).map Segment.ends = l.map Segment.ends := by
  simp only [joinNodes, List.map_map]
  apply List.map_congr_left
  rintro ⟨p, ds, c⟩ _
  cases ds with
  | nil => rfl
  | cons d ds =>
    simp only [Function.comp_apply, Segment.ends, joinData, joinFrom_last]
    simp [joinFrom_ne_nil p d ds]

/-! ## One step -/

theorem inv_nonneg {b : Rat} (hb : 0 ≤ b) : 0 ≤ b⁻¹ := by
  by_cases h : b = 0
  · subst h; rw [Rat.inv_zero]; exact hb
  · exact Rat.le_of_lt (Rat.inv_pos.2 (by grind))

theorem div_nonneg {a b : Rat} (ha : 0 ≤ a) (hb : 0 ≤ b) : 0 ≤ a / b := by
  rw [Rat.div_def]; exact Rat.mul_nonneg ha (inv_nonneg hb)

theorem div_le_one {a b : Rat} (hb : 0 < b) (h : a ≤ b) : a / b ≤ 1 := by
  have h1 := Rat.mul_le_mul_of_nonneg_right h (inv_nonneg (Rat.le_of_lt hb))
  rw [Rat.mul_inv_cancel b (by grind)] at h1
  rwa [Rat.div_def]

/-- Points of a line by way of a point near it. -/
theorem line_by {s m e : Pt} {u : Rat} {ε : Rat} (h0 : 0 ≤ u) (h1 : u ≤ 1)
    (hm : m.dist2 (lineAt s e u) ≤ ε * ε) :
    Close ε (fun x => (∃ t, 0 ≤ t ∧ t ≤ 1 ∧ x = lineAt s m t) ∨ ∃ t, 0 ≤ t ∧ t ≤ 1 ∧ x = lineAt m e t)
      (fun x => ∃ t, 0 ≤ t ∧ t ≤ 1 ∧ x = lineAt s e t) := by
  have z (q : Pt) : q.dist2 q ≤ ε * ε := by rw [Verif.Segment.dist2_self]; exact sq_nonneg ε
  have c1 (t : Rat) : lineAt s (lineAt s e u) t = lineAt s e (t * u) := by
    simp only [lineAt, Pt.mk.injEq]; constructor <;> grind
  have c2 (t : Rat) : lineAt (lineAt s e u) e t = lineAt s e (u + t * (1 - u)) := by
    simp only [lineAt, Pt.mk.injEq]; constructor <;> grind
  have hm' : (lineAt s e u).dist2 m ≤ ε * ε := by rwa [dist2_comm]
  constructor
  · rintro x (⟨t, t0, t1, rfl⟩ | ⟨t, t0, t1, rfl⟩)
    · have k1 := Rat.mul_nonneg t0 h0
      have k2 := Rat.mul_le_mul_of_nonneg_right t1 h0
      refine ⟨_, ⟨t * u, k1, by grind, rfl⟩, ?_⟩
      rw [← c1]
      exact lineAt_near t0 t1 (z s) hm
    · have k0 : 0 ≤ 1 - u := by grind
      have k1 := Rat.mul_nonneg t0 k0
      have k2 := Rat.mul_le_mul_of_nonneg_right t1 k0
      refine ⟨_, ⟨u + t * (1 - u), by grind, by grind, rfl⟩, ?_⟩
      rw [← c2]
      exact lineAt_near t0 t1 hm (z e)
  · rintro x ⟨t, t0, t1, rfl⟩
    by_cases htu : t ≤ u
    · by_cases hu : u = 0
      · have ht : t = 0 := by grind
        subst ht
        refine ⟨s, .inl ⟨0, by decide, by decide, (lineAt_zero ..).symm⟩, ?_⟩
        rw [lineAt_zero]
        exact z s
      · have hpos : 0 < u := by grind
        refine ⟨lineAt s m (t / u), .inl ⟨t / u, ?_, ?_, rfl⟩, ?_⟩
        · exact div_nonneg t0 h0
        · exact div_le_one hpos (by grind)
        · have : t = t / u * u := by grind
          rw [this, ← c1, ← this]
          refine lineAt_near (div_nonneg t0 h0) ?_ (z s) hm'
          exact div_le_one hpos (by grind)
    · have hpos : 0 < 1 - u := by grind
      have k0 : 0 ≤ t - u := by grind
      have k1 : 0 ≤ (t - u) / (1 - u) := div_nonneg k0 (Rat.le_of_lt hpos)
      have k2 : (t - u) / (1 - u) ≤ 1 := by exact div_le_one hpos (by grind)
      refine ⟨lineAt m e ((t - u) / (1 - u)), .inr ⟨(t - u) / (1 - u), k1, k2, rfl⟩, ?_⟩
      have hne : 1 - u ≠ 0 := by grind
      have : t = u + (t - u) / (1 - u) * (1 - u) := by grind
      have e1 : lineAt s e t = lineAt (lineAt s e u) e ((t - u) / (1 - u)) := by rw [c2, ← this]
      rw [e1]
      exact lineAt_near k1 k2 hm' (z e)

/-- A point between two others, as far as the dot product tells, is as near to the line between them as the cross
product tells. -/
theorem project {s m e : Pt} (hd : 0 ≤ dot (s - m) (m - e)) (hne : s.dist2 e ≠ 0) :
    ∃ u, 0 ≤ u ∧ u ≤ 1 ∧ m.dist2 (lineAt s e u) * s.dist2 e = cross s m e * cross s m e := by
  have hpos : 0 < s.dist2 e := by have := dist2_nonneg s e; grind
  refine ⟨((m.x - s.x) * (e.x - s.x) + (m.y - s.y) * (e.y - s.y)) / s.dist2 e, ?_, ?_, ?_⟩
  · apply div_nonneg _ (Rat.le_of_lt hpos)
    have h1 := sq_nonneg (m.x - s.x)
    have h2 := sq_nonneg (m.y - s.y)
    simp only [dot, Pt.sub_def] at hd
    grind
  · apply div_le_one hpos
    have h1 := sq_nonneg (m.x - e.x)
    have h2 := sq_nonneg (m.y - e.y)
    simp only [dot, Pt.sub_def] at hd
    simp only [Pt.dist2]
    grind
  · generalize hD : s.dist2 e = D at *
    have hD' : D = (s.x - e.x) * (s.x - e.x) + (s.y - e.y) * (s.y - e.y) := by rw [← hD]; rfl
    generalize hu : ((m.x - s.x) * (e.x - s.x) + (m.y - s.y) * (e.y - s.y)) / D = u
    have hu' : u * D = (m.x - s.x) * (e.x - s.x) + (m.y - s.y) * (e.y - s.y) := by rw [← hu]; grind
    simp only [Pt.dist2, lineAt, cross]
    grind

/-- What two commands that are joined draw, for lines. -/
theorem line_step {p m e : Pt} {ε : Rat} (hd : 0 ≤ dot (p - m) (m - e))
    (hc : p.dist2 e ≠ 0 → cross p m e * cross p m e ≤ ε * ε * p.dist2 e) :
    Close ε (Trace arc p [.lineTo m, .lineTo e]) (Trace arc p [.lineTo e]) := by
  have z (q : Pt) : q.dist2 q ≤ ε * ε := by rw [Verif.Segment.dist2_self]; exact sq_nonneg ε
  have hu : ∃ u, 0 ≤ u ∧ u ≤ 1 ∧ m.dist2 (lineAt p e u) ≤ ε * ε := by
    by_cases hne : p.dist2 e = 0
    · refine ⟨0, by decide, by decide, ?_⟩
      rw [lineAt_zero]
      have h1 := sq_nonneg (p.x - e.x)
      have h2 := sq_nonneg (p.y - e.y)
      simp only [Pt.dist2] at hne
      have h3 : (p.x - e.x) * (p.x - e.x) = 0 := by grind
      have h4 : (p.y - e.y) * (p.y - e.y) = 0 := by grind
      have h5 : p.x = e.x := by rcases Rat.mul_eq_zero.1 h3 with h | h <;> grind
      have h6 : p.y = e.y := by rcases Rat.mul_eq_zero.1 h4 with h | h <;> grind
      have h7 := sq_nonneg ε
      have h8 := sq_nonneg (m.x - p.x)
      have h9 := sq_nonneg (m.y - p.y)
      simp only [dot, Pt.sub_def, ← h5, ← h6] at hd
      simp only [Pt.dist2]
      grind
    · obtain ⟨u, h0, h1, h2⟩ := project hd hne
      refine ⟨u, h0, h1, ?_⟩
      have hpos : 0 < p.dist2 e := by have := dist2_nonneg p e; grind
      have h3 := hc hne
      rw [← h2] at h3
      exact Rat.le_of_mul_le_mul_right h3 hpos
  obtain ⟨u, h0, h1, h2⟩ := hu
  have h := line_by h0 h1 h2
  have e1 : Trace arc p [.lineTo m, .lineTo e] = fun x => (∃ t, 0 ≤ t ∧ t ≤ 1 ∧ x = lineAt p m t) ∨
      ∃ t, 0 ≤ t ∧ t ≤ 1 ∧ x = lineAt m e t := by
    funext x
    simp only [Trace, Data.stop, On, Data.pointAt, eq_iff_iff]
    constructor
    · rintro (rfl | h | rfl | h | rfl)
      · exact .inl ⟨0, by decide, by decide, (lineAt_zero ..).symm⟩
      · exact .inl h
      · exact .inl ⟨1, by decide, by decide, (lineAt_one ..).symm⟩
      · exact .inr h
      · exact .inr ⟨1, by decide, by decide, (lineAt_one ..).symm⟩
    · rintro (h | h)
      · exact .inr (.inl h)
      · exact .inr (.inr (.inr (.inl h)))
  have e2 : Trace arc p [.lineTo e] = fun x => ∃ t, 0 ≤ t ∧ t ≤ 1 ∧ x = lineAt p e t := by
    funext x
    simp only [Trace, Data.stop, On, Data.pointAt, eq_iff_iff]
    constructor
    · rintro (rfl | h | rfl)
      · exact ⟨0, by decide, by decide, (lineAt_zero ..).symm⟩
      · exact h
      · exact ⟨1, by decide, by decide, (lineAt_one ..).symm⟩
    · exact fun h => .inr (.inl h)
  rw [e1, e2]
  exact h

theorem lerp_eq (a b : Pt) (t : Rat) : lerp a b t = lineAt a b t := by
  simp only [lerp, Pt.scale, Pt.add_def, Pt.sub_def, lineAt, Pt.mk.injEq]; constructor <;> grind

/-- The left part of a curve that is divided. -/
theorem cubic_left (p a b q : Pt) (t v : Rat) : cubicAt p a b q (t * v) =
    cubicAt p (subdivide p a b q t).1.1 (subdivide p a b q t).1.2.1 (subdivide p a b q t).1.2.2 v := by
  simp only [subdivide, lerp_eq, lineAt, cubicAt, bezier3, Pt.mk.injEq]
  constructor <;> grind

/-- The right part of a curve that is divided. -/
theorem cubic_right (p a b q : Pt) (t v : Rat) : cubicAt p a b q (t + v * (1 - t)) =
    cubicAt (subdivide p a b q t).1.2.2 (subdivide p a b q t).2.1 (subdivide p a b q t).2.2 q v := by
  simp only [subdivide, lerp_eq, lineAt, cubicAt, bezier3, Pt.mk.injEq]
  constructor <;> grind

theorem merged_left (p a b' q : Pt) {t : Rat} (ht : t ≠ 0) :
    (subdivide p (mergedCurve p a b' q t).1 (mergedCurve p a b' q t).2 q t).1.1 = a := by
  simp only [subdivide, mergedCurve, lerp_eq, lineAt, Pt.scale, Pt.sub_def]
  cases a
  simp only [Pt.mk.injEq]
  constructor <;> grind

theorem merged_right (p a b' q : Pt) {t : Rat} (ht : t ≠ 1) :
    (subdivide p (mergedCurve p a b' q t).1 (mergedCurve p a b' q t).2 q t).2.2 = b' := by
  simp only [subdivide, mergedCurve, lerp_eq, lineAt, Pt.scale, Pt.sub_def]
  have : 1 - t ≠ 0 := by grind
  cases b'
  simp only [Pt.mk.injEq]
  constructor <;> grind

theorem cubicAt_zero (p a b q : Pt) : cubicAt p a b q 0 = p := by rw [cubicAt_eq]; simp only [lineAt_zero]
theorem cubicAt_one (p a b q : Pt) : cubicAt p a b q 1 = q := by rw [cubicAt_eq]; simp only [lineAt_one]

theorem trace_curve (p a b q : Pt) :
    Trace arc p [.curveTo a b q] = fun x => ∃ t, 0 ≤ t ∧ t ≤ 1 ∧ x = cubicAt p a b q t := by
  funext x
  simp only [Trace, Data.stop, On, Data.pointAt, eq_iff_iff]
  constructor
  · rintro (rfl | h | rfl)
    · exact ⟨0, by decide, by decide, (cubicAt_zero ..).symm⟩
    · exact h
    · exact ⟨1, by decide, by decide, (cubicAt_one ..).symm⟩
  · exact fun h => .inr (.inl h)

theorem trace_curves (p a b q a' b' q' : Pt) :
    Trace arc p [.curveTo a b q, .curveTo a' b' q'] = fun x => (∃ t, 0 ≤ t ∧ t ≤ 1 ∧ x = cubicAt p a b q t) ∨
      ∃ t, 0 ≤ t ∧ t ≤ 1 ∧ x = cubicAt q a' b' q' t := by
  funext x
  simp only [Trace, Data.stop, On, Data.pointAt, eq_iff_iff]
  constructor
  · rintro (rfl | h | rfl | h | rfl)
    · exact .inl ⟨0, by decide, by decide, (cubicAt_zero ..).symm⟩
    · exact .inl h
    · exact .inl ⟨1, by decide, by decide, (cubicAt_one ..).symm⟩
    · exact .inr h
    · exact .inr ⟨1, by decide, by decide, (cubicAt_one ..).symm⟩
  · rintro (h | h)
    · exact .inr (.inl h)
    · exact .inr (.inr (.inr (.inl h)))

/-- What two commands that are joined draw, for curves. -/
theorem curve_step {p a b q a' b' q' : Pt} {m : Data A}
    (ht : 0 ≤ g.ratio p a b q a' b' q' ∧ g.ratio p a b q a' b' q' ≤ 1)
    (h : joinCurves g p a b q a' b' q' = some m) :
    Close g.tol (Trace arc p [.curveTo a b q, .curveTo a' b' q']) (Trace arc p [m]) := by
  simp only [joinCurves] at h
  split at h
  · rename_i hc
    cases h
    generalize g.ratio p a b q a' b' q' = t at *
    simp only [Bool.and_eq_true, Bool.not_eq_true', Bool.or_eq_false_iff, decide_eq_false_iff_not, fits,
      decide_eq_true_eq] at hc
    obtain ⟨⟨_, hne0, hne1⟩, ⟨c1, c2⟩, c3⟩ := hc
    have l1 := merged_left p a b' q' hne0
    have r1 := merged_right p a b' q' hne1
    generalize mergedCurve p a b' q' t = mm at *
    rw [trace_curve, trace_curves]
    have left := cubic_left p mm.1 mm.2 q' t
    have right := cubic_right p mm.1 mm.2 q' t
    generalize subdivide p mm.1 mm.2 q' t = sd at *
    rw [l1] at left
    rw [r1] at right
    have z (q : Pt) : q.dist2 q ≤ g.tol * g.tol := by rw [Verif.Segment.dist2_self]; exact sq_nonneg _
    have c1' : sd.1.2.2.dist2 q ≤ g.tol * g.tol := Rat.le_of_lt c1
    have c2' : sd.1.2.1.dist2 b ≤ g.tol * g.tol := Rat.le_of_lt c2
    have c3' : sd.2.1.dist2 a' ≤ g.tol * g.tol := Rat.le_of_lt c3
    have nl (v : Rat) (v0 : 0 ≤ v) (v1 : v ≤ 1) :
        (cubicAt p mm.1 mm.2 q' (t * v)).dist2 (cubicAt p a b q v) ≤ g.tol * g.tol := by
      rw [left]; exact cubicAt_near v0 v1 (z _) (z _) c2' c1'
    have nr (v : Rat) (v0 : 0 ≤ v) (v1 : v ≤ 1) :
        (cubicAt p mm.1 mm.2 q' (t + v * (1 - t))).dist2 (cubicAt q a' b' q' v) ≤ g.tol * g.tol := by
      rw [right]; exact cubicAt_near v0 v1 c1' c3' (z _) (z _)
    have t0 : 0 < t := by grind
    have t1 : 0 < 1 - t := by grind
    constructor
    · rintro x (⟨v, v0, v1, rfl⟩ | ⟨v, v0, v1, rfl⟩)
      · have k1 := Rat.mul_nonneg ht.1 v0
        have k2 := Rat.mul_le_mul_of_nonneg_left v1 ht.1
        exact ⟨_, ⟨t * v, k1, by grind, rfl⟩, by rw [dist2_comm]; exact nl v v0 v1⟩
      · have k1 := Rat.mul_nonneg v0 (Rat.le_of_lt t1)
        have k2 := Rat.mul_le_mul_of_nonneg_right v1 (Rat.le_of_lt t1)
        exact ⟨_, ⟨t + v * (1 - t), by grind, by grind, rfl⟩, by rw [dist2_comm]; exact nr v v0 v1⟩
    · rintro x ⟨v, v0, v1, rfl⟩
      by_cases hv : v ≤ t
      · have k1 := div_nonneg v0 ht.1
        have k2 := div_le_one t0 hv
        have e : v = t * (v / t) := by grind
        refine ⟨_, .inl ⟨v / t, k1, k2, rfl⟩, ?_⟩
        have := nl (v / t) k1 k2
        rwa [← e] at this
      · have k0 : 0 ≤ v - t := by grind
        have k1 := div_nonneg k0 (Rat.le_of_lt t1)
        have k2 := div_le_one (a := v - t) t1 (by grind)
        have e : v = t + (v - t) / (1 - t) * (1 - t) := by grind
        refine ⟨_, .inr ⟨(v - t) / (1 - t), k1, k2, rfl⟩, ?_⟩
        have := nr ((v - t) / (1 - t)) k1 k2
        rwa [← e] at this
  · cases h

/-! ## All steps -/

theorem trace_append (p : Pt) (ds es : List (Data A)) (x : Pt) :
    Trace arc p (ds ++ es) x ↔ Trace arc p ds x ∨ Trace arc (last p ds) es x := by
  induction ds generalizing p with
  | nil =>
    simp only [List.nil_append, Trace, last]
    constructor
    · exact .inr
    · rintro (rfl | h)
      · exact trace_start _ _
      · exact h
  | cons d ds ih => simp only [List.cons_append, Trace, last, ih, or_assoc]

/-- Every join on the way moves points by at most `ε`. -/
def Fair (g : Geo A) (arc : Arc A → Rat → Pt) (ε : Rat) (p : Pt) (d : Data A) : List (Data A) → Prop
  | [] => True
  | e :: ds => match joinPair g p d e with
    | .keep => Fair g arc ε d.stop e ds
    | .one m => Close ε (Trace arc p [d, e]) (Trace arc p [m]) ∧ Fair g arc ε p m ds
    | .two m n => Close ε (Trace arc p [d, e]) (Trace arc p [m, n]) ∧ Fair g arc ε m.stop n ds

theorem close_append {ε : Rat} {p : Pt} {ds es r : List (Data A)} (h : Close ε (Trace arc p ds) (Trace arc p es))
    (hl : last p ds = last p es) : Close ε (Trace arc p (ds ++ r)) (Trace arc p (es ++ r)) := by
  have e (l : List (Data A)) : Trace arc p (l ++ r) = fun x => Trace arc p l x ∨ Trace arc (last p l) r x := by
    funext x; rw [trace_append]
  rw [e, e, hl]
  exact h.or (.refl _)

theorem close_cons {ε : Rat} {p : Pt} {d : Data A} {ds es : List (Data A)}
    (h : Close ε (Trace arc d.stop ds) (Trace arc d.stop es)) :
    Close ε (Trace arc p (d :: ds)) (Trace arc p (d :: es)) := by
  have e (l : List (Data A)) : Trace arc p (d :: l) = fun x => x = p ∨ On arc p d x ∨ Trace arc d.stop l x := rfl
  rw [e, e]
  exact Close.or (.refl _) (Close.or (.refl _) h)

theorem joinFrom_close {ε : Rat} (h0 : 0 ≤ ε) (ds : List (Data A)) (p : Pt) (d : Data A)
    (h : Fair g arc ε p d ds) :
    Close (ds.length * ε) (Trace arc p (d :: ds)) (Trace arc p (joinFrom g p d ds)) := by
  have pos (n : Nat) : 0 ≤ (n : Rat) * ε := Rat.mul_nonneg (by exact_mod_cast Nat.zero_le n) h0
  induction ds generalizing p d with
  | nil => exact .refl _
  | cons e ds ih =>
    have plus : ((ds.length + 1 : Nat) : Rat) * ε = ε + ds.length * ε := by rw [Rat.natCast_add]; grind
    have le : (ds.length : Rat) * ε ≤ (ds.length + 1 : Nat) * ε := by rw [plus]; grind
    simp only [List.length_cons]
    unfold joinFrom
    unfold Fair at h
    split <;> rename_i hm <;> rw [hm] at h
    · exact close_cons ((ih _ _ h).mono (pos _) le)
    · rename_i m
      rw [plus]
      refine Close.trans h0 (pos _) ?_ (ih p m h.2)
      exact close_append (ds := [d, e]) (es := [m]) h.1 (joinPair_one hm).symm
    · rename_i m n
      rw [plus]
      refine Close.trans h0 (pos _) ?_ (close_cons (ih m.stop n h.2))
      exact close_append (ds := [d, e]) (es := [m, n]) h.1 (joinPair_two hm).symm

/-- Three points of a segment in a row are not taken for a line, or are one, or are far enough apart. -/
def Ok (g : Geo A) (a b c : Pt) : Prop := cross a b c = 0 ∨ g.tol ≤ (cross a b c).abs ∨ 1 ≤ a.dist2 c

theorem abs_sq (a : Rat) : a.abs * a.abs = a * a := by
  rw [Rat.abs]; split <;> grind

theorem abs_nonneg (a : Rat) : 0 ≤ a.abs := by rw [Rat.abs]; split <;> grind

theorem fair_of {ε : Rat} (P : Pt → Prop)
    (hP : ∀ p m e, P p → P m → P e → isContinuous g p m e = true → p.dist2 e ≠ 0 →
      cross p m e * cross p m e ≤ ε * ε * p.dist2 e)
    (hC : ∀ p a b q a' b' q' m, joinCurves g p a b q a' b' q' = some m →
      Close ε (Trace arc p [.curveTo a b q, .curveTo a' b' q']) (Trace arc p [m]))
    (Q : Arc A → Prop) (hQ : ∀ a b, Q a → Q b → g.connected a b = false)
    (ds : List (Data A)) (p : Pt) (d : Data A) (hp : P p) (hd : P d.stop) (hds : ∀ e ∈ ds, P e.stop)
    (ha : ∀ a, d = .arcTo a → Q a) (has : ∀ a, .arcTo a ∈ ds → Q a) : Fair g arc ε p d ds := by
  induction ds generalizing p d with
  | nil => trivial
  | cons e ds ih =>
    unfold Fair
    have he := hds e (.head _)
    have hds' : ∀ e ∈ ds, P e.stop := fun x hx => hds x (.tail _ hx)
    have has' : ∀ a, .arcTo a ∈ ds → Q a := fun x hx => has x (.tail _ hx)
    have hae : ∀ a, e = .arcTo a → Q a := fun a h => has a (h ▸ .head _)
    split
    · exact ih d.stop e hd he hds' hae has'
    · rename_i m hm
      have hstop := joinPair_one hm
      refine ⟨?_, ih p m hp (hstop ▸ he) hds' ?_ has'⟩
      · cases d <;> cases e <;> simp only [joinPair, reduceCtorEq] at hm
        · rename_i q r
          split at hm
          · rename_i hc
            cases hm
            refine line_step ?_ (hP p q r hp hd he hc)
            simp only [isContinuous, Bool.and_eq_true, decide_eq_true_eq] at hc
            exact hc.2
          · cases hm
        · unfold joinedCurves at hm
          split at hm
          · rename_i hc; cases hm; exact hC _ _ _ _ _ _ _ _ hc
          · cases hm
        · rename_i a b
          unfold joinArcs at hm
          rw [hQ a b (ha a rfl) (hae b rfl)] at hm
          simp at hm
      · rintro a rfl
        cases d <;> cases e <;> simp only [joinPair, reduceCtorEq] at hm
        · split at hm <;> cases hm
        · unfold joinedCurves at hm
          split at hm
          · rename_i hc
            cases hm
            simp only [joinCurves] at hc
            split at hc <;> cases hc
          · cases hm
        · rename_i a' b
          unfold joinArcs at hm
          rw [hQ a' b (ha a' rfl) (hae b rfl)] at hm
          simp at hm
    · rename_i m n hm
      cases d <;> cases e <;> simp only [joinPair, reduceCtorEq] at hm
      · split at hm <;> cases hm
      · unfold joinedCurves at hm
        split at hm <;> cases hm
      · rename_i a' b
        unfold joinArcs at hm
        rw [hQ a' b (ha a' rfl) (hae b rfl)] at hm
        simp at hm

/-- Arcs of a segment are not joined. -/
def ArcsApart (g : Geo A) (ds : List (Data A)) : Prop :=
  ∀ a b, .arcTo a ∈ ds → .arcTo b ∈ ds → g.connected a b = false

/-- **C25 (`JoinNodes`), for segments without short lines and without arcs to be joined.** If any three ends of commands
are not taken for a line, or are on one, or the outer ones are at least 1 apart, joining moves what is stroked by no more
than the tolerance times the number of commands. Missing are short lines (`corner_violated`) and arcs. -/
theorem joinNodes_partial (h0 : 0 ≤ g.tol) (ht : ∀ p a b q a' b' q', 0 ≤ g.ratio p a b q a' b' q' ∧
      g.ratio p a b q a' b' q' ≤ 1) {s : Segment A}
    (hv : ∀ a ∈ vertices s.start s.data, ∀ b ∈ vertices s.start s.data, ∀ c ∈ vertices s.start s.data, Ok g a b c)
    (ha : ArcsApart g s.data) :
    Close (s.data.length * g.tol) (Stroke arc s) (Stroke arc { s with data := joinData g s.start s.data }) := by
  have key : ∀ p (ds : List (Data A)), (∀ a ∈ vertices p ds, ∀ b ∈ vertices p ds, ∀ c ∈ vertices p ds, Ok g a b c) →
      ArcsApart g ds → Close (ds.length * g.tol) (Trace arc p ds) (Trace arc p (joinData g p ds)) ∧
        last p (joinData g p ds) = last p ds := by
    intro p ds hv ha
    cases ds with
    | nil => exact ⟨.refl _, rfl⟩
    | cons d ds =>
      refine ⟨?_, joinFrom_last p d ds⟩
      have pos (n : Nat) : 0 ≤ (n : Rat) * g.tol := Rat.mul_nonneg (by exact_mod_cast Nat.zero_le n) h0
      have le : (ds.length : Rat) * g.tol ≤ (ds.length + 1 : Nat) * g.tol := by rw [Rat.natCast_add]; grind
      refine (joinFrom_close h0 ds p d ?_).mono (pos _) le
      refine fair_of (fun q => q ∈ vertices p (d :: ds)) ?_ (fun p a b q a' b' q' m => curve_step (ht ..))
        (fun a => .arcTo a ∈ d :: ds) (fun a b h1 h2 => ha a b h1 h2) ds p d (.head _) (.tail _ (.head _)) ?_ ?_ ?_
      · intro a b c h1 h2 h3 hc hne
        simp only [isContinuous, isParallel, Bool.and_eq_true, decide_eq_true_eq] at hc
        rcases hv a h1 b h2 c h3 with h | h | h
        · rw [h]
          have := Rat.mul_nonneg (sq_nonneg g.tol) (dist2_nonneg a c)
          grind
        · exact absurd hc.1 (Rat.not_lt.2 h)
        · have h4 := mul_self_le (abs_nonneg _) (Rat.le_of_lt hc.1)
          rw [abs_sq] at h4
          have h5 := Rat.mul_le_mul_of_nonneg_left h (sq_nonneg g.tol)
          grind
      · intro e he
        exact .tail _ (List.mem_map_of_mem (.tail _ he))
      · rintro a rfl; exact .head _
      · intro a h; exact .tail _ h
  obtain ⟨h1, h2⟩ := key s.start s.data hv ha
  refine h1.or ?_
  have : Closing { s with data := joinData g s.start s.data } = Closing s := by
    unfold Closing; simp only [h2]
  rw [this]
  exact .refl _

/-- Coordinates are multiples of `u`. -/
def OnGrid (u : Rat) (p : Pt) : Prop := ∃ i j : Int, p = ⟨i * u, j * u⟩

/-- **C25 (`JoinNodes`, polygons).** Of a segment made of lines between points of a grid that is not finer than the
root of the tolerance, the same points are stroked. -/
theorem joinNodes_grid {u : Rat} (hu : g.tol ≤ u * u) {s : Segment A} (hs : OnGrid u s.start)
    (hd : ∀ d ∈ s.data, ∃ q, d = .lineTo q ∧ OnGrid u q) (x : Pt) :
    Stroke arc { s with data := joinData g s.start s.data } x ↔ Stroke arc s x := by
  have key : ∀ p (ds : List (Data A)), OnGrid u p → (∀ d ∈ ds, ∃ q, d = .lineTo q ∧ OnGrid u q) →
      Close 0 (Trace arc p ds) (Trace arc p (joinData g p ds)) ∧ last p (joinData g p ds) = last p ds := by
    intro p ds hp hd
    cases ds with
    | nil => exact ⟨.refl _, rfl⟩
    | cons d ds =>
      refine ⟨?_, joinFrom_last p d ds⟩
      have fair : ∀ (ds : List (Data A)) (p : Pt) (d : Data A), OnGrid u p → (∃ q, d = .lineTo q ∧ OnGrid u q) →
          (∀ d ∈ ds, ∃ q, d = .lineTo q ∧ OnGrid u q) → Fair g arc 0 p d ds := by
        intro ds
        induction ds with
        | nil => intros; trivial
        | cons e ds ih =>
          rintro p d hp ⟨q, rfl, hq⟩ hds
          obtain ⟨r, rfl, hr⟩ := hds e (.head _)
          have hds' : ∀ d ∈ ds, ∃ q, d = .lineTo q ∧ OnGrid u q := fun x hx => hds x (.tail _ hx)
          unfold Fair
          simp only [joinPair]
          by_cases hc : isContinuous g p q r = true
          · simp only [if_pos hc]
            simp only [isContinuous, isParallel, Bool.and_eq_true, decide_eq_true_eq] at hc
            refine ⟨line_step hc.2 fun _ => ?_, ih p _ hp ⟨r, rfl, hr⟩ hds'⟩
            have hzero : cross p q r = 0 := by
              obtain ⟨i, j, rfl⟩ := hp
              obtain ⟨i', j', rfl⟩ := hq
              obtain ⟨i'', j'', rfl⟩ := hr
              have e : cross ⟨i * u, j * u⟩ ⟨i' * u, j' * u⟩ ⟨i'' * u, j'' * u⟩ =
                  (((i' - i) * (j'' - j) - (j' - j) * (i'' - i) : Int) : Rat) * (u * u) := by
                simp only [cross, Rat.intCast_sub, Rat.intCast_mul]; grind
              rw [e] at hc ⊢
              generalize (i' - i) * (j'' - j) - (j' - j) * (i'' - i) = k at *
              by_cases hk : k = 0
              · subst hk; simp
              · exfalso
                have h1 : (1 : Rat) ≤ (k : Rat).abs := by
                  rw [Rat.abs]
                  split
                  · rename_i h
                    have : (0 : Int) ≤ k := by exact_mod_cast h
                    have : (1 : Int) ≤ k := by omega
                    exact_mod_cast this
                  · rename_i h
                    have : ¬ (0 : Int) ≤ k := by exact_mod_cast h
                    have h2 : (1 : Int) ≤ -k := by omega
                    have h3 : ((1 : Int) : Rat) ≤ ((-k : Int) : Rat) := Rat.intCast_le_intCast.2 h2
                    rw [Rat.intCast_neg] at h3
                    exact h3
                have h2 : ((k : Rat) * (u * u)).abs = (k : Rat).abs * (u * u) := by
                  have := sq_nonneg u
                  rw [Rat.abs, Rat.abs]
                  by_cases hk0 : (0 : Rat) ≤ k
                  · rw [if_pos hk0, if_pos (Rat.mul_nonneg hk0 this)]
                  · rw [if_neg hk0]
                    split
                    · rename_i h
                      have h3 := Rat.mul_nonneg (a := -(k : Rat)) (by grind) this
                      grind
                    · grind
                have h3 := Rat.mul_le_mul_of_nonneg_right h1 (sq_nonneg u)
                rw [h2] at hc
                grind
            rw [hzero]
            grind
          · simp only [if_neg hc]
            exact ih q _ hq ⟨r, rfl, hr⟩ hds'
      have h := joinFrom_close (Rat.le_refl) ds p d (fair ds p d hp (hd d (.head _)) fun x hx => hd x (.tail _ hx))
      rwa [Rat.mul_zero] at h
  obtain ⟨h1, h2⟩ := key s.start s.data hs hd
  have : Closing { s with data := joinData g s.start s.data } x ↔ Closing s x := by
    unfold Closing; simp only [h2]
  simp only [Stroke, h1.eq x, this]

/-! ## Corners -/

/-- `n` steps of `δ` upwards at `r`, from height `y` on. -/
def climb (A : Type) (r δ : Rat) : Nat → Rat → List (Data A)
  | 0, _ => []
  | n + 1, y => .lineTo ⟨r, y + δ⟩ :: climb A r δ n (y + δ)

theorem joinFrom_climb {r δ : Rat} (hr : 0 ≤ r) (hδ : 0 ≤ δ) (h : r * δ < g.tol) (n : Nat) (y : Rat) (hy : 0 ≤ y) :
    joinFrom g ⟨0, 0⟩ (.lineTo ⟨r, y⟩) (climb A r δ n y) = [.lineTo ⟨r, y + n * δ⟩] := by
  induction n generalizing y with
  | zero =>
    simp only [climb, joinFrom]
    have : y + (0 : Nat) * δ = y := by grind
    rw [this]
  | succ n ih =>
    have hc : isContinuous g ⟨0, 0⟩ ⟨r, y⟩ ⟨r, y + δ⟩ = true := by
      have h1 := Rat.mul_nonneg hr hδ
      have h2 := Rat.mul_nonneg hy hδ
      have e : cross ⟨0, 0⟩ ⟨r, y⟩ ⟨r, y + δ⟩ = r * δ := by simp only [cross]; grind
      simp only [isContinuous, isParallel, Bool.and_eq_true, decide_eq_true_eq, e, dot, Pt.sub_def]
      refine ⟨?_, by grind⟩
      rw [Rat.abs, if_pos h1]
      exact h
    simp only [climb, joinFrom, joinPair, if_pos hc]
    rw [ih (y + δ) (by grind)]
    have : y + δ + (n : Rat) * δ = y + ((n + 1 : Nat) : Rat) * δ := by rw [Rat.natCast_add]; grind
    rw [this]

/-- **C25 fails (`JoinNodes`).** A line to the right and then small steps upwards become one slanted line: with the
default tolerance, the corner at `(r, 0)` is farther than `r / 2` from what is left of it, for any `r`. -/
theorem corner_violated (hg : g.tol = 1 / 1000) (r : Nat) (hr : 0 < r) :
    ∃ ds : List (Data A), joinData g ⟨0, 0⟩ (.lineTo ⟨r, 0⟩ :: ds) = [.lineTo ⟨r, r⟩] ∧
      ∀ x, Trace arc ⟨0, 0⟩ [.lineTo ⟨(r : Rat), r⟩] x → (r : Rat) / 2 * ((r : Rat) / 2) < x.dist2 ⟨r, 0⟩ := by
  have hr0 : (0 : Rat) < r := by exact_mod_cast hr
  have hne : (r : Rat) ≠ 0 := by grind
  refine ⟨climb A r (1 / 2000 / r) (2000 * r * r) 0, ?_, ?_⟩
  · simp only [joinData]
    rw [joinFrom_climb (Rat.le_of_lt hr0) (div_nonneg (by decide +kernel) (Rat.le_of_lt hr0)) ?_ _ 0 (Rat.le_refl)]
    · have : (0 : Rat) + ((2000 * r * r : Nat) : Rat) * (1 / 2000 / r) = r := by
        rw [Rat.natCast_mul, Rat.natCast_mul]; grind
      rw [this]
    · have : (r : Rat) * (1 / 2000 / r) = 1 / 2000 := by grind
      rw [this, hg]; decide +kernel
  · have hpos : 0 < (r : Rat) * r := Rat.mul_pos hr0 hr0
    intro x hx
    have main : ∀ t, 0 ≤ t → t ≤ 1 → (r : Rat) / 2 * ((r : Rat) / 2) < (lineAt ⟨0, 0⟩ ⟨r, r⟩ t).dist2 ⟨r, 0⟩ := by
      intro t _ _
      have h1 := Rat.mul_nonneg (sq_nonneg (2 * t - 1)) (Rat.le_of_lt hpos)
      simp only [lineAt, Pt.dist2]
      grind
    simp only [Trace, On, Data.pointAt, Data.stop] at hx
    rcases hx with rfl | ⟨t, h0, h1, rfl⟩ | rfl
    · have := main 0 (by decide) (by decide); rwa [lineAt_zero] at this
    · exact main t h0 h1
    · have := main 1 (by decide) (by decide); rwa [lineAt_one] at this

end Verif.Simplify
