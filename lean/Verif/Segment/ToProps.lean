import Verif.Segment.ToSpec
import Verif.Segment.ToSvg
import Verif.Segment.Props

/-!
# C24: writing segments as path commands preserves the drawing
-/

namespace Verif.Segment

/-! ## Points -/

theorem sq_nonneg (a : Rat) : 0 ≤ a * a := by
  rcases Rat.le_total (a := 0) (b := a) with h | h
  · exact Rat.mul_nonneg h h
  · have h' : 0 ≤ -a := by grind
    have := Rat.mul_nonneg h' h'
    grind

theorem dist2_nonneg (p q : Pt) : 0 ≤ p.dist2 q := by
  have h1 := sq_nonneg (p.x - q.x)
  have h2 := sq_nonneg (p.y - q.y)
  simp only [Pt.dist2]
  grind

theorem dist2_self (p : Pt) : p.dist2 p = 0 := by simp only [Pt.dist2]; grind

theorem dist2_comm (p q : Pt) : p.dist2 q = q.dist2 p := by simp only [Pt.dist2]; grind

theorem dist2_triangle (p q r : Pt) : p.dist2 r ≤ 2 * p.dist2 q + 2 * q.dist2 r := by
  have h1 := sq_nonneg (p.x - q.x - (q.x - r.x))
  have h2 := sq_nonneg (p.y - q.y - (q.y - r.y))
  simp only [Pt.dist2]
  grind

theorem reflect_eq (c p : Pt) : c.reflect p = mirror p (some c) := by
  simp only [mirror, Pt.reflect, Pt.mk.injEq]
  constructor <;> grind

theorem mirror_dist (p c d : Pt) : (mirror p (some c)).dist2 (mirror p (some d)) = c.dist2 d := by
  simp only [mirror, Pt.dist2]; grind

theorem add_sub (p q : Pt) : p + (q - p) = q := by
  rcases p with ⟨px, py⟩
  rcases q with ⟨qx, qy⟩
  simp only [Pt.add_def, Pt.sub_def, Pt.mk.injEq]; constructor <;> grind

/-! ## The candidates -/

theorem pick_some (size : Cmd → Nat) {l : List Cmd} (h : l ≠ []) : ∃ c ∈ l, pick size l = some c := by
  cases l with
  | nil => exact absurd rfl h
  | cons c cs =>
    refine ⟨_, ?_, rfl⟩
    clear h
    induction cs generalizing c with
    | nil => exact List.mem_cons_self
    | cons d cs ih =>
      simp only [List.foldl_cons]
      have := ih (if less size d c = true then d else c)
      rcases List.mem_cons.1 this with h | h
      · rw [h]
        split
        · exact List.mem_cons_of_mem _ List.mem_cons_self
        · exact List.mem_cons_self
      · exact List.mem_cons_of_mem _ (List.mem_cons_of_mem _ h)

theorem Pt.round_id (p : Pt) : p.round id = p := rfl

theorem Cmd.round_id (c : Cmd) : c.round id = c := by
  induction c with
  | implicit c ih => simp only [Cmd.round, ih]
  | _ => rfl

/-- The command that is chosen is one of the candidates, perhaps marked as implied by the command before. -/
theorem compactest_spec {e : Env} (he : e.rnd = id) (prev : Option Cmd) {cands : List Cmd} (h : cands ≠ []) :
    ∃ c, e.compactest prev cands = some c ∧ ∃ d ∈ cands, c = d ∨
      c = .implicit d ∧ prev.map (fun c => c.name.nextImplicit) = some d.name := by
  obtain ⟨c, hc, hp⟩ := pick_some (e.size prev)
    (l := (cands.map (markImplicit (prev.map (fun c => c.name.nextImplicit)))).map (Cmd.round e.rnd)) (by simp [h])
  refine ⟨c, hp, ?_⟩
  simp only [List.mem_map] at hc
  obtain ⟨_, ⟨d, hd, rfl⟩, rfl⟩ := hc
  refine ⟨d, hd, ?_⟩
  rw [he, Cmd.round_id]
  unfold markImplicit
  split
  · rename_i hi; exact .inr ⟨rfl, hi⟩
  · exact .inl rfl

theorem chosen {c d : Cmd} {P : Prop} (h : c = d ∨ c = .implicit d ∧ P) (s : Pen) :
    act c s = act d s ∧ c.name = d.name := by
  rcases h with rfl | ⟨rfl, _⟩ <;> exact ⟨rfl, rfl⟩

theorem name_ne_close {c : Cmd} (h : c.name ≠ .closePath) : c ≠ .closePath := fun hc => h (by rw [hc]; rfl)

/-! ## Curves -/

theorem some_if_iff {t u v cx cy : Rat} {w : Pt} :
    (if Pt.dist2 ⟨u, v⟩ w < t then some (⟨u, v⟩ : Pt) else none) = some ⟨cx, cy⟩ ↔
      cx = u ∧ cy = v ∧ Pt.dist2 ⟨cx, cy⟩ w < t := by
  constructor
  · intro h
    split at h
    · rename_i hd
      simp only [Option.some.injEq, Pt.mk.injEq] at h
      obtain ⟨rfl, rfl⟩ := h
      exact ⟨rfl, rfl, hd⟩
    · exact absurd h (by simp)
  · rintro ⟨rfl, rfl, hd⟩
    rw [if_pos hd]

theorem quadControl_some {tol2 : Rat} {p a b q c : Pt} : quadControl tol2 p a b q = some c ↔ IsQuad tol2 p a b q c := by
  rcases c with ⟨cx, cy⟩
  have e (u v : Rat) : u + (v - u) * (3 / 2) = u + 3 / 2 * (v - u) := by grind
  simp only [quadControl, IsQuad, Pt.add_def, Pt.sub_def, Pt.scale, e]
  exact some_if_iff

theorem quadControl_none {tol2 : Rat} {p a b q : Pt} (h : ∀ c, ¬ IsQuad tol2 p a b q c) :
    quadControl tol2 p a b q = none := by
  cases hq : quadControl tol2 p a b q with
  | none => rfl
  | some c => exact absurd (quadControl_some.1 hq) (h c)

/-- The control point that the code remembers after a curve that left `k`. -/
def Tracks (tol2 : Rat) (control : Option Pt) : Option (Bool × Pt) → Prop
  | none => control = none
  | some (false, b) => control = some b
  | some (true, q) => ∃ c, control = some c ∧ c.dist2 q < tol2

/-- What the pen of the specification knows of that control point. -/
def Knows (tol2 : Rat) (s : Pen) (control : Option Pt) (k : Option (Bool × Pt)) (next : Option Data) : Prop :=
  match k with
  | none => s.cubic = none ∧ s.quad = none
  | some (false, b) => s.cubic = some b ∧ s.quad = none
  | some (true, q) => s.cubic = none ∧ s.quad = control ∨
      control = some q ∧ nextIsSmoothQuad tol2 s.cur (some q) next = false

/-- At the first data of a segment the pen knows nothing. -/
def Ready (tol2 : Rat) (first : Bool) (s : Pen) (control : Option Pt) (k : Option (Bool × Pt))
    (next : Option Data) : Prop :=
  match first with
  | true => s.cubic = none ∧ s.quad = none
  | false => Knows tol2 s control k next

theorem four_lt {tol2 : Rat} {a p c q : Pt} (h1 : a.dist2 (mirror p (some c)) < tol2) (h2 : c.dist2 q < tol2) :
    a.dist2 (mirror p (some q)) < 4 * tol2 := by
  have h := dist2_triangle a (mirror p (some c)) (mirror p (some q))
  rw [mirror_dist] at h
  grind

/-- A curve that the code takes for smooth begins like the smooth command of the specification. -/
theorem smooth_ok {tol2 : Rat} {first : Bool} {s : Pen} {control : Option Pt} {k : Option (Bool × Pt)} {a b q : Pt}
    (ht : Tracks tol2 control k) (hr : Ready tol2 first s control k (some (.curveTo a b q)))
    (ha : Apart tol2 first s.cur k (.curveTo a b q)) (hs : isSmooth tol2 s.cur a control = true) :
    a.dist2 (mirror s.cur s.cubic) < tol2 := by
  simp only [isSmooth, decide_eq_true_eq, reflected_eq] at hs
  match k, ht with
  | none, ht =>
    rw [show control = none from ht] at hs
    have : s.cubic = none := by cases first with
      | true => exact hr.1
      | false => exact hr.1
    rw [this]; exact hs
  | some (false, e), ht =>
    rw [show control = some e from ht] at hs
    cases first with
    | true => exact absurd hs (Rat.not_lt.2 (ha.1 rfl))
    | false => rw [hr.1]; exact hs
  | some (true, c0), ht =>
    obtain ⟨c, hc, hd⟩ := ht
    rw [hc] at hs
    exact absurd (four_lt hs hd) (Rat.not_lt.2 ha.1)

/-- A curve that the code takes for smooth and quadratic follows a quadratic curve of the specification. -/
theorem smoothQuad_ok {tol2 : Rat} {first : Bool} {s : Pen} {control : Option Pt} {k : Option (Bool × Pt)}
    {a b q c : Pt} (hq : IsQuad tol2 s.cur a b q c)
    (ht : Tracks tol2 control k) (hr : Ready tol2 first s control k (some (.curveTo a b q)))
    (ha : Apart tol2 first s.cur k (.curveTo a b q)) (hs : isSmoothQuad tol2 s.cur c control = true) :
    ∃ d, control = some d ∧ s.quad = some d ∧ c.dist2 (mirror s.cur (some d)) < tol2 := by
  cases hc : control with
  | none => rw [hc] at hs; exact absurd hs (by simp [isSmoothQuad])
  | some d =>
    rw [hc] at hs
    have hs' : c.dist2 (mirror s.cur (some d)) < tol2 := by
      simpa only [isSmoothQuad, decide_eq_true_eq, reflect_eq] using hs
    refine ⟨d, rfl, ?_, hs'⟩
    match k, ht with
    | none, ht => rw [show control = none from ht] at hc; exact absurd hc (by simp)
    | some (false, e), ht =>
      rw [show control = some e from ht, Option.some.injEq] at hc
      subst hc
      exact absurd hs' (Rat.not_lt.2 (ha.2 c hq))
    | some (true, c0), ht =>
      obtain ⟨d', hd', hd⟩ := ht
      rw [hc, Option.some.injEq] at hd'
      subst hd'
      cases first with
      | true => exact absurd (four_lt hs' hd) (Rat.not_lt.2 (ha.2 rfl c hq))
      | false =>
        rcases hr with hr | hr
        · rw [hr.2, hc]
        · rw [hc, Option.some.injEq] at hr
          obtain ⟨rfl, hn⟩ := hr
          simp only [nextIsSmoothQuad, quadControl_some.2 hq, quadIsSmooth] at hn
          rw [hn] at hs
          exact absurd hs (by simp)

theorem elevate_x (p c q t : Rat) : bezier3 p (p + 2 / 3 * (c - p)) (q + 2 / 3 * (c - q)) q t = bezier2 p c q t := by
  simp only [bezier2, bezier3]; grind

/-- A quadratic curve near the control point of a nearly quadratic one is near. -/
theorem near_quad {tol2 : Rat} {shape : Pt → Arc → Shape} {p a b q c d : Pt} (hq : IsQuad tol2 p a b q c)
    (hd : c.dist2 d ≤ tol2) : Near tol2 shape p (.curveTo a b q) (.quad p d q) := by
  obtain ⟨h1, h2, h3⟩ := hq
  refine .quad (a' := ⟨p.x + 2 / 3 * (d.x - p.x), p.y + 2 / 3 * (d.y - p.y)⟩)
    (b' := ⟨q.x + 2 / 3 * (d.x - q.x), q.y + 2 / 3 * (d.y - q.y)⟩) (fun t => elevate_x _ _ _ t)
    (fun t => elevate_x _ _ _ t) ?_ ?_
  · have : a.dist2 ⟨p.x + 2 / 3 * (d.x - p.x), p.y + 2 / 3 * (d.y - p.y)⟩ = 4 / 9 * c.dist2 d := by
      simp only [Pt.dist2, h1, h2]; grind
    rw [this]
    grind
  · have ht := dist2_triangle d c ⟨q.x + 3 / 2 * (b.x - q.x), q.y + 3 / 2 * (b.y - q.y)⟩
    rw [dist2_comm d c] at ht
    have : b.dist2 ⟨q.x + 2 / 3 * (d.x - q.x), q.y + 2 / 3 * (d.y - q.y)⟩ =
        4 / 9 * d.dist2 ⟨q.x + 3 / 2 * (b.x - q.x), q.y + 3 / 2 * (b.y - q.y)⟩ := by
      simp only [Pt.dist2]; grind
    rw [this]
    grind

/-- What is proved of the command for some data. -/
def Drawing (e : Env) (s : Pen) (c : Cmd) (control : Option Pt) (k : Option (Bool × Pt)) (next : Option Data)
    (d : Data) : Prop :=
  c ≠ .closePath ∧ ∃ o cu qu, act c s = .draw o cu qu ∧ o.stop = d.endPoint ∧ Near e.tol2 e.shape s.cur d o ∧
    Tracks e.tol2 control k ∧ Knows e.tol2 ⟨o.stop, s.start, cu, qu⟩ control k next

theorem curve_spec {e : Env} (he : e.rnd = id) (h0 : 0 ≤ e.tol2) {first : Bool} {s : Pen} {control : Option Pt}
    {k k' : Option (Bool × Pt)} {a b q : Pt} (prev : Option Cmd) (next : Option Data)
    (ht : Tracks e.tol2 control k) (hr : Ready e.tol2 first s control k (some (.curveTo a b q)))
    (ha : Apart e.tol2 first s.cur k (.curveTo a b q)) (hl : Left e.tol2 s.cur (.curveTo a b q) k') :
    ∃ c control', e.toCurve prev control s.cur a b q next = some (c, control') ∧
      Drawing e s c control' k' next (.curveTo a b q) := by
  -- the cubic candidates
  have cubic : ∀ d ∈ cubicCands (isSmooth e.tol2 s.cur a control) s.cur a b q,
      ∃ a', act d s = .draw (.cubic s.cur a' b q) (some b) none ∧ a.dist2 a' ≤ e.tol2 ∧
        ∀ quad, controlAfter s.cur b control quad d.name = some (quad.getD b) := by
    intro d hd
    cases hs : isSmooth e.tol2 s.cur a control with
    | true =>
      have := Rat.le_of_lt (smooth_ok ht hr ha hs)
      rw [hs] at hd
      simp only [cubicCands, if_true, List.mem_cons, List.not_mem_nil, or_false] at hd
      rcases hd with rfl | rfl
      · exact ⟨_, by simp only [act, add_sub], this, fun _ => rfl⟩
      · exact ⟨_, rfl, this, fun _ => rfl⟩
    | false =>
      rw [hs] at hd
      simp only [cubicCands, Bool.false_eq_true, if_false, List.mem_cons, List.not_mem_nil, or_false] at hd
      rcases hd with rfl | rfl
      · exact ⟨a, by simp only [act, add_sub], by rw [dist2_self]; exact h0, fun _ => rfl⟩
      · exact ⟨a, rfl, by rw [dist2_self]; exact h0, fun _ => rfl⟩
  have cname : ∀ d ∈ cubicCands (isSmooth e.tol2 s.cur a control) s.cur a b q, d.name ≠ .closePath := by
    intro d hd
    unfold cubicCands at hd
    split at hd <;> simp only [List.mem_cons, List.not_mem_nil, or_false] at hd <;> rcases hd with rfl | rfl <;>
      simp [Cmd.name]
  have cne : cubicCands (isSmooth e.tol2 s.cur a control) s.cur a b q ≠ [] := by
    unfold cubicCands; split <;> simp
  cases hl with
  | cubic hn =>
    have hq := quadControl_none hn
    obtain ⟨c, hc, d, hd, hcd⟩ := compactest_spec he prev cne
    obtain ⟨h1, h2⟩ := chosen hcd s
    obtain ⟨a', h3, h4, h5⟩ := cubic d hd
    refine ⟨c, some b, ?_, name_ne_close (h2 ▸ cname d hd), _, _, _, h1.trans h3, rfl, .cubic h4, rfl, rfl, rfl⟩
    simp only [Env.toCurve, hq, nextIsSmoothQuad, Bool.false_eq_true, if_false, quadCands, List.append_nil, hc,
      Option.map_some, h2, h5, Option.getD_none]
  | @quad _ _ _ c0 hq0 =>
    have hq := quadControl_some.2 hq0
    have hpos : c0.dist2 c0 < e.tol2 := by
      have h1 := dist2_nonneg c0 ⟨q.x + 3 / 2 * (b.x - q.x), q.y + 3 / 2 * (b.y - q.y)⟩
      have h2 := hq0.2.2
      rw [dist2_self]; grind
    -- the quadratic candidates
    have quad : ∀ d ∈ quadCands (isSmoothQuad e.tol2 s.cur c0 control) s.cur q (some c0),
        d.name ≠ .closePath ∧ ∃ c1, act d s = .draw (.quad s.cur c1 q) none (some c1) ∧ c0.dist2 c1 < e.tol2 ∧
          controlAfter s.cur b control (some c0) d.name = some c1 := by
      intro d hd
      cases hs : isSmoothQuad e.tol2 s.cur c0 control with
      | true =>
        obtain ⟨d', hc, hp, hdist⟩ := smoothQuad_ok hq0 ht hr ha hs
        rw [hs] at hd
        simp only [quadCands, if_true, List.mem_cons, List.not_mem_nil, or_false] at hd
        rcases hd with rfl | rfl
        · refine ⟨by simp [Cmd.name], mirror s.cur (some d'), ?_, hdist, ?_⟩
          · simp only [act, add_sub, hp]
          · simp only [Cmd.name, controlAfter, hc, Option.map_some, reflect_eq]
        · refine ⟨by simp [Cmd.name], mirror s.cur (some d'), ?_, hdist, ?_⟩
          · simp only [act, hp]
          · simp only [Cmd.name, controlAfter, hc, Option.map_some, reflect_eq]
      | false =>
        rw [hs] at hd
        simp only [quadCands, Bool.false_eq_true, if_false, List.mem_cons, List.not_mem_nil, or_false] at hd
        rcases hd with rfl | rfl
        · exact ⟨by simp [Cmd.name], c0, by simp only [act, add_sub], hpos, rfl⟩
        · exact ⟨by simp [Cmd.name], c0, rfl, hpos, rfl⟩
    have qne : quadCands (isSmoothQuad e.tol2 s.cur c0 control) s.cur q (some c0) ≠ [] := by
      simp only [quadCands]; split <;> simp
    -- a quadratic candidate was chosen
    have fin : ∀ c d : Cmd, d ∈ quadCands (isSmoothQuad e.tol2 s.cur c0 control) s.cur q (some c0) →
        act c s = act d s → c.name = d.name →
        Drawing e s c (controlAfter s.cur b control (some c0) c.name) (some (true, c0)) next (.curveTo a b q) := by
      intro c d hd h1 h2
      obtain ⟨hn, c1, h3, h4, h5⟩ := quad d hd
      refine ⟨name_ne_close (h2 ▸ hn), _, _, _, h1.trans h3, rfl, near_quad hq0 (Rat.le_of_lt h4), ?_, ?_⟩
      · rw [h2, h5]
        exact ⟨c1, rfl, by rw [dist2_comm]; exact h4⟩
      · rw [h2, h5]
        exact .inl ⟨rfl, rfl⟩
    cases hnext : nextIsSmoothQuad e.tol2 q (some c0) next with
    | true =>
      obtain ⟨c, hc, d, hd, hcd⟩ := compactest_spec he prev qne
      obtain ⟨h1, h2⟩ := chosen hcd s
      refine ⟨c, _, ?_, fin c d hd h1 h2⟩
      simp only [Env.toCurve, hq, hnext, if_true, List.nil_append, quadIsSmooth, hc, Option.map_some]
    | false =>
      obtain ⟨c, hc, d, hd, hcd⟩ := compactest_spec he prev
        (cands := cubicCands (isSmooth e.tol2 s.cur a control) s.cur a b q ++
          quadCands (isSmoothQuad e.tol2 s.cur c0 control) s.cur q (some c0)) (by simp [cne])
      obtain ⟨h1, h2⟩ := chosen hcd s
      refine ⟨c, controlAfter s.cur b control (some c0) c.name, ?_, ?_⟩
      · simp only [Env.toCurve, hq, hnext, Bool.false_eq_true, if_false, quadIsSmooth, hc, Option.map_some]
      · rcases List.mem_append.1 hd with hd | hd
        · obtain ⟨a', h3, h4, h5⟩ := cubic d hd
          refine ⟨name_ne_close (h2 ▸ cname d hd), _, _, _, h1.trans h3, rfl, .cubic h4, ?_, ?_⟩
          · rw [h2, h5]
            exact ⟨c0, rfl, hpos⟩
          · rw [h2, h5]
            exact .inr ⟨rfl, hnext⟩
        · exact fin c d hd h1 h2

/-! ## Lines and arcs -/

theorem line_spec {e : Env} (he : e.rnd = id) {s : Pen} {q : Pt} {closing : Bool} (prev : Option Cmd) {start : Pt}
    (hp : Proper start closing s.cur (.lineTo q)) :
    ∃ c, e.toLine prev start s.cur q = some c ∧
      (c = .closePath ∧ closing = true ∧ q = start ∨
        c ≠ .closePath ∧ act c s = .draw (.line s.cur q) none none) := by
  obtain ⟨h1, h2⟩ := hp
  unfold Env.toLine
  rw [if_neg h1, he]
  by_cases hx : id q.x = id s.cur.x
  · rw [if_pos hx]
    obtain ⟨c, hc, d, hd, hcd⟩ := compactest_spec he prev
      (cands := [.verticalBy (q - s.cur).y, .verticalTo q.y]) (by simp)
    obtain ⟨h3, h4⟩ := chosen hcd s
    refine ⟨c, hc, .inr ?_⟩
    have hq : q = ⟨s.cur.x, q.y⟩ := by rw [← show q.x = s.cur.x from hx]
    simp only [List.mem_cons, List.not_mem_nil, or_false] at hd
    rcases hd with rfl | rfl
    · refine ⟨name_ne_close (by rw [h4]; simp [Cmd.name]), ?_⟩
      rw [h3]
      have : s.cur.y + (q - s.cur).y = q.y := by simp only [Pt.sub_def]; grind
      simp only [act, this, ← hq]
    · refine ⟨name_ne_close (by rw [h4]; simp [Cmd.name]), ?_⟩
      rw [h3]
      simp only [act, ← hq]
  · rw [if_neg hx]
    by_cases hy : id q.y = id s.cur.y
    · rw [if_pos hy]
      obtain ⟨c, hc, d, hd, hcd⟩ := compactest_spec he prev
        (cands := [.horizontalBy (q - s.cur).x, .horizontalTo q.x]) (by simp)
      obtain ⟨h3, h4⟩ := chosen hcd s
      refine ⟨c, hc, .inr ?_⟩
      have hq : q = ⟨q.x, s.cur.y⟩ := by rw [← show q.y = s.cur.y from hy]
      simp only [List.mem_cons, List.not_mem_nil, or_false] at hd
      rcases hd with rfl | rfl
      · refine ⟨name_ne_close (by rw [h4]; simp [Cmd.name]), ?_⟩
        rw [h3]
        have : s.cur.x + (q - s.cur).x = q.x := by simp only [Pt.sub_def]; grind
        simp only [act, this, ← hq]
      · refine ⟨name_ne_close (by rw [h4]; simp [Cmd.name]), ?_⟩
        rw [h3]
        simp only [act, ← hq]
    · rw [if_neg hy]
      by_cases hz : q = start
      · rw [if_pos hz]
        refine ⟨_, rfl, .inl ⟨rfl, ?_, hz⟩⟩
        rcases h2 hz with h | h | h
        · exact absurd h hx
        · exact absurd h hy
        · exact h
      · rw [if_neg hz]
        obtain ⟨c, hc, d, hd, hcd⟩ := compactest_spec he prev (cands := [.lineBy (q - s.cur), .lineTo q]) (by simp)
        obtain ⟨h3, h4⟩ := chosen hcd s
        refine ⟨c, hc, .inr ?_⟩
        simp only [List.mem_cons, List.not_mem_nil, or_false] at hd
        rcases hd with rfl | rfl
        · refine ⟨name_ne_close (by rw [h4]; simp [Cmd.name]), ?_⟩
          rw [h3]
          have := add_sub s.cur q
          simp only [Pt.add_def] at this
          simp only [act, this]
        · refine ⟨name_ne_close (by rw [h4]; simp [Cmd.name]), ?_⟩
          rw [h3]
          rfl

theorem arc_spec {e : Env} (he : e.rnd = id) {s : Pen} {a : Arc} (prev : Option Cmd) (hp : s.cur ≠ a.to) :
    ∃ c, e.toArc prev s.cur a = some c ∧ c ≠ .closePath ∧
      act c s = .draw (.arc s.cur (e.shape s.cur a) a.to) none none := by
  unfold Env.toArc
  simp only [he, Pt.round_id]
  have h1 : ¬ ((a.to - s.cur).x = 0 ∧ (a.to - s.cur).y = 0) := by
    rintro ⟨hx, hy⟩
    apply hp
    rcases hs : s.cur with ⟨x, y⟩
    rcases ht : a.to with ⟨x', y'⟩
    rw [hs, ht] at hx hy
    simp only [Pt.sub_def, Pt.mk.injEq] at hx hy ⊢
    constructor <;> grind
  have h2 : ¬ (a.to.x = s.cur.x ∧ a.to.y = s.cur.y) := by
    rintro ⟨hx, hy⟩
    apply hp
    rcases hs : s.cur with ⟨x, y⟩
    rcases ht : a.to with ⟨x', y'⟩
    rw [hs, ht] at hx hy
    simp only [Pt.mk.injEq] at hx hy ⊢
    exact ⟨hx.symm, hy.symm⟩
  rw [if_neg h1, if_neg h2]
  obtain ⟨c, hc, d, hd, hcd⟩ := compactest_spec he prev
    (cands := [.arcBy (e.shape s.cur a) (a.to - s.cur), .arcTo (e.shape s.cur a) a.to]) (by simp)
  obtain ⟨h3, h4⟩ := chosen hcd s
  refine ⟨c, hc, ?_⟩
  simp only [List.mem_cons, List.not_mem_nil, or_false] at hd
  rcases hd with rfl | rfl
  · refine ⟨name_ne_close (by rw [h4]; simp [Cmd.name]), ?_⟩
    rw [h3]
    simp only [act, add_sub]
  · refine ⟨name_ne_close (by rw [h4]; simp [Cmd.name]), ?_⟩
    rw [h3]
    rfl

/-- The command for any data. -/
theorem emit_spec {e : Env} (he : e.rnd = id) (h0 : 0 ≤ e.tol2) {first : Bool} {s : Pen} {control : Option Pt}
    {k k' : Option (Bool × Pt)} {d : Data} {start : Pt} {closing : Bool} (prev : Option Cmd) (next : Option Data)
    (ht : Tracks e.tol2 control k) (hr : Ready e.tol2 first s control k (some d))
    (ha : Apart e.tol2 first s.cur k d) (hl : Left e.tol2 s.cur d k') (hp : Proper start closing s.cur d) :
    ∃ c control', e.emit prev control start s.cur next d = some (c, control') ∧
      (c = .closePath ∧ closing = true ∧ d = .lineTo start ∧ Tracks e.tol2 control' k' ∨
        Drawing e s c control' k' next d) := by
  cases d with
  | lineTo q =>
    cases hl
    obtain ⟨c, hc, h⟩ := line_spec he prev hp
    refine ⟨c, none, by simp only [Env.emit, hc, Option.map_some], ?_⟩
    rcases h with ⟨h1, h2, h3⟩ | ⟨h1, h2⟩
    · exact .inl ⟨h1, h2, by rw [h3], rfl⟩
    · exact .inr ⟨h1, _, _, _, h2, rfl, .line, rfl, rfl, rfl⟩
  | arcTo a =>
    cases hl
    obtain ⟨c, hc, h1, h2⟩ := arc_spec he prev hp
    exact ⟨c, none, by simp only [Env.emit, hc, Option.map_some], .inr ⟨h1, _, _, _, h2, rfl, .arc, rfl, rfl, rfl⟩⟩
  | curveTo a b q =>
    obtain ⟨c, control', hc, h⟩ := curve_spec he h0 prev next ht hr ha hl
    exact ⟨c, control', hc, .inr h⟩

/-! ## Segments -/

/-- The commands draw the data from the pen on. -/
def Good (e : Env) (start : Pt) (closed : Bool) (ds : List Data) (s : Pen) (cs : List Cmd) : Prop :=
  ((closed && !ds.isEmpty) = false → ∃ new s', NearAll e.tol2 e.shape s.cur ds new ∧ s'.cur = lastEnd s.cur ds ∧
    s'.start = start ∧ ∀ rest ops, draw (cs ++ rest) s ops = draw rest s' (ops ++ new)) ∧
  ((closed && !ds.isEmpty) = true → ∃ new, (NearAll e.tol2 e.shape s.cur ds new ∨
      ∃ ds', ds = ds' ++ [.lineTo start] ∧ NearAll e.tol2 e.shape s.cur ds' new) ∧
    ∀ rest ops, draw (cs ++ rest) s ops = ⟨start, ops ++ new, true⟩ :: draw rest ⟨start, start, none, none⟩ [])

theorem good_cons {e : Env} {start : Pt} {closed : Bool} {d : Data} {ds : List Data} {s : Pen} {c : Cmd}
    {cs : List Cmd} (hs : s.start = start) (hcs : ds = [] → cs = [])
    (h : c = .closePath ∧ (closed && ds.isEmpty) = true ∧ d = .lineTo start ∨
      c ≠ .closePath ∧ ∃ o cu qu, act c s = .draw o cu qu ∧ o.stop = d.endPoint ∧ Near e.tol2 e.shape s.cur d o ∧
        Good e start closed ds ⟨o.stop, s.start, cu, qu⟩ cs) :
    Good e start closed (d :: ds) s
      (c :: (if closed && ds.isEmpty && c != .closePath then [.closePath] else []) ++ cs) := by
  rcases h with ⟨rfl, hz, rfl⟩ | ⟨hc, o, cu, qu, hact, hstop, hnear, hg⟩
  · rw [Bool.and_eq_true] at hz
    obtain ⟨hz1, hz2⟩ := hz
    have hds : ds = [] := List.isEmpty_iff.1 hz2
    subst hds
    rw [hcs rfl]
    subst hz1
    refine ⟨fun h => absurd h (by simp), fun _ => ⟨[], .inr ⟨[], rfl, .nil⟩, fun rest ops => ?_⟩⟩
    simp only [List.isEmpty_nil, Bool.and_true, bne_self_eq_false, Bool.and_false, Bool.false_eq_true, if_false,
      List.append_nil, List.cons_append, List.nil_append, draw, act, hs]
  · have hne : (c != .closePath) = true := bne_iff_ne.2 hc
    rw [hne, Bool.and_true]
    have hend : lastEnd s.cur (d :: ds) = lastEnd o.stop ds := by rw [hstop]; rfl
    cases ds with
    | nil =>
      rw [hcs rfl]
      cases closed with
      | false =>
        refine ⟨fun _ => ⟨[o], ⟨o.stop, s.start, cu, qu⟩, .cons hnear .nil, hend.symm, hs, fun rest ops => ?_⟩,
          fun h => absurd h (by simp)⟩
        simp only [List.isEmpty_nil, Bool.and_true, Bool.false_eq_true, if_false, List.append_nil, List.cons_append,
          List.nil_append, draw, hact]
      | true =>
        refine ⟨fun h => absurd h (by simp), fun _ => ⟨[o], .inl (.cons hnear .nil), fun rest ops => ?_⟩⟩
        simp only [List.isEmpty_nil, Bool.and_true, if_true, List.append_nil, List.cons_append,
          List.nil_append, draw, hact, act, hs]
    | cons d' ds =>
      simp only [List.isEmpty_cons, Bool.and_false, Bool.false_eq_true, if_false, List.cons_append, List.nil_append]
      obtain ⟨g1, g2⟩ := hg
      simp only [List.isEmpty_cons, Bool.not_false, Bool.and_true] at g1 g2
      refine ⟨fun h => ?_, fun h => ?_⟩
      · simp only [List.isEmpty_cons, Bool.not_false, Bool.and_true] at h
        obtain ⟨new, s', n1, n2, n3, n4⟩ := g1 h
        refine ⟨o :: new, s', .cons hnear (hstop ▸ n1), by rw [n2, hend], n3, fun rest ops => ?_⟩
        simp only [List.cons_append, draw, hact, n4, List.append_assoc, List.nil_append]
      · simp only [List.isEmpty_cons, Bool.not_false, Bool.and_true] at h
        obtain ⟨new, n1, n2⟩ := g2 h
        refine ⟨o :: new, ?_, fun rest ops => ?_⟩
        · rcases n1 with n1 | ⟨ds', h1, n1⟩
          · exact .inl (.cons hnear (hstop ▸ n1))
          · exact .inr ⟨d :: ds', by rw [h1]; rfl, .cons hnear (hstop ▸ n1)⟩
        · simp only [List.cons_append, draw, hact, n2, List.append_assoc, List.nil_append]

theorem segRest_spec {e : Env} (he : e.rnd = id) (h0 : 0 ≤ e.tol2) {start : Pt} {closed : Bool} (ds : List Data) :
    ∀ {s : Pen} {control : Option Pt} {k k' : Option (Bool × Pt)} (prev : Cmd), s.start = start →
      Tracks e.tol2 control k → Knows e.tol2 s control k ds.head? → Fits e.tol2 start closed false s.cur k ds k' →
      ∃ cs control', e.segRest start closed prev s.cur control ds = some (cs, control') ∧
        Tracks e.tol2 control' k' ∧ Good e start closed ds s cs ∧ (ds = [] → cs = []) := by
  induction ds with
  | nil =>
    intro s control k k' prev hs ht hk hf
    cases hf
    refine ⟨[], control, rfl, ht, ⟨fun _ => ⟨[], s, .nil, rfl, hs, fun rest ops => by simp⟩, fun h => ?_⟩, fun _ => rfl⟩
    simp at h
  | cons d ds ih =>
    intro s control k k' prev hs ht hk hf
    cases hf with
    | @cons _ _ _ _ _ k1 _ hp ha hl hf =>
      obtain ⟨c, control1, hc, h⟩ := emit_spec (first := false) he h0 (some prev) ds.head? ht hk ha hl hp
      rcases h with ⟨h1, h2, h3, h4⟩ | ⟨h1, o, cu, qu, h2, h3, h4, h5, h6⟩
      · have hds : ds = [] := by
          rw [Bool.and_eq_true] at h2
          exact List.isEmpty_iff.1 h2.2
        subst hds
        cases hf
        refine ⟨_, control1, ?_, h4, good_cons (cs := []) hs (fun _ => rfl) (.inl ⟨h1, h2, h3⟩), by simp⟩
        simp only [Env.segRest, hc, Option.bind_some]
      · rw [← h3] at hf
        obtain ⟨cs, control2, g1, g2, g3, g4⟩ := ih (s := ⟨o.stop, s.start, cu, qu⟩) c hs h5 h6 hf
        refine ⟨_, control2, ?_, g2, good_cons hs g4 (.inr ⟨h1, o, cu, qu, h2, h3, h4, g3⟩), by simp⟩
        simp only [Env.segRest, hc, Option.bind_some, ← h3, g1]

/-- The move before a segment, and its first command. -/
theorem withMove_spec {e : Env} (he : e.rnd = id) {cur start : Pt} {prevEnd : Option Pt}
    (hcur : cur = prevEnd.getD ⟨0, 0⟩) (c : Cmd) :
    (∀ s : Pen, s.cur = cur → act (e.withMove start (startBy prevEnd start) c).1 s = .move start) ∧
    (∀ s : Pen, act (e.withMove start (startBy prevEnd start) c).2 s = act c s) ∧
    ((e.withMove start (startBy prevEnd start) c).2 = .closePath ↔ c = .closePath) := by
  have hby : ∀ s : Pen, s.cur = cur → act (.moveBy (startBy prevEnd start)) s = .move start := by
    intro s hs
    simp only [act, hs, hcur]
    cases prevEnd with
    | none => simp only [startBy, Option.getD_none, Rat.zero_add]
    | some p =>
      have := add_sub p start
      simp only [Pt.add_def] at this
      simp only [startBy, Option.getD_some, this]
  unfold Env.withMove
  split
  · rename_i h
    refine ⟨fun s hs => by rw [he, Cmd.round_id]; exact hby s hs, fun s => rfl, by simp, ?_⟩
    intro hc; rw [hc] at h; exact absurd h (by simp [Cmd.name])
  · rename_i h
    refine ⟨fun s hs => by rw [he, Cmd.round_id]; rfl, fun s => rfl, by simp, ?_⟩
    intro hc; rw [hc] at h; exact absurd h (by simp [Cmd.name])
  · exact ⟨fun s hs => by rw [he, Cmd.round_id]; rfl, fun s => rfl, Iff.rfl⟩

theorem segData_spec {e : Env} (he : e.rnd = id) (h0 : 0 ≤ e.tol2) {start : Pt} {closed : Bool} {ds : List Data}
    {control : Option Pt} {k k' : Option (Bool × Pt)} {prevEnd : Option Pt} (hne : ds ≠ [])
    (ht : Tracks e.tol2 control k) (hf : Fits e.tol2 start closed true start k ds k') :
    ∃ m cs control', e.segData start (startBy prevEnd start) closed control ds = some (m :: cs, control') ∧
      Tracks e.tol2 control' k' ∧ (∀ s : Pen, s.cur = prevEnd.getD ⟨0, 0⟩ → act m s = .move start) ∧
      Good e start closed ds ⟨start, start, none, none⟩ cs := by
  cases hf with
  | nil => exact absurd rfl hne
  | @cons _ _ _ d ds k1 _ hp ha hl hf =>
    obtain ⟨c, control1, hc, h⟩ := emit_spec (first := true) (s := ⟨start, start, none, none⟩) he h0 none ds.head?
      ht ⟨rfl, rfl⟩ ha hl hp
    obtain ⟨m1, m2, m3⟩ := withMove_spec (start := start) he (rfl : prevEnd.getD ⟨0, 0⟩ = _) c
    rcases h with ⟨h1, h2, h3, h4⟩ | ⟨h1, o, cu, qu, h2, h3, h4, h5, h6⟩
    · have hds : ds = [] := by
        rw [Bool.and_eq_true] at h2
        exact List.isEmpty_iff.1 h2.2
      subst hds
      cases hf
      refine ⟨_, _, control1, ?_, h4, m1, good_cons (cs := []) rfl (fun _ => rfl) (.inl ⟨m3.2 h1, h2, h3⟩)⟩
      simp only [Env.segData, hc, Option.bind_some, Env.segRest, List.cons_append]
    · rw [← h3] at hf
      obtain ⟨cs, control2, g1, g2, g3, g4⟩ := segRest_spec he h0 ds (s := ⟨o.stop, start, cu, qu⟩)
        (e.withMove start (startBy prevEnd start) c).2 rfl h5 h6 hf
      refine ⟨_, _, control2, ?_, g2, m1, good_cons (c := (e.withMove start (startBy prevEnd start) c).2) rfl g4
        (.inr ⟨fun hh => h1 (m3.1 hh), o, cu, qu, (m2 _).trans h2, h3, h4, g3⟩)⟩
      simp only [Env.segData, hc, Option.bind_some, ← h3, g1, List.cons_append]

theorem segments_spec {e : Env} (he : e.rnd = id) (h0 : 0 ≤ e.tol2) (l : List Segment) :
    ∀ {control : Option Pt} {k : Option (Bool × Pt)} (prevEnd : Option Pt), Tracks e.tol2 control k →
      FitsAll e.tol2 k l →
      ∃ cs, e.segments prevEnd control l = some cs ∧
        (cs = [] ∨ ∃ m cs' p, cs = m :: cs' ∧ ∀ s : Pen, s.cur = prevEnd.getD ⟨0, 0⟩ → act m s = .move p) ∧
        ∀ s : Pen, s.cur = prevEnd.getD ⟨0, 0⟩ → ∀ ops, ∃ subs, draw cs s ops = ⟨s.start, ops, false⟩ :: subs ∧
          RedrawsAll e.tol2 e.shape (l.filter Segment.hasData) (subs.filter Sub.visible) := by
  induction l with
  | nil =>
    intro control k prevEnd ht hf
    exact ⟨[], rfl, .inl rfl, fun s hs ops => ⟨[], rfl, .nil⟩⟩
  | cons g l ih =>
    intro control k prevEnd ht hf
    cases hf with
    | empty hd hc hf =>
      obtain ⟨cs, h1, h2, h3⟩ := ih (control := none) (k := none) (some g.endPoint) rfl hf
      have hend : g.endPoint = g.start := by simp [Segment.endPoint, hc, hd, lastEnd]
      refine ⟨.moveTo g.start :: cs, ?_, .inr ⟨_, _, g.start, rfl, fun _ _ => rfl⟩, fun s hs ops => ?_⟩
      · simp only [Env.segments, hd, Env.segData, he, Cmd.round_id, Option.bind_some, h1, List.cons_append,
          List.nil_append]
      · obtain ⟨subs, h4, h5⟩ := h3 ⟨g.start, g.start, none, none⟩ (by simp [hend]) []
        refine ⟨⟨g.start, [], false⟩ :: subs, ?_, ?_⟩
        · rw [draw]; simp only [act, h4]
        · simpa [Segment.hasData, hd, Sub.visible] using h5
    | @cons _ k1 _ _ hne hfit hf =>
      obtain ⟨m, cs, control1, h1, h2, h3, h4⟩ := segData_spec (prevEnd := prevEnd) he h0 hne ht hfit
      obtain ⟨cs', g1, g2, g3⟩ := ih (some g.endPoint) h2 hf
      have hdata : g.hasData = true := by simp [Segment.hasData, hne]
      have hempty : g.data.isEmpty = false := by simp [hne]
      refine ⟨m :: cs ++ cs', ?_, .inr ⟨m, cs ++ cs', g.start, rfl, h3⟩, fun s hs ops => ?_⟩
      · simp only [Env.segments, h1, Option.bind_some, g1]
      · obtain ⟨p1, p2⟩ := h4
        rw [hempty, Bool.not_false, Bool.and_true] at p1 p2
        cases hcl : g.closed with
        | false =>
          obtain ⟨new, s', n1, n2, n3, n4⟩ := p1 hcl
          have hend : s'.cur = g.endPoint := by simp [Segment.endPoint, hcl, n2]
          obtain ⟨subs, s1, s2⟩ := g3 s' (by simp [hend]) ([] ++ new)
          refine ⟨⟨g.start, new, false⟩ :: subs, ?_, ?_⟩
          · rw [List.cons_append, draw, h3 s hs]
            rw [n3, List.nil_append] at s1
            simp only [n4, List.nil_append, s1]
          · rw [List.filter_cons, hdata, if_pos rfl, List.filter_cons]
            have : (⟨g.start, new, false⟩ : Sub).visible = true := by
              have hd : ∀ ds, ds ≠ [] → NearAll e.tol2 e.shape g.start ds new → new ≠ [] := by
                intro ds hds h
                cases h with
                | nil => exact absurd rfl hds
                | cons => simp
              simp [Sub.visible, hd _ hne n1]
            rw [this, if_pos rfl]
            exact .cons ⟨rfl, hcl.symm, .inl n1⟩ s2
        | true =>
          obtain ⟨new, n1, n2⟩ := p2 hcl
          have hend : g.start = g.endPoint := by simp [Segment.endPoint, hcl]
          obtain ⟨subs, s1, s2⟩ := g3 ⟨g.start, g.start, none, none⟩ (by simp [← hend]) []
          refine ⟨⟨g.start, new, true⟩ :: ⟨g.start, [], false⟩ :: subs, ?_, ?_⟩
          · rw [List.cons_append, draw, h3 s hs]
            simp only [n2, s1, List.nil_append]
          · rw [List.filter_cons, hdata, if_pos rfl, List.filter_cons]
            have : (⟨g.start, new, true⟩ : Sub).visible = true := by simp [Sub.visible]
            rw [this, if_pos rfl, List.filter_cons]
            have : (⟨g.start, [], false⟩ : Sub).visible = false := by simp [Sub.visible]
            rw [this, if_neg (by simp)]
            refine .cons ⟨rfl, hcl.symm, ?_⟩ s2
            rcases n1 with n1 | ⟨ds', d1, n1⟩
            · exact .inl n1
            · exact .inr ⟨hcl, ds', d1, n1⟩

/-- **C24, without rounding.** Whatever the estimate of lengths by which commands are chosen: segments are written as
commands that redraw them. All end points are the same, control points differ by less than the tolerance allows. Missing
are rounding and the segments that `FitsAll` excludes; for these there are theorems below that show a different
drawing. -/
theorem toSvg_partial {e : Env} (he : e.rnd = id) (h0 : 0 ≤ e.tol2) {l : List Segment} (hf : FitsAll e.tol2 none l) :
    ∃ cs, e.toSvg l = some cs ∧
      RedrawsAll e.tol2 e.shape (l.filter Segment.hasData) ((subpaths cs).filter Sub.visible) := by
  obtain ⟨cs, h1, h2, h3⟩ := segments_spec he h0 l none (control := none) (k := none) rfl hf
  refine ⟨cs, h1, ?_⟩
  obtain ⟨subs, h4, h5⟩ := h3 ⟨⟨0, 0⟩, ⟨0, 0⟩, none, none⟩ rfl []
  rcases h2 with rfl | ⟨m, cs', p, rfl, hm⟩
  · simp only [draw, List.cons.injEq] at h4
    obtain ⟨_, rfl⟩ := h4
    exact h5
  · have hm := hm ⟨⟨0, 0⟩, ⟨0, 0⟩, none, none⟩ rfl
    rw [draw, hm] at h4
    simp only [List.cons.injEq] at h4
    obtain ⟨_, rfl⟩ := h4
    rw [subpaths, hm]
    exact h5

/-! ## Implied commands -/

/-- The command that was given, without its mark of being implied. -/
theorem plain_name (c : Cmd) : c.plain.name = c.name := by
  induction c with
  | implicit c ih => exact ih
  | _ => rfl

/-- A command is right after another one: it is not marked as implied, or the other one implies it. -/
def Right (prev : Option Cmd) (c : Cmd) : Prop :=
  ∀ d, c = .implicit d → d.isImplicit = false ∧ ∃ p, prev = some p ∧ mayFollow p.plain d = true

/-- All commands are right after the one before. -/
def AllRight : Option Cmd → List Cmd → Prop
  | _, [] => True
  | prev, c :: cs => Right prev c ∧ AllRight (some c) cs

/-- Candidates are commands that draw, without mark. -/
def Candidate (c : Cmd) : Prop :=
  c.isImplicit = false ∧ c.name ≠ .closePath ∧ c.name ≠ .moveTo ∧ c.name ≠ .moveBy

theorem plain_not_implicit (c : Cmd) : c.plain.isImplicit = false := by
  induction c with
  | implicit c ih => exact ih
  | _ => rfl

theorem mayFollow_of_name {p d : Cmd} (hd : Candidate d) (hp : p.isImplicit = false)
    (h : p.name.nextImplicit = d.name) : mayFollow p d = true := by
  obtain ⟨h1, h2, h3, h4⟩ := hd
  cases d <;> simp only [Cmd.isImplicit, Cmd.name, ne_eq, reduceCtorEq, not_true_eq_false] at h1 h2 h3 h4 h <;>
    cases p <;> simp_all [Cmd.isImplicit, Cmd.name, Name.nextImplicit, mayFollow]

theorem round_implicit (rnd : Rat → Rat) (c : Cmd) : (c.round rnd).isImplicit = c.isImplicit := by cases c <;> rfl

theorem round_name (rnd : Rat → Rat) (c : Cmd) : (c.round rnd).name = c.name := by
  induction c with
  | implicit c ih => exact ih
  | _ => rfl

theorem candidate_round {rnd : Rat → Rat} {c : Cmd} (h : Candidate c) : Candidate (c.round rnd) := by
  unfold Candidate
  rw [round_implicit, round_name]
  exact h

theorem compactest_right {e : Env} {prev : Option Cmd} {cands : List Cmd} {c : Cmd} (hc : ∀ d ∈ cands, Candidate d)
    (h : e.compactest prev cands = some c) : Right prev c := by
  cases cands with
  | nil => exact absurd h (by simp [Env.compactest, pick])
  | cons x xs =>
    obtain ⟨c', hm, hp⟩ := pick_some (e.size prev)
      (l := ((x :: xs).map (markImplicit (prev.map (fun c => c.name.nextImplicit)))).map (Cmd.round e.rnd)) (by simp)
    have : c' = c := by
      have := hp.symm.trans h
      simpa using this
    subst this
    simp only [List.mem_map] at hm
    obtain ⟨_, ⟨d, hd, rfl⟩, rfl⟩ := hm
    have hcd := hc d hd
    intro d' hd'
    unfold markImplicit at hd'
    split at hd'
    · rename_i hi
      simp only [Cmd.round, Cmd.implicit.injEq] at hd'
      subst hd'
      refine ⟨by rw [round_implicit]; exact hcd.1, ?_⟩
      cases prev with
      | none => exact absurd hi (by simp)
      | some p =>
        simp only [Option.map_some, Option.some.injEq] at hi
        refine ⟨p, rfl, mayFollow_of_name (candidate_round hcd) (plain_not_implicit p) ?_⟩
        rw [plain_name, round_name]
        exact hi
    · have := congrArg Cmd.isImplicit hd'
      rw [round_implicit, hcd.1] at this
      exact absurd this (by simp [Cmd.isImplicit])

theorem emit_right {e : Env} {prev : Option Cmd} {control : Option Pt} {start p : Pt} {next : Option Data} {d : Data}
    {c : Cmd} {control' : Option Pt} (h : e.emit prev control start p next d = some (c, control')) : Right prev c := by
  have close : Right prev .closePath := fun d hd => by cases hd
  cases d with
  | lineTo q =>
    simp only [Env.emit, Option.map_eq_some_iff, Prod.mk.injEq] at h
    obtain ⟨c', h, rfl, -⟩ := h
    unfold Env.toLine at h
    simp only at h
    split at h
    · simp only [Option.some.injEq] at h; subst h; exact close
    · split at h
      · exact compactest_right (by simp [Candidate, Cmd.isImplicit, Cmd.name]) h
      · split at h
        · exact compactest_right (by simp [Candidate, Cmd.isImplicit, Cmd.name]) h
        · split at h
          · simp only [Option.some.injEq] at h; subst h; exact close
          · exact compactest_right (by simp [Candidate, Cmd.isImplicit, Cmd.name]) h
  | arcTo a =>
    simp only [Env.emit, Option.map_eq_some_iff, Prod.mk.injEq] at h
    obtain ⟨c', h, rfl, -⟩ := h
    exact compactest_right (by simp [Candidate, Cmd.isImplicit, Cmd.name]) h
  | curveTo a b q =>
    simp only [Env.emit, Env.toCurve, Option.map_eq_some_iff, Prod.mk.injEq] at h
    obtain ⟨c', h, rfl, -⟩ := h
    refine compactest_right ?_ h
    intro d hd
    rcases List.mem_append.1 hd with hd | hd
    · split at hd
      · exact absurd hd (by simp)
      · unfold cubicCands at hd
        split at hd <;> simp only [List.mem_cons, List.not_mem_nil, or_false] at hd <;> rcases hd with rfl | rfl <;>
          simp [Candidate, Cmd.isImplicit, Cmd.name]
    · unfold quadCands at hd
      split at hd
      · split at hd <;> simp only [List.mem_cons, List.not_mem_nil, or_false] at hd <;> rcases hd with rfl | rfl <;>
          simp [Candidate, Cmd.isImplicit, Cmd.name]
      · exact absurd hd (by simp)

theorem right_plain {prev : Option Cmd} {c : Cmd} (h : c.isImplicit = false) : Right prev c := by
  rintro d rfl
  exact absurd h (by simp [Cmd.isImplicit])

theorem allRight_append {prev : Option Cmd} {l m : List Cmd} (h1 : AllRight prev l)
    (h2 : ∀ prev, AllRight prev m) : AllRight prev (l ++ m) := by
  induction l generalizing prev with
  | nil => exact h2 prev
  | cons c l ih => exact ⟨h1.1, ih h1.2⟩

theorem segRest_right {e : Env} {start : Pt} {closed : Bool} (ds : List Data) :
    ∀ {prev : Cmd} {p : Pt} {control control' : Option Pt} {cs : List Cmd},
      e.segRest start closed prev p control ds = some (cs, control') → AllRight (some prev) cs ∧ (ds = [] → cs = []) := by
  induction ds with
  | nil =>
    intro prev p control control' cs h
    simp only [Env.segRest, Option.some.injEq, Prod.mk.injEq] at h
    obtain ⟨rfl, -⟩ := h
    exact ⟨trivial, fun _ => rfl⟩
  | cons d ds ih =>
    intro prev p control control' cs h
    simp only [Env.segRest, Option.bind_eq_some_iff] at h
    obtain ⟨⟨c, k⟩, h1, ⟨cs', k'⟩, h2, h3⟩ := h
    simp only [Option.some.injEq, Prod.mk.injEq] at h3
    obtain ⟨rfl, rfl⟩ := h3
    obtain ⟨g1, g2⟩ := ih h2
    refine ⟨⟨emit_right h1, ?_⟩, by simp⟩
    split
    · rename_i hcl
      have : ds = [] := by
        rw [Bool.and_eq_true, Bool.and_eq_true] at hcl
        exact List.isEmpty_iff.1 hcl.1.2
      rw [g2 this]
      exact ⟨right_plain rfl, trivial⟩
    · exact g1

theorem segData_right {e : Env} {start startBy : Pt} {closed : Bool} {ds : List Data} {control control' : Option Pt}
    {cs : List Cmd} (h : e.segData start startBy closed control ds = some (cs, control')) (prev : Option Cmd) :
    AllRight prev cs := by
  cases ds with
  | nil =>
    simp only [Env.segData, Option.some.injEq, Prod.mk.injEq] at h
    obtain ⟨rfl, -⟩ := h
    exact ⟨right_plain rfl, trivial⟩
  | cons d ds =>
    simp only [Env.segData, Option.bind_eq_some_iff] at h
    obtain ⟨⟨c, k⟩, h1, ⟨cs', k'⟩, h2, h3⟩ := h
    simp only [Option.some.injEq, Prod.mk.injEq] at h3
    obtain ⟨rfl, rfl⟩ := h3
    obtain ⟨g1, g2⟩ := segRest_right ds h2
    have hc : c.isImplicit = false := by
      cases hi : c.isImplicit with
      | false => rfl
      | true =>
        cases c with
        | implicit d' => obtain ⟨_, p, hp, _⟩ := emit_right h1 d' rfl; cases hp
        | _ => exact absurd hi (by simp [Cmd.isImplicit])
    have hm : Right prev (e.withMove start startBy c).1 ∧
        Right (some (e.withMove start startBy c).1) (e.withMove start startBy c).2 := by
      unfold Env.withMove
      split
      · rename_i hn
        refine ⟨right_plain rfl, ?_⟩
        rintro d' hd'
        cases hd'
        refine ⟨hc, _, rfl, ?_⟩
        cases c <;> first | rfl | cases hn | cases hc
      · rename_i hn
        refine ⟨right_plain rfl, ?_⟩
        rintro d' hd'
        cases hd'
        refine ⟨hc, _, rfl, ?_⟩
        cases c <;> first | rfl | cases hn | cases hc
      · exact ⟨right_plain rfl, right_plain hc⟩
    refine ⟨hm.1, hm.2, ?_⟩
    split
    · rename_i hcl
      have : ds = [] := by
        rw [Bool.and_eq_true, Bool.and_eq_true] at hcl
        exact List.isEmpty_iff.1 hcl.1.2
      rw [g2 this]
      exact ⟨right_plain rfl, trivial⟩
    · exact g1

/-- **C24 (letters).** A command is marked as implied, so that its letter is not written, only where SVG lets the letter be
left out after the command before. Any rounding, any tolerance, any segments. -/
theorem toSvg_letters {e : Env} {l : List Segment} {cs : List Cmd} (h : e.toSvg l = some cs) : AllRight none cs := by
  have : ∀ (l : List Segment) (prevEnd control : Option Pt) (cs : List Cmd),
      e.segments prevEnd control l = some cs → ∀ prev, AllRight prev cs := by
    intro l
    induction l with
    | nil => intro _ _ cs h prev; cases h; trivial
    | cons s l ih =>
      intro prevEnd control cs h prev
      simp only [Env.segments, Option.bind_eq_some_iff] at h
      obtain ⟨⟨cs1, k⟩, h1, cs2, h2, h3⟩ := h
      simp only [Option.some.injEq] at h3
      subst h3
      exact allRight_append (segData_right h1 prev) (ih _ _ _ h2)
  exact this l none none cs h none

/-! ## No panic -/

theorem compactest_isSome (e : Env) (prev : Option Cmd) {cands : List Cmd} (h : cands ≠ []) :
    ∃ c, e.compactest prev cands = some c := by
  obtain ⟨c, _, hp⟩ := pick_some (e.size prev)
    (l := (cands.map (markImplicit (prev.map (fun c => c.name.nextImplicit)))).map (Cmd.round e.rnd)) (by simp [h])
  exact ⟨c, hp⟩

theorem emit_isSome (e : Env) (prev : Option Cmd) (control : Option Pt) (start p : Pt) (next : Option Data) (d : Data) :
    ∃ c k, e.emit prev control start p next d = some (c, k) := by
  cases d with
  | lineTo q =>
    have : ∃ c, e.toLine prev start p q = some c := by
      unfold Env.toLine
      simp only
      split
      · exact ⟨_, rfl⟩
      · split
        · exact compactest_isSome e prev (by simp)
        · split
          · exact compactest_isSome e prev (by simp)
          · split
            · exact ⟨_, rfl⟩
            · exact compactest_isSome e prev (by simp)
    obtain ⟨c, hc⟩ := this
    exact ⟨c, none, by simp only [Env.emit, hc, Option.map_some]⟩
  | arcTo a =>
    obtain ⟨c, hc⟩ : ∃ c, e.toArc prev p a = some c := compactest_isSome e prev (by simp)
    exact ⟨c, none, by simp only [Env.emit, hc, Option.map_some]⟩
  | curveTo a b q =>
    simp only [Env.emit, Env.toCurve]
    have hne : (if nextIsSmoothQuad e.tol2 q (quadControl e.tol2 p a b q) next = true then []
        else cubicCands (isSmooth e.tol2 p a control) p a b q) ++
        quadCands (quadIsSmooth e.tol2 p control (quadControl e.tol2 p a b q)) p q (quadControl e.tol2 p a b q) ≠ [] := by
      cases quadControl e.tol2 p a b q with
      | none =>
        simp only [nextIsSmoothQuad, Bool.false_eq_true, if_false, cubicCands]
        split <;> simp
      | some c =>
        intro h
        have := (List.append_eq_nil_iff.1 h).2
        simp only [quadCands] at this
        split at this <;> exact absurd this (by simp)
    obtain ⟨c, hc⟩ := compactest_isSome e prev hne
    exact ⟨c, _, by rw [hc]; rfl⟩

/-- **C24 (no panic).** Any segments are written, with any rounding and any tolerance. -/
theorem toSvg_total (e : Env) (l : List Segment) : ∃ cs, e.toSvg l = some cs := by
  have rest : ∀ (ds : List Data) (start : Pt) (closed : Bool) (prev : Cmd) (p : Pt) (control : Option Pt),
      ∃ cs k, e.segRest start closed prev p control ds = some (cs, k) := by
    intro ds
    induction ds with
    | nil => intro _ _ _ _ control; exact ⟨[], control, rfl⟩
    | cons d ds ih =>
      intro start closed prev p control
      obtain ⟨c, k, h⟩ := emit_isSome e (some prev) control start p ds.head? d
      obtain ⟨cs, k', h'⟩ := ih start closed c d.endPoint k
      exact ⟨_, k', by simp only [Env.segRest, h, Option.bind_some, h']; rfl⟩
  have data : ∀ (ds : List Data) (start startBy : Pt) (closed : Bool) (control : Option Pt),
      ∃ cs k, e.segData start startBy closed control ds = some (cs, k) := by
    intro ds start startBy closed control
    cases ds with
    | nil => exact ⟨_, _, rfl⟩
    | cons d ds =>
      obtain ⟨c, k, h⟩ := emit_isSome e none control start start ds.head? d
      obtain ⟨cs, k', h'⟩ := rest ds start closed (e.withMove start startBy c).2 d.endPoint k
      exact ⟨_, k', by simp only [Env.segData, h, Option.bind_some, h']; rfl⟩
  have : ∀ (l : List Segment) (prevEnd control : Option Pt), ∃ cs, e.segments prevEnd control l = some cs := by
    intro l
    induction l with
    | nil => intro _ _; exact ⟨[], rfl⟩
    | cons s l ih =>
      intro prevEnd control
      obtain ⟨cs, k, h⟩ := data s.data s.start (startBy prevEnd s.start) s.closed control
      obtain ⟨cs', h'⟩ := ih (some s.endPoint) k
      exact ⟨cs ++ cs', by simp only [Env.segments, h, Option.bind_some, h']⟩
  exact this l none none

/-! ## Where the drawing differs -/

/-- A count of the numbers of a command. -/
def Cmd.args : Cmd → Nat
  | .closePath => 0
  | .horizontalTo _ => 1
  | .horizontalBy _ => 1
  | .verticalTo _ => 1
  | .verticalBy _ => 1
  | .cubicTo .. => 6
  | .cubicBy .. => 6
  | .smoothTo .. => 4
  | .smoothBy .. => 4
  | .quadTo .. => 4
  | .quadBy .. => 4
  | .arcTo .. => 7
  | .arcBy .. => 7
  | .implicit c => c.args
  | _ => 2

/-- No rounding, a tolerance of a hundredth, and commands chosen by the count of their numbers. -/
def sampleEnv : Env := ⟨id, 1 / 10000, fun _ c => c.args, fun _ a => a.s, fun _ => ⟨0, 0⟩⟩

/-- **C24 fails (smooth quadratic after cubic).** A quadratic curve that continues the control point of a cubic one
is written with `t`, whose control point is then the current point: the curve becomes a line. -/
theorem quad_after_cubic_violated :
    sampleEnv.toSvg [⟨⟨0, 0⟩, [.curveTo ⟨0, 5⟩ ⟨3, 1⟩ ⟨5, 5⟩, newQuad ⟨7, 9⟩ ⟨5, 5⟩ ⟨10, 5⟩], false⟩] =
      some [.moveTo ⟨0, 0⟩, .cubicBy ⟨0, 5⟩ ⟨3, 1⟩ ⟨5, 5⟩, .smoothQuadBy ⟨5, 0⟩] ∧
    subpaths [.moveTo ⟨0, 0⟩, .cubicBy ⟨0, 5⟩ ⟨3, 1⟩ ⟨5, 5⟩, .smoothQuadBy ⟨5, 0⟩] =
      [⟨⟨0, 0⟩, [.cubic ⟨0, 0⟩ ⟨0, 5⟩ ⟨3, 1⟩ ⟨5, 5⟩, .quad ⟨5, 5⟩ ⟨5, 5⟩ ⟨10, 5⟩], false⟩] := by
  constructor <;> decide +kernel

/-- **C24 fails (smooth cubic after a cubic that is quadratic).** The control point remembered is that of the
quadratic form, while the curve is written as a cubic one: the next curve begins towards (5, 5), not towards (6, 6). -/
theorem cubic_after_quad_violated :
    sampleEnv.toSvg [⟨⟨0, 0⟩, [.curveTo ⟨0, 0⟩ ⟨1, 1⟩ ⟨3, 3⟩, .curveTo ⟨6, 6⟩ ⟨9, 0⟩ ⟨10, 0⟩], false⟩] =
      some [.moveTo ⟨0, 0⟩, .smoothBy ⟨1, 1⟩ ⟨3, 3⟩, .implicit (.smoothBy ⟨6, -3⟩ ⟨7, -3⟩)] ∧
    subpaths [.moveTo ⟨0, 0⟩, .smoothBy ⟨1, 1⟩ ⟨3, 3⟩, .implicit (.smoothBy ⟨6, -3⟩ ⟨7, -3⟩)] =
      [⟨⟨0, 0⟩, [.cubic ⟨0, 0⟩ ⟨0, 0⟩ ⟨1, 1⟩ ⟨3, 3⟩, .cubic ⟨3, 3⟩ ⟨5, 5⟩ ⟨9, 0⟩ ⟨10, 0⟩], false⟩] := by
  constructor <;> decide +kernel

/-- **C24 fails (smooth across a move).** The control point of the last curve of a segment is remembered for the first
curve of the next one, which is written with `s` and then begins towards (10, 10), not towards (17, 19). -/
theorem smooth_across_move_violated :
    sampleEnv.toSvg [⟨⟨0, 0⟩, [.curveTo ⟨0, 5⟩ ⟨3, 1⟩ ⟨5, 5⟩], false⟩,
        ⟨⟨10, 10⟩, [.curveTo ⟨17, 19⟩ ⟨30, 0⟩ ⟨40, 10⟩], false⟩] =
      some [.moveTo ⟨0, 0⟩, .cubicBy ⟨0, 5⟩ ⟨3, 1⟩ ⟨5, 5⟩, .moveTo ⟨10, 10⟩, .smoothBy ⟨20, -10⟩ ⟨30, 0⟩] ∧
    subpaths [.moveTo ⟨0, 0⟩, .cubicBy ⟨0, 5⟩ ⟨3, 1⟩ ⟨5, 5⟩, .moveTo ⟨10, 10⟩, .smoothBy ⟨20, -10⟩ ⟨30, 0⟩] =
      [⟨⟨0, 0⟩, [.cubic ⟨0, 0⟩ ⟨0, 5⟩ ⟨3, 1⟩ ⟨5, 5⟩], false⟩,
        ⟨⟨10, 10⟩, [.cubic ⟨10, 10⟩ ⟨10, 10⟩ ⟨30, 0⟩ ⟨40, 10⟩], false⟩] := by
  constructor <;> decide +kernel

/-- **C24 fails (line without extent).** A line that ends where it begins is written as `Z`: the subpath is closed, and
the rest is drawn from its start. -/
theorem empty_line_violated :
    sampleEnv.toSvg [⟨⟨0, 0⟩, [.lineTo ⟨5, 5⟩, .lineTo ⟨5, 5⟩, .lineTo ⟨9, 2⟩], false⟩] =
      some [.moveBy ⟨0, 0⟩, .implicit (.lineBy ⟨5, 5⟩), .closePath, .lineBy ⟨4, -3⟩] ∧
    subpaths [.moveBy ⟨0, 0⟩, .implicit (.lineBy ⟨5, 5⟩), .closePath, .lineBy ⟨4, -3⟩] =
      [⟨⟨0, 0⟩, [.line ⟨0, 0⟩ ⟨5, 5⟩], true⟩, ⟨⟨0, 0⟩, [.line ⟨0, 0⟩ ⟨4, -3⟩], false⟩] := by
  constructor <;> decide +kernel

/-- **C24 fails (line to the start).** A slanted line to the start within a segment is written as `Z`: one open subpath
becomes two, the first of them closed. -/
theorem line_to_start_violated :
    sampleEnv.toSvg [⟨⟨0, 0⟩, [.lineTo ⟨5, 1⟩, .lineTo ⟨7, 9⟩, .lineTo ⟨0, 0⟩, .lineTo ⟨3, 8⟩], false⟩] =
      some [.moveBy ⟨0, 0⟩, .implicit (.lineBy ⟨5, 1⟩), .implicit (.lineBy ⟨2, 8⟩), .closePath, .lineBy ⟨3, 8⟩] ∧
    (subpaths [.moveBy ⟨0, 0⟩, .implicit (.lineBy ⟨5, 1⟩), .implicit (.lineBy ⟨2, 8⟩), .closePath,
        .lineBy ⟨3, 8⟩]).map Sub.closed = [true, false] := by
  constructor <;> decide +kernel

/-! ### Rounding -/

/-- Rounding to a whole number. -/
def toWhole (x : Rat) : Rat := (x + 1 / 2).floor

/-- `n` steps of 1.4 to the right. -/
def steps : Nat → Rat → List Data
  | 0, _ => []
  | n + 1, x => .lineTo ⟨x + 7 / 5, 0⟩ :: steps n (x + 7 / 5)

theorem toWhole_step (x : Rat) : toWhole (x + 7 / 5) ≠ toWhole x := by
  unfold toWhole
  intro h
  have h' : (x + 7 / 5 + 1 / 2).floor = (x + 1 / 2).floor := by exact_mod_cast h
  have h1 : ((x + 1 / 2).floor + 1 : Int) ≤ (x + 7 / 5 + 1 / 2).floor := by
    rw [Rat.le_floor_iff]
    have := Rat.floor_le (x + 1 / 2)
    have e : (((x + 1 / 2).floor + 1 : Int) : Rat) = ((x + 1 / 2).floor : Rat) + 1 := by
      rw [Rat.intCast_add]; rfl
    rw [e]
    grind
  omega

/-- `h1` is no longer than a command `H`, and neither is `1` after another `h`. -/
def ShortStep (e : Env) : Prop :=
  ∀ prev x, e.size prev (.horizontalBy 1) ≤ e.size prev (.horizontalTo x) ∧
    e.size prev (.implicit (.horizontalBy 1)) ≤ e.size prev (.horizontalTo x)

theorem step_cmd {e : Env} (he : e.rnd = toWhole) (hs : ShortStep e) (prev : Option Cmd) (start : Pt) (x : Rat)
    (hp : prev = none ∨ ∃ c, prev = some c ∧ c.name = .horizontalBy) :
    e.toLine prev start ⟨x, 0⟩ ⟨x + 7 / 5, 0⟩ =
      some (if prev.isSome then .implicit (.horizontalBy 1) else .horizontalBy 1) := by
  have h1 : (⟨x, 0⟩ : Pt) ≠ ⟨x + 7 / 5, 0⟩ := by
    intro h
    simp only [Pt.mk.injEq, and_true] at h
    grind
  have h2 : e.rnd (⟨x + 7 / 5, 0⟩ : Pt).x ≠ e.rnd (⟨x, 0⟩ : Pt).x := by rw [he]; exact toWhole_step x
  have h3 : ((⟨x + 7 / 5, 0⟩ : Pt) - ⟨x, 0⟩).x = 7 / 5 := by simp only [Pt.sub_def]; grind
  have h4 : toWhole (7 / 5) = 1 := by decide +kernel
  unfold Env.toLine
  rw [if_neg h1, if_neg h2, if_pos rfl, h3]
  have hs := hs prev (toWhole (x + 7 / 5))
  rcases hp with rfl | ⟨c, rfl, hc⟩
  · simp [Env.compactest, markImplicit, Cmd.round, he, h4, pick, less, Cmd.isImplicit, Nat.not_lt.2 hs.1]
  · simp [Env.compactest, markImplicit, Cmd.round, he, h4, pick, less, Cmd.isImplicit, Nat.not_lt.2 hs.2, hc, Cmd.name,
      Name.nextImplicit]

theorem segRest_steps {e : Env} (he : e.rnd = toWhole) (hs : ShortStep e) (n : Nat) : ∀ (prev : Cmd) (start : Pt)
    (x : Rat), prev.name = .horizontalBy →
    e.segRest start false prev ⟨x, 0⟩ none (steps n x) = some (List.replicate n (.implicit (.horizontalBy 1)), none) := by
  induction n with
  | zero => intro prev start x h; rfl
  | succ n ih =>
    intro prev start x h
    have hc := step_cmd he hs (some prev) start x (.inr ⟨prev, rfl, h⟩)
    have hr := ih (.implicit (.horizontalBy 1)) start (x + 7 / 5) rfl
    simp only [Option.isSome_some, if_true] at hc
    simp only [steps, Env.segRest, Env.emit, hc, Option.map_some, Option.bind_some, Data.endPoint, hr, Bool.false_and,
      Bool.false_eq_true, if_false, List.cons_append, List.nil_append, List.replicate_succ]

theorem draw_steps (n : Nat) : ∀ (s : Pen) (ops : List Op), ∃ more,
    draw (List.replicate n (.implicit (.horizontalBy 1))) s ops = [⟨s.start, ops ++ more, false⟩] ∧
      more.foldl (fun _ o => o.stop) s.cur = ⟨s.cur.x + n, s.cur.y⟩ := by
  induction n with
  | zero =>
    intro s ops
    refine ⟨[], by simp [draw], ?_⟩
    rcases s with ⟨⟨x, y⟩, _, _, _⟩
    simp only [List.foldl_nil, Pt.mk.injEq, and_true]
    have : ((0 : Nat) : Rat) = 0 := rfl
    rw [this]; grind
  | succ n ih =>
    intro s ops
    obtain ⟨more, h1, h2⟩ := ih ⟨⟨s.cur.x + 1, s.cur.y⟩, s.start, none, none⟩
      (ops ++ [.line s.cur ⟨s.cur.x + 1, s.cur.y⟩])
    refine ⟨.line s.cur ⟨s.cur.x + 1, s.cur.y⟩ :: more, ?_, ?_⟩
    · simp only [List.replicate_succ, draw, act, Op.stop, h1, List.append_assoc, List.cons_append, List.nil_append]
    · have h3 : ((n + 1 : Nat) : Rat) = (n : Rat) + 1 := by rw [Rat.natCast_add]; rfl
      rw [List.foldl_cons]
      refine h2.trans ?_
      simp only [h3, Pt.mk.injEq, and_true]
      grind

theorem steps_end (n : Nat) : ∀ x : Rat, lastEnd ⟨x, 0⟩ (steps n x) = ⟨x + 7 / 5 * n, 0⟩ := by
  induction n with
  | zero =>
    intro x
    simp only [steps, lastEnd, Pt.mk.injEq, and_true]
    have : ((0 : Nat) : Rat) = 0 := rfl
    rw [this]; grind
  | succ n ih =>
    intro x
    simp only [steps, lastEnd, Data.endPoint, ih, Pt.mk.injEq, and_true]
    have : ((n + 1 : Nat) : Rat) = (n : Rat) + 1 := by rw [Rat.natCast_add]; rfl
    rw [this]; grind

/-- **C24 fails (drift).** Relative commands are rounded one by one, against points that are not rounded: `n + 1` steps
of 1.4, written with whole numbers, end at `n + 1` and not at `1.4 (n + 1)`. There is no bound on the error. -/
theorem drift_violated {e : Env} (he : e.rnd = toWhole) (hs : ShortStep e) (n : Nat) :
    ∃ cs u, e.toSvg [⟨⟨0, 0⟩, steps (n + 1) 0, false⟩] = some cs ∧ subpaths cs = [u] ∧
      u.last = ⟨(n + 1 : Nat), 0⟩ ∧ lastEnd ⟨0, 0⟩ (steps (n + 1) 0) = ⟨7 / 5 * (n + 1 : Nat), 0⟩ := by
  have hc := step_cmd he hs none ⟨0, 0⟩ 0 (.inl rfl)
  have hr := segRest_steps he hs n (.horizontalBy 1) ⟨0, 0⟩ (0 + 7 / 5) rfl
  have hw : toWhole 0 = 0 := by decide +kernel
  obtain ⟨more, h1, h2⟩ := draw_steps n ⟨⟨0 + 1, 0⟩, ⟨0, 0⟩, none, none⟩ ([] ++ [.line ⟨0, 0⟩ ⟨0 + 1, 0⟩])
  refine ⟨.moveTo ⟨0, 0⟩ :: .horizontalBy 1 :: List.replicate n (.implicit (.horizontalBy 1)),
    ⟨⟨0, 0⟩, .line ⟨0, 0⟩ ⟨0 + 1, 0⟩ :: more, false⟩, ?_, ?_, ?_, ?_⟩
  · simp only [Env.toSvg, Env.segments, steps, Env.segData, Env.emit, hc, Option.isSome_none, Bool.false_eq_true, if_false,
      Option.map_some, Option.bind_some, Env.withMove, Cmd.name, Data.endPoint, hr, Bool.false_and, Cmd.round, Pt.round,
      he, hw, List.append_nil, List.cons_append, List.nil_append]
  · simp only [subpaths, act, draw, Op.stop, h1]
    simp only [List.nil_append, List.cons_append]
  · have h3 : ((n + 1 : Nat) : Rat) = (n : Rat) + 1 := by rw [Rat.natCast_add]; rfl
    refine h2.trans ?_
    simp only [h3, Pt.mk.injEq, and_true]
    grind
  · rw [steps_end]
    simp only [Pt.mk.injEq, and_true]
    grind

section Examples

/-- A closed triangle, a cubic curve continued smoothly, two quadratic curves and an arc. -/
def sampleSegments : List Segment :=
  [⟨⟨0, 0⟩, [.lineTo ⟨5, 0⟩, .lineTo ⟨5, 5⟩, .lineTo ⟨0, 0⟩], true⟩,
   ⟨⟨10, 0⟩, [.curveTo ⟨10, 5⟩ ⟨13, 1⟩ ⟨15, 5⟩, .curveTo ⟨17, 9⟩ ⟨20, 0⟩ ⟨30, 0⟩, .arcTo ⟨⟨⟨2, 2⟩, 0, true, true⟩, ⟨31, 1⟩⟩],
    false⟩,
   ⟨⟨0, 30⟩, [newQuad ⟨3, 36⟩ ⟨0, 30⟩ ⟨6, 30⟩, newQuad ⟨9, 24⟩ ⟨6, 30⟩ ⟨12, 30⟩], false⟩]

example : sampleEnv.toSvg sampleSegments =
    some [.moveTo ⟨0, 0⟩, .horizontalBy 5, .verticalBy 5, .closePath,
      .moveTo ⟨10, 0⟩, .cubicBy ⟨0, 5⟩ ⟨3, 1⟩ ⟨5, 5⟩, .smoothBy ⟨5, -5⟩ ⟨15, -5⟩, .arcBy ⟨⟨2, 2⟩, 0, true, true⟩ ⟨1, 1⟩,
      .moveTo ⟨0, 30⟩, .quadBy ⟨3, 6⟩ ⟨6, 0⟩, .smoothQuadBy ⟨6, 0⟩] := by decide +kernel

theorem not_isQuad {tol2 : Rat} {p a b q : Pt} (h : quadControl tol2 p a b q = none) (c : Pt) :
    ¬ IsQuad tol2 p a b q c := by
  intro hc
  rw [quadControl_some.2 hc] at h
  cases h

/-- The segments above fit. -/
example : FitsAll sampleEnv.tol2 none sampleSegments := by
  refine .cons (by simp) (.cons ?_ trivial .line (.cons ?_ trivial .line (.cons ?_ trivial .line .nil))) ?_
  · simp [Proper]
  · simp [Proper]; decide
  · simp [Proper]; decide
  refine .cons (by simp) (.cons trivial trivial (.cubic (not_isQuad (by decide +kernel))) (.cons trivial ?_
    (.cubic (not_isQuad (by decide +kernel))) (.cons ?_ trivial .arc .nil))) ?_
  · refine ⟨fun h => absurd h (by simp), fun c' hc => absurd hc (not_isQuad (by decide +kernel) c')⟩
  · simp [Proper, Data.endPoint]
  refine .cons (by simp) (.cons trivial trivial (.quad (c := ⟨3, 36⟩) (quadControl_some.1 (by decide +kernel)))
    (.cons trivial ?_ (.quad (c := ⟨9, 24⟩) (quadControl_some.1 (by decide +kernel))) .nil)) .nil
  exact ⟨by decide +kernel, fun h => absurd h (by simp)⟩

example : sampleEnv.rnd = id ∧ (0 : Rat) ≤ sampleEnv.tol2 := ⟨rfl, by decide +kernel⟩

/-- Rounding to whole numbers, with the count of numbers as length. -/
example : ShortStep ⟨toWhole, 1 / 10000, fun _ c => c.args, fun _ a => a.s, fun _ => ⟨0, 0⟩⟩ := by
  intro prev x
  exact ⟨Nat.le_refl _, Nat.le_refl _⟩

example : AllRight none [.moveBy ⟨0, 0⟩, .implicit (.lineBy ⟨5, 1⟩), .implicit (.lineBy ⟨2, 8⟩), .closePath] :=
  toSvg_letters (e := sampleEnv) (l := [⟨⟨0, 0⟩, [.lineTo ⟨5, 1⟩, .lineTo ⟨7, 9⟩, .lineTo ⟨0, 0⟩], true⟩])
    (by decide +kernel)

end Examples

end Verif.Segment
