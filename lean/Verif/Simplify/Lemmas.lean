import Verif.Simplify.Spec
import Verif.Segment.ToProps

/-!
# Lemmas for C25
-/

namespace Verif.Simplify

open Verif.Segment (Pt bezier3 sq_nonneg dist2_nonneg Pt.add_def Pt.sub_def)

variable {A : Type} {g : Geo A} {arc : Arc A → Rat → Pt}

/-! ## Distances -/

theorem mul_self_le {a b : Rat} (ha : 0 ≤ a) (h : a ≤ b) : a * a ≤ b * b := by
  have h1 := Rat.mul_le_mul_of_nonneg_left h ha
  have h2 := Rat.mul_le_mul_of_nonneg_right h (Rat.le_trans ha h)
  grind

theorem le_of_sq {a b : Rat} (hb : 0 ≤ b) (h : a * a ≤ b * b) : a ≤ b := by
  rcases Rat.le_total (a := a) (b := b) with h' | h'
  · exact h'
  · have h1 := Rat.mul_le_mul_of_nonneg_left h' hb
    have h2 := Rat.mul_le_mul_of_nonneg_right h' (Rat.le_trans hb h')
    have h3 : a * a = b * b := Rat.le_antisymm h (Rat.le_trans h1 h2)
    have h4 : (a - b) * (a + b) = 0 := by grind
    rcases Rat.mul_eq_zero.1 h4 with h5 | h5 <;> grind

theorem cauchy {a b c d α β : Rat} (hα : 0 ≤ α) (hβ : 0 ≤ β) (h1 : a * a + b * b ≤ α * α)
    (h2 : c * c + d * d ≤ β * β) : a * c + b * d ≤ α * β := by
  apply le_of_sq (Rat.mul_nonneg hα hβ)
  have h3 := sq_nonneg (a * d - b * c)
  have h4 : 0 ≤ c * c + d * d := by have := sq_nonneg c; have := sq_nonneg d; grind
  have h5 := Rat.mul_le_mul_of_nonneg_right h1 h4
  have h6 := Rat.mul_le_mul_of_nonneg_left h2 (Rat.mul_nonneg hα hα)
  grind

theorem triangle {x y z : Pt} {α β : Rat} (hα : 0 ≤ α) (hβ : 0 ≤ β) (h1 : x.dist2 y ≤ α * α)
    (h2 : y.dist2 z ≤ β * β) : x.dist2 z ≤ (α + β) * (α + β) := by
  simp only [Pt.dist2] at *
  have := cauchy hα hβ h1 h2
  grind

theorem dist2_comm (x y : Pt) : x.dist2 y = y.dist2 x := by simp only [Pt.dist2]; grind

theorem dist2_mono {x y : Pt} {α β : Rat} (hα : 0 ≤ α) (h : α ≤ β) (h1 : x.dist2 y ≤ α * α) :
    x.dist2 y ≤ β * β := Rat.le_trans h1 (mul_self_le hα h)

/-- Lines between near points are near at every `t`. -/
theorem lineAt_near {p q p' q' : Pt} {e t : Rat} (h0 : 0 ≤ t) (h1 : t ≤ 1) (hp : p.dist2 p' ≤ e)
    (hq : q.dist2 q' ≤ e) : (lineAt p q t).dist2 (lineAt p' q' t) ≤ e := by
  simp only [Pt.dist2, lineAt] at *
  have h2 : 0 ≤ 1 - t := by grind
  have a1 := Rat.mul_le_mul_of_nonneg_left hp h2
  have a2 := Rat.mul_le_mul_of_nonneg_left hq h0
  have a3 := Rat.mul_nonneg (Rat.mul_nonneg h0 h2) (sq_nonneg (p.x - p'.x - (q.x - q'.x)))
  have a4 := Rat.mul_nonneg (Rat.mul_nonneg h0 h2) (sq_nonneg (p.y - p'.y - (q.y - q'.y)))
  grind

theorem cubicAt_eq (p a b q : Pt) (t : Rat) : cubicAt p a b q t =
    lineAt (lineAt (lineAt p a t) (lineAt a b t) t) (lineAt (lineAt a b t) (lineAt b q t) t) t := by
  simp only [cubicAt, lineAt, bezier3, Pt.mk.injEq]; constructor <;> grind

/-- Curves with near control points are near at every `t`. -/
theorem cubicAt_near {p a b q p' a' b' q' : Pt} {e t : Rat} (h0 : 0 ≤ t) (h1 : t ≤ 1) (hp : p.dist2 p' ≤ e)
    (ha : a.dist2 a' ≤ e) (hb : b.dist2 b' ≤ e) (hq : q.dist2 q' ≤ e) :
    (cubicAt p a b q t).dist2 (cubicAt p' a' b' q' t) ≤ e := by
  rw [cubicAt_eq, cubicAt_eq]
  have n {x y x' y' : Pt} := @lineAt_near x y x' y' e t h0 h1
  exact n (n (n hp ha) (n ha hb)) (n (n ha hb) (n hb hq))

theorem lineAt_self (p : Pt) (t : Rat) : lineAt p p t = p := by
  simp only [lineAt]; cases p; simp only [Pt.mk.injEq]; constructor <;> grind

theorem cubicAt_self (p : Pt) (t : Rat) : cubicAt p p p p t = p := by
  rw [cubicAt_eq]; simp only [lineAt_self]

theorem lineAt_zero (p q : Pt) : lineAt p q 0 = p := by
  simp only [lineAt]; cases p; simp only [Pt.mk.injEq]; constructor <;> grind

theorem lineAt_one (p q : Pt) : lineAt p q 1 = q := by
  simp only [lineAt]; cases q; simp only [Pt.mk.injEq]; constructor <;> grind

/-! ## Sets of points -/

theorem Within.refl {ε : Rat} (a : Pt → Prop) : Within ε a a := fun x h =>
  ⟨x, h, by rw [Verif.Segment.dist2_self]; exact sq_nonneg ε⟩

theorem Within.trans {α β : Rat} (hα : 0 ≤ α) (hβ : 0 ≤ β) {a b c : Pt → Prop} (h1 : Within α a b)
    (h2 : Within β b c) : Within (α + β) a c := fun x h => by
  obtain ⟨y, hy, d1⟩ := h1 x h
  obtain ⟨z, hz, d2⟩ := h2 y hy
  exact ⟨z, hz, triangle hα hβ d1 d2⟩

theorem Close.refl {ε : Rat} (a : Pt → Prop) : Close ε a a := ⟨.refl a, .refl a⟩

theorem Close.symm {ε : Rat} {a b : Pt → Prop} (h : Close ε a b) : Close ε b a := ⟨h.2, h.1⟩

theorem Close.trans {α β : Rat} (hα : 0 ≤ α) (hβ : 0 ≤ β) {a b c : Pt → Prop} (h1 : Close α a b)
    (h2 : Close β b c) : Close (α + β) a c :=
  ⟨h1.1.trans hα hβ h2.1, by have := h2.2.trans hβ hα h1.2; rwa [Rat.add_comm β α] at this⟩

theorem Within.mono {α β : Rat} (hα : 0 ≤ α) (h : α ≤ β) {a b : Pt → Prop} (h1 : Within α a b) : Within β a b :=
  fun x hx => by
    obtain ⟨y, hy, d⟩ := h1 x hx
    exact ⟨y, hy, dist2_mono hα h d⟩

theorem Close.mono {α β : Rat} (hα : 0 ≤ α) (h : α ≤ β) {a b : Pt → Prop} (h1 : Close α a b) : Close β a b :=
  ⟨h1.1.mono hα h, h1.2.mono hα h⟩

theorem Within.or {ε : Rat} {a b c d : Pt → Prop} (h1 : Within ε a b) (h2 : Within ε c d) :
    Within ε (fun x => a x ∨ c x) (fun x => b x ∨ d x) := by
  rintro x (h | h)
  · obtain ⟨y, hy, e⟩ := h1 x h; exact ⟨y, .inl hy, e⟩
  · obtain ⟨y, hy, e⟩ := h2 x h; exact ⟨y, .inr hy, e⟩

theorem Close.or {ε : Rat} {a b c d : Pt → Prop} (h1 : Close ε a b) (h2 : Close ε c d) :
    Close ε (fun x => a x ∨ c x) (fun x => b x ∨ d x) := ⟨h1.1.or h2.1, h1.2.or h2.2⟩

/-- Sets that are at distance nothing are equal. -/
theorem Close.eq {a b : Pt → Prop} (h : Close 0 a b) (x : Pt) : a x ↔ b x := by
  have key : ∀ {a b : Pt → Prop}, Within 0 a b → ∀ x, a x → b x := by
    intro a b h x hx
    obtain ⟨y, hy, d⟩ := h x hx
    have e : x = y := by
      have h1 := sq_nonneg (x.x - y.x)
      have h2 := sq_nonneg (x.y - y.y)
      simp only [Pt.dist2] at d
      have h3 : (x.x - y.x) * (x.x - y.x) = 0 := by grind
      have h4 : (x.y - y.y) * (x.y - y.y) = 0 := by grind
      rcases x with ⟨xx, xy⟩
      rcases y with ⟨yx, yy⟩
      simp only [Pt.mk.injEq]
      rcases Rat.mul_eq_zero.1 h3 with h5 | h5 <;> rcases Rat.mul_eq_zero.1 h4 with h6 | h6 <;>
        simp only at h5 h6 <;> constructor <;> grind
    exact e ▸ hy
  exact ⟨key h.1 x, key h.2 x⟩

/-! ## Traces -/

theorem trace_start (p : Pt) (ds : List (Data A)) : Trace arc p ds p := by
  cases ds with
  | nil => rfl
  | cons d ds => exact .inl rfl

theorem last_append (p : Pt) (ds es : List (Data A)) : last p (ds ++ es) = last (last p ds) es := by
  induction ds generalizing p with
  | nil => rfl
  | cons d ds ih => exact ih d.stop

theorem trace_snoc (p : Pt) (ds : List (Data A)) (d : Data A) (x : Pt) :
    Trace arc p (ds ++ [d]) x ↔ Trace arc p ds x ∨ On arc (last p ds) d x ∨ x = d.stop := by
  induction ds generalizing p with
  | nil => simp only [List.nil_append, Trace, last]
  | cons e ds ih =>
    simp only [List.cons_append, Trace, last, ih, or_assoc]

/-- A command from a point nearby draws points nearby. -/
theorem on_near {p p' : Pt} {e : Rat} (he : 0 ≤ e) (h : p.dist2 p' ≤ e * e) (d : Data A) :
    Close e (On arc p d) (On arc p' d) := by
  have z (q : Pt) : q.dist2 q ≤ e * e := by rw [Verif.Segment.dist2_self]; exact sq_nonneg e
  have key : ∀ {p p' : Pt}, p.dist2 p' ≤ e * e → Within e (On arc p d) (On arc p' d) := by
    rintro p p' h x ⟨t, h0, h1, rfl⟩
    cases d with
    | lineTo q => exact ⟨_, ⟨t, h0, h1, rfl⟩, lineAt_near h0 h1 h (z q)⟩
    | curveTo a b q => exact ⟨_, ⟨t, h0, h1, rfl⟩, cubicAt_near h0 h1 h (z a) (z b) (z q)⟩
    | arcTo a => exact ⟨_, ⟨t, h0, h1, rfl⟩, z _⟩
  exact ⟨key h, key (by rwa [dist2_comm])⟩

theorem closing_near {p p' q q' : Pt} {e : Rat} (h : p.dist2 p' ≤ e * e) (h' : q.dist2 q' ≤ e * e) :
    Within e (fun x => ∃ t, 0 ≤ t ∧ t ≤ 1 ∧ x = lineAt p q t) (fun x => ∃ t, 0 ≤ t ∧ t ≤ 1 ∧ x = lineAt p' q' t) := by
  rintro x ⟨t, h0, h1, rfl⟩
  exact ⟨_, ⟨t, h0, h1, rfl⟩, lineAt_near h0 h1 h h'⟩

/-! ## Commands without extent -/

/-- The arcs that are dropped have no extent. -/
def ArcsTiny (g : Geo A) (arc : Arc A → Rat → Pt) (ds : List (Data A)) : Prop :=
  ∀ a, .arcTo a ∈ ds → ∀ p, isZero g p (.arcTo a) = true → Tiny arc g.tol p (.arcTo a)

theorem zero_near {p : Pt} {d : Data A} {ds : List (Data A)} (hd : d ∈ ds) (ha : ArcsTiny g arc ds)
    (h : isZero g p d = true) {x : Pt} (hx : On arc p d x) : x.dist2 p ≤ g.tol * g.tol := by
  obtain ⟨t, h0, h1, rfl⟩ := hx
  have z : p.dist2 p ≤ g.tol * g.tol := by rw [Verif.Segment.dist2_self]; exact sq_nonneg _
  cases d with
  | lineTo q =>
    have h : q.dist2 p < g.tol2 := of_decide_eq_true h
    have := lineAt_near (p' := p) (q' := p) h0 h1 z (Rat.le_of_lt h)
    rwa [lineAt_self] at this
  | curveTo a b q =>
    simp only [isZero, Bool.and_eq_true, decide_eq_true_eq] at h
    have := cubicAt_near (p' := p) (a' := p) (b' := p) (q' := p) h0 h1 z (Rat.le_of_lt h.1.1) (Rat.le_of_lt h.1.2)
      (Rat.le_of_lt h.2)
    rwa [cubicAt_self] at this
  | arcTo a => exact ha a hd p h t h0 h1

theorem zero_stop {p : Pt} {d : Data A} (h : isZero g p d = true) : p.dist2 d.stop ≤ g.tol * g.tol := by
  rw [dist2_comm]
  cases d with
  | lineTo q => exact Rat.le_of_lt (of_decide_eq_true h)
  | curveTo a b q =>
    simp only [isZero, Bool.and_eq_true, decide_eq_true_eq] at h
    exact Rat.le_of_lt h.2
  | arcTo a =>
    simp only [isZero, Bool.and_eq_true, decide_eq_true_eq] at h
    exact Rat.le_of_lt h.2

theorem noop_trace (h0 : 0 ≤ g.tol) (r : Nat) (ds : List (Data A)) (ha : ArcsTiny g arc ds) (p p' : Pt) (j : Nat)
    (hp : p.dist2 p' ≤ (j * g.tol) * (j * g.tol)) (hr : Runs (isZero g) r j p ds) :
    Close (r * g.tol) (Trace arc p ds) (Trace arc p' (removeNoopData g p ds)) ∧
      (last p ds).dist2 (last p' (removeNoopData g p ds)) ≤ (r * g.tol) * (r * g.tol) := by
  have pos (n : Nat) : 0 ≤ (n : Rat) * g.tol := Rat.mul_nonneg (by exact_mod_cast Nat.zero_le n) h0
  have mono {n m : Nat} (h : n ≤ m) : (n : Rat) * g.tol ≤ m * g.tol :=
    Rat.mul_le_mul_of_nonneg_right (by exact_mod_cast h) h0
  induction ds generalizing p p' j with
  | nil =>
    have hj : j ≤ r := hr
    have := dist2_mono (pos j) (mono hj) hp
    refine ⟨⟨?_, ?_⟩, this⟩
    · rintro x rfl; exact ⟨p', rfl, this⟩
    · rintro x rfl; exact ⟨p, rfl, by rwa [dist2_comm]⟩
  | cons d ds ih =>
    have ha' : ArcsTiny g arc ds := fun a h => ha a (.tail _ h)
    obtain ⟨hj, hr⟩ := hr
    have hpr := dist2_mono (pos j) (mono hj) hp
    have plus : ((j + 1 : Nat) : Rat) * g.tol = g.tol + j * g.tol := by
      rw [Rat.natCast_add]; grind
    by_cases hz : isZero g p d = true
    · rw [if_pos hz] at hr
      have hj' : j + 1 ≤ r := by
        cases ds with
        | nil => exact hr
        | cons => exact hr.1
      have hstop : d.stop.dist2 p' ≤ ((j + 1 : Nat) * g.tol) * ((j + 1 : Nat) * g.tol) := by
        rw [plus]
        exact triangle h0 (pos j) (by rw [dist2_comm]; exact zero_stop hz) hp
      obtain ⟨⟨i1, i2⟩, i3⟩ := ih ha' d.stop p' (j + 1) hstop hr
      simp only [removeNoopData, if_pos hz, Trace, last]
      refine ⟨⟨?_, ?_⟩, i3⟩
      · rintro x (rfl | h | h)
        · exact ⟨p', trace_start _ _, hpr⟩
        · refine ⟨p', trace_start _ _, dist2_mono (pos (j + 1)) (mono hj') ?_⟩
          rw [plus]
          exact triangle h0 (pos j) (zero_near (.head _) ha hz h) hp
        · exact i1 x h
      · intro x h
        obtain ⟨y, hy, e⟩ := i2 x h
        exact ⟨y, .inr (.inr hy), e⟩
    · rw [if_neg hz] at hr
      have h00 : d.stop.dist2 d.stop ≤ ((0 : Nat) * g.tol) * ((0 : Nat) * g.tol) := by
        rw [Verif.Segment.dist2_self]; exact sq_nonneg _
      obtain ⟨i1, i3⟩ := ih ha' d.stop d.stop 0 h00 hr
      simp only [removeNoopData, if_neg hz, last]
      refine ⟨?_, i3⟩
      have s : Close (r * g.tol) (fun x => x = p) (fun x => x = p') :=
        ⟨by rintro x rfl; exact ⟨p', rfl, hpr⟩, by rintro x rfl; exact ⟨p, rfl, by rwa [dist2_comm]⟩⟩
      exact s.or ((on_near (pos r) hpr d).or i1)

theorem popIf_eq {B : Type} (f : B → Bool) (l : List B) :
    popIf f l = l ∨ ∃ m z, l = m ++ [z] ∧ f z = true ∧ popIf f l = m := by
  rcases l.eq_nil_or_concat with rfl | ⟨m, z, rfl⟩
  · exact .inl rfl
  · simp only [popIf, List.getLast?_concat, List.concat_eq_append]
    by_cases h : f z = true
    · right; refine ⟨m, z, rfl, h, ?_⟩; simp [h]
    · left; simp [h]

/-- A last line to the start may be left to the closing line. -/
theorem drop_last {p q : Pt} {m : List (Data A)} {e : Rat} (h : q.dist2 p ≤ e * e) :
    Close e (fun x => Trace arc p (m ++ [.lineTo q]) x ∨ ∃ t, 0 ≤ t ∧ t ≤ 1 ∧ x = lineAt q p t)
      (fun x => Trace arc p m x ∨ ∃ t, 0 ≤ t ∧ t ≤ 1 ∧ x = lineAt (last p m) p t) := by
  have z (q : Pt) : q.dist2 q ≤ e * e := by rw [Verif.Segment.dist2_self]; exact sq_nonneg e
  constructor
  · rintro x (hx | ⟨t, h0, h1, rfl⟩)
    · rcases (trace_snoc ..).1 hx with hx | ⟨t, h0, h1, rfl⟩ | rfl
      · exact ⟨x, .inl hx, z x⟩
      · exact ⟨_, .inr ⟨t, h0, h1, rfl⟩, lineAt_near h0 h1 (z _) h⟩
      · exact ⟨p, .inl (trace_start _ _), h⟩
    · refine ⟨p, .inl (trace_start _ _), ?_⟩
      have := lineAt_near (p' := p) (q' := p) h0 h1 h (z p)
      rwa [lineAt_self] at this
  · rintro x (hx | ⟨t, h0, h1, rfl⟩)
    · exact ⟨x, .inl ((trace_snoc ..).2 (.inl hx)), z x⟩
    · exact ⟨_, .inl ((trace_snoc ..).2 (.inr (.inl ⟨t, h0, h1, rfl⟩))),
        lineAt_near h0 h1 (z _) (by rwa [dist2_comm])⟩

end Verif.Simplify
