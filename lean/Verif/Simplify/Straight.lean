import Verif.Simplify.Join

/-!
# C25: curves that are taken for lines
-/

namespace Verif.Simplify

open Verif.Segment (Pt bezier3 sq_nonneg dist2_nonneg Pt.add_def Pt.sub_def)

variable {A : Type} {g : Geo A} {arc : Arc A → Rat → Pt}

/-! ## Numbers -/

/-- The value between two at `t`. -/
def mix (a b t : Rat) : Rat := (1 - t) * a + t * b

theorem mix_range {a b t D : Rat} (h0 : 0 ≤ t) (h1 : t ≤ 1) (ha : 0 ≤ a) (ha' : a ≤ D) (hb : 0 ≤ b) (hb' : b ≤ D) :
    0 ≤ mix a b t ∧ mix a b t ≤ D := by
  have h2 : 0 ≤ 1 - t := by grind
  have a1 := Rat.mul_le_mul_of_nonneg_left ha' h2
  have a2 := Rat.mul_le_mul_of_nonneg_left hb' h0
  have a3 := Rat.mul_nonneg h2 ha
  have a4 := Rat.mul_nonneg h0 hb
  simp only [mix]
  constructor <;> grind

theorem bezier3_mix (p a b q t : Rat) : bezier3 p a b q t =
    mix (mix (mix p a t) (mix a b t) t) (mix (mix a b t) (mix b q t) t) t := by
  simp only [bezier3, mix]; grind

theorem bezier3_range {a b D t : Rat} (hD : 0 ≤ D) (h0 : 0 ≤ t) (h1 : t ≤ 1) (ha : 0 ≤ a) (ha' : a ≤ D) (hb : 0 ≤ b)
    (hb' : b ≤ D) : 0 ≤ bezier3 0 a b D t ∧ bezier3 0 a b D t ≤ D := by
  rw [bezier3_mix]
  have r {x y : Rat} (hx : 0 ≤ x ∧ x ≤ D) (hy : 0 ≤ y ∧ y ≤ D) := mix_range h0 h1 hx.1 hx.2 hy.1 hy.2
  have z : (0 : Rat) ≤ 0 ∧ (0 : Rat) ≤ D := ⟨Rat.le_refl, hD⟩
  have w : 0 ≤ D ∧ D ≤ D := ⟨hD, Rat.le_refl⟩
  exact r (r (r z ⟨ha, ha'⟩) (r ⟨ha, ha'⟩ ⟨hb, hb'⟩)) (r (r ⟨ha, ha'⟩ ⟨hb, hb'⟩) (r ⟨hb, hb'⟩ w))

/-- A curve between 0 and `D` does not run faster than `3 * D`. -/
theorem bezier3_slow {a b D t s : Rat} (hD : 0 ≤ D) (h0 : 0 ≤ t) (h : t ≤ s) (h1 : s ≤ 1) (ha : 0 ≤ a) (ha' : a ≤ D)
    (hb : 0 ≤ b) (hb' : b ≤ D) : bezier3 0 a b D s - bezier3 0 a b D t ≤ (s - t) * (3 * D) := by
  have h0s : 0 ≤ s := Rat.le_trans h0 h
  have h1t : t ≤ 1 := Rat.le_trans h h1
  have diff (r u : Rat) (r0 : 0 ≤ r) (r1 : r ≤ 1) (u0 : 0 ≤ u) (u1 : u ≤ 1) :
      mix (mix a b r) (mix b D r) u - mix (mix 0 a r) (mix a b r) u ≤ D := by
    have m1 := mix_range r0 r1 ha ha' hb hb'
    have m2 := mix_range r0 r1 hb hb' hD Rat.le_refl
    have m3 := mix_range (b := a) r0 r1 Rat.le_refl hD ha ha'
    have m4 := mix_range u0 u1 m1.1 m1.2 m2.1 m2.2
    have m5 := mix_range u0 u1 m3.1 m3.2 m1.1 m1.2
    grind
  have e : bezier3 0 a b D s - bezier3 0 a b D t = (s - t) *
      ((mix (mix a b s) (mix b D s) s - mix (mix 0 a s) (mix a b s) s) +
      (mix (mix a b t) (mix b D t) s - mix (mix 0 a t) (mix a b t) s) +
      (mix (mix a b t) (mix b D t) t - mix (mix 0 a t) (mix a b t) t)) := by
    simp only [bezier3, mix]; grind
  rw [e]
  apply Rat.mul_le_mul_of_nonneg_left _ (by grind)
  have d1 := diff s s h0s h1 h0s h1
  have d2 := diff t s h0 h1t h0s h1
  have d3 := diff t t h0 h1t h0 h1t
  grind

/-- Values that climb in small steps come near everything between. -/
theorem between (f : Nat → Rat) {y η : Rat} (n : Nat) (h0 : f 0 ≤ y) (hn : y ≤ f n)
    (hs : ∀ k, k < n → f (k + 1) - f k ≤ η) : ∃ k, k ≤ n ∧ f k ≤ y ∧ (k = n ∨ y - η ≤ f k) ∧ (k = n → f k = y) := by
  induction n with
  | zero => exact ⟨0, Nat.le_refl _, h0, .inl rfl, fun _ => Rat.le_antisymm h0 hn⟩
  | succ n ih =>
    by_cases h : f (n + 1) ≤ y
    · exact ⟨n + 1, Nat.le_refl _, h, .inl rfl, fun _ => Rat.le_antisymm h hn⟩
    · by_cases h' : y ≤ f n
      · obtain ⟨k, k1, k2, k3, k4⟩ := ih h' fun k hk => hs k (by omega)
        refine ⟨k, by omega, k2, .inr ?_, fun h => by omega⟩
        rcases k3 with rfl | k3
        · have := hs k (by omega); grind
        · exact k3
      · have := hs n (by omega)
        exact ⟨n, by omega, by grind, .inr (by grind), fun h => by omega⟩

/-! ## Curves beside a line -/

/-- How far a point is along the line from `p` to `q`, times the length of it. -/
def along (p q x : Pt) : Rat := (x.x - p.x) * (q.x - p.x) + (x.y - p.y) * (q.y - p.y)

theorem off_line (p q x : Pt) (u : Rat) : x.dist2 (lineAt p q u) * p.dist2 q =
    cross p q x * cross p q x + (along p q x - u * p.dist2 q) * (along p q x - u * p.dist2 q) := by
  simp only [Pt.dist2, lineAt, cross, along]; grind

theorem cross_cubic (p a b q : Pt) (t : Rat) :
    cross p q (cubicAt p a b q t) = bezier3 0 (cross p q a) (cross p q b) 0 t := by
  simp only [cross, cubicAt, bezier3]; grind

theorem along_cubic (p a b q : Pt) (t : Rat) :
    along p q (cubicAt p a b q t) = bezier3 0 (along p q a) (along p q b) (p.dist2 q) t := by
  simp only [along, cubicAt, bezier3, Pt.dist2]; grind

theorem bezier3_small {a b e t : Rat} (he : 0 ≤ e) (h0 : 0 ≤ t) (h1 : t ≤ 1) (ha : a * a ≤ e) (hb : b * b ≤ e) :
    bezier3 0 a b 0 t * bezier3 0 a b 0 t ≤ e := by
  have h := cubicAt_near (p := ⟨0, 0⟩) (a := ⟨a, 0⟩) (b := ⟨b, 0⟩) (q := ⟨0, 0⟩) (p' := ⟨0, 0⟩) (a' := ⟨0, 0⟩)
    (b' := ⟨0, 0⟩) (q' := ⟨0, 0⟩) (e := e) h0 h1 (by simp only [Pt.dist2]; grind) (by simp only [Pt.dist2]; grind)
    (by simp only [Pt.dist2]; grind) (by simp only [Pt.dist2]; grind)
  simp only [Pt.dist2, cubicAt] at h
  have z : bezier3 0 0 0 0 t = 0 := by simp only [bezier3]; grind
  rw [z] at h
  grind

/-- The controls of a curve are beside the line between its ends, or, if there is hardly such a line, near the start. -/
def Tame (tol : Rat) (p a b q : Pt) : Prop :=
  if p.dist2 q < tol * tol then a.dist2 p ≤ tol * tol ∧ b.dist2 p ≤ tol * tol
  else (0 ≤ along p q a ∧ along p q a ≤ p.dist2 q) ∧ 0 ≤ along p q b ∧ along p q b ≤ p.dist2 q

theorem trace_line (p q : Pt) :
    Trace arc p [.lineTo q] = fun x => ∃ t, 0 ≤ t ∧ t ≤ 1 ∧ x = lineAt p q t := by
  funext x
  simp only [Trace, Data.stop, On, Data.pointAt, eq_iff_iff]
  constructor
  · rintro (rfl | h | rfl)
    · exact ⟨0, by decide, by decide, (lineAt_zero ..).symm⟩
    · exact h
    · exact ⟨1, by decide, by decide, (lineAt_one ..).symm⟩
  · exact fun h => .inr (.inl h)

/-- A rational number whose square is below `ε * ε * D`. -/
theorem small_root {ε D : Rat} (hε : 0 < ε) (hD : 0 < D) : ∃ η, 0 < η ∧ η * η ≤ ε * ε * D := by
  by_cases h : D ≤ 1
  · refine ⟨ε * D, Rat.mul_pos hε hD, ?_⟩
    have h1 := Rat.mul_le_mul_of_nonneg_left h (Rat.le_of_lt hD)
    have h2 := Rat.mul_le_mul_of_nonneg_left h1 (sq_nonneg ε)
    grind
  · refine ⟨ε, hε, ?_⟩
    have h2 := Rat.mul_le_mul_of_nonneg_left (show 1 ≤ D by grind) (sq_nonneg ε)
    grind

theorem archimedes (x : Rat) : ∃ n : Nat, 0 < n ∧ x ≤ n := by
  refine ⟨x.ceil.toNat + 1, by omega, ?_⟩
  have h1 := Rat.le_ceil (x := x)
  have h2 : x.ceil ≤ ((x.ceil.toNat + 1 : Nat) : Int) := by omega
  have h3 : ((x.ceil : Int) : Rat) ≤ (((x.ceil.toNat + 1 : Nat) : Int) : Rat) := Rat.intCast_le_intCast.2 h2
  exact Rat.le_trans h1 (by exact_mod_cast h3)

theorem of_mul_le {a b D : Rat} (hD : 0 < D) (h : a * D ≤ b * D) : a ≤ b := Rat.le_of_mul_le_mul_right h hD

/-- A tame curve that is taken for a line runs near it, and all of the line is near the curve. -/
theorem straight_curve (h0 : 0 ≤ g.tol) {p a b q : Pt} (hs : isStraight g p a b q = true) (ht : Tame g.tol p a b q) :
    Within g.tol (Trace arc p [.curveTo a b q]) (Trace arc p [.lineTo q]) ∧
      ∀ ε, 0 < ε → Within (g.tol + ε) (Trace arc p [.lineTo q]) (Trace arc p [.curveTo a b q]) := by
  rw [trace_curve, trace_line]
  have z (q : Pt) : q.dist2 q ≤ g.tol * g.tol := by rw [Verif.Segment.dist2_self]; exact sq_nonneg _
  unfold Tame at ht
  unfold isStraight at hs
  by_cases hd : p.dist2 q < g.tol2
  · rw [if_pos (show p.dist2 q < g.tol * g.tol from hd)] at ht
    have hq : q.dist2 p ≤ g.tol * g.tol := by rw [dist2_comm]; exact Rat.le_of_lt hd
    constructor
    · rintro x ⟨t, t0, t1, rfl⟩
      refine ⟨p, ⟨0, by decide, by decide, (lineAt_zero ..).symm⟩, ?_⟩
      have := cubicAt_near t0 t1 (z p) ht.1 ht.2 hq
      rwa [cubicAt_self] at this
    · intro ε hε x
      rintro ⟨t, t0, t1, rfl⟩
      refine ⟨p, ⟨0, by decide, by decide, (cubicAt_zero ..).symm⟩, ?_⟩
      have := lineAt_near t0 t1 (z p) hq
      rw [lineAt_self] at this
      exact dist2_mono h0 (by grind) this
  · rw [if_neg (show ¬ p.dist2 q < g.tol * g.tol from hd)] at ht
    rw [if_neg hd] at hs
    simp only [Bool.and_eq_true, decide_eq_true_eq] at hs
    simp only [Geo.tol2] at hs
    obtain ⟨hs1, hs2⟩ := hs
    obtain ⟨⟨ha, ha'⟩, hb, hb'⟩ := ht
    have hD0 := dist2_nonneg p q
    have hD : 0 < p.dist2 q := by
      by_cases h : p.dist2 q = 0
      · exfalso
        rw [h] at hs1
        have := sq_nonneg (cross p q a)
        grind
      · grind
    have hne : p.dist2 q ≠ 0 := by grind
    have hcr (t : Rat) (t0 : 0 ≤ t) (t1 : t ≤ 1) : cross p q (cubicAt p a b q t) * cross p q (cubicAt p a b q t) ≤
        g.tol * g.tol * p.dist2 q := by
      rw [cross_cubic]
      exact bezier3_small (Rat.mul_nonneg (sq_nonneg _) hD0) t0 t1 (Rat.le_of_lt hs1) (Rat.le_of_lt hs2)
    constructor
    · rintro x ⟨t, t0, t1, rfl⟩
      have hr := bezier3_range hD0 t0 t1 ha ha' hb hb'
      rw [← along_cubic] at hr
      refine ⟨_, ⟨along p q (cubicAt p a b q t) / p.dist2 q, div_nonneg hr.1 hD0, div_le_one hD hr.2, rfl⟩, ?_⟩
      apply of_mul_le hD
      rw [off_line]
      have e : along p q (cubicAt p a b q t) / p.dist2 q * p.dist2 q = along p q (cubicAt p a b q t) := by
        generalize p.dist2 q = D at *
        grind
      rw [e]
      have := hcr t t0 t1
      grind
    · intro ε hε x
      rintro ⟨u, u0, u1, rfl⟩
      obtain ⟨η, η0, hη⟩ := small_root hε hD
      obtain ⟨n, n0, hn⟩ := archimedes (3 * p.dist2 q / η)
      have n0' : (0 : Rat) < n := by exact_mod_cast n0
      have step : 3 * p.dist2 q / n ≤ η := by
        generalize p.dist2 q = D at *
        have h1 := Rat.mul_le_mul_of_nonneg_right hn (Rat.le_of_lt η0)
        have h2 : 3 * D / η * η = 3 * D := by
          have : η ≠ 0 := by grind
          grind
        rw [h2] at h1
        apply of_mul_le n0'
        have h3 : 3 * D / n * n = 3 * D := by
          have : (n : Rat) ≠ 0 := by grind
          grind
        rw [h3]
        grind
      have frac (k : Nat) (hk : k ≤ n) : 0 ≤ (k : Rat) / n ∧ (k : Rat) / n ≤ 1 :=
        ⟨div_nonneg (by exact_mod_cast Nat.zero_le k) (Rat.le_of_lt n0'), div_le_one n0' (by exact_mod_cast hk)⟩
      obtain ⟨k, k1, k2, k3, k4⟩ := between (y := u * p.dist2 q) (η := η)
        (fun k => bezier3 0 (along p q a) (along p q b) (p.dist2 q) ((k : Rat) / n)) n
        (by
          have e : ((0 : Nat) : Rat) / n = 0 := by grind
          simp only [e]
          have e' : bezier3 0 (along p q a) (along p q b) (p.dist2 q) 0 = 0 := by simp only [bezier3]; grind
          rw [e']
          exact Rat.mul_nonneg u0 hD0)
        (by
          have e : (n : Rat) / n = 1 := by
            have : (n : Rat) ≠ 0 := by grind
            grind
          simp only [e]
          have e' : bezier3 0 (along p q a) (along p q b) (p.dist2 q) 1 = p.dist2 q := by
            generalize p.dist2 q = D
            simp only [bezier3]; grind
          rw [e']
          have := Rat.mul_le_mul_of_nonneg_right u1 hD0
          grind)
        (by
          intro k hk
          have f1 := frac k (by omega)
          have f2 := frac (k + 1) (by omega)
          have e : ((k + 1 : Nat) : Rat) / n - (k : Rat) / n = 1 / n := by rw [Rat.natCast_add]; grind
          have le : (k : Rat) / n ≤ ((k + 1 : Nat) : Rat) / n := by
            have : 0 ≤ (1 : Rat) / n := div_nonneg (by decide) (Rat.le_of_lt n0')
            grind
          have s := bezier3_slow hD0 f1.1 le f2.2 ha ha' hb hb'
          rw [e] at s
          refine Rat.le_trans s ?_
          have : 1 / (n : Rat) * (3 * p.dist2 q) = 3 * p.dist2 q / n := by
            generalize p.dist2 q = D
            grind
          rw [this]
          exact step)
      have fk := frac k k1
      refine ⟨_, ⟨(k : Rat) / n, fk.1, fk.2, rfl⟩, ?_⟩
      rw [dist2_comm]
      apply of_mul_le hD
      rw [off_line, along_cubic]
      have c := hcr _ fk.1 fk.2
      have near : (bezier3 0 (along p q a) (along p q b) (p.dist2 q) ((k : Rat) / n) - u * p.dist2 q) *
          (bezier3 0 (along p q a) (along p q b) (p.dist2 q) ((k : Rat) / n) - u * p.dist2 q) ≤ ε * ε * p.dist2 q := by
        refine Rat.le_trans ?_ hη
        generalize bezier3 0 (along p q a) (along p q b) (p.dist2 q) ((k : Rat) / n) = v at *
        generalize u * p.dist2 q = y at *
        have : y - v ≤ η := by
          rcases k3 with h | h
          · have := k4 h; grind
          · grind
        have h := mul_self_le (a := y - v) (b := η) (by grind) this
        grind
      have cr := Rat.mul_nonneg (Rat.mul_nonneg h0 (Rat.le_of_lt hε)) hD0
      generalize cross p q (cubicAt p a b q (↑k / ↑n)) = w at *
      generalize bezier3 0 (along p q a) (along p q b) (p.dist2 q) ((k : Rat) / n) - u * p.dist2 q = v at *
      generalize p.dist2 q = D at *
      grind

/-! ## The pass -/

/-- Curves and arcs that are taken for lines are beside them. -/
def Mild (g : Geo A) (arc : Arc A → Rat → Pt) (p : Pt) : List (Data A) → Prop
  | [] => True
  | d :: ds => (match d with
      | .lineTo _ => True
      | .curveTo a b q => isStraight g p a b q = true → Tame g.tol p a b q
      | .arcTo a => g.straight a = true → Close g.tol (Trace arc p [.arcTo a]) (Trace arc p [.lineTo a.stop])) ∧
    Mild g arc d.stop ds

theorem straightStep_stop (first : Bool) (c : Chain) (p : Pt) (d : Data A) :
    (straightStep g first c p d).1.stop = d.stop := by
  cases d with
  | lineTo q => rfl
  | curveTo a b q => simp only [straightStep]; split <;> rfl
  | arcTo a => simp only [straightStep]; split <;> rfl

theorem straightData_last (ds : List (Data A)) (first : Bool) (c : Chain) (p : Pt) :
    last p (straightData g first c p ds).1 = last p ds := by
  induction ds generalizing first c p with
  | nil => rfl
  | cons d ds ih =>
    simp only [straightData, last, straightStep_stop]
    exact ih ..

theorem straightData_stops (ds : List (Data A)) (first : Bool) (c : Chain) (p : Pt) :
    (straightData g first c p ds).1.map Data.stop = ds.map Data.stop := by
  induction ds generalizing first c p with
  | nil => rfl
  | cons d ds ih => simp only [straightData, List.map_cons, straightStep_stop, ih]

theorem straightData_close {ε : Rat} (h0 : 0 ≤ g.tol) (hε : 0 < ε) (ds : List (Data A)) (first : Bool) (c : Chain)
    (p : Pt) (hm : Mild g arc p ds) :
    Close (g.tol + ε) (Trace arc p ds) (Trace arc p (straightData g first c p ds).1) := by
  induction ds generalizing first c p with
  | nil => exact .refl _
  | cons d ds ih =>
    obtain ⟨h1, h2⟩ := hm
    have hle : g.tol ≤ g.tol + ε := by grind
    have step : Close (g.tol + ε) (Trace arc p [d]) (Trace arc p [(straightStep g first c p d).1]) := by
      cases d with
      | lineTo q => exact .refl _
      | curveTo a b q =>
        simp only [straightStep]
        split
        · rename_i h
          simp only [Bool.and_eq_true] at h
          have k := straight_curve (arc := arc) h0 h.2 (h1 h.2)
          exact ⟨k.1.mono h0 hle, k.2 ε hε⟩
        · exact .refl _
      | arcTo a =>
        simp only [straightStep]
        split
        · rename_i h
          exact (h1 h).mono h0 hle
        · exact .refl _
    have e (d : Data A) (l : List (Data A)) :
        Trace arc p (d :: l) = fun x => Trace arc p [d] x ∨ Trace arc d.stop l x := by
      funext x
      exact propext (trace_append p [d] l x)
    simp only [straightData]
    rw [e d ds, e _ (straightData g false _ _ ds).1, straightStep_stop]
    exact step.or (ih _ _ _ h2)

/-- **C25 (`StraightCurves`), for curves that are taken for lines only where their controls are beside the line, and for
arcs of which the same is known.** What is stroked moves by no more than (anything above) the tolerance. Missing are
curves that come back to where they begin (`loop_violated`) or go beyond their ends (`overshoot_violated`), and
arcs. -/
theorem straightCurves_partial {ε : Rat} (h0 : 0 ≤ g.tol) (hε : 0 < ε) (l : List (Segment A)) (c : Chain)
    (hm : ∀ s ∈ l, Mild g arc s.start s.data) : AllClose (g.tol + ε) (Stroke arc) l (straightCurves g c l) := by
  induction l generalizing c with
  | nil => exact .nil
  | cons s l ih =>
    simp only [straightCurves]
    refine .cons rfl (Close.or (straightData_close h0 hε _ _ _ _ (hm s (.head _))) ?_)
      (ih _ fun s hs => hm s (.tail _ hs))
    unfold Closing
    simp only [straightData_last]
    exact .refl _

/-- **C25 (`StraightCurves`).** Segments begin and end at the same points, closed or not as before, with as many
commands, whose ends are the same. -/
theorem straightCurves_ends (l : List (Segment A)) (c : Chain) :
    (straightCurves g c l).map (fun s => (s.start, s.data.map Data.stop, s.closed)) =
      l.map (fun s => (s.start, s.data.map Data.stop, s.closed)) := by
  induction l generalizing c with
  | nil => rfl
  | cons s l ih =>
    simp only [straightCurves, List.map_cons, ih, straightData_stops]

/-- The options that are on by default and look at commands, not at arcs. -/
def defaults : Passes :=
  { close := false, join := true, empty := true, noop := true, closeLine := false, straight := true, arcs := false }

/-- **C25 fails (`StraightCurves`).** A loop is taken for a line without length and vanishes altogether, of whatever
size it is: here one that reaches to `3/4 * r` above its start. -/
theorem loop_violated (ht : 0 < g.tol) (r : Rat) :
    optimize g defaults [⟨⟨0, 0⟩, [.curveTo ⟨r, r⟩ ⟨-r, r⟩ ⟨0, 0⟩], false⟩] = [] ∧
    Trace arc ⟨0, 0⟩ [.curveTo ⟨r, r⟩ ⟨-r, r⟩ ⟨0, 0⟩] ⟨0, 3 / 4 * r⟩ := by
  have hpos : (0 : Rat) < g.tol * g.tol := Rat.mul_pos ht ht
  have z : Pt.dist2 ⟨0, 0⟩ ⟨0, 0⟩ < g.tol2 := by simp only [Pt.dist2, Geo.tol2]; grind
  constructor
  · simp [optimize, defaults, onlyIf, simplify, straightCurves, straightData, straightStep, isOptimal, isStraight, z,
      removeNoop, removeNoopData, isZero, joinNodes, joinData, removeEmpty, popClosing]
  · refine .inr (.inl ⟨1 / 2, by decide +kernel, by decide +kernel, ?_⟩)
    simp only [Data.pointAt, cubicAt, bezier3, Pt.mk.injEq]
    constructor <;> grind

/-- **C25 fails (`StraightCurves`).** Of a curve that goes back and forth on a line what is beyond its ends is lost, of
whatever length it is. -/
theorem overshoot_violated (ht : 0 < g.tol) (ht1 : g.tol ≤ 1) (r : Rat) :
    straightCurves g ⟨false, none⟩ [(⟨⟨0, 0⟩, [.curveTo ⟨4 * r, 0⟩ ⟨4 * r, 0⟩ ⟨1, 0⟩], false⟩ : Segment A)] =
      [⟨⟨0, 0⟩, [.lineTo ⟨1, 0⟩], false⟩] ∧
    Trace arc ⟨0, 0⟩ [.curveTo ⟨4 * r, 0⟩ ⟨4 * r, 0⟩ ⟨1, 0⟩] ⟨3 * r + 1 / 8, 0⟩ ∧
    ∀ x, Trace arc ⟨0, 0⟩ [.lineTo ⟨1, 0⟩] x → x.x ≤ 1 := by
  have hpos : (0 : Rat) < g.tol * g.tol := Rat.mul_pos ht ht
  have h1 : g.tol * g.tol ≤ 1 * 1 := mul_self_le (Rat.le_of_lt ht) ht1
  refine ⟨?_, ?_, ?_⟩
  · have z : ¬ Pt.dist2 ⟨0, 0⟩ ⟨1, 0⟩ < g.tol2 := by simp only [Pt.dist2, Geo.tol2]; grind
    have c : cross ⟨0, 0⟩ ⟨1, 0⟩ ⟨4 * r, 0⟩ = 0 := by simp only [cross]; grind
    have k : (0 : Rat) * 0 < g.tol2 * Pt.dist2 ⟨0, 0⟩ ⟨1, 0⟩ := by simp only [Pt.dist2, Geo.tol2]; grind
    have s : isStraight g ⟨0, 0⟩ ⟨4 * r, 0⟩ ⟨4 * r, 0⟩ ⟨1, 0⟩ = true := by
      simp only [isStraight, if_neg z, c, k, decide_true, Bool.and_self]
    simp [straightCurves, straightData, straightStep, isOptimal, s]
  · refine .inr (.inl ⟨1 / 2, by decide +kernel, by decide +kernel, ?_⟩)
    simp only [Data.pointAt, cubicAt, bezier3, Pt.mk.injEq]
    constructor <;> grind
  · intro x hx
    rw [trace_line] at hx
    obtain ⟨t, h0, h1, rfl⟩ := hx
    simp only [lineAt]; grind

end Verif.Simplify
