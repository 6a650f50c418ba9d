import Verif.Gjk.Search
import Verif.Gjk.Spec

/-! # Hulls, boxes and what is drawn -/

namespace Verif.Gjk

variable {K A : Type} [Field K] [LinearOrder K] [IsStrictOrderedRing K]

/-- Points on the side of a line. -/
theorem half_convex (d : Pt K) (m : K) : Convex K {x : Pt K | x.1 * d.1 + x.2 * d.2 ≤ m} := by
  intro x hx y hy a b ha hb hab
  simp only [Set.mem_setOf_eq, Prod.fst_add, Prod.snd_add, Prod.smul_fst, Prod.smul_snd, smul_eq_mul] at *
  have h1 := mul_le_mul_of_nonneg_left hx ha
  have h2 := mul_le_mul_of_nonneg_left hy hb
  have : m = a * m + b * m := by rw [← add_mul, hab, one_mul]
  nlinarith

theorem half_convex' (d : Pt K) (m : K) : Convex K {x : Pt K | m ≤ x.1 * d.1 + x.2 * d.2} := by
  intro x hx y hy a b ha hb hab
  simp only [Set.mem_setOf_eq, Prod.fst_add, Prod.snd_add, Prod.smul_fst, Prod.smul_snd, smul_eq_mul] at *
  have h1 := mul_le_mul_of_nonneg_left hx ha
  have h2 := mul_le_mul_of_nonneg_left hy hb
  have : m = a * m + b * m := by rw [← add_mul, hab, one_mul]
  nlinarith

/-- A line between sets is between their convex hulls. -/
theorem Apart.hull {s t : Set (Pt K)} (h : Apart s t) : Apart (_root_.convexHull K s) (_root_.convexHull K t) := by
  obtain ⟨d, hd, h⟩ := h
  refine ⟨d, hd, fun x hx y hy => ?_⟩
  have h1 : ∀ y ∈ t, x.1 * d.1 + x.2 * d.2 ≤ y.1 * d.1 + y.2 * d.2 := fun y hy =>
    convexHull_min (fun z hz => h z hz y hy) (half_convex d (y.1 * d.1 + y.2 * d.2)) hx
  exact convexHull_min (fun z hz => h1 z hz) (half_convex' d (x.1 * d.1 + x.2 * d.2)) hy

theorem Apart.mono {s t s' t' : Set (Pt K)} (h : Apart s t) (hs : s' ⊆ s) (ht : t' ⊆ t) : Apart s' t' := by
  obtain ⟨d, hd, h⟩ := h
  exact ⟨d, hd, fun x hx y hy => h x (hs hx) y (ht hy)⟩

theorem Apart.symm {s t : Set (Pt K)} (h : Apart s t) : Apart t s := by
  obtain ⟨d, hd, h⟩ := h
  refine ⟨-d, by simpa using hd, fun x hx y hy => ?_⟩
  have := h y hy x hx
  simp only [Prod.fst_neg, Prod.snd_neg]
  linarith

/-! ## The outline is covered by the points of `nest` -/

theorem on_line_hull {on : A → Pt K → Prop} {p q x : Pt K} {C : Set (Pt K)} (hC : Convex K C) (hp : p ∈ C) (hq : q ∈ C)
    (h : (Data.lineTo q : Data K A).On on p x) : x ∈ C := by
  obtain ⟨t, h0, h1, e1, e2⟩ := h
  have : x = (1 - t) • p + t • q := Prod.ext (by simpa using e1) (by simpa using e2)
  rw [this]
  exact hC hp hq (by linarith) h0 (by ring)

theorem bezier_hull {p a b q x : Pt K} {t : K} {C : Set (Pt K)} (hC : Convex K C) (hp : p ∈ C) (ha : a ∈ C) (hb : b ∈ C) (hq : q ∈ C)
    (h0 : 0 ≤ t) (h1 : t ≤ 1)
    (e1 : x.1 = (1 - t) ^ 3 * p.1 + 3 * (1 - t) ^ 2 * t * a.1 + 3 * (1 - t) * t ^ 2 * b.1 + t ^ 3 * q.1)
    (e2 : x.2 = (1 - t) ^ 3 * p.2 + 3 * (1 - t) ^ 2 * t * a.2 + 3 * (1 - t) * t ^ 2 * b.2 + t ^ 3 * q.2) : x ∈ C := by
  -- by de Casteljau's construction
  have mix : ∀ {u v : Pt K}, u ∈ C → v ∈ C → (1 - t) • u + t • v ∈ C := fun hu hv => hC hu hv (by linarith) h0 (by ring)
  have : x = (1 - t) • ((1 - t) • ((1 - t) • p + t • a) + t • ((1 - t) • a + t • b)) + t • ((1 - t) • ((1 - t) • a + t • b) + t • ((1 - t) • b + t • q)) := by
    refine Prod.ext ?_ ?_
    · simp only [Prod.fst_add, Prod.smul_fst, smul_eq_mul]; rw [e1]; ring
    · simp only [Prod.snd_add, Prod.smul_snd, smul_eq_mul]; rw [e2]; ring
  rw [this]
  exact mix (mix (mix hp ha) (mix ha hb)) (mix (mix ha hb) (mix hb hq))

theorem onData_hull {arc : A → List (Pt K)} {on : A → Pt K → Prop} {lst : A → Pt K} {C : Set (Pt K)} (hC : Convex K C) :
    ∀ (ds : List (Data K A)) (p : Pt K), Covers arc on lst p ds → p ∈ C → (∀ y ∈ ds.flatMap (Data.nest arc), y ∈ C) →
      (∀ x, OnData on lst p ds x → x ∈ C) ∧ stopOf lst p ds ∈ C
  | [], p, _, hp, _ => ⟨fun _ h => h.elim, hp⟩
  | d :: ds, p, hcov, hp, hn => by
    have hd : ∀ y ∈ d.nest arc, y ∈ C := fun y hy => hn y (by rw [List.flatMap_cons]; exact List.mem_append_left _ hy)
    have hds : ∀ y ∈ ds.flatMap (Data.nest arc), y ∈ C := fun y hy => hn y (by rw [List.flatMap_cons]; exact List.mem_append_right _ hy)
    have hstop : d.stop lst ∈ C := by
      cases d with
      | lineTo q => exact hd _ (by simp [Data.nest, Data.stop])
      | curveTo a b q => exact hd _ (by simp [Data.nest, Data.stop])
      | arcTo a => exact hd _ hcov.1.1
    obtain ⟨h1, h2⟩ := onData_hull hC ds (d.stop lst) hcov.2 hstop hds
    refine ⟨fun x hx => hx.elim (fun hx => ?_) (h1 x), h2⟩
    cases d with
    | lineTo q => exact on_line_hull hC hp hstop hx
    | curveTo a b q =>
      obtain ⟨t, h0, h1, e1, e2⟩ := hx
      exact bezier_hull hC hp (hd a (by simp [Data.nest])) (hd b (by simp [Data.nest])) (hd q (by simp [Data.nest])) h0 h1 e1 e2
    | arcTo a =>
      refine convexHull_min ?_ hC (hcov.1.2 x hx)
      rintro y (rfl | hy)
      · exact hp
      · exact hd y hy

theorem outline_hull {arc : A → List (Pt K)} {on : A → Pt K → Prop} {lst : A → Pt K} {s : Seg K A} (h : Covers arc on lst s.start s.data) :
    s.outline on lst ⊆ _root_.convexHull K {y | y ∈ nest arc s} := by
  have hs : s.start ∈ _root_.convexHull K {y | y ∈ nest arc s} := subset_convexHull K _ (by simp [nest])
  obtain ⟨h1, h2⟩ := onData_hull (convex_convexHull K {y | y ∈ nest arc s}) s.data s.start h hs
    (fun y hy => subset_convexHull K _ (by simp only [Set.mem_setOf_eq, nest]; exact List.mem_cons_of_mem _ hy))
  rintro x (hx | hx)
  · exact h1 x hx
  · exact on_line_hull (convex_convexHull K _) h2 hs hx

/-! ## Boxes -/

theorem grow_spec : ∀ (ps : List (Pt K)) (b : Pt K × Pt K), ∃ b', ps.foldl grow (some b) = some b' ∧
    (b'.1.1 ≤ b.1.1 ∧ b'.1.2 ≤ b.1.2 ∧ b.2.1 ≤ b'.2.1 ∧ b.2.2 ≤ b'.2.2) ∧
    ∀ p ∈ ps, b'.1.1 ≤ p.1 ∧ b'.1.2 ≤ p.2 ∧ p.1 ≤ b'.2.1 ∧ p.2 ≤ b'.2.2
  | [], b => ⟨b, rfl, by simp, by simp⟩
  | p :: ps, b => by
    obtain ⟨b', h, ⟨h1, h2, h3, h4⟩, h5⟩ := grow_spec ps ((min b.1.1 p.1, min b.1.2 p.2), (max b.2.1 p.1, max b.2.2 p.2))
    refine ⟨b', h, ⟨h1.trans (min_le_left _ _), h2.trans (min_le_left _ _), (le_max_left _ _).trans h3, (le_max_left _ _).trans h4⟩, ?_⟩
    intro q hq
    rcases List.mem_cons.mp hq with rfl | hq
    · exact ⟨h1.trans (min_le_right _ _), h2.trans (min_le_right _ _), (le_max_right _ _).trans h3, (le_max_right _ _).trans h4⟩
    · exact h5 q hq

theorem box_spec {ps : List (Pt K)} {b : Pt K × Pt K} (h : box ps = some b) {p : Pt K} (hp : p ∈ ps) :
    b.1.1 ≤ p.1 ∧ b.1.2 ≤ p.2 ∧ p.1 ≤ b.2.1 ∧ p.2 ≤ b.2.2 := by
  cases ps with
  | nil => cases hp
  | cons q ps =>
    obtain ⟨b', h', ⟨h1, h2, h3, h4⟩, h5⟩ := grow_spec ps (q, q)
    have : box (q :: ps) = some b' := h'
    rw [h, Option.some.injEq] at this
    subst this
    rcases List.mem_cons.mp hp with rfl | hp
    · exact ⟨h1, h2, h3, h4⟩
    · exact h5 p hp

/-- Boxes that are clear of each other. -/
theorem clear_apart {ps qs : List (Pt K)} (h : clear (box ps) (box qs) = true) {s t : Set (Pt K)} (hs : ∀ x ∈ s, x ∈ ps) (ht : ∀ x ∈ t, x ∈ qs) : Apart s t := by
  cases hb : box ps with
  | none => rw [hb] at h; simp [clear] at h
  | some b =>
    cases hf : box qs with
    | none => rw [hb, hf] at h; simp [clear] at h
    | some f =>
      rw [hb, hf] at h
      simp only [clear, Bool.or_eq_true, decide_eq_true_eq] at h
      rcases h with ((h | h) | h) | h
      · refine ⟨(1, 0), by simp, fun x hx y hy => ?_⟩
        obtain ⟨_, _, h3, _⟩ := box_spec hb (hs x hx)
        obtain ⟨h1, _, _, _⟩ := box_spec hf (ht y hy)
        simp only [mul_one, mul_zero, add_zero]
        linarith
      · refine ⟨(-1, 0), by simp, fun x hx y hy => ?_⟩
        obtain ⟨h1, _, _, _⟩ := box_spec hb (hs x hx)
        obtain ⟨_, _, h3, _⟩ := box_spec hf (ht y hy)
        simp only [mul_neg, mul_one, mul_zero, add_zero]
        linarith
      · refine ⟨(0, 1), by simp, fun x hx y hy => ?_⟩
        obtain ⟨_, _, _, h4⟩ := box_spec hb (hs x hx)
        obtain ⟨_, h2, _, _⟩ := box_spec hf (ht y hy)
        simp only [mul_one, mul_zero, zero_add]
        linarith
      · refine ⟨(0, -1), by simp, fun x hx y hy => ?_⟩
        obtain ⟨_, h2, _, _⟩ := box_spec hb (hs x hx)
        obtain ⟨_, _, _, h4⟩ := box_spec hf (ht y hy)
        simp only [mul_neg, mul_one, mul_zero, zero_add]
        linarith

/-! ## Two hulls -/

/-- The points of a list, in the plane. -/
def pts (ps : List (Pt K)) : Set (Pt K) := {y | y ∈ ps}

theorem collide_spec {ps qs : List (Pt K)} (hp : 2 ≤ ps.length) (hq : 2 ≤ qs.length) {a b : Bounds K} (ha : convexHull ps = some a) (hb : convexHull qs = some b) :
    ∃ r, collide a b = some r ∧ (r = false → Apart (pts ps) (pts qs)) ∧
      (r = true → 10000 < ps.length * qs.length ∨ (_root_.convexHull K (pts ps) ∩ _root_.convexHull K (pts qs)).Nonempty) := by
  obtain ⟨a', ha', _, hsa⟩ := support_spec ps hp
  obtain ⟨b', hb', _, hsb⟩ := support_spec qs hq
  rw [ha, Option.some.injEq] at ha'
  rw [hb, Option.some.injEq] at hb'
  subst ha' hb'
  let V := ps.flatMap fun p => qs.map fun q => p - q
  have hV : ∀ v, v ∈ V ↔ ∃ p ∈ ps, ∃ q ∈ qs, p - q = v := by intro v; simp [V]
  have hlen : V.length = ps.length * qs.length := by simp [V, List.length_flatMap]
  have dc : ∀ x y : Pt K, dot x y = dot y x := by intro x y; simp only [dot]; ring
  have hsup : IsSup V (getSupport a b) := by
    intro d
    obtain ⟨p, hpp, _, h1, h2⟩ := hsa d
    obtain ⟨q, hqq, _, h3, h4⟩ := hsb (-d)
    refine ⟨p - q, (hV _).mpr ⟨p, hpp, q, hqq, rfl⟩, by simp [getSupport, h1, h3], fun u hu => ?_⟩
    obtain ⟨p', hp', q', hq', rfl⟩ := (hV u).mp hu
    have k1 := h2 p' hp'
    have k2 := h4 q' hq'
    rw [dot_neg_right, dot_neg_right] at k2
    rw [dot_sub, dot_sub, dc d, dc d, dc d, dc d]
    linarith
  obtain ⟨p, _, hp0, _⟩ := hsup (1, 0)
  obtain ⟨r, h1, h2, h3⟩ := loop_start hsup 9999 hp0
  refine ⟨r, by simp only [collide, hp0]; exact h1, fun hr => ?_, fun hr => ?_⟩
  · obtain ⟨d, hd, h⟩ := h2 hr
    refine ⟨d, hd, fun x hx y hy => ?_⟩
    have := h _ ((hV (x - y)).mpr ⟨x, hx, y, hy, rfl⟩)
    rw [dot_sub] at this
    simp only [dot] at this
    linarith
  · rcases h3 hr with h | ⟨u, hu, v, hv, w, hw, x, y, z, hx, hy, hz, h1, e1, e2⟩
    · exact .inl (by omega)
    · obtain ⟨p1, hp1, q1, hq1, rfl⟩ := (hV u).mp hu
      obtain ⟨p2, hp2, q2, hq2, rfl⟩ := (hV v).mp hv
      obtain ⟨p3, hp3, q3, hq3, rfl⟩ := (hV w).mp hw
      right
      have tri : ∀ {C : Set (Pt K)}, Convex K C → ∀ {a b c : Pt K}, a ∈ C → b ∈ C → c ∈ C → x • a + y • b + z • c ∈ C := by
        intro C hC a b c ha hb hc
        rcases eq_or_lt_of_le (add_nonneg hx hy) with h0 | h0
        · have hx0 : x = 0 := by linarith
          have hy0 : y = 0 := by linarith
          have hz1 : z = 1 := by linarith
          simpa [hx0, hy0, hz1] using hc
        · have : x • a + y • b + z • c = (x + y) • ((x / (x + y)) • a + (y / (x + y)) • b) + z • c := by
            rw [smul_add, smul_smul, smul_smul, mul_div_cancel₀ _ (ne_of_gt h0), mul_div_cancel₀ _ (ne_of_gt h0)]
          rw [this]
          exact hC (hC ha hb (div_nonneg hx (le_of_lt h0)) (div_nonneg hy (le_of_lt h0)) (by rw [← add_div, div_self (ne_of_gt h0)])) hc
            (le_of_lt h0) hz h1
      refine ⟨x • p1 + y • p2 + z • p3, tri (convex_convexHull K _) (subset_convexHull K _ hp1) (subset_convexHull K _ hp2) (subset_convexHull K _ hp3), ?_⟩
      have : x • p1 + y • p2 + z • p3 = x • q1 + y • q2 + z • q3 := by
        refine Prod.ext ?_ ?_
        · simp only [Prod.fst_sub, Prod.fst_add, Prod.smul_fst, smul_eq_mul] at e1 ⊢; linarith
        · simp only [Prod.snd_sub, Prod.snd_add, Prod.smul_snd, smul_eq_mul] at e2 ⊢; linarith
      rw [this]
      exact tri (convex_convexHull K _) (subset_convexHull K _ hq1) (subset_convexHull K _ hq2) (subset_convexHull K _ hq3)

theorem hulls_spec : ∀ (l : List (List (Pt K))), (∀ ps ∈ l, 2 ≤ ps.length) → ∃ bs, hulls l = some bs ∧ List.Forall₂ (fun ps b => convexHull ps = some b) l bs
  | [], _ => ⟨[], rfl, .nil⟩
  | ps :: l, h => by
    obtain ⟨b, hb, _⟩ := support_spec ps (h ps (by simp))
    obtain ⟨bs, hbs, hf⟩ := hulls_spec l (fun q hq => h q (by simp [hq]))
    exact ⟨b :: bs, by simp [hulls, hb, hbs], .cons hb hf⟩

theorem anyM_spec {α : Type} {f : α → Option Bool} : ∀ (l : List α), (∀ a ∈ l, ∃ r, f a = some r) →
    ∃ r, anyM f l = some r ∧ (r = true ↔ ∃ a ∈ l, f a = some true)
  | [], _ => ⟨false, rfl, by simp⟩
  | a :: l, h => by
    obtain ⟨r, hr⟩ := h a (by simp)
    obtain ⟨r', h1, h2⟩ := anyM_spec l (fun b hb => h b (by simp [hb]))
    cases r with
    | true => exact ⟨true, by simp [anyM, hr], by simp [hr]⟩
    | false => exact ⟨r', by simp [anyM, hr, h1], by simp [hr, h2]⟩

end Verif.Gjk
