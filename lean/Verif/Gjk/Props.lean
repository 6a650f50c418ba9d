import Mathlib.Topology.Order.Real
import Mathlib.Analysis.Normed.Ring.Lemmas
import Mathlib.Topology.Instances.Real.Lemmas
import Verif.Gjk.Lemmas

/-! # Do two paths intersect -/

namespace Verif.Gjk

variable {K A : Type} [Field K] [LinearOrder K] [IsStrictOrderedRing K]

/-- Every subpath that draws something has two points at least, if arcs have points. -/
theorem nests_two {arc : A → List (Pt K)} {p : List (Seg K A)} (h : ∀ s ∈ p, ∀ a, .arcTo a ∈ s.data → arc a ≠ []) :
    ∀ ps ∈ nests arc p, 2 ≤ ps.length := by
  intro ps hps
  obtain ⟨s, hs, rfl⟩ := List.mem_map.mp hps
  obtain ⟨hs, hne⟩ := List.mem_filter.mp hs
  cases hd : s.data with
  | nil => simp [hd] at hne
  | cons d ds =>
    have : 1 ≤ (d.nest arc).length := by
      cases d with
      | lineTo q => simp [Data.nest]
      | curveTo a b q => simp [Data.nest]
      | arcTo a => exact List.length_pos_iff.mpr (h s hs a (by simp [hd]))
    simp only [nest, hd, List.flatMap_cons, List.length_cons, List.length_append]
    omega

theorem mem_nests {arc : A → List (Pt K)} {p : List (Seg K A)} {ps : List (Pt K)} :
    ps ∈ nests arc p ↔ ∃ s ∈ p, s.data ≠ [] ∧ nest arc s = ps := by
  simp only [nests, List.mem_map, List.mem_filter, Bool.not_eq_true', List.isEmpty_eq_false_iff, and_assoc]

/-- The answer, in terms of the points of all pairs of subpaths. -/
theorem intersects_points {arc : A → List (Pt K)} {p q : List (Seg K A)} (hp : ∀ s ∈ p, ∀ a, .arcTo a ∈ s.data → arc a ≠ [])
    (hq : ∀ s ∈ q, ∀ a, .arcTo a ∈ s.data → arc a ≠ []) : ∃ r, intersects arc p q = some r ∧
      (r = false → ∀ ps ∈ nests arc p, ∀ qs ∈ nests arc q, Apart (pts ps) (pts qs)) ∧
      (r = true → ∃ ps ∈ nests arc p, ∃ qs ∈ nests arc q, 10000 < ps.length * qs.length ∨
        (_root_.convexHull K (pts ps) ∩ _root_.convexHull K (pts qs)).Nonempty) := by
  have main : ∀ L R : List (List (Pt K)), (∀ ps ∈ L, 2 ≤ ps.length) → (∀ ps ∈ R, 2 ≤ ps.length) →
      ∃ r, (match hulls L, hulls R with
        | some ls, some rs => anyM (fun a => anyM (collide a) rs) ls
        | _, _ => none) = some r ∧
      (r = false → ∀ ps ∈ L, ∀ qs ∈ R, Apart (pts ps) (pts qs)) ∧
      (r = true → ∃ ps ∈ L, ∃ qs ∈ R, 10000 < ps.length * qs.length ∨
        (_root_.convexHull K (pts ps) ∩ _root_.convexHull K (pts qs)).Nonempty) := by
    intro L R hL hR
    obtain ⟨ls, h1, f1⟩ := hulls_spec L hL
    obtain ⟨rs, h2, f2⟩ := hulls_spec R hR
    have get : ∀ {L : List (List (Pt K))} {ls : List (Bounds K)}, List.Forall₂ (fun ps b => convexHull ps = some b) L ls →
        (∀ a ∈ ls, ∃ ps ∈ L, convexHull ps = some a) ∧ (∀ ps ∈ L, ∃ a ∈ ls, convexHull ps = some a) := by
      intro L ls f
      induction f with
      | nil => simp
      | @cons x y l l' h _ ih =>
        refine ⟨?_, ?_⟩
        · rintro a ha
          rcases List.mem_cons.mp ha with rfl | ha
          · exact ⟨x, by simp, h⟩
          · obtain ⟨ps, hps, e⟩ := ih.1 a ha
            exact ⟨ps, by simp [hps], e⟩
        · rintro ps hps
          rcases List.mem_cons.mp hps with rfl | hps
          · exact ⟨y, by simp, h⟩
          · obtain ⟨a, ha, e⟩ := ih.2 ps hps
            exact ⟨a, by simp [ha], e⟩
    have inner : ∀ a ∈ ls, ∃ r, anyM (collide a) rs = some r ∧ (r = true ↔ ∃ b ∈ rs, collide a b = some true) := by
      intro a ha
      apply anyM_spec
      intro b hb
      obtain ⟨ps, hps, e1⟩ := (get f1).1 a ha
      obtain ⟨qs, hqs, e2⟩ := (get f2).1 b hb
      obtain ⟨r, hr, _⟩ := collide_spec (hL ps hps) (hR qs hqs) e1 e2
      exact ⟨r, hr⟩
    obtain ⟨r, hr, hi⟩ := anyM_spec (f := fun a => anyM (collide a) rs) ls (fun a ha => (inner a ha).imp fun _ h => h.1)
    simp only [h1, h2]
    refine ⟨r, hr, ?_, ?_⟩
    · rintro rfl ps hps qs hqs
      obtain ⟨a, ha, e1⟩ := (get f1).2 ps hps
      obtain ⟨b, hb, e2⟩ := (get f2).2 qs hqs
      obtain ⟨r, hr, k1, _⟩ := collide_spec (hL ps hps) (hR qs hqs) e1 e2
      apply k1
      cases r with
      | false => rfl
      | true =>
        obtain ⟨r', h3, h4⟩ := inner a ha
        rw [h4.mpr ⟨b, hb, hr⟩] at h3
        exact absurd (hi.mpr ⟨a, ha, h3⟩) (by simp)
    · rintro rfl
      obtain ⟨a, ha, h3⟩ := hi.mp rfl
      obtain ⟨r', h4, h5⟩ := inner a ha
      rw [h3, Option.some.injEq] at h4
      obtain ⟨b, hb, h6⟩ := h5.mp h4.symm
      obtain ⟨ps, hps, e1⟩ := (get f1).1 a ha
      obtain ⟨qs, hqs, e2⟩ := (get f2).1 b hb
      obtain ⟨r, hr, _, k2⟩ := collide_spec (hL ps hps) (hR qs hqs) e1 e2
      rw [h6, Option.some.injEq] at hr
      exact ⟨ps, hps, qs, hqs, k2 hr.symm⟩
  have hP := nests_two hp
  have hQ := nests_two hq
  simp only [intersects]
  by_cases hc : (clear (box (nests arc p).flatten) (box (nests arc q).flatten) || (nests arc p).all fun b => (nests arc q).all fun f => clear (box b) (box f)) = true
  · rw [if_pos hc]
    refine ⟨false, rfl, fun _ ps hps qs hqs => ?_, by simp⟩
    rcases Bool.or_eq_true _ _ ▸ hc with h | h
    · exact clear_apart h (fun x hx => List.mem_flatten.mpr ⟨ps, hps, hx⟩) (fun x hx => List.mem_flatten.mpr ⟨qs, hqs, hx⟩)
    · rw [List.all_eq_true] at h
      have := h ps hps
      rw [List.all_eq_true] at this
      exact clear_apart (this qs hqs) (fun _ h => h) (fun _ h => h)
  · rw [if_neg hc]
    by_cases hl : (nests arc p).length < (nests arc q).length
    · simp only [if_pos hl]
      obtain ⟨r, h1, h2, h3⟩ := main _ _ hQ hP
      refine ⟨r, h1, fun hr ps hps qs hqs => (h2 hr qs hqs ps hps).symm, fun hr => ?_⟩
      obtain ⟨qs, hqs, ps, hps, h⟩ := h3 hr
      exact ⟨ps, hps, qs, hqs, h.imp (fun h => by rwa [Nat.mul_comm] at h) (fun h => by rwa [Set.inter_comm] at h)⟩
    · simp only [if_neg hl]
      exact main _ _ hP hQ

/-- **C62 (an answer).** The test neither panics nor runs forever. -/
theorem intersects_total (arc : A → List (Pt K)) (p q : List (Seg K A)) (hp : ∀ s ∈ p ++ q, ∀ a, .arcTo a ∈ s.data → arc a ≠ []) :
    ∃ r, intersects arc p q = some r := by
  obtain ⟨r, h, _⟩ := intersects_points (arc := arc) (p := p) (q := q) (fun s hs => hp s (by simp [hs])) (fun s hs => hp s (by simp [hs]))
  exact ⟨r, h⟩

theorem covered_ne {arc : A → List (Pt K)} {on : A → Pt K → Prop} {lst : A → Pt K} : ∀ {ds : List (Data K A)} {p : Pt K}, Covers arc on lst p ds →
    ∀ a, .arcTo a ∈ ds → arc a ≠ []
  | [], _, _, _, h => by cases h
  | d :: ds, p, hc, a, h => by
    rcases List.mem_cons.mp h with rfl | h
    · exact List.ne_nil_of_mem hc.1.1
    · exact covered_ne hc.2 a h

/-- **C62 (no means apart).** If the answer is no, a line runs between what any subpath of the one path draws or fills and what any of the other
does; both may touch the line. -/
theorem intersects_no {arc : A → List (Pt K)} {on : A → Pt K → Prop} {lst : A → Pt K} {p q : List (Seg K A)}
    (hc : ∀ s ∈ p ++ q, Covers arc on lst s.start s.data) (h : intersects arc p q = some false) :
    ∀ s ∈ p, ∀ t ∈ q, s.data ≠ [] → t.data ≠ [] → Apart (s.area on lst) (t.area on lst) := by
  intro s hs t ht hsd htd
  obtain ⟨r, h1, h2, _⟩ := intersects_points (arc := arc) (p := p) (q := q) (fun s hs => covered_ne (hc s (by simp [hs]))) (fun s hs => covered_ne (hc s (by simp [hs])))
  rw [h, Option.some.injEq] at h1
  have := h2 h1.symm _ (mem_nests.mpr ⟨s, hs, hsd, rfl⟩) _ (mem_nests.mpr ⟨t, ht, htd, rfl⟩)
  exact this.hull.mono (convexHull_min (outline_hull (hc s (by simp [hs]))) (convex_convexHull K _)) (convexHull_min (outline_hull (hc t (by simp [ht]))) (convex_convexHull K _))

/-- **C62 (yes means that hulls meet).** If the answer is yes, the convex hulls of the control points of two subpaths have a point in common. Giving
up after ten thousand rounds, which counts as yes, needs subpaths whose numbers of control points have a product above ten thousand. -/
theorem intersects_yes {arc : A → List (Pt K)} {p q : List (Seg K A)} (hp : ∀ s ∈ p ++ q, ∀ a, .arcTo a ∈ s.data → arc a ≠ [])
    (hb : ∀ s ∈ p, ∀ t ∈ q, (nest arc s).length * (nest arc t).length ≤ 10000) (h : intersects arc p q = some true) :
    ∃ s ∈ p, ∃ t ∈ q, s.data ≠ [] ∧ t.data ≠ [] ∧
      (_root_.convexHull K {x | x ∈ nest arc s} ∩ _root_.convexHull K {x | x ∈ nest arc t}).Nonempty := by
  obtain ⟨r, h1, _, h2⟩ := intersects_points (arc := arc) (p := p) (q := q) (fun s hs => hp s (by simp [hs])) (fun s hs => hp s (by simp [hs]))
  rw [h, Option.some.injEq] at h1
  obtain ⟨ps, hps, qs, hqs, h⟩ := h2 h1.symm
  obtain ⟨s, hs, hsd, rfl⟩ := mem_nests.mp hps
  obtain ⟨t, ht, htd, rfl⟩ := mem_nests.mp hqs
  refine ⟨s, hs, t, ht, hsd, htd, h.resolve_left ?_⟩
  have := hb s hs t ht
  omega

/-- **C62 (nothing drawn).** A path that draws nothing intersects no path. -/
theorem intersects_empty {arc : A → List (Pt K)} {p q : List (Seg K A)} (h : (∀ s ∈ p, s.data = []) ∨ (∀ s ∈ q, s.data = [])) :
    intersects arc p q = some false := by
  have : ∀ {p : List (Seg K A)}, (∀ s ∈ p, s.data = []) → nests arc p = [] := by
    intro p h
    refine List.eq_nil_iff_forall_not_mem.mpr fun ps hps => ?_
    obtain ⟨s, hs, hsd, _⟩ := mem_nests.mp hps
    exact hsd (h s hs)
  simp only [intersects]
  rw [if_pos]
  rw [Bool.or_eq_true]
  right
  rcases h with h | h <;> rw [this h] <;> simp

/-- **C62 (crossings are found).** If points that are painted by subpaths of both paths lie such that the lines between them cross, the answer is yes. -/
theorem crossing_found {arc : A → List (Pt K)} {on : A → Pt K → Prop} {lst : A → Pt K} {p q : List (Seg K A)}
    (hc : ∀ s ∈ p ++ q, Covers arc on lst s.start s.data) {s t : Seg K A} (hs : s ∈ p) (ht : t ∈ q) (hsd : s.data ≠ []) (htd : t.data ≠ [])
    {a b c e : Pt K} (ha : a ∈ s.area on lst) (hb : b ∈ s.area on lst) (hcc : c ∈ t.area on lst) (he : e ∈ t.area on lst)
    {u v : K} (hu0 : 0 < u) (hu1 : u < 1) (hv0 : 0 < v) (hv1 : v < 1) (hx : (1 - u) • a + u • b = (1 - v) • c + v • e)
    (hn : (b.1 - a.1) * (e.2 - c.2) ≠ (b.2 - a.2) * (e.1 - c.1)) : intersects arc p q = some true := by
  obtain ⟨r, hr⟩ := intersects_total arc p q (fun s hs => covered_ne (hc s hs))
  cases r with
  | true => exact hr
  | false =>
    obtain ⟨d, hd, h⟩ := intersects_no hc hr s hs t ht hsd htd
    have h1 := h a ha c hcc
    have h2 := h a ha e he
    have h3 := h b hb c hcc
    have h4 := h b hb e he
    have x1 : (1 - u) * a.1 + u * b.1 = (1 - v) * c.1 + v * e.1 := by simpa using congrArg Prod.fst hx
    have x2 : (1 - u) * a.2 + u * b.2 = (1 - v) * c.2 + v * e.2 := by simpa using congrArg Prod.snd hx
    generalize hA : a.1 * d.1 + a.2 * d.2 = Ad at *
    generalize hB : b.1 * d.1 + b.2 * d.2 = Bd at *
    generalize hC : c.1 * d.1 + c.2 * d.2 = Cd at *
    generalize hE : e.1 * d.1 + e.2 * d.2 = Ed at *
    have hsum : (1 - u) * Ad + u * Bd = (1 - v) * Cd + v * Ed := by
      rw [← hA, ← hB, ← hC, ← hE]
      linear_combination d.1 * x1 + d.2 * x2
    -- all four are equal
    have k1 : 0 ≤ (1 - u) * (1 - v) * (Cd - Ad) := mul_nonneg (mul_nonneg (by linarith) (by linarith)) (by linarith)
    have k2 : 0 ≤ (1 - u) * v * (Ed - Ad) := mul_nonneg (mul_nonneg (by linarith) (by linarith)) (by linarith)
    have k3 : 0 ≤ u * (1 - v) * (Cd - Bd) := mul_nonneg (mul_nonneg (by linarith) (by linarith)) (by linarith)
    have k4 : 0 ≤ u * v * (Ed - Bd) := mul_nonneg (mul_nonneg (by linarith) (by linarith)) (by linarith)
    have ksum : (1 - u) * (1 - v) * (Cd - Ad) + (1 - u) * v * (Ed - Ad) + u * (1 - v) * (Cd - Bd) + u * v * (Ed - Bd) = 0 := by
      linear_combination -hsum
    have e1 : Cd - Ad = 0 := by
      have : (1 - u) * (1 - v) * (Cd - Ad) = 0 := by linarith
      exact (mul_eq_zero.mp this).resolve_left (mul_ne_zero (by linarith) (by linarith))
    have e2 : Ed - Ad = 0 := by
      have : (1 - u) * v * (Ed - Ad) = 0 := by linarith
      exact (mul_eq_zero.mp this).resolve_left (mul_ne_zero (by linarith) (by linarith))
    have e3 : Cd - Bd = 0 := by
      have : u * (1 - v) * (Cd - Bd) = 0 := by linarith
      exact (mul_eq_zero.mp this).resolve_left (mul_ne_zero (by linarith) (by linarith))
    exfalso
    have f1 : (b.1 - a.1) * d.1 + (b.2 - a.2) * d.2 = 0 := by linear_combination hB - hA + e1 - e3
    have f2 : (e.1 - c.1) * d.1 + (e.2 - c.2) * d.2 = 0 := by linear_combination hE - hC + e2 - e1
    have g1 : ((b.1 - a.1) * (e.2 - c.2) - (b.2 - a.2) * (e.1 - c.1)) * d.1 = 0 := by linear_combination (e.2 - c.2) * f1 - (b.2 - a.2) * f2
    have g2 : ((b.1 - a.1) * (e.2 - c.2) - (b.2 - a.2) * (e.1 - c.1)) * d.2 = 0 := by linear_combination (b.1 - a.1) * f2 - (e.1 - c.1) * f1
    have hn' := sub_ne_zero.mpr hn
    exact hd (Prod.ext ((mul_eq_zero.mp g1).resolve_left hn') ((mul_eq_zero.mp g2).resolve_left hn'))

/-! ## Over the real numbers -/

/-- Sets that are apart meet on their boundaries at most. -/
theorem Apart.interior {s t : Set (Pt ℝ)} (h : Apart s t) : Disjoint (interior s) t := by
  obtain ⟨d, hd, h⟩ := h
  refine Set.disjoint_left.mpr fun x hx hxt => ?_
  -- a step from `x` in direction `d` is in `s` still
  have hcont : Filter.Tendsto (fun e : ℝ => x + e • d) (nhdsWithin 0 (Set.Ioi 0)) (nhds x) := by
    have : Continuous fun e : ℝ => x + e • d := by fun_prop
    have := this.tendsto 0
    simp only [zero_smul, add_zero] at this
    exact this.mono_left nhdsWithin_le_nhds
  have h1 := hcont.eventually (isOpen_interior.mem_nhds hx)
  obtain ⟨e, he, he0⟩ := (h1.and self_mem_nhdsWithin).exists
  have h2 := h _ (interior_subset he) x hxt
  have h3 := sq_pos_of_ne hd
  have h4 : 0 < e * dot d d := mul_pos he0 h3
  simp only [dot, Prod.fst_add, Prod.snd_add, Prod.smul_fst, Prod.smul_snd, smul_eq_mul] at h2 h4
  nlinarith

/-- **C62 (overlap is found).** If what a subpath paints overlaps with what a subpath of the other path paints, other than on the boundary, the answer
is yes. -/
theorem overlap_found {arc : A → List (Pt ℝ)} {on : A → Pt ℝ → Prop} {lst : A → Pt ℝ} {p q : List (Seg ℝ A)}
    (hc : ∀ s ∈ p ++ q, Covers arc on lst s.start s.data) {s t : Seg ℝ A} (hs : s ∈ p) (ht : t ∈ q) (hsd : s.data ≠ []) (htd : t.data ≠ [])
    (h : (interior (s.area on lst) ∩ t.area on lst).Nonempty ∨ (s.area on lst ∩ interior (t.area on lst)).Nonempty) : intersects arc p q = some true := by
  obtain ⟨r, hr⟩ := intersects_total arc p q (fun s hs => covered_ne (hc s hs))
  cases r with
  | true => exact hr
  | false =>
    have ha := intersects_no hc hr s hs t ht hsd htd
    rcases h with ⟨x, h1, h2⟩ | ⟨x, h1, h2⟩
    · exact absurd h2 (Set.disjoint_left.mp ha.interior h1)
    · exact absurd h1 (Set.disjoint_left.mp ha.symm.interior h2)

end Verif.Gjk
