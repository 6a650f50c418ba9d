import Verif.Overlay.Spec

/-!
# Combined paths consist of parts of the paths
-/

namespace Verif.Overlay

open Verif.Gjk
open Verif.Curves (Sq Between Along Cubic)

/-! ## Paths made polygons -/

/-- The vertices of a curve's polygon. -/
theorem coords_curve (s a b p : Pt ℝ) : ∃ n : ℕ, 0 < n ∧ n ≤ 128 ∧
    s :: coords s (.curve a b p) = (List.range (n + 1)).map fun i : ℕ => (⟨s, a, b, p⟩ : Cubic ℝ).curve ((i : ℝ) / n) := by
  obtain ⟨c, hc⟩ : ∃ c : Cubic ℝ, c = ⟨s, a, b, p⟩ := ⟨_, rfl⟩
  have h7 := Curves.halvings_le c (1 / 10 ^ 6) 7 1
  have hp : 2 ^ Curves.halvings c (1 / 10 ^ 6) 7 1 ≤ 2 ^ 7 := Nat.pow_le_pow_right (by norm_num) h7
  refine ⟨2 ^ Curves.halvings c (1 / 10 ^ 6) 7 1, by positivity, hp, ?_⟩
  have := Curves.coords_of c (1 / 10 ^ 6) 130 (by omega)
  simp only [coords, ← hc]
  rw [this, Option.getD_some, List.range_succ_eq_map]
  simp [Curves.curve_zero, hc]

theorem coords_arc (s : Pt ℝ) (a : ArcR) : ∃ n : ℕ, 0 < n ∧ n ≤ 128 ∧
    Arcs.Along a 0 :: coords s (.arc a) = (List.range (n + 1)).map fun i : ℕ => Arcs.Along a ((i : ℝ) / n) := by
  have h7 := Arcs.halvings_le a (1 / 10 ^ 3) (1 / 10 ^ 6) 7 1
  have hp : 2 ^ Arcs.halvings a (1 / 10 ^ 3) (1 / 10 ^ 6) 7 1 ≤ 2 ^ 7 := Nat.pow_le_pow_right (by norm_num) h7
  refine ⟨2 ^ Arcs.halvings a (1 / 10 ^ 3) (1 / 10 ^ 6) 7 1, by positivity, hp, ?_⟩
  have := Arcs.coords_of a (1 / 10 ^ 3) (1 / 10 ^ 6) 130 (by omega)
  simp only [coords]
  rw [this, Option.getD_some, List.range_succ_eq_map]
  simp

/-- Where a part of a path ends. -/
noncomputable def End : Data → Pt ℝ
  | .line p => p
  | .curve _ _ p => p
  | .arc a => Arcs.Along a 1

/-- The vertices of a part of a path, after its start: the end of a line; the points of a curve or of an arc at equal steps, with the end. -/
def Vertices (start : Pt ℝ) (d : Data) (l : List (Pt ℝ)) : Prop :=
  match d with
  | .line p => l = [p]
  | .curve a b p => ∃ n : ℕ, 0 < n ∧ n ≤ 128 ∧ l = (List.range n).map fun i : ℕ => (⟨start, a, b, p⟩ : Cubic ℝ).curve (((i : ℝ) + 1) / n)
  | .arc a => ∃ n : ℕ, 0 < n ∧ n ≤ 128 ∧ l = (List.range n).map fun i : ℕ => Arcs.Along a (((i : ℝ) + 1) / n)

theorem coords_vertices (s : Pt ℝ) (d : Data) : Vertices s d (coords s d) := by
  cases d with
  | line p => rfl
  | curve a b p =>
    obtain ⟨n, h0, h1, e⟩ := coords_curve s a b p
    refine ⟨n, h0, h1, ?_⟩
    rw [List.range_succ_eq_map, List.map_cons] at e
    rw [(List.cons.inj e).2, List.map_map]
    exact List.map_congr_left fun i _ => by simp
  | arc a =>
    obtain ⟨n, h0, h1, e⟩ := coords_arc s a
    refine ⟨n, h0, h1, ?_⟩
    rw [List.range_succ_eq_map, List.map_cons] at e
    rw [(List.cons.inj e).2, List.map_map]
    exact List.map_congr_left fun i _ => by simp

theorem endOf_eq (d : Data) : endOf d = End d := by cases d <;> simp [endOf, End, Arcs.pointAt_along]

theorem flattenFrom_spec (key : ℕ) (c : Pt ℝ) (ds : List Data) :
    (flattenFrom key c ds).2.map Source.data = ds ∧
    (flattenFrom key c ds).2.map Source.key = List.range' key ds.length ∧
    (flattenFrom key c ds).2.map Source.start = (c :: ds.map End).take ds.length ∧
    (flattenFrom key c ds).1 = (flattenFrom key c ds).2.flatMap (·.contour.tail) ∧
    ∀ s ∈ (flattenFrom key c ds).2, ∃ l, s.contour = s.start :: l ∧ Vertices s.start s.data l := by
  induction ds generalizing key c with
  | nil => simp [flattenFrom]
  | cons d ds ih =>
    obtain ⟨h1, h2, h3, h4, h5⟩ := ih (key + 1) (endOf d)
    simp only [flattenFrom, List.map_cons, List.flatMap_cons, List.tail_cons]
    refine ⟨by rw [h1], by rw [h2]; simp [List.range'_succ], ?_, by rw [← h4], ?_⟩
    · rw [h3, endOf_eq]; simp
    · intro s hs
      rcases List.mem_cons.1 hs with rfl | hs
      · exact ⟨_, rfl, coords_vertices c d⟩
      · exact h5 s hs

/-- **C79 (paths made polygons)** The polygon of a path begins at its start and goes through the points of each part in order, at equal steps and to the end; one
entry remembers each part with where it starts. -/
theorem flatten_points (key : ℕ) (s : Seg) (h : s.data ≠ []) : ∃ rs, flatten key s = (s.start :: rs.flatMap (·.contour.tail), rs) ∧
    rs.map Source.data = s.data ∧ rs.map Source.key = List.range' key s.data.length ∧
    rs.map Source.start = (s.start :: s.data.map End).take s.data.length ∧
    ∀ r ∈ rs, ∃ l, r.contour = r.start :: l ∧ Vertices r.start r.data l := by
  obtain ⟨h1, h2, h3, h4, h5⟩ := flattenFrom_spec key s.start s.data
  refine ⟨(flattenFrom key s.start s.data).2, ?_, h1, h2, h3, h5⟩
  simp only [flatten]
  rw [if_neg (by simpa using h), h4]

/-! ## The entry of an edge -/

theorem project_least (x : Pt ℝ) (l : List (Pt ℝ)) :
    (∀ d, project x l = some d → (∃ (i : ℕ) (p q : Pt ℝ) (w : ℝ), l[i]? = some p ∧ l[i + 1]? = some q ∧ 0 ≤ w ∧ w ≤ 1 ∧ d = Sq x (Between p q w)) ∧
      ∀ (i : ℕ) (p q : Pt ℝ) (w : ℝ), l[i]? = some p → l[i + 1]? = some q → 0 ≤ w → w ≤ 1 → d ≤ Sq x (Between p q w)) ∧
    (project x l = none → l.length < 2) := by
  induction l with
  | nil => simp [project]
  | cons a l ih =>
    cases l with
    | nil => simp [project]
    | cons b l =>
      obtain ⟨⟨w0, h0, h1, e0⟩, m0⟩ := Curves.chordDist2_least x a b
      have first : ∀ {d}, d ≤ Curves.chordDist2 x a b → (∀ (i : ℕ) (p q : Pt ℝ) (w : ℝ), (b :: l)[i]? = some p → (b :: l)[i + 1]? = some q → 0 ≤ w → w ≤ 1 → d ≤ Sq x (Between p q w)) →
          ∀ (i : ℕ) (p q : Pt ℝ) (w : ℝ), (a :: b :: l)[i]? = some p → (a :: b :: l)[i + 1]? = some q → 0 ≤ w → w ≤ 1 → d ≤ Sq x (Between p q w) := by
        intro d hd hr i p q w hp hq hw0 hw1
        cases i with
        | zero =>
          simp only [List.getElem?_cons_zero, List.getElem?_cons_succ, Option.some.injEq, zero_add] at hp hq
          subst hp hq
          exact hd.trans (m0 w hw0 hw1)
        | succ i => exact hr i p q w (by simpa using hp) (by simpa using hq) hw0 hw1
      have zero : ∃ (i : ℕ) (p q : Pt ℝ) (w : ℝ), (a :: b :: l)[i]? = some p ∧ (a :: b :: l)[i + 1]? = some q ∧ 0 ≤ w ∧ w ≤ 1 ∧ Curves.chordDist2 x a b = Sq x (Between p q w) :=
        ⟨0, a, b, w0, rfl, rfl, h0, h1, e0⟩
      refine ⟨fun d hd => ?_, fun hn => ?_⟩
      · simp only [project] at hd
        cases hr : project x (b :: l) with
        | none =>
          rw [hr] at hd
          obtain rfl := Option.some.inj hd
          have := ih.2 hr
          refine ⟨zero, first (le_refl _) fun i p q w _ hq => ?_⟩
          have := List.getElem?_eq_some_iff.1 hq
          obtain ⟨hi, -⟩ := this
          simp only [List.length_cons] at this hi ⊢
          omega
        | some e =>
          rw [hr] at hd
          obtain rfl := Option.some.inj hd
          obtain ⟨⟨i, p, q, w, hp, hq, hw0, hw1, he⟩, hl⟩ := ih.1 e hr
          split
          · rename_i hlt
            exact ⟨⟨i + 1, p, q, w, by simpa using hp, by simpa using hq, hw0, hw1, he⟩, first hlt.le hl⟩
          · rename_i hlt
            exact ⟨zero, first (le_refl _) fun i p q w hp hq hw0 hw1 => (not_lt.1 hlt).trans (hl i p q w hp hq hw0 hw1)⟩
      · simp only [project] at hn
        split at hn <;> cases hn

theorem sqrt_lt_tol {d : ℝ} : √d < 1 / 10 ^ 3 ↔ d < (1 / 1000) ^ 2 := by
  rw [Real.sqrt_lt' (by norm_num)]; norm_num

theorem within_iff (x : Pt ℝ) (l : List (Pt ℝ)) : (within x l).isSome ↔ Near l x := by
  obtain ⟨h1, h2⟩ := project_least x l
  constructor
  · intro h
    obtain ⟨y, hy⟩ := Option.isSome_iff_exists.1 h
    simp only [within, Option.bind_eq_some_iff] at hy
    obtain ⟨d, hd, hy⟩ := hy
    split at hy
    · rename_i hlt
      obtain ⟨⟨i, p, q, w, hp, hq, hw0, hw1, he⟩, -⟩ := h1 d hd
      exact ⟨i, p, q, w, hp, hq, hw0, hw1, he ▸ sqrt_lt_tol.1 hlt⟩
    · cases hy
  · rintro ⟨i, p, q, w, hp, hq, hw0, hw1, he⟩
    cases hd : project x l with
    | none =>
      obtain ⟨hi, -⟩ := List.getElem?_eq_some_iff.1 hq
      have := h2 hd
      omega
    | some d =>
      have := (h1 d hd).2 i p q w hp hq hw0 hw1
      simp only [within, hd, Option.bind_some]
      rw [if_pos (sqrt_lt_tol.2 (this.trans_lt he))]; rfl

theorem overlap {α : Type} (f : α → ℝ) (l : List α) {m M : ℝ} (h : m ≤ M) :
    ((∃ p ∈ l, f p ≤ M) ∧ ∃ p ∈ l, m ≤ f p) ↔ ∃ x, (∃ p ∈ l, f p ≤ x) ∧ (∃ p ∈ l, x ≤ f p) ∧ m ≤ x ∧ x ≤ M := by
  constructor
  · rintro ⟨⟨p, hp, h1⟩, q, hq, h2⟩
    rcases le_total m (f p) with hc | hc
    · exact ⟨f p, ⟨p, hp, le_refl _⟩, ⟨p, hp, le_refl _⟩, hc, h1⟩
    · exact ⟨m, ⟨p, hp, hc⟩, ⟨q, hq, h2⟩, le_refl _, h⟩
  · rintro ⟨x, ⟨p, hp, h1⟩, ⟨q, hq, h2⟩, h3, h4⟩
    exact ⟨⟨p, hp, h1.trans h4⟩, q, hq, h3.trans h2⟩

theorem meets_iff (l : List (Pt ℝ)) (a b : Pt ℝ) : meets l a b ↔ Meet l a b := by
  have hx := overlap (fun p : Pt ℝ => p.1) l (min_le_max : min a.1 b.1 ≤ max a.1 b.1)
  have hy := overlap (fun p : Pt ℝ => p.2) l (min_le_max : min a.2 b.2 ≤ max a.2 b.2)
  unfold meets Meet
  rw [← hx, ← hy, and_assoc]

theorem total_iff (a b : Pt ℝ) (s : Source) : (total a b s).isSome ↔ Match s a b := by
  simp only [total]
  by_cases hm : meets s.contour a b
  · rw [if_pos hm]
    have ha := within_iff a s.contour
    have hb := within_iff b s.contour
    have hc := within_iff (midpoint a b) s.contour
    unfold Match
    rw [← ha, ← hb, show ((a.1 + b.1) / 2, (a.2 + b.2) / 2) = midpoint a b from rfl, ← hc]
    cases within a s.contour <;> cases within b s.contour <;> cases within (midpoint a b) s.contour <;> simp [(meets_iff _ _ _).1 hm]
  · rw [if_neg hm]
    simp [Match, ← meets_iff, hm]

theorem find_fold (a b : Pt ℝ) (tree : List Source) (best : Option (Source × ℝ)) (hb : ∀ s d, best = some (s, d) → total a b s = some d) :
    match tree.foldl (improve a b) best with
    | none => best = none ∧ ∀ s ∈ tree, total a b s = none
    | some (s, d) => (best = some (s, d) ∨ s ∈ tree) ∧ total a b s = some d ∧ (∀ s' ∈ tree, ∀ d', total a b s' = some d' → d ≤ d') ∧
        ∀ s' d', best = some (s', d') → d ≤ d' := by
  induction tree generalizing best with
  | nil =>
    cases best with
    | none => simp
    | some x => obtain ⟨s, d⟩ := x; simpa using hb s d rfl
  | cons t tree ih =>
    rw [List.foldl_cons]
    cases ht : total a b t with
    | none =>
      have e : improve a b best t = best := by simp only [improve, ht]
      rw [e]
      have := ih best hb
      split at this
      · exact ⟨this.1, fun s hs => (List.mem_cons.1 hs).elim (fun e => e ▸ ht) (this.2 s)⟩
      · obtain ⟨h1, h2, h3, h4⟩ := this
        refine ⟨h1.imp id (List.mem_cons_of_mem _), h2, fun s' hs' d' hd' => ?_, h4⟩
        rcases List.mem_cons.1 hs' with rfl | hs'
        · rw [ht] at hd'; cases hd'
        · exact h3 s' hs' d' hd'
    | some dt =>
      cases best with
      | none =>
        have e : improve a b none t = some (t, dt) := by simp only [improve, ht]
        rw [e]
        have := ih (some (t, dt)) (by rintro s d h; cases h; exact ht)
        split at this
        · cases this.1
        · obtain ⟨h1, h2, h3, h4⟩ := this
          refine ⟨.inr ?_, h2, fun s' hs' d' hd' => ?_, by simp⟩
          · rcases h1 with h1 | h1
            · cases h1; exact List.mem_cons_self
            · exact List.mem_cons_of_mem _ h1
          · rcases List.mem_cons.1 hs' with rfl | hs'
            · rw [ht] at hd'; cases hd'; exact h4 _ _ rfl
            · exact h3 s' hs' d' hd'
      | some x =>
        obtain ⟨s0, d0⟩ := x
        have e : improve a b (some (s0, d0)) t = if dt < d0 then some (t, dt) else some (s0, d0) := by simp only [improve, ht]
        rw [e]
        by_cases hlt : dt < d0
        · rw [if_pos hlt]
          have := ih (some (t, dt)) (by rintro s d h; cases h; exact ht)
          split at this
          · cases this.1
          · obtain ⟨h1, h2, h3, h4⟩ := this
            refine ⟨.inr ?_, h2, fun s' hs' d' hd' => ?_, ?_⟩
            · rcases h1 with h1 | h1
              · cases h1; exact List.mem_cons_self
              · exact List.mem_cons_of_mem _ h1
            · rcases List.mem_cons.1 hs' with rfl | hs'
              · rw [ht] at hd'; cases hd'; exact h4 _ _ rfl
              · exact h3 s' hs' d' hd'
            · rintro s' d' h; cases h; exact (h4 _ _ rfl).trans hlt.le
        · rw [if_neg hlt]
          have := ih (some (s0, d0)) hb
          split at this
          · cases this.1
          · obtain ⟨h1, h2, h3, h4⟩ := this
            refine ⟨h1.imp id (List.mem_cons_of_mem _), h2, fun s' hs' d' hd' => ?_, h4⟩
            rcases List.mem_cons.1 hs' with rfl | hs'
            · rw [ht] at hd'; cases hd'; exact (h4 _ _ rfl).trans (not_lt.1 hlt)
            · exact h3 s' hs' d' hd'

/-- **C79 (the entry of an edge)** An edge of a ring is given an entry that it belongs to, if there is any, and no entry otherwise. -/
theorem find_match (tree : List Source) (a b : Pt ℝ) :
    (∀ s, find tree a b = some s → s ∈ tree ∧ Match s a b) ∧ (find tree a b = none → ∀ s ∈ tree, ¬ Match s a b) := by
  have := find_fold a b tree none (by simp)
  constructor
  · intro s hs
    simp only [find, Option.map_eq_some_iff] at hs
    obtain ⟨⟨s', d⟩, hf, rfl⟩ := hs
    rw [hf] at this
    obtain ⟨h1, h2, -, -⟩ := this
    exact ⟨h1.resolve_left (by simp), (total_iff a b s').1 (by rw [h2]; rfl)⟩
  · intro hn s hs hm
    simp only [find, Option.map_eq_none_iff] at hn
    rw [hn] at this
    have h := (total_iff a b s).2 hm
    rw [this.2 s hs] at h
    cases h

/-- **C79 (the entry of an edge)** An edge that is part of the polygon of just one entry is given that entry. -/
theorem find_only (tree : List Source) (a b : Pt ℝ) (s : Source) (hs : s ∈ tree) (hm : Match s a b) (ho : ∀ s' ∈ tree, Match s' a b → s' = s) :
    find tree a b = some s := by
  obtain ⟨h1, h2⟩ := find_match tree a b
  cases hf : find tree a b with
  | none => exact absurd hm (h2 hf s hs)
  | some s' => obtain ⟨h3, h4⟩ := h1 s' hf; rw [ho s' h3 h4]

/-! ## Rings made paths -/

theorem tol_eq : (1 / 10 ^ 6 : ℝ) = (1 / 1000) ^ 2 := by norm_num

theorem curvePart_part {c d : Cubic ℝ} {v w : Pt ℝ} (h : curvePart c v w = some d) : ∃ t u : ℝ, Along d c t u ∧ 0 ≤ t ∧ t ≤ 1 ∧ 0 ≤ u ∧ u ≤ 1 ∧
    Sq (c.curve t) v ≤ (1 / 1000) ^ 2 ∧ (Sq (c.curve u) w ≤ (1 / 1000) ^ 2 ∨ |u - t| < 1 / 10 ^ 10) := by
  simp only [curvePart, Option.bind_eq_some_iff, Option.map_eq_some_iff] at h
  obtain ⟨t1, e1, t2, e2, rfl⟩ := h
  obtain ⟨h1, k1, s1⟩ := Curves.tAt_sound c v _ e1
  obtain ⟨h2, k2, s2⟩ := Curves.tAt_sound c w _ e2
  rw [tol_eq] at s1 s2
  split
  · by_cases hc : |1 - t1| < 1 / 10 ^ 10
    · exact ⟨t1, 1, Curves.clampT_end c t2 hc, h1, k1, zero_le_one, le_refl _, s1, .inr hc⟩
    · exact ⟨t1, t2, Curves.clampT_along c t2 (not_lt.1 hc), h1, k1, h2, k2, s1, .inl s2⟩
  · have hr := Curves.reverse_along c
    by_cases hc : |1 - (1 - t1)| < 1 / 10 ^ 10
    · have := (Curves.clampT_end (Curves.reverse c) (1 - t2) hc).trans hr
      refine ⟨t1, 0, ?_, h1, k1, le_refl _, zero_le_one, s1, .inr ?_⟩
      · convert this using 1 <;> ring
      · rw [zero_sub, abs_neg]; rwa [sub_sub_cancel] at hc
    · have := (Curves.clampT_along (Curves.reverse c) (1 - t2) (not_lt.1 hc)).trans hr
      refine ⟨t1, t2, ?_, h1, k1, h2, k2, s1, .inl s2⟩
      convert this using 1 <;> ring

theorem arcPart_along (a : ArcR) (v w : Pt ℝ) (near : Option (Pt ℝ)) (t u : ℝ) (ht : t = (Arcs.tAt a v (1 / 10 ^ 3)).getD 0)
    (hu : u = (Arcs.tAt a w (1 / 10 ^ 3)).getD 1) : ∃ k : ℝ, (∀ x, Arcs.Along (arcPart a v w near) x = Arcs.Along a (t + x * (u + k - t))) ∧
    (k = 0 ∨ (k = 1 ∨ k = -1) ∧ |(|a.sweep| - 2 * Real.pi)| < 1 / 100) := by
  have base : ∀ x, Arcs.Along (arcBase a t u) x = Arcs.Along a (t + x * (u + 0 - t)) := by
    intro x
    unfold arcBase; split
    · rw [← Arcs.pointAt_along, ArcTo.clamp_points, Arcs.pointAt_along]; congr 1; ring
    · rw [← Arcs.pointAt_along, ArcTo.clamp_points, ArcTo.reverse_points, Arcs.pointAt_along]; congr 1; ring
  have wrap : ∃ k : ℝ, (k = 1 ∨ k = -1) ∧ ∀ x, Arcs.Along (arcWrapped a t u) x =
      Arcs.Along a (t + x * (u + k - t)) := by
    unfold arcWrapped; split
    · exact ⟨-1, .inr rfl, fun x => by simp only [Arcs.Along]; ring_nf⟩
    · exact ⟨1, .inl rfl, fun x => by simp only [Arcs.Along]; ring_nf⟩
  obtain ⟨k, hk, wrap⟩ := wrap
  simp only [arcPart, ← ht, ← hu]
  split
  · rename_i hl
    have hl' : |(|a.sweep| - 2 * Real.pi)| < 1 / 100 := by norm_num at hl ⊢; exact hl
    split <;> split
    · exact ⟨0, base, .inl rfl⟩
    · exact ⟨k, wrap, .inr ⟨hk, hl'⟩⟩
    · exact ⟨0, base, .inl rfl⟩
    · exact ⟨k, wrap, .inr ⟨hk, hl'⟩⟩
  · exact ⟨0, base, .inl rfl⟩

theorem emit_part {s : Source} {v w : Pt ℝ} {mid : List (Pt ℝ)} {d : Data} (h : emit (.original s v mid w) = some d) : Part s v w d := by
  obtain ⟨key, data, st, contour⟩ := s
  cases data with
  | line p => simp only [emit] at h; cases h; exact rfl
  | curve a b p =>
    simp only [emit, Option.map_eq_some_iff] at h
    obtain ⟨c, hc, rfl⟩ := h
    obtain ⟨t, u, hp⟩ := curvePart_part hc
    exact ⟨c.s, t, u, hp⟩
  | arc a =>
    simp only [emit, Option.some.injEq] at h
    subst h
    obtain ⟨k, hk, hk'⟩ := arcPart_along a v w _ _ _ rfl rfl
    refine ⟨_, _, k, hk, ?_⟩
    have b : ∀ (x : Pt ℝ) (z : ℝ), 0 ≤ z → z ≤ 1 → 0 ≤ (Arcs.tAt a x (1 / 10 ^ 3)).getD z ∧ (Arcs.tAt a x (1 / 10 ^ 3)).getD z ≤ 1 ∧
        (Sq (Arcs.Along a ((Arcs.tAt a x (1 / 10 ^ 3)).getD z)) x ≤ 1 / 1000 * (1 + max a.rx a.ry ^ 2) ∨ (Arcs.tAt a x (1 / 10 ^ 3)).getD z = z) := by
      intro x z hz0 hz1
      cases ht : Arcs.tAt a x (1 / 10 ^ 3) with
      | none => exact ⟨hz0, hz1, .inr rfl⟩
      | some t =>
        obtain ⟨h0, h1, h2⟩ := Arcs.tAt_sound a x _ ht
        refine ⟨h0, h1, .inl ?_⟩
        have e : Sq (Arcs.Along a t) x = Arcs.Sq (Arcs.Along a t) x := rfl
        rw [Option.getD_some, e]
        calc _ ≤ _ := h2
          _ = _ := by norm_num
    obtain ⟨h1, h2, h3⟩ := b v 0 (le_refl _) zero_le_one
    obtain ⟨h4, h5, h6⟩ := b w 1 zero_le_one (le_refl _)
    exact ⟨h1, h2, h4, h5, h3, h6, hk'⟩

/-- The actions follow a walk; the last one comes first. -/
inductive Walk (tree : List Source) (v0 : Pt ℝ) : List Action → List (Pt ℝ) → Pt ℝ → Prop
  | start : Walk tree v0 [] [] v0
  | line {acts l v} (w) : Walk tree v0 acts l v → (∀ s ∈ tree, ¬ Match s v w) → Walk tree v0 (.line w :: acts) (l ++ [w]) w
  | part {acts l v} (s mid w) : Walk tree v0 acts l v → s ∈ tree → (∀ x ∈ v :: mid ++ [w], Near s.contour x) →
      Walk tree v0 (.original s v mid w :: acts) (l ++ mid ++ [w]) w

/-- No two entries have the same address. -/
def Apart (tree : List Source) : Prop := ∀ s ∈ tree, ∀ s' ∈ tree, s.key = s'.key → s = s'

theorem push_walk {tree : List Source} (ha : Apart tree) {v0 v w : Pt ℝ} {acts : List Action} {l : List (Pt ℝ)} (h : Walk tree v0 acts l v) :
    Walk tree v0 (push acts v w (find tree v w)) (l ++ [w]) w := by
  obtain ⟨f1, f2⟩ := find_match tree v w
  cases hf : find tree v w with
  | none => exact .line w h (f2 hf)
  | some s =>
    obtain ⟨hs, hm, hv, hw, -⟩ := f1 s hf
    have fresh : Walk tree v0 (.original s v [] w :: acts) (l ++ [w]) w := by
      have := Walk.part (mid := []) s w h hs (by simp [hv, hw])
      simpa using this
    cases h with
    | start => exact fresh
    | line w' h' hn => exact fresh
    | part s' mid w' h' hs' hn =>
      rename_i acts' l' v'
      simp only [push]
      split
      · rename_i hk
        have e := ha s hs s' hs' hk
        subst e
        have := Walk.part (mid := mid ++ [v]) s w h' hs' (by
          intro x hx
          simp only [List.cons_append, List.append_assoc, List.mem_cons, List.mem_append, List.mem_singleton, List.not_mem_nil, or_false] at hx
          rcases hx with rfl | hx | rfl | hx
          · exact hn _ (by simp)
          · exact hn _ (by simp [hx])
          · exact hv
          · have := hx.resolve_left id; subst this; exact hw)
        simpa [List.append_assoc] using this
      · exact fresh

theorem gather_walk {tree : List Source} (ha : Apart tree) {v0 v : Pt ℝ} (rest : List (Pt ℝ)) {acts : List Action} {l : List (Pt ℝ)} (h : Walk tree v0 acts l v) :
    Walk tree v0 (gather (find tree) acts v rest) (l ++ rest) ((v :: rest).getLast (by simp)) := by
  induction rest generalizing v acts l with
  | nil => simpa [gather] using h
  | cons w rest ih =>
    have := ih (push_walk ha (w := w) h)
    simpa [gather, List.append_assoc] using this

theorem walk_covers {tree : List Source} {v0 v : Pt ℝ} {acts : List Action} {l : List (Pt ℝ)} (h : Walk tree v0 acts l v) {ds : List Data}
    (he : acts.reverse.mapM emit = some ds) : Covers tree v0 l v ds := by
  induction h generalizing ds with
  | start => simp at he; subst he; exact .start
  | line w _ hn ih =>
    simp only [List.reverse_cons, List.mapM_append, List.mapM_cons, List.mapM_nil, emit, Option.bind_eq_bind, Option.bind_eq_some_iff, Option.pure_def,
      Option.bind_some, Option.some.injEq] at he
    obtain ⟨ds', h1, rfl⟩ := he
    exact .line w (ih h1) hn
  | part s mid w _ hs hn ih =>
    simp only [List.reverse_cons, List.mapM_append, List.mapM_cons, List.mapM_nil, Option.bind_eq_bind, Option.bind_eq_some_iff, Option.pure_def,
      Option.some.injEq] at he
    obtain ⟨ds', h1, x, ⟨d, h2, _, rfl, rfl⟩, rfl⟩ := he
    exact .part s mid w d (ih h1) hs hn (emit_part h2)

/-- **C79 (rings made paths)** The path of a ring begins at its first vertex, is closed, and follows all of its vertices: by lines to a vertex where no part of the
paths is near, and along parts of the paths otherwise, from near one vertex to near another one. -/
theorem rebuild_covers (tree : List Source) (ha : Apart tree) (v : Pt ℝ) (l : List (Pt ℝ)) {s : Seg} (h : rebuild (find tree) (v :: l) = some s) :
    s.start = v ∧ s.closed = true ∧ Covers tree v l ((v :: l).getLast (by simp)) s.data := by
  simp only [rebuild, Option.map_eq_some_iff] at h
  obtain ⟨ds, h, rfl⟩ := h
  exact ⟨rfl, rfl, by simpa using walk_covers (gather_walk ha l (.start)) h⟩

end Verif.Overlay
