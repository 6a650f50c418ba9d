import Verif.Transform.Lemmas

/-! # What `optimize` and `matrix_to_transform` make of a matrix -/

namespace Verif.Transform

open Real

variable {Css : Type} {css : Css → Pt → Pt} {p : Precision}

/-- The items of decompositions. -/
def Fine (p : Precision) : T Css → Prop
  | .translate x y => ¬ (roundArg p.float x = 1 ∧ roundArg p.float y = 1)
  | .rotate a x y => x = 0 ∧ y = 0 ∧ -360 < a ∧ a < 360
  | .scale _ _ => True
  | .skewX _ => True
  | .skewY _ => True
  | .matrix _ => False
  | .css _ => False

theorem zip_map (p : Precision) (D : List (T Css)) : (D.map (T.round p)).zip D = D.map fun t => (t.round p, t) := by
  induction D with
  | nil => rfl
  | cons t D ih => simp [ih]

theorem identity_move {t : T Css} (h : Fine p t) (hi : (t.round p).isIdentity) (q : Pt) : (t.round p).move css q = q := by
  cases t with
  | matrix m => exact absurd h (by simp [Fine])
  | css c => exact absurd h (by simp [Fine])
  | translate x y => exact absurd hi h
  | scale x y => simp only [T.round, T.isIdentity] at hi; simp [T.move, T.round, hi]
  | rotate a x y => simp only [T.round, T.isIdentity] at hi; simp [T.move, T.round, hi]
  | skewX a => simp only [T.round, T.isIdentity] at hi; simp [T.move, T.round, hi]
  | skewY a => simp only [T.round, T.isIdentity] at hi; simp [T.move, T.round, hi]

theorem half_turn {a : ℝ} (h : |a| = 180) : cos (a * π / 180) = -1 ∧ sin (a * π / 180) = 0 := by
  rcases abs_eq (by norm_num : (0 : ℝ) ≤ 180) |>.mp h with e | e
  · rw [e, mul_comm, mul_div_assoc, div_self (by norm_num), mul_one]
    simp
  · rw [e, show (-180 * π / 180 : ℝ) = -π by ring]
    simp

theorem merge_move {x y a : ℝ} (h1 : -360 < a) (h2 : a < 360) (h0 : a ≠ 0) :
    ∃ t : T Css, merge (.translate x y) (.rotate a 0 0) = some t ∧ (∃ u v, t = .rotate a u v) ∧
      ∀ q, t.move css q = (T.translate x y : T Css).move css ((T.rotate a 0 0 : T Css).move css q) := by
  have hne : cos (rad a) ≠ 1 := by
    intro hc
    have hpi := pi_pos
    have := (cos_eq_one_iff_of_lt_of_lt (x := rad a) (by unfold rad; nlinarith) (by unfold rad; nlinarith)).mp hc
    unfold rad at this
    have hz : a * π = 0 := by linarith
    rcases mul_eq_zero.mp hz with h | h
    · exact h0 h
    · exact pi_ne_zero h
  have hd : (1 - cos (rad a)) ≠ 0 := fun h => hne (by linarith)
  have hsq := sin_sq_add_cos_sq (rad a)
  refine ⟨_, by rw [merge, if_pos ⟨rfl, rfl⟩], ⟨_, _, rfl⟩, ?_⟩
  intro q
  set d := 1 - cos (rad a) with hdd
  set e := sin (rad a) with hee
  have hc : cos (a * π / 180) = 1 - d := by rw [hdd]; unfold rad; ring
  have hs : sin (a * π / 180) = e := by rw [hee]; unfold rad; rfl
  have hcr : cos (rad a) = 1 - d := by rw [hdd]; ring
  rw [hcr] at hsq
  have hsum : d * d + e * e ≠ 0 := by
    have : 0 < d * d := mul_self_pos.mpr hd
    nlinarith [mul_self_nonneg e]
  simp only [T.move, hc, hs]
  ext
  · dsimp only
    field_simp
    ring
  · dsimp only
    field_simp
    ring

theorem round_scale_neg (x y : ℝ) : (T.scale (-roundArg p.transform x) (-roundArg p.transform y) : T Css).round p =
    .scale (-roundArg p.transform x) (-roundArg p.transform y) := by
  simp [T.round, roundArg_neg, roundArg_idem]

theorem round_rotate (a x y : ℝ) : (T.rotate a x y : T Css).round p =
    .rotate (roundArg p.deg a) (roundArg p.float x) (roundArg p.float y) := rfl

theorem round_translate (x y : ℝ) : (T.translate x y : T Css).round p =
    .translate (roundArg p.float x) (roundArg p.float y) := rfl

theorem round_scale (x y : ℝ) : (T.scale x y : T Css).round p =
    .scale (roundArg p.transform x) (roundArg p.transform y) := rfl

/-- An item that is pushed as it is. -/
theorem loop_push {t : T Css} {rest O L : List (T Css)} (hi : ¬ (t.round p).isIdentity)
    (hp : push (t.round p) t ((rest.map fun t => (t.round p, t)).head?) = some (t.round p, false))
    (h1 : optimizeLoop false (rest.map fun t => (t.round p, t)) = some O) (h2 : ∀ q, draw css L q = draw css rest q)
    (h3 : ∀ q, draw css (O.map (T.round p)) q = draw css (L.map (T.round p)) q) (h4 : L.length ≤ rest.length) :
    ∃ O L, optimizeLoop false ((t :: rest).map fun t => (t.round p, t)) = some O ∧
      (∀ q, draw css L q = draw css (t :: rest) q) ∧
      (∀ q, draw css (O.map (T.round p)) q = draw css (L.map (T.round p)) q) ∧ L.length ≤ (t :: rest).length := by
  refine ⟨t.round p :: O, t :: L, ?_, ?_, ?_, by simpa using h4⟩
  · rw [List.map_cons, optimizeLoop, if_neg hi]
    dsimp only
    rw [hp]
    dsimp only
    rw [h1]
    rfl
  · intro q; rw [draw_cons, draw_cons, h2]
  · intro q; simp only [List.map_cons, draw_cons, h3, round_idem]

theorem loop_spec (n : Nat) : ∀ D : List (T Css), D.length ≤ n → (∀ t ∈ D, Fine p t) →
    ∃ O L, optimizeLoop false (D.map fun t => (t.round p, t)) = some O ∧ (∀ q, draw css L q = draw css D q) ∧
      (∀ q, draw css (O.map (T.round p)) q = draw css (L.map (T.round p)) q) ∧ L.length ≤ D.length := by
  induction n with
  | zero =>
    intro D hD _
    have : D = [] := List.length_eq_zero_iff.mp (by omega)
    subst this
    exact ⟨[], [], rfl, fun _ => rfl, fun _ => rfl, le_rfl⟩
  | succ n ih =>
    intro D hD hf
    cases D with
    | nil => exact ⟨[], [], rfl, fun _ => rfl, fun _ => rfl, le_rfl⟩
    | cons t rest =>
      have ht := hf t (by simp)
      have hr : ∀ t ∈ rest, Fine p t := fun x hx => hf x (by simp [hx])
      obtain ⟨O, L, h1, h2, h3, h4⟩ := ih rest (by simp at hD; omega) hr
      by_cases hi : (t.round p).isIdentity
      · refine ⟨O, t :: L, ?_, ?_, ?_, by simpa using h4⟩
        · rw [List.map_cons, optimizeLoop, if_pos hi]; exact h1
        · intro q; rw [draw_cons, draw_cons, h2]
        · intro q; rw [List.map_cons, draw_cons, identity_move ht hi, h3]
      · cases t with
        | matrix m => exact absurd ht (by simp [Fine])
        | css c => exact absurd ht (by simp [Fine])
        | scale x y => exact loop_push hi rfl h1 h2 h3 h4
        | skewX a => exact loop_push hi rfl h1 h2 h3 h4
        | skewY a => exact loop_push hi rfl h1 h2 h3 h4
        | rotate a x y =>
          simp only [Fine] at ht
          obtain ⟨rfl, rfl, ha1, ha2⟩ := ht
          by_cases h180 : |roundArg p.deg a| = 180
          · obtain ⟨hc, hs⟩ := half_turn h180
            by_cases hn : ∃ x y rest', rest = .scale x y :: rest'
            · obtain ⟨x, y, rest', rfl⟩ := hn
              obtain ⟨O, L, h1, h2, h3, h4⟩ := ih rest' (by simp at hD; omega) (fun x hx => hr x (by simp [hx]))
              refine ⟨.scale (-roundArg p.transform x) (-roundArg p.transform y) :: O,
                .rotate a 0 0 :: .scale x y :: L, ?_, ?_, ?_, by simpa using h4⟩
              · rw [List.map_cons, List.map_cons, optimizeLoop, if_neg hi]
                simp only [round_rotate, round_translate, round_scale, push, roundArg_zero, h180, halfTurn, List.head?_cons, and_self, if_true]
                rw [optimizeLoop, h1]
                rfl
              · intro q; simp only [draw_cons, h2]
              · intro q
                simp only [List.map_cons, draw_cons, round_scale_neg, h3]
                simp only [round_rotate, round_translate, round_scale, T.move, roundArg_zero, hc, hs]
                ext <;> simp
            · refine ⟨.scale (-1) (-1) :: O, .rotate a 0 0 :: L, ?_, ?_, ?_, by simpa using h4⟩
              · rw [List.map_cons, optimizeLoop, if_neg hi]
                have : halfTurn ((rest.map fun t : T Css => (t.round p, t)).head?) = (.scale (-1) (-1), false) := by
                  cases rest with
                  | nil => rfl
                  | cons u rest' =>
                    cases u with
                    | scale x y => exact absurd ⟨x, y, rest', rfl⟩ hn
                    | _ => rfl
                simp only [round_rotate, round_translate, round_scale, push, roundArg_zero, h180, this, and_self, if_true]
                rw [h1]
                rfl
              · intro q; simp only [draw_cons, h2]
              · intro q
                simp only [List.map_cons, draw_cons, h3]
                simp only [round_rotate, round_translate, round_scale, T.move, roundArg_zero, hc, hs, roundArg_neg, roundArg_one]
                ext <;> simp
          · refine loop_push hi ?_ h1 h2 h3 h4
            simp only [round_rotate, round_translate, round_scale, push, h180, and_false, if_false]
        | translate x y =>
          by_cases hn : ∃ a rest', rest = .rotate a 0 0 :: rest' ∧ roundArg p.deg a ≠ 180 ∧ roundArg p.deg a ≠ -180 ∧
              roundArg p.deg a ≠ 0
          · obtain ⟨a, rest', rfl, n1, n2, n3⟩ := hn
            obtain ⟨O, L, h1, h2, h3, h4⟩ := ih rest' (by simp at hD; omega) (fun x hx => hr x (by simp [hx]))
            have hra := hr (.rotate a 0 0) (by simp)
            simp only [Fine] at hra
            have ha0 : a ≠ 0 := by
              intro h; subst h; exact n3 (roundArg_zero _)
            obtain ⟨t, hm, ⟨u, v, rfl⟩, hmove⟩ := merge_move (css := css) (x := x) (y := y) hra.2.2.1 hra.2.2.2 ha0
            refine ⟨.rotate a u v :: O, .rotate a u v :: L, ?_, ?_, ?_, by simp; omega⟩
            · rw [List.map_cons, List.map_cons, optimizeLoop, if_neg hi]
              simp only [round_rotate, round_translate, round_scale, push, roundArg_zero, mergeable, List.head?_cons, n1, n2, n3, and_self, if_true, hm, ne_eq,
                not_false_eq_true, Option.map_some]
              rw [optimizeLoop, h1]
              rfl
            · intro q; rw [draw_cons, hmove, h2]; rfl
            · intro q; simp only [List.map_cons, draw_cons, h3]
          · refine loop_push hi ?_ h1 h2 h3 h4
            have : mergeable ((rest.map fun t : T Css => (t.round p, t)).head?) = none := by
              cases rest with
              | nil => rfl
              | cons u rest' =>
                cases u with
                | rotate a cx cy =>
                  have hra := hr (.rotate a cx cy) (by simp)
                  simp only [Fine] at hra
                  obtain ⟨rfl, rfl, _⟩ := hra
                  simp only [List.map_cons, List.head?_cons, round_rotate, mergeable]
                  rw [if_neg]
                  rintro ⟨n1, n2, n3, _⟩
                  exact hn ⟨a, rest', rfl, n1, n2, n3⟩
                | _ => rfl
            simp only [round_rotate, round_translate, round_scale, push, this]

theorem optimize_spec (D : List (T Css)) (hf : ∀ t ∈ D, Fine p t) :
    ∃ O L, optimize (D.map (T.round p)) D = some O ∧ (∀ q, draw css L q = draw css D q) ∧
      (∀ q, draw css (O.map (T.round p)) q = draw css (L.map (T.round p)) q) ∧ L.length ≤ D.length := by
  obtain ⟨O, L, h1, h2, h3, h4⟩ := loop_spec (css := css) D.length D le_rfl hf
  refine ⟨orUnit O, L, ?_, h2, ?_, h4⟩
  · rw [optimize, zip_map, h1]; rfl
  · intro q
    rw [← h3]
    unfold orUnit
    split
    · next he =>
      rw [List.isEmpty_iff] at he
      subst he
      simp only [List.map_cons, List.map_nil, draw_cons, draw_nil, T.round, roundArg_one, T.move]
      ext <;> simp
    · rfl

theorem abs_arccos_le (x : ℝ) : 0 ≤ arccos x ∧ arccos x ≤ π := ⟨arccos_nonneg x, arccos_le_pi x⟩

theorem deg_range {r : ℝ} (h1 : -(2 * π) < r) (h2 : r < 2 * π) : -360 < deg r ∧ deg r < 360 := by
  unfold deg
  have hpi := pi_pos
  constructor
  · rw [lt_div_iff₀ hpi]; nlinarith
  · rw [div_lt_iff₀ hpi]; nlinarith

theorem opt_length {c : Prop} [Decidable c] (t : T Css) : (if c then [t] else []).length ≤ 1 := by split <;> simp

theorem qrab_length {m : M} {D : List (T Css)} (h : qrab m = some D) : D.length ≤ 4 := by
  unfold qrab at h
  dsimp only at h
  split at h
  · simp at h
  split at h
  · simp at h
  simp only [Option.some.injEq] at h
  subst h
  simp only [List.length_append]
  exact Nat.add_le_add (Nat.add_le_add (Nat.add_le_add (opt_length _) (opt_length _)) (opt_length _)) (opt_length _)

theorem qrcd_length {m : M} {D : List (T Css)} (h : qrcd m = some D) : D.length ≤ 4 := by
  unfold qrcd at h
  dsimp only at h
  split at h
  · simp at h
  split at h
  · simp at h
  simp only [Option.some.injEq] at h
  subst h
  simp only [List.length_append, List.length_singleton]
  exact Nat.add_le_add (Nat.add_le_add (Nat.add_le_add (opt_length _) le_rfl) (opt_length _)) (opt_length _)

theorem compositions_fine (m : M) (h : ¬ (roundArg p.float m.e = 1 ∧ roundArg p.float m.f = 1)) :
    ∀ D ∈ compositions (Css := Css) m, D.length ≤ 4 ∧ (∀ t ∈ D, Fine p t) ∧ ∀ (css : Css → Pt → Pt) q, draw css D q = m.apply q := by
  intro D hD
  simp only [compositions, List.mem_append, Option.mem_toList] at hD
  have hpi := pi_pos
  rcases hD with hD | hD
  · refine ⟨qrcd_length hD, ?_, fun css q => qrcd_draw hD q⟩
    unfold qrcd at hD
    dsimp only at hD
    split at hD
    · simp at hD
    split at hD
    · simp at hD
    simp only [Option.some.injEq] at hD
    subst hD
    intro t ht
    simp only [List.mem_append] at ht
    rcases ht with ((ht | ht) | ht) | ht
    · split at ht
      · simp at ht; subst ht; exact h
      · simp at ht
    · rw [List.mem_singleton] at ht
      subst ht
      obtain ⟨a1, a2⟩ := abs_arccos_le (-m.c / hypot m.c m.d)
      have := deg_range (r := π / 2 - (if m.d < 0 then -1 else 1) * arccos (-m.c / hypot m.c m.d))
        (by split <;> linarith) (by split <;> linarith)
      exact ⟨rfl, rfl, this⟩
    · split at ht
      · simp at ht; subst ht; trivial
      · simp at ht
    · split at ht
      · simp at ht; subst ht; trivial
      · simp at ht
  · refine ⟨qrab_length hD, ?_, fun css q => qrab_draw hD q⟩
    unfold qrab at hD
    dsimp only at hD
    split at hD
    · simp at hD
    split at hD
    · simp at hD
    simp only [Option.some.injEq] at hD
    subst hD
    intro t ht
    simp only [List.mem_append] at ht
    rcases ht with ((ht | ht) | ht) | ht
    · split at ht
      · simp at ht; subst ht; exact h
      · simp at ht
    · split at ht
      · rw [List.mem_singleton] at ht
        subst ht
        obtain ⟨a1, a2⟩ := abs_arccos_le (m.a / hypot m.a m.b)
        have := deg_range (r := if m.b < 0 then arccos (m.a / hypot m.a m.b) * -1 else arccos (m.a / hypot m.a m.b))
          (by split <;> linarith) (by split <;> linarith)
        exact ⟨rfl, rfl, this⟩
      · simp at ht
    · split at ht
      · simp at ht; subst ht; trivial
      · simp at ht
    · split at ht
      · simp at ht; subst ht; trivial
      · simp at ht

/-- A list stands for a transform if it draws like an exact counterpart, rounded. -/
def Stands (css : Css → Pt → Pt) (p : Precision) (exact out : List (T Css)) : Prop :=
  ∃ L, (∀ q, draw css L q = draw css exact q) ∧ (∀ q, draw css out q = draw css (L.map (T.round p)) q) ∧
    out.map (T.round p) = out ∧ L.length ≤ 4 * exact.length

theorem shortest_spec (env : Env Css) (m : M) : ∀ (Ds : List (List (T Css))) (best : List (T Css)) (len : Nat),
    (∀ D ∈ Ds, D.length ≤ 4 ∧ (∀ t ∈ D, Fine p t) ∧ ∀ (css : Css → Pt → Pt) q, draw css D q = m.apply q) →
    Stands css p [.matrix m] best → ∃ out, shortest env p Ds best len = some out ∧ Stands css p [.matrix m] out := by
  intro Ds
  induction Ds with
  | nil => intro best len _ hb; exact ⟨best, rfl, hb⟩
  | cons D Ds ih =>
    intro best len hD hb
    obtain ⟨f0, f1, f2⟩ := hD D (by simp)
    obtain ⟨O, L, h1, h2, h3, h4⟩ := optimize_spec (css := css) D f1
    rw [shortest, h1]
    dsimp only
    split
    · apply ih _ _ (fun x hx => hD x (by simp [hx]))
      refine ⟨L, ?_, h3, ?_, by simp; omega⟩
      · intro q; rw [h2, f2]; rfl
      · rw [List.map_map]; congr 1; funext t; exact round_idem p t
    · exact ih _ _ (fun x hx => hD x (by simp [hx])) hb

theorem matrixToTransform_spec (env : Env Css) (t : T Css)
    (h : ∀ m, t = .matrix m → ¬ (roundArg p.float m.e = 1 ∧ roundArg p.float m.f = 1)) :
    ∃ out, matrixToTransform env p t = some out ∧ Stands css p [t] (out.map (T.round p)) := by
  have other : Stands css p [t] [t.round p] := ⟨[t], fun _ => rfl, fun _ => rfl, by simp [round_idem], by simp⟩
  cases t with
  | matrix m =>
    obtain ⟨out, h1, L, h2, h3, h4, h5⟩ := shortest_spec (css := css) (p := p) env m (compositions m)
      [T.round p (.matrix m)] ((T.round p (.matrix m : T Css)).len env.width) (compositions_fine m (h m rfl)) other
    exact ⟨out, h1, L, h2, by rw [h4]; exact h3, by rw [h4, h4], h5⟩
  | translate x y => exact ⟨_, rfl, other⟩
  | scale x y => exact ⟨_, rfl, other⟩
  | rotate a x y => exact ⟨_, rfl, other⟩
  | skewX a => exact ⟨_, rfl, other⟩
  | skewY a => exact ⟨_, rfl, other⟩
  | css c => exact ⟨_, rfl, other⟩

end Verif.Transform
