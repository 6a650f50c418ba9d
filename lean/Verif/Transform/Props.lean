import Verif.Transform.Optimize

/-!
# C44: shortening transforms keeps the picture
-/

namespace Verif.Transform

open Real

variable {Css : Type} {css : Css → Pt → Pt} {p : Precision} {env : Env Css}

theorem multiply_apply (s o : M) (q : Pt) : (s.multiply o).apply q = o.apply (s.apply q) := by
  simp only [M.multiply, M.apply]
  ext <;> ring

theorem toMatrix_apply (hcss : ∀ c m, env.cssMatrix c = some m → css c = m.apply) (t : T Css) (m : M)
    (h : t.toMatrix env = some m) (q : Pt) : m.apply q = t.move css q := by
  cases t with
  | matrix n => simp [T.toMatrix] at h; subst h; rfl
  | translate x y =>
    simp [T.toMatrix] at h; subst h
    simp [M.apply, T.move]
  | scale x y =>
    simp [T.toMatrix] at h; subst h
    simp [M.apply, T.move]
  | rotate a x y =>
    simp only [T.toMatrix, rad] at h
    split at h
    · next h0 =>
      simp only [Option.some.injEq] at h; subst h
      simp only [M.apply, T.move, h0.1, h0.2]
      ext
      · dsimp only; ring
      · dsimp only; ring
    · simp only [Option.some.injEq] at h; subst h
      simp only [M.apply, T.move]
      ext
      · dsimp only; ring
      · dsimp only; ring
  | skewX a =>
    simp only [T.toMatrix, rad, Option.some.injEq] at h; subst h
    simp only [M.apply, T.move]
    ext
    · dsimp only; ring
    · dsimp only; ring
  | skewY a =>
    simp only [T.toMatrix, rad, Option.some.injEq] at h; subst h
    simp only [M.apply, T.move]
    ext
    · dsimp only; ring
    · dsimp only; ring
  | css c => simp only [T.move]; rw [hcss c m h]

/-- **C44 (the matrix of a list).** If a list of transforms has a matrix, the matrix moves every point as the list
does. -/
theorem toMatrix_spec (hcss : ∀ c m, env.cssMatrix c = some m → css c = m.apply) (l : List (T Css)) (m : M)
    (h : toMatrix env l = some m) (q : Pt) : m.apply q = draw css l q := by
  have key : ∀ (l : List (T Css)) (m0 m : M), toMatrixFrom env m0 l = some m → ∀ q, m.apply q = m0.apply (draw css l q) := by
    intro l
    induction l with
    | nil => intro m0 m h q; simp [toMatrixFrom] at h; subst h; rfl
    | cons t l ih =>
      intro m0 m h q
      rw [toMatrixFrom] at h
      split at h
      · simp at h
      · next n hn =>
        rw [ih _ _ h, multiply_apply, toMatrix_apply hcss t n hn, draw_cons]
  rw [key l _ m h]
  simp [M.apply]

/-- A list has a matrix unless one of its transforms in CSS notation has none. -/
theorem toMatrix_isSome (l : List (T Css)) (h : ∀ c, T.css c ∈ l → (env.cssMatrix c).isSome) :
    (toMatrix env l).isSome := by
  have key : ∀ (l : List (T Css)) (m0 : M), (∀ c, T.css c ∈ l → (env.cssMatrix c).isSome) →
      (toMatrixFrom env m0 l).isSome := by
    intro l
    induction l with
    | nil => intro m0 _; rfl
    | cons t l ih =>
      intro m0 h
      rw [toMatrixFrom]
      have ht : ∃ n, t.toMatrix env = some n := by
        cases t with
        | css c => exact Option.isSome_iff_exists.mp (h c (by simp))
        | rotate a x y => simp only [T.toMatrix]; split <;> exact ⟨_, rfl⟩
        | _ => exact ⟨_, rfl⟩
      obtain ⟨n, hn⟩ := ht
      rw [hn]
      exact ih _ (fun c hc => h c (by simp [hc]))
  exact key l _ h

theorem joinRotates_draw (n : Nat) : ∀ l : List (T Css), l.length ≤ n → ∀ q, draw css (joinRotates l) q = draw css l q := by
  induction n with
  | zero =>
    intro l hl q
    have : l = [] := List.length_eq_zero_iff.mp (by omega)
    subst this
    simp [joinRotates]
  | succ n ih =>
    intro l hl q
    unfold joinRotates
    split
    · rfl
    · next x y a cx cy u v rest =>
      simp only [List.length_cons] at hl
      split
      · next h =>
        obtain ⟨rfl, rfl, rfl, rfl⟩ := h
        rw [draw_cons, ih rest (by omega)]
        simp only [draw_cons, T.move]
        ext
        · dsimp only; ring
        · dsimp only; ring
      · rw [draw_cons, ih _ (by simp only [List.length_cons]; omega)]
        rfl
    · simp only [List.length_cons] at hl
      rw [draw_cons, draw_cons, ih _ (by omega)]

theorem useless_move {t : T Css} (h : t.useless) (q : Pt) : t.move css q = q := by
  cases t with
  | matrix m => simp only [T.useless] at h; obtain ⟨h1, h2, h3, h4, h5, h6⟩ := h; simp [T.move, M.apply, h1, h2, h3, h4, h5, h6]
  | translate x y => simp only [T.useless] at h; simp [T.move, h]
  | scale x y => simp only [T.useless] at h; simp [T.move, h]
  | rotate a x y => simp only [T.useless] at h; simp [T.move, h]
  | skewX a => simp only [T.useless] at h; simp [T.move, h]
  | skewY a => simp only [T.useless] at h; simp [T.move, h]
  | css c => exact absurd h (by simp [T.useless])

theorem dropUseless_draw (cfg : Config) (l : List (T Css)) (q : Pt) : draw css (cfg.dropUseless l) q = draw css l q := by
  unfold Config.dropUseless
  split
  · induction l with
    | nil => rfl
    | cons t l ih =>
      rw [List.filter_cons]
      split
      · rw [draw_cons, draw_cons, ih]
      · next h =>
        simp only [decide_not, Bool.not_eq_eq_eq_not, Bool.not_true, decide_eq_false_iff_not, not_not] at h
        rw [draw_cons, useless_move h, ih]
  · rfl

theorem stands_append {e1 e2 o1 o2 : List (T Css)} (h1 : Stands css p e1 o1) (h2 : Stands css p e2 o2) :
    Stands css p (e1 ++ e2) (o1 ++ o2) := by
  obtain ⟨L1, a1, a2, a3, a4⟩ := h1
  obtain ⟨L2, b1, b2, b3, b4⟩ := h2
  refine ⟨L1 ++ L2, ?_, ?_, ?_, by simp; omega⟩
  · intro q; rw [draw_append, draw_append, a1, b1]
  · intro q; rw [List.map_append, draw_append, draw_append, a2, b2]
  · rw [List.map_append, a3, b3]

theorem flatOption_spec (l : List (T Css))
    (h : ∀ m, T.matrix m ∈ l → ¬ (roundArg p.float m.e = 1 ∧ roundArg p.float m.f = 1)) :
    ∃ out, flatOption (matrixToTransform env p) l = some out ∧ Stands css p l (out.map (T.round p)) := by
  induction l with
  | nil => exact ⟨[], rfl, [], fun _ => rfl, fun _ => rfl, rfl, le_rfl⟩
  | cons t l ih =>
    obtain ⟨o1, h1, s1⟩ := matrixToTransform_spec (css := css) (p := p) env t (fun m hm => h m (by simp [hm]))
    obtain ⟨o2, h2, s2⟩ := ih (fun m hm => h m (by simp [hm]))
    refine ⟨o1 ++ o2, ?_, ?_⟩
    · rw [flatOption, h1, h2]
    · rw [List.map_append]
      exact stands_append (e1 := [t]) s1 s2

theorem collapse_draw (hcss : ∀ c m, env.cssMatrix c = some m → css c = m.apply) (cfg : Config) (l : List (T Css)) (q : Pt) :
    draw css (cfg.collapse env l) q = draw css l q := by
  unfold Config.collapse
  split
  · split
    · next m hm => exact toMatrix_spec hcss l m hm q
    · rfl
  · rfl

theorem collapse_matrix (hcss : ∀ c m, env.cssMatrix c = some m → css c = m.apply) (cfg : Config) (l : List (T Css)) (m : M)
    (h : T.matrix m ∈ cfg.collapse env l) : T.matrix m ∈ l ∨ ∀ q, m.apply q = draw css l q := by
  unfold Config.collapse at h
  split at h
  · split at h
    · next n hn =>
      simp at h
      subst h
      exact .inr (toMatrix_spec hcss l m hn)
    · exact .inl h
  · exact .inl h

theorem collapse_length (cfg : Config) (env : Env Css) (l : List (T Css)) : (cfg.collapse env l).length ≤ l.length := by
  unfold Config.collapse
  split
  · next h => split <;> simp; omega
  · exact le_rfl

theorem foldl_max_ge (g : ℝ → Nat) (data : List ℝ) : ∀ (n : Int), n ≤ data.foldl (fun n x => max n (g x : Int)) n ∧
    ∀ x ∈ data, (g x : Int) ≤ data.foldl (fun n x => max n (g x : Int)) n := by
  induction data with
  | nil => intro n; simp
  | cons y data ih =>
    intro n
    obtain ⟨h1, h2⟩ := ih (max n (g y : Int))
    simp only [List.foldl_cons]
    refine ⟨by omega, ?_⟩
    intro x hx
    rw [List.mem_cons] at hx
    rcases hx with rfl | hx
    · omega
    · exact h2 x hx

/-- The precision with which a list is rounded: that of the options, but factors are rounded to fewer decimals if no
number in the matrices has more. -/
structure Used (css : Css → Pt → Pt) (env : Env Css) (cfg : Config) (l : List (T Css)) (p : Precision) : Prop where
  float : p.float = cfg.floatPrecision
  deg : ∀ v, cfg.degPrecision = some v → p.deg = v
  degBound : cfg.degPrecision = none → 0 ≤ p.deg ∧ p.deg ≤ max 0 cfg.floatPrecision
  transform : p.transform = cfg.transformPrecision ∨ (p.transform < cfg.transformPrecision ∧
    ∃ m, (T.matrix m ∈ l ∨ ∀ q, m.apply q = draw css l q) ∧
      ∀ x ∈ [m.a, m.b, m.c, m.d, m.e, m.f], (env.decimals x : Int) ≤ p.transform)

theorem precision_used (hcss : ∀ c m, env.cssMatrix c = some m → css c = m.apply) (cfg : Config) (l : List (T Css)) :
    Used css env cfg l (cfg.precision env (cfg.collapse env l)) := by
  refine ⟨rfl, ?_, ?_, ?_⟩
  · intro v hv; simp [Config.precision, Config.definePrecision, hv]
  · intro hv
    simp only [Config.precision, Config.definePrecision, hv]
    omega
  · simp only [Config.precision, Config.definePrecision]
    split
    · next h =>
      right
      refine ⟨h.2, ?_⟩
      have hne : matrixData (cfg.collapse env l) ≠ [] := by
        intro he; rw [he] at h; simp at h
      have : ∃ m, T.matrix m ∈ cfg.collapse env l := by
        by_contra hcon
        apply hne
        rw [matrixData, List.flatMap_eq_nil_iff]
        intro t ht
        cases t with
        | matrix m => exact absurd ⟨m, ht⟩ hcon
        | _ => rfl
      obtain ⟨m, hm⟩ := this
      refine ⟨m, collapse_matrix hcss cfg l m hm, ?_⟩
      intro x hx
      apply (foldl_max_ge env.decimals _ 0).2
      rw [matrixData, List.mem_flatMap]
      exact ⟨_, hm, hx⟩
    · exact .inl rfl

/-- **C44 (the picture is kept up to rounding of the numbers).** The conversion never panics, and its result moves every
point like a list `L'` that differs from a list `L` only in its numbers, each by at most the tolerance of its kind,
where `L` moves every point exactly as the source does and has at most four transforms for each of the source. This holds for all options with `convertToShorts` if
no matrix, and not the matrix of the whole list, has a translation that is within the tolerance of (1, 1). Numbers are
real: what is missing is the rounding of `f32`.

For matrices with such a translation it is not so: `shift_violated`. That the tolerance is not always the one of the
options is shown by `integer_violated`. -/
theorem run_partial (hcss : ∀ c m, env.cssMatrix c = some m → css c = m.apply) (cfg : Config)
    (hshort : cfg.convertToShorts = true) (l : List (T Css))
    (h : cfg.matrixToTransform = true → ∀ m : M, (T.matrix m ∈ l ∨ ∀ q, m.apply q = draw css l q) →
      ¬ (|m.e - 1| ≤ tolerance cfg.floatPrecision ∧ |m.f - 1| ≤ tolerance cfg.floatPrecision)) :
    ∃ p out L L', Used css env cfg l p ∧ cfg.run env l = some out ∧ (∀ q, draw css L q = draw css l q) ∧
      (∀ q, draw css out q = draw css L' q) ∧ List.Forall₂ (Near p) L L' ∧ L.length ≤ 4 * l.length := by
  have hs : ∃ s, cfg.shorts env (cfg.precision env (cfg.collapse env l)) (cfg.collapse env l) = some s ∧
      Stands css (cfg.precision env (cfg.collapse env l)) (cfg.collapse env l) s := by
    unfold Config.shorts
    simp only [hshort, if_true]
    by_cases hm : cfg.matrixToTransform = true
    · simp only [hm, if_true]
      obtain ⟨out, h1, h2⟩ := flatOption_spec (css := css) (env := env)
        (p := cfg.precision env (cfg.collapse env l)) (cfg.collapse env l) (by
          intro m hm'
          have := h hm m (collapse_matrix hcss cfg l m hm')
          rintro ⟨e1, e2⟩
          have f1 := roundArg_near cfg.floatPrecision m.e
          have f2 := roundArg_near cfg.floatPrecision m.f
          rw [show roundArg cfg.floatPrecision m.e = 1 from e1] at f1
          rw [show roundArg cfg.floatPrecision m.f = 1 from e2] at f2
          exact this ⟨f1, f2⟩)
      exact ⟨_, by rw [h1]; rfl, h2⟩
    · simp only [hm]
      refine ⟨_, rfl, cfg.collapse env l, fun _ => rfl, fun _ => rfl, ?_, by omega⟩
      rw [List.map_map]
      congr 1
      funext t
      exact round_idem _ t
  obtain ⟨s, hs1, L, g1, g2, _, g4⟩ := hs
  refine ⟨_, cfg.dropUseless (if cfg.shortRotate then joinRotates s else s), L, L.map (T.round (cfg.precision env (cfg.collapse env l))), precision_used hcss cfg l, ?_, ?_, ?_, ?_, ?_⟩
  · rw [Config.run, Config.convert, hs1]; rfl
  · intro q; rw [g1, collapse_draw hcss]
  · intro q
    rw [dropUseless_draw, ← g2]
    split
    · exact joinRotates_draw _ s le_rfl q
    · rfl
  · generalize cfg.precision env (cfg.collapse env l) = p
    clear g1 g2 hs1 g4
    induction L with
    | nil => exact .nil
    | cons t L ih => exact .cons (round_near p t) ih
  · have := collapse_length cfg env l; omega

theorem shortest_len (env : Env Css) (p : Precision) : ∀ (Ds : List (List (T Css))) (best out : List (T Css)) (len : Nat),
    shortest env p Ds best len = some out → lens env.width best ≤ len → lens env.width out ≤ len := by
  intro Ds
  induction Ds with
  | nil => intro best out len h hb; simp [shortest] at h; subst h; exact hb
  | cons D Ds ih =>
    intro best out len h hb
    rw [shortest] at h
    split at h
    · simp at h
    · dsimp only at h
      split at h
      · next hl => exact le_trans (ih _ _ _ h le_rfl) hl
      · exact ih _ _ _ h hb

/-- **C44 (a matrix does not get longer).** What a matrix is replaced by takes at most as many characters as the rounded
matrix (without what may separate the transforms of a list). -/
theorem matrix_shorter (env : Env Css) (p : Precision) (m : M) (out : List (T Css))
    (h : matrixToTransform env p (.matrix m) = some out) :
    (out.map (T.len env.width)).sum ≤ ((T.matrix m : T Css).round p).len env.width :=
  shortest_len env p _ _ _ _ h (by simp [lens])

end Verif.Transform
