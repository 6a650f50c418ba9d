import Verif.Boxes.Props

/-!
# C93: what is read besides, what is not read, and examples
-/

namespace Verif.Boxes

open Verif.Parse Verif.Clock Verif.Number

variable {p q : Parser} {pre rest r t z : List Char} {v : ℚ × ℚ × ℚ × ℚ}

theorem value_commas {x : ℚ} (h : Value t x) : t.count ',' = 0 := by
  rw [List.count_eq_zero]
  obtain ⟨s, d, f, x, k, rfl, hs, hd, hf, hx, rfl⟩ := h
  have dig : ∀ {l}, Digits l → ',' ∉ l := fun h hm => by have := h _ hm; simp at this
  have sg : ∀ {l}, IsSign l → ',' ∉ l := fun h hm => by rcases h with rfl | rfl | rfl <;> simp at hm
  simp only [List.mem_append, not_or]
  refine ⟨⟨⟨sg hs, dig hd⟩, ?_⟩, ?_⟩
  · rcases hf with ⟨rfl, _⟩ | ⟨d', rfl, h, _⟩
    · simp
    · simp [dig h]
  · rcases hx with ⟨rfl, _⟩ | ⟨e, s', d', rfl, he, hs', hd', _⟩
    · simp
    · simp only [List.mem_cons, List.mem_append, not_or]
      exact ⟨by rcases he with rfl | rfl <;> decide, sg hs', dig hd'⟩

theorem white_commas {w : List Char} (h : White w) : w.count ',' = 0 := by
  rw [List.count_eq_zero]
  intro hm
  have := h _ hm
  simp at this

theorem comma_commas_le {g : List Char} (h : Comma g) : g.count ',' ≤ 1 := by
  obtain ⟨w, w', c, rfl, h1, h2, rfl | rfl, _⟩ := h <;> simp [white_commas h1, white_commas h2]

theorem four_commas (h : FourOf Comma t v) : t.count ',' ≤ 3 := by
  obtain ⟨a, b, c, d, g, h', i, rfl, h1, h2, h3, h4, h5, h6, h7⟩ := h
  have := comma_commas_le h5
  have := comma_commas_le h6
  have := comma_commas_le h7
  simp only [List.count_append, value_commas h1, value_commas h2, value_commas h3, value_commas h4]
  omega

/-- **C93 (violated: commas of a viewBox)** Commas too many are skipped: a `viewBox` with four commas or more is valid for no numbers,
so it is ignored by viewers, but it is read and written as a valid one. -/
theorem commas_violated (h : FourOf Loose t v) (hc : 4 ≤ t.count ',') (hz : z = "0".toList ∨ z = "-0".toList) :
    (∀ v', ¬ ViewBoxMeans t v') ∧ ∃ x q, ListOf.parseString viewBox t = .ok x q ∧ ViewBoxMeans (viewBoxText z x) v := by
  constructor
  · rintro v' ⟨w, u, w', rfl, hw, hw', h'⟩
    have := four_commas h'
    simp only [List.count_append, white_commas hw, white_commas hw'] at hc
    omega
  · obtain ⟨x, q, e, hg⟩ := viewBox_loose (w := []) (w' := []) (by simp [White]) (by simp [White]) h
    refine ⟨x, q, by simpa using e, [], _, [], by simp, by simp [White], by simp [White], four_mono ?_ (gives_text hg hz)⟩
    rintro _ rfl
    exact blank_comma ⟨by simp [White], by simp⟩

/-- **C93 (violated: commas of a clip)** The same for `clip`, where commas may even stand before the first number. -/
theorem clip_commas_violated {g : List Char} (hg : Commas g) (h : FourOf Loose t v) (hc : 4 ≤ (g ++ t).count ',')
    (hz : z = "0".toList ∨ z = "-0".toList) :
    (∀ m, ¬ ClipMeans ("rect(".toList ++ (g ++ (t ++ [')']))) m) ∧
      ∃ x q, ListOf.parseString clip ("rect(".toList ++ (g ++ (t ++ [')']))) = .ok x q ∧ ClipMeans (clipText z x) (some v) := by
  constructor
  · intro m hm
    generalize hs : "rect(".toList ++ (g ++ (t ++ [')'])) = s at hm
    have hl : 4 ≤ s.count ',' := by
      rw [← hs]
      simp only [List.count_append] at hc ⊢
      omega
    cases hm with
    | auto => exact absurd hl (by decide)
    | rect w u w' v' hw hw' h' =>
      have := four_commas h'
      have e1 : "rect(".toList.count ',' = 0 := by decide
      have e2 : [')'].count ',' = 0 := by decide
      simp only [List.count_append, white_commas hw, white_commas hw', e1, e2] at hl
      omega
  · obtain ⟨_, q, e, y, rfl, hy⟩ := clip_loose (w' := []) hg (by simp [White]) h
    obtain ⟨u', e', h'⟩ := gives_rect hy hz
    refine ⟨_, q, by simpa using e, ?_⟩
    rw [e']
    have := ClipMeans.rect [] u' [] v (by simp [White]) (by simp [White]) (four_mono (by
      rintro _ rfl
      exact ⟨[], [], [','], rfl, by simp [White], by simp [White], .inr rfl, by simp⟩) h')
    simpa using this

theorem parse_fails {α : Type} {T : Parser → Res α} {x : List Char} (hx : Ends isWhitespace x)
    (e : ∀ p pre, At p pre x → ∃ q, T p = .err q) : ∃ q, ListOf.parseString T x = .err q := by
  obtain ⟨p0, e0, h0⟩ := skip_white (p := Parser.new x) (pre := []) (w := []) (r := x) ⟨rfl, rfl⟩ (by simp [White]) hx
  obtain ⟨q, e1⟩ := e p0 _ h0
  refine ⟨q, ?_⟩
  rw [ListOf.parseString, e0]
  simp only [Res.bind, e1]

/-- **C93 (units of a clip)** A `clip` whose first edge has a unit, or is `auto`, is not read (it stays a text). -/
theorem clip_units {a u : List Char} {c : Char} (ha : a = [] ∨ ∃ x, Value a x) (hc : Other c) (hc1 : isE c = false) (hc2 : c ≠ ',')
    (hf : Fine (c :: u)) : ∃ q, ListOf.parseString clip ("rect(".toList ++ (a ++ c :: u)) = .err q := by
  have hr : "rect(".toList = 'r' :: "ect(".toList := rfl
  refine parse_fails (by rw [hr]; exact ends_of (by decide)) ?_
  intro p pre hp
  have e0 := auto_fails hp
  obtain ⟨q1, e1, a1⟩ : ∃ q1, p.expectStr "rect(".toList = .ok () q1 ∧ At q1 (pre ++ "rect(".toList) (a ++ c :: u) :=
    ⟨_, (expectStr_spec hp "rect(".toList ⟨p.input, p.cursor + width "rect(".toList⟩).mpr ⟨_, rfl, rfl⟩, hp.moved⟩
  have hst : Stop (c :: u) := by
    intro x w e
    simp only [List.cons.injEq] at e
    obtain ⟨rfl, _⟩ := e
    exact ⟨hc.1, hc.2.1, hc1⟩
  have hdot : (c :: u).getLast? ≠ some '.' := fun e => (hf _ e).1 rfl
  have hno : Commas [] := ⟨[], 0, [], rfl, by simp [White], by simp [White]⟩
  rcases ha with rfl | ⟨x, hx⟩
  · obtain ⟨q2, e2, a2⟩ := gap_read (g := []) a1 hno hc.2.2.2.1 hc2 hf
    obtain ⟨q3, e3, _⟩ := f32_other a2 hc hdot
    refine ⟨q3, ?_⟩
    rw [clip, e0]
    simp only [orElse, e1, Res.bind, e2, e3]
  · obtain ⟨q2, q3, _, e2, e3, a3⟩ := next_read (g := []) (by simpa using a1) hno hx hst hf
    obtain ⟨q4, e4, a4⟩ := gap_read (g := []) a3 hno hc.2.2.2.1 hc2 hf
    obtain ⟨q5, e5, _⟩ := f32_other a4 hc hdot
    refine ⟨q5, ?_⟩
    rw [clip, e0]
    simp only [orElse, e1, Res.bind, e2, e3, e4, e5]

end Verif.Boxes
