import Verif.Moves.Props

/-!
# C96: what is not read, and examples
-/

namespace Verif.Moves

open Verif.Parse Verif.Clock Verif.Number Verif.Boxes Verif.Choice

variable {γ : Type} {p q : Parser} {pre rest r t u w w' g z R : List Char} {css : List Char → Option γ} {cssText : γ → List Char}

theorem finish_at (p : Parser) : At p.finish p.input [] := ⟨by simp [Parser.finish], rfl⟩

theorem function_not_css {c : γ} (h : function p = .ok (.css c) q) : False := by
  have hclose : ∀ (x : Item γ) p q, close x p = .ok (.css c) q → x = .css c := by
    intro x p q h
    rw [close] at h
    cases h1 : p.skipWhitespace with
    | err _ => simp [h1, Res.bind] at h
    | panic => simp [h1, Res.bind] at h
    | ok _ p1 =>
      simp only [h1, Res.bind] at h
      cases h2 : p1.expectChar ')' with
      | err _ => simp [h2] at h
      | panic => simp [h2] at h
      | ok _ p2 => simp only [h2, Res.ok.injEq] at h; exact h.1
  have hb : ∀ {α β : Type} {r : Res α} {f : α → Parser → Res β} {b : β} {q}, r.bind f = .ok b q → ∃ a p', r = .ok a p' ∧ f a p' = .ok b q := by
    intro α β r f b q h
    cases r with
    | ok a p' => exact ⟨a, p', rfl, h⟩
    | err _ => simp [Res.bind] at h
    | panic => simp [Res.bind] at h
  obtain ⟨name, p1, _, h⟩ := hb h
  obtain ⟨_, p2, _, h⟩ := hb h
  obtain ⟨_, p3, _, h⟩ := hb h
  rw [args] at h
  split_ifs at h
  · obtain ⟨_, _, _, h⟩ := hb h; obtain ⟨_, _, _, h⟩ := hb h; obtain ⟨_, _, _, h⟩ := hb h; obtain ⟨_, _, _, h⟩ := hb h
    obtain ⟨_, _, _, h⟩ := hb h; obtain ⟨_, _, _, h⟩ := hb h; obtain ⟨_, _, _, h⟩ := hb h; obtain ⟨_, _, _, h⟩ := hb h
    obtain ⟨_, _, _, h⟩ := hb h; obtain ⟨_, _, _, h⟩ := hb h; obtain ⟨_, _, _, h⟩ := hb h
    have := hclose _ _ _ h; simp at this
  · obtain ⟨_, _, _, h⟩ := hb h; obtain ⟨_, _, _, h⟩ := hb h
    split at h
    · have := hclose _ _ _ h; simp at this
    · have := hclose _ _ _ h; simp at this
    · simp at h
  · obtain ⟨_, _, _, h⟩ := hb h; obtain ⟨_, _, _, h⟩ := hb h
    split at h
    · have := hclose _ _ _ h; simp at this
    · have := hclose _ _ _ h; simp at this
    · simp at h
  · obtain ⟨_, _, _, h⟩ := hb h; obtain ⟨_, _, _, h⟩ := hb h
    split at h
    · obtain ⟨_, _, _, h⟩ := hb h; obtain ⟨_, _, _, h⟩ := hb h
      have := hclose _ _ _ h; simp at this
    · have := hclose _ _ _ h; simp at this
    · simp at h
  · obtain ⟨_, _, _, h⟩ := hb h
    have := hclose _ _ _ h; simp at this
  · obtain ⟨_, _, _, h⟩ := hb h
    have := hclose _ _ _ h; simp at this

/-- A transform in CSS takes all of the text. -/
theorem css_item {c : γ} (h : p.tryParse (item css) = .ok (.css c) q) : ∃ p' : Parser, q = p'.finish := by
  have h1 := Verif.Path.tryParse_ok h
  cases h2 : p.tryParse (function : Parser → Res (Item γ)) with
  | panic => rw [item, h2] at h1; simp [orElse] at h1
  | ok y q' =>
    rw [item, h2] at h1
    simp only [orElse, Res.ok.injEq] at h1
    rw [h1.1] at h2
    exact (function_not_css (Verif.Path.tryParse_ok h2)).elim
  | err p' =>
    rw [item, h2] at h1
    simp only [orElse, Parser.takeSlice] at h1
    cases h3 : p'.slice with
    | none => simp [h3, Res.bind] at h1
    | some s =>
      simp only [h3, Res.bind] at h1
      cases h4 : css s with
      | none => simp [h4] at h1
      | some d => simp only [h4, Res.ok.injEq] at h1; exact ⟨p', h1.2.symm⟩

/-- **C96 (CSS)** A transform in CSS is only ever read as the last one. -/
theorem css_last (h0 : css [] = none) {x : List (Item γ)} (h : ListOf.parseString (list css) t = .ok x q) (i : Nat) (c : γ)
    (hi : x[i]? = some (.css c)) : i + 1 = x.length := by
  have key : ∀ n p x q, loop css n p = .ok x q → ∀ i, x[i]? = some (.css c) → i + 1 = x.length := by
    intro n
    induction n with
    | zero => intro p x q h; simp [loop] at h
    | succ n ih =>
      intro p x q h i hi
      rw [loop] at h
      cases h1 : skipComma p with
      | err _ => simp [h1, Res.bind] at h
      | panic => simp [h1, Res.bind] at h
      | ok _ p1 =>
        simp only [h1, Res.bind] at h
        cases h2 : p1.tryParse (item css) with
        | panic => simp [h2] at h
        | err _ => simp [h2] at h; rw [h.1] at hi; simp at hi
        | ok y p2 =>
          simp only [h2] at h
          cases h3 : loop css n p2 with
          | err _ => simp [h3] at h
          | panic => simp [h3] at h
          | ok l p3 =>
            simp only [h3, Res.ok.injEq] at h
            obtain ⟨rfl, _⟩ := h
            cases i with
            | succ i =>
              have := ih p2 l p3 h3 i (by simpa using hi)
              simp [this]
            | zero =>
              simp only [List.getElem?_cons_zero, Option.some.injEq] at hi
              subst hi
              obtain ⟨p', rfl⟩ := css_item h2
              cases n with
              | zero => simp [loop] at h3
              | succ n =>
                obtain ⟨q', _, e, _⟩ := loop_end (css := css) h0 n (finish_at p') white_nil
                rw [e] at h3
                simp only [Res.ok.injEq] at h3
                simp [← h3.1]
  rw [ListOf.parseString] at h
  cases h1 : (Parser.new t).skipWhitespace with
  | err _ => simp [h1, Res.bind] at h
  | panic => simp [h1, Res.bind] at h
  | ok _ p1 =>
    simp only [h1, Res.bind] at h
    cases h2 : list css p1 with
    | err _ => simp [h2] at h
    | panic => simp [h2] at h
    | ok y p2 =>
      have hk := key _ _ _ _ h2 i
      simp only [h2] at h
      cases h3 : p2.skipWhitespace with
      | err _ => simp [h3] at h
      | panic => simp [h3] at h
      | ok _ p3 =>
        simp only [h3] at h
        cases h4 : p3.expectDone with
        | err _ => simp [h4] at h
        | panic => simp [h4] at h
        | ok _ p4 => simp only [h4, Res.ok.injEq] at h; rw [← h.1] at hi ⊢; exact hk hi

/-- Nothing is skipped. -/
theorem comma_none {c : Char} (hp : At p pre (c :: r)) (h1 : isWhitespace c = false) (h2 : c ≠ ',') (hl : (c :: r).getLast? ≠ some ',') :
    ∃ q pre', skipComma p = .ok () q ∧ At q pre' (c :: r) := by
  obtain ⟨q, e, a⟩ := skip_white (w := []) (r := c :: r) (by simpa using hp) white_nil (ends_of h1)
  have hb : (c == ',') = false := by simpa using h2
  have e2 := (skipChar_iff a ',').mpr (by simpa [hb] using hl)
  have e2' : q.skipChar ',' = .ok () q := by simpa [width, hb] using e2
  obtain ⟨q', e3, a3⟩ := skip_white (w := []) (r := c :: r) (by simpa using a) white_nil (ends_of h1)
  refine ⟨q', _, ?_, a3⟩
  rw [skipComma, e]
  simp only [Res.bind, e2', e3]

/-- **C96 (violated: characters that are not ASCII)** Text that begins with a character that is neither ASCII nor white space panics (unless
it ends with a comma). -/
theorem foreign_violated {c : Char} (hc : c.utf8Size ≠ 1) (h1 : isWhitespace c = false) (hl : (c :: r).getLast? ≠ some ',') (hw : White w) :
    ListOf.parseString (list css) (w ++ c :: r) = .panic := by
  obtain ⟨p, e1, a1⟩ := skip_white (p := Parser.new (w ++ c :: r)) (pre := []) (w := w) (r := c :: r) ⟨rfl, rfl⟩ hw (ends_of h1)
  obtain ⟨q, _, e2, a2⟩ := comma_none a1 h1 (by rintro rfl; exact hc (by decide)) hl
  have e3 := (expectIdent_panic_iff a2).mpr (by rw [ascii_head_cons]; exact hc)
  have e4 : q.tryParse (item css) = .panic := by
    rw [Parser.tryParse, item, Parser.tryParse, function, e3]
    rfl
  rw [ListOf.parseString, e1]
  simp only [Res.bind, list, loop, e2, e4]

/-- The names of the functions of SVG. -/
def svgNames : List (List Char) := ["matrix", "translate", "scale", "rotate", "skewX", "skewY"].map String.toList

/-- **C96 (violated: CSS before the end)** A `transform` that begins with a function that only CSS has is not read, unless lightningcss reads all
of the text as a single transform: a list of several transforms that begins with `translateX(1px)` is left as it is. -/
theorem css_first_violated {c : Char} {m : List Char} (hc : isNameStartChar c = true) (hs : c.utf8Size = 1) (hw : isWhitespace c = false)
    (hm : ∀ x ∈ m, isNameChar x = true) (hn : c :: m ∉ svgNames)
    (ht : t = c :: (m ++ '(' :: r)) (hl : t.getLast? ≠ some ',') (hcss : css t = none) : ∃ q, ListOf.parseString (list css) t = .err q := by
  subst ht
  obtain ⟨p, e1, a1⟩ := skip_white (p := Parser.new (c :: (m ++ '(' :: r))) (pre := []) (w := []) (r := c :: (m ++ '(' :: r)) ⟨rfl, rfl⟩ white_nil (ends_of hw)
  obtain ⟨q, _, e2, a2⟩ := comma_none a1 hw (by rintro rfl; exact absurd hc (by decide)) hl
  obtain ⟨q1, i1, b1, f1⟩ := ident_word a2 hc hs hm (ends_of (by decide))
  obtain ⟨q2, f2, b2⟩ := skip_white (w := []) (r := '(' :: r) (by simpa using b1) white_nil (ends_of (by decide))
  obtain ⟨q3, f3, b3⟩ := expectChar_ok b2 (by decide)
  have i3 : q3.input = q.input := by rw [b3.1, a2.1]; rw [← i1, b1.1] at *; simp_all
  have hn' : ∀ s ∈ svgNames, c :: m ≠ s := fun s hs e => hn (e ▸ hs)
  have hargs : (args (c :: m) q3 : Res (Item γ)) = .err q3 := by
    rw [args, if_neg (hn' _ (by simp [svgNames])), if_neg (hn' _ (by simp [svgNames])), if_neg (hn' _ (by simp [svgNames])),
      if_neg (hn' _ (by simp [svgNames])), if_neg (hn' _ (by simp [svgNames])), if_neg (hn' _ (by simp [svgNames]))]
  have e3 : q.tryParse (function : Parser → Res (Item γ)) = .err q := by
    refine tryParse_err (q := q3) ?_ i3
    rw [function, f1]
    simp only [Res.bind, f2, f3, hargs]
  have e4 : q.tryParse (item css) = .err q := by
    refine tryParse_err (q := q.finish) ?_ rfl
    rw [item, e3]
    simp only [orElse, (Words.slice_at a2).1, Res.bind, hcss]
  obtain ⟨q5, e5, a5⟩ := skip_white (w := []) (r := c :: (m ++ '(' :: r)) (by simpa using a2) white_nil (ends_of hw)
  cases e6 : q5.expectDone with
  | ok _ q6 => simpa using (((expectDone_spec a5 q6).mp e6).1)
  | panic => rw [Parser.expectDone] at e6; split at e6 <;> simp at e6
  | err q6 =>
    refine ⟨q6, ?_⟩
    rw [ListOf.parseString, e1]
    simp only [Res.bind, list, loop, e2, e4, e5, e6]

/-! ## Examples -/

/-- What is written for a text, with a lightningcss that reads a single function in CSS. -/
def written (t : String) : Option String :=
  match ListOf.parseString (list fun s => if s = "translateX(1px)".toList then some s else none) t.toList with
  | .ok x _ => some (String.ofList (listText ['0'] id x))
  | _ => none

example : ["", " translate( 10,0 ) , rotate (45 , 0 0)\n", "scale(.5.5)scale(2-1)", "matrix(1 0 0 1,-5e1 .25)", "rotate(9 1 -0)skewX(1)skewY(+2)"].map written =
    [some "", some "translate(10)rotate(45)", some "scale(.5)scale(2 -1)", some "matrix(1 0 0 1 -50 .25)", some "rotate(9 1 0)skewX(1)skewY(2)"] := by
  decide +kernel

/-- A transform in CSS is read at the end only. -/
example : ["scale(2) translateX(1px)", "translateX(1px)", "translateX(1px) scale(2)", "Scale(2)", "rotate(1 2)", "matrix(1)"].map written =
    [some "scale(2)translateX(1px)", some "translateX(1px)", none, none, none, none] := by
  decide +kernel

/-- A valid text, by the grammar. -/
example : ListMeans "translate( 1 -2 ),skewX(3)".toList [.translate 1 (-2), .skewX 3] := by
  have d : ∀ c ∈ ["1", "2", "3"].map String.toList, Digits c := by unfold Digits; decide
  have n1 : Value ['1'] 1 := ⟨[], ['1'], [], [], 0, rfl, .inl rfl, d _ (by simp), .inl ⟨rfl, by simp⟩, .inl ⟨rfl, rfl⟩, by simp [decimal, tail_nil]⟩
  have n2 : Value ['-', '2'] (-2) := ⟨['-'], ['2'], [], [], 0, rfl, .inr (.inr rfl), d _ (by simp), .inl ⟨rfl, by simp⟩, .inl ⟨rfl, rfl⟩, by simp [decimal, tail_nil]⟩
  have n3 : Value ['3'] 3 := ⟨[], ['3'], [], [], 0, rfl, .inl rfl, d _ (by simp), .inl ⟨rfl, by simp⟩, .inl ⟨rfl, rfl⟩, by simp [decimal, tail_nil]⟩
  exact .inr ⟨[], _, rfl, white_nil, .more "translate( 1 -2 )".toList _ [','] _ _
    ⟨_, [], [' '], ['1', ' ', '-', '2'], [' '], _, rfl, white_nil, by simp [White], by simp [White], args_two n1 n2, .translate _ _⟩
    (.inr ⟨[], [], [','], rfl, white_nil, white_nil, .inr rfl, by simp⟩)
    (.last "skewX(3)".toList _ [] ⟨_, [], [], ['3'], [], _, rfl, white_nil, white_nil, white_nil, .one _ _ n3, .skewX _⟩ white_nil)⟩

/-- A minus sign that is not ASCII at the beginning. -/
example : ListOf.parseString (list fun _ => (none : Option Unit)) (" ".toList ++ '−' :: "1".toList) = .panic :=
  foreign_violated (by decide) (by decide) (by decide) (by simp [White])

end Verif.Moves
