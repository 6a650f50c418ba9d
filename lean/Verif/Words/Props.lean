import Verif.Words.Model
import Verif.Words.Spec
import Verif.Boxes.Sound

/-!
# Lemmas on words and names, for C95
-/

namespace Verif.Words

open Verif.Parse Verif.Clock Verif.Number Verif.Boxes

variable {p q : Parser} {pre rest r t w w' : List Char} {α : Type}

/-- No white space in front. -/
def Bare (t : List Char) : Prop := ∀ c r, t = c :: r → c.toNat ∉ whiteSpace

/-- A name of ASCII characters in front. -/
def Name (s : List Char) : Prop := ∃ c m, s = c :: m ∧ isNameStartChar c = true ∧ c.utf8Size = 1 ∧ ∀ x ∈ m, isNameChar x = true

/-- The text does not begin with an ASCII character. -/
def Foreign (t : List Char) : Prop := ∃ c r, t = c :: r ∧ c.utf8Size ≠ 1

theorem start_iff (c : Char) : isNameStartChar c = true ↔ Among xmlStart c ∧ c.toNat ≠ 0xD6 := by
  have e : c.isAlpha = true ↔ (65 ≤ c.toNat ∧ c.toNat ≤ 90) ∨ (97 ≤ c.toNat ∧ c.toNat ≤ 122) := by
    simp only [Char.isAlpha, Char.isUpper, Char.isLower, Bool.or_eq_true, Bool.and_eq_true, decide_eq_true_eq, UInt32.le_iff_toNat_le, ge_iff_le]
    exact Iff.rfl
  have e1 : ∀ d : Char, c = d ↔ c.toNat = d.toNat := fun d => ⟨fun h => by rw [h], fun h => Char.toNat_inj.mp h⟩
  have h1 : (':' : Char).toNat = 58 := by decide
  have h2 : ('_' : Char).toNat = 95 := by decide
  simp only [isNameStartChar, Bool.or_eq_true, Bool.and_eq_true, decide_eq_true_eq, beq_iff_eq, e, Among, xmlStart, List.mem_cons,
    List.not_mem_nil, or_false, exists_eq_or_imp, exists_eq_left, e1, h1, h2]
  omega

theorem char_iff (c : Char) : isNameChar c = true ↔ (Among xmlStart c ∨ Among xmlMore c) ∧ c.toNat ≠ 0xD6 := by
  have e : c.isDigit = true ↔ 48 ≤ c.toNat ∧ c.toNat ≤ 57 := by
    simp only [Char.isDigit, Bool.and_eq_true, decide_eq_true_eq, UInt32.le_iff_toNat_le, ge_iff_le]
    exact Iff.rfl
  have e1 : ∀ d : Char, c = d ↔ c.toNat = d.toNat := fun d => ⟨fun h => by rw [h], fun h => Char.toNat_inj.mp h⟩
  have h1 : ('-' : Char).toNat = 45 := by decide
  have h2 : ('.' : Char).toNat = 46 := by decide
  simp only [isNameChar, Bool.or_eq_true, Bool.and_eq_true, decide_eq_true_eq, beq_iff_eq, e, start_iff, e1, h1, h2]
  have : Among xmlMore c ↔ c.toNat = 45 ∨ c.toNat = 46 ∨ (48 ≤ c.toNat ∧ c.toNat ≤ 57) ∨ c.toNat = 0xB7 ∨ (0x300 ≤ c.toNat ∧ c.toNat ≤ 0x36F) ∨
      (0x203F ≤ c.toNat ∧ c.toNat ≤ 0x2040) := by
    simp only [Among, xmlMore, List.mem_cons, List.not_mem_nil, or_false, exists_eq_or_imp, exists_eq_left]
    omega
  rw [this]
  by_cases hA : Among xmlStart c <;> simp only [hA, true_and, false_and, true_or, false_or] <;> omega

theorem ascii_iff (c : Char) : c.utf8Size = 1 ↔ c.toNat < 128 := by
  rw [Char.utf8Size_eq_one_iff, UInt32.le_iff_toNat_le]
  change c.toNat ≤ 127 ↔ _
  omega

/-- The names that are read: without `Ö`, and with an ASCII character in front. -/
theorem name_iff (s : List Char) : Name s ↔ XmlName s ∧ Ascii s ∧ ∀ c ∈ s, c.toNat ≠ 0xD6 := by
  constructor
  · rintro ⟨c, m, rfl, h1, h2, h3⟩
    refine ⟨⟨c, m, rfl, ((start_iff c).mp h1).1, fun x hx => ((char_iff x).mp (h3 x hx)).1⟩, ⟨c, m, rfl, (ascii_iff c).mp h2⟩, ?_⟩
    intro x hx
    rcases List.mem_cons.mp hx with rfl | hx
    · exact ((start_iff x).mp h1).2
    · exact ((char_iff x).mp (h3 x hx)).2
  · rintro ⟨⟨c, m, rfl, h1, h2⟩, ⟨c', m', e, h3⟩, h4⟩
    cases e
    exact ⟨c, m, rfl, (start_iff c).mpr ⟨h1, h4 c (by simp)⟩, (ascii_iff c).mpr h3, fun x hx => (char_iff x).mpr ⟨h2 x hx, h4 x (by simp [hx])⟩⟩

theorem foreign_iff : Foreign t ↔ ¬ AsciiHead t := by
  cases t with
  | nil => simp [Foreign, AsciiHead]
  | cons c r => rw [ascii_head_cons]; simp [Foreign]

theorem ident_cases (hp : At p pre rest) :
    (Foreign rest ∧ p.expectIdent = .panic) ∨
    (∃ s r q, rest = s ++ r ∧ Name s ∧ Ends isNameChar r ∧ p.expectIdent = .ok s q ∧ At q (pre ++ s) r ∧ q.input = p.input) ∨
    (¬ Foreign rest ∧ (∀ s r, rest = s ++ r → ¬ Name s) ∧ ∃ q, p.expectIdent = .err q ∧ q.input = p.input) := by
  by_cases ha : AsciiHead rest
  · obtain ⟨q, hi, e⟩ := expectIdent_spec hp ha
    cases rest with
    | nil =>
      refine .inr (.inr ⟨by rw [foreign_iff]; exact fun h => h ha, ?_, q, e.1, hi⟩)
      rintro s r h ⟨c, m, rfl, _⟩
      simp at h
    | cons c l =>
      simp only at e
      split at e
      · rename_i hc
        refine .inr (.inl ⟨c :: l.takeWhile isNameChar, l.dropWhile isNameChar, q, ?_, ⟨c, _, rfl, hc, ascii_head_cons.mp ha, ?_⟩, ?_, e.1, e.2, hi⟩)
        · rw [List.cons_append, List.takeWhile_append_dropWhile]
        · exact fun x hx => List.all_eq_true.mp (List.all_takeWhile (p := isNameChar) (l := l)) x hx
        · intro x u hx
          have := List.head?_dropWhile_not isNameChar l
          rw [hx] at this
          simpa using this
      · rename_i hc
        refine .inr (.inr ⟨by rw [foreign_iff]; exact fun h => h ha, ?_, q, e.1, hi⟩)
        rintro s r h ⟨c', m, rfl, h1, _⟩
        simp only [List.cons_append, List.cons.injEq] at h
        rw [h.1] at hc
        exact hc h1
  · exact .inl ⟨foreign_iff.mpr ha, (expectIdent_panic_iff hp).mpr ha⟩

theorem named_cases (f : List Char → Option α) (hp : At p pre rest) :
    (Foreign rest ∧ named f p = .panic) ∨
    (∃ s r a q, rest = s ++ r ∧ Name s ∧ Ends isNameChar r ∧ f s = some a ∧ named f p = .ok a q ∧ At q (pre ++ s) r) ∨
    (¬ Foreign rest ∧ (∀ s r, rest = s ++ r → Name s → Ends isNameChar r → f s = none) ∧ named f p = .err p) := by
  rcases ident_cases hp with ⟨h, e⟩ | ⟨s, r, q, h, hs, hr, e, a, hi⟩ | ⟨h, hn, q, e, hi⟩
  · refine .inl ⟨h, ?_⟩
    simp only [named, Parser.tryParse, e, Res.bind]
  · cases hf : f s with
    | some b =>
      refine .inr (.inl ⟨s, r, b, q, h, hs, hr, hf, ?_, a⟩)
      exact tryParse_ok (by simp only [e, Res.bind, hf])
    | none =>
      refine .inr (.inr ⟨?_, ?_, tryParse_err (q := q) (by simp only [e, Res.bind, hf]) hi⟩)
      · rintro ⟨c, u, h', hc⟩
        obtain ⟨c', m, rfl, _, h2, _⟩ := hs
        rw [h] at h'
        simp only [List.cons_append, List.cons.injEq] at h'
        rw [← h'.1] at hc
        exact hc h2
      · intro s' r' h' hs' hr'
        have : s' = s := by
          obtain ⟨c, m, rfl, _, _, hm⟩ := hs
          obtain ⟨c', m', rfl, _, _, hm'⟩ := hs'
          rw [h] at h'
          simp only [List.cons_append, List.cons.injEq] at h'
          obtain ⟨rfl, h'⟩ := h'
          have key : ∀ {a b : List Char}, (∀ x ∈ a, isNameChar x = true) → Ends isNameChar b → (a ++ b).takeWhile isNameChar = a := by
            intro a b ha hb
            rw [List.takeWhile_append_of_pos ha]
            cases b with
            | nil => simp
            | cons x b => simp [hb x b rfl]
          rw [← key hm hr, ← key hm' hr', h']
        rw [this, hf]
  · exact .inr (.inr ⟨h, fun s r h' hs => absurd hs (hn s r h'), tryParse_err (q := q) (by simp only [e, Res.bind]) hi⟩)

/-- The start of a text. -/
theorem start (t : List Char) : ∃ w u p, t = w ++ u ∧ Wide w ∧ Bare u ∧ (Parser.new t).skipWhitespace = .ok () p ∧ At p w u := by
  obtain ⟨q', e1, a1, _⟩ := At.skipMatches_at (p := Parser.new t) (pre := []) (rest := t) ⟨rfl, rfl⟩ isWhitespace
  refine ⟨t.takeWhile isWhitespace, t.dropWhile isWhitespace, q', by rw [List.takeWhile_append_dropWhile], wide_take _, ?_, e1, by simpa using a1⟩
  intro c r h hm
  have := List.head?_dropWhile_not isWhitespace t
  rw [h] at this
  simp only [List.head?_cons, (whitespace_iff c).mpr hm] at this
  cases this

theorem drop_nil {f : Char → Bool} {l : List Char} (h : ∀ c ∈ l, f c = true) : l.dropWhile f = [] := by
  induction l with
  | nil => rfl
  | cons c l ih => rw [List.dropWhile_cons_of_pos (h c (by simp))]; exact ih fun x hx => h x (by simp [hx])

/-- The end of a text. -/
theorem ending (hp : At p pre rest) : ∃ q, p.skipWhitespace = .ok () q ∧ ((∃ q', q.expectDone = .ok () q') ↔ Wide rest) ∧ q.expectDone ≠ .panic := by
  obtain ⟨q, e, a, _⟩ := hp.skipMatches_at isWhitespace
  refine ⟨q, e, ⟨?_, ?_⟩, by rw [Parser.expectDone]; split <;> simp⟩
  · rintro ⟨q', h⟩
    exact rest_done hp e h
  · intro h
    have : rest.dropWhile isWhitespace = [] := by
      exact drop_nil fun c hc => (whitespace_iff c).mpr (h c hc)
    rw [this] at a
    exact ⟨q, (expectDone_spec a _).mpr ⟨rfl, rfl⟩⟩

end Verif.Words
