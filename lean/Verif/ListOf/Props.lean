import Verif.ListOf.Model
import Verif.Path.FormatLemmas

/-!
# Properties of lists of values
-/

namespace Verif.ListOf

open Verif.Parse
open Verif.Path (Fwd Moved Blank)
open Verif.Number (bind_ok)

variable {α : Type} {T : Parser → Res α} {s : Sep} {p q : Parser} {pre rest : List Char}

/-! ## The loop ends -/

theorem expectMatches_fwd {f : Char → Except Unit Bool} {r : List Char} (h : p.expectMatches f = .ok r q) :
    Fwd p q ∧ p.cursor < q.cursor := by
  simp only [Parser.expectMatches] at h
  split at h
  · cases h
  · rw [bind_ok] at h
    obtain ⟨_, q1, h1, h2⟩ := h
    rw [bind_ok] at h2
    obtain ⟨t, q2, h3, h4⟩ := h2
    split at h4
    · cases h4
    · split at h4
      · cases h4
      · next hne =>
        cases h4
        obtain ⟨rfl, hlt⟩ := Verif.Path.giveFrom_ok h3
        exact ⟨Verif.Path.skipMatches_fwd h1, hlt (by simpa using hne)⟩

theorem skipInternal_err {n : Nat} : p.skipInternal n ≠ .err q := by
  intro h
  simp only [Parser.skipInternal] at h
  repeat' split at h
  all_goals cases h

theorem expectMatches_input {f : Char → Except Unit Bool} (h : p.expectMatches f = .err q) : q.input = p.input := by
  simp only [Parser.expectMatches] at h
  cases hs : p.slice with
  | none => rw [hs] at h; cases h
  | some l =>
    rw [hs] at h
    simp only at h
    cases hm : p.skipMatches (fun c => Parser.okTrue (f c)) with
    | panic => rw [hm] at h; cases h
    | err r =>
      simp only [Parser.skipMatches, hs] at hm
      exact absurd hm skipInternal_err
    | ok u r =>
      rw [hm] at h
      simp only [Res.bind] at h
      have hf := (Verif.Path.skipMatches_fwd hm).1
      cases hg : r.giveFrom p.cursor with
      | panic => rw [hg] at h; cases h
      | err r' => simp only [Parser.giveFrom] at hg; split at hg <;> cases hg
      | ok t r' =>
        obtain ⟨rfl, _⟩ := Verif.Path.giveFrom_ok hg
        rw [hg] at h
        simp only at h
        by_cases h1 : Parser.matcherFails f l = true
        · rw [if_pos h1] at h; cases h; exact hf
        · rw [if_neg h1] at h
          by_cases h2 : t.isEmpty = true
          · rw [if_pos h2] at h; cases h; exact hf
          · rw [if_neg h2] at h; cases h

theorem afterSpace_fwd (h : afterSpace p = .ok () q) : Fwd p q := by
  simp only [afterSpace, bind_ok] at h
  obtain ⟨_, a, h1, _, b, h2, h3⟩ := h
  exact (Verif.Path.skipMatches_fwd h1).trans ((Verif.Path.skipChar_fwd h2).trans (Verif.Path.skipMatches_fwd h3))

theorem parseMatching_fwd (h : parseMatching s p = .ok () q) : Fwd p q ∧ p.cursor < q.cursor := by
  simp only [parseMatching, bind_ok] at h
  obtain ⟨_, a, h1, h2⟩ := h
  cases h2
  exact expectMatches_fwd h1

theorem parse_fwd (h : s.parse p = .ok () q) : Fwd p q ∧ p.cursor < q.cursor := by
  cases s with
  | spaceOrComma =>
    simp only [Sep.parse, parseSpaceOrComma] at h
    split at h
    · next u q1 h1 =>
      simp only [Parser.tryParse] at h1
      split at h1 <;> cases h1
      next h1 =>
      simp only [Parser.expectWhitespace, bind_ok] at h1
      obtain ⟨_, a, h1, h2⟩ := h1
      cases h2
      have h3 := expectMatches_fwd h1
      have h4 := afterSpace_fwd h
      exact ⟨h3.1.trans h4, by have := h4.2; omega⟩
    · next q1 h1 =>
      simp only [Parser.tryParse] at h1
      split at h1 <;> cases h1
      next q2 h1 =>
      have hin : q2.input = p.input := by
        simp only [Parser.expectWhitespace] at h1
        cases he : p.expectMatches (fun c => .ok (isWhitespace c)) with
        | panic => rw [he] at h1; cases h1
        | ok t r => rw [he] at h1; cases h1
        | err r => rw [he] at h1; cases h1; exact expectMatches_input he
      rw [bind_ok] at h
      obtain ⟨_, a, h2, h3⟩ := h
      have h4 := parseMatching_fwd h2
      have h5 := Verif.Path.skipMatches_fwd h3
      refine ⟨⟨h5.1.trans (h4.1.1.trans hin), ?_⟩, ?_⟩
      · have := h4.2; have := h5.2; simp only at *; omega
      · have := h4.2; have := h5.2; simp only at *; omega
    · cases h
  | space => exact parseMatching_fwd h
  | comma => exact parseMatching_fwd h
  | semicolon => exact parseMatching_fwd h

theorem maybeSkip_fwd (h : s.maybeSkip p = .ok () q) : Fwd p q := by
  cases s <;> simp only [Sep.maybeSkip] at h
  · cases h; exact .refl _
  · exact Verif.Path.skipMatches_fwd h
  · cases h; exact .refl _
  · exact Verif.Path.skipMatches_fwd h

theorem takeItem_fwd {t : List Char} (h : takeItem s p = .ok t q) : Fwd p q := by
  simp only [takeItem] at h
  split at h
  · cases h
  · rw [bind_ok] at h
    obtain ⟨_, a, h1, h2⟩ := h
    obtain ⟨rfl, _⟩ := Verif.Path.giveFrom_ok h2
    exact Verif.Path.skipInternal_fwd h1

theorem within_ok {r : Res α} {a : α} (h : within r p = .ok a q) : q = p ∧ ∃ q', r = .ok a q' := by
  cases r <;> simp [within] at h
  exact ⟨h.2.symm, _, by rw [h.1]⟩

theorem nextItem_fwd {list l : List α} (h : nextItem T s list p = .ok l q) : Fwd p q := by
  simp only [nextItem, bind_ok] at h
  obtain ⟨t, a, h1, x, b, h2, _, c, h3, h4⟩ := h
  obtain ⟨rfl, _⟩ := within_ok h2
  cases h4
  exact (takeItem_fwd h1).trans (maybeSkip_fwd h3)

/-- **C31 (termination)** The loop takes at most one round for each byte that is left: more rounds than that make no
difference. -/
theorem rounds_enough (fuel : Nat) : ∀ (k : Nat) (list : List α) (p : Parser), width p.input - p.cursor < fuel →
    rounds T s (fuel + k) list p = rounds T s fuel list p := by
  induction fuel with
  | zero => intro k list p h; omega
  | succ fuel ih =>
    intro k list p h
    rw [show fuel + 1 + k = (fuel + k) + 1 by omega, rounds, rounds]
    cases hs : s.parse p with
    | panic => rfl
    | err q => rfl
    | ok u q =>
      have h1 := parse_fwd hs
      simp only
      cases hm : s.maybeSkip q with
      | panic => rfl
      | err r => rfl
      | ok u r =>
        have h2 := maybeSkip_fwd hm
        simp only [Res.bind, ifEmpty]
        cases hl : r.len with
        | none => rfl
        | some n =>
          cases n with
          | zero => rfl
          | succ n =>
            simp only
            cases hn : nextItem T s list r with
            | panic => rfl
            | err r' => rfl
            | ok l r' =>
              simp only [andThen]
              have h3 := nextItem_fwd hn
              apply ih
              have hi : r'.input = p.input := h3.1.trans (h2.1.trans h1.1.1)
              have hlen : r.cursor < width r.input := by
                simp only [Parser.len] at hl
                split at hl
                · have := Option.some.inj hl; omega
                · cases hl
              rw [h2.1, h1.1.1] at hlen
              have := h1.2; have := h2.2; have := h3.2
              rw [hi]
              omega

/-! ## Which texts are lists -/

/-- The characters stand between two items: white space, commas, semicolons, or white space with commas. Commas and
semicolons may be repeated and may be followed (not preceded) by white space. -/
def SepText : Sep → List Char → Prop
  | .space, s => s ≠ [] ∧ Blank s
  | .comma, s => ∃ m b, s = m ++ b ∧ m ≠ [] ∧ (∀ c ∈ m, c = ',') ∧ Blank b
  | .semicolon, s => ∃ m b, s = m ++ b ∧ m ≠ [] ∧ (∀ c ∈ m, c = ';') ∧ Blank b
  | .spaceOrComma, s => ∃ a m b, s = a ++ m ++ b ∧ a ++ m ≠ [] ∧ Blank a ∧ (∀ c ∈ m, c = ',') ∧ Blank b

/-- The character separates items. -/
def IsSep : Sep → Char → Prop
  | .space, c => isWhitespace c = true
  | .comma, c => c = ','
  | .semicolon, c => c = ';'
  | .spaceOrComma, c => isWhitespace c = true ∨ c = ','

/-- The text of an item: characters that do not separate, not starting with white space. -/
def Item (s : Sep) (w : List Char) : Prop :=
  (∀ c ∈ w, ¬ IsSep s c) ∧ ∃ c t, w = c :: t ∧ isWhitespace c = false

/-- The text is at its end or goes on with a separator. -/
def Stops (s : Sep) (r : List Char) : Prop := ∀ c t, r = c :: t → IsSep s c

/-- The text behind the first item: separators and items, and white space at the end. -/
inductive Tail (T : Parser → Res α) (s : Sep) : List Char → List α → Prop
  | done {b : List Char} : Blank b → Tail T s b []
  | item {x w r : List Char} {a : α} {l : List α} {e : Parser} : SepText s x → Item s w → parseString T w = .ok a e →
      Stops s r → Tail T s r l → Tail T s (x ++ w ++ r) (a :: l)

theorem matches_iff (s : Sep) (c : Char) : s.matches c = true ↔ IsSep s c := by
  cases s <;> simp [Sep.matches, IsSep]

/-- No quotes. -/
def Unquoted (l : List Char) : Prop := '"' ∉ l ∧ '\'' ∉ l

/-- A list separated by white space or commas must not end with a comma (`skip_char` would also count it). -/
def NoComma (s : Sep) (l : List Char) : Prop := s = .spaceOrComma → l.getLast? ≠ some ','

theorem getLast_suffix {a b : List Char} {c : Char} (h : (a ++ b).getLast? ≠ some c) : b.getLast? ≠ some c := by
  intro hb
  apply h
  rw [List.getLast?_append, hb]; rfl

theorem NoComma.suffix {a b : List Char} (h : NoComma s (a ++ b)) : NoComma s b := fun hs => getLast_suffix (h hs)

theorem getLast_dropWhile {l : List Char} {c : Char} {f : Char → Bool} (h : l.getLast? ≠ some c) :
    (l.dropWhile f).getLast? ≠ some c := by
  rw [← List.takeWhile_append_dropWhile (p := f) (l := l)] at h
  exact getLast_suffix h

/-- What is left behind a separator and the white space it includes. -/
def sepRest : Sep → List Char → List Char
  | .space, l => l.dropWhile isWhitespace
  | .comma, l => (l.dropWhile (· == ',')).dropWhile isWhitespace
  | .semicolon, l => (l.dropWhile (· == ';')).dropWhile isWhitespace
  | .spaceOrComma, l => ((l.dropWhile isWhitespace).dropWhile (· == ',')).dropWhile isWhitespace

theorem matching_ok (h : At p pre rest) {c : Char} {t : List Char} (e : rest = c :: t) (hc : s.matches c = true) :
    ∃ q, parseMatching s p = .ok () q ∧ Moved p q (rest.dropWhile s.matches) := by
  obtain ⟨q, hq, hi, he⟩ := h.expectMatches (fun c => .ok (s.matches c))
  refine ⟨q, ?_, hi, _, hq⟩
  have h1 : Parser.matcherFails (fun c => .ok (s.matches c)) rest = false := by
    unfold Parser.matcherFails; split <;> rfl
  rw [h1] at he
  simp only [Parser.okTrue, e, List.takeWhile_cons, hc, if_true, List.isEmpty_cons] at he
  rw [parseMatching, he]
  rfl

theorem matching_err (h : At p pre rest) (hc : ∀ c t, rest = c :: t → s.matches c = false) :
    parseMatching s p = .err p := by
  obtain ⟨q, hq, hi, he⟩ := h.expectMatches (fun c => .ok (s.matches c))
  have h1 : Parser.matcherFails (fun c => .ok (s.matches c)) rest = false := by
    unfold Parser.matcherFails; split <;> rfl
  have h2 : rest.takeWhile s.matches = [] ∧ rest.dropWhile s.matches = rest := by
    cases rest with
    | nil => simp
    | cons c t => have := hc c t rfl; simp [List.takeWhile_cons, List.dropWhile_cons, this]
  rw [h1] at he
  simp only [Parser.okTrue, h2.1, Bool.false_eq_true, if_false, List.isEmpty_nil, if_true] at he hq
  rw [h2.2, List.append_nil] at hq
  have : q = p := by
    cases q; cases p
    simp only [Parser.mk.injEq]
    exact ⟨hi, hq.2.trans h.2.symm⟩
  rw [parseMatching, he, this]
  rfl

theorem head_dropWhile {f : Char → Bool} {l : List Char} (h : ∀ c t, l = c :: t → f c = false) : l.dropWhile f = l := by
  cases l with
  | nil => rfl
  | cons c t => simp [List.dropWhile_cons, h c t rfl]

theorem ws_try (h : At p pre rest) : p.tryParse Parser.expectWhitespace =
    match parseMatching .space p with
    | .ok _ q => .ok () q
    | .err q => .err { q with cursor := p.cursor }
    | .panic => .panic := by
  simp only [Parser.tryParse, Parser.expectWhitespace, parseMatching, Sep.matches]
  cases p.expectMatches fun c => .ok (isWhitespace c) <;> rfl

/-- The separator at a place where one stands. -/
theorem sep_ok (h : At p pre rest) (hn : NoComma s rest) {c : Char} {t : List Char} (e : rest = c :: t)
    (hc : s.matches c = true) :
    ∃ q1 q2, s.parse p = .ok () q1 ∧ s.maybeSkip q1 = .ok () q2 ∧ Moved p q2 (sepRest s rest) := by
  cases s with
  | space =>
    obtain ⟨q, e1, m⟩ := matching_ok h e hc
    exact ⟨q, q, e1, rfl, m⟩
  | comma =>
    obtain ⟨q, e1, i, a, m⟩ := matching_ok h e hc
    obtain ⟨q2, e2, m2⟩ := Verif.Path.At.ws m
    exact ⟨q, q2, e1, e2, m2.1.trans i, m2.2⟩
  | semicolon =>
    obtain ⟨q, e1, i, a, m⟩ := matching_ok h e hc
    obtain ⟨q2, e2, m2⟩ := Verif.Path.At.ws m
    exact ⟨q, q2, e1, e2, m2.1.trans i, m2.2⟩
  | spaceOrComma =>
    by_cases hw : isWhitespace c = true
    · obtain ⟨q, e1, i, a, m⟩ := matching_ok (s := .space) h e hw
      simp only [show Sep.matches .space = isWhitespace from rfl] at m
      obtain ⟨q1, e2, m1, a1, h1⟩ := Verif.Path.At.ws m
      rw [head_dropWhile (l := rest.dropWhile isWhitespace) (fun c t hh => by
        have := List.head?_dropWhile_not isWhitespace rest
        rw [hh] at this; simpa using this)] at h1
      have hx : ((rest.dropWhile isWhitespace).dropWhile (· == ',')).getLast? ≠ some ',' :=
        getLast_dropWhile (getLast_dropWhile (hn rfl))
      have e3 := (skipChar_iff h1 ',').mpr hx
      have h2 : At p pre rest := h
      have h3 : At { q1 with cursor := q1.cursor + width ((rest.dropWhile isWhitespace).takeWhile (· == ',')) }
          (a1 ++ (rest.dropWhile isWhitespace).takeWhile (· == ',')) ((rest.dropWhile isWhitespace).dropWhile (· == ',')) :=
        At.moved (by simpa using h1)
      obtain ⟨q4, e4, m4⟩ := Verif.Path.At.ws h3
      refine ⟨q4, q4, ?_, rfl, m4.1.trans (m1.trans i), m4.2⟩
      simp only [Sep.parse, parseSpaceOrComma, ws_try h, e1, afterSpace, e2, Res.bind, e3, e4]
    · have hf : isWhitespace c = false := by simpa using hw
      have hcc : Sep.matches .comma c = true := by
        simp only [Sep.matches, hf, Bool.false_or] at hc ⊢; exact hc
      have e0 := matching_err (s := .space) h (fun c' t' e' => by rw [e] at e'; cases e'; exact hf)
      obtain ⟨q, e1, i, a, m⟩ := matching_ok (s := .comma) h e hcc
      obtain ⟨q2, e2, m2⟩ := Verif.Path.At.ws m
      refine ⟨q2, q2, ?_, rfl, m2.1.trans i, ?_⟩
      · simp only [Sep.parse, parseSpaceOrComma, ws_try h, e0, e1, e2, Res.bind]
      · have : rest.dropWhile isWhitespace = rest := head_dropWhile (fun c' t' e' => by rw [e] at e'; cases e'; exact hf)
        rw [sepRest, this]
        exact m2.2

/-- The separator at a place where none stands. -/
theorem sep_err (h : At p pre rest) (hc : ∀ c t, rest = c :: t → s.matches c = false) : s.parse p = .err p := by
  cases s with
  | space => exact matching_err h hc
  | comma => exact matching_err h hc
  | semicolon => exact matching_err h hc
  | spaceOrComma =>
    have e0 := matching_err (s := .space) h (fun c t e => by
      have := hc c t e; simp only [Sep.matches, Bool.or_eq_false_iff] at this ⊢; exact this.1)
    have e1 := matching_err (s := .comma) h (fun c t e => by
      have := hc c t e; simp only [Sep.matches, Bool.or_eq_false_iff] at this ⊢; exact this.2)
    simp only [Sep.parse, parseSpaceOrComma, ws_try h, e0, e1, Res.bind]

theorem item_at (h : At p pre rest) (hu : Unquoted rest) :
    ∃ q, takeItem s p = .ok (rest.takeWhile fun c => !s.matches c) q ∧ Moved p q (rest.dropWhile fun c => !s.matches c) := by
  have h1 : itemRest s rest = rest.dropWhile fun c => !s.matches c := by
    have h2 : ∀ c, c ∉ rest → rest.head? ≠ some c := fun c hc hh => hc (List.mem_of_mem_head? hh)
    rw [itemRest, if_neg (h2 _ hu.1), if_neg (h2 _ hu.2)]
  have h' : At p pre ((rest.takeWhile fun c => !s.matches c) ++ rest.dropWhile fun c => !s.matches c) := by simpa using h
  refine ⟨{ p with cursor := p.cursor + width (rest.takeWhile fun c => !s.matches c) }, ?_, rfl, _, h'.moved⟩
  simp only [takeItem, h.slice, h1, h'.skipInternal, Res.bind]
  exact h'.giveFrom h'.moved

/-- Going on with the loop behind an item. -/
def goOn (T : Parser → Res α) (s : Sep) (fuel : Nat) (list : List α) (q : Parser) : Res α → Res (List α)
  | .ok a _ => rounds T s fuel (list ++ [a]) q
  | .err _ => .err q
  | .panic => .panic

/-- One round of the loop, in terms of the text. -/
theorem round_item {fuel : Nat} {list : List α} (h : At p pre rest) (hn : NoComma s rest) (hu : Unquoted rest) {c : Char}
    {t : List Char} (e : rest = c :: t) (hc : s.matches c = true) (hr : sepRest s rest ≠ []) :
    ∃ q, Moved p q ((sepRest s rest).dropWhile fun c => !s.matches c) ∧
      rounds T s (fuel + 1) list p =
        goOn T s fuel list q (parseString T ((sepRest s rest).takeWhile fun c => !s.matches c)) := by
  obtain ⟨q1, q2, e1, e2, i2, a2, h2⟩ := sep_ok h hn e hc
  have hu2 : Unquoted (sepRest s rest) := by
    have : ∀ c, c ∈ sepRest s rest → c ∈ rest := by
      intro c hc
      have h3 := h2.1
      have sub : sepRest s rest <:+ rest := by
        cases s with
        | space => exact List.dropWhile_suffix _
        | comma => exact (List.dropWhile_suffix _).trans (List.dropWhile_suffix _)
        | semicolon => exact (List.dropWhile_suffix _).trans (List.dropWhile_suffix _)
        | spaceOrComma => exact (List.dropWhile_suffix _).trans ((List.dropWhile_suffix _).trans (List.dropWhile_suffix _))
      exact sub.mem hc
    exact ⟨fun h => hu.1 (this _ h), fun h => hu.2 (this _ h)⟩
  obtain ⟨q3, e3, i3, a3, h3⟩ := item_at (s := s) h2 hu2
  have e4 : s.maybeSkip q3 = .ok () q3 := by
    have hw : ∀ (_ : ∀ c, s.matches c = true → isWhitespace c = false), q3.skipWhitespace = .ok () q3 := by
      intro hs
      obtain ⟨q4, e4, m4⟩ := Verif.Path.At.ws h3
      rw [head_dropWhile (f := isWhitespace)] at m4
      · rw [e4]
        rw [m4.unique ⟨rfl, a3, h3⟩]
      · intro c t hh
        have := List.head?_dropWhile_not (fun c => !s.matches c) (sepRest s rest)
        rw [hh] at this
        exact hs c (by simpa using this)
    cases s with
    | space => rfl
    | spaceOrComma => rfl
    | comma => exact hw (by intro c hc; simp only [Sep.matches, beq_iff_eq] at hc; rw [hc]; decide)
    | semicolon => exact hw (by intro c hc; simp only [Sep.matches, beq_iff_eq] at hc; rw [hc]; decide)
  refine ⟨q3, ⟨i3.trans i2, a3, h3⟩, ?_⟩
  obtain ⟨n, hl⟩ : ∃ n, q2.len = some (n + 1) := by
    obtain ⟨c', t', e'⟩ := List.exists_cons_of_ne_nil hr
    rw [h2.len, e', width_cons]
    have := size_pos c'
    exact ⟨c'.utf8Size + width t' - 1, by congr 1; omega⟩
  rw [rounds]
  simp only [e1, e2, Res.bind, ifEmpty, hl, nextItem, e3]
  cases parseString T ((sepRest s rest).takeWhile fun c => !s.matches c) with
  | panic => rfl
  | err q => rfl
  | ok a q => simp only [within, e4, andThen, goOn]

theorem round_end {fuel : Nat} {list : List α} (h : At p pre rest) (hn : NoComma s rest)
    (hr : (∀ c t, rest = c :: t → s.matches c = false) ∨ sepRest s rest = []) :
    rounds T s (fuel + 1) list p = .ok list p := by
  by_cases hc : ∀ c t, rest = c :: t → s.matches c = false
  · rw [rounds, sep_err h hc]
  · have hr := hr.resolve_left hc
    have : ∃ c t, rest = c :: t ∧ s.matches c = true := by
      cases rest with
      | nil => exact absurd (fun c t e => by cases e) hc
      | cons c t =>
        refine ⟨c, t, rfl, ?_⟩
        cases hm : s.matches c with
        | true => rfl
        | false => exact absurd (fun c' t' e => by cases e; exact hm) hc
    obtain ⟨c, t, e, hc⟩ := this
    obtain ⟨q1, q2, e1, e2, i2, a2, h2⟩ := sep_ok h hn e hc
    rw [hr] at h2
    rw [rounds]
    simp only [e1, e2, Res.bind, ifEmpty, h2.len, width_nil]
    congr 1
    cases p; cases q2
    simp only [Parser.mk.injEq, and_true]
    exact i2

/-- What a separator takes off a text is the text of a separator. -/
theorem sepRest_split {c : Char} {t : List Char} (e : rest = c :: t) (hc : s.matches c = true) :
    ∃ x, SepText s x ∧ rest = x ++ sepRest s rest := by
  have hb : ∀ l : List Char, Blank (l.takeWhile isWhitespace) := fun l c hc => by
    have := List.all_takeWhile (p := isWhitespace) (l := l)
    exact List.all_eq_true.mp this c hc
  have hs : ∀ (d : Char) (l : List Char), ∀ c ∈ l.takeWhile (· == d), c = d := fun d l c hc => by
    have := List.all_takeWhile (p := (· == d)) (l := l)
    simpa using List.all_eq_true.mp this c hc
  cases s with
  | space =>
    refine ⟨rest.takeWhile isWhitespace, ⟨?_, hb _⟩, by simp [sepRest]⟩
    simp only [Sep.matches] at hc
    simp [e, List.takeWhile_cons, hc]
  | comma =>
    refine ⟨rest.takeWhile (· == ',') ++ (rest.dropWhile (· == ',')).takeWhile isWhitespace, ⟨_, _, rfl, ?_, hs _ _, hb _⟩, ?_⟩
    · simp only [Sep.matches] at hc
      simp [e, List.takeWhile_cons, hc]
    · simp [sepRest]
  | semicolon =>
    refine ⟨rest.takeWhile (· == ';') ++ (rest.dropWhile (· == ';')).takeWhile isWhitespace, ⟨_, _, rfl, ?_, hs _ _, hb _⟩, ?_⟩
    · simp only [Sep.matches] at hc
      simp [e, List.takeWhile_cons, hc]
    · simp [sepRest]
  | spaceOrComma =>
    refine ⟨rest.takeWhile isWhitespace ++ (rest.dropWhile isWhitespace).takeWhile (· == ',') ++
      ((rest.dropWhile isWhitespace).dropWhile (· == ',')).takeWhile isWhitespace, ⟨_, _, _, rfl, ?_, hb _, hs _ _, hb _⟩, ?_⟩
    · simp only [Sep.matches, Bool.or_eq_true, beq_iff_eq] at hc
      by_cases hw : isWhitespace c = true
      · simp [e, List.takeWhile_cons, hw]
      · have := hc.resolve_left hw
        subst this
        have h1 : rest.dropWhile isWhitespace = rest := by rw [e, List.dropWhile_cons, if_neg hw]
        rw [h1, e, List.takeWhile_cons_of_pos (p := (· == ',')) (by rfl)]
        simp
    · simp [sepRest]

theorem dropWhile_past {f : Char → Bool} {a b : List Char} (h : ∀ c ∈ a, f c = true) (hb : ∀ c t, b = c :: t → f c = false) :
    (a ++ b).dropWhile f = b := by
  rw [List.dropWhile_append_of_pos h, head_dropWhile hb]

/-- Behind the text of a separator an item is found. -/
theorem sepRest_eq {x w r : List Char} (hx : SepText s x) (hw : Item s w) :
    sepRest s (x ++ w ++ r) = w ++ r ∧ ∃ c t, x ++ w ++ r = c :: t ∧ s.matches c = true := by
  obtain ⟨hm, c, t, rfl, hc⟩ := hw
  have hc' := hm c (by simp)
  have nb : ∀ c' t', c :: t ++ r = c' :: t' → isWhitespace c' = false := fun c' t' e => by
    simp only [List.cons_append, List.cons.injEq] at e; rw [← e.1]; exact hc
  have heads : ∀ {a b : List Char}, a ≠ [] → (∀ c ∈ a, s.matches c = true) → ∃ c t, a ++ b = c :: t ∧ s.matches c = true := by
    intro a b ha hb
    obtain ⟨c, t, rfl⟩ := List.exists_cons_of_ne_nil ha
    exact ⟨c, t ++ b, rfl, hb c (by simp)⟩
  cases s with
  | space =>
    refine ⟨?_, ?_⟩
    · rw [sepRest, List.append_assoc]; exact dropWhile_past hx.2 nb
    · rw [List.append_assoc]; exact heads hx.1 hx.2
  | comma =>
    obtain ⟨m, b, rfl, h1, h2, h3⟩ := hx
    have h2' : ∀ c ∈ m, (c == ',') = true := fun c hc => by simp [h2 c hc]
    refine ⟨?_, ?_⟩
    · rw [sepRest, List.append_assoc, List.append_assoc, dropWhile_past h2', dropWhile_past h3 nb]
      intro c' t' e
      cases b with
      | nil => simp only [List.nil_append, List.cons_append, List.cons.injEq] at e; rw [← e.1]; simpa [IsSep] using hc'
      | cons y b =>
        simp only [List.cons_append, List.cons.injEq] at e
        have := h3 y (by simp)
        rw [e.1] at this
        simp only [beq_eq_false_iff_ne]
        rintro rfl; exact absurd this (by decide)
    · rw [List.append_assoc, List.append_assoc]; exact heads h1 h2'
  | semicolon =>
    obtain ⟨m, b, rfl, h1, h2, h3⟩ := hx
    have h2' : ∀ c ∈ m, (c == ';') = true := fun c hc => by simp [h2 c hc]
    refine ⟨?_, ?_⟩
    · rw [sepRest, List.append_assoc, List.append_assoc, dropWhile_past h2', dropWhile_past h3 nb]
      intro c' t' e
      cases b with
      | nil => simp only [List.nil_append, List.cons_append, List.cons.injEq] at e; rw [← e.1]; simpa [IsSep] using hc'
      | cons y b =>
        simp only [List.cons_append, List.cons.injEq] at e
        have := h3 y (by simp)
        rw [e.1] at this
        simp only [beq_eq_false_iff_ne]
        rintro rfl; exact absurd this (by decide)
    · rw [List.append_assoc, List.append_assoc]; exact heads h1 h2'
  | spaceOrComma =>
    obtain ⟨a, m, b, rfl, h1, h0, h2, h3⟩ := hx
    have h2' : ∀ c ∈ m, (c == ',') = true := fun c hc => by simp [h2 c hc]
    simp only [IsSep, not_or] at hc'
    refine ⟨?_, ?_⟩
    · rw [sepRest]
      by_cases hme : m = []
      · subst hme
        rw [List.append_nil] at *
        have : ∀ c ∈ a ++ b, isWhitespace c = true := fun c hc => by
          rcases List.mem_append.mp hc with h | h
          · exact h0 c h
          · exact h3 c h
        rw [List.append_assoc (a ++ b) (c :: t) r, dropWhile_past this nb, head_dropWhile (f := (· == ',')), head_dropWhile nb]
        intro c' t' e
        simp only [List.cons_append, List.cons.injEq] at e; rw [← e.1]; simpa using hc'.2
      · obtain ⟨y, m', rfl⟩ := List.exists_cons_of_ne_nil hme
        rw [List.append_assoc, List.append_assoc, List.append_assoc, dropWhile_past h0, dropWhile_past h2', dropWhile_past h3 nb]
        · intro c' t' e
          cases b with
          | nil => simp only [List.nil_append, List.cons_append, List.cons.injEq] at e; rw [← e.1]; simpa using hc'.2
          | cons y b =>
            simp only [List.cons_append, List.cons.injEq] at e
            have := h3 y (by simp)
            rw [e.1] at this
            simp only [beq_eq_false_iff_ne]
            rintro rfl; exact absurd this (by decide)
        · intro c' t' e
          simp only [List.cons_append, List.cons.injEq] at e
          rw [← e.1, h2 y (by simp)]; decide
    · rw [List.append_assoc, List.append_assoc]
      apply heads h1
      intro c hc
      rcases List.mem_append.mp hc with h | h
      · simp [Sep.matches, h0 c h]
      · simp [Sep.matches, h2 c h]

theorem stops_iff {r : List Char} : Stops s r ↔ ∀ c t, r = c :: t → (!s.matches c) = false := by
  simp only [Stops, ← matches_iff]
  simp

theorem takeWhile_past {f : Char → Bool} {a b : List Char} (h : ∀ c ∈ a, f c = true) (hb : ∀ c t, b = c :: t → f c = false) :
    (a ++ b).takeWhile f = a := by
  rw [List.takeWhile_append_of_pos h]
  cases b with
  | nil => simp
  | cons c t => simp [List.takeWhile_cons, hb c t rfl]

theorem Unquoted.suffix {a b : List Char} (h : Unquoted (a ++ b)) : Unquoted b :=
  ⟨fun hb => h.1 (List.mem_append.mpr (.inr hb)), fun hb => h.2 (List.mem_append.mpr (.inr hb))⟩

/-- The loop, exactly: it gets through with only white space left iff the text is separators and items. -/
theorem rounds_iff (hT : ∀ a e, T (Parser.new []) ≠ .ok a e) (fuel : Nat) :
    ∀ {rest pre : List Char} {p : Parser} {list L : List α}, At p pre rest → rest.length < fuel → NoComma s rest → Unquoted rest →
    ((∃ q z, rounds T s fuel list p = .ok L q ∧ Moved p q z ∧ Blank z) ↔ ∃ l, L = list ++ l ∧ Tail T s rest l) := by
  induction fuel with
  | zero => intro rest pre p list L _ h; omega
  | succ fuel ih =>
    intro rest pre p list L h hf hn hu
    have hstop : ∀ (_ : (∀ c t, rest = c :: t → s.matches c = false) ∨ sepRest s rest = []),
        ((∃ q z, rounds T s (fuel + 1) list p = .ok L q ∧ Moved p q z ∧ Blank z) ↔ ∃ l, L = list ++ l ∧ Tail T s rest l) := by
      intro hr
      rw [round_end h hn hr]
      constructor
      · rintro ⟨q, z, e, m, hz⟩
        cases e
        obtain ⟨_, a, ha⟩ := m
        obtain ⟨_, rfl⟩ := ha.unique h
        exact ⟨[], by simp, .done hz⟩
      · rintro ⟨l, rfl, hl⟩
        cases hl with
        | done hb => exact ⟨p, rest, by simp, ⟨rfl, _, h⟩, hb⟩
        | @item x w r a l e hx hw ha hst hl =>
          obtain ⟨e1, c, t, e2, hc⟩ := sepRest_eq (r := r) hx hw
          rcases hr with hr | hr
          · rw [hr c t e2] at hc; cases hc
          · rw [e1] at hr
            obtain ⟨_, c', t', rfl, _⟩ := hw
            cases hr
    by_cases hc : ∀ c t, rest = c :: t → s.matches c = false
    · exact hstop (.inl hc)
    · by_cases hr : sepRest s rest = []
      · exact hstop (.inr hr)
      · have : ∃ c t, rest = c :: t ∧ s.matches c = true := by
          cases rest with
          | nil => exact absurd (fun c t e => by cases e) hc
          | cons c t =>
            refine ⟨c, t, rfl, ?_⟩
            cases hm : s.matches c with
            | true => rfl
            | false => exact absurd (fun c' t' e => by cases e; exact hm) hc
        obtain ⟨c, t, e, hc⟩ := this
        obtain ⟨q, ⟨i, a', hq⟩, hround⟩ := round_item (T := T) (fuel := fuel) (list := list) h hn hu e hc hr
        obtain ⟨x, hx, hsplit⟩ := sepRest_split e hc
        have hxne : x ≠ [] := by
          rintro rfl
          cases s with
          | space => exact hx.1 rfl
          | comma => obtain ⟨m, b, h1, h2, _⟩ := hx; simp at h1; exact h2 h1.1
          | semicolon => obtain ⟨m, b, h1, h2, _⟩ := hx; simp at h1; exact h2 h1.1
          | spaceOrComma => obtain ⟨a, m, b, h1, h2, _⟩ := hx; simp at h1; exact h2 (by simp [h1.1, h1.2])
        generalize hsr : sepRest s rest = sr at *
        generalize hw : sr.takeWhile (fun c => !s.matches c) = w at *
        generalize hr' : sr.dropWhile (fun c => !s.matches c) = r at *
        have hwr : sr = w ++ r := by rw [← hw, ← hr']; simp
        have hst : Stops s r := stops_iff.mpr fun c t e => by
          have := List.head?_dropWhile_not (fun c => !s.matches c) sr
          rw [hr', e] at this; simpa using this
        have hlen : r.length < fuel := by
          rw [hsplit, hwr] at hf
          have := List.length_pos_iff.mpr hxne
          simp only [List.length_append] at hf
          omega
        have hn' : NoComma s r := by rw [hsplit, hwr, ← List.append_assoc] at hn; exact hn.suffix
        have hu' : Unquoted r := by rw [hsplit, hwr, ← List.append_assoc] at hu; exact hu.suffix
        have hall : ∀ c ∈ w, ¬ IsSep s c := by
          intro c hc
          have := List.all_takeWhile (p := fun c => !s.matches c) (l := sr)
          rw [hw] at this
          have := List.all_eq_true.mp this c hc
          rw [← matches_iff]
          simpa using this
        rw [hround]
        constructor
        · rintro ⟨q', z, e', m, hz⟩
          cases hp : parseString T w with
          | panic => rw [hp] at e'; cases e'
          | err _ => rw [hp] at e'; cases e'
          | ok a e2 =>
            rw [hp] at e'
            obtain ⟨l, rfl, hl⟩ := (ih hq hlen hn' hu').mp ⟨q', z, e', ⟨m.1.trans i.symm, m.2⟩, hz⟩
            refine ⟨a :: l, by simp, ?_⟩
            rw [hsplit, hwr, ← List.append_assoc]
            refine .item hx ⟨hall, ?_⟩ hp hst hl
            cases w with
            | nil =>
              exfalso
              simp only [parseString] at hp
              have h0 : (Parser.new []).skipWhitespace = .ok () (Parser.new []) := by decide +kernel
              rw [h0] at hp
              simp only [Res.bind] at hp
              cases ht : T (Parser.new []) with
              | ok a' e' => exact hT _ _ ht
              | err _ => rw [ht] at hp; cases hp
              | panic => rw [ht] at hp; cases hp
            | cons c0 t0 =>
              refine ⟨c0, t0, rfl, ?_⟩
              have hh : ∀ c t, sepRest s rest = c :: t → isWhitespace c = false ∨ s.matches c = true := by
                intro c t hct
                have key : ∀ m : List Char, m.dropWhile isWhitespace = c :: t → isWhitespace c = false := fun m hm => by
                  have := List.head?_dropWhile_not isWhitespace m
                  rw [hm] at this; simpa using this
                cases s with
                | space => exact .inl (key _ hct)
                | comma => exact .inl (key _ hct)
                | semicolon => exact .inl (key _ hct)
                | spaceOrComma => exact .inl (key _ hct)
              rcases hh c0 (t0 ++ r) (by rw [hsr, hwr]; rfl) with h | h
              · exact h
              · exact absurd ((matches_iff _ _).mp h) (hall c0 (by simp))
        · rintro ⟨l, rfl, hl⟩
          generalize hg : rest = rest' at hl
          cases hl with
          | done hb =>
            subst hg
            exfalso
            have : Blank sr := fun c hc => hb c (by rw [hsplit]; exact List.mem_append.mpr (.inr hc))
            obtain ⟨c0, t0, hsr0⟩ := List.exists_cons_of_ne_nil hr
            have h1 : isWhitespace c0 = true := this c0 (by rw [hsr0]; simp)
            have key : ∀ m : List Char, m.dropWhile isWhitespace = c0 :: t0 → False := fun m hm => by
              have := List.head?_dropWhile_not isWhitespace m
              rw [hm] at this; simp [h1] at this
            rw [hsr0] at hsr
            cases s with
            | space => exact key _ hsr
            | comma => exact key _ hsr
            | semicolon => exact key _ hsr
            | spaceOrComma => exact key _ hsr
          | @item x' w' r' a l e'' hx' hw' ha hst' hl =>
            obtain ⟨e1, _⟩ := sepRest_eq (r := r') hx' hw'
            rw [hg, e1] at hsr
            have h1 : ∀ c ∈ w', (!s.matches c) = true := fun c hc => by
              have := hw'.1 c hc; rw [← matches_iff] at this; simpa using this
            have e3 : w = w' := by rw [← hw, ← hsr]; exact takeWhile_past h1 (stops_iff.mp hst')
            have e4 : r = r' := by rw [← hr', ← hsr]; exact dropWhile_past h1 (stops_iff.mp hst')
            subst e3 e4
            rw [ha]
            obtain ⟨q', z, h1, h2, h3⟩ := (ih (list := list ++ [a]) hq hlen hn' hu').mpr ⟨l, rfl, hl⟩
            refine ⟨q', z, ?_, ⟨h2.1.trans i, h2.2⟩, h3⟩
            rw [goOn, h1]
            simp

theorem at_new (l : List Char) : At (Parser.new l) [] l := ⟨rfl, rfl⟩

theorem length_le_width (l : List Char) : l.length ≤ width l := by
  induction l with
  | nil => simp
  | cons c l ih => rw [width_cons, List.length_cons]; have := size_pos c; omega

/-- The text of a list. Either the first item is read to its end and separators and items follow; or there is a single
item, reading it fails at its end, and the list is empty. -/
inductive ListText (T : Parser → Res α) (s : Sep) : List Char → List α → Prop
  | items {w r : List Char} {a : α} {l : List α} {e : Parser} : (∀ c ∈ w, ¬ IsSep s c) → Stops s r →
      T (Parser.new w) = .ok a e → e.len = some 0 → Tail T s r l → ListText T s (w ++ r) (a :: l)
  | empty {w b : List Char} {e : Parser} : (∀ c ∈ w, ¬ IsSep s c) → Stops s b → T (Parser.new w) = .err e →
      e.len = some 0 → Blank b → ListText T s (w ++ b) []

theorem done_iff {q : Parser} {z pre : List Char} (h : At q pre z) :
    (∃ q1 q2, q.skipWhitespace = .ok () q1 ∧ q1.expectDone = .ok () q2) ↔ Blank z := by
  obtain ⟨q1, e2, m, a1, h1⟩ := Verif.Path.At.ws h
  constructor
  · rintro ⟨q1', q2, h2, h3⟩
    rw [e2] at h2; cases h2
    have h2 := ((expectDone_spec h1 _).mp h3).1
    intro c hc
    have h4 : z = z.takeWhile isWhitespace := by
      conv => lhs; rw [← List.takeWhile_append_dropWhile (p := isWhitespace) (l := z), h2, List.append_nil]
    rw [h4] at hc
    exact List.all_eq_true.mp (List.all_takeWhile (p := isWhitespace) (l := z)) c hc
  · intro h2
    refine ⟨q1, q1, e2, (expectDone_spec h1 _).mpr ⟨?_, rfl⟩⟩
    have := dropWhile_past (f := isWhitespace) (a := z) (b := []) h2 (by simp)
    simpa using this

theorem parseString_iff {U : Parser → Res α} {text : List Char} {L : α} : (∃ q, parseString U text = .ok L q) ↔
    ∃ q, U ⟨text, width (text.takeWhile isWhitespace)⟩ = .ok L q ∧
      ∃ q1 q2, q.skipWhitespace = .ok () q1 ∧ q1.expectDone = .ok () q2 := by
  have e1 : (Parser.new text).skipWhitespace = .ok () ⟨text, width (text.takeWhile isWhitespace)⟩ := by
    have := (at_new text).skipMatches isWhitespace
    rw [Parser.skipWhitespace, this]
    simp [Parser.new]
  simp only [parseString, e1, bind_ok]
  constructor
  · rintro ⟨q, _, p1, h1, a, p2, h2, _, p3, h3, _, p4, h4, h5⟩
    cases h1; cases h5
    exact ⟨p2, h2, p3, q, h3, h4⟩
  · rintro ⟨q, h1, q1, q2, h2, h3⟩
    exact ⟨q2, (), _, rfl, L, q, h1, (), q1, h2, (), q2, h3, rfl⟩

theorem rounds_moved (hT : ∀ a e, T (Parser.new []) ≠ .ok a e) (fuel : Nat) :
    ∀ {rest pre : List Char} {p q : Parser} {list L : List α}, At p pre rest → NoComma s rest → Unquoted rest →
    rounds T s fuel list p = .ok L q → ∃ z, Moved p q z := by
  induction fuel with
  | zero => intro rest pre p q list L _ _ _ h; cases h
  | succ fuel ih =>
    intro rest pre p q list L h hn hu hr
    by_cases hc : (∀ c t, rest = c :: t → s.matches c = false) ∨ sepRest s rest = []
    · rw [round_end h hn hc] at hr
      cases hr
      exact ⟨rest, rfl, _, h⟩
    · simp only [not_or] at hc
      have : ∃ c t, rest = c :: t ∧ s.matches c = true := by
        cases rest with
        | nil => exact absurd (fun c t e => by cases e) hc.1
        | cons c t =>
          refine ⟨c, t, rfl, ?_⟩
          cases hm : s.matches c with
          | true => rfl
          | false => exact absurd (fun c' t' e => by cases e; exact hm) hc.1
      obtain ⟨c, t, e, hm⟩ := this
      obtain ⟨q', ⟨i, a', hq⟩, hround⟩ := round_item (T := T) (fuel := fuel) (list := list) h hn hu e hm hc.2
      obtain ⟨x, _, hx⟩ := sepRest_split e hm
      have hsplit : rest = (x ++ (sepRest s rest).takeWhile fun c => !s.matches c) ++ (sepRest s rest).dropWhile fun c => !s.matches c := by
        conv => lhs; rw [hx]
        simp
      rw [hround] at hr
      cases hp : parseString T ((sepRest s rest).takeWhile fun c => !s.matches c) with
      | panic => rw [hp] at hr; cases hr
      | err _ => rw [hp] at hr; cases hr
      | ok a e =>
        rw [hp] at hr
        obtain ⟨z, m⟩ := ih hq (by rw [hsplit] at hn; exact hn.suffix) (by rw [hsplit] at hu; exact hu.suffix) hr
        exact ⟨z, m.1.trans i, m.2⟩

/-- **C31 (exact)** For every parser of items that does not accept the empty text, every separator and every text without
quotation marks (and not ending with a comma, where white space or commas separate): the text is parsed as the list `L`
iff, apart from white space in front, it is a first item that is read to its end, followed by separators and items that
are parsed as the values of `L`; or `L` is empty and there is only one item, which is refused at its very end. -/
theorem list_iff (hT : ∀ a e, T (Parser.new []) ≠ .ok a e) {text : List Char} (hn : NoComma s text) (hu : Unquoted text)
    {L : List α} : (∃ q, parseString (parseList T s) text = .ok L q) ↔ ListText T s (text.dropWhile isWhitespace) L := by
  rw [parseString_iff]
  have h0 : At ⟨text, width (text.takeWhile isWhitespace)⟩ (text.takeWhile isWhitespace) (text.dropWhile isWhitespace) :=
    ⟨by simp, rfl⟩
  have hsp : text = text.takeWhile isWhitespace ++ text.dropWhile isWhitespace := by simp
  have hn1 : NoComma s (text.dropWhile isWhitespace) := by rw [hsp] at hn; exact hn.suffix
  have hu1 : Unquoted (text.dropWhile isWhitespace) := by rw [hsp] at hu; exact hu.suffix
  generalize hp : (⟨text, width (text.takeWhile isWhitespace)⟩ : Parser) = p at *
  generalize ht : text.dropWhile isWhitespace = t at *
  obtain ⟨q, e1, i, a, hq⟩ := item_at (s := s) h0 hu1
  generalize hw : t.takeWhile (fun c => !s.matches c) = w at *
  generalize hr : t.dropWhile (fun c => !s.matches c) = r at *
  have hwr : t = w ++ r := by rw [← hw, ← hr]; simp
  have hst : Stops s r := stops_iff.mpr fun c u e => by
    have := List.head?_dropWhile_not (fun c => !s.matches c) t
    rw [hr, e] at this; simpa using this
  have hall : ∀ c ∈ w, ¬ IsSep s c := by
    intro c hc
    have := List.all_takeWhile (p := fun c => !s.matches c) (l := t)
    rw [hw] at this
    have := List.all_eq_true.mp this c hc
    rw [← matches_iff]
    simpa using this
  have huniq : ∀ w' r', t = w' ++ r' → (∀ c ∈ w', ¬ IsSep s c) → Stops s r' → w' = w ∧ r' = r := by
    intro w' r' e h1 h2
    have h1' : ∀ c ∈ w', (!s.matches c) = true := fun c hc => by
      have := h1 c hc; rw [← matches_iff] at this; simpa using this
    refine ⟨?_, ?_⟩
    · rw [← hw, e]; exact (takeWhile_past h1' (stops_iff.mp h2)).symm
    · rw [← hr, e]; exact (dropWhile_past h1' (stops_iff.mp h2)).symm
  have hn2 : NoComma s r := by rw [hwr] at hn1; exact hn1.suffix
  have hu2 : Unquoted r := by rw [hwr] at hu1; exact hu1.suffix
  have hlen : r.length < width q.input + 1 := by
    rw [hq.1, width_append]
    have := length_le_width r
    omega
  have hpl : parseList T s p = firstItem T s (T (Parser.new w)) q := by simp only [parseList, e1, Res.bind]
  rw [hpl]
  constructor
  · rintro ⟨q', h1, q1, q2, h2, h3⟩
    rw [hwr]
    cases hTw : T (Parser.new w) with
    | panic => rw [hTw] at h1; cases h1
    | ok a0 e0 =>
      rw [hTw] at h1
      simp only [firstItem, ifEmpty] at h1
      split at h1
      · cases h1
      · next hl =>
        obtain ⟨z, i', a', hz⟩ := rounds_moved hT _ hq hn2 hu2 h1
        have hb := (done_iff hz).mp ⟨q1, q2, h2, h3⟩
        obtain ⟨l, rfl, hl'⟩ := (rounds_iff hT _ hq hlen hn2 hu2).mp ⟨q', z, h1, ⟨i', a', hz⟩, hb⟩
        exact .items hall hst hTw hl hl'
      · cases h1
    | err e0 =>
      rw [hTw] at h1
      simp only [firstItem, ifEmpty] at h1
      split at h1
      · cases h1
      · next hl =>
        cases h1
        exact .empty hall hst hTw hl ((done_iff hq).mp ⟨q1, q2, h2, h3⟩)
      · cases h1
  · intro h
    generalize hg : t = t' at h
    cases h with
    | @items w' r' a0 l e0 h1 h2 h3 h4 h5 =>
      obtain ⟨rfl, rfl⟩ := huniq _ _ hg h1 h2
      obtain ⟨q', z, e2, ⟨_, a', hz⟩, hb⟩ := (rounds_iff hT _ (list := [a0]) hq hlen hn2 hu2).mpr ⟨l, rfl, h5⟩
      refine ⟨q', ?_, (done_iff hz).mpr hb⟩
      simp only [h3, firstItem, ifEmpty, h4, e2]
      rfl
    | @empty w' b e0 h1 h2 h3 h4 h5 =>
      obtain ⟨rfl, rfl⟩ := huniq _ _ hg h1 h2
      refine ⟨q, ?_, (done_iff hq).mpr h5⟩
      simp only [h3, firstItem, ifEmpty, h4]

/-! ## Lists that were written -/

/-- The text between items that is written. -/
theorem sep_text (s : Sep) : SepText s [s.text] := by
  cases s with
  | space => exact ⟨by simp, by intro c hc; simp [Sep.text] at hc; rw [hc]; decide⟩
  | comma => exact ⟨[','], [], rfl, by simp, by simp, by simp [Blank]⟩
  | semicolon => exact ⟨[';'], [], rfl, by simp, by simp, by simp [Blank]⟩
  | spaceOrComma =>
    exact ⟨[' '], [], [], rfl, by simp, by intro c hc; simp at hc; rw [hc]; decide, by simp, by simp [Blank]⟩

/-- **C31 (round trip)** If every value is written as an item that is parsed, to its end, as that value, then every list of
such values is read back from what is written, whatever the separator. For the empty list, reading fails on the empty text. -/
theorem write_parse {w : α → List Char} (hT : ∃ e, T (Parser.new []) = .err e ∧ e.len = some 0) (L : List α)
    (hi : ∀ a ∈ L, Item s (w a)) (hq : ∀ a ∈ L, Unquoted (w a))
    (h1 : ∀ a ∈ L, ∃ e, T (Parser.new (w a)) = .ok a e ∧ e.len = some 0) :
    ∃ q, parseString (parseList T s) (write w s L) = .ok L q := by
  obtain ⟨e0, he0, hl0⟩ := hT
  have hT : ∀ a e, T (Parser.new []) ≠ .ok a e := fun a e h => by rw [he0] at h; cases h
  have hps : ∀ a ∈ L, ∃ q, parseString T (w a) = .ok a q := by
    intro a ha
    obtain ⟨e, h2, h3⟩ := h1 a ha
    obtain ⟨_, c, t, hw, hc⟩ := hi a ha
    rw [parseString_iff]
    have : (w a).takeWhile isWhitespace = [] := by rw [hw, List.takeWhile_cons, if_neg (by simp [hc])]
    rw [this]
    refine ⟨e, h2, ?_⟩
    have hlen : e.cursor = width e.input := by
      simp only [Parser.len] at h3
      split at h3
      · have := Option.some.inj h3; omega
      · cases h3
    have hat : At e e.input [] := ⟨by simp, hlen⟩
    exact (done_iff hat).mpr (by simp [Blank])
  have htail : ∀ l : List α, (∀ a ∈ l, a ∈ L) → Tail T s (l.flatMap fun b => s.text :: w b) l := by
    intro l
    induction l with
    | nil => intro _; exact .done (by simp [Blank])
    | cons a l ih =>
      intro hl
      obtain ⟨q, hpa⟩ := hps a (hl a (by simp))
      have := Tail.item (T := T) (r := l.flatMap fun b => s.text :: w b) (sep_text s) (hi a (hl a (by simp))) hpa (by
        intro c t e
        cases l with
        | nil => cases e
        | cons b l =>
          simp only [List.flatMap_cons, List.cons_append, List.cons.injEq] at e
          rw [← e.1]
          cases s <;> simp [IsSep, Sep.text] <;> decide) (ih fun a ha => hl a (by simp [ha]))
      simpa using this
  rw [list_iff hT]
  · cases L with
    | nil =>
      have := ListText.empty (T := T) (s := s) (w := []) (b := []) (e := e0) (by simp) (by intro c t e; cases e) he0 hl0 (by simp [Blank])
      simpa [write] using this
    | cons a l =>
      obtain ⟨e, h2, h3⟩ := h1 a (by simp)
      obtain ⟨hall, c, t, hw, hc⟩ := hi a (by simp)
      rw [head_dropWhile (f := isWhitespace)]
      · refine .items hall ?_ h2 h3 (htail l fun b hb => by simp [hb])
        intro c t e
        cases l with
        | nil => cases e
        | cons b l =>
          simp only [List.flatMap_cons, List.cons_append, List.cons.injEq] at e
          rw [← e.1]
          cases s <;> simp [IsSep, Sep.text] <;> decide
      · intro c' t' e
        rw [write, hw] at e
        simp only [List.cons_append, List.cons.injEq] at e
        rw [← e.1]; exact hc
  · intro hs
    subst hs
    rcases L.eq_nil_or_concat with rfl | ⟨l, z, rfl⟩
    · simp [write]
    · have hz := hi z (by simp)
      obtain ⟨hzs, c, t, hw, _⟩ := hz
      have hlast : ∃ pre, write w .spaceOrComma (l ++ [z]) = pre ++ w z := by
        cases l with
        | nil => exact ⟨[], by simp [write]⟩
        | cons a l => exact ⟨w a ++ (l.flatMap fun b => Sep.spaceOrComma.text :: w b) ++ [Sep.spaceOrComma.text], by simp [write]⟩
      obtain ⟨pre, hpre⟩ := hlast
      rw [List.concat_eq_append, hpre]
      intro hl
      have : (w z).getLast? = some ',' := by
        rw [List.getLast?_append] at hl
        cases hz : (w z).getLast? with
        | none => simp [hw] at hz
        | some y => rw [hz] at hl; exact hl
      exact hzs ',' (List.mem_of_getLast? this) (.inr rfl)
  · have hmem : ∀ c, c ∈ write w s L → c = s.text ∨ ∃ a ∈ L, c ∈ w a := by
      intro c hc
      cases L with
      | nil => cases hc
      | cons a l =>
        simp only [write, List.mem_append, List.mem_flatMap, List.mem_cons] at hc
        rcases hc with h | ⟨b, hb, rfl | h⟩
        · exact .inr ⟨a, by simp, h⟩
        · exact .inl rfl
        · exact .inr ⟨b, by simp [hb], h⟩
    refine ⟨fun h => ?_, fun h => ?_⟩
    · rcases hmem _ h with h | ⟨a, ha, h⟩
      · cases s <;> cases h
      · exact (hq a ha).1 h
    · rcases hmem _ h with h | ⟨a, ha, h⟩
      · cases s <;> cases h
      · exact (hq a ha).2 h

theorem not_blank_digit {c : Char} (h : c.isDigit = true) : isWhitespace c = false := by
  simp only [Char.isDigit, Bool.and_eq_true, decide_eq_true_eq, UInt32.le_iff_toNat_le] at h
  have h1 : c.toNat = c.val.toNat := rfl
  have e1 : '0'.val.toNat = 48 := rfl
  have e2 : '9'.val.toNat = 57 := rfl
  simp only [isWhitespace, Bool.or_eq_false_iff, Bool.and_eq_false_iff, decide_eq_false_iff_not, beq_eq_false_iff_ne]
  omega

theorem digit_not {c d : Char} (h : c.isDigit = true) (hd : d.isDigit = false) : c ≠ d := by
  rintro rfl; rw [h] at hd; cases hd

theorem intText_chars (v : Int) : ∀ c ∈ intText v, c.isDigit = true ∨ c = '-' := by
  obtain ⟨h1, _⟩ := Verif.Path.natText_spec v.natAbs
  intro c hc
  unfold intText at hc
  split at hc
  · simp only [List.mem_cons] at hc
    rcases hc with rfl | hc
    · exact .inr rfl
    · exact .inl (h1 c hc)
  · exact .inl (h1 c hc)

theorem intText_parse {v : Int} (h1 : -(2 ^ 63 : Int) ≤ v) (h2 : v < 2 ^ 63) :
    ∃ e, Verif.Number.parseI64 (Parser.new (intText v)) = .ok v e ∧ e.len = some 0 := by
  obtain ⟨d1, d2, d3, _⟩ := Verif.Path.natText_spec v.natAbs
  have hat := at_new (intText v)
  have hdw : (intText v).dropWhile isWhitespace = intText v := head_dropWhile fun c t e => by
    rcases intText_chars v c (by rw [e]; simp) with h | h
    · exact not_blank_digit h
    · rw [h]; decide
  let sgn : List Char := if v < 0 then ['-'] else []
  have hsg : intText v = sgn ++ Verif.Path.natText v.natAbs ++ [] := by
    simp only [intText, sgn]
    split <;> simp
  have hnum : Verif.Number.Numeral ((intText v).dropWhile isWhitespace) sgn (Verif.Path.natText v.natAbs) [] := by
    rw [hdw]
    refine ⟨hsg, ?_, d1, d2, by intro c t e; cases e⟩
    simp only [sgn]
    split
    · exact .inr (.inr rfl)
    · exact .inl rfl
  have hval : Verif.Number.signed sgn (Verif.Path.natText v.natAbs) = v := by
    simp only [Verif.Number.signed, sgn, d3]
    split
    · simp; omega
    · simp; omega
  obtain ⟨q, hq, he⟩ := (Verif.Number.i64_spec hat).1 _ _ _ hnum
  rw [hval, if_pos ⟨h1, h2⟩] at he
  exact ⟨q, he, by rw [hq.len]; rfl⟩

/-- Lists of integers are read back if every integer is. -/
theorem integers_of {T : Parser → Res Int} (hT : ∃ e, T (Parser.new []) = .err e ∧ e.len = some 0) (s : Sep) (L : List Int)
    (h : ∀ v ∈ L, ∃ e, T (Parser.new (intText v)) = .ok v e ∧ e.len = some 0) :
    ∃ q, parseString (parseList T s) (write intText s L) = .ok L q := by
  apply write_parse hT
  · intro v _
    obtain ⟨_, d2, _, _⟩ := Verif.Path.natText_spec v.natAbs
    have hb : ∀ c ∈ intText v, isWhitespace c = false := fun c hc => by
      rcases intText_chars v c hc with h | h
      · exact not_blank_digit h
      · rw [h]; decide
    refine ⟨fun c hc => ?_, ?_⟩
    · have h1 := hb c hc
      have h2 : c ≠ ',' ∧ c ≠ ';' := by
        rcases intText_chars v c hc with h | h
        · exact ⟨digit_not h (by decide), digit_not h (by decide)⟩
        · rw [h]; decide
      cases s <;> simp [IsSep, h1, h2]
    · have : intText v ≠ [] := by
        unfold intText; split
        · simp
        · exact d2
      obtain ⟨c, t, e⟩ := List.exists_cons_of_ne_nil this
      exact ⟨c, t, e, hb c (by rw [e]; simp)⟩
  · intro v _
    refine ⟨fun hc => ?_, fun hc => ?_⟩ <;>
    · rcases intText_chars v _ hc with h | h
      · exact absurd h (by decide)
      · exact absurd h (by decide)
  · exact h

/-- **C31 (integers)** Every list of 64-bit integers, written with any of the four separators, is read back. -/
theorem integers (s : Sep) (L : List Int) (h : ∀ v ∈ L, -(2 ^ 63 : Int) ≤ v ∧ v < 2 ^ 63) :
    ∃ q, parseString (parseList Verif.Number.parseI64 s) (write intText s L) = .ok L q :=
  integers_of ⟨Parser.new [], by decide +kernel, by decide +kernel⟩ s L fun v hv => intText_parse (h v hv).1 (h v hv).2

/-- **C31 (integers)** Every list of 32-bit integers, written with any of the four separators, is read back. -/
theorem integers32 (s : Sep) (L : List Int) (h : ∀ v ∈ L, -(2 ^ 31 : Int) ≤ v ∧ v < 2 ^ 31) :
    ∃ q, parseString (parseList Verif.Number.parseI32 s) (write intText s L) = .ok L q := by
  refine integers_of ⟨Parser.new [], by decide +kernel, by decide +kernel⟩ s L fun v hv => ?_
  obtain ⟨h1, h2⟩ := h v hv
  obtain ⟨e, h3, h4⟩ := intText_parse (v := v) (by omega) (by omega)
  exact ⟨e, by rw [Verif.Number.parseI32, h3]; simp [Res.bind, Verif.Number.signed_range_i32 h1 h2], h4⟩

/-! ## Items in quotation marks -/

theorem dropQuoted_inside {k : Char} {body : List Char} (h : k ∉ body) (r : List Char) :
    dropQuoted k 1 (body ++ r) = dropQuoted k 1 r := by
  induction body with
  | nil => rfl
  | cons c l ih =>
    simp only [List.mem_cons, not_or] at h
    rw [List.cons_append, dropQuoted, if_pos (by omega), if_neg (Ne.symm h.1), ih h.2]

theorem dropQuoted_done (k : Char) (r : List Char) : dropQuoted k 2 r = r := by
  cases r with
  | nil => rfl
  | cons c l => rw [dropQuoted, if_neg (by omega)]

/-- **C31 (quotation marks)** An item that starts with a quotation mark reaches to the next one of its kind, whatever
separators stand between them; without a second one it reaches to the end of the text. -/
theorem quoted_item {k : Char} (hk : k = '"' ∨ k = '\'') {body r : List Char} (hb : k ∉ body) (s : Sep) :
    (At p pre (k :: body ++ k :: r) → ∃ q, takeItem s p = .ok (k :: body ++ [k]) q ∧ Moved p q r) ∧
    (At p pre (k :: body) → ∃ q, takeItem s p = .ok (k :: body) q ∧ Moved p q []) := by
  have hrest : ∀ l, itemRest s (k :: l) = dropQuoted k 1 l := by
    intro l
    rcases hk with rfl | rfl
    · rw [itemRest, if_pos (by rfl), dropQuoted]; rfl
    · rw [itemRest, if_neg (by simp), if_pos (by rfl), dropQuoted]; rfl
  have key : ∀ a z, itemRest s (a ++ z) = z → At p pre (a ++ z) → ∃ q, takeItem s p = .ok a q ∧ Moved p q z := by
    intro a z he h
    refine ⟨{ p with cursor := p.cursor + width a }, ?_, rfl, _, h.moved⟩
    simp only [takeItem, h.slice, he, h.skipInternal, Res.bind]
    exact h.giveFrom h.moved
  constructor
  · intro h
    refine key (k :: body ++ [k]) r ?_ (by simpa using h)
    rw [List.cons_append, List.cons_append, hrest, List.append_assoc, dropQuoted_inside hb]
    simp only [List.cons_append, List.nil_append]
    rw [dropQuoted, if_pos (by omega), if_pos rfl, dropQuoted_done]
  · intro h
    refine key (k :: body) [] ?_ (by simpa using h)
    rw [List.cons_append, hrest, dropQuoted_inside hb]
    rfl

example : takeItem .comma (Parser.new "'a,b' ,c".toList) = .ok "'a,b'".toList ⟨"'a,b' ,c".toList, 5⟩ := by decide +kernel
example : takeItem .comma (Parser.new "\"a'".toList) = .ok "\"a'".toList ⟨"\"a'".toList, 3⟩ := by decide +kernel

/-! ## Texts that are parsed in unexpected ways -/

/-- **C31 (violated: a wrong text is an empty list)** A single number that does not fit, and a lone sign, are parsed as the
empty list instead of being refused. -/
theorem wrong_item_violated : ∃ q q',
    parseString (parseList Verif.Number.parseI64 .space) "99999999999999999999".toList = .ok [] q ∧
    parseString (parseList Verif.Number.parseI64 .comma) "-".toList = .ok [] q' ∧
    (∀ a e, parseString Verif.Number.parseI64 "99999999999999999999".toList ≠ .ok a e) ∧
    ∀ a e, parseString Verif.Number.parseI64 "-".toList ≠ .ok a e := by
  refine ⟨⟨"99999999999999999999".toList, 20⟩, ⟨"-".toList, 1⟩, by decide +kernel, by decide +kernel, ?_, ?_⟩
  · have : parseString Verif.Number.parseI64 "99999999999999999999".toList = .err ⟨"99999999999999999999".toList, 20⟩ := by decide +kernel
    intro a e h; rw [this] at h; cases h
  · have : parseString Verif.Number.parseI64 "-".toList = .err ⟨"-".toList, 1⟩ := by decide +kernel
    intro a e h; rw [this] at h; cases h

/-- **C31 (violated: white space before commas)** White space before a comma is accepted behind every item but the first; and
repeated commas are one comma. -/
theorem comma_space_violated : ∃ q q' q'',
    parseString (parseList Verif.Number.parseI64 .comma) "1 , 2".toList = .err q ∧
    parseString (parseList Verif.Number.parseI64 .comma) "1, 2 , 3".toList = .ok [1, 2, 3] q' ∧
    parseString (parseList Verif.Number.parseI64 .comma) "1,,2".toList = .ok [1, 2] q'' :=
  ⟨⟨"1 , 2".toList, 2⟩, ⟨"1, 2 , 3".toList, 8⟩, ⟨"1,,2".toList, 4⟩, by decide +kernel, by decide +kernel, by decide +kernel⟩

/-! ## Examples -/

example : write intText .spaceOrComma [-12, 0, 9223372036854775807] = "-12 0 9223372036854775807".toList := by decide +kernel
example : parseString (parseList Verif.Number.parseI64 .semicolon) "7;-3;0".toList = .ok [7, -3, 0] ⟨"7;-3;0".toList, 6⟩ := by
  decide +kernel
example : parseString (parseList Verif.Number.parseI64 .spaceOrComma) " 1 ,, 2,3 ".toList =
    .ok [1, 2, 3] ⟨" 1 ,, 2,3 ".toList, 10⟩ := by decide +kernel
example : parseString (parseList Verif.Number.parseI64 .space) "1, 2".toList = .err ⟨"1, 2".toList, 2⟩ := by decide +kernel

/-- The hypotheses of `list_iff` on a text with two items. -/
example : NoComma .spaceOrComma "1, 2 ".toList ∧ Unquoted "1, 2 ".toList ∧
    ListText Verif.Number.parseI64 .spaceOrComma "1, 2 ".toList [1, 2] := by
  have hu : Unquoted "1, 2 ".toList := ⟨by decide, by decide⟩
  have hn : NoComma .spaceOrComma "1, 2 ".toList := fun _ => by decide
  refine ⟨hn, hu, ?_⟩
  have hT : ∀ a e, Verif.Number.parseI64 (Parser.new []) ≠ .ok a e := by
    have : Verif.Number.parseI64 (Parser.new []) = .err (Parser.new []) := by decide +kernel
    intro a e h; rw [this] at h; cases h
  have := (list_iff (s := .spaceOrComma) hT hn hu (L := [1, 2])).mp ⟨⟨"1, 2 ".toList, 5⟩, by decide +kernel⟩
  exact this

/-- `rounds_enough`: 3 bytes are left, 4 rounds do as well as 9. -/
example : width "1 2".toList - 0 < 4 ∧ rounds Verif.Number.parseI64 .space 9 [5] ⟨" 2".toList, 0⟩ =
    rounds Verif.Number.parseI64 .space 4 [5] ⟨" 2".toList, 0⟩ := ⟨by decide +kernel, by decide +kernel⟩

end Verif.ListOf
