import Verif.Report.Model
import Verif.LineCol.Props

/-! # The excerpt shows the place of the report -/

namespace Verif.Report

open Verif.LineCol (rposition)

/-- Specification: the lines of a text, without the line feeds. -/
def lines : List Nat → List (List Nat)
  | [] => [[]]
  | c :: r =>
    if c = 10 then [] :: lines r
    else match lines r with
      | l :: ls => (c :: l) :: ls
      | [] => [[c]]

/-- Specification: a text of whole lines. -/
def whole (ls : List (List Nat)) : List Nat := ls.flatMap (· ++ [10])

theorem lines_flat {l : List Nat} (h : 10 ∉ l) : lines l = [l] := by
  induction l with
  | nil => rfl
  | cons c r ih =>
    simp only [List.mem_cons, not_or] at h
    rw [lines, if_neg (fun e => h.1 e.symm), ih h.2]

theorem lines_break {l : List Nat} (h : 10 ∉ l) (r : List Nat) : lines (l ++ 10 :: r) = l :: lines r := by
  induction l with
  | nil => simp [lines]
  | cons c l ih =>
    simp only [List.mem_cons, not_or] at h
    rw [List.cons_append, lines, if_neg (fun e => h.1 e.symm), ih h.2]

theorem lines_whole : ∀ (ls : List (List Nat)), (∀ l ∈ ls, 10 ∉ l) → ∀ r, lines (whole ls ++ r) = ls ++ lines r
  | [], _, r => by simp [whole]
  | l :: ls, h, r => by
    have ih := lines_whole ls (fun x hx => h x (by simp [hx])) r
    have : whole (l :: ls) ++ r = l ++ 10 :: (whole ls ++ r) := by simp [whole]
    rw [this, lines_break (h l (by simp)), ih]
    rfl

/-- Every text is whole lines and a rest. -/
theorem split_whole (a : List Nat) : ∃ ls rest, a = whole ls ++ rest ∧ (∀ l ∈ ls, 10 ∉ l) ∧ 10 ∉ rest := by
  induction a with
  | nil => exact ⟨[], [], by simp [whole]⟩
  | cons c a ih =>
    obtain ⟨ls, rest, rfl, h1, h2⟩ := ih
    by_cases hc : c = 10
    · exact ⟨[] :: ls, rest, by simp [whole, hc], by simpa using h1, h2⟩
    · cases ls with
      | nil => exact ⟨[], c :: rest, by simp [whole], by simp, by simp [h2, Ne.symm hc]⟩
      | cons l ls =>
        refine ⟨(c :: l) :: ls, rest, by simp [whole], ?_, h2⟩
        intro x hx
        rcases List.mem_cons.1 hx with rfl | hx
        · simp [Ne.symm hc, h1 l (by simp)]
        · exact h1 x (by simp [hx])

theorem split_first (b : List Nat) : ∃ m, 10 ∉ m ∧ (b = m ∨ ∃ q, b = m ++ 10 :: q) := by
  induction b with
  | nil => exact ⟨[], by simp⟩
  | cons c b ih =>
    by_cases hc : c = 10
    · exact ⟨[], by simp, .inr ⟨b, by simp [hc]⟩⟩
    · obtain ⟨m, h1, hb | ⟨q, rfl⟩⟩ := ih
      · exact ⟨c :: m, by simp [h1, Ne.symm hc], .inl (by rw [hb])⟩
      · exact ⟨c :: m, by simp [h1, Ne.symm hc], .inr ⟨q, rfl⟩⟩

theorem rposition_none {l : List Nat} (h : 10 ∉ l) : rposition l = none := by
  simp only [rposition, Option.map_eq_none_iff, List.findIdx?_eq_none_iff]
  intro x hx
  simp only [List.mem_reverse] at hx
  simpa using fun e : x = 10 => h (e ▸ hx)

theorem rposition_append {l r : List Nat} (h : 10 ∉ r) : rposition (l ++ r) = rposition l := by
  obtain ⟨r, rfl⟩ : ∃ t, r = List.reverse t := ⟨r.reverse, by simp⟩
  induction r with
  | nil => simp
  | cons b r ih =>
    simp only [List.mem_reverse, List.mem_cons, not_or] at h
    rw [List.reverse_cons, ← List.append_assoc, LineCol.rposition_append_other _ _ (fun e => h.1 e.symm),
      ih (by simpa using h.2)]

theorem whole_concat (ls : List (List Nat)) (l : List Nat) : whole (ls ++ [l]) = whole ls ++ l ++ [10] := by
  simp [whole]

theorem after_last {ls : List (List Nat)} {rest : List Nat} (h : 10 ∉ rest) :
    (match rposition (whole ls ++ rest) with | some i => i + 1 | none => 0) = (whole ls).length := by
  rw [rposition_append h]
  rcases List.eq_nil_or_concat ls with rfl | ⟨init, l, rfl⟩
  · simp [whole, rposition]
  · rw [List.concat_eq_append, whole_concat, LineCol.rposition_append_nl]
    simp [Nat.add_assoc]

theorem lastLine_whole {ls : List (List Nat)} {rest : List Nat} (h : 10 ∉ rest) :
    lastLine (whole ls ++ rest) = rest := by
  unfold lastLine
  rw [rposition_append h]
  rcases List.eq_nil_or_concat ls with rfl | ⟨init, l, rfl⟩
  · simp [whole, rposition]
  · rw [List.concat_eq_append, whole_concat, LineCol.rposition_append_nl]
    simp only
    have : (whole init ++ l ++ [10]).length = (whole init ++ l).length + 1 := by simp [Nat.add_assoc]
    rw [← this, List.drop_left]

theorem findIdx_nl {m : List Nat} (h : 10 ∉ m) (q : List Nat) : (m ++ 10 :: q).findIdx? (· == 10) = some m.length := by
  induction m with
  | nil => simp [List.findIdx?_cons]
  | cons c m ih =>
    simp only [List.mem_cons, not_or] at h
    have hc : (c == 10) = false := by simpa using fun e : c = 10 => h.1 e.symm
    rw [List.cons_append, List.findIdx?_cons, hc, ih h.2]
    simp

theorem findIdx_none {m : List Nat} (h : 10 ∉ m) : m.findIdx? (· == 10) = none := by
  rw [List.findIdx?_eq_none_iff]
  intro x hx
  simpa using fun e : x = 10 => h (e ▸ hx)

theorem count_whole : ∀ (ls : List (List Nat)), (∀ l ∈ ls, 10 ∉ l) → (whole ls).count 10 = ls.length
  | [], _ => rfl
  | l :: ls, h => by
    have ih := count_whole ls fun x hx => h x (by simp [hx])
    have : whole (l :: ls) = l ++ ([10] ++ whole ls) := by simp [whole]
    rw [this, List.count_append, List.count_append, ih, List.count_eq_zero.2 (h l (by simp))]
    simp [Nat.add_comm]

/-- **C81 (the place).** For every source and every range that starts in it, the report shows the line with the start
of the range, with its number, and the column is the number of bytes before the start in that line: the whole lines
before and the column lead to the start. The lines shown above and below are the ones before and after. -/
theorem context_shows (source : List Nat) (range : Nat × Nat) (h : range.1 ≤ source.length) :
    ∃ c, context source range = some c ∧
      0 < c.number ∧
      (lines source)[c.number - 1]? = some c.line ∧ c.column ≤ c.line.length ∧
      (whole ((lines source).take (c.number - 1))).length + c.column = range.1 ∧
      c.before = (if c.number = 1 then [] else ((lines source)[c.number - 2]?).getD []) ∧
      c.after = ((lines source)[c.number]?).getD [] ∧
      c.blanks = c.column ∧ c.dashes = range.2 - range.1 := by
  obtain ⟨start, stop⟩ := range
  simp only at h
  obtain ⟨a, b, rfl, rfl⟩ : ∃ a b, source = a ++ b ∧ start = a.length :=
    ⟨source.take start, source.drop start, by simp, by simp [h]⟩
  obtain ⟨ls, rest, rfl, h1, h2⟩ := split_whole a
  obtain ⟨m, h3, hb⟩ := split_first b
  have htake : (whole ls ++ rest ++ b).take (whole ls ++ rest).length = whole ls ++ rest := List.take_left' rfl
  have hls : lineStart (whole ls ++ rest ++ b) (whole ls ++ rest).length = (whole ls).length := by
    rw [lineStart, htake]
    exact after_last h2
  have hcount : (whole ls ++ rest).count 10 = ls.length := by
    rw [List.count_append, count_whole ls h1, List.count_eq_zero.2 h2]
    rfl
  have hrm : 10 ∉ rest ++ m := by simp [h2, h3]
  have hdrop : (whole ls ++ rest ++ b).drop (whole ls).length = rest ++ b := by
    rw [List.append_assoc]; exact List.drop_left' rfl
  have hbefore : lastLine ((whole ls ++ rest ++ b).take ((whole ls).length - 1)) =
      if ls.length + 1 = 1 then [] else (ls[ls.length + 1 - 2]?).getD [] := by
    rcases List.eq_nil_or_concat ls with rfl | ⟨init, l, rfl⟩
    · simp [whole, lastLine, rposition]
    · rw [List.concat_eq_append] at h1 ⊢
      have hl : 10 ∉ l := h1 l (by simp)
      have e1 : (whole (init ++ [l])).length - 1 = (whole init ++ l).length := by
        rw [whole_concat]; simp
      have e2 : whole (init ++ [l]) ++ rest ++ b = (whole init ++ l) ++ ([10] ++ rest ++ b) := by
        rw [whole_concat]; simp
      rw [e1, e2, List.take_left' rfl, lastLine_whole hl]
      simp
  refine ⟨_, by rw [context, if_neg (by simp)], ?_⟩
  simp only [hls, htake, hcount, hbefore]
  have hcol : (whole ls ++ rest).length - (whole ls).length = rest.length := by simp
  simp only [hcol]
  refine ⟨by omega, ?_⟩
  have hmain : ∀ tail : List (List Nat), lines (whole ls ++ rest ++ b) = ls ++ (rest ++ m) :: tail →
      (whole ((lines (whole ls ++ rest ++ b)).take (ls.length + 1 - 1))).length + rest.length =
        (whole ls ++ rest).length ∧
      (if ls.length + 1 = 1 then [] else (ls[ls.length + 1 - 2]?).getD []) =
        (if ls.length + 1 = 1 then [] else ((lines (whole ls ++ rest ++ b))[ls.length + 1 - 2]?).getD []) := by
    intro tail ht
    rw [ht]
    refine ⟨by simp, ?_⟩
    split
    · rfl
    · rw [List.getElem?_append_left (by omega)]
  rcases hb with rfl | ⟨q, rfl⟩
  · have hlines : lines (whole ls ++ rest ++ b) = ls ++ [rest ++ b] := by
      rw [List.append_assoc, lines_whole ls h1, lines_flat hrm]
    have hle : lineEnd (whole ls ++ rest ++ b) (whole ls).length = (whole ls ++ rest ++ b).length := by
      rw [lineEnd, hdrop, findIdx_none hrm]
    obtain ⟨k1, k2⟩ := hmain [] hlines
    refine ⟨?_, ?_, k1, k2, ?_, trivial, trivial⟩
    · rw [hle, hdrop, hlines]
      have : (whole ls ++ rest ++ b).length - (whole ls).length = (rest ++ b).length := by simp
      rw [this, List.take_length]
      simp
    · rw [hle, hdrop]; simp
    · rw [hle, hlines]
      have : min (whole ls ++ rest ++ b).length ((whole ls ++ rest ++ b).length + 1) = (whole ls ++ rest ++ b).length := by
        omega
      rw [this, List.drop_length]
      simp [firstLine]
  · have hsrc : whole ls ++ rest ++ (m ++ 10 :: q) = whole ls ++ ((rest ++ m) ++ 10 :: q) := by simp
    have hlines : lines (whole ls ++ rest ++ (m ++ 10 :: q)) = ls ++ (rest ++ m) :: lines q := by
      rw [hsrc, lines_whole ls h1, lines_break hrm]
    have hle : lineEnd (whole ls ++ rest ++ (m ++ 10 :: q)) (whole ls).length = (rest ++ m).length + (whole ls).length := by
      rw [lineEnd, hdrop, ← List.append_assoc, findIdx_nl hrm]
    obtain ⟨k1, k2⟩ := hmain _ hlines
    refine ⟨?_, ?_, k1, k2, ?_, trivial, trivial⟩
    · have e : (rest ++ m).length + (whole ls).length - (whole ls).length = (rest ++ m).length := by omega
      rw [hle, hdrop, hlines, e, ← List.append_assoc, List.take_left' rfl]
      simp
    · rw [hle, hdrop]; simp
    · rw [hle, hlines]
      have e1 : min (whole ls ++ rest ++ (m ++ 10 :: q)).length ((rest ++ m).length + (whole ls).length + 1) =
          (whole ls ++ (rest ++ m) ++ [10]).length := by simp; omega
      have e2 : whole ls ++ rest ++ (m ++ 10 :: q) = (whole ls ++ (rest ++ m) ++ [10]) ++ q := by simp
      rw [e1, e2, List.drop_left' rfl]
      have e3 : (ls ++ (rest ++ m) :: lines q)[ls.length + 1]? = (lines q)[0]? := by
        rw [List.getElem?_append_right (by omega)]
        simp
      rw [e3]
      obtain ⟨m', h4, rfl | ⟨q', rfl⟩⟩ := split_first q
      · rw [firstLine, findIdx_none h4, lines_flat h4]; simp
      · rw [firstLine, findIdx_nl h4, lines_break h4]; simp

/-! ## Ranges of elements -/

theorem skip_none : ∀ (l : List Nat) (n : Nat), l ≠ [] →
    (skip l n = none ↔ ∀ c ∈ l.tail, white c = true ∨ c = 60)
  | [], _, h => absurd rfl h
  | [_], _, _ => by simp [skip]
  | _ :: c :: r, n, _ => by
    have ih := skip_none (c :: r) (n + 1) (by simp)
    rw [skip]
    split
    · rename_i h
      simp only [Bool.and_eq_true, Bool.not_eq_true', bne_iff_ne] at h
      simp [h.1, h.2]
    · rename_i h
      rw [ih]
      simp only [Bool.and_eq_true, Bool.not_eq_true', bne_iff_ne, ne_eq] at h
      simp only [List.tail_cons, List.mem_cons, forall_eq_or_imp]
      have : white c = true ∨ c = 60 := by
        by_cases hw : white c = true
        · exact .inl hw
        · refine .inr (Classical.byContradiction fun hc => h ⟨by simpa using hw, hc⟩)
      simp [this]

theorem white_iff (c : Nat) : white c = true ↔ c ∈ [9, 10, 12, 13, 32] := by
  simp only [white, Bool.or_eq_true, beq_iff_eq, List.mem_cons, List.not_mem_nil, or_false]
  omega

/-- **C81 (when there is nothing to point at).** `naive_range` panics if and only if the start is in the source and only
tabs, line feeds, form feeds, carriage returns, blanks and `<` follow the byte at the start. -/
theorem naive_panics_iff (source : List Nat) (start : Nat) :
    naiveRange source start = none ↔
      start < source.length ∧ ∀ c ∈ source.drop (start + 1), c ∈ [9, 10, 12, 13, 32, 60] := by
  by_cases h : start < source.length
  · have hne : source.drop start ≠ [] := by
      intro e
      have := congrArg List.length e
      simp at this
      omega
    rw [naiveRange, Option.map_eq_none_iff, skip_none _ _ hne, List.tail_drop]
    simp only [h, true_and, white_iff]
    refine forall_congr' fun c => imp_congr_right fun _ => ?_
    simp only [List.mem_cons, List.not_mem_nil, or_false]
    omega
  · rw [naiveRange, List.drop_eq_nil_of_le (by omega)]
    simp [skip, h]

theorem stop_word : ∀ (w rest : List Nat) (n : Nat), (∀ c ∈ w, white c = false ∧ c ≠ 62) →
    (∀ c, rest.head? = some c → white c = true ∨ c = 62) → stop (w ++ rest) n = n + w.length
  | [], [], n, _, _ => rfl
  | [], c :: r, n, _, h => by
    have := h c rfl
    rw [List.nil_append, stop, if_pos (by simpa using this)]
    rfl
  | c :: w, rest, n, h1, h2 => by
    have hc := h1 c (by simp)
    rw [List.cons_append, stop, if_neg (by simp [hc.1, hc.2]),
      stop_word w rest (n + 1) (fun d hd => h1 d (by simp [hd])) h2]
    simp
    omega

/-- **C81 (the word after the bracket).** For an element whose tag begins with `<` and a word that ends before white
space, `>` or the end of the source, the range is exactly that word. -/
theorem naive_word (left word rest : List Nat) (hw : word ≠ []) (h1 : ∀ c ∈ word, white c = false ∧ c ≠ 62)
    (h60 : word.head? ≠ some 60) (h2 : ∀ c, rest.head? = some c → white c = true ∨ c = 62) :
    naiveRange (left ++ 60 :: (word ++ rest)) left.length =
      some (left.length + 1, left.length + 1 + word.length) := by
  obtain ⟨c, w, rfl⟩ := List.exists_cons_of_ne_nil hw
  have hc := h1 c (by simp)
  have hc' : c ≠ 60 := by simpa using h60
  rw [naiveRange, List.drop_left' rfl, List.cons_append, skip]
  rw [if_pos (by simp [hc.1, hc'])]
  have : (left ++ 60 :: c :: (w ++ rest)).drop (left.length + 1) = (c :: w) ++ rest := by
    rw [show left ++ 60 :: c :: (w ++ rest) = (left ++ [60]) ++ (c :: w ++ rest) by simp]
    exact List.drop_left' (by simp)
  rw [Option.map_some, this, stop_word _ _ _ h1 h2]

/-- **C81 (violated: `<name/>`).** For an element that is closed in its tag, with nothing between the name and `/>`,
the range is one byte longer than the name: the slash is marked too. -/
theorem naive_slash_violated (left name rest : List Nat) (hn : name ≠ []) (h1 : ∀ c ∈ name, white c = false ∧ c ≠ 62)
    (h60 : name.head? ≠ some 60) :
    naiveRange (left ++ 60 :: (name ++ 47 :: 62 :: rest)) left.length =
      some (left.length + 1, left.length + 1 + name.length + 1) := by
  have := naive_word left (name ++ [47]) (62 :: rest) (by simp) (by
    intro c hc
    rcases List.mem_append.1 hc with hc | hc
    · exact h1 c hc
    · simp only [List.mem_singleton] at hc
      subst hc
      decide) (by
    obtain ⟨c, w, rfl⟩ := List.exists_cons_of_ne_nil hn
    simpa using h60) (by simp)
  simpa [Nat.add_assoc] using this

/-! ## What the dashes are under -/

/-- Specification: the number of characters of a text in UTF-8: bytes `10xxxxxx` continue a character. -/
def chars (l : List Nat) : Nat := (l.filter fun c => !(128 ≤ c && c < 192)).length

theorem chars_le (l : List Nat) : chars l ≤ l.length := List.length_filter_le ..

theorem chars_eq_iff (l : List Nat) : chars l = l.length ↔ ∀ c ∈ l, ¬ (128 ≤ c ∧ c < 192) := by
  rw [chars, List.length_filter_eq_length_iff]
  refine forall_congr' fun c => imp_congr_right fun _ => ?_
  simp
  omega

/-- **C81 (exactly when the marks are right).** For a range with an end, the blanks and dashes are under the characters
of the range if and only if no character of more than one byte is before the start in the line or in the range, and
the range ends in the line. -/
theorem marks_iff (source : List Nat) (range : Nat × Nat) (h : range.1 ≤ range.2) (he : range.2 ≤ source.length)
    (c : Shown) (hc : context source range = some c) :
    (c.blanks = chars (c.line.take c.column) ∧
      c.dashes = chars ((c.line.drop c.column).take (range.2 - range.1))) ↔
    (∀ b ∈ c.line.take (c.column + (range.2 - range.1)), ¬ (128 ≤ b ∧ b < 192)) ∧
      c.column + (range.2 - range.1) ≤ c.line.length := by
  obtain ⟨d, hd, _, _, hcol, _, _, _, hb, hda⟩ := context_shows source range (by omega)
  rw [hc] at hd
  cases hd
  rw [hb, hda]
  have e1 : (c.line.take c.column).length = c.column := by simp [hcol]
  have e2 : c.line.take (c.column + (range.2 - range.1)) =
      c.line.take c.column ++ (c.line.drop c.column).take (range.2 - range.1) := List.take_add
  have l2 : ((c.line.drop c.column).take (range.2 - range.1)).length ≤ range.2 - range.1 := by
    simp
    omega
  constructor
  · rintro ⟨h1, h2⟩
    have c2 := chars_le ((c.line.drop c.column).take (range.2 - range.1))
    have h3 : ((c.line.drop c.column).take (range.2 - range.1)).length = range.2 - range.1 := by omega
    constructor
    · rw [e2]
      intro b hb
      rcases List.mem_append.1 hb with hb | hb
      · exact (chars_eq_iff _).1 (by omega) b hb
      · exact (chars_eq_iff _).1 (by omega) b hb
    · simp only [List.length_take, List.length_drop] at h3
      omega
  · rintro ⟨h1, h2⟩
    rw [e2] at h1
    have h3 : ((c.line.drop c.column).take (range.2 - range.1)).length = range.2 - range.1 := by
      simp only [List.length_take, List.length_drop]
      omega
    constructor
    · rw [(chars_eq_iff _).2 fun b hb => h1 b (by simp [hb]), e1]
    · rw [(chars_eq_iff _).2 fun b hb => h1 b (List.mem_append_right _ hb), h3]

/-- **C81 (violated: text that is not ASCII).** If a character of more than one byte is before the start of the range
in its line, the marks are too far to the right. -/
theorem marks_violated (source : List Nat) (range : Nat × Nat) (h : range.1 ≤ source.length) (c : Shown)
    (hc : context source range = some c) (b : Nat) (hb : b ∈ c.line.take c.column) (hb' : 128 ≤ b ∧ b < 192) :
    chars (c.line.take c.column) < c.blanks := by
  obtain ⟨d, hd, _, _, hcol, _, _, _, hbl, _⟩ := context_shows source range h
  rw [hc] at hd
  cases hd
  have e1 : (c.line.take c.column).length = c.column := by simp [hcol]
  have := chars_le (c.line.take c.column)
  have hne : chars (c.line.take c.column) ≠ (c.line.take c.column).length := fun e =>
    (chars_eq_iff _).1 e b hb hb'
  omega

/-! ## The whole -/

/-- **C81 (no panic at an element).** A report at the start of an element in the source is shown: `<`, a byte that is
neither white space nor `<`, and anything after. -/
theorem display_element (left rest : List Nat) (c : Nat) (hc : white c = false) (hc' : c ≠ 60) :
    ∃ s, display (left ++ 60 :: c :: rest) (some (left.length, left.length)) = some (some s) ∧
      (lines (left ++ 60 :: c :: rest))[s.number - 1]? = some s.line := by
  have hsk : skip ((left ++ 60 :: c :: rest).drop left.length) left.length = some (left.length + 1) := by
    rw [List.drop_left' rfl, skip, if_pos (by simp [hc, hc'])]
  rw [display, if_pos rfl]
  simp only [naiveRange, hsk, Option.map_some]
  obtain ⟨s, h1, _, h3, _⟩ := context_shows (left ++ 60 :: c :: rest)
    (left.length + 1, stop ((left ++ 60 :: c :: rest).drop (left.length + 1)) (left.length + 1)) (by simp)
  exact ⟨s, by rw [h1]; rfl, h3⟩

/-- The range found starts in the source. -/
theorem skip_le : ∀ (l : List Nat) (n m : Nat), l ≠ [] → skip l n = some m → n < m ∧ m < n + l.length
  | [], _, _, h, _ => absurd rfl h
  | [_], _, _, _, h => by simp [skip] at h
  | _ :: c :: r, n, m, _, h => by
    rw [skip] at h
    split at h
    · cases h
      simp
    · have := skip_le (c :: r) (n + 1) m (by simp) h
      simp only [List.length_cons] at this ⊢
      omega

/-- **C81 (exactly when a report cannot be shown).** Showing a report panics if and only if its range starts behind the
source, or is empty and starts in the source with nothing but white space and `<` behind it. -/
theorem display_panics_iff (source : List Nat) (r : Option (Nat × Nat)) :
    display source r = none ↔ ∃ a b, r = some (a, b) ∧ (source.length < a ∨
      (a = b ∧ a < source.length ∧ ∀ c ∈ source.drop (a + 1), c ∈ [9, 10, 12, 13, 32, 60])) := by
  have hctx : ∀ x : Nat × Nat, (context source x).map some = none ↔ source.length < x.1 := by
    intro x
    unfold context
    split <;> simp_all
  cases r with
  | none => simp [display]
  | some x =>
    obtain ⟨a, b⟩ := x
    have hex : (∃ a' b', some (a, b) = some (a', b') ∧ (source.length < a' ∨
        (a' = b' ∧ a' < source.length ∧ ∀ c ∈ source.drop (a' + 1), c ∈ [9, 10, 12, 13, 32, 60]))) ↔
        (source.length < a ∨
        (a = b ∧ a < source.length ∧ ∀ c ∈ source.drop (a + 1), c ∈ [9, 10, 12, 13, 32, 60])) := by
      constructor
      · rintro ⟨_, _, h, h'⟩
        cases h
        exact h'
      · exact fun h => ⟨a, b, rfl, h⟩
    rw [hex, display]
    split
    · rename_i h
      simp only at h
      have hn := naive_panics_iff source a
      simp only
      cases hr : naiveRange source a with
      | none =>
        simp only [true_iff]
        exact .inr ⟨h, hn.1 hr⟩
      | some y =>
        have hn' : ¬ (a < source.length ∧ ∀ c ∈ source.drop (a + 1), c ∈ [9, 10, 12, 13, 32, 60]) := by
          rw [← hn, hr]
          simp
        simp only [hctx, hn', and_false, or_false]
        simp only [naiveRange, Option.map_eq_some_iff] at hr
        obtain ⟨m, hm, rfl⟩ := hr
        by_cases hl : a < source.length
        · have hne : source.drop a ≠ [] := by
            intro e
            have := congrArg List.length e
            simp at this
            omega
          have := skip_le _ _ _ hne hm
          rw [List.length_drop] at this
          simp only
          omega
        · rw [List.drop_eq_nil_of_le (by omega)] at hm
          simp only [skip, Option.some.injEq] at hm
          simp only [hm]
    · rename_i h
      simp only at h
      rw [hctx]
      simp [h]

example : display [97, 60, 32] (some (1, 1)) = none ∧ display [97] (some (2, 3)) = none ∧
    display [97] (some (1, 1)) = some (some ⟨1, 1, [], [97], [], 1, 0⟩) := by decide +kernel

/-! ## Cases -/

/-- `a\n<b c="d"/>`, the element at 2. -/
example : display [97, 10, 60, 98, 32, 99, 61, 34, 100, 34, 47, 62] (some (2, 2)) =
    some (some ⟨2, 1, [97], [60, 98, 32, 99, 61, 34, 100, 34, 47, 62], [], 1, 1⟩) := by decide +kernel

/-- The end of the source, and a source that ends in white space. -/
example : naiveRange [60, 32, 60] 0 = none ∧ naiveRange [97] 0 = none := by decide

/-- `é<b/>`: two blanks for one character, two dashes for `b/`. -/
example : display [195, 169, 60, 98, 47, 62] (some (2, 2)) =
    some (some ⟨1, 3, [], [195, 169, 60, 98, 47, 62], [], 3, 2⟩) ∧ chars [195, 169, 60] = 2 := by decide +kernel

end Verif.Report
