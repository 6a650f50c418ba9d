import Verif.Escape.Model

/-!
# C10: escaping loses nothing and cannot break out

The specification side is a decoder for the five entities predefined by XML 1.0 (section 4.6).
-/

namespace Verif.Escape

/-- Specification: the predefined entities without their ampersand, and what they stand for. -/
def entities : List (Str × Nat) :=
  [(lit "amp;", 38), (lit "gt;", 62), (lit "lt;", 60), (lit "quot;", 34), (lit "apos;", 39)]

/-- Specification: an XML reader's decoding of character data with predefined entities. `none` where
the text is not well-formed: a stray ampersand or a raw `<`. -/
def decode : Str → Option Str
  | [] => some []
  | 38 :: 97 :: 109 :: 112 :: 59 :: r => (decode r).map (38 :: ·)
  | 38 :: 103 :: 116 :: 59 :: r => (decode r).map (62 :: ·)
  | 38 :: 108 :: 116 :: 59 :: r => (decode r).map (60 :: ·)
  | 38 :: 113 :: 117 :: 111 :: 116 :: 59 :: r => (decode r).map (34 :: ·)
  | 38 :: 97 :: 112 :: 111 :: 115 :: 59 :: r => (decode r).map (39 :: ·)
  | 38 :: _ => none
  | 60 :: _ => none
  | b :: r => (decode r).map (b :: ·)

/-- What is written for a single code unit. -/
def unit (eq sq : Bool) (b : Nat) : Str := (escapedChar eq sq b).getD [b]

theorem loop_spec (eq sq : Bool) (s : Str) (rest : List Nat) (pos start : Nat) (out : Str)
    (hs : start ≤ pos) (hr : s.drop pos = rest)
    (hn : ∀ b ∈ (s.drop start).take (pos - start), escapedChar eq sq b = none) :
    (loop eq sq s rest pos start out).2 ++ s.drop (loop eq sq s rest pos start out).1
      = out ++ (s.drop start).take (pos - start) ++ rest.flatMap (unit eq sq) := by
  induction rest generalizing pos start out with
  | nil =>
    have hl : s.length ≤ pos := by simpa using hr
    simp only [loop, List.flatMap_nil, List.append_nil]
    rw [List.take_of_length_le (by simp; omega)]
  | cons b rest ih =>
    have hr' : s.drop (pos + 1) = rest := by
      rw [← List.tail_drop, hr]; rfl
    have hlt : pos < s.length := by
      rcases Nat.lt_or_ge pos s.length with h | h
      · exact h
      · rw [List.drop_eq_nil_of_le h] at hr; simp at hr
    have hb : s[pos]? = some b := by
      have := congrArg (fun l => l[0]?) hr
      simpa using this
    simp only [loop]
    cases he : escapedChar eq sq b with
    | some e =>
      simp only
      rw [ih (pos + 1) (pos + 1) _ (Nat.le_refl _) hr' (by simp)]
      simp [unit, he]
    | none =>
      simp only
      have hsplit : (s.drop start).take (pos + 1 - start) = (s.drop start).take (pos - start) ++ [b] := by
        rw [show pos + 1 - start = (pos - start) + 1 by omega, List.take_add_one]
        simp [show start + (pos - start) = pos by omega, hb]
      rw [ih (pos + 1) start out (by omega) hr' ?_]
      · rw [hsplit]; simp [unit, he]
      · rw [hsplit]
        intro x hx
        simp at hx
        rcases hx with hx | rfl
        · exact hn x (by simpa using hx)
        · exact he

theorem writeEscaped_eq (eq sq : Bool) (s out : Str) :
    writeEscaped eq sq s out = out ++ s.flatMap (unit eq sq) := by
  have := loop_spec eq sq s s 0 0 out (Nat.le_refl _) (by simp) (by simp)
  simpa [writeEscaped] using this

theorem decode_unit (eq sq : Bool) (b : Nat) (r : Str) :
    decode (unit eq sq b ++ r) = (decode r).map (b :: ·) := by
  unfold unit escapedChar amp gt lt quot apos
  by_cases h1 : b = 38
  · subst h1; simp [decode]
  by_cases h2 : b = 62
  · subst h2; simp [decode]
  by_cases h3 : b = 60
  · subst h3; simp [decode]
  by_cases h4 : b = 34 ∧ eq ∧ ¬ sq
  · obtain ⟨rfl, h, h'⟩ := h4; simp at h'; simp [h, h', decode]
  by_cases h5 : b = 39 ∧ eq ∧ sq
  · obtain ⟨rfl, h, h'⟩ := h5; simp [h, h', decode]
  · simp only [h1, h2, h3, h4, h5, if_false, Option.getD_none, List.singleton_append]
    rw [decode]
    all_goals (intros; simp_all)

/-- **C10 (round trip).** For every string, quote style and mode, an XML reader decodes the written
text to exactly the string; in particular the written text is well-formed character data. -/
theorem escape_round_trip (eq sq : Bool) (s : Str) : decode (writeEscaped eq sq s []) = some s := by
  rw [writeEscaped_eq, List.nil_append]
  induction s with
  | nil => simp [decode]
  | cons b s ih => rw [List.flatMap_cons, decode_unit, ih]; rfl

/-- **C10 (append only).** What was written before stays. -/
theorem escape_appends (eq sq : Bool) (s out : Str) :
    writeEscaped eq sq s out = out ++ writeEscaped eq sq s [] := by
  simp [writeEscaped_eq]

/-- **C10 (no markup).** The written text contains no raw `<` and no raw `>`. -/
theorem escape_no_markup (eq sq : Bool) (s : Str) :
    60 ∉ writeEscaped eq sq s [] ∧ 62 ∉ writeEscaped eq sq s [] := by
  rw [writeEscaped_eq, List.nil_append]
  simp only [List.mem_flatMap, not_exists, not_and]
  constructor <;>
  · intro b _
    unfold unit escapedChar amp gt lt quot apos
    repeat' split
    all_goals simp
    all_goals omega

/-- **C10 (attribute values).** In attribute mode the delimiting quote does not occur in the written
value. -/
theorem escape_no_delimiter (sq : Bool) (s : Str) :
    (if sq then 39 else 34) ∉ writeEscaped true sq s [] := by
  rw [writeEscaped_eq, List.nil_append]
  simp only [List.mem_flatMap, not_exists, not_and]
  intro b _
  unfold unit escapedChar amp gt lt quot apos
  cases sq <;> simp <;> repeat' split
  all_goals simp
  all_goals omega

/-- **C10 (ampersands).** Every ampersand in the written text begins a predefined entity: whatever
precedes it. -/
theorem escape_ampersand (eq sq : Bool) (s pre post : Str)
    (h : writeEscaped eq sq s [] = pre ++ 38 :: post) :
    ∃ e ∈ entities, e.1 <+: post := by
  rw [writeEscaped_eq, List.nil_append] at h
  have ent : ∀ b pre post, unit eq sq b = pre ++ 38 :: post → ∃ e ∈ entities, e.1 <+: post := by
    intro b pre post h
    have hd : lit "amp;" = [97, 109, 112, 59] ∧ lit "gt;" = [103, 116, 59] ∧ lit "lt;" = [108, 116, 59]
      ∧ lit "quot;" = [113, 117, 111, 116, 59] ∧ lit "apos;" = [97, 112, 111, 115, 59] := by decide
    unfold unit escapedChar amp gt lt quot apos at h
    simp only [entities, hd]
    repeat' split at h
    all_goals
      simp only [Option.getD_some, Option.getD_none] at h
      rcases pre with _ | ⟨a, pre⟩
      · simp at h
        first | (exact absurd h.1 ‹_›) | (rw [← h]; simp)
      · simp only [List.cons_append, List.cons.injEq] at h
        obtain ⟨_, h⟩ := h
        exfalso
        have := congrArg (fun l => decide (38 ∈ l)) h
        simp at this
  induction s generalizing pre with
  | nil => simp at h
  | cons b s ih =>
    rw [List.flatMap_cons] at h
    rcases List.append_eq_append_iff.1 h with ⟨c, h1, h2⟩ | ⟨c, h1, h2⟩
    · exact ih c h2
    · cases c with
      | nil => exact ih [] (by simpa using h2.symm)
      | cons a c =>
        simp only [List.cons_append, List.cons.injEq] at h2
        obtain ⟨rfl, h2⟩ := h2
        obtain ⟨e, he, hp⟩ := ent b pre c h1
        exact ⟨e, he, hp.trans (by rw [h2]; simp)⟩

/-- Non-trivial case: `a<&lt;"` in attribute mode. -/
example : writeEscaped true false (lit "a<&lt;\"") [] = lit "a&lt;&amp;lt;&quot;" := by decide
example : decode (lit "a&lt;&amp;lt;&quot;") = some (lit "a<&lt;\"") := by decide

end Verif.Escape
