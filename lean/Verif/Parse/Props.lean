import Verif.Parse.Lemmas

/-! # C18: where the parser stands; C34: names -/

namespace Verif.Parse

variable {p : Parser} {pre rest : List Char}

/-- The first character, if any, takes one byte. -/
def AsciiHead (l : List Char) : Prop := ∀ c t, l = c :: t → c.utf8Size = 1

/-- The operations of the public interface. -/
inductive Op where
  | read
  | advance
  | rewind (n : Nat)
  | finish
  | current
  | takeSlice
  | skipMatches (f : Char → Bool)
  | skipChar (c : Char)
  | skipWhitespace
  | takeMatches (f : Char → Bool)
  | expectDone
  | expectChar (c : Char)
  | expectMatches (f : Char → Except Unit Bool)
  | expectWhitespace
  | expectStr (s : List Char)
  | expectIdent
  | expectIdentMatching (s : List Char)

def Res.forget {α : Type} (r : Res α) : Res Unit := r.bind fun _ p => .ok () p

/-- The operation as the code does it, without the returned value. -/
def Op.run (p : Parser) : Op → Res Unit
  | .read => p.read.forget
  | .advance => .ok () p.advance
  | .rewind n => p.rewind n
  | .finish => .ok () p.finish
  | .current => p.current.forget
  | .takeSlice => p.takeSlice.forget
  | .skipMatches f => p.skipMatches f
  | .skipChar c => p.skipChar c
  | .skipWhitespace => p.skipWhitespace
  | .takeMatches f => (p.takeMatches f).forget
  | .expectDone => p.expectDone
  | .expectChar c => p.expectChar c
  | .expectMatches f => (p.expectMatches f).forget
  | .expectWhitespace => p.expectWhitespace
  | .expectStr s => p.expectStr s
  | .expectIdent => p.expectIdent.forget
  | .expectIdentMatching s => p.expectIdentMatching s

/-- No panic, and the parser afterwards stands between characters of the same input. -/
def Sound {α : Type} (input : List Char) : Res α → Prop
  | .ok _ q => q.input = input ∧ Good q
  | .err q => q.input = input ∧ Good q
  | .panic => False

/-- The same, but after an error the position is only promised if `tight`. -/
def Outcome (input : List Char) (tight : Prop) : Res Unit → Prop
  | .ok _ q => q.input = input ∧ Good q
  | .err q => q.input = input ∧ (tight → Good q)
  | .panic => False

theorem Sound.weak {input : List Char} {r : Res Unit} {b : Prop} (s : Sound input r) : Outcome input b r := by
  cases r with
  | ok a q => exact s
  | err q => exact ⟨s.1, fun _ => s.2⟩
  | panic => exact s

/-- When an operation is safe, said in terms of the text before and after the position. -/
def Fine (pre rest : List Char) : Op → Prop
  | .read | .expectChar _ | .expectIdent | .expectIdentMatching _ => AsciiHead rest
  | .advance => rest ≠ [] ∧ AsciiHead rest
  | .rewind n => ∃ a b, pre = a ++ b ∧ n = width b
  | .skipChar c => ∃ a b, rest = a ++ b ∧ width b = width (trimMatches c rest)
  | .expectStr s => ∃ a b, rest = a ++ b ∧ width a = width s
  | .finish | .current | .takeSlice | .skipMatches _ | .skipWhitespace | .takeMatches _ | .expectDone
  | .expectMatches _ | .expectWhitespace => True

theorem cancel_width {a b : List Char} {m : List Char} : a ++ b = m → ∀ {c d}, c ++ d = m → width a = width c → a = c := by
  intro h1 c d h2 hw
  subst h1
  rcases List.append_eq_append_iff.mp h2 with ⟨x, e1, e2⟩ | ⟨x, e1, e2⟩
  · subst e1
    rw [width_append] at hw
    cases x with
    | nil => simp
    | cons y x => rw [width_cons] at hw; have := size_pos y; omega
  · subst e1
    rw [width_append] at hw
    cases x with
    | nil => simp
    | cons y x => rw [width_cons] at hw; have := size_pos y; omega

/-- Where a position further on in the same input is sound. -/
theorem good_moved (h : At p pre rest) (n : Nat) :
    Good { p with cursor := p.cursor + n } ↔ ∃ a b, rest = a ++ b ∧ n = width a := by
  constructor
  · rintro ⟨x, y, h1, h2⟩
    simp only at h1 h2
    rw [h.1] at h1
    rw [h.2] at h2
    rcases List.append_eq_append_iff.mp h1 with ⟨m, e1, e2⟩ | ⟨m, e1, e2⟩
    · subst e1
      rw [width_append] at h2
      exact ⟨m, y, e2, by omega⟩
    · subst e1
      rw [width_append] at h2
      have : m = [] := by
        cases m with
        | nil => rfl
        | cons c m => rw [width_cons] at h2; have := size_pos c; omega
      subst this
      simp [width_nil] at h2 e2
      exact ⟨[], rest, by simp, by simp [h2, width_nil]⟩
  · rintro ⟨a, b, rfl, rfl⟩
    exact ⟨_, _, h.moved⟩

theorem At.takeMatches (h : At p pre rest) (f : Char → Bool) :
    ∃ q, p.takeMatches f = .ok (rest.takeWhile f) q ∧ At q (pre ++ rest.takeWhile f) (rest.dropWhile f) ∧
      q.input = p.input := by
  obtain ⟨q, e, hq, hi⟩ := h.skipMatches_at f
  refine ⟨q, ?_, hq, hi⟩
  have h' : At p pre (rest.takeWhile f ++ rest.dropWhile f) := by simpa using h
  rw [Parser.takeMatches, e]
  exact h'.giveFrom hq

theorem At.expectMatches (h : At p pre rest) (f : Char → Except Unit Bool) :
    ∃ q, At q (pre ++ rest.takeWhile (fun c => Parser.okTrue (f c))) (rest.dropWhile (fun c => Parser.okTrue (f c))) ∧
      q.input = p.input ∧
      p.expectMatches f = (if Parser.matcherFails f rest then .err q
        else if (rest.takeWhile (fun c => Parser.okTrue (f c))).isEmpty then .err q
        else .ok (rest.takeWhile (fun c => Parser.okTrue (f c))) q) := by
  obtain ⟨q, e, hq, hi⟩ := h.skipMatches_at (fun c => Parser.okTrue (f c))
  refine ⟨q, hq, hi, ?_⟩
  have h' : At p pre (rest.takeWhile (fun c => Parser.okTrue (f c)) ++ rest.dropWhile (fun c => Parser.okTrue (f c))) := by
    simpa using h
  rw [Parser.expectMatches, h.slice]
  simp only [e, Res.bind]
  rw [h'.giveFrom hq]

/-- Reading the slice up to a position inside of the first character panics. -/
theorem giveFrom_inside (h : At p pre rest) {c : Char} {t : List Char} (hr : rest = c :: t) {n : Nat} (h1 : 0 < n)
    (h2 : n < c.utf8Size) : ({ p with cursor := p.cursor + n } : Parser).giveFrom p.cursor = .panic := by
  subst hr
  have hn : ({ p with cursor := p.cursor + n } : Parser).sliceFrom p.cursor = none := by
    simp only [Parser.sliceFrom]
    rw [h.1, h.2, width_append, width_cons]
    rw [Nat.min_eq_left (by omega), if_pos (by omega), dropBytes_append]
    simp only [Option.bind_some]
    rw [show width pre + n - width pre = n by omega]
    exact takeBytes_none h1 h2
  simp [Parser.giveFrom, hn]

/-- **C34 (panic)** Expecting an identifier panics exactly when the next character takes more than one byte;
in particular for every name that starts outside of ASCII. -/
theorem expectIdent_panic_iff (h : At p pre rest) : p.expectIdent = .panic ↔ ¬ AsciiHead rest := by
  rw [Parser.expectIdent, h.read]
  cases rest with
  | nil => simp [Res.bind, AsciiHead]
  | cons c t =>
    simp only [Res.bind]
    have ha : AsciiHead (c :: t) ↔ c.utf8Size = 1 := by
      constructor
      · intro hh; exact hh c t rfl
      · rintro hh d u e; simp at e; rw [← e.1]; exact hh
    rw [ha]
    by_cases hc : c.utf8Size = 1
    · have hq := h.advance hc
      simp only [hc, not_true, iff_false]
      split
      · obtain ⟨q, e, hq', _⟩ := hq.skipMatches_at isNameChar
        have h' : At p pre ((c :: t.takeWhile isNameChar) ++ t.dropWhile isNameChar) := by simpa using h
        have := h'.giveFrom (q := q) (by simpa using hq')
        simp [e, this]
      · have h' : At p pre ([c] ++ t) := h
        rw [h'.giveFrom hq]
        simp
    · simp only [hc, not_false_eq_true, iff_true]
      have hp := size_pos c
      split
      · have : p.advance.slice = none := by
          cases hs : p.advance.slice with
          | none => rfl
          | some s => exact absurd ((good_iff _).mpr ⟨s, hs⟩) (h.advance_bad hc)
        simp [Parser.skipMatches, this]
      · have := giveFrom_inside h rfl (n := 1) (by omega) (by omega)
        rw [show ({ p with cursor := p.cursor + 1 } : Parser) = p.advance from rfl] at this
        rw [this]

/-- **C34** With a one-byte character ahead, an identifier is a name start character and all name characters that
follow it; without a name start character it is an error. -/
theorem expectIdent_spec (h : At p pre rest) (ha : AsciiHead rest) :
    ∃ q, q.input = p.input ∧ (match rest with
      | [] => p.expectIdent = .err q ∧ At q pre rest
      | c :: t => if isNameStartChar c then
          p.expectIdent = .ok (c :: t.takeWhile isNameChar) q ∧ At q (pre ++ c :: t.takeWhile isNameChar) (t.dropWhile isNameChar)
        else p.expectIdent = .err q ∧ At q (pre ++ [c]) t) := by
  rw [Parser.expectIdent, h.read]
  cases rest with
  | nil => exact ⟨p, rfl, rfl, h⟩
  | cons c t =>
    have hc := ha c t rfl
    have hq := h.advance hc
    simp only [Res.bind]
    split
    · obtain ⟨q, e, hq', hi⟩ := hq.skipMatches_at isNameChar
      have h' : At p pre ((c :: t.takeWhile isNameChar) ++ t.dropWhile isNameChar) := by simpa using h
      refine ⟨q, hi, ?_, by simpa using hq'⟩
      rw [e]
      exact h'.giveFrom (q := q) (by simpa using hq')
    · have h' : At p pre ([c] ++ t) := h
      refine ⟨p.advance, rfl, ?_, hq⟩
      rw [h'.giveFrom hq]

theorem ascii_head_cons {c : Char} {t : List Char} : AsciiHead (c :: t) ↔ c.utf8Size = 1 := by
  constructor
  · intro hh; exact hh c t rfl
  · rintro hh d u e; simp at e; rw [← e.1]; exact hh

/-- **C18 (one operation)** Between characters of its input, an operation neither panics nor leaves the input nor
stops inside of a character exactly when the text around the position permits it: single-character reads need a
one-byte character; `skip_char` needs the bytes it trims at both ends to be a prefix of whole characters;
`expect_str` needs as many bytes to come as the expected text has. All other operations always are. -/
theorem step_iff (h : At p pre rest) (op : Op) : Sound p.input (op.run p) ↔ Fine pre rest op := by
  have good : ∀ {q : Parser} {a b}, At q a b → Good q := fun h => ⟨_, _, h⟩
  have identSound : Sound p.input p.expectIdent ↔ AsciiHead rest := by
    by_cases ha : AsciiHead rest
    · obtain ⟨q, hi, hq⟩ := expectIdent_spec h ha
      cases rest with
      | nil => simp only at hq; rw [hq.1]; exact ⟨fun _ => ha, fun _ => ⟨hi, good hq.2⟩⟩
      | cons c t =>
        simp only at hq
        split at hq
        all_goals
          rw [hq.1]
          exact ⟨fun _ => ha, fun _ => ⟨hi, good hq.2⟩⟩
    · rw [(expectIdent_panic_iff h).mpr ha]
      exact ⟨fun h => h.elim, fun h => absurd h ha⟩
  cases op with
  | read =>
    simp only [Op.run, Fine]
    rw [h.read]
    cases rest with
    | nil => simp [Res.forget, Res.bind, Sound, AsciiHead, good h]
    | cons c t =>
      rw [ascii_head_cons]
      simp only [Res.forget, Res.bind, Sound]
      by_cases hc : c.utf8Size = 1
      · exact ⟨fun _ => hc, fun _ => ⟨rfl, good (h.advance hc)⟩⟩
      · exact ⟨fun hg => absurd hg.2 (h.advance_bad hc), fun hh => absurd hh hc⟩
  | advance =>
    simp only [Op.run, Fine, Sound]
    cases rest with
    | nil => simp [h.advance_end]
    | cons c t =>
      rw [ascii_head_cons]
      by_cases hc : c.utf8Size = 1
      · simp [hc, good (h.advance hc), Parser.advance]
        exact good (h.advance hc)
      · simp [hc, h.advance_bad hc]
  | rewind n =>
    simp only [Op.run, Parser.rewind, Fine]
    split
    · next hn =>
      simp only [Sound, true_and]
      constructor
      · rintro ⟨x, y, h1, h2⟩
        simp only at h1 h2
        rw [h.1] at h1
        rw [h.2] at h2 hn
        rcases List.append_eq_append_iff.mp h1 with ⟨m, e1, e2⟩ | ⟨m, e1, e2⟩
        · subst e1
          rw [width_append] at h2
          have : m = [] := by
            cases m with
            | nil => rfl
            | cons c m => rw [width_cons] at h2; have := size_pos c; omega
          subst this
          exact ⟨pre, [], by simp, by simp [width_nil] at *; omega⟩
        · subst e1
          rw [width_append] at h2 hn
          exact ⟨x, m, rfl, by omega⟩
      · rintro ⟨a, b, rfl, rfl⟩
        refine ⟨a, b ++ rest, ?_, ?_⟩
        · simp [h.1]
        · simp only [h.2, width_append]; omega
    · next hn =>
      simp only [Sound, false_iff]
      rintro ⟨a, b, rfl, rfl⟩
      rw [h.2, width_append] at hn
      omega
  | finish =>
    simp only [Op.run, Sound, Fine, iff_true]
    exact ⟨rfl, p.input, [], by simp [Parser.finish], rfl⟩
  | current =>
    simp only [Op.run, Fine, iff_true]
    rw [h.current]
    cases rest <;> exact ⟨rfl, good h⟩
  | takeSlice =>
    simp only [Op.run, Fine, iff_true, Parser.takeSlice, h.slice]
    exact ⟨rfl, p.input, [], by simp [Parser.finish], rfl⟩
  | skipMatches f =>
    simp only [Op.run, Fine, iff_true]
    obtain ⟨q, e, hq, hi⟩ := h.skipMatches_at f
    rw [e]
    exact ⟨hi, good hq⟩
  | skipWhitespace =>
    simp only [Op.run, Fine, iff_true, Parser.skipWhitespace]
    obtain ⟨q, e, hq, hi⟩ := h.skipMatches_at isWhitespace
    rw [e]
    exact ⟨hi, good hq⟩
  | takeMatches f =>
    simp only [Op.run, Fine, iff_true]
    obtain ⟨q, e, hq, hi⟩ := h.takeMatches f
    rw [e]
    exact ⟨hi, good hq⟩
  | expectDone =>
    simp only [Op.run, Fine, iff_true, Parser.expectDone]
    split <;> exact ⟨rfl, good h⟩
  | expectMatches f =>
    simp only [Op.run, Fine, iff_true]
    obtain ⟨q, hq, hi, e⟩ := h.expectMatches f
    rw [e]
    split
    · exact ⟨hi, good hq⟩
    · split <;> exact ⟨hi, good hq⟩
  | expectWhitespace =>
    simp only [Op.run, Fine, iff_true, Parser.expectWhitespace]
    obtain ⟨q, hq, hi, e⟩ := h.expectMatches (fun c => .ok (isWhitespace c))
    rw [e]
    split
    · exact ⟨hi, good hq⟩
    · split <;> exact ⟨hi, good hq⟩
  | expectChar c =>
    simp only [Op.run, Fine, Parser.expectChar]
    rw [h.read]
    cases rest with
    | nil => simp [Res.bind, Sound, AsciiHead, good h]
    | cons d t =>
      rw [ascii_head_cons]
      have : Sound p.input (Res.bind (.ok d p.advance) fun received q => if received = c then .ok () q else .err q) ↔
          Good p.advance := by
        simp only [Res.bind]
        split <;> simp [Sound, Parser.advance]
      rw [this]
      by_cases hc : d.utf8Size = 1
      · exact ⟨fun _ => hc, fun _ => good (h.advance hc)⟩
      · exact ⟨fun hg => absurd hg (h.advance_bad hc), fun hh => absurd hh hc⟩
  | skipChar c =>
    simp only [Op.run, Fine, Parser.skipChar, h.slice, Parser.skipInternal, h.len]
    have le : width (trimMatches c rest) ≤ width rest := by
      have key : ∀ l : List Char, width (l.dropWhile (· == c)) ≤ width l := by
        intro l
        have := congrArg width (List.takeWhile_append_dropWhile (p := (· == c)) (l := l))
        rw [width_append] at this
        omega
      simp only [trimMatches, width_reverse]
      refine Nat.le_trans (key _) ?_
      rw [width_reverse]
      exact key _
    rw [if_pos le]
    simp only [Sound, true_and]
    rw [good_moved h]
    constructor
    · rintro ⟨a, b, e1, e2⟩
      refine ⟨a, b, e1, ?_⟩
      subst e1
      rw [width_append] at e2 le
      omega
    · rintro ⟨a, b, e1, e2⟩
      refine ⟨a, b, e1, ?_⟩
      subst e1
      rw [width_append] at *
      omega
  | expectStr s =>
    simp only [Op.run, Fine, Parser.expectStr]
    have nopanic : ∀ r : Res (List Char), (Sound p.input (r.bind fun received q => if received = s then Res.ok () q else .err q) ↔
        Sound p.input r) := by
      intro r
      cases r with
      | ok a q => simp only [Res.bind]; split <;> rfl
      | err q => rfl
      | panic => rfl
    rw [nopanic]
    constructor
    · intro hs
      simp only [Parser.giveFrom] at hs
      split at hs
      · exact hs.elim
      · obtain ⟨a, b, e1, e2⟩ := (good_moved h _).mp hs.2
        exact ⟨a, b, e1, e2.symm⟩
    · rintro ⟨a, b, rfl, e⟩
      rw [← e]
      rw [h.giveFrom h.moved]
      exact ⟨rfl, good h.moved⟩
  | expectIdent =>
    simp only [Op.run, Fine]
    rw [← identSound]
    cases p.expectIdent <;> rfl
  | expectIdentMatching s =>
    simp only [Op.run, Fine, Parser.expectIdentMatching]
    rw [← identSound]
    cases p.expectIdent with
    | ok a q => simp only [Res.bind]; split <;> rfl
    | err q => rfl
    | panic => rfl

/-- **C18 (speculation)** A failed speculative parse stands where it started, whatever it did in between. -/
theorem tryParse_spec {α : Type} (p : Parser) (f : Parser → Res α) :
    (∀ a q, p.tryParse f = .ok a q ↔ f p = .ok a q) ∧
    (∀ q, p.tryParse f = .err q → q.cursor = p.cursor) ∧
    (p.tryParse f = .panic ↔ f p = .panic) := by
  simp only [Parser.tryParse]
  refine ⟨?_, ?_, ?_⟩
  · intro a q; split <;> simp_all
  · intro q; split <;> simp_all; rintro rfl; rfl
  · split <;> simp_all

/-! ## Programs over ASCII input -/

/-- Parsers built from operations: one after the other (`?`), an alternative after an error (`or_else`), and
speculation (`try_parse`). -/
inductive Prog where
  | op (o : Op)
  | seq (a b : Prog)
  | orElse (a b : Prog)
  | attempt (a : Prog)

def Prog.run : Prog → Parser → Res Unit
  | .op o, p => o.run p
  | .seq a b, p => (a.run p).bind fun _ q => b.run q
  | .orElse a b, p => match a.run p with
    | .ok u q => .ok u q
    | .err q => b.run q
    | .panic => .panic
  | .attempt a, p => p.tryParse a.run

/-- After an error the position may be off: only a failing `expect_str` outside of a speculation does that. -/
def Prog.tight : Prog → Bool
  | .op (.expectStr _) => false
  | .op _ => true
  | .seq a b => a.tight && b.tight
  | .orElse _ b => b.tight
  | .attempt _ => true

/-- No bare cursor arithmetic, and alternatives only after parsers that leave a sound position. -/
def Prog.safe : Prog → Bool
  | .op .advance => false
  | .op (.rewind _) => false
  | .op _ => true
  | .seq a b => a.safe && b.safe
  | .orElse a b => a.safe && b.safe && a.tight
  | .attempt a => a.safe

/-- Every character takes one byte. -/
def Ascii (l : List Char) : Prop := ∀ c ∈ l, c.utf8Size = 1

theorem ascii_width {l : List Char} (h : Ascii l) : width l = l.length := by
  induction l with
  | nil => rfl
  | cons c l ih =>
    rw [width_cons, ih (fun d hd => h d (by simp [hd])), h c (by simp)]
    simp; omega

theorem ascii_split {l : List Char} (h : Ascii l) {n : Nat} (hn : n ≤ l.length) :
    ∃ a b, l = a ++ b ∧ width a = n := by
  refine ⟨l.take n, l.drop n, by simp, ?_⟩
  rw [ascii_width (fun c hc => h c (List.mem_of_mem_take hc))]
  simp; omega

/-- **C18 (ASCII input, partial)** On ASCII input no parser built from the operations panics or passes the end,
as long as it does no cursor arithmetic of its own and does not go on after an `expect_str` that failed outside
of a speculation. Missing: input with other characters, where `step_iff` says what happens. -/
theorem ascii_safe_partial (g : Prog) (hs : g.safe = true) (p : Parser) (ha : Ascii p.input) (hg : Good p) :
    Outcome p.input (g.tight = true) (g.run p) := by
  induction g generalizing p with
  | op o =>
    obtain ⟨pre, rest, h⟩ := hg
    have har : Ascii rest := fun c hc => ha c (by rw [h.1]; simp [hc])
    have hh : AsciiHead rest := fun c t e => har c (by simp [e])
    have key : Fine pre rest o → Outcome p.input ((Prog.op o).tight = true) (o.run p) :=
      fun hf => ((step_iff h o).mpr hf).weak
    cases o with
    | advance => simp [Prog.safe] at hs
    | rewind n => simp [Prog.safe] at hs
    | expectStr s =>
      by_cases hw : width s ≤ rest.length
      · obtain ⟨a, b, e1, e2⟩ := ascii_split har hw
        have := (step_iff h (.expectStr s)).mpr ⟨a, b, e1, e2⟩
        exact this.weak
      · -- the expected text is longer than what remains
        have e : ({ p with cursor := p.cursor + width s } : Parser).sliceFrom p.cursor = some rest := by
          simp only [Parser.sliceFrom]
          rw [h.1, h.2, width_append, ascii_width har]
          rw [Nat.min_eq_right (by omega), if_pos (by omega), dropBytes_append]
          simp only [Option.bind_some]
          rw [show width pre + rest.length - width pre = width rest by rw [ascii_width har]; omega]
          simpa using takeBytes_append rest []
        have hne : rest ≠ s := by
          intro he
          subst he
          rw [ascii_width har] at hw
          omega
        simp only [Prog.run, Op.run, Parser.expectStr, Parser.giveFrom, e, Res.bind, if_neg hne]
        exact ⟨rfl, fun h => by simp [Prog.tight] at h⟩
    | skipChar c =>
      have hlen : width (trimMatches c rest) ≤ rest.length := by
        have key : ∀ l : List Char, width (l.dropWhile (· == c)) ≤ width l := by
          intro l
          have := congrArg width (List.takeWhile_append_dropWhile (p := (· == c)) (l := l))
          rw [width_append] at this
          omega
        rw [← ascii_width har]
        simp only [trimMatches, width_reverse]
        refine Nat.le_trans (key _) ?_
        rw [width_reverse]
        exact key _
      obtain ⟨a, b, e1, e2⟩ := ascii_split har (n := rest.length - width (trimMatches c rest)) (by omega)
      have := (step_iff h (.skipChar c)).mpr ⟨a, b, e1, by
        have hw := congrArg width e1
        rw [width_append, ascii_width har] at hw
        omega⟩
      exact this.weak
    | _ => exact key (by first | exact hh | trivial)
  | seq a b iha ihb =>
    simp only [Prog.safe, Bool.and_eq_true] at hs
    have h1 := iha hs.1 p ha hg
    simp only [Prog.run]
    cases hr : a.run p with
    | ok u q =>
      rw [hr] at h1
      simp only [Res.bind]
      have h2 := ihb hs.2 q (by rw [h1.1]; exact ha) h1.2
      cases hr2 : b.run q with
      | ok u r => rw [hr2] at h2; exact ⟨h2.1.trans h1.1, h2.2⟩
      | err r =>
        rw [hr2] at h2
        refine ⟨h2.1.trans h1.1, fun ht => h2.2 ?_⟩
        simp [Prog.tight] at ht; exact ht.2
      | panic => rw [hr2] at h2; exact h2
    | err q =>
      rw [hr] at h1
      refine ⟨h1.1, fun ht => h1.2 ?_⟩
      simp [Prog.tight] at ht; exact ht.1
    | panic => rw [hr] at h1; exact h1
  | orElse a b iha ihb =>
    simp only [Prog.safe, Bool.and_eq_true] at hs
    have h1 := iha hs.1.1 p ha hg
    simp only [Prog.run]
    cases hr : a.run p with
    | ok u q => rw [hr] at h1; exact h1
    | err q =>
      rw [hr] at h1
      have h2 := ihb hs.1.2 q (by rw [h1.1]; exact ha) (h1.2 hs.2)
      simp only
      cases hr2 : b.run q with
      | ok u r => rw [hr2] at h2; exact ⟨h2.1.trans h1.1, h2.2⟩
      | err r => rw [hr2] at h2; exact ⟨h2.1.trans h1.1, fun ht => h2.2 ht⟩
      | panic => rw [hr2] at h2; exact h2
    | panic => rw [hr] at h1; exact h1
  | attempt a iha =>
    have h1 := iha hs p ha hg
    simp only [Prog.run, Parser.tryParse]
    cases hr : a.run p with
    | ok u q => rw [hr] at h1; exact h1
    | err q =>
      rw [hr] at h1
      refine ⟨h1.1, fun _ => ?_⟩
      obtain ⟨pre, rest, h⟩ := hg
      exact ⟨pre, rest, by rw [← h.1]; exact h1.1, h.2⟩
    | panic => rw [hr] at h1; exact h1

/-! ## Witnesses -/

/-- **C18 (violated: reading)** Reading one two-byte character leaves the parser inside of it; the next look at
the input panics. -/
theorem read_violated : (Parser.new ['é', 'x']).read = .ok 'é' ⟨['é', 'x'], 1⟩ ∧
    (⟨['é', 'x'], 1⟩ : Parser).current = .panic := by decide +kernel

/-- **C18 (violated: skipping a character)** `skip_char` counts matches at the far end too: with `é,` ahead it moves
by one byte, into `é`. In `x,` it moves past `x`, which is no comma. -/
theorem skipChar_violated : (Parser.new ['é', ',']).skipChar ',' = .ok () ⟨['é', ','], 1⟩ ∧
    (⟨['é', ','], 1⟩ : Parser).current = .panic ∧
    (Parser.new ['x', ',']).skipChar ',' = .ok () ⟨['x', ','], 1⟩ := by decide +kernel

/-- **C18 (violated: expecting a text)** A text longer than the rest moves the cursor past the end; asking for the
remaining length then overflows. A text that ends inside of a character panics at once. -/
theorem expectStr_violated : (Parser.new ['a']).expectStr ['a', 'b'] = .err ⟨['a'], 2⟩ ∧
    (⟨['a'], 2⟩ : Parser).len = none ∧ (⟨['a'], 2⟩ : Parser).slice = none ∧
    (Parser.new ['a', 'é']).expectStr ['a', 'b'] = .panic := by decide +kernel

/-- When `skip_char` does what its name says: exactly when the remaining input does not end with further
occurrences of the character. -/
theorem skipChar_iff (h : At p pre rest) (c : Char) :
    p.skipChar c = .ok () { p with cursor := p.cursor + width (rest.takeWhile (· == c)) } ↔
      (rest.dropWhile (· == c)).getLast? ≠ some c := by
  simp only [Parser.skipChar, h.slice, Parser.skipInternal, h.len]
  have hsplit := congrArg width (List.takeWhile_append_dropWhile (p := (· == c)) (l := rest))
  rw [width_append] at hsplit
  let d := rest.dropWhile (· == c)
  have hd : width (trimMatches c rest) + width ((d.reverse).takeWhile (· == c)) = width d := by
    have := congrArg width (List.takeWhile_append_dropWhile (p := (· == c)) (l := d.reverse))
    rw [width_append, width_reverse] at this
    simp only [trimMatches, width_reverse]
    show width (d.reverse.dropWhile (· == c)) + _ = _
    omega
  have key : width ((d.reverse).takeWhile (· == c)) = 0 ↔ d.getLast? ≠ some c := by
    rcases d.eq_nil_or_concat with e | ⟨m, z, e⟩
    · rw [e]; simp [width_nil]
    · rw [e]
      by_cases hz : z = c
      · simp [hz, width_cons]; have := size_pos c; omega
      · simp [hz, width_nil]
  rw [← key]
  have hdd : width d = width (rest.dropWhile (· == c)) := rfl
  rw [if_pos (by omega)]
  simp only [Res.ok.injEq, Parser.mk.injEq, true_and]
  omega

/-- The names of XML 1.0 (production 4). -/
def XmlNameStart (c : Char) : Prop :=
  c = ':' ∨ ('A' ≤ c ∧ c ≤ 'Z') ∨ c = '_' ∨ ('a' ≤ c ∧ c ≤ 'z') ∨
    let n := c.toNat
    (0xC0 ≤ n ∧ n ≤ 0xD6) ∨ (0xD8 ≤ n ∧ n ≤ 0xF6) ∨ (0xF8 ≤ n ∧ n ≤ 0x2FF) ∨ (0x370 ≤ n ∧ n ≤ 0x37D) ∨
    (0x37F ≤ n ∧ n ≤ 0x1FFF) ∨ (0x200C ≤ n ∧ n ≤ 0x200D) ∨ (0x2070 ≤ n ∧ n ≤ 0x218F) ∨ (0x2C00 ≤ n ∧ n ≤ 0x2FEF) ∨
    (0x3001 ≤ n ∧ n ≤ 0xD7FF) ∨ (0xF900 ≤ n ∧ n ≤ 0xFDCF) ∨ (0xFDF0 ≤ n ∧ n ≤ 0xFFFD) ∨ (0x10000 ≤ n ∧ n ≤ 0xEFFFF)

/-- **C34 (name characters)** The characters that may start a name are those of XML 1.0, except that `Ö`
(U+00D6) is refused. -/
theorem nameStart_iff (c : Char) : isNameStartChar c = true ↔ XmlNameStart c ∧ c ≠ 'Ö' := by
  have toN : ∀ d : Char, c = d ↔ c.toNat = d.toNat := fun d => ⟨fun h => by rw [h], fun h => Char.toNat_inj.mp h⟩
  have leN : ∀ a b : Char, a ≤ b ↔ a.toNat ≤ b.toNat := fun a b => Iff.rfl
  simp only [isNameStartChar, XmlNameStart, Char.isAlpha, Char.isUpper, Char.isLower, Bool.or_eq_true, Bool.and_eq_true,
    decide_eq_true_eq, beq_iff_eq, toN, leN, ne_eq, ge_iff_le, UInt32.le_iff_toNat_le]
  simp only [show (':' : Char).toNat = 58 from rfl, show ('A' : Char).toNat = 65 from rfl,
    show ('Z' : Char).toNat = 90 from rfl, show ('_' : Char).toNat = 95 from rfl, show ('a' : Char).toNat = 97 from rfl,
    show ('z' : Char).toNat = 122 from rfl, show ('Ö' : Char).toNat = 214 from rfl]
  have hv : c.val.toNat = c.toNat := rfl
  simp only [show ('A' : Char).val.toNat = 65 from rfl, show ('Z' : Char).val.toNat = 90 from rfl,
    show ('a' : Char).val.toNat = 97 from rfl, show ('z' : Char).val.toNat = 122 from rfl]
  rw [hv]
  omega

/-- The further characters of names in XML 1.0 (production 4a). -/
def XmlNameChar (c : Char) : Prop :=
  XmlNameStart c ∨ c = '-' ∨ c = '.' ∨ ('0' ≤ c ∧ c ≤ '9') ∨
    let n := c.toNat
    n = 0xB7 ∨ (0x300 ≤ n ∧ n ≤ 0x36F) ∨ (0x203F ≤ n ∧ n ≤ 0x2040)

/-- **C34 (name characters)** The characters that may follow in a name are those of XML 1.0, except `Ö`. -/
theorem nameChar_iff (c : Char) : isNameChar c = true ↔ XmlNameChar c ∧ c ≠ 'Ö' := by
  have toN : ∀ d : Char, c = d ↔ c.toNat = d.toNat := fun d => ⟨fun h => by rw [h], fun h => Char.toNat_inj.mp h⟩
  have leN : ∀ a b : Char, a ≤ b ↔ a.toNat ≤ b.toNat := fun a b => Iff.rfl
  unfold isNameChar XmlNameChar
  simp only [Bool.or_eq_true, nameStart_iff, Bool.and_eq_true, decide_eq_true_eq, beq_iff_eq, Char.isDigit,
    ge_iff_le, UInt32.le_iff_toNat_le]
  simp only [toN, leN, ne_eq, show ('-' : Char).toNat = 45 from rfl, show ('.' : Char).toNat = 46 from rfl,
    show ('Ö' : Char).toNat = 214 from rfl, show ('0' : Char).toNat = 48 from rfl,
    show ('9' : Char).toNat = 57 from rfl, show ('0' : Char).val.toNat = 48 from rfl,
    show ('9' : Char).val.toNat = 57 from rfl]
  have hv : c.val.toNat = c.toNat := rfl
  rw [hv]
  by_cases hs : XmlNameStart c
  · simp only [hs, true_and, true_or]
    omega
  · simp only [hs, false_and, false_or]
    omega

/-- The code points with the Unicode property `White_Space`. -/
def whiteSpace : List Nat := [0x9, 0xA, 0xB, 0xC, 0xD, 0x20, 0x85, 0xA0, 0x1680, 0x2000, 0x2001, 0x2002, 0x2003, 0x2004,
  0x2005, 0x2006, 0x2007, 0x2008, 0x2009, 0x200A, 0x2028, 0x2029, 0x202F, 0x205F, 0x3000]

theorem whitespace_iff (c : Char) : isWhitespace c = true ↔ c.toNat ∈ whiteSpace := by
  simp only [isWhitespace, whiteSpace, Bool.or_eq_true, Bool.and_eq_true, decide_eq_true_eq, beq_iff_eq, List.mem_cons,
    List.not_mem_nil, or_false]
  omega

/-- **C36 (character)** With a one-byte character ahead, expecting a character succeeds exactly if it is the one
ahead, and then moves past it. -/
theorem expectChar_spec (h : At p pre rest) (c : Char) (q : Parser) :
    p.expectChar c = .ok () q ↔ ∃ t, rest = c :: t ∧ q = ⟨p.input, p.cursor + 1⟩ := by
  rw [Parser.expectChar, h.read]
  cases rest with
  | nil => simp [Res.bind]
  | cons d t =>
    simp only [Res.bind, Parser.advance]
    by_cases e : d = c
    · simp [e, eq_comm]
    · simp [e]

/-- **C36 (end)** Expecting the end succeeds exactly at the end. -/
theorem expectDone_spec (h : At p pre rest) (q : Parser) : p.expectDone = .ok () q ↔ rest = [] ∧ q = p := by
  rw [Parser.expectDone, h.1, h.2, width_append]
  cases rest with
  | nil => simp [width_nil, eq_comm]
  | cons c t =>
    have := size_pos c
    rw [if_pos (by rw [width_cons]; omega)]
    simp

/-- **C36 (text)** Expecting a text succeeds exactly if the rest begins with it, and then moves past it. -/
theorem expectStr_spec (h : At p pre rest) (s : List Char) (q : Parser) :
    p.expectStr s = .ok () q ↔ ∃ t, rest = s ++ t ∧ q = ⟨p.input, p.cursor + width s⟩ := by
  constructor
  · intro hh
    simp only [Parser.expectStr, Parser.giveFrom] at hh
    cases hs : ({ p with cursor := p.cursor + width s } : Parser).sliceFrom p.cursor with
    | none => simp [hs, Res.bind] at hh
    | some r =>
      simp only [hs, Res.bind] at hh
      split at hh
      · next e =>
        subst e
        simp only [Res.ok.injEq, true_and] at hh
        simp only [Parser.sliceFrom] at hs
        split at hs
        · rw [h.1, h.2, dropBytes_append] at hs
          obtain ⟨t, ht, _⟩ := takeBytes_some hs
          exact ⟨t, ht, hh.symm⟩
        · simp at hs
      · simp at hh
  · rintro ⟨t, rfl, rfl⟩
    simp only [Parser.expectStr]
    rw [h.giveFrom h.moved]
    simp [Res.bind]

/-- **C36 (identifier)** Expecting a certain identifier succeeds exactly if the whole identifier ahead is it. -/
theorem expectIdentMatching_spec (h : At p pre rest) (ha : AsciiHead rest) (s : List Char) (q : Parser) :
    p.expectIdentMatching s = .ok () q ↔ ∃ c t, s = c :: t.takeWhile isNameChar ∧ rest = c :: t ∧
      isNameStartChar c = true ∧ q = ⟨p.input, p.cursor + width s⟩ := by
  obtain ⟨r, hi, hr⟩ := expectIdent_spec h ha
  rw [Parser.expectIdentMatching]
  cases rest with
  | nil => simp only at hr; rw [hr.1]; simp [Res.bind]
  | cons c t =>
    simp only at hr
    by_cases hc : isNameStartChar c = true
    · rw [if_pos hc] at hr
      rw [hr.1]
      simp only [Res.bind]
      have hcur : r = ⟨p.input, p.cursor + width (c :: t.takeWhile isNameChar)⟩ := by
        have := hr.2.2
        rw [width_append] at this
        cases r; simp_all [h.2]
      by_cases e : c :: t.takeWhile isNameChar = s
      · rw [if_pos e]
        simp only [Res.ok.injEq, true_and]
        constructor
        · rintro rfl
          exact ⟨c, t, e.symm, rfl, hc, by rw [← e]; exact hcur⟩
        · rintro ⟨c', t', _, _, _, rfl⟩
          rw [← e]; exact hcur
      · rw [if_neg e]
        simp only [reduceCtorEq, false_iff]
        rintro ⟨c', t', e1, e2, _⟩
        simp only [List.cons.injEq] at e2
        apply e
        rw [e1, e2.1, e2.2]
    · rw [if_neg hc] at hr
      rw [hr.1]
      simp only [Res.bind, reduceCtorEq, false_iff]
      rintro ⟨c', t', e1, e2, hc', _⟩
      simp only [List.cons.injEq] at e2
      rw [e2.1] at hc
      exact hc hc'

/-! ## Concrete cases -/

example : (Parser.new "auto fit".toList).expectIdentMatching "auto".toList = .ok () ⟨"auto fit".toList, 4⟩ ∧
    (Parser.new "autofit".toList).expectIdentMatching "auto".toList = .err ⟨"autofit".toList, 7⟩ ∧
    (Parser.new "autofit".toList).expectStr "auto".toList = .ok () ⟨"autofit".toList, 4⟩ := by decide +kernel

example : (Parser.new "ab-c d".toList).expectIdent = .ok "ab-c".toList ⟨"ab-c d".toList, 4⟩ := by decide +kernel
example : (Parser.new "éb".toList).expectIdent = .panic := by decide +kernel
example : (Parser.new "aÖb".toList).expectIdent = .ok ['a'] ⟨"aÖb".toList, 1⟩ := by decide +kernel
example : (Parser.new "  é x".toList).skipWhitespace = .ok () ⟨"  é x".toList, 2⟩ := by decide +kernel
example : Prog.run (.orElse (.attempt (.seq (.op (.expectStr "auto".toList)) (.op .expectDone))) (.op (.expectStr "au".toList)))
    (Parser.new "aut".toList) = .ok () ⟨"aut".toList, 2⟩ := by decide +kernel
/- `é,` is three bytes and `skip_char(',')` moves by one: no prefix of whole characters -/
example : ¬ Fine [] ['é', ','] (.skipChar ',') := by
  rintro ⟨a, b, e, hw⟩
  have hb : width (trimMatches ',' ['é', ',']) = 2 := by decide +kernel
  rw [hb] at hw
  have hs : 'é'.utf8Size = 2 := by decide +kernel
  have hc : ','.utf8Size = 1 := by decide +kernel
  have ht := congrArg width e
  rw [width_append, hw] at ht
  cases a with
  | nil => simp [width] at ht; omega
  | cons x a =>
    have : x = 'é' := by simp at e; exact e.1.symm
    subst this
    simp [width] at ht
    omega

end Verif.Parse
