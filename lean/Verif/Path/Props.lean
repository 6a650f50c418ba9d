import Verif.Path.Close
import Verif.Path.Total

/-!
# Reading path data: theorems

The specification below repeats the grammar of the SVG recommendation: a table of command letters, separators, and how
a group of arguments without a letter goes on.
-/

namespace Verif.Path

open Verif.Parse Verif.Number

variable {p q : Parser} {pre rest : List Char} {finite : List Char → Bool} {allow : Bool}

/-! ## The loop as a whole -/

theorem moved_end {text : List Char} (h : p.input = text) (hm : Moved p q []) : q = ⟨text, width text⟩ := by
  obtain ⟨e, a, ha⟩ := hm
  cases q
  simp only [Parser.mk.injEq]
  have : a = text := by have := ha.1; simp at this; rw [← this]; exact e.trans h
  refine ⟨e.trans h, ?_⟩
  rw [← this]
  exact ha.2

theorem parse_run {text : List Char} (hn : NoEnd text) (fuel : Nat) (L : List (Data (List Char))) (q : Parser) :
    parseString finite fuel text = some (.ok L q) ↔
      L.length < fuel ∧ Run finite false none (text.dropWhile isWhitespace) L ∧ q = ⟨text, width text⟩ := by
  have h : At (Parser.new text) [] text := ⟨rfl, rfl⟩
  obtain ⟨p1, e1, m1, a1, h1⟩ := At.ws h
  have hn1 := hn.dropWhile (f := isWhitespace)
  simp only [parseString, e1, continue']
  have key := extend_iff (finite := finite) (allow := false) fuel (list := []) h1 hn1
  constructor
  · intro hp
    cases he : parseExtend finite false fuel [] p1 with
    | none => rw [he] at hp; simp at hp
    | some r =>
      rw [he] at hp
      simp only [Option.bind_some] at hp
      cases r with
      | err q => simp at hp
      | panic => simp at hp
      | ok L' q' =>
        obtain ⟨ds, hlen, hr, rfl, hm⟩ := (key L' q').mp he
        have hq' : q' = ⟨text, width text⟩ := moved_end m1 hm
        subst hq'
        have hat : At ⟨text, width text⟩ text [] := ⟨by simp, rfl⟩
        obtain ⟨p2, e2, m2⟩ := At.ws hat
        have : p2 = ⟨text, width text⟩ := moved_end rfl m2
        subst this
        simp only [e2, Parser.expectDone, Nat.lt_irrefl, if_false, Option.some.injEq, Res.ok.injEq] at hp
        obtain ⟨rfl, rfl⟩ := hp
        exact ⟨hlen, hr, rfl⟩
  · rintro ⟨hlen, hr, rfl⟩
    have he := (key L ⟨text, width text⟩).mpr ⟨L, hlen, hr, rfl, m1.symm, text, by simp, rfl⟩
    have hat : At ⟨text, width text⟩ text [] := ⟨by simp, rfl⟩
    obtain ⟨p2, e2, m2⟩ := At.ws hat
    have : p2 = ⟨text, width text⟩ := moved_end rfl m2
    subst this
    simp only [he, Option.bind_some, e2, Parser.expectDone, Nat.lt_irrefl, if_false]

theorem parse_none {text : List Char} {p1 : Parser} {fuel : Nat} (e1 : (Parser.new text).skipWhitespace = .ok () p1)
    : parseString finite fuel text = none ↔ parseExtend finite false fuel [] p1 = none := by
  simp only [parseString, e1, continue']
  cases parseExtend finite false fuel [] p1 with
  | none => simp
  | some r =>
    simp only [Option.bind_some, reduceCtorEq, iff_false]
    cases r with
    | err q => simp
    | panic => simp
    | ok L q =>
      simp only
      cases q.skipWhitespace with
      | err q => simp
      | panic => simp
      | ok _ q =>
        simp only
        cases q.expectDone <;> simp

/-- Parsing the text comes to an end. -/
def Halts (finite : List Char → Bool) (text : List Char) : Prop := ∃ fuel, parseString finite fuel text ≠ none

/-- The text is read without an error. -/
def Accepted (finite : List Char → Bool) (text : List Char) : Prop := ∃ fuel L q, parseString finite fuel text = some (.ok L q)

/-- **C20 (exactly)** A text that does not end with a comma or a point makes the parser run for ever exactly when it
starts with a readable path that ends with a close-path letter, and the next character, after white space and commas, is
not a command letter. -/
theorem halts_iff {text : List Char} (hn : NoEnd text) : Halts finite text ↔
    ¬ ∃ u s c t, text = u ++ s ++ c :: t ∧ Accepted finite u ∧ (u.getLast? = some 'z' ∨ u.getLast? = some 'Z') ∧
      (∀ d ∈ s, isWhitespace d = true ∨ d = ',') ∧ isWhitespace c = false ∧ c ≠ ',' ∧
      c ∉ "MmLlHhVvCcSsQqTtAaZz".toList := by
  have h : At (Parser.new text) [] text := ⟨rfl, rfl⟩
  obtain ⟨p1, e1, m1, a1, h1⟩ := At.ws h
  have hn1 := hn.dropWhile (f := isWhitespace)
  have hend : ∀ u : List Char, (u.getLast? = some 'z' ∨ u.getLast? = some 'Z') ↔ EndZ u := by
    intro u
    rcases u.eq_nil_or_concat with rfl | ⟨v, x, rfl⟩
    · simp [EndZ]
    · simp only [List.concat_eq_append, List.getLast?_concat, Option.some.injEq, EndZ]
      constructor
      · intro h; exact ⟨v, x, rfl, h⟩
      · rintro ⟨a, c, e, hc⟩
        obtain ⟨_, rfl⟩ := List.append_singleton_inj.mp e
        exact hc
  have hletter : ∀ c : Char, c ∉ "MmLlHhVvCcSsQqTtAaZz".toList ↔ ofLetter c = none := by
    intro c
    constructor
    · intro hc
      cases hk : ofLetter c with
      | none => rfl
      | some k => exact absurd (letter_mem hk) hc
    · intro hk hc
      have : ∀ c ∈ "MmLlHhVvCcSsQqTtAaZz".toList, ofLetter c ≠ none := by decide +kernel
      exact this c hc hk
  have hacc : ∀ u : List Char, EndZ u → (Accepted finite u ↔ ∃ ds, Run finite false none (u.dropWhile isWhitespace) ds) := by
    intro u hu
    constructor
    · rintro ⟨fuel, L, q, hp⟩
      exact ⟨L, ((parse_run hu.noEnd fuel L q).mp hp).2.1⟩
    · rintro ⟨ds, hr⟩
      exact ⟨ds.length + 1, ds, _, (parse_run hu.noEnd _ ds _).mpr ⟨Nat.lt_succ_self _, hr, rfl⟩⟩
  have hspin := spin_iff (finite := finite) (allow := false) (text.dropWhile isWhitespace)
  have hhalt : Halts finite text ↔ ¬ ∃ o' l', Reach finite false none (text.dropWhile isWhitespace) o' l' ∧ Spins o' l' := by
    constructor
    · rintro ⟨fuel, hf⟩ ⟨o', l', hr, hs⟩
      exact hf ((parse_none e1).mpr (reach_spins hr hs fuel (list := []) h1 hn1 rfl))
    · intro hno
      obtain ⟨fuel, r, hf⟩ := halts (finite := finite) (allow := false) _ (list := []) h1 hn1 (Nat.le_refl _)
        (fun o' l' hr hs => hno ⟨o', l', hr, hs⟩)
      exact ⟨fuel, fun h => by rw [(parse_none e1).mp h] at hf; cases hf⟩
  rw [hhalt, hspin]
  refine not_congr ?_
  constructor
  · rintro ⟨u, y, ds, e, hu, hr, s, c, t, rfl, hs, hw, hc, hl⟩
    refine ⟨text.takeWhile isWhitespace ++ u, s, c, t, ?_, ?_, (hend _).mpr (hu.append _), hs, hw, hc, (hletter c).mpr hl⟩
    · conv => lhs; rw [← List.takeWhile_append_dropWhile (p := isWhitespace) (l := text), e]
      simp
    · refine (hacc _ (hu.append _)).mpr ⟨ds, ?_⟩
      have : (text.takeWhile isWhitespace ++ u).dropWhile isWhitespace = u := by
        rw [List.dropWhile_append_of_pos (fun c hc => takeWhile_all c hc)]
        cases u with
        | nil => rfl
        | cons d u =>
          have := List.head?_dropWhile_not isWhitespace text
          rw [e] at this
          simp at this
          simp [this]
      rw [this]
      exact hr
  · rintro ⟨u, s, c, t, e, hu, hz, hs, hw, hc, hl⟩
    have hz' := (hend u).mp hz
    obtain ⟨ds, hr⟩ := (hacc u hz').mp hu
    obtain ⟨h2, e2⟩ := hz'.ws
    refine ⟨u.dropWhile isWhitespace, s ++ c :: t, ds, ?_, h2, hr, s, c, t, rfl, hs, hw, hc, (hletter c).mp hl⟩
    rw [e, List.append_assoc, e2]

/-- **C20 (texts without close-path)** Every text without the letters `z` and `Z` is parsed in finitely many steps. -/
theorem halts_no_close (text : List Char) (h1 : 'z' ∉ text) (h2 : 'Z' ∉ text) : Halts finite text := by
  have h : At (Parser.new text) [] text := ⟨rfl, rfl⟩
  obtain ⟨p1, e1, m1, a1, h1'⟩ := At.ws h
  obtain ⟨fuel, r, hf⟩ := halts_fwd (finite := finite) (allow := false) _ (list := []) (p := p1) (Nat.le_refl _) (by simp)
    (by rw [m1]; exact ⟨h1, h2⟩)
  exact ⟨fuel, fun h => by rw [(parse_none e1).mp h] at hf; cases hf⟩

/-- Once parsing ends, more steps do not change the outcome. -/
theorem extend_mono (fuel : Nat) : ∀ {list : List (Data (List Char))} {p : Parser} {r : Res (List (Data (List Char)))},
    parseExtend finite allow fuel list p = some r → ∀ n, fuel ≤ n → parseExtend finite allow n list p = some r := by
  induction fuel with
  | zero => intro list p r h; simp [parseExtend] at h
  | succ fuel ih =>
    intro list p r h n hn
    obtain ⟨n, rfl⟩ : ∃ m, n = m + 1 := ⟨n - 1, by omega⟩
    rw [parseExtend] at h ⊢
    split
    · next hl => rw [if_pos hl] at h; exact h
    · next hl =>
      rw [if_neg hl] at h
      split
      · next h0 => rw [if_pos h0] at h; exact h
      · next h0 =>
        rw [if_neg h0] at h
        cases hi : iteration finite allow list p with
        | ok d q => rw [hi] at h; exact ih h n (by omega)
        | err q => rw [hi] at h; exact h
        | panic => rw [hi] at h; exact h

/-- **C20 (outcome)** The outcome of parsing does not depend on when one looks. -/
theorem parse_mono {text : List Char} {fuel n : Nat} {r : Res (List (Data (List Char)))}
    (h : parseString finite fuel text = some r) (hn : fuel ≤ n) : parseString finite n text = some r := by
  obtain ⟨p1, e1, _⟩ := At.ws (p := Parser.new text) (pre := []) (rest := text) ⟨rfl, rfl⟩
  simp only [parseString, e1, continue'] at h ⊢
  cases he : parseExtend finite false fuel [] p1 with
  | none => rw [he] at h; simp at h
  | some r' =>
    rw [he] at h
    rw [extend_mono fuel he n hn]
    exact h

/-! ## The grammar -/

/-- The command letters of SVG with their commands and arguments (`true` for a flag). -/
def table : List (Char × Kind × List Bool) :=
  [('M', .moveTo, [false, false]), ('m', .moveBy, [false, false]), ('Z', .closePath, []), ('z', .closePath, []),
   ('L', .lineTo, [false, false]), ('l', .lineBy, [false, false]),
   ('H', .horizontalTo, [false]), ('h', .horizontalBy, [false]), ('V', .verticalTo, [false]), ('v', .verticalBy, [false]),
   ('C', .cubicTo, [false, false, false, false, false, false]), ('c', .cubicBy, [false, false, false, false, false, false]),
   ('S', .smoothTo, [false, false, false, false]), ('s', .smoothBy, [false, false, false, false]),
   ('Q', .quadTo, [false, false, false, false]), ('q', .quadBy, [false, false, false, false]),
   ('T', .smoothQuadTo, [false, false]), ('t', .smoothQuadBy, [false, false]),
   ('A', .arcTo, [false, false, false, true, true, false, false]), ('a', .arcBy, [false, false, false, true, true, false, false])]

/-- What a group of arguments without a letter means after a command: a line after a move, otherwise the same; nothing can
go on after a close-path. -/
def continues : Kind → Option Kind
  | .moveTo => some .lineTo
  | .moveBy => some .lineBy
  | .closePath => none
  | k => some k

theorem table_iff (c : Char) (k : Kind) (sh : List Bool) : (c, k, sh) ∈ table ↔ ofLetter c = some k ∧ sh = k.shape := by
  constructor
  · intro h
    have : ∀ x ∈ table, ofLetter x.1 = some x.2.1 ∧ x.2.2 = x.2.1.shape := by decide +kernel
    exact this _ h
  · rintro ⟨h, rfl⟩
    have : ∀ c ∈ "MmLlHhVvCcSsQqTtAaZz".toList, ∀ k, ofLetter c = some k → (c, k, k.shape) ∈ table := by
      intro c hc k
      have : ∀ c ∈ "MmLlHhVvCcSsQqTtAaZz".toList, (ofLetter c).all fun k => decide ((c, k, k.shape) ∈ table) := by decide +kernel
      intro hk
      have := this c hc
      rw [hk] at this
      simpa using this
    exact this c (letter_mem h) k h

/-- White space. -/
def Blank (s : List Char) : Prop := ∀ c ∈ s, isWhitespace c = true

/-- A separator of SVG: white space with at most one comma. -/
def Sep (s : List Char) : Prop := ∃ a b, Blank a ∧ Blank b ∧ (s = a ++ b ∨ s = a ++ ',' :: b)

/-- A separator as the code reads it: white space, commas, white space. -/
def LooseSep (s : List Char) : Prop := ∃ a n b, Blank a ∧ Blank b ∧ s = a ++ List.replicate n ',' ++ b

/-- The number ends where the rest begins: it is the longest number there, and a point does not follow immediately on an
exponent or a final point. -/
def Apart (t r : List Char) : Prop :=
  Longest (t ++ r) t ∧ (r.head? = some '.' → t.getLast? ≠ some '.' ∧ 'e' ∉ t ∧ 'E' ∉ t)

/-- Arguments with their separators, up to the rest of the text. -/
inductive Args (finite : List Char → Bool) (sep : List Char → Prop) : List Bool → List (List Char) → List Char → List Char → Prop
  | nil (r : List Char) : Args finite sep [] [] r r
  | num {fs : List Bool} {ts : List (List Char)} {t s m r : List Char} : Apart t (s ++ m) → finite t = true → sep s →
      Args finite sep fs ts m r → Args finite sep (false :: fs) (t :: ts) (t ++ s ++ m) r
  | flag {fs : List Bool} {ts : List (List Char)} {c : Char} {s m r : List Char} : c = '0' ∨ c = '1' → sep s →
      Args finite sep fs ts m r → Args finite sep (true :: fs) ([c] :: ts) (c :: s ++ m) r

/-- The command as the parser represents it: marked as implicit when its letter could be left out. -/
def mark (o : Option Kind) (k : Kind) (a : List (List Char)) : Data (List Char) :=
  if o = some k then .implicit (.plain k a) else .plain k a

/-- Path data after a command `n`. Two things depart from SVG: white space after a final close-path is left out (see
`trailing_violated`), and a close-path right after a close-path is represented as implicit. -/
inductive Svg (finite : List Char → Bool) : Kind → List Char → List (Data (List Char)) → Prop
  | nil (k : Kind) : Svg finite k [] []
  | letter {c : Char} {k n : Kind} {sh : List Bool} {ts : List (List Char)} {w m r : List Char} {ds : List (Data (List Char))} :
      (c, k, sh) ∈ table → k ≠ .closePath → Blank w → Args finite Sep sh ts m r → Svg finite k r ds →
      Svg finite n (c :: w ++ m) (mark (continues n) k ts :: ds)
  | close {c : Char} {n : Kind} {w r : List Char} {ds : List (Data (List Char))} : c = 'z' ∨ c = 'Z' →
      Blank w → (r = [] → w = []) → Svg finite .closePath r ds → Svg finite n (c :: w ++ r) (mark (some n) .closePath [] :: ds)
  | again {n k : Kind} {c : Char} {sh : List Bool} {ts : List (List Char)} {m r : List Char} {ds : List (Data (List Char))} :
      continues n = some k → (c, k, sh) ∈ table → Args finite Sep sh ts m r → Svg finite k r ds →
      Svg finite n m (.implicit (.plain k ts) :: ds)

/-- A whole path: a move-to, then the rest. -/
inductive SvgPath (finite : List Char → Bool) : List Char → List (Data (List Char)) → Prop
  | move {c : Char} {k : Kind} {ts : List (List Char)} {w m r : List Char} {ds : List (Data (List Char))} :
      (c = 'M' ∧ k = .moveTo) ∨ (c = 'm' ∧ k = .moveBy) → Blank w → Args finite Sep [false, false] ts m r → Svg finite k r ds →
      SvgPath finite (c :: w ++ m) (.plain k ts :: ds)

/-- The text does not start with white space, a comma or `e`. -/
def Clean (l : List Char) : Prop := ∀ c t, l = c :: t → isWhitespace c = false ∧ c ≠ ',' ∧ isE c = false

theorem blank_drop {a l : List Char} (ha : Blank a) (hl : Ends isWhitespace l) : (a ++ l).dropWhile isWhitespace = l := by
  rw [List.dropWhile_append_of_pos ha]
  cases l with
  | nil => rfl
  | cons c l => simp [hl c l rfl]

theorem clean_ends {l : List Char} (h : Clean l) : Ends isWhitespace l := fun c t e => (h c t e).1

theorem blank_comma {a : List Char} (ha : Blank a) : ∀ c t, a = c :: t → c ≠ ',' := by
  rintro c t rfl rfl
  have := ha ',' (by simp)
  simp [isWhitespace] at this

theorem afterSep_of {s m : List Char} (hs : Sep s) (hm : Clean m) : afterSep (s ++ m) = m := by
  obtain ⟨a, b, ha, hb, rfl | rfl⟩ := hs
  · have hab : Blank (a ++ b) := by intro c hc; simp at hc; rcases hc with h | h; exact ha c h; exact hb c h
    rw [afterSep, blank_drop hab (clean_ends hm)]
    cases m with
    | nil => rfl
    | cons c m =>
      have := hm c m rfl
      simp [this]
  · rw [List.append_assoc, List.cons_append, afterSep, blank_drop ha (fun c t e => by simp at e; rw [← e.1]; decide)]
    have h1 : (',' :: (b ++ m)).dropWhile (· == ',') = b ++ m := by
      rw [List.dropWhile_cons_of_pos (by rfl)]
      cases b with
      | nil =>
        cases m with
        | nil => rfl
        | cons c m => simp [hm c m rfl]
      | cons c b => simp [blank_comma hb c b rfl]
    rw [h1, blank_drop hb (clean_ends hm)]

theorem number_first {t : List Char} (h : IsNumber t) : ∃ c u, t = c :: u ∧ (c.isDigit = true ∨ c = '.' ∨ c = '-' ∨ c = '+') := by
  have hr := (rustFloat_iff t).mpr h
  cases t with
  | nil => simp [rustFloat, accept] at hr
  | cons c t =>
    refine ⟨c, t, rfl, ?_⟩
    have hgood : step .start c ≠ .dead := by
      intro hd
      simp only [rustFloat, List.foldl_cons, hd, run_dead] at hr
      simp [accept] at hr
    by_cases hdig : c.isDigit = true
    · exact .inl hdig
    · simp only [step, hdig, Bool.false_eq_true, if_false] at hgood
      split at hgood
      · next hc => simp at hc; exact .inr (.inl hc)
      · split at hgood
        · simp [onE] at hgood
        · split at hgood
          · next hc =>
            simp only [isSign, Bool.or_eq_true, beq_iff_eq] at hc
            exact .inr (.inr hc)
          · simp at hgood

theorem digit_range {c : Char} (h : c.isDigit = true) : 48 ≤ c.toNat ∧ c.toNat ≤ 57 := by
  simp only [Char.isDigit, Bool.and_eq_true, decide_eq_true_eq] at h
  exact ⟨h.1, h.2⟩

theorem digit_letter {c : Char} (h : c.isDigit = true) : ofLetter c = none := by
  cases hk : ofLetter c with
  | none => rfl
  | some k =>
    have : ∀ c ∈ "MmLlHhVvCcSsQqTtAaZz".toList, c.isDigit = false := by decide +kernel
    rw [this c (letter_mem hk)] at h
    cases h

theorem number_head {t : List Char} (h : IsNumber t) (r : List Char) : Clean (t ++ r) := by
  obtain ⟨c, u, rfl, hc⟩ := number_first h
  rintro d t e
  simp at e
  rw [← e.1]
  rcases hc with hdig | rfl | rfl | rfl
  · have hd2 := digit_range hdig
    refine ⟨?_, ?_, ?_⟩
    · simp only [isWhitespace, Bool.or_eq_false_iff, Bool.and_eq_false_iff, decide_eq_false_iff_not, beq_eq_false_iff_ne]
      omega
    · rintro rfl; revert hdig; decide
    · simp only [isE, Bool.or_eq_false_iff, beq_eq_false_iff_ne]
      constructor <;> (rintro rfl; revert hdig; decide)
  all_goals exact ⟨by decide, by decide, by decide⟩

theorem number_noLetter {t : List Char} (h : IsNumber t) (r : List Char) : NoLetter (t ++ r) := by
  obtain ⟨c, u, rfl, hc⟩ := number_first h
  rintro d t e
  simp at e
  rw [← e.1]
  rcases hc with hdig | rfl | rfl | rfl
  · exact digit_letter hdig
  all_goals rfl

theorem clean_flag {c : Char} (h : c = '0' ∨ c = '1') (r : List Char) : Clean (c :: r) := by
  rintro d t e
  simp at e
  rw [← e.1]
  rcases h with rfl | rfl <;> exact ⟨by decide, by decide, by decide⟩

theorem letter_head {c : Char} (h : c ∈ "MmLlHhVvCcSsQqTtAaZz".toList) (r : List Char) : Clean (c :: r) := by
  have hall : ∀ x ∈ "MmLlHhVvCcSsQqTtAaZz".toList, isWhitespace x = false ∧ x ≠ ',' ∧ isE x = false := by decide +kernel
  rintro d t e
  rw [List.cons.injEq] at e
  rw [← e.1]
  exact hall c h

theorem table_head {c : Char} {k : Kind} {sh : List Bool} (h : (c, k, sh) ∈ table) (r : List Char) : Clean (c :: r) :=
  letter_head (letter_mem ((table_iff c k sh).mp h).1) r

theorem close_head {c : Char} (h : c = 'z' ∨ c = 'Z') (r : List Char) : Clean (c :: r) :=
  letter_head (by rcases h with rfl | rfl <;> decide +kernel) r

theorem args_clean {sep : List Char → Prop} {fs : List Bool} {ts : List (List Char)} {m r : List Char}
    (h : Args finite sep fs ts m r) (hr : Clean r) : Clean m := by
  cases h with
  | nil => exact hr
  | num ha hf hs hrest => rw [List.append_assoc]; exact number_head ha.1.1 _
  | flag hc hs hrest => exact clean_flag hc _

theorem apart_clash {t r : List Char} (h : Apart t r) (hr : ∀ c u, r = c :: u → isE c = false) : ¬ Clash t r := by
  rintro (⟨h1, h2⟩ | ⟨_, e, u, rfl, he, _⟩)
  · obtain ⟨h3, h4, h5⟩ := h.2 h1
    rcases h2 with h2 | ⟨e, hm, he⟩
    · exact h3 h2
    · simp only [isE, Bool.or_eq_true, beq_iff_eq] at he
      rcases he with rfl | rfl
      · exact h4 hm
      · exact h5 hm
  · rw [hr e u rfl] at he; cases he

theorem sep_e {s m : List Char} (hs : Sep s) (hm : Clean m) : ∀ c u, s ++ m = c :: u → isE c = false := by
  intro c u e
  have hws : ∀ c, isWhitespace c = true → isE c = false := by
    intro c hc
    simp only [isE, Bool.or_eq_false_iff, beq_eq_false_iff_ne]
    constructor <;> (rintro rfl; revert hc; decide)
  obtain ⟨a, b, ha, hb, rfl | rfl⟩ := hs
  · cases a with
    | nil =>
      cases b with
      | nil => exact (hm c u e).2.2
      | cons d b => simp at e; rw [← e.1]; exact hws d (hb d (by simp))
    | cons d a => simp at e; rw [← e.1]; exact hws d (ha d (by simp))
  · cases a with
    | nil => simp at e; rw [← e.1]; decide
    | cons d a => simp at e; rw [← e.1]; exact hws d (ha d (by simp))

theorem args_read {fs : List Bool} {ts : List (List Char)} {m r : List Char}
    (h : Args finite Sep fs ts m r) (hr : Clean r) : ReadArgs finite fs m ts r := by
  induction h with
  | nil => exact .nil _
  | num ha hf hs hrest ih =>
    have hc := args_clean hrest hr
    refine .num (r := _) ?_ ha.1 hf (apart_clash ha (sep_e hs hc)) ?_
    · rw [List.append_assoc]
      exact blank_drop (a := []) (by intro c h; simp at h) (clean_ends (number_head ha.1.1 _))
    · rw [afterSep_of hs hc]; exact ih hr
  | flag hc hs hrest ih =>
    have he := afterSep_of hs (args_clean hrest hr)
    exact .flag hc (by
      show ReadArgs finite _ (afterSep (_ ++ _)) _ _
      rw [he]; exact ih hr)

theorem svg_clean {n : Kind} {m : List Char} {ds : List (Data (List Char))} (h : Svg finite n m ds) : Clean m := by
  induction h with
  | nil => intro c t e; simp at e
  | letter hm _ _ _ _ _ => exact table_head hm _
  | close hc _ _ _ _ => exact close_head hc _
  | again _ _ ha _ ih => exact args_clean ha ih

theorem readArgs_blank {fs : List Bool} {ts : List (List Char)} {w m r : List Char} (hw : Blank w) (h : ReadArgs finite (false :: fs) m ts r) :
    ReadArgs finite (false :: fs) (w ++ m) ts r := by
  cases h with
  | num e h1 h2 h3 h4 =>
    refine .num ?_ h1 h2 h3 h4
    rw [List.dropWhile_append_of_pos hw]
    exact e

theorem shape_cons {k : Kind} (h : k ≠ .closePath) : ∃ fs, k.shape = false :: fs := by
  cases k <;> simp [Kind.shape] at h ⊢

theorem step_sep {n : Kind} {l l' z : List Char} {d : Data (List Char)} (h : Step finite allow (some n) l d z)
    (e : afterSep l' = afterSep l) : Step finite allow (some n) l' d z := by
  cases h with
  | letter e' hk hm hz => exact .letter (by rw [e, e']) hk hm hz
  | same e' hk hz => exact .same (by rw [e, e']) hk hz
  | cont hno hz => exact .cont (by rw [e]; exact hno) (by rw [e]; exact hz)

theorem clean_sep {m : List Char} (h : Clean m) : afterSep m = m :=
  afterSep_of (s := []) ⟨[], [], by simp [Blank], by simp [Blank], .inl rfl⟩ h

theorem continues_eq {n k : Kind} (hk : k ≠ .closePath) : continues n = some k ↔ n.nextImplicit = k := by
  cases n <;> simp [continues, Kind.nextImplicit]
  exact fun h => hk h.symm

theorem svg_run {n : Kind} {m : List Char} {ds : List (Data (List Char))} (h : Svg finite n m ds) :
    Run finite false (some n.nextImplicit) m ds := by
  induction h with
  | nil => exact .done _
  | @letter c k n sh ts w m r ds ht hk hw ha hs ih =>
    obtain ⟨hk', rfl⟩ := (table_iff c k sh).mp ht
    have hrd := args_read ha (svg_clean hs)
    obtain ⟨fs, hfs⟩ := shape_cons hk
    have hrd' : ReadArgs finite k.shape (w ++ m) ts r := by rw [hfs] at hrd ⊢; exact readArgs_blank hw hrd
    have hsep : afterSep (c :: (w ++ m)) = c :: (w ++ m) := clean_sep (table_head ht _)
    by_cases hc : continues n = some k
    · have hnk := (continues_eq hk).mp hc
      rw [mark, if_pos hc]
      subst hnk
      refine .step (by simp) (.same (t := w ++ m) hsep hk' hrd') ?_
      have : (n.nextImplicit).nextImplicit = n.nextImplicit := by cases n <;> rfl
      simpa [Data.id, ID.cont, this] using ih
    · rw [mark, if_neg hc]
      exact .step (by simp) (.letter (t := w ++ m) hsep hk' (fun h => hc ((continues_eq hk).mpr h.symm)) hrd') ih
  | @close c n w r ds hc hw hwr hs ih =>
    have hk' : ofLetter c = some .closePath := by rcases hc with rfl | rfl <;> rfl
    have hsep := clean_sep (close_head hc (w ++ r))
    have hrest : Run finite false (some .closePath) (w ++ r) ds := by
      cases ih with
      | done => rw [hwr rfl]; exact .done _
      | step hne hst hr =>
        refine .step (by simp [hne]) (step_sep hst ?_) hr
        rw [clean_sep (svg_clean hs)]
        exact afterSep_of ⟨w, [], hw, by simp [Blank], .inl (by simp)⟩ (svg_clean hs)
    by_cases hn : n = .closePath
    · subst hn
      exact .step (z := w ++ r) (by simp) (.same (t := w ++ r) hsep hk' (.nil _)) hrest
    · rw [mark, if_neg (by simpa using hn)]
      refine .step (z := w ++ r) (by simp) (.letter (t := w ++ r) hsep hk' (fun h => hn ?_) (.nil _)) hrest
      cases n <;> simp [Kind.nextImplicit] at h ⊢
  | @again n k c sh ts m r ds hc ht ha hs ih =>
    obtain ⟨hk', rfl⟩ := (table_iff c k sh).mp ht
    have hk : k ≠ .closePath := by rintro rfl; cases n <;> simp [continues] at hc
    have hnk := (continues_eq hk).mp hc
    subst hnk
    have hrd := args_read ha (svg_clean hs)
    have hcl := args_clean ha (svg_clean hs)
    have hno : NoLetter m ∧ m ≠ [] := by
      obtain ⟨fs, hfs⟩ := shape_cons hk
      rw [hfs] at ha
      cases ha with
      | num h1 _ _ _ =>
        rw [List.append_assoc]
        exact ⟨number_noLetter h1.1.1 _, by simp [isNumber_ne h1.1.1]⟩
    refine .step hno.2 (.cont (by rw [clean_sep hcl]; exact hno.1) (by rw [clean_sep hcl]; exact hrd)) ?_
    have : (n.nextImplicit).nextImplicit = n.nextImplicit := by cases n <;> rfl
    simpa [Data.id, ID.cont, this] using ih

/-- **C22 (completeness)** A path of the SVG grammar is read as the commands that SVG prescribes: groups of arguments
without a letter repeat the command, and mean a line after a move. -/
theorem parse_svg {w text : List Char} {L : List (Data (List Char))} (h : SvgPath finite text L) (hw : Blank w) (hn : NoEnd text) :
    ∀ fuel > L.length, parseString finite fuel (w ++ text) = some (.ok L ⟨w ++ text, width (w ++ text)⟩) := by
  intro fuel hf
  cases h with
  | @move c k ts w' m r ds hc hw' ha hs =>
    have hk : ofLetter c = some k ∧ k.shape = [false, false] ∧ (k = .moveTo ∨ k = .moveBy) := by
      rcases hc with ⟨rfl, rfl⟩ | ⟨rfl, rfl⟩ <;> decide
    have hcl : Clean (c :: (w' ++ m)) := letter_head (letter_mem hk.1) _
    have hn' : NoEnd (w ++ (c :: w' ++ m)) := by
      have : (w ++ (c :: w' ++ m)).getLast? = (c :: w' ++ m).getLast? := by
        rw [List.getLast?_append, List.getLast?_eq_some_getLast (by simp)]; rfl
      rw [NoEnd, this]; exact hn
    refine (parse_run hn' fuel _ _).mpr ⟨hf, ?_, rfl⟩
    rw [List.cons_append, blank_drop hw (clean_ends hcl)]
    have hrd := readArgs_blank hw' (args_read ha (svg_clean hs))
    refine .step (by simp) (.first (t := w' ++ m) (l := c :: (w' ++ m)) ?_ hk.1 hk.2.2 (by rw [hk.2.1]; exact hrd)) (svg_run hs)
    exact blank_drop (a := []) (by simp [Blank]) (clean_ends hcl)

/-- Path data after a command `n` as the code reads it: separators may have several commas and stand before a letter, and
after a close-path each separator that is not followed by a letter gives another, implicit close-path. -/
inductive Loose (finite : List Char → Bool) : Kind → List Char → List (Data (List Char)) → Prop
  | nil (k : Kind) : Loose finite k [] []
  | letter {c : Char} {k n : Kind} {sh : List Bool} {ts : List (List Char)} {s w m r : List Char} {ds : List (Data (List Char))} :
      LooseSep s → (c, k, sh) ∈ table → Blank w → Args finite LooseSep sh ts m r → Loose finite k r ds →
      Loose finite n (s ++ c :: w ++ m) (mark (if n = .closePath then some n else continues n) k ts :: ds)
  | again {n k : Kind} {c : Char} {sh : List Bool} {ts : List (List Char)} {s m r : List Char} {ds : List (Data (List Char))} :
      LooseSep s → continues n = some k → (c, k, sh) ∈ table → Args finite LooseSep sh ts m r → Loose finite k r ds →
      Loose finite n (s ++ m) (.implicit (.plain k ts) :: ds)
  | spurious {s m : List Char} {ds : List (Data (List Char))} : LooseSep s → s ≠ [] → Loose finite .closePath m ds →
      Loose finite .closePath (s ++ m) (.implicit (.plain .closePath []) :: ds)

theorem afterSep_loose (l : List Char) : ∃ s, LooseSep s ∧ l = s ++ afterSep l := by
  refine ⟨l.takeWhile isWhitespace ++ (l.dropWhile isWhitespace).takeWhile (· == ',') ++
    ((l.dropWhile isWhitespace).dropWhile (· == ',')).takeWhile isWhitespace, ?_, ?_⟩
  · refine ⟨l.takeWhile isWhitespace, ((l.dropWhile isWhitespace).takeWhile (· == ',')).length,
      ((l.dropWhile isWhitespace).dropWhile (· == ',')).takeWhile isWhitespace, fun c h => takeWhile_all c h,
      fun c h => takeWhile_all c h, ?_⟩
    congr 2
    exact List.eq_replicate_iff.mpr ⟨rfl, fun b hb => by simpa using takeWhile_all b hb⟩
  · rw [afterSep]; simp

theorem ends_blank {w m : List Char} (h : Ends isWhitespace (w ++ m)) (hw : Blank w) : w = [] := by
  cases w with
  | nil => rfl
  | cons c w =>
    have := h c (w ++ m) rfl
    rw [hw c (by simp)] at this
    cases this

theorem afterSep_ends (l : List Char) : Ends isWhitespace (afterSep l) := fun _ _ e => afterSep_ws l e

theorem clash_apart {t r : List Char} (hl : Longest (t ++ r) t) (hc : ¬ Clash t r) : Apart t r := by
  refine ⟨hl, fun h => ⟨fun h1 => hc (.inl ⟨h, .inl h1⟩), fun h1 => hc (.inl ⟨h, .inr ⟨'e', h1, rfl⟩⟩),
    fun h1 => hc (.inl ⟨h, .inr ⟨'E', h1, rfl⟩⟩)⟩⟩

theorem read_args {fs : List Bool} {ts : List (List Char)} {l z : List Char} (h : ReadArgs finite fs l ts z) :
    ∃ w m, l = w ++ m ∧ Blank w ∧ Args finite LooseSep fs ts m z := by
  induction h with
  | nil l => exact ⟨[], l, rfl, by simp [Blank], .nil _⟩
  | @num l t r z fs ts e hlo hf hc hz ih =>
    obtain ⟨w, m, e1, hw, ha⟩ := ih
    have : w = [] := ends_blank (by rw [← e1]; exact afterSep_ends r) hw
    subst this
    obtain ⟨s, hs, er⟩ := afterSep_loose r
    simp at e1
    rw [e1] at er
    refine ⟨l.takeWhile isWhitespace, t ++ s ++ m, ?_, fun c h => takeWhile_all c h, .num ?_ hf hs ha⟩
    · conv => lhs; rw [← List.takeWhile_append_dropWhile (p := isWhitespace) (l := l), e, er]
      simp
    · rw [← er]; exact clash_apart hlo hc
  | @flag c r z fs ts hc hz ih =>
    obtain ⟨w, m, e1, hw, ha⟩ := ih
    have : w = [] := ends_blank (by rw [← e1]; exact afterSep_ends r) hw
    subst this
    obtain ⟨s, hs, er⟩ := afterSep_loose r
    simp at e1
    rw [e1] at er
    exact ⟨[], c :: s ++ m, by conv => lhs; rw [er]
                               rfl, by simp [Blank], .flag hc hs ha⟩

theorem mark_eq (n k : Kind) (a : List (List Char)) : mark (if n = .closePath then some n else continues n) k a =
    if n.nextImplicit = k then .implicit (.plain k a) else .plain k a := by
  have hiff : (if n = .closePath then some n else continues n) = some k ↔ n.nextImplicit = k := by
    cases n <;> simp [continues, Kind.nextImplicit]
  by_cases h : n.nextImplicit = k
  · rw [if_pos h, mark, if_pos (hiff.mpr h)]
  · rw [if_neg h, mark, if_neg (fun h' => h (hiff.mp h'))]

theorem kind_letter (k : Kind) : (k.letter, k, k.shape) ∈ table := by cases k <;> decide

theorem spin_no_run {c : Char} {t : List Char} {ds : List (Data (List Char))} (hc : ofLetter c = none)
    (he : afterSep (c :: t) = c :: t) : ¬ Run finite false (some .closePath) (c :: t) ds := by
  induction ds with
  | nil => intro h; cases h
  | cons d ds ih =>
    intro h
    cases h with
    | step _ hst hr =>
      cases hst with
      | letter e hk _ _ => rw [he] at e; simp at e; rw [← e.1, hc] at hk; cases hk
      | same e hk _ => rw [he] at e; simp at e; rw [← e.1, hc] at hk; cases hk
      | cont hno hz =>
        rw [he] at hz
        obtain ⟨rfl, rfl⟩ := readArgs_nil hz
        exact ih hr

theorem run_loose {o : Option Kind} {m : List Char} {ds : List (Data (List Char))} (h : Run finite false o m ds) :
    ∀ n : Kind, o = some n.nextImplicit → Loose finite n m ds := by
  induction h with
  | done => intro n _; exact .nil n
  | @step o l z d ds hne hst hr ih =>
    intro n hn
    cases hst with
    | first => cases hn
    | start => cases hn
    | @letter c _ t _ n' k a e hk hm hz =>
      simp at hn
      subst hn
      obtain ⟨s, hs, el⟩ := afterSep_loose l
      obtain ⟨w, m, et, hw, ha⟩ := read_args hz
      have := Loose.letter (n := n) hs ((table_iff c k k.shape).mpr ⟨hk, rfl⟩) hw ha (ih k rfl)
      rw [mark_eq, if_neg (Ne.symm hm)] at this
      have e' : l = s ++ c :: w ++ m := by conv => lhs; rw [el, e, et]
                                           simp
      rw [e']
      exact this
    | @same c _ t _ n' a e hk hz =>
      simp at hn
      subst hn
      obtain ⟨s, hs, el⟩ := afterSep_loose l
      obtain ⟨w, m, et, hw, ha⟩ := read_args hz
      have h2 : n.nextImplicit.nextImplicit = n.nextImplicit := by cases n <;> rfl
      have := Loose.letter (n := n) hs ((table_iff c _ _).mpr ⟨hk, rfl⟩) hw ha (ih n.nextImplicit (by simp [Data.id, ID.cont]))
      rw [mark_eq, if_pos rfl] at this
      have e' : l = s ++ c :: w ++ m := by conv => lhs; rw [el, e, et]
                                           simp
      rw [e']
      exact this
    | @cont _ _ n' a hno hz =>
      simp at hn
      subst hn
      obtain ⟨s, hs, el⟩ := afterSep_loose l
      obtain ⟨w, m, et, hw, ha⟩ := read_args hz
      have hw0 : w = [] := ends_blank (by rw [← et]; exact afterSep_ends l) hw
      subst hw0
      simp at et
      rw [et] at el
      by_cases hk : n.nextImplicit = .closePath
      · have hnc : n = .closePath := by cases n <;> simp [Kind.nextImplicit] at hk ⊢
        subst hnc
        cases ha
        rw [el]
        have hs0 : s ≠ [] := by
          rintro rfl
          simp at el
          subst el
          -- then the loop would not have moved
          cases l with
          | nil => exact hne rfl
          | cons c t =>
            by_cases hcomma : c = ','
            · subst hcomma
              have h3 := afterSep_comma t
              rw [et] at h3
              simp at h3
              omega
            · exact absurd hr (spin_no_run (hno c t et) (by rw [et]))
        exact .spurious hs hs0 (ih .closePath rfl)
      · have h2 : n.nextImplicit.nextImplicit = n.nextImplicit := by cases n <;> rfl
        rw [el]
        exact .again hs ((continues_eq hk).mpr rfl) (kind_letter _) ha (ih _ (by simp [Data.id, ID.cont]))

/-- **C22 (soundness)** Whatever is read without an error is a path in the loose grammar of the code, with the commands
read from it; no text is skipped. -/
theorem parse_sound {text : List Char} {L : List (Data (List Char))} {fuel : Nat} (hn : NoEnd text)
    (h : parseString finite fuel text = some (.ok L q)) : (Blank text ∧ L = []) ∨
    ∃ w c k w' m r ts ds, text = w ++ c :: w' ++ m ∧ Blank w ∧ ((c = 'M' ∧ k = Kind.moveTo) ∨ (c = 'm' ∧ k = .moveBy)) ∧ Blank w' ∧
      Args finite LooseSep [false, false] ts m r ∧ Loose finite k r ds ∧ L = .plain k ts :: ds := by
  obtain ⟨_, hr, _⟩ := (parse_run hn fuel L q).mp h
  cases hr' : text.dropWhile isWhitespace with
  | nil =>
    left
    rw [hr'] at hr
    cases hr with
    | done =>
      refine ⟨?_, rfl⟩
      have := List.takeWhile_append_dropWhile (p := isWhitespace) (l := text)
      rw [hr'] at this
      simp at this
      exact fun c hc => takeWhile_all (f := isWhitespace) (l := text) c (by rw [this]; exact hc)
    | step hne _ _ => exact absurd rfl hne
  | cons c0 t0 =>
    right
    rw [hr'] at hr
    cases hr with
    | @step _ _ z d ds _ hst hr =>
      cases hst with
      | start hf => cases hf
      | @first c _ t _ k a e hk hm hz =>
        obtain ⟨w', m, et, hw', ha⟩ := read_args hz
        have hd := List.head?_dropWhile_not isWhitespace text
        rw [hr'] at hd
        simp at hd
        rw [List.dropWhile_cons_of_neg (by simp [hd])] at e
        simp at e
        obtain ⟨rfl, rfl⟩ := e
        refine ⟨text.takeWhile isWhitespace, c0, k, w', m, z, a, ds, ?_, fun c h => takeWhile_all c h, ?_, hw', ?_,
          run_loose hr k rfl, rfl⟩
        · conv => lhs; rw [← List.takeWhile_append_dropWhile (p := isWhitespace) (l := text), hr', et]
          simp
        · have := (table_iff c0 k k.shape).mpr ⟨hk, rfl⟩
          rcases hm with rfl | rfl <;> simp [table] at this ⊢ <;> exact this.1
        · rcases hm with rfl | rfl <;> exact ha

/-- **C20 (violated)** This text is never parsed. -/
theorem halts_violated : ¬ Halts (fun _ => true) "M0 0z5".toList := by
  rw [halts_iff ⟨by decide, by decide⟩]
  refine fun h => h ⟨"M0 0z".toList, [], '5', [], by decide, ⟨3, [.plain .moveTo ["0".toList, "0".toList], .plain .closePath []],
    ⟨"M0 0z".toList, 5⟩, by decide +kernel⟩, by decide, by simp, by decide, by decide, by decide⟩

/-- **C22 (violated)** White space after the last close-path gives a close-path more. -/
theorem trailing_violated : parseString (fun _ => true) 5 "M0 0z ".toList =
    some (.ok [.plain .moveTo ["0".toList, "0".toList], .plain .closePath [], .implicit (.plain .closePath [])]
      ⟨"M0 0z ".toList, 6⟩) := by decide +kernel

/-- **C22 (violated)** A number with an exponent followed by one that starts with a point is refused. -/
theorem exponent_violated : ∀ fuel L q, parseString (fun _ => true) fuel "M1e5.5".toList ≠ some (.ok L q) := by
  intro fuel L q h
  have h1 : parseString (fun _ => true) 2 "M1e5.5".toList = some (.err ⟨"M1e5.5".toList, 6⟩) := by decide +kernel
  have h2 := parse_mono h (Nat.le_max_left fuel 2)
  rw [parse_mono h1 (Nat.le_max_right fuel 2)] at h2
  cases h2

/-- **C22 (violated)** A trailing comma is not refused but eats characters of the last number: this is `M 1 3`. -/
theorem comma_violated : parseString (fun _ => true) 5 "M1 23,".toList =
    some (.ok [.plain .moveTo ["1".toList, "3".toList]] ⟨"M1 23,".toList, 6⟩) := by decide +kernel

/-- **C20 (panic)** A character of several bytes where a flag is expected makes the parser panic. -/
theorem flag_panics : parseString (fun _ => true) 5 "M0 0A1 1 0é".toList = some .panic := by decide +kernel

/-! ## Examples -/

/-- A path with repeated commands, flags without separators and a relative move. -/
example : parseString (fun _ => true) 9 "M1 2 3 4L5 6a1 1 0 0110 10zm3 4,5-6".toList = some (.ok
    [.plain .moveTo ["1".toList, "2".toList], .implicit (.plain .lineTo ["3".toList, "4".toList]),
     .implicit (.plain .lineTo ["5".toList, "6".toList]),
     .plain .arcBy ["1".toList, "1".toList, "0".toList, "0".toList, "1".toList, "10".toList, "10".toList],
     .plain .closePath [], .plain .moveBy ["3".toList, "4".toList], .implicit (.plain .lineBy ["5".toList, "-6".toList])]
    ⟨"M1 2 3 4L5 6a1 1 0 0110 10zm3 4,5-6".toList, 35⟩) := by decide +kernel

/-- The grammar on a path with a group without a letter. -/
example : SvgPath (fun _ => true) "m1 2-3 4z".toList
    [.plain .moveBy ["1".toList, "2".toList], .implicit (.plain .lineBy ["-3".toList, "4".toList]), .plain .closePath []] := by
  have num : ∀ (t r : List Char), IsNumber t → t.foldl step .start = .int → Ends Char.isDigit r → r.head? ≠ some '.' →
      r.head? ≠ some 'e' → r.head? ≠ some 'E' → Apart t r := by
    intro t r h hi h1 h2 h3 h4
    refine ⟨longest_of h h1 (fun _ u e => h2 (by rw [e]; rfl)) (fun _ e y u er he => ?_), fun h => absurd h h2⟩
    simp only [isE, Bool.or_eq_true, beq_iff_eq] at he
    rcases he with rfl | rfl
    · exact absurd (by rw [er]; rfl) h3
    · exact absurd (by rw [er]; rfl) h4
  have isnum : ∀ t : List Char, rustFloat t = true → IsNumber t := fun t h => (rustFloat_iff t).mp h
  have sp : Sep [' '] := ⟨[' '], [], by intro c h; simp at h; subst h; decide, by simp [Blank], .inl rfl⟩
  have no : Sep [] := ⟨[], [], by simp [Blank], by simp [Blank], .inl rfl⟩
  refine SvgPath.move (c := 'm') (w := []) (m := "1 2-3 4z".toList) (r := "-3 4z".toList) (.inr ⟨rfl, rfl⟩) (by simp [Blank]) ?_ ?_
  · refine .num (t := ['1']) (s := [' ']) (m := "2-3 4z".toList) (num _ _ (isnum _ (by decide)) (by decide) ?_ (by decide) (by decide) (by decide)) rfl sp ?_
    · rintro c t e; simp at e; rw [← e.1]; decide
    refine .num (t := ['2']) (s := []) (m := "-3 4z".toList) (num _ _ (isnum _ (by decide)) (by decide) ?_ (by decide) (by decide) (by decide)) rfl no (.nil _)
    rintro c t e; simp at e; rw [← e.1]; decide
  · refine .again (c := 'l') (k := .lineBy) (sh := [false, false]) (r := ['z']) rfl (by decide) ?_ ?_
    · refine .num (t := ['-', '3']) (s := [' ']) (m := "4z".toList) (num _ _ (isnum _ (by decide)) (by decide) ?_ (by decide) (by decide) (by decide)) rfl sp ?_
      · rintro c t e; simp at e; rw [← e.1]; decide
      refine .num (t := ['4']) (s := []) (m := ['z']) (num _ _ (isnum _ (by decide)) (by decide) ?_ (by decide) (by decide) (by decide)) rfl no (.nil _)
      rintro c t e; simp at e; rw [← e.1]; decide
    · exact .close (c := 'z') (w := []) (r := []) (.inl rfl) (by simp [Blank]) (fun _ => rfl) (.nil _)

/-- A text that halts although a separator follows a close-path. -/
example : Halts (fun _ => true) "M0 0z, ,l1 1".toList := ⟨5, by decide +kernel⟩

end Verif.Path
