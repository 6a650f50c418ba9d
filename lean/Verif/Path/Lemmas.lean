import Verif.Path.Model
import Verif.Number.Props

/-! # Reading path data: from positions to texts -/

namespace Verif.Path

open Verif.Parse Verif.Number

variable {p q : Parser} {pre rest : List Char} {finite : List Char → Bool}

/-- The parser `q` has the input of `p` and stands in front of its suffix `z`. -/
def Moved (p q : Parser) (z : List Char) : Prop := q.input = p.input ∧ ∃ a, At q a z

theorem Moved.unique {q' : Parser} {z : List Char} (h : Moved p q z) (h' : Moved p q' z) : q = q' := by
  obtain ⟨e, a, ha⟩ := h
  obtain ⟨e', a', ha'⟩ := h'
  have : a = a' := by
    have := ha.1.symm.trans ((e.trans e'.symm).trans ha'.1)
    exact List.append_cancel_right this
  subst this
  cases q; cases q'
  simp only [Parser.mk.injEq]
  exact ⟨e.trans e'.symm, ha.2.trans ha'.2.symm⟩

theorem Moved.trans {r : Parser} {y z : List Char} (h : Moved p q y) (h' : Moved q r z) : Moved p r z :=
  ⟨h'.1.trans h.1, h'.2⟩

/-- An `ok` at a known place is the only `ok`. -/
theorem ok_iff_of {α : Type} {x : Res α} {a : α} {q : Parser} (h : x = .ok a q) {b : α} {r : Parser} :
    x = .ok b r ↔ b = a ∧ r = q := by
  subst h
  simp only [Res.ok.injEq]
  exact ⟨fun h => ⟨h.1.symm, h.2.symm⟩, fun h => ⟨h.1.symm, h.2.symm⟩⟩

/-- The text does not end with a comma or a point. -/
def NoEnd (l : List Char) : Prop := l.getLast? ≠ some ',' ∧ l.getLast? ≠ some '.'

theorem NoEnd.suffix {a b : List Char} (h : NoEnd (a ++ b)) : NoEnd b := by
  cases hb : b.getLast? with
  | none => simp [NoEnd, hb]
  | some c =>
    have : (a ++ b).getLast? = some c := by rw [List.getLast?_append, hb]; rfl
    rw [NoEnd, this] at h
    rw [NoEnd, hb]
    exact h

theorem NoEnd.dropWhile {l : List Char} {f : Char → Bool} (h : NoEnd l) : NoEnd (l.dropWhile f) := by
  rw [← List.takeWhile_append_dropWhile (p := f) (l := l)] at h
  exact h.suffix

/-- What is left of a text behind white space, commas and white space. -/
def afterSep (l : List Char) : List Char := ((l.dropWhile isWhitespace).dropWhile (· == ',')).dropWhile isWhitespace

theorem NoEnd.afterSep {l : List Char} (h : NoEnd l) : NoEnd (afterSep l) := h.dropWhile.dropWhile.dropWhile

theorem At.ws (h : At p pre rest) : ∃ q, p.skipWhitespace = .ok () q ∧ Moved p q (rest.dropWhile isWhitespace) := by
  obtain ⟨q, e, hq, hi⟩ := h.skipMatches_at isWhitespace
  exact ⟨q, e, hi, _, hq⟩

theorem At.comma (h : At p pre rest) (hn : NoEnd rest) :
    ∃ q, p.skipChar ',' = .ok () q ∧ Moved p q (rest.dropWhile (· == ',')) := by
  refine ⟨_, (skipChar_iff h ',').mpr hn.dropWhile.1, rfl, pre ++ rest.takeWhile (· == ','), ?_⟩
  have : At p pre (rest.takeWhile (· == ',') ++ rest.dropWhile (· == ',')) := by simpa using h
  exact this.moved

theorem At.sep (h : At p pre rest) (hn : NoEnd rest) : ∃ q, skipSep p = .ok () q ∧ Moved p q (afterSep rest) := by
  obtain ⟨q1, e1, m1, a1, h1⟩ := At.ws h
  obtain ⟨q2, e2, m2, a2, h2⟩ := At.comma h1 hn.dropWhile
  obtain ⟨q3, e3, m3, a3, h3⟩ := At.ws h2
  refine ⟨q3, ?_, m3.trans (m2.trans m1), a3, h3⟩
  simp only [skipSep, e1, e2, e3, Res.bind]

theorem f64_eq (h : At p pre rest) (hn : NoEnd rest) (t : List Char) (q : Parser) :
    parseF64 finite p = .ok t q ↔ ∃ r, rest.dropWhile isWhitespace = t ++ r ∧ Longest (t ++ r) t ∧ finite t = true ∧
      ¬ Clash t r ∧ Moved p q r := by
  constructor
  · intro hp
    obtain ⟨r, e, hl, hf, hq⟩ := f64_sound h hp
    have hr : r.getLast? ≠ some '.' := by
      have := hn.dropWhile (f := isWhitespace)
      rw [e] at this
      exact this.suffix.2
    refine ⟨r, e, hl, hf, fun hc => f64_clash h e hr hc q hp, ?_, _, hq⟩
    rw [hq.1, h.1]
    conv => rhs; rw [← List.takeWhile_append_dropWhile (p := isWhitespace) (l := rest), e]
    simp
  · rintro ⟨r, e, hl, hf, hc, hm⟩
    have hr : r.getLast? ≠ some '.' := by
      have := hn.dropWhile (f := isWhitespace)
      rw [e] at this
      exact this.suffix.2
    obtain ⟨q', hq'⟩ := f64_parsed h e hl hr hf hc
    obtain ⟨r', e', _, _, ha⟩ := f64_sound h hq'
    have : r' = r := by rw [e] at e'; exact (List.append_cancel_left e').symm
    subst this
    have hm' : Moved p q' r' := by
      refine ⟨?_, _, ha⟩
      rw [ha.1, h.1]
      conv => rhs; rw [← List.takeWhile_append_dropWhile (p := isWhitespace) (l := rest), e]
      simp
    rw [hm.unique hm', hq']

/-- Reading arguments off a text: the arguments, and the text left behind them. -/
inductive ReadArgs (finite : List Char → Bool) : List Bool → List Char → List (List Char) → List Char → Prop
  | nil (l : List Char) : ReadArgs finite [] l [] l
  | num {l t r z : List Char} {fs : List Bool} {ts : List (List Char)} : l.dropWhile isWhitespace = t ++ r →
      Longest (t ++ r) t → finite t = true → ¬ Clash t r → ReadArgs finite fs (afterSep r) ts z →
      ReadArgs finite (false :: fs) l (t :: ts) z
  | flag {c : Char} {r z : List Char} {fs : List Bool} {ts : List (List Char)} : c = '0' ∨ c = '1' →
      ReadArgs finite fs (afterSep r) ts z → ReadArgs finite (true :: fs) (c :: r) ([c] :: ts) z

theorem flag_size {c : Char} (h : c = '0' ∨ c = '1') : c.utf8Size = 1 := by rcases h with rfl | rfl <;> rfl

theorem read_ok (h : At p pre rest) {c : Char} {q : Parser} (hr : p.read = .ok c q) : ∃ t, rest = c :: t ∧ q = p.advance := by
  rw [h.read] at hr
  cases rest with
  | nil => simp at hr
  | cons d t => simp at hr; exact ⟨t, by rw [hr.1], hr.2.symm⟩

theorem read_cons {c : Char} {t : List Char} (h : At p pre (c :: t)) (hc : c.utf8Size = 1) :
    p.read = .ok c p.advance ∧ Moved p p.advance t := ⟨h.read, rfl, _, h.advance hc⟩

theorem parseArgs_iff (fs : List Bool) : ∀ {p : Parser} {pre rest : List Char}, At p pre rest → NoEnd rest →
    ∀ (ts : List (List Char)) (q : Parser),
    parseArgs finite fs p = .ok ts q ↔ ∃ z, ReadArgs finite fs rest ts z ∧ Moved p q z := by
  induction fs with
  | nil =>
    intro p pre rest h hn ts q
    simp only [parseArgs, Res.ok.injEq]
    constructor
    · rintro ⟨rfl, rfl⟩
      exact ⟨rest, .nil _, rfl, _, h⟩
    · rintro ⟨z, hr, hm⟩
      cases hr
      exact ⟨rfl, Moved.unique ⟨rfl, _, h⟩ hm⟩
  | cons f fs ih =>
    intro p pre rest h hn ts q
    simp only [parseArgs, bind_ok]
    cases f with
    | false =>
      simp only [parseArg, Bool.false_eq_true, if_false, parseNumber, bind_ok]
      constructor
      · rintro ⟨t, q1, ⟨t', q2, h1, _, q3, h2, h3⟩, ts', q4, h4, h5⟩
        cases h3; cases h5
        obtain ⟨r, e, hl, hf, hc, hm⟩ := (f64_eq h hn _ _).mp h1
        obtain ⟨a, ha⟩ := hm.2
        have hnr : NoEnd r := by
          have := hn.dropWhile (f := isWhitespace)
          rw [e] at this
          exact this.suffix
        obtain ⟨q5, e5, m5⟩ := At.sep ha hnr
        rw [e5] at h2
        cases h2
        obtain ⟨b, hb⟩ := m5.2
        obtain ⟨z, hz, hmz⟩ := (ih hb hnr.afterSep _ _).mp h4
        exact ⟨z, .num e hl hf hc hz, (hm.trans m5).trans hmz⟩
      · rintro ⟨z, hr, hmz⟩
        cases hr with
        | num e hl hf hc hz =>
          rename_i t r ts
          have hnr : NoEnd r := by
            have := hn.dropWhile (f := isWhitespace)
            rw [e] at this
            exact this.suffix
          have hex : ∃ q1, Moved p q1 r := by
            have : rest = rest.takeWhile isWhitespace ++ t ++ r := by
              conv => lhs; rw [← List.takeWhile_append_dropWhile (p := isWhitespace) (l := rest), e]
              simp
            rw [this] at h
            exact ⟨⟨p.input, p.cursor + width (rest.takeWhile isWhitespace ++ t)⟩, rfl, _, h.moved⟩
          obtain ⟨q1, m1⟩ := hex
          have h1 := (f64_eq h hn t q1).mpr ⟨r, e, hl, hf, hc, m1⟩
          obtain ⟨a, ha⟩ := m1.2
          obtain ⟨q5, e5, m5⟩ := At.sep ha hnr
          obtain ⟨b, hb⟩ := m5.2
          have hmq : Moved q5 q z := ⟨hmz.1.trans (m1.1.symm.trans m5.1.symm), hmz.2⟩
          have h4 := (ih hb hnr.afterSep _ _).mpr ⟨z, hz, hmq⟩
          exact ⟨t, q5, ⟨t, q1, h1, (), q5, e5, rfl⟩, ts, q, h4, rfl⟩
    | true =>
      simp only [parseArg, if_true, parseFlag, bind_ok]
      constructor
      · rintro ⟨t, q1, ⟨c, q2, h1, _, q3, h2, h3⟩, ts', q4, h4, h5⟩
        cases h5
        split at h3
        · next hc =>
          cases h3
          obtain ⟨r, rfl, rfl⟩ := read_ok h h1
          obtain ⟨_, hm⟩ := read_cons h (flag_size hc)
          obtain ⟨a, ha⟩ := hm.2
          have hnr : NoEnd r := NoEnd.suffix (a := [c]) hn
          obtain ⟨q5, e5, m5⟩ := At.sep ha hnr
          rw [e5] at h2
          cases h2
          obtain ⟨b, hb⟩ := m5.2
          obtain ⟨z, hz, hmz⟩ := (ih hb hnr.afterSep _ _).mp h4
          exact ⟨z, .flag hc hz, (hm.trans m5).trans hmz⟩
        · cases h3
      · rintro ⟨z, hr, hmz⟩
        cases hr with
        | flag hc hz =>
          rename_i c r ts
          obtain ⟨h1, hm⟩ := read_cons h (flag_size hc)
          obtain ⟨a, ha⟩ := hm.2
          have hnr : NoEnd r := NoEnd.suffix (a := [c]) hn
          obtain ⟨q5, e5, m5⟩ := At.sep ha hnr
          obtain ⟨b, hb⟩ := m5.2
          have hmq : Moved q5 q z := ⟨hmz.1.trans (hm.1.symm.trans m5.1.symm), hmz.2⟩
          have h4 := (ih hb hnr.afterSep _ _).mpr ⟨z, hz, hmq⟩
          exact ⟨[c], q5, ⟨c, p.advance, h1, (), q5, e5, by rw [if_pos hc]⟩, ts, q, h4, rfl⟩

/-- The command that goes on after a command. -/
def ID.cont : ID → Kind
  | .plain k => k.nextImplicit
  | .implicit i => i.cont

theorem nextImplicit_eq (i : ID) : i.nextImplicit = .plain i.cont := by
  induction i with
  | plain k => rfl
  | implicit i ih => exact ih

/-- No command letter stands at the start of the text. -/
def NoLetter (l : List Char) : Prop := ∀ c t, l = c :: t → ofLetter c = none

theorem letter_mem {c : Char} {k : Kind} (h : ofLetter c = some k) : c ∈ "MmLlHhVvCcSsQqTtAaZz".toList := by
  refine Decidable.byContradiction fun hn => ?_
  simp at hn
  simp [ofLetter, hn] at h

theorem letter_size {c : Char} {k : Kind} (h : ofLetter c = some k) : c.utf8Size = 1 := by
  have : ∀ c ∈ "MmLlHhVvCcSsQqTtAaZz".toList, c.utf8Size = 1 := by decide +kernel
  exact this c (letter_mem h)

theorem parseData_iff (k : Kind) (h : At p pre rest) (hn : NoEnd rest) (d : Data (List Char)) (q : Parser) :
    parseData finite (.plain k) p = .ok d q ↔ ∃ a z, d = .plain k a ∧ ReadArgs finite k.shape rest a z ∧ Moved p q z := by
  simp only [parseData, bind_ok, parseArgs_iff k.shape h hn]
  constructor
  · rintro ⟨a, q1, ⟨z, hz, hm⟩, e⟩
    cases e
    exact ⟨a, z, rfl, hz, hm⟩
  · rintro ⟨a, z, rfl, hz, hm⟩
    exact ⟨a, q, ⟨z, hz, hm⟩, rfl⟩

theorem finish_plain_iff (k : Kind) (h : At p pre rest) (hn : NoEnd rest) (d : Data (List Char)) (q : Parser) :
    finishCommand finite (some (.plain k)) p = .ok d q ↔
      ∃ a z, d = .plain k a ∧ ReadArgs finite k.shape rest a z ∧ Moved p q z := by
  rw [← parseData_iff k h hn]
  simp only [finishCommand, Parser.tryParse, failed]
  cases parseData finite (.plain k) p with
  | ok a q => rfl
  | err q => simp; split <;> simp
  | panic => simp

theorem finish_implicit_iff (k : Kind) (h : At p pre rest) (hn : NoEnd rest) (d : Data (List Char)) (q : Parser) :
    finishCommand finite (some (.implicit (.plain k))) p = .ok d q ↔
      ∃ a z, d = .implicit (.plain k a) ∧ ReadArgs finite k.shape rest a z ∧ Moved p q z := by
  have : (∃ a z, d = .implicit (.plain k a) ∧ ReadArgs finite k.shape rest a z ∧ Moved p q z) ↔
      ∃ d', d = .implicit d' ∧ parseData finite (.plain k) p = .ok d' q := by
    constructor
    · rintro ⟨a, z, rfl, hz⟩
      exact ⟨_, rfl, (parseData_iff k h hn _ _).mpr ⟨a, z, rfl, hz⟩⟩
    · rintro ⟨d', rfl, hd⟩
      obtain ⟨a, z, rfl, hz⟩ := (parseData_iff k h hn _ _).mp hd
      exact ⟨a, z, rfl, hz⟩
  rw [this]
  simp only [finishCommand, Parser.tryParse, failed]
  conv => lhs; rw [parseData]
  cases parseData finite (.plain k) p with
  | ok a q' =>
    simp only [Res.bind, Res.ok.injEq]
    constructor
    · rintro ⟨rfl, rfl⟩; exact ⟨_, rfl, rfl, rfl⟩
    · rintro ⟨_, rfl, rfl, rfl⟩; exact ⟨rfl, rfl⟩
  | err q => simp [Res.bind]; split <;> simp
  | panic => simp [Res.bind]

/-- Reading one command off a text; the first argument is the command that would go on without a letter. -/
inductive Step (finite : List Char → Bool) (allow : Bool) : Option Kind → List Char → Data (List Char) → List Char → Prop
  | first {c : Char} {l t z : List Char} {k : Kind} {a : List (List Char)} : l.dropWhile isWhitespace = c :: t →
      ofLetter c = some k → k = .moveTo ∨ k = .moveBy → ReadArgs finite k.shape t a z → Step finite allow none l (.plain k a) z
  | start {l z : List Char} {a : List (List Char)} : allow = true → NoLetter (l.dropWhile isWhitespace) →
      ReadArgs finite Kind.moveTo.shape (l.dropWhile isWhitespace) a z → Step finite allow none l (.plain .moveTo a) z
  | letter {c : Char} {l t z : List Char} {n k : Kind} {a : List (List Char)} : afterSep l = c :: t → ofLetter c = some k →
      k ≠ n → ReadArgs finite k.shape t a z → Step finite allow (some n) l (.plain k a) z
  | same {c : Char} {l t z : List Char} {n : Kind} {a : List (List Char)} : afterSep l = c :: t → ofLetter c = some n →
      ReadArgs finite n.shape t a z → Step finite allow (some n) l (.implicit (.plain n a)) z
  | cont {l z : List Char} {n : Kind} {a : List (List Char)} : NoLetter (afterSep l) →
      ReadArgs finite n.shape (afterSep l) a z → Step finite allow (some n) l (.implicit (.plain n a)) z

/-- How the letter is read. -/
theorem tryID (h : At p pre rest) : (∃ c t k, rest = c :: t ∧ ofLetter c = some k ∧ p.tryParse parseID = .ok (.plain k) p.advance ∧
      Moved p p.advance t) ∨ (NoLetter rest ∧ p.tryParse parseID = .err p) := by
  simp only [Parser.tryParse, parseID, h.read]
  cases rest with
  | nil =>
    refine .inr ⟨fun c t e => by simp at e, ?_⟩
    simp [Res.bind]
  | cons c t =>
    cases hk : ofLetter c with
    | some k =>
      exact .inl ⟨c, t, k, rfl, hk, by simp [Res.bind, idOf, hk], rfl, _, h.advance (letter_size hk)⟩
    | none =>
      refine .inr ⟨fun c' t' e => by simp at e; rw [← e.1, hk], ?_⟩
      simp [Res.bind, idOf, hk, Parser.advance]

theorem iteration_first (allow : Bool) (h : At p pre rest) (hn : NoEnd rest) (d : Data (List Char)) (q : Parser) :
    iteration finite allow [] p = .ok d q ↔ ∃ z, Step finite allow none rest d z ∧ Moved p q z := by
  obtain ⟨p1, e1, m1, a1, h1⟩ := At.ws h
  have hn1 := hn.dropWhile (f := isWhitespace)
  simp only [iteration, separators, List.isEmpty_nil, if_true, e1, Res.bind, List.getLast?_nil, Option.map_none, command]
  rcases tryID h1 with ⟨c, t, k, er, hk, e2, m2⟩ | ⟨hno, e2⟩
  · rw [e2]
    obtain ⟨a2, h2⟩ := m2.2
    have hn2 : NoEnd t := NoEnd.suffix (a := [c]) (by rw [er] at hn1; exact hn1)
    simp only [adjust]
    by_cases hm : ID.plain k = .plain .moveBy ∨ ID.plain k = .plain .moveTo
    · rw [if_pos hm]
      simp only [finish_plain_iff k h2 hn2]
      constructor
      · rintro ⟨a, z, rfl, hz, hmz⟩
        refine ⟨z, .first er hk (by simp at hm; exact hm.symm) hz, (Moved.trans ⟨m1, a1, h1⟩ m2).trans hmz⟩
      · rintro ⟨z, hs, hmz⟩
        cases hs with
        | first er' hk' hm' hz =>
          rw [er] at er'; simp at er'
          obtain ⟨rfl, rfl⟩ := er'
          rw [hk] at hk'; cases hk'
          exact ⟨_, z, rfl, hz, hmz.1.trans (m1.symm.trans m2.1.symm), hmz.2⟩
        | start ha hno hz => have := hno c t er; rw [hk] at this; cases this
    · rw [if_neg hm]
      constructor
      · intro hf; simp only [finishCommand, failed] at hf; split at hf <;> cases hf
      · rintro ⟨z, hs, hmz⟩
        cases hs with
        | first er' hk' hm' hz =>
          rw [er] at er'; simp at er'
          obtain ⟨rfl, rfl⟩ := er'
          rw [hk] at hk'; cases hk'
          simp at hm; rcases hm' with rfl | rfl <;> simp at hm
        | start ha hno hz => have := hno c t er; rw [hk] at this; cases this
  · rw [e2]
    simp only [implied]
    cases allow with
    | false =>
      simp only [Bool.false_eq_true, if_false]
      constructor
      · intro hf; simp only [failed] at hf; split at hf <;> cases hf
      · rintro ⟨z, hs, hmz⟩
        cases hs with
        | first er' hk' hm' hz => have := hno _ _ er'; rw [hk'] at this; cases this
        | start ha hno hz => cases ha
    | true =>
      simp only [if_true, adjust, or_true, finish_plain_iff Kind.moveTo h1 hn1]
      constructor
      · rintro ⟨a, z, rfl, hz, hmz⟩
        exact ⟨z, .start rfl hno hz, Moved.trans ⟨m1, a1, h1⟩ hmz⟩
      · rintro ⟨z, hs, hmz⟩
        cases hs with
        | first er' hk' hm' hz => have := hno _ _ er'; rw [hk'] at this; cases this
        | start ha hno hz => exact ⟨_, z, rfl, hz, hmz.1.trans m1.symm, hmz.2⟩

theorem iteration_next (allow : Bool) (list : List (Data (List Char))) (last : Data (List Char)) (h : At p pre rest)
    (hn : NoEnd rest) (d : Data (List Char)) (q : Parser) :
    iteration finite allow (list ++ [last]) p = .ok d q ↔ ∃ z, Step finite allow (some last.id.cont) rest d z ∧ Moved p q z := by
  obtain ⟨p1, e1, m1, a1, h1⟩ := At.sep h hn
  have hn1 := hn.afterSep
  have hne : (list ++ [last]).isEmpty = false := by simp
  simp only [iteration, separators, hne, Bool.false_eq_true, if_false, e1, Res.bind, List.getLast?_append,
    List.getLast?_singleton, Option.some_or, Option.map_some, command]
  rcases tryID h1 with ⟨c, t, k, er, hk, e2, m2⟩ | ⟨hno, e2⟩
  · rw [e2]
    obtain ⟨a2, h2⟩ := m2.2
    have hn2 : NoEnd t := NoEnd.suffix (a := [c]) (by rw [er] at hn1; exact hn1)
    simp only [adjust, nextImplicit_eq, ID.isImplicit, Bool.not_false, Bool.true_and]
    by_cases hkn : last.id.cont = k
    · subst hkn
      simp only [BEq.rfl, if_true, finish_implicit_iff _ h2 hn2]
      constructor
      · rintro ⟨a, z, rfl, hz, hmz⟩
        exact ⟨z, .same er hk hz, (Moved.trans ⟨m1, a1, h1⟩ m2).trans hmz⟩
      · rintro ⟨z, hs, hmz⟩
        cases hs with
        | letter er' hk' hm' hz =>
          rw [er] at er'; simp at er'
          obtain ⟨rfl, rfl⟩ := er'
          rw [hk] at hk'; cases hk'
          exact absurd rfl hm'
        | same er' hk' hz =>
          rw [er] at er'; simp at er'
          obtain ⟨rfl, rfl⟩ := er'
          exact ⟨_, z, rfl, hz, hmz.1.trans (m1.symm.trans m2.1.symm), hmz.2⟩
        | cont hno hz => have := hno c t er; rw [hk] at this; cases this
    · have hb : (ID.plain last.id.cont == ID.plain k) = false := by simp [hkn]
      simp only [hb, Bool.false_eq_true, if_false, finish_plain_iff _ h2 hn2]
      constructor
      · rintro ⟨a, z, rfl, hz, hmz⟩
        exact ⟨z, .letter er hk (Ne.symm hkn) hz, (Moved.trans ⟨m1, a1, h1⟩ m2).trans hmz⟩
      · rintro ⟨z, hs, hmz⟩
        cases hs with
        | letter er' hk' hm' hz =>
          rw [er] at er'; simp at er'
          obtain ⟨rfl, rfl⟩ := er'
          rw [hk] at hk'; cases hk'
          exact ⟨_, z, rfl, hz, hmz.1.trans (m1.symm.trans m2.1.symm), hmz.2⟩
        | same er' hk' hz =>
          rw [er] at er'; simp at er'
          obtain ⟨rfl, rfl⟩ := er'
          rw [hk] at hk'; cases hk'
          exact absurd rfl hkn
        | cont hno hz => have := hno c t er; rw [hk] at this; cases this
  · rw [e2]
    simp only [implied, adjust, nextImplicit_eq, ID.isImplicit, Bool.not_true, Bool.false_and, Bool.false_eq_true, if_false,
      finish_implicit_iff _ h1 hn1]
    constructor
    · rintro ⟨a, z, rfl, hz, hmz⟩
      exact ⟨z, .cont hno hz, Moved.trans ⟨m1, a1, h1⟩ hmz⟩
    · rintro ⟨z, hs, hmz⟩
      cases hs with
      | letter er' hk' hm' hz => have := hno _ _ er'; rw [hk'] at this; cases this
      | same er' hk' hz => have := hno _ _ er'; rw [hk'] at this; cases this
      | cont hno hz => exact ⟨_, z, rfl, hz, hmz.1.trans m1.symm, hmz.2⟩

end Verif.Path
