import Verif.Path.Run

/-! # Reading path data up to a close-path letter -/

namespace Verif.Path

open Verif.Parse Verif.Number

variable {p q : Parser} {pre rest : List Char} {finite : List Char → Bool} {allow : Bool}

/-- The text ends with a close-path letter. -/
def EndZ (l : List Char) : Prop := ∃ a c, l = a ++ [c] ∧ (c = 'z' ∨ c = 'Z')

theorem EndZ.ne {l : List Char} (h : EndZ l) : l ≠ [] := by
  obtain ⟨a, c, rfl, _⟩ := h; simp

theorem EndZ.cons {c : Char} {l : List Char} (h : EndZ (c :: l)) : EndZ l ∨ (l = [] ∧ (c = 'z' ∨ c = 'Z')) := by
  obtain ⟨a, d, e, hd⟩ := h
  cases a with
  | nil => simp at e; exact .inr ⟨e.2, by rw [e.1]; exact hd⟩
  | cons b a => simp at e; exact .inl ⟨a, d, e.2, hd⟩

theorem EndZ.noEnd {l : List Char} (h : EndZ l) : NoEnd l := by
  obtain ⟨a, c, rfl, hc⟩ := h
  rcases hc with rfl | rfl <;> simp [NoEnd]

theorem EndZ.last_mem {l : List Char} (h : EndZ l) : 'z' ∈ l ∨ 'Z' ∈ l := by
  obtain ⟨a, c, rfl, hc⟩ := h
  rcases hc with rfl | rfl <;> simp

theorem EndZ.append {l : List Char} (a : List Char) (h : EndZ l) : EndZ (a ++ l) := by
  obtain ⟨b, c, rfl, hc⟩ := h
  exact ⟨a ++ b, c, by simp, hc⟩

theorem EndZ.drop {f : Char → Bool} (hz : f 'z' = false) (hZ : f 'Z' = false) : ∀ {l : List Char}, EndZ l →
    EndZ (l.dropWhile f) ∧ ∀ y, (l ++ y).dropWhile f = l.dropWhile f ++ y
  | [], h => absurd rfl h.ne
  | c :: l, h => by
    by_cases hc : f c = true
    · rcases h.cons with h' | ⟨rfl, hc'⟩
      · have ih := EndZ.drop hz hZ h'
        simpa [hc] using ih
      · rcases hc' with rfl | rfl <;> simp [hz, hZ] at hc
    · simp [hc, h]

theorem EndZ.ws {l : List Char} (h : EndZ l) : EndZ (l.dropWhile isWhitespace) ∧
    ∀ y, (l ++ y).dropWhile isWhitespace = l.dropWhile isWhitespace ++ y := h.drop (by decide) (by decide)

theorem EndZ.sep {l : List Char} (h : EndZ l) : EndZ (afterSep l) ∧ ∀ y, afterSep (l ++ y) = afterSep l ++ y := by
  obtain ⟨h1, e1⟩ := h.ws
  obtain ⟨h2, e2⟩ := h1.drop (f := (· == ',')) (by decide) (by decide)
  obtain ⟨h3, e3⟩ := h2.ws
  exact ⟨h3, fun y => by rw [afterSep, e1, e2, e3]; rfl⟩

theorem step_z (s : St) : step s 'z' = .dead ∧ step s 'Z' = .dead := by cases s <;> decide

theorem run_dead' (l : List Char) : l.foldl step .dead = .dead := run_dead l

theorem number_no_z {t : List Char} (h : IsNumber t) : 'z' ∉ t ∧ 'Z' ∉ t := by
  have hr := (rustFloat_iff t).mpr h
  constructor
  all_goals
    intro hm
    obtain ⟨a, b, rfl⟩ := List.append_of_mem hm
    simp only [rustFloat, List.foldl_append, List.foldl_cons, step_z, run_dead] at hr
    simp [accept] at hr

theorem number_split {t r l y : List Char} (ht : IsNumber t) (hl : EndZ l) (e : l ++ y = t ++ r) :
    ∃ m, l = t ++ m ∧ r = m ++ y ∧ EndZ m := by
  have hnz := number_no_z ht
  rcases List.append_eq_append_iff.mp e with ⟨m, e1, e2⟩ | ⟨m, e1, e2⟩
  · subst e1
    rcases hl.last_mem with h | h
    · exact absurd (by simp [h]) hnz.1
    · exact absurd (by simp [h]) hnz.2
  · refine ⟨m, e1, e2, ?_⟩
    obtain ⟨a, c, ea, hc⟩ := hl
    rcases m.eq_nil_or_concat with rfl | ⟨m', x, rfl⟩
    · simp at e1
      have hm : c ∈ t := by rw [← e1, ea]; simp
      rcases hc with rfl | rfl
      · exact absurd hm hnz.1
      · exact absurd hm hnz.2
    · rw [ea] at e1
      have := congrArg List.getLast? e1
      simp at this
      subst this
      exact ⟨m', c, by simp, hc⟩

theorem longest_local {t m : List Char} (hm : EndZ m) (y : List Char) : Longest (t ++ m) t ↔ Longest (t ++ (m ++ y)) t := by
  constructor
  · rintro ⟨h1, h2, h3⟩
    refine ⟨h1, ⟨_, rfl⟩, fun t' ht' hp => h3 t' ht' ?_⟩
    rw [← List.append_assoc] at hp
    obtain ⟨x, hx⟩ := hp
    obtain ⟨m', e1, _⟩ := number_split ht' (hm.append t) hx.symm
    exact ⟨m', e1.symm⟩
  · rintro ⟨h1, h2, h3⟩
    refine ⟨h1, ⟨_, rfl⟩, fun t' ht' hp => h3 t' ht' ?_⟩
    rw [← List.append_assoc]
    exact hp.trans ⟨y, rfl⟩

theorem clash_local {t m : List Char} (hm : EndZ m) (y : List Char) : Clash t m ↔ Clash t (m ++ y) := by
  cases m with
  | nil => exact absurd rfl hm.ne
  | cons c m =>
    simp only [Clash, List.head?_cons, List.cons_append]
    refine or_congr Iff.rfl (and_congr Iff.rfl ?_)
    constructor
    · rintro ⟨e, u, he, hE, hu⟩
      simp at he
      obtain ⟨rfl, rfl⟩ := he
      rcases hm.cons with h | ⟨_, h⟩
      · cases m with
        | nil => exact absurd rfl h.ne
        | cons d m => exact ⟨c, d :: m ++ y, by simp, hE, by simpa using hu⟩
      · rcases h with rfl | rfl <;> simp [isE] at hE
    · rintro ⟨e, u, he, hE, hu⟩
      simp at he
      obtain ⟨rfl, rfl⟩ := he
      rcases hm.cons with h | ⟨_, h⟩
      · cases m with
        | nil => exact absurd rfl h.ne
        | cons d m => exact ⟨c, d :: m, by simp, hE, by simpa using hu⟩
      · rcases h with rfl | rfl <;> simp [isE] at hE

theorem ReadArgs.extend {fs : List Bool} {l z : List Char} {ts : List (List Char)} (h : ReadArgs finite fs l ts z) (hl : EndZ l)
    (y : List Char) : EndZ z ∧ ReadArgs finite fs (l ++ y) ts (z ++ y) := by
  induction h with
  | nil l => exact ⟨hl, .nil _⟩
  | num e hlo hf hc hz ih =>
    obtain ⟨h1, e1⟩ := hl.ws
    rw [e] at h1
    obtain ⟨m, em, er, hm⟩ := number_split (y := []) hlo.1 h1 (List.append_nil _)
    rw [List.append_nil] at er
    subst er
    obtain ⟨h2, e2⟩ := hm.sep
    obtain ⟨h3, hr⟩ := ih h2
    refine ⟨h3, .num (by rw [e1, e, List.append_assoc]) ((longest_local hm y).mp hlo) hf (fun h => hc ((clash_local hm y).mpr h)) ?_⟩
    rw [e2]
    exact hr
  | flag hc hz ih =>
    rcases hl.cons with h | ⟨_, h⟩
    · obtain ⟨h2, e2⟩ := h.sep
      obtain ⟨h3, hr⟩ := ih h2
      refine ⟨h3, .flag hc ?_⟩
      show ReadArgs finite _ (afterSep (_ ++ y)) _ _
      rw [e2]
      exact hr
    · rcases hc with rfl | rfl <;> simp at h

theorem ReadArgs.shrink {fs : List Bool} {w x : List Char} {ts : List (List Char)} (h : ReadArgs finite fs x ts w) :
    ∀ {l y : List Char}, x = l ++ y → EndZ l → ∃ z, w = z ++ y ∧ EndZ z ∧ ReadArgs finite fs l ts z := by
  induction h with
  | nil x => intro l y e hl; exact ⟨l, e, hl, .nil _⟩
  | num e hlo hf hc hz ih =>
    intro l y ex hl
    subst ex
    obtain ⟨h1, e1⟩ := hl.ws
    rw [e1] at e
    obtain ⟨m, em, er, hm⟩ := number_split hlo.1 h1 e
    subst er
    obtain ⟨h2, e2⟩ := hm.sep
    obtain ⟨z, ew, hz, hr⟩ := ih (e2 y) h2
    exact ⟨z, ew, hz, .num em ((longest_local hm y).mpr hlo) hf (fun h => hc ((clash_local hm y).mp h)) hr⟩
  | flag hc hz ih =>
    intro l y ex hl
    cases l with
    | nil => exact absurd rfl hl.ne
    | cons d l =>
      simp at ex
      obtain ⟨rfl, rfl⟩ := ex
      rcases hl.cons with h | ⟨_, h⟩
      · obtain ⟨h2, e2⟩ := h.sep
        obtain ⟨z, ew, hz, hr⟩ := ih (e2 y) h2
        exact ⟨z, ew, hz, .flag hc hr⟩
      · rcases hc with rfl | rfl <;> simp at h

theorem letter_z {c : Char} {k : Kind} (h : c = 'z' ∨ c = 'Z') (hk : ofLetter c = some k) : k = .closePath := by
  rcases h with rfl | rfl <;> simp [ofLetter] at hk <;> exact hk.symm

theorem letter_close {c : Char} (hk : ofLetter c = some .closePath) : c = 'z' ∨ c = 'Z' := by
  have : ∀ c ∈ "MmLlHhVvCcSsQqTtAaZz".toList, ofLetter c = some .closePath → c = 'z' ∨ c = 'Z' := by decide +kernel
  exact this c (letter_mem hk) hk

theorem noLetter_local {l : List Char} (h : l ≠ []) (y : List Char) : NoLetter l ↔ NoLetter (l ++ y) := by
  cases l with
  | nil => exact absurd rfl h
  | cons c l =>
    simp only [NoLetter, List.cons_append, List.cons.injEq]
    constructor
    · rintro h d t ⟨rfl, rfl⟩; exact h c l ⟨rfl, rfl⟩
    · rintro h d t ⟨rfl, rfl⟩; exact h c (l ++ y) ⟨rfl, rfl⟩

theorem readArgs_nil {l z : List Char} {ts : List (List Char)} (h : ReadArgs finite [] l ts z) : ts = [] ∧ z = l := by
  cases h; exact ⟨rfl, rfl⟩

theorem Step.extend {o : Option Kind} {l z : List Char} {d : Data (List Char)} (h : Step finite allow o l d z) (hl : EndZ l)
    (y : List Char) : Step finite allow o (l ++ y) d (z ++ y) ∧ (EndZ z ∨ (z = [] ∧ d.id.cont = .closePath)) := by
  have hw := hl.ws
  have hs := hl.sep
  cases h with
  | @first c _ _ _ _ _ e hk hm hz =>
    have h1 := hw.1
    rw [e] at h1
    rcases h1.cons with h2 | ⟨rfl, h2⟩
    · obtain ⟨h3, hr⟩ := hz.extend h2 y
      exact ⟨.first (by rw [hw.2, e]; rfl) hk hm hr, .inl h3⟩
    · have := letter_z h2 hk
      subst this
      simp at hm
  | start hm hno hz =>
    obtain ⟨h3, hr⟩ := hz.extend hw.1 y
    exact ⟨.start hm (by rw [hw.2]; exact (noLetter_local hw.1.ne y).mp hno) (by rw [hw.2]; exact hr), .inl h3⟩
  | @letter c _ _ _ _ _ _ e hk hm hz =>
    have h1 := hs.1
    rw [e] at h1
    rcases h1.cons with h2 | ⟨rfl, h2⟩
    · obtain ⟨h3, hr⟩ := hz.extend h2 y
      exact ⟨.letter (by rw [hs.2, e]; rfl) hk hm hr, .inl h3⟩
    · have := letter_z h2 hk
      subst this
      obtain ⟨rfl, rfl⟩ := readArgs_nil hz
      exact ⟨.letter (t := y) (by rw [hs.2, e]; rfl) hk hm (.nil _), .inr ⟨rfl, rfl⟩⟩
  | @same c _ _ _ _ _ e hk hz =>
    have h1 := hs.1
    rw [e] at h1
    rcases h1.cons with h2 | ⟨rfl, h2⟩
    · obtain ⟨h3, hr⟩ := hz.extend h2 y
      exact ⟨.same (by rw [hs.2, e]; rfl) hk hr, .inl h3⟩
    · have := letter_z h2 hk
      subst this
      obtain ⟨rfl, rfl⟩ := readArgs_nil hz
      exact ⟨.same (t := y) (by rw [hs.2, e]; rfl) hk (.nil _), .inr ⟨rfl, rfl⟩⟩
  | cont hno hz =>
    obtain ⟨h3, hr⟩ := hz.extend hs.1 y
    exact ⟨.cont (by rw [hs.2]; exact (noLetter_local hs.1.ne y).mp hno) (by rw [hs.2]; exact hr), .inl h3⟩

theorem cons_append_inv {c : Char} {t m y : List Char} (h : c :: t = m ++ y) (hm : EndZ m) :
    (∃ m', m = c :: m' ∧ t = m' ++ y ∧ EndZ m') ∨ (m = [c] ∧ t = y ∧ (c = 'z' ∨ c = 'Z')) := by
  cases m with
  | nil => exact absurd rfl hm.ne
  | cons d m =>
    simp at h
    obtain ⟨rfl, rfl⟩ := h
    rcases hm.cons with h2 | ⟨rfl, h2⟩
    · exact .inl ⟨m, rfl, rfl, h2⟩
    · exact .inr ⟨rfl, rfl, h2⟩

theorem Step.shrink {o : Option Kind} {l w y : List Char} {d : Data (List Char)} (h : Step finite allow o (l ++ y) d w) (hl : EndZ l) :
    ∃ z, w = z ++ y ∧ Step finite allow o l d z := by
  have hw := hl.ws
  have hs := hl.sep
  cases h with
  | @first c _ _ _ _ _ e hk hm hz =>
    rw [hw.2] at e
    rcases cons_append_inv e.symm hw.1 with ⟨m, em, rfl, h2⟩ | ⟨em, rfl, h2⟩
    · obtain ⟨z, ew, hz', hr⟩ := hz.shrink rfl h2
      exact ⟨z, ew, .first em hk hm hr⟩
    · have := letter_z h2 hk
      subst this
      simp at hm
  | start hm hno hz =>
    rw [hw.2] at hno hz
    obtain ⟨z, ew, hz', hr⟩ := hz.shrink rfl hw.1
    exact ⟨z, ew, .start hm ((noLetter_local hw.1.ne y).mpr hno) hr⟩
  | @letter c _ _ _ _ _ _ e hk hm hz =>
    rw [hs.2] at e
    rcases cons_append_inv e.symm hs.1 with ⟨m, em, rfl, h2⟩ | ⟨em, rfl, h2⟩
    · obtain ⟨z, ew, hz', hr⟩ := hz.shrink rfl h2
      exact ⟨z, ew, .letter em hk hm hr⟩
    · have := letter_z h2 hk
      subst this
      obtain ⟨rfl, rfl⟩ := readArgs_nil hz
      exact ⟨[], rfl, .letter em hk hm (.nil _)⟩
  | @same c _ _ _ _ _ e hk hz =>
    rw [hs.2] at e
    rcases cons_append_inv e.symm hs.1 with ⟨m, em, rfl, h2⟩ | ⟨em, rfl, h2⟩
    · obtain ⟨z, ew, hz', hr⟩ := hz.shrink rfl h2
      exact ⟨z, ew, .same em hk hr⟩
    · have := letter_z h2 hk
      subst this
      obtain ⟨rfl, rfl⟩ := readArgs_nil hz
      exact ⟨[], rfl, .same em hk (.nil _)⟩
  | cont hno hz =>
    rw [hs.2] at hno hz
    obtain ⟨z, ew, hz', hr⟩ := hz.shrink rfl hs.1
    exact ⟨z, ew, .cont ((noLetter_local hs.1.ne y).mpr hno) hr⟩

/-- White space and commas. -/
def Seps (s : List Char) : Prop := ∀ c ∈ s, isWhitespace c = true ∨ c = ','

theorem afterSep_split (l : List Char) : ∃ s, Seps s ∧ l = s ++ afterSep l := by
  refine ⟨l.takeWhile isWhitespace ++ (l.dropWhile isWhitespace).takeWhile (· == ',') ++
    ((l.dropWhile isWhitespace).dropWhile (· == ',')).takeWhile isWhitespace, ?_, ?_⟩
  · intro c hc
    simp only [List.mem_append] at hc
    rcases hc with (hc | hc) | hc
    · exact .inl (takeWhile_all _ hc)
    · exact .inr (by simpa using takeWhile_all _ hc)
    · exact .inl (takeWhile_all _ hc)
  · rw [afterSep]; simp

/-- Text after white space and commas that is neither of them nor a command. -/
def Junk (l : List Char) : Prop := ∃ s c t, l = s ++ c :: t ∧ Seps s ∧ isWhitespace c = false ∧ c ≠ ',' ∧ ofLetter c = none

theorem Junk.seps {s l : List Char} (hs : Seps s) (h : Junk l) : Junk (s ++ l) := by
  obtain ⟨s', c, t, rfl, hs', h⟩ := h
  refine ⟨s ++ s', c, t, by simp, ?_, h⟩
  intro d hd
  simp at hd
  rcases hd with hd | hd
  · exact hs d hd
  · exact hs' d hd

theorem afterSep_ws (l : List Char) {c : Char} {t : List Char} (h : afterSep l = c :: t) : isWhitespace c = false := by
  have := List.head?_dropWhile_not isWhitespace ((l.dropWhile isWhitespace).dropWhile (· == ','))
  rw [afterSep] at h
  rw [h] at this
  simpa using this

theorem Spins.junk {l : List Char} {o : Option Kind} (h : Spins o l) : Junk l := by
  obtain ⟨_, c, t, e, h1, h2⟩ := h
  obtain ⟨s, hs, el⟩ := afterSep_split l
  exact ⟨s, c, t, by rw [← e]; exact el, hs, afterSep_ws l e, h2, h1⟩

/-- Where the loop does not end, the text has a close-path letter followed by junk. -/
theorem spin_text {o o' : Option Kind} {l l' : List Char} (hr : Reach finite allow o l o' l') (hs : Spins o' l') :
    (o = some .closePath ∧ Junk l) ∨ ∃ u y ds, l = u ++ y ∧ EndZ u ∧ Run finite allow o u ds ∧ Junk y := by
  induction hr with
  | here o l => exact .inl ⟨hs.1, hs.junk⟩
  | step hne hst hr ih =>
    rename_i o o' l z l' d
    rcases ih hs with ⟨hk, hj⟩ | ⟨u, y, ds, rfl, hu, hrun, hj⟩
    · simp only [Option.some.injEq] at hk
      cases hst with
      | first e hk' hm hz => rcases hm with rfl | rfl <;> simp [Data.id, ID.cont, Kind.nextImplicit] at hk
      | start hm hno hz => simp [Data.id, ID.cont, Kind.nextImplicit] at hk
      | @letter c _ t _ n k _ e hk' hm hz =>
        have : k = .closePath := by cases k <;> simp [Data.id, ID.cont, Kind.nextImplicit] at hk ⊢
        subst this
        obtain ⟨rfl, rfl⟩ := readArgs_nil hz
        obtain ⟨s, hsep, el⟩ := afterSep_split l
        have hu : EndZ (s ++ [c]) := ⟨s, c, rfl, letter_close hk'⟩
        have el' : l = (s ++ [c]) ++ z := by conv => lhs; rw [el, e]
                                             simp
        have hst : Step finite allow (some n) (s ++ [c] ++ z) (.plain .closePath []) z := by
          rw [← el']; exact .letter e hk' hm (.nil _)
        obtain ⟨z', ez, hs'⟩ := hst.shrink hu
        have : z' = [] := by have := congrArg List.length ez; simp at this; exact this
        subst this
        exact .inr ⟨s ++ [c], z, _, el', hu, .step hu.ne hs' (.done _), hj⟩
      | @same c _ t _ n _ e hk' hz =>
        have : n = .closePath := by cases n <;> simp [Data.id, ID.cont, Kind.nextImplicit] at hk ⊢
        subst this
        obtain ⟨rfl, rfl⟩ := readArgs_nil hz
        obtain ⟨s, hsep, el⟩ := afterSep_split l
        have hu : EndZ (s ++ [c]) := ⟨s, c, rfl, letter_close hk'⟩
        have el' : l = (s ++ [c]) ++ z := by conv => lhs; rw [el, e]
                                             simp
        have hst : Step finite allow (some .closePath) (s ++ [c] ++ z) (.implicit (.plain .closePath [])) z := by
          rw [← el']; exact .same e hk' (.nil _)
        obtain ⟨z', ez, hs'⟩ := hst.shrink hu
        have : z' = [] := by have := congrArg List.length ez; simp at this; exact this
        subst this
        exact .inr ⟨s ++ [c], z, _, el', hu, .step hu.ne hs' (.done _), hj⟩
      | @cont _ _ n _ hno hz =>
        have : n = .closePath := by cases n <;> simp [Data.id, ID.cont, Kind.nextImplicit] at hk ⊢
        subst this
        obtain ⟨rfl, rfl⟩ := readArgs_nil hz
        obtain ⟨s, hsep, el⟩ := afterSep_split l
        exact .inl ⟨rfl, by rw [el]; exact hj.seps hsep⟩
    · right
      obtain ⟨x, hx, _⟩ := hst.suffix
      rw [← List.append_assoc] at hx
      subst hx
      obtain ⟨z', ez, hs'⟩ := hst.shrink (hu.append x)
      have : z' = u := (List.append_cancel_right ez).symm
      subst this
      exact ⟨x ++ z', y, d :: ds, rfl, hu.append x, .step (hu.append x).ne hs' hrun, hj⟩

theorem junk_afterSep {l : List Char} (h : Junk l) : ∃ c t, afterSep l = c :: t ∧ ofLetter c = none ∧ (c ≠ ',' ∨ Junk (c :: t)) := by
  obtain ⟨s, c, t, rfl, hs, h1, h2, h3⟩ := h
  -- each of the three scans leaves a text of the same form
  have key : ∀ (f : Char → Bool), f c = false → ∀ s : List Char, Seps s → ∃ s', Seps s' ∧ (s ++ c :: t).dropWhile f = s' ++ c :: t := by
    intro f hf s
    induction s with
    | nil => intro _; exact ⟨[], fun _ h => by simp at h, by simp [hf]⟩
    | cons d s ih =>
      intro hs
      by_cases hd : f d = true
      · obtain ⟨s', h', e⟩ := ih (fun x hx => hs x (by simp [hx]))
        exact ⟨s', h', by simpa [hd] using e⟩
      · exact ⟨d :: s, hs, by simp [hd]⟩
  obtain ⟨s1, hs1, e1⟩ := key isWhitespace h1 s hs
  obtain ⟨s2, hs2, e2⟩ := key (· == ',') (by simp [h2]) s1 hs1
  obtain ⟨s3, hs3, e3⟩ := key isWhitespace h1 s2 hs2
  have e : afterSep (s ++ c :: t) = s3 ++ c :: t := by rw [afterSep, e1, e2, e3]
  cases s3 with
  | nil => exact ⟨c, t, e, h3, .inl h2⟩
  | cons d s3 =>
    refine ⟨d, s3 ++ c :: t, e, ?_, .inr ⟨d :: s3, c, t, by simp, hs3, h1, h2, h3⟩⟩
    rcases hs3 d (by simp) with hw | rfl
    · have := afterSep_ws _ e
      rw [hw] at this
      cases this
    · decide

theorem junk_spins (m : Nat) : ∀ {l : List Char}, l.length ≤ m → Junk l →
    ∃ l', Reach finite allow (some .closePath) l (some .closePath) l' ∧ Spins (some .closePath) l' := by
  induction m with
  | zero =>
    rintro l hl ⟨s, c, t, rfl, _⟩
    simp at hl
  | succ m ih =>
    intro l hl hj
    obtain ⟨c, t, e, hno, hc⟩ := junk_afterSep hj
    by_cases hcc : c = ','
    · subst hcc
      have hj' : Junk (',' :: t) := hc.resolve_left (fun h => h rfl)
      have h0 : l ≠ [] := by rintro rfl; simp [afterSep] at e
      have hst : Step finite allow (some .closePath) l (.implicit (.plain .closePath [])) (',' :: t) :=
        .cont (fun c' t' e' => by rw [e] at e'; simp at e'; rw [← e'.1]; exact hno) (by rw [e]; exact .nil _)
      have hr := Reach.step (o' := some .closePath) h0 hst (.here _ _)
      -- the comma is skipped in the next round
      obtain ⟨c2, t2, e2, hno2, hc2⟩ := junk_afterSep hj'
      have hlt := afterSep_comma t
      rw [e2] at hlt
      have hst2 : Step finite allow (some .closePath) (',' :: t) (.implicit (.plain .closePath [])) (c2 :: t2) :=
        .cont (fun c' t' e' => by rw [e2] at e'; simp at e'; rw [← e'.1]; exact hno2) (by rw [e2]; exact .nil _)
      obtain ⟨s, hs, el⟩ := afterSep_split l
      have hlen : (',' :: t).length ≤ l.length := by
        have := congrArg List.length el
        rw [e] at this
        simp at this ⊢
        omega
      by_cases hcc2 : c2 = ','
      · have hj2 : Junk (c2 :: t2) := hc2.resolve_left (fun h => h hcc2)
        obtain ⟨l', hr', hsp⟩ := ih (l := c2 :: t2) (by simp at hlt hlen ⊢; omega) hj2
        exact ⟨l', .step h0 hst (.step (by simp) hst2 hr'), hsp⟩
      · exact ⟨',' :: t, hr, rfl, c2, t2, e2, hno2, hcc2⟩
    · exact ⟨l, .here _ _, rfl, c, t, e, hno, hcc⟩

theorem text_reach {o : Option Kind} {u : List Char} {ds : List (Data (List Char))} (h : Run finite allow o u ds) (hu : EndZ u)
    (y : List Char) : Reach finite allow o (u ++ y) (some .closePath) y := by
  induction h with
  | done o => exact absurd rfl hu.ne
  | step hne hst hr ih =>
    obtain ⟨h1, h2⟩ := hst.extend hu y
    rcases h2 with h2 | ⟨rfl, hk⟩
    · exact .step (by simp [hne]) h1 (ih h2)
    · refine .step (by simp [hne]) h1 ?_
      rw [hk]
      exact .here _ _

theorem Reach.trans {o1 o2 o3 : Option Kind} {l1 l2 l3 : List Char} (h : Reach finite allow o1 l1 o2 l2) :
    Reach finite allow o2 l2 o3 l3 → Reach finite allow o1 l1 o3 l3 := by
  induction h with
  | here => exact id
  | step h0 hs _ ih => exact fun h => .step h0 hs (ih h)

/-- The loop does not end on a text exactly when a close-path letter that ends a readable text is followed by junk. -/
theorem spin_iff (l : List Char) : (∃ o' l', Reach finite allow none l o' l' ∧ Spins o' l') ↔
    ∃ u y ds, l = u ++ y ∧ EndZ u ∧ Run finite allow none u ds ∧ Junk y := by
  constructor
  · rintro ⟨o', l', hr, hs⟩
    rcases spin_text hr hs with ⟨h, _⟩ | h
    · cases h
    · exact h
  · rintro ⟨u, y, ds, rfl, hu, hr, hj⟩
    obtain ⟨l', hr', hsp⟩ := junk_spins (finite := finite) (allow := allow) y.length (Nat.le_refl _) hj
    exact ⟨_, l', (text_reach hr hu y).trans hr', hsp⟩

end Verif.Path
