import Verif.Words.Props

/-!
# C95: targets and names of colour profiles
-/

namespace Verif.Words

open Verif.Parse Verif.Clock Verif.Number Verif.Boxes

variable {p q : Parser} {pre rest r t u w w' s : List Char} {α : Type}

/-- A text with white space, and then a character that is not ASCII. -/
def Odd (t : List Char) : Prop := ∃ w c r, t = w ++ c :: r ∧ Wide w ∧ c.toNat ∉ whiteSpace ∧ 128 ≤ c.toNat

theorem wide_split {a b c d : List Char} (ha : Wide a) (hc : Wide c) (hb : Bare b) (hd : Bare d) (h : a ++ b = c ++ d) : a = c ∧ b = d := by
  induction a generalizing c with
  | nil =>
    cases c with
    | nil => exact ⟨rfl, by simpa using h⟩
    | cons x c => exact absurd (hc x (by simp)) (hb x (c ++ d) (by simpa using h))
  | cons y a ih =>
    cases c with
    | nil => exact absurd (ha y (by simp)) (hd y (a ++ b) (by simpa using h.symm))
    | cons x c =>
      simp only [List.cons_append, List.cons.injEq] at h
      obtain ⟨h1, h2⟩ := ih (c := c) (fun z hz => ha z (by simp [hz])) (fun z hz => hc z (by simp [hz])) h.2
      exact ⟨by rw [h.1, h1], h2⟩

theorem odd_iff (hw : Wide w) (hu : Bare u) : Odd (w ++ u) ↔ Foreign u := by
  constructor
  · rintro ⟨w', c, r, e, hw', hc, h⟩
    obtain ⟨_, rfl⟩ := wide_split hw hw' hu (by intro x y e; cases e; exact hc) e
    exact ⟨c, r, rfl, by rw [Ne, ascii_iff]; omega⟩
  · rintro ⟨c, r, rfl, h⟩
    exact ⟨w, c, r, rfl, hw, hu c r rfl, by rw [Ne, ascii_iff] at h; omega⟩

/-- Parsers that look at a name first. -/
theorem panic_of {T : Parser → Res α} (h : ∀ p pre rest, At p pre rest → Bare rest → (T p = .panic ↔ Foreign rest) ∧
    ∀ a q, T p = .ok a q → ∃ pre' r, At q pre' r) (t : List Char) : ListOf.parseString T t = .panic ↔ Odd t := by
  obtain ⟨w, u, p, rfl, hw, hu, e, a⟩ := start t
  rw [odd_iff hw hu, ← (h p w u a hu).1, ListOf.parseString, e]
  simp only [Res.bind]
  cases e1 : T p with
  | panic => simp
  | err q => simp
  | ok x q =>
    obtain ⟨pre', r, a'⟩ := (h p w u a hu).2 x q e1
    obtain ⟨q', e2, _, e3⟩ := ending a'
    simp only [e2]
    cases e4 : q'.expectDone with
    | panic => exact absurd e4 e3
    | err _ => simp
    | ok _ _ => simp

theorem slice_at (hp : At p pre rest) : p.takeSlice = .ok rest p.finish ∧ At p.finish (pre ++ rest) [] := by
  refine ⟨by rw [Parser.takeSlice, hp.slice], ?_, ?_⟩
  · simp [Parser.finish, hp.1]
  · simp [Parser.finish, hp.1]

theorem not_foreign (h : Name s) : ¬ Foreign (s ++ r) := by
  obtain ⟨c, m, rfl, _, h2, _⟩ := h
  rintro ⟨c', r', e, hc⟩
  simp only [List.cons_append, List.cons.injEq] at e
  rw [← e.1] at hc
  exact hc h2

/-- What `target` and `profile` have in common. -/
def Table (f : List Char → Option α) (g : List Char → α) (T : Parser → Res α) : Prop := ∀ p, T p = match named f p with
  | .ok a q => .ok a q
  | .err q => q.takeSlice.bind fun s q => .ok (g s) q
  | .panic => .panic

/-- What `target` and `profile` do, after white space. -/
theorem table_cases {f : List Char → Option α} {g : List Char → α} {T : Parser → Res α}
    (hT : Table f g T) (hp : At p pre rest) :
    (Foreign rest ∧ T p = .panic) ∨
    (∃ s r a q, rest = s ++ r ∧ Name s ∧ Ends isNameChar r ∧ f s = some a ∧ T p = .ok a q ∧ At q (pre ++ s) r) ∨
    (¬ Foreign rest ∧ (∀ s r, rest = s ++ r → Name s → Ends isNameChar r → f s = none) ∧ ∃ q, T p = .ok (g rest) q ∧ At q (pre ++ rest) []) := by
  rw [hT]
  rcases named_cases f hp with ⟨h, e⟩ | ⟨s, r, b, q, h1, h2, h3, h4, e, a⟩ | ⟨h, h', e⟩
  · exact .inl ⟨h, by rw [e]⟩
  · exact .inr (.inl ⟨s, r, b, q, h1, h2, h3, h4, by rw [e], a⟩)
  · refine .inr (.inr ⟨h, h', p.finish, ?_, (slice_at hp).2⟩)
    rw [e]
    simp only [(slice_at hp).1, Res.bind]

theorem table_panic {f : List Char → Option α} {g : List Char → α} {T : Parser → Res α}
    (hT : Table f g T) (t : List Char) : ListOf.parseString T t = .panic ↔ Odd t := by
  refine panic_of (fun p pre rest hp _ => ?_) t
  rcases table_cases hT hp with ⟨h, e⟩ | ⟨s, r, b, q, rfl, h2, h3, h4, e, a⟩ | ⟨h, h', q, e, a⟩
  · rw [e]; simp [h]
  · rw [e]
    refine ⟨by simp [not_foreign h2], ?_⟩
    rintro _ _ ⟨⟩
    exact ⟨_, _, a⟩
  · rw [e]
    refine ⟨by simp [h], ?_⟩
    rintro _ _ ⟨⟩
    exact ⟨_, _, a⟩

theorem table_from {f : List Char → Option α} {g : List Char → α} {T : Parser → Res α}
    (hT : Table f g T) {x : α} (h : ListOf.parseString T t = .ok x q) :
    ∃ w u, t = w ++ u ∧ Wide w ∧ Bare u ∧ ((∃ s w', u = s ++ w' ∧ Wide w' ∧ f s = some x) ∨ x = g u) := by
  obtain ⟨w, u, p, rfl, hw, hu, e, a⟩ := start t
  refine ⟨w, u, rfl, hw, hu, ?_⟩
  obtain ⟨_, p0, e0, h⟩ := bind_ok h
  rw [e] at e0
  cases e0
  obtain ⟨x', p1, e1, h⟩ := bind_ok h
  obtain ⟨_, p2, e2, h⟩ := bind_ok h
  obtain ⟨_, p3, e3, h⟩ := bind_ok h
  cases h
  rcases table_cases hT a with ⟨_, e'⟩ | ⟨s, r, b, q, h1, _, _, h4, e', a'⟩ | ⟨_, _, q, e', _⟩
  · rw [e'] at e1; cases e1
  · rw [e'] at e1
    cases e1
    exact .inl ⟨s, r, h1, rest_done a' e2 e3, h4⟩
  · rw [e'] at e1
    cases e1
    exact .inr rfl

theorem ends_xml (h : White w) : Ends isNameChar w := by
  intro c u e
  exact white_name (h c (by rw [e]; simp))

theorem wide_xml (h : White w) : Wide w := by
  intro c hc
  rcases h c hc with rfl | rfl | rfl | rfl <;> decide

theorem name_bare (h : Name s) : Bare (s ++ r) := by
  obtain ⟨c, m, rfl, h1, h2, _⟩ := h
  rintro c' r' e hm
  simp only [List.cons_append, List.cons.injEq] at e
  rw [← e.1] at hm
  have := (start_iff c).mp h1
  have h3 := (ascii_iff c).mp h2
  simp only [Among, xmlStart, whiteSpace, List.mem_cons, List.not_mem_nil, or_false, exists_eq_or_imp, exists_eq_left] at this hm
  omega

theorem name_unique {s' r' : List Char} (hs : Name s) (hr : Ends isNameChar r) (hs' : Name s') (hr' : Ends isNameChar r') (h : s ++ r = s' ++ r') :
    s = s' ∧ r = r' := by
  have : s = s' := by
    obtain ⟨c, m, rfl, _, _, hm⟩ := hs
    obtain ⟨c', m', rfl, _, _, hm'⟩ := hs'
    simp only [List.cons_append, List.cons.injEq] at h
    obtain ⟨rfl, h⟩ := h
    have key : ∀ {a b : List Char}, (∀ x ∈ a, isNameChar x = true) → Ends isNameChar b → (a ++ b).takeWhile isNameChar = a := by
      intro a b ha hb
      rw [List.takeWhile_append_of_pos ha]
      cases b with
      | nil => simp
      | cons x b => simp [hb x b rfl]
    rw [← key hm hr, ← key hm' hr', h]
  subst this
  exact ⟨rfl, List.append_cancel_left h⟩

theorem skip_wide (hw : Wide w) (hu : Bare u) : ∃ p, (Parser.new (w ++ u)).skipWhitespace = .ok () p ∧ At p w u := by
  obtain ⟨w', u', p, e, hw', hu', h, a⟩ := start (w ++ u)
  obtain ⟨rfl, rfl⟩ := wide_split hw hw' hu hu' e
  exact ⟨p, h, a⟩

theorem finish_ok {T : Parser → Res α} {x : α} {u : List Char} (hw : Wide w) (hu : Bare u)
    (h : ∀ p, At p w u → ∃ q pre r, T p = .ok x q ∧ At q pre r ∧ Wide r) : ∃ q, ListOf.parseString T (w ++ u) = .ok x q := by
  obtain ⟨p, e, a⟩ := skip_wide hw hu
  obtain ⟨q, pre, r, e1, a1, hr⟩ := h p a
  obtain ⟨q2, e2, h3, _⟩ := ending a1
  obtain ⟨q3, e3⟩ := h3.mpr hr
  refine ⟨q3, ?_⟩
  rw [ListOf.parseString, e]
  simp only [Res.bind, e1, e2, e3]

theorem wide_nil : Wide [] := by simp [Wide]

theorem table_read {f : List Char → Option α} {g : List Char → α} {T : Parser → Res α}
    (hT : Table f g T) (hw : Wide w) (hs : Name s) (hw' : White w') :
    ∃ q, ListOf.parseString T (w ++ (s ++ w')) = .ok ((f s).getD (g (s ++ w'))) q := by
  refine finish_ok hw (name_bare hs) fun p hp => ?_
  rcases table_cases hT hp with ⟨h, e⟩ | ⟨s', r, b, q, h1, h2, h3, h4, e, a⟩ | ⟨_, h', q, e, a⟩
  · exact absurd h (not_foreign hs)
  · obtain ⟨rfl, rfl⟩ := name_unique hs (ends_xml hw') h2 h3 h1
    exact ⟨q, _, w', by rw [e, h4]; rfl, a, wide_xml hw'⟩
  · rw [h' s w' rfl hs (ends_xml hw')]
    exact ⟨q, _, [], e, a, wide_nil⟩

/-! ## `target` -/

theorem target_table : Table targetWord Target.name target := by
  intro p
  rw [target]
  cases named targetWord p <;> rfl

theorem targetWord_text {x : Target} (h : targetWord s = some x) : targetText x = s ∧ s ∈ ["_self".toList, "_parent".toList, "_top".toList, "_blank".toList] := by
  unfold targetWord at h
  split at h
  · cases h; simp_all [targetText]
  split at h
  · cases h; simp_all [targetText]
  split at h
  · cases h; simp_all [targetText]
  split at h
  · cases h; simp_all [targetText]
  · cases h

/-- **C95 (target: crash)** Reading a `target` panics exactly if its first character after white space is not ASCII. -/
theorem target_panic (t : List Char) : ListOf.parseString target t = .panic ↔ Odd t := table_panic target_table t

/-- **C95 (target)** A `target` that is read is written as it was, but for white space in front of it, and behind the four keywords. -/
theorem target_written {x : Target} (h : ListOf.parseString target t = .ok x q) : ∃ w w', t = w ++ (targetText x ++ w') ∧ Wide w ∧ Wide w' ∧
    (w' = [] ∨ targetText x ∈ ["_self".toList, "_parent".toList, "_top".toList, "_blank".toList]) := by
  obtain ⟨w, u, rfl, hw, _, ⟨s, w', rfl, hw', hs⟩ | rfl⟩ := table_from target_table h
  · obtain ⟨h1, h2⟩ := targetWord_text hs
    exact ⟨w, w', by rw [h1], hw, hw', .inr (h1 ▸ h2)⟩
  · exact ⟨w, [], by simp [targetText], hw, wide_nil, .inl rfl⟩

/-- **C95 (target: read)** Every XML name is read as a `target`, if it begins with an ASCII character and has no `Ö` in it. -/
theorem target_kept (hw : Wide w) (hs : XmlName s) (ha : Ascii s) (ho : ∀ c ∈ s, c.toNat ≠ 0xD6) (hw' : White w') :
    ∃ x q, ListOf.parseString target (w ++ (s ++ w')) = .ok x q ∧ (targetText x = s ∨ targetText x = s ++ w') := by
  obtain ⟨q, e⟩ := table_read target_table hw ((name_iff s).mpr ⟨hs, ha, ho⟩) hw'
  refine ⟨_, q, e, ?_⟩
  cases h : targetWord s with
  | some x => exact .inl (targetWord_text h).1
  | none => exact .inr rfl

/-! ## The names of colour profiles -/

theorem profile_table : Table profileWord Profile.name profile := by
  intro p
  rw [profile]
  cases named profileWord p <;> rfl

theorem profileWord_text {x : Profile} (h : profileWord s = some x) : profileText x = "sRGB".toList ∧ s.map Char.toLower = "srgb".toList := by
  unfold profileWord at h
  split at h
  · rename_i hs
    cases h
    exact ⟨rfl, hs⟩
  · cases h

/-- **C95 (colour profiles: crash)** Reading the name of a colour profile panics exactly if its first character after white space is not ASCII. -/
theorem profile_panic (t : List Char) : ListOf.parseString profile t = .panic ↔ Odd t := table_panic profile_table t

/-- **C95 (colour profiles)** A name that is read is written as it was, but for white space in front of it; `sRGB` in any case of letters is written
as `sRGB`. -/
theorem profile_written {x : Profile} (h : ListOf.parseString profile t = .ok x q) : ∃ w u w', t = w ++ (u ++ w') ∧ Wide w ∧ Wide w' ∧
    ((w' = [] ∧ profileText x = u) ∨ (u.map Char.toLower = "srgb".toList ∧ profileText x = "sRGB".toList)) := by
  obtain ⟨w, u, rfl, hw, _, ⟨s, w', rfl, hw', hs⟩ | rfl⟩ := table_from profile_table h
  · obtain ⟨h1, h2⟩ := profileWord_text hs
    exact ⟨w, s, w', rfl, hw, hw', .inr ⟨h2, h1⟩⟩
  · exact ⟨w, u, [], by simp, hw, wide_nil, .inl ⟨rfl, rfl⟩⟩

/-- **C95 (colour profiles: read)** Every XML name is read, if it begins with an ASCII character and has no `Ö` in it; `sRGB` in any case of letters is
written as `sRGB`, and any other name as it was. -/
theorem profile_kept (hw : Wide w) (hs : XmlName s) (ha : Ascii s) (ho : ∀ c ∈ s, c.toNat ≠ 0xD6) (hw' : White w') :
    ∃ x q, ListOf.parseString profile (w ++ (s ++ w')) = .ok x q ∧
      profileText x = if s.map Char.toLower = "srgb".toList then "sRGB".toList else s ++ w' := by
  obtain ⟨q, e⟩ := table_read profile_table hw ((name_iff s).mpr ⟨hs, ha, ho⟩) hw'
  refine ⟨_, q, e, ?_⟩
  unfold profileWord
  split <;> rfl

end Verif.Words
