import Verif.Clock.Kept

/-! # Clock values: examples and limits -/

namespace Verif.Clock

open Verif.Parse Verif.Number

/-- What is written for a text that is read to the end. -/
def durText (z t : String) : Option String := match ListOf.parseString Dur.parse t.toList with
  | .ok d _ => some (String.ofList (d.text z.toList))
  | _ => none

def beginText (z t : String) : Option String := match ListOf.parseString BeginEnd.parse t.toList with
  | .ok b _ => some (String.ofList (b.text z.toList))
  | _ => none

/-! ## C87 -/

theorem brief_short {t : List Char} (h : t.length ≤ 6) : Brief t := fun d _ hi => le_trans hi.length_le h

/-- **C87 (an example)** Ninety seconds and a half are kept. -/
example : durText "0" "01:30.5" = some "01:30.5" ∧ durText "0" "90.50s" = some "90.5" ∧ durText "0" "2h" = some "2h" ∧
    durText "0" "002:05:09" = some "02:05:09" ∧ durText "0" "1500ms" = some "1500ms" := by decide +kernel

theorem clock_thirty : Clock "00:30".toList 30 := by
  have := Clock.half "00".toList "30".toList [] ⟨by unfold Digits; decide, rfl, by decide +kernel⟩
    ⟨by unfold Digits; decide, rfl, by decide +kernel⟩ (.inl rfl)
  have e : (60 * (decimal "00".toList : ℚ) + (decimal "30".toList : ℚ) + tail ([] : List Char).tail) = 30 := by
    have h1 : decimal "00".toList = 0 := by decide +kernel
    have h2 : decimal "30".toList = 30 := by decide +kernel
    have h3 : decimal [] = 0 := by decide +kernel
    simp only [h1, h2, h3, tail, List.tail_nil]
    norm_num
  rw [e] at this
  exact this

theorem clock_half_second : Clock "0.5s".toList (1 / 2) := by
  have := Clock.count "0".toList ".5".toList "s".toList 1 (by unfold Digits; decide) (by decide)
    (.inr ⟨"5".toList, by decide, by unfold Digits; decide, rfl⟩) (by simp [units])
  have e : ((decimal "0".toList : ℚ) + tail ".5".toList.tail) * 1 = 1 / 2 := by
    have h1 : decimal "0".toList = 0 := by decide +kernel
    have h2 : decimal ".5".toList.tail = 5 := by decide +kernel
    have h3 : ".5".toList.tail.length = 1 := rfl
    simp only [h1, tail, h2, h3]
    norm_num
  rw [e] at this
  exact this

/-- **C87 (an example)** Its hypotheses hold of `00:30`. -/
example : ∃ c q, ListOf.parseString Dur.parse "00:30".toList = .ok (.clock c) q ∧ Loose ((Dur.clock c).text "0".toList) 30 :=
  duration_kept _ clock_thirty (brief_short (by decide))

/-- **C87 (the negation)** Half a second is written without the digit that the grammar wants in front of the point. -/
example : Clock "0.5s".toList (1 / 2) ∧ durText "0" "0.5s" = some ".5" ∧ durText "0" "00:00.5" = some "00:0.5" ∧
    durText "0" "01:00.5" = some "01:0.5" :=
  ⟨clock_half_second, by decide +kernel, by decide +kernel, by decide +kernel⟩

theorem half_second_violated : ∃ d q, ListOf.parseString Dur.parse "0.5s".toList = .ok d q ∧ ¬ Clock (d.text "0".toList) (1 / 2) := by
  obtain ⟨d, q, e, h⟩ := duration_strict_iff "0".toList clock_half_second (brief_short (by decide))
  refine ⟨.clock d, q, e, fun hc => h.mp hc ?_⟩
  exact ⟨by decide +kernel, by decide +kernel⟩

/-! ## C88 -/

/-- **C88 (an example)** -/
example : beginText "0" "a.end+5s" = some "a.end+5" ∧ beginText "0" "click - 2.50s" = some "click-2.5" ∧
    beginText "0" "indefinite" = some "indefinite" ∧ beginText "0" "b1.mouseover" = some "b1.mouseover" ∧
    beginText "0" "a.repeat(3)+1min" = some "a.repeat(3)+1min" := by decide +kernel

theorem begin_thirty : Begin Clock "a.begin-00:30".toList (.sync "a".toList true (-30)) := by
  have hn : Name "a".toList := ⟨⟨'a', [], rfl, by decide⟩, by decide⟩
  exact Begin.sync "a".toList true "-00:30".toList (-30) hn
    (.signed [] _ _ (by intro x hx; simp at hx) (.minus [] _ _ (by intro x hx; simp at hx) clock_thirty))

theorem begin_plus : Begin Clock "a.begin+00:30".toList (.sync "a".toList true 30) := by
  have hn : Name "a".toList := ⟨⟨'a', [], rfl, by decide⟩, by decide⟩
  exact Begin.sync "a".toList true "+00:30".toList 30 hn
    (.signed [] _ _ (by intro x hx; simp at hx) (.plus [] _ _ (by intro x hx; simp at hx) clock_thirty))

theorem brief_split {a b : List Char} {c : Char} (hc : c.isDigit = false) (ha : Brief a) (hb : Brief b) : Brief (a ++ c :: b) := by
  rintro d hd ⟨u, w, e⟩
  have hnot : c ∉ d := fun h => by
    have := hd c h
    rw [hc] at this
    simp at this
  rcases List.append_eq_append_iff.mp e with ⟨as, h1, _⟩ | ⟨bs, h1, h2⟩
  · exact ha d hd ⟨u, as, h1.symm⟩
  · cases bs with
    | nil => exact ha d hd ⟨u, [], by simpa using h1⟩
    | cons x bs =>
      simp only [List.cons_append, List.cons.injEq] at h2
      obtain ⟨rfl, h2⟩ := h2
      rcases List.append_eq_append_iff.mp h1 with ⟨as, _, h4⟩ | ⟨cs, _, h4⟩
      · exact absurd (by rw [h4]; simp) hnot
      · cases cs with
        | nil => exact absurd (by rw [List.nil_append] at h4; rw [← h4]; simp) hnot
        | cons y cs =>
          simp only [List.cons_append, List.cons.injEq] at h4
          exact hb d hd ⟨cs, w, by rw [h2, h4.2]⟩

theorem brief_begin : Brief "a.begin-00:30".toList ∧ Brief "a.begin+00:30".toList :=
  ⟨brief_split (a := "a".toList) (c := '.') (by decide) (brief_short (by decide))
      (brief_split (a := "begin".toList) (c := '-') (by decide) (brief_short (by decide)) (brief_short (by decide))),
    brief_split (a := "a".toList) (c := '.') (by decide) (brief_short (by decide))
      (brief_split (a := "begin".toList) (c := '+') (by decide) (brief_short (by decide)) (brief_short (by decide)))⟩

/-- **C88 (an example)** The hypotheses hold of `a.begin+00:30`, which is kept. -/
example : ∃ b q, ListOf.parseString BeginEnd.parse "a.begin+00:30".toList = .ok b q ∧
    Begin Loose (b.text "-0".toList) (.sync "a".toList true 30) :=
  begin_kept_partial begin_plus brief_begin.2 (by decide) (.inl (by simp [Trigger.wait]))

/-- **C88 (the negation)** `a.begin-00:30` begins thirty seconds before `a`; what is written begins thirty seconds after. -/
theorem reversed_violated : Begin Clock "a.begin-00:30".toList (.sync "a".toList true (-30)) ∧
    beginText "0" "a.begin-00:30" = some "a.begin+00:30" ∧ Begin Clock "a.begin+00:30".toList (.sync "a".toList true 30) :=
  ⟨begin_thirty, by decide +kernel, begin_plus⟩

/-- **C88 (the negation)** Longer offsets are not even clock values any more. -/
example : beginText "0" "a.begin-01:30" = some "a.begin0-1:30" ∧ beginText "0" "-01:30" = some "0-1:30" ∧
    beginText "0" "0-1:30" = none := by decide +kernel

/-- **C88 (the negation)** A negative zero loses its sign, and then the name is another one. -/
example : beginText "0" "a.end-0s" = some "a.end0" ∧ beginText "0" "a.end0" = some "a.end0" ∧
    beginText "-0" "a.end-0s" = some "a.end-0" := by decide +kernel

/-- **C88 (the negation)** A name with a minus sign is not read, escaped or not, but for a negative offset. -/
example : beginText "0" "my\\-id.end" = none ∧ beginText "0" "my-id.end" = none ∧ beginText "0" "my-id.end+1s" = none ∧
    beginText "0" "my-id.end-1s" = some "my-id.end-1" := by decide +kernel

theorem begin_dash : Begin Clock "my\\-id.end".toList (.sync "my-id".toList false 0) :=
  Begin.sync "my-id".toList false [] 0 ⟨⟨'m', "y-id".toList, rfl, by decide⟩, by decide⟩ .zero

example : ∃ q, ListOf.parseString BeginEnd.parse "my\\-id.end".toList = .err q := escaped_violated begin_dash (by decide)

example : ∃ q, ListOf.parseString BeginEnd.parse "my-id.end".toList = .err q :=
  dash_violated (a := "my".toList) (b := "id".toList) (ev := "end".toList) (o := []) (v := 0)
    ⟨⟨'m', "y".toList, rfl, by decide⟩, by decide⟩ (by decide) ⟨⟨'i', "d".toList, rfl, by decide⟩, by decide⟩ (by decide)
    (by decide) (by decide) .zero (by simp)

end Verif.Clock
