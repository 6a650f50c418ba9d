import Verif.Keywords.Font

/-! # C91: limits and examples -/

namespace Verif.Keywords

open Verif.Parse

/-- The text cannot be read. -/
def failsB {α : Type} (f : Parser → Res α) (s : List Char) : Bool :=
  match parseString f s with | .ok _ _ => false | _ => true

theorem fails_of {α : Type} {f : Parser → Res α} {s : List Char} (h : failsB f s = true) : ¬ ∃ a, Reads f s a := by
  rintro ⟨a, q, e⟩
  unfold failsB at h
  rw [e] at h
  cases h

/-- **C91 (violated: `aria-relevant`)** The value `additions text` has a variant of its own, which is written as this text,
but never read: the text is kept unparsed. -/
theorem aria_relevant_violated : writeEnum tAriaRelevant 1 = "additions text".toList ∧
    (∀ s, ¬ Reads (parseEnum tAriaRelevant) s 1) ∧ ¬ ∃ i, Reads (parseEnum tAriaRelevant) "additions text".toList i := by
  refine ⟨by decide +kernel, ?_, fails_of (by decide +kernel)⟩
  intro s h
  obtain ⟨r, h1, _⟩ := (reads_iff (view_enum _) s 1).1 h
  obtain ⟨_, _, _, c, u, h2, _, _, h3⟩ := gEnum_ok h1
  have e : u = "dditions text".toList := by
    have h5 : 'a' :: "dditions text".toList = c :: u := by rw [← h2]; decide +kernel
    exact ((List.cons.inj h5).2).symm
  have := h3 ' ' (by rw [e]; decide)
  revert this
  decide

/-- **C91 (violated: other white space)** Every keyword is also read with white space of Unicode around it that is none in
attribute values, such as a no-break space: the value is invalid, so that it has no effect, but is written as a valid one. -/
theorem nbsp_violated (t : Table) (ht : t ∈ tables) (i : Nat) (hi : i < t.length) (hne : writeEnum t i ≠ "additions text".toList)
    (c : Char) (hc : isWhitespace c = true) (ho : c ≠ ogham) : Reads (parseEnum t) (c :: writeEnum t i ++ [c]) i := by
  have hm : writeEnum t i ∈ t := by
    simp only [writeEnum, List.getD, List.getElem?_eq_getElem hi]
    exact List.getElem_mem hi
  have hk := tables_keys t ht _ hm hne
  have hn : NoName [c] := by
    intro d u e
    cases e
    cases hd : isNameChar c with
    | false => rfl
    | true => exact absurd (name_white hc hd) ho
  refine (reads_iff (view_enum t) _ i).2 ⟨[c], ?_, by simp [hc]⟩
  have hd : (c :: writeEnum t i ++ [c]).dropWhile isWhitespace = writeEnum t i ++ [c] := by
    obtain ⟨d, u, e, _, _, _, h⟩ := hk
    have := h d (by rw [e]; simp)
    rw [e]
    simp [hc, this]
  have hw : t[i]? = some (writeEnum t i) := by simp [writeEnum, List.getD, List.getElem?_eq_getElem hi]
  rw [hd, gEnum_key t hk hn, gFind, find_get (tables_nodup t ht) hw]

/-- **C91 (violated: two words of a component)** A component with two words is written without space between them. No
text is read as such a component, see `font_group_violated`. -/
theorem joined_violated : writeFontVariant (.comps [[some 0, some 0, none, none], [none], numeric.map fun _ => none,
    eastAsian.map fun _ => none, [none], [none]]) = "common-ligaturesdiscretionary-ligatures".toList := by decide +kernel

/-- The words of `font-variant` (CSS Fonts 4, section 6.11) but for those with arguments. -/
def fontWords : List Word :=
  ["normal", "none", "common-ligatures", "no-common-ligatures", "discretionary-ligatures", "no-discretionary-ligatures",
    "historical-ligatures", "no-historical-ligatures", "contextual", "no-contextual", "small-caps", "all-small-caps", "petite-caps",
    "all-petite-caps", "unicase", "titling-caps", "lining-nums", "oldstyle-nums", "proportional-nums", "tabular-nums",
    "diagonal-fractions", "stacked-fractions", "ordinal", "slashed-zero", "jis78", "jis83", "jis90", "jis04", "simplified",
    "traditional", "full-width", "proportional-width", "ruby", "sub", "super", "text", "emoji", "unicode"].map String.toList

/-- The text that is written for a text. -/
def rewritten (s : List Char) : Option (List Char) :=
  match parseString parseFontVariant s with | .ok v _ => some (writeFontVariant v) | _ => none

/-- **C91 (each word of `font-variant`)** Every single word is read and written as it is. -/
theorem font_words (w : Word) (h : w ∈ fontWords) : ∃ v, Reads parseFontVariant w v ∧ writeFontVariant v = w := by
  have key : ∀ w ∈ fontWords, rewritten w = some w := by decide +kernel
  have := key w h
  unfold rewritten at this
  split at this
  · rename_i v q e
    exact ⟨v, ⟨q, e⟩, Option.some.inj this⟩
  · cases this

/-! ## Examples -/

example : ∃ v, Reads parseFontVariant "historical-ligatures".toList v ∧ writeFontVariant v = "historical-ligatures".toList :=
  font_words _ (by decide +kernel)

example : Reads (parseEnum tCalcMode) " spline\n".toList 3 := reads_of (by decide +kernel)

example : ∃ a b, AllWhite a ∧ AllWhite b ∧ " spline\n".toList = a ++ writeEnum tCalcMode 3 ++ b :=
  (enum_read tCalcMode _ 3 (reads_of (by decide +kernel))).2

example : Reads (parseEnum tCalcMode) (writeEnum tCalcMode 2) 2 :=
  (tables_kept_iff tCalcMode (by decide +kernel) 2 (by decide)).2 (by decide +kernel)

example : ¬ Reads (parseEnum tAriaRelevant) (writeEnum tAriaRelevant 1) 1 := fun h =>
  (tables_kept_iff tAriaRelevant (by decide +kernel) 1 (by decide)).1 h (by decide +kernel)

-- A table with a keyword that is no name.
example : ¬ Reads (parseEnum (tab ["1st", "second"])) (writeEnum (tab ["1st", "second"]) 0) 0 := fun h => by
  obtain ⟨c, u, h1, _, h3, _⟩ := (enum_kept_iff (tab ["1st", "second"]) (by decide +kernel) 0 (by decide)).1 h
  have e : c = '1' := ((List.cons.inj (show '1' :: "st".toList = c :: u by rw [← h1]; decide +kernel)).1).symm
  subst e
  revert h3
  decide

example : Reads (parseInheritable (parseEnum tCalcMode)) " inherit ".toList none := reads_of (by decide +kernel)

example : Reads (parseEnum tCalcMode) " paced".toList 2 :=
  (inherit_read (view_enum tCalcMode) " paced".toList).2.1 2 (reads_of (by decide +kernel))

example : PaintMeans (words "stroke  markers".toList) [0, 2, 1] := paint_read _ _ (reads_of (by decide +kernel))

example : words "stroke  markers".toList = ["stroke".toList, "markers".toList] := by decide +kernel

example : Reads parsePaintOrder " markers".toList [2, 1, 0] :=
  paint_accepts _ _ (by decide +kernel) (PaintMeans.given (is := [2]) (by simp) (by simp) (by simp))

example : ∃ w, writePaintOrder [0, 2, 1] = some w ∧ PaintMeans (words w) [0, 2, 1] ∧ Reads parsePaintOrder w [0, 2, 1] :=
  paint_kept "stroke  markers".toList _ (reads_of (by decide +kernel))

example : writePaintOrder [1, 0, 2] = some "normal".toList ∧
    writePaintOrder [0, 2, 1] = some "stroke markers fill".toList := by decide +kernel

example : ¬ ∃ l, Reads parsePaintOrder "fill fill".toList l := fails_of (by decide +kernel)

example : AspectMeans (words "xMidYMid slice".toList) (5, 1) := aspect_read _ _ (reads_of (by decide +kernel))

example : Reads parseAspect "none slice".toList (0, 0) :=
  aspect_accepts _ _ (by decide +kernel) (AspectMeans.two (a := 0) (m := 1) (by decide) (by decide))

example : AspectMeans (words (writeAspect (5, 1))) (5, 1) ∧ Reads parseAspect (writeAspect (5, 1)) (5, 1) :=
  aspect_kept " xMidYMid  slice".toList _ (reads_of (by decide +kernel))

-- Words of different components are put in the order of the components.
example : Reads parseFontVariant "lining-nums small-caps".toList
    (.comps [ligatures.map fun _ => none, [some 0], [some 0, none, none, none, none], eastAsian.map fun _ => none, [none], [none]]) := reads_of (by decide +kernel)

example : (words "small-caps lining-nums".toList).Perm (words "lining-nums  small-caps".toList) :=
  font_kept "lining-nums  small-caps".toList (.comps [ligatures.map fun _ => none, [some 0], [some 0, none, none, none, none],
    eastAsian.map fun _ => none, [none], [none]]) (reads_of (by decide +kernel))

example : ¬ ∃ v, Reads parseFontVariant "common-ligatures discretionary-ligatures".toList v :=
  font_group_violated 0 (by decide) _ (by decide +kernel)

example : ¬ ∃ v, Reads parseFontVariant "tabular-nums small-caps slashed-zero".toList v :=
  font_group_violated 2 (by decide) _ (by decide +kernel)

example : ¬ ∃ v, Reads parseFontVariant "small-caps common-ligatures".toList v :=
  font_order_violated _ "common-ligatures".toList (by decide +kernel) (by decide +kernel)

-- A no-break space around a keyword.
example : Reads (parseEnum tCalcMode) (Char.ofNat 0xA0 :: writeEnum tCalcMode 2 ++ [Char.ofNat 0xA0]) 2 :=
  nbsp_violated tCalcMode (by decide +kernel) 2 (by decide) (by decide +kernel) _ (by decide) (by decide)

-- Nothing is read as no component, and written as nothing.
example : Reads parseFontVariant [] (.comps (groups.map fun g => g.map fun _ => none)) ∧
    writeFontVariant (.comps (groups.map fun g => g.map fun _ => none)) = [] :=
  ⟨reads_of (by decide +kernel), by decide +kernel⟩

end Verif.Keywords
