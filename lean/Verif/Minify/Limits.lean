import Verif.Minify.Props

/-!
# C59: what minifying breaks, and examples
-/

namespace Verif.Minify

open Verif.Names
open Verif.Inline (Token Sel Block Style Value lookup IsCss last stronger best)

/-- A selector with combinators matches an element if the part behind the last one does and the others hold for the element with the key 0.
A nested rule 0 is `:not(&){fill:9}`. -/
def css : Css Nat Nat where
  test _ _ := true
  structural _ _ := true
  complex f s k := !s.pseudo && s.tail.all (f k) && s.heads.all fun h => h.all (f 0)
  nested f sels r k := if r == 0 && !sels.isEmpty && !(sels.any fun s => s.tail.all (f k)) then [(1, ⟨[(lit "fill", 9)], []⟩)] else []
  recover n := ⟨[(lit "fill", n)], []⟩

abbrev El := Elem Nat Nat Nat
abbrev Ru := Rule Nat Nat Nat

def el (k : Nat) (name : String) (classes : List String) (style : Style Nat) : El :=
  ⟨⟨k, lit name, false, none, classes.map lit, style, [], [], none, none, none, false⟩, true, false, none⟩
def sheet (k : Nat) (rs : List Ru) : El :=
  ⟨⟨k, lit "style", false, none, [], .absent, [], [], none, none, none, false⟩, true, true, some rs⟩
def ty (name : String) : Sel := ⟨[.name (lit name)], [], false, 1⟩
def cl (name : String) : Sel := ⟨[.cls (lit name)], [], false, 1000⟩
def fill (n : Nat) : Block Nat := ⟨[(lit "fill", n)], []⟩

def hasSels : Ru → Bool
  | .style sels _ _ => !sels.isEmpty
  | _ => true

/-- A minifier that removes rules without selectors. -/
def tidy (rs : List Ru) : Option (List Ru) := some (rs.filter hasSels)

/-- What is nested in a rule without selectors declares nothing, with the above. -/
theorem tidy_entries (env : Nat → Bool) (f : Nat → Token → Bool) (k : Nat) (rs : List Ru) :
    entriesAll css env f k (rs.filter hasSels) = entriesAll css env f k rs := by
  induction rs with
  | nil => rfl
  | cons r rs ih =>
    rw [List.filter_cons]
    by_cases h : hasSels r = true
    · rw [if_pos h]
      simp only [entriesAll, ih]
    · rw [if_neg h]
      cases r with
      | style sels b nest =>
        cases sels with
        | nil =>
          have h0 : entries css env f k (.style [] b nest) = [] := by cases nest <;> simp [entries, css]
          rw [ih, entriesAll, h0, List.nil_append]
        | cons s ss => simp [hasSels] at h
      | group c rs => simp [hasSels] at h
      | other r => simp [hasSels] at h

theorem tidy_right : SheetsRight css tidy := by
  intro rs
  refine ⟨_, rfl, ?_⟩
  intro env f k p a
  rw [tidy_entries]
  exact ⟨rfl, rfl⟩

theorem same_right : BlocksRight (id : Block Nat → Block Nat) := fun _ _ => ⟨rfl, rfl⟩

/-- The value of a property on the element at an index. -/
def valueAt (doc : List El) (i : Nat) (p : String) : Option Nat := doc[i]?.bind fun e => value css (fun _ => true) doc e (lit p)
def run (doc : List El) : Option (List El) := job tidy id .on false doc

/-! ## Examples -/

/-- `.a, .b{fill:1} .c{fill:2} @media{.d{fill:3}}` with a rectangle of class `a`. -/
def plain : List El := [sheet 1 [.style [cl "a", cl "b"] (fill 1) none, .style [cl "c"] (fill 2) none, .group 0 [.style [cl "d"] (fill 3) none]],
  el 2 "rect" ["a"] (.block (fill 7)), el 3 "circle" [] (.block ⟨[], []⟩), el 0 "svg" [] .absent]

/-- `elements_kept`, `selectors_iff`: `.b` and `.c` go, and a `style` attribute that is empty. -/
example : ((run plain).map fun d => d.map fun e => (e.base.key, e.base.gone, selsOfAll (e.sheet.getD []))) =
      some [(1, false, [cl "a", cl "d"]), (2, false, []), (3, false, []), (0, false, [])] ∧
    ((run plain).map fun d => d.map fun e => e.base.style) = some [.absent, .block (fill 7), .absent, .absent] := by
  decide +kernel

/-- `scripts_kept`: nothing goes if the document has scripts, unless removal is forced. -/
example : ((job tidy id .on true plain).map fun d => d.map fun e => (selsOfAll (e.sheet.getD [])).length) = some [4, 0, 0, 0] ∧
    ((job tidy id .off false plain).map fun d => d.map fun e => (selsOfAll (e.sheet.getD [])).length) = some [4, 0, 0, 0] ∧
    ((job tidy id .force true plain).map fun d => d.map fun e => (selsOfAll (e.sheet.getD [])).length) = some [2, 0, 0, 0] := by
  decide +kernel

/-- `values_kept_partial`. -/
example (doc' : List El) (h : run plain = some doc') (env : Nat → Bool) (i : Nat) (hi : i < plain.length) (hi' : i < doc'.length) (p : Str) :
    value css env doc' doc'[i] p = value css env plain plain[i] p := by
  refine values_kept_partial css h tidy_right same_right ?_ ?_ ?_ ?_ ?_ env i hi hi' p
  · decide +kernel
  · intro f s k h t ht
    simp only [css, Bool.and_eq_true, List.all_eq_true] at h
    exact h.1.2 t ht
  · intro e he sels b r hr
    simp only [plain, List.mem_cons, List.not_mem_nil, or_false] at he
    rcases he with rfl | rfl | rfl | rfl <;> simp [sheet, el] at hr
  · intro e he env f g k hfg
    have hc : ∀ c : String, matchesSel css f (cl c) k = matchesSel css g (cl c) k := by
      intro c
      have := hfg k (.cls (lit c)) (by simp)
      simp [matchesSel, cl, this]
    simp only [plain, List.mem_cons, List.not_mem_nil, or_false] at he
    rcases he with rfl | rfl | rfl | rfl
    · simp [sheet, entriesAll, entries, hc, List.filter_cons]
    · rfl
    · rfl
    · rfl
  · intro y hy s hs e he hsvg
    simp only [plain, List.mem_cons, List.not_mem_nil, or_false] at he
    rcases he with rfl | rfl | rfl | rfl <;> simp [sheet, el] at hsvg

/-! ## What goes wrong -/

/-- **C59 (violated)**: a `style` attribute that the parser does not read is a panic. -/
theorem panic_violated : ∃ doc : List El, run doc = none :=
  ⟨[el 2 "rect" [] (.raw 0), el 0 "svg" [] .absent], by rfl⟩

/-- **C59 (violated)**: elements that are not of SVG, as in a `foreignObject`, do not count: `.a{fill:1}` goes though a `div` has the
class. -/
theorem foreign_violated : ∃ doc doc' : List El, run doc = some doc' ∧ valueAt doc 1 "fill" = some 1 ∧ valueAt doc' 1 "fill" = none :=
  ⟨[sheet 1 [.style [cl "a"] (fill 1) none], { el 2 "div" ["a"] .absent with svg := false }, el 0 "svg" [] .absent], _, rfl, by decide +kernel⟩

/-- **C59 (violated)**: a rule whose selectors match nothing goes with what is nested in it, which may match:
`.b{:not(&){fill:9}}`. -/
theorem nested_violated : ∃ doc doc' : List El, run doc = some doc' ∧ valueAt doc 1 "fill" = some 9 ∧ valueAt doc' 1 "fill" = none :=
  ⟨[sheet 1 [.style [cl "b"] ⟨[], []⟩ (some 0)], el 2 "rect" ["a"] .absent, el 0 "svg" [] .absent], _, rfl, by decide +kernel⟩

/-- **C59 (violated)**: a selector that asks for the `style` attribute: `[style]{stroke:1}` with `style=""`. -/
theorem style_selector_violated : ∃ doc doc' : List El, run doc = some doc' ∧ valueAt doc 1 "stroke" = some 1 ∧ valueAt doc' 1 "stroke" = none :=
  ⟨[sheet 1 [.style [⟨[.attr (lit "style") none], [], false, 1000⟩] ⟨[(lit "stroke", 1)], []⟩ none], el 2 "rect" [] (.block ⟨[], []⟩),
    el 0 "svg" [] .absent], _, rfl, by decide +kernel⟩

/-- If the minifier failed, all rules of the style element would be lost. With the options that are used it does not seem to. -/
example : ∃ doc doc' : List El, job (fun _ => none) id .on false doc = some doc' ∧ valueAt doc 1 "fill" = some 1 ∧ valueAt doc' 1 "fill" = none :=
  ⟨[sheet 1 [.style [ty "rect"] (fill 1) none], el 2 "rect" [] .absent, el 0 "svg" [] .absent], _, rfl, by decide +kernel⟩

end Verif.Minify
