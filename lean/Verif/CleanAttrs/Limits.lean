import Verif.CleanAttrs.Props

/-!
# C61: what cleaning attributes breaks, and examples

The job treats the whitespace of every attribute whose content is text as a separator, and everything that Unicode calls whitespace as whitespace.
-/

namespace Verif.CleanAttrs

open Verif.Names

/-- A text of ASCII characters. -/
def t (s : String) : Text := s.toList.map Char.toNat

abbrev N := Node Unit Nat

def attr (n : String) (v : Text) : Attr Unit := ⟨lit n, some v, ()⟩
/-- An attribute that is not text. -/
def other (n : String) : Attr Unit := ⟨lit n, none, ()⟩
def el (n : String) (as : List (Attr Unit)) (ks : List N := []) : N := .elem (lit n) as ks

def usual : Options := ⟨true, true, true⟩

mutual
/-- The texts of all attributes in document order. -/
def texts : N → List (Option Text)
  | .leaf _ => []
  | .elem _ as ks => as.map (·.text) ++ textsAll ks
def textsAll : List N → List (Option Text)
  | [] => []
  | k :: l => texts k ++ textsAll l
end

/-- A document with whitespace. -/
def sample : N := el "svg" [attr "data-a" (t " a  b \n c"), other "width"] [.leaf 1, el "g" [attr "data-b" (t "\t a\nb"), attr "data-c" [0xa0, 97, 0x3000]]]

/-- `words_kept`, `joined`: the default. -/
example : texts (job usual sample) = [some (t "a b c"), none, some (t "a b"), some (t "a")] := by decide +kernel
/-- `words_kept`: some options only. -/
example : texts (job ⟨true, false, false⟩ sample) = [some (t " a  b   c"), none, some (t "\t a b"), some [0xa0, 97, 0x3000]] ∧
    texts (job ⟨false, true, false⟩ sample) = [some (t "a  b \n c"), none, some (t "a\nb"), some (t "a")] ∧
    texts (job ⟨false, false, true⟩ sample) = texts (job usual sample) := by decide +kernel
/-- `words_kept`: the words of a text, and a text that is clean. -/
example : splitWhitespace (t " a  b \n c") = [t "a", t "b", t "c"] ∧ texts (job usual (el "a" [attr "b" (t "x y")])) = [some (t "x y")] := by decide +kernel
/-- `list_kept`: an attribute that is read as a list of words, by the number of its words. -/
example : Same (fun v v' => (splitWhitespace v').length = (splitWhitespace v).length) sample (job usual sample) :=
  list_kept usual sample (fun v => (splitWhitespace v).length) fun v v' h => by
    show (splitWhitespace v').length = (splitWhitespace v).length
    rw [words_iff.mp ((h _).mpr (words_self v))]
/-- `off`. -/
example : texts (job ⟨false, false, false⟩ sample) = texts sample ∧ texts (job usual sample) ≠ texts sample := by decide +kernel
/-- `again`. -/
example : texts (job usual (job usual sample)) = texts (job usual sample) ∧ texts (job usual sample) ≠ texts sample := by decide +kernel

/-! ## Violations -/

/-- The value of an attribute. -/
def value (n : String) : N → Option Text
  | .leaf _ => none
  | .elem _ as _ => (as.find? fun a => a.name = lit n).bind (·.text)

/-- The glyph of an SVG font that is used for what starts a text: the first one whose `unicode` is not empty and starts the text. Its number among
the glyphs is returned. -/
def glyphFor (font : N) (text : Text) : Option Nat :=
  match font with
  | .leaf _ => none
  | .elem _ _ glyphs => glyphs.findIdx? fun g => match value "unicode" g with
    | some (c :: u) => (c :: u).isPrefixOf text
    | _ => false

def font : N := el "font" [] [el "glyph" [attr "unicode" (t " ")], el "glyph" [attr "unicode" [0xa0]], el "glyph" [attr "unicode" (t "a")]]

/-- **C61 (violated)**: "it should never affect the appearance of the document": the glyphs of an SVG font for a space and for a space that does not
break lose their character, and texts with spaces are drawn without them, with each of the options `trim` and `spaces`. -/
theorem glyph_violated : glyphFor font (t " a") = some 0 ∧ glyphFor font [0xa0] = some 1 ∧
    ∀ o : Options, o.trim = true ∨ o.spaces = true → glyphFor (job o font) (t " a") = none ∧ glyphFor (job o font) [0xa0] = none := by
  refine ⟨by decide +kernel, by decide +kernel, ?_⟩
  rintro ⟨a, b, c⟩ h
  cases a <;> cases b <;> cases c <;> first | (simp at h; done) | decide +kernel

/-- Glyphs for other characters are still found. -/
example : glyphFor (job usual font) (t "a ") = some 2 := by decide +kernel

/-- An element is matched by `[name="value"]` of a style sheet. -/
def Matches (n : String) (v : Text) (e : N) : Prop := value n e = some v

/-- **C61 (violated)**: a rule `[data-x="a  b"]` of a style sheet no longer applies, and a rule `[data-x="a b"]` does. -/
theorem selector_violated : ∃ e : N, Matches "data-x" (t "a  b") e ∧ ¬Matches "data-x" (t "a b") e ∧
    ¬Matches "data-x" (t "a  b") (job usual e) ∧ Matches "data-x" (t "a b") (job usual e) := by
  refine ⟨el "path" [attr "data-x" (t "a  b")], ?_⟩
  simp only [Matches]
  decide +kernel

/-- The code of a script without its comments that end with the line. -/
def code : Bool → Text → Text
  | _, [] => []
  | true, c :: v => if c = 10 then 10 :: code false v else code true v
  | false, 47 :: 47 :: v => code true v
  | false, c :: v => c :: code false v

/-- **C61 (violated)**: the code of an event attribute behind a comment becomes a part of the comment, with each of the options `newlines` and `spaces`. -/
theorem handler_violated : ∃ e : N, (value "onclick" e).map (code false) = some (t "a();\nb()") ∧
    ∀ o : Options, o.newlines = true ∨ o.spaces = true → (value "onclick" (job o e)).map (code false) = some (t "a();") := by
  refine ⟨el "path" [attr "onclick" (t "a();// x\nb()")], by decide +kernel, ?_⟩
  rintro ⟨a, b, c⟩ h
  cases a <;> cases b <;> cases c <;> first | (simp at h; done) | decide +kernel

/-- The filter primitive that `in` of a later primitive refers to: the last one before it with this `result`. -/
def source (filter : N) (input : Text) : Option Nat :=
  match filter with
  | .leaf _ => none
  | .elem _ _ ks => (ks.reverse.findIdx? fun k => value "result" k = some input).map fun i => ks.length - 1 - i

/-- **C61 (violated)**: two results of a filter that differ in whitespace become the same, and an input that was the one becomes the other. -/
theorem result_violated : ∃ f : N, source f (t "a b") = some 0 ∧ source (job usual f) (t "a b") = some 1 :=
  ⟨el "filter" [] [el "feFlood" [attr "result" (t "a b")], el "feOffset" [attr "result" (t "a  b")]], by decide +kernel, by decide +kernel⟩

/-- The newline of an attribute is kept without the option for it, but not if `spaces` is on. -/
example : texts (job ⟨false, true, true⟩ (el "a" [attr "b" (t "x\ny")])) = [some (t "x y")] := by decide +kernel

end Verif.CleanAttrs
