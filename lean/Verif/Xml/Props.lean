import Verif.Xml.Same

/-!
# Properties: writing and reading a document
-/

namespace Verif.Xml

set_option linter.unusedSectionVars false

variable {E A : Type}

mutual
theorem settled_never (V : View E A) (o : Options) (ho : o.trim = .never) (p first last : Bool) (n : XNode E A) :
    SettledNode V o p first last n := by
  match n with
  | .elem e as ks => exact ⟨fun a _ h => (by rw [ho] at h; exact absurd h (by decide)), settleds_never V o ho p true ks⟩
  | .text s =>
    have : treatment o p = .never := by simp [treatment, ho]
    rw [SettledNode, this]
    trivial
  | .style _ => trivial
  | .comment _ => trivial
  | .pi _ _ => trivial
theorem settleds_never (V : View E A) (o : Options) (ho : o.trim = .never) (p first : Bool) (ns : List (XNode E A)) :
    SettledAll V o p first ns := by
  match ns with
  | [] => trivial
  | n :: ns => exact ⟨settled_never V o ho p first _ n, settleds_never V o ho p n.isText ns⟩
end

/-- **C11 (the original white space)**: with `Space::Never` and no indentation (`Options::default`) every document is
written without error, and an XML reader gets back its elements, names, attributes in order with their values,
comments and texts (adjacent texts as one), whatever the kind of quotes, the indentation of attributes and the way
of closing empty elements. Missing: characters that cannot be written (see the violations below). -/
theorem original_partial (V : View E A) (o : Options) (doc : List (XNode E A)) (h : DocOk V doc) (hi : o.indent = .none)
    (ht : o.trim = .never) : ∃ s, serialize V o doc = .ok s ∧ read s = some (asRead V doc) :=
  write_read_same V o doc h hi (settleds_never V o ht false true doc)

/-- **C11 (white space as the writer would have it)**: without indentation, and for each treatment of white space,
a document the texts of which are already in the form the treatment produces (`SettledAll`) is written without error
and read back exactly. For the default treatment: words with single spaces between them, and a space at the beginning
or end only next to an element or comment. Missing: other texts, see `words_partial`. -/
theorem settled_partial (V : View E A) (o : Options) (doc : List (XNode E A)) (h : DocOk V doc) (hi : o.indent = .none)
    (hs : SettledAll V o false true doc) : ∃ s, serialize V o doc = .ok s ∧ read s = some (asRead V doc) :=
  write_read_same V o doc h hi hs

/-- **C11 (up to white space)**: for all options, a document without adjacent texts is written without error, and an
XML reader gets back the same elements with the same names and attributes, the same comments, and texts with the same
words, all in the same order. Missing: the white space between words. -/
theorem words_partial (V : View E A) (o : Options) (doc : List (XNode E A)) (h : DocOk V doc) (ha : Aparts doc) :
    ∃ s d, serialize V o doc = .ok s ∧ read s = some d ∧ gist d = gist (asRead V doc) :=
  write_read_gist V o doc h ha

/-! ## Examples and violations -/

/-- Text as code points. -/
def pts (s : String) : Str := s.toList.map Char.toNat

/-- Names and values as they are; `text` and `tspan` are textual; `xml:space` is looked at. -/
def plainView : View Str (Str × Str) where
  ename := id
  textual := fun e => e == pts "text" || e == pts "tspan"
  aname := Prod.fst
  avalue := Prod.snd
  space := fun a => if a.1 == pts "xml:space" then some (a.2 == pts "preserve") else none

/-- An element of a tree that needs no view. -/
abbrev el (n : String) (as : List (String × String)) (ks : List Doc) : Doc :=
  .elem (pts n) (as.map fun a => (pts a.1, pts a.2)) ks
/-- A text. -/
abbrev tx (s : String) : Doc := .text (pts s)

theorem docOk_one {V : View E A} {n : XNode E A} (hn : SrcOk V n) (he : n.isElem = true) : DocOk V [n] := by
  refine ⟨⟨[], [n], rfl, Or.inl rfl, ⟨hn, trivial⟩, ?_⟩, by simp [he]⟩
  intro m hm
  rw [List.mem_singleton.1 hm]
  cases n <;> simp [XNode.isElem] at he
  rfl

theorem tagOk {n : String} {as : List (String × String)}
    (h : (isName (pts n) && (as.all fun a => isName (pts a.1) && valueChars (pts a.2)) &&
      decide ((as.map fun a => pts a.1).Nodup)) = true) :
    TagOk plainView (pts n) (as.map fun a => (pts a.1, pts a.2)) := by
  simp only [Bool.and_eq_true, List.all_eq_true, decide_eq_true_eq] at h
  refine ⟨h.1.1, ?_, ?_, ?_⟩
  · intro a ha
    obtain ⟨b, hb, rfl⟩ := List.mem_map.1 ha
    exact (h.1.2 b hb).1
  · intro a ha
    obtain ⟨b, hb, rfl⟩ := List.mem_map.1 ha
    exact (h.1.2 b hb).2
  · rw [List.map_map]
    exact h.2

/-- The texts `a ` and ` b` side by side. -/
def glued : Doc := el "text" [] [tx "a ", tx " b"]
/-- Two elements with a space between. -/
def spaced : Doc := el "text" [] [el "tspan" [] [tx "a"], tx " ", el "tspan" [] [tx "b"]]
/-- A no-break space at the end. -/
def noBreak : Doc := el "text" [] [.text (pts "5" ++ [0xA0])]
/-- A preserving element, then another text. -/
def leaking : Doc := el "g" [] [el "text" [("xml:space", "preserve")] [], el "text" [] [tx " a"]]
/-- A preserving element in which another one ends. -/
def unleaking : Doc := el "text" [("xml:space", "preserve")] [el "tspan" [("xml:space", "default")] [], tx "  a"]
/-- Two words next to an inner element. -/
def runIn : Doc := el "text" [] [tx "a ", el "tspan" [] [tx "b"], tx " c"]

theorem txOk {s : String} (h : plainChars (pts s) = true) : SrcOk plainView (tx s) := h
theorem elOk {n : String} {ks : List Doc} (h : isName (pts n) = true) (hk : SrcsOk plainView ks) : SrcOk plainView (el n [] ks) :=
  ⟨tagOk (as := []) (by simp [h]), hk⟩

theorem glued_ok : DocOk plainView [glued] :=
  docOk_one (elOk (by decide +kernel) ⟨txOk (by decide +kernel), txOk (by decide +kernel), trivial⟩) rfl
theorem spaced_ok : DocOk plainView [spaced] :=
  docOk_one (elOk (by decide +kernel) ⟨elOk (by decide +kernel) ⟨txOk (by decide +kernel), trivial⟩, txOk (by decide +kernel),
    elOk (by decide +kernel) ⟨txOk (by decide +kernel), trivial⟩, trivial⟩) rfl
theorem noBreak_ok : DocOk plainView [noBreak] :=
  docOk_one (elOk (by decide +kernel) ⟨(by decide +kernel : plainChars (pts "5" ++ [0xA0]) = true), trivial⟩) rfl
theorem leaking_ok : DocOk plainView [leaking] :=
  docOk_one (elOk (by decide +kernel) ⟨⟨tagOk (by decide +kernel), trivial⟩,
    elOk (by decide +kernel) ⟨txOk (by decide +kernel), trivial⟩, trivial⟩) rfl
theorem unleaking_ok : DocOk plainView [unleaking] :=
  docOk_one ⟨tagOk (by decide +kernel), ⟨tagOk (by decide +kernel), trivial⟩, txOk (by decide +kernel), trivial⟩ rfl
theorem runIn_ok : DocOk plainView [runIn] :=
  docOk_one (elOk (by decide +kernel) ⟨txOk (by decide +kernel), elOk (by decide +kernel) ⟨txOk (by decide +kernel), trivial⟩,
    txOk (by decide +kernel), trivial⟩) rfl

/-- The result of writing. -/
def written (o : Options) (doc : List Doc) : Option Str := (serialize plainView o doc).toOption

/-- **C11 (two words become one)**: with the default treatment of white space the texts `a ` and ` b` of adjacent
text nodes (as left behind when the comment between them is removed) are written as `ab`. -/
theorem adjacent_violated : DocOk plainView [glued] ∧
    written .standard [glued] = some (pts "<text>ab</text>") := ⟨glued_ok, by decide +kernel⟩

/-- **C11 (the space between two elements is lost)**: in a `text` element the space between two `tspan`s is dropped,
which is a text of its own. -/
theorem between_violated : DocOk plainView [spaced] ∧
    written .standard [spaced] = some (pts "<text><tspan>a</tspan><tspan>b</tspan></text>") :=
  ⟨spaced_ok, by decide +kernel⟩

/-- **C11 (no-break spaces are lost)**: white space is what Unicode calls so; a no-break space at the end of a text
is dropped. -/
theorem noBreak_violated : DocOk plainView [noBreak] ∧
    written .standard [noBreak] = some (pts "<text>5</text>") := ⟨noBreak_ok, by decide +kernel⟩

/-- **C11 (`xml:space` goes on after its element)**: after an element with `xml:space="preserve"` the texts that
follow are treated as preserved. -/
theorem leak_violated : DocOk plainView [leaking] ∧
    written .standard [leaking] = some (pts "<g><text xml:space=\"preserve\"/><text> a</text></g>") ∧
    written .standard [el "g" [] [el "text" [] [], el "text" [] [tx " a"]]] =
      some (pts "<g><text/><text>a</text></g>") := ⟨leaking_ok, by decide +kernel, by decide +kernel⟩

/-- **C11 (`xml:space` ends too early)**: in an element with `xml:space="preserve"`, white space is collapsed once an
inner element has had another `xml:space`. -/
theorem unleak_violated : DocOk plainView [unleaking] ∧
    written .standard [unleaking] =
      some (pts "<text xml:space=\"preserve\"><tspan xml:space=\"default\"/> a</text>") :=
  ⟨unleaking_ok, by decide +kernel⟩

/-- **C11 (indentation joins words)**: with indentation the space between a word and an inner element of a `text`
element is dropped, though nothing is put in its place there. -/
theorem pretty_violated : DocOk plainView [runIn] ∧
    written .pretty [runIn] = some (pts "<text>a<tspan>b</tspan>c</text>\n") ∧
    written .standard [runIn] = some (pts "<text>a <tspan>b</tspan> c</text>") :=
  ⟨runIn_ok, by decide +kernel, by decide +kernel⟩

/-- The value of the first attribute of the first element. -/
def firstValue : List Doc → Option Str
  | .elem _ (a :: _) _ :: _ => some a.2
  | _ => none

/-- The first text in the first element. -/
def firstText : List Doc → Option Str
  | .elem _ _ (.text s :: _) :: _ => some s
  | _ => none

/-- **C11 (line ends in values)**: a line feed in an attribute value is written as it is, so that a reader must
take it for a space. -/
theorem value_violated : firstValue [el "a" [("b", "1\n2")] []] = some (pts "1\n2") ∧
    (written .original [el "a" [("b", "1\n2")] []]).bind (fun s => (read s).bind firstValue) = some (pts "1 2") := by
  decide +kernel

/-- **C11 (carriage returns)**: a carriage return in a text is written as it is, so that a reader must take it for
a line feed. -/
theorem carriage_violated : (written .original [el "a" [] [tx "1\r2"]]).bind (fun s => (read s).bind firstText) =
    some (pts "1\n2") := by decide +kernel

/-- **C11 (unreadable output)**: a comment with two hyphens, the text of a style with `<`, a second element at the
top level: what is written cannot be read. -/
theorem unreadable_violated : (written .original [el "a" [] [.comment (pts "--")]]).map (fun s => (read s).isSome) = some false ∧
    (written .original [el "style" [] [.style (pts "a[b=\"<\"]{}")]]).map (fun s => (read s).isSome) = some false ∧
    (written .original [el "a" [] [], el "b" [] []]).map (fun s => (read s).isSome) = some false := by decide +kernel

/-- The error. -/
def failure (o : Options) (doc : List Doc) : Option Err :=
  match serialize plainView o doc with
  | .ok _ => none
  | .error e => some e

/-- **C11 (processing instructions)**: a document with a processing instruction anywhere but at the beginning
cannot be written at all, nor can one with two of them. -/
theorem instruction_violated : failure .original [.comment [], .pi (pts "a") none, el "a" [] []] = some .declarationAlreadyWritten ∧
    failure .original [el "a" [] [.pi (pts "a") none]] = some .declarationAlreadyWritten ∧
    failure .original [.pi (pts "a") none, .pi (pts "b") none, el "a" [] []] = some .declarationAlreadyWritten := by
  decide +kernel

/-- A document that meets the hypotheses of all three theorems. -/
def sample : List Doc :=
  [.pi (pts "xml-stylesheet") (some (pts "href=\"a.css\"")), .comment (pts " c "),
    el "svg" [("id", "a\"<&'b"), ("xmlns:x", "u")] [el "g" [] [], el "text" [] [tx "a < b ", el "tspan" [] [tx "]]>"], tx " d"],
      el "style" [] [.style (pts ".a>b{x:y}")]]]

theorem sample_ok : DocOk plainView sample := by
  refine ⟨⟨[_], _, rfl, Or.inr ⟨_, _, rfl, by decide +kernel, by decide +kernel, by decide +kernel⟩, ?_, ?_⟩, rfl⟩
  · refine ⟨(by decide +kernel : commentOk (pts " c ") = true), ⟨tagOk (by decide +kernel), ?_⟩, trivial⟩
    refine ⟨elOk (by decide +kernel) trivial, elOk (by decide +kernel) ?_,
      elOk (by decide +kernel) ⟨Or.inr (by decide +kernel), trivial⟩, trivial⟩
    exact ⟨txOk (by decide +kernel), elOk (by decide +kernel) ⟨txOk (by decide +kernel), trivial⟩, txOk (by decide +kernel), trivial⟩
  · intro n hn
    simp only [List.mem_cons, List.not_mem_nil, or_false] at hn
    rcases hn with rfl | rfl <;> rfl

theorem sample_settled : SettledAll plainView .standard false true sample := by
  have q1 : ∀ a ∈ ([("id", "a\"<&'b"), ("xmlns:x", "u")] : List (String × String)).map (fun a => (pts a.1, pts a.2)),
      Quiet plainView .standard false a := by
    intro a ha _
    left
    obtain ⟨b, hb, rfl⟩ := List.mem_map.1 ha
    simp only [List.mem_cons, List.not_mem_nil, or_false] at hb
    rcases hb with rfl | rfl <;> decide +kernel
  have q0 : ∀ a ∈ ([] : List (String × String)).map (fun a => (pts a.1, pts a.2)), Quiet plainView .standard false a := by
    intro a ha; cases ha
  refine ⟨trivial, trivial, ⟨q1, ⟨q0, trivial⟩, ⟨q0, ?_⟩, ⟨q0, trivial, trivial⟩, trivial⟩, trivial⟩
  refine ⟨Or.inr ⟨?_, ?_, ?_, ?_⟩, ⟨q0, Or.inr ⟨?_, ?_, ?_, ?_⟩, trivial⟩, Or.inr ⟨?_, ?_, ?_, ?_⟩, trivial⟩ <;> decide +kernel

theorem sample_apart : Aparts sample := by
  refine ⟨trivial, ⟨trivial, ⟨?_, trivial, fun h => by cases h⟩, fun h => by cases h⟩, fun h => by cases h⟩
  refine ⟨trivial, ⟨⟨trivial, ⟨⟨trivial, trivial, fun _ => rfl⟩, ⟨trivial, trivial, fun _ => rfl⟩, fun h => by cases h⟩, fun _ => rfl⟩,
    ⟨⟨trivial, trivial, fun _ => rfl⟩, trivial, fun h => by cases h⟩, fun h => by cases h⟩, fun h => by cases h⟩

example : ∃ s, serialize plainView .standard sample = .ok s ∧ read s = some (asRead plainView sample) :=
  settled_partial _ _ _ sample_ok rfl sample_settled
example : ∃ s, serialize plainView ⟨true, .none, .never, .tabs, false⟩ sample = .ok s ∧ read s = some (asRead plainView sample) :=
  original_partial _ _ _ sample_ok rfl rfl
example : ∃ s d, serialize plainView .pretty sample = .ok s ∧ read s = some d ∧ gist d = gist (asRead plainView sample) :=
  words_partial _ _ _ sample_ok sample_apart
example : written .standard sample = some (pts ("<?xml-stylesheet href=\"a.css\"?><!-- c --><svg id=\"a&quot;&lt;&amp;'b\" xmlns:x=\"u\">" ++
    "<g/><text>a &lt; b <tspan>]]&gt;</tspan> d</text><style>.a>b{x:y}</style></svg>")) := by decide +kernel
example : written ⟨true, .none, .never, .tabs, false⟩ [el "a" [("b", "'\"")] []] =
    some (pts "<a\n\tb='&apos;\"'></a>") := by decide +kernel

end Verif.Xml
