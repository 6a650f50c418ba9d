import Verif.Empty.Containers
import Verif.Removal.Props

/-!
# C47: removing empty texts
-/

namespace Verif.Empty

open Verif.Tree Verif.Names Verif.Removal

variable {A ε : Type}

/-- An SVG element without anything but blank texts. -/
def blankElem (white : Char → Bool) (name : String) : Node A → Bool
  | .elem n _ ks => n.pre.unaliased == .std .svg && n.loc == lit name && ks.all fun k => match k with
    | .text s => s.all white
    | _ => false
  | _ => false

/-- A `tref` that refers to nothing. -/
def deadRef (isHref : A → Bool) : Node A → Bool
  | .elem n as _ => n.pre.unaliased == .std .svg && n.loc == lit "tref" && as.all fun a => !isHref a
  | _ => false

/-- What is to be removed. -/
def uselessText (white : Char → Bool) (isHref : A → Bool) (text tspan tref : Bool) (n : Node A) : Bool :=
  (text && blankElem white "text" n) || (tspan && blankElem white "tspan" n) || (tref && deadRef isHref n)

theorem text_prune (white : Char → Bool) (isHref : A → Bool) (text tspan tref : Bool) (doc : List (Node A)) :
    removeEmptyText white isHref text tspan tref doc =
      .ok (pruneAll (fun n => kept (!uselessText white isHref text tspan tref n) (own n)) doc) := by
  rw [removeEmptyText, start, if_pos rfl]
  apply visitAll_ok
  intro m _
  cases m with
  | elem n as ks =>
    have he : isEmpty white ks = ks.all fun k => match k with
        | .text s => s.all white
        | _ => false := by
      unfold isEmpty
      congr 1
    have ha : (as.all fun a => !isHref a) = !as.any isHref := by
      rw [List.not_any_eq_all_not]
    simp only [textHook, uselessText, blankElem, deadRef, own, EName.is, he, ha, Bool.and_assoc]
  | text => simp [textHook, uselessText, blankElem, deadRef, own, kept]
  | css => simp [textHook, uselessText, blankElem, deadRef, own, kept]
  | comment => simp [textHook, uselessText, blankElem, deadRef, own, kept]
  | pi => simp [textHook, uselessText, blankElem, deadRef, own, kept]

/-- **C47 (texts).** The job never fails. Exactly the `text` and `tspan` elements that are empty in the given document go
away, and the `tref` elements without a reference, each as far as it is switched on. -/
theorem text_spec (white : Char → Bool) (isHref : A → Bool) (text tspan tref : Bool) (doc : List (Node A)) :
    ∃ out, removeEmptyText white isHref text tspan tref doc = .ok out ∧
      outline out = remaining (uselessText white isHref text tspan tref) id doc := by
  refine ⟨_, text_prune _ _ _ _ _ doc, ?_⟩
  rw [outline_prune (edits_own fun n as e => kept_own e)]
  congr 1
  funext n
  simp [kept_isNone]

mutual
/-- The characters of the texts that are not white, in order. The content of a `tref` is not drawn. -/
def letters (white : Char → Bool) : Node A → List Char
  | .elem n _ ks => if n.is "tref" then [] else lettersAll white ks
  | .text s => s.filter fun c => !white c
  | .css _ => []
  | .comment _ => []
  | .pi _ _ => []
def lettersAll (white : Char → Bool) : List (Node A) → List Char
  | [] => []
  | n :: ns => letters white n ++ lettersAll white ns
end

theorem letters_blank (white : Char → Bool) (ks : List (Node A)) (h : (ks.all fun k => match k with
    | .text s => s.all white
    | _ => false) = true) : lettersAll white ks = [] := by
  induction ks with
  | nil => rfl
  | cons k ks ih =>
    rw [List.all_cons, Bool.and_eq_true] at h
    cases k with
    | text s =>
      rw [lettersAll, ih h.2, letters, List.append_nil, List.filter_eq_nil_iff]
      intro c hc
      simpa using List.all_eq_true.mp h.1 c hc
    | elem | css | comment | pi => simp at h

theorem lettersAll_append (white : Char → Bool) (a b : List (Node A)) :
    lettersAll white (a ++ b) = lettersAll white a ++ lettersAll white b := by
  induction a with
  | nil => rfl
  | cons x a ih => rw [List.cons_append, lettersAll, ih, lettersAll, List.append_assoc]

mutual
theorem prune_letters (white : Char → Bool) (isHref : A → Bool) (text tspan tref : Bool) (n : Node A) :
    lettersAll white (prune (fun n => kept (!uselessText white isHref text tspan tref n) (own n)) n) = letters white n := by
  match n with
  | .elem n as ks =>
    have ih := prune_lettersAll white isHref text tspan tref ks
    simp only [prune]
    cases hu : uselessText white isHref text tspan tref (.elem n as ks) with
    | false =>
      have hk : kept (!false) (own (.elem n as ks)) = some as := rfl
      rw [hk]
      simp only [rebuild, lettersAll, letters, ih, List.append_nil]
    | true =>
      simp only [Bool.not_true, kept, Bool.false_eq_true, if_false, rebuild, lettersAll]
      rw [letters]
      split
      · rfl
      · rename_i ht
        simp only [uselessText, blankElem, deadRef, Bool.or_eq_true, Bool.and_eq_true] at hu
        rcases hu with (⟨-, -, h⟩ | ⟨-, -, h⟩) | ⟨-, h, -⟩
        · exact (letters_blank white ks h).symm
        · exact (letters_blank white ks h).symm
        · exact absurd (by simpa [EName.is] using h) ht
  | .text s => simp [prune, uselessText, blankElem, deadRef, kept, keepLeaf, lettersAll]
  | .css s => simp [prune, uselessText, blankElem, deadRef, kept, keepLeaf, lettersAll]
  | .comment s => simp [prune, uselessText, blankElem, deadRef, kept, keepLeaf, lettersAll]
  | .pi _ _ => simp [prune, uselessText, blankElem, deadRef, kept, keepLeaf, lettersAll]
theorem prune_lettersAll (white : Char → Bool) (isHref : A → Bool) (text tspan tref : Bool) (ns : List (Node A)) :
    lettersAll white (pruneAll (fun n => kept (!uselessText white isHref text tspan tref n) (own n)) ns) =
      lettersAll white ns := by
  match ns with
  | [] => rfl
  | n :: ns =>
    rw [pruneAll, lettersAll_append, prune_letters, prune_lettersAll white isHref text tspan tref ns, lettersAll]
end

/-- **C47 (texts).** No letter that is drawn is lost and the letters keep their order. What is missing: the spaces between them
(`words_violated`). -/
theorem text_letters_partial (white : Char → Bool) (isHref : A → Bool) (text tspan tref : Bool) {doc out : List (Node A)}
    (h : removeEmptyText white isHref text tspan tref doc = .ok out) : lettersAll white out = lettersAll white doc := by
  rw [text_prune] at h
  cases h
  exact prune_lettersAll white isHref text tspan tref doc

mutual
/-- All characters of the texts. -/
def content : Node A → List Char
  | .elem _ _ ks => contentAll ks
  | .text s => s
  | .css _ => []
  | .comment _ => []
  | .pi _ _ => []
def contentAll : List (Node A) → List Char
  | [] => []
  | n :: ns => content n ++ contentAll ns
end

/-- **C47 (words violate it).** The space between two words goes away with the `tspan` around it. -/
theorem words_violated : ∃ doc out : List (Node String),
    removeEmptyText (· == ' ') (· == "xlink:href") true true true doc = .ok out ∧
      contentAll doc = "hello world".toList ∧ contentAll out = "helloworld".toList :=
  ⟨[tag "text" [] [.text ("hello".toList), tag "tspan" ["class"] [.text (" ".toList)], .text ("world".toList)]],
    [tag "text" [] [.text ("hello".toList), .text ("world".toList)]], rfl, rfl, rfl⟩

/-- **C47 (nesting violates it).** A text with nothing but an empty `tspan` stays; a second run removes it. -/
theorem nested_violated : ∃ doc out : List (Node String),
    removeEmptyText (· == ' ') (· == "xlink:href") true true true doc = .ok out ∧
      removeEmptyText (· == ' ') (· == "xlink:href") true true true out ≠ .ok out :=
  ⟨[tag "text" [] [tag "tspan" [] []]], [tag "text" [] []], rfl, by intro h; cases h⟩

/-- Texts with letters and references stay; a switch that is off leaves its elements alone. -/
example : removeEmptyText (· == ' ') (· == "xlink:href") true true false
    [tag "svg" [] [tag "text" ["x"] [.text ("  ".toList)], tag "text" [] [.text ("a".toList), tag "tspan" [] []], tag "tref" [] [],
      tag "g" [] []]] =
    .ok [tag "svg" [] [tag "text" [] [.text ("a".toList)], tag "tref" [] [], tag "g" [] []]] := rfl

example : removeEmptyText (· == ' ') (· == "xlink:href") false true true
    [tag "svg" [] [tag "text" ["x"] [.text ("  ".toList)], tag "tref" [] [], tag "tref" ["xlink:href"] []]] =
    .ok [tag "svg" [] [tag "text" ["x"] [.text ("  ".toList)], tag "tref" ["xlink:href"] []]] := rfl

end Verif.Empty
