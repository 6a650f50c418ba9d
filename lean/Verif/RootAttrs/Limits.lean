import Verif.RootAttrs.Props

/-! # C74: limits, and examples -/

namespace Verif.RootAttrs

open Verif.Names (Str lit)
open Verif.CleanAttrs (splitWhitespace)

/-- **C74 (prefixes that are not declared)**: a name with such a prefix is taken to be of the namespace of SVG: it is not added if the element has an
attribute of SVG with this local name, and it is added otherwise, even if there is one with exactly this name. The prefixes `xml` and `xmlns` are never
declared. -/
theorem prefix_violated (as : List Attr) (p l v : Str) (hp : 58 ∉ p) (hl : 58 ∉ l) (hd : ∀ a ∈ as, ¬ (a.ns = xmlnsUri ∧ a.loc = p)) :
    addAll [(p ++ 58 :: l, v)] as = some (if ∃ a ∈ as, a.ns = svgUri ∧ a.loc = l then as else as ++ [⟨some p, svgUri, l, v⟩]) := by
  have hf : findXmlns as (some p) = svgUri := by
    unfold findXmlns
    have : (as.find? fun a => a.ns == xmlnsUri && a.loc == p) = none := by
      rw [List.find?_eq_none]
      intro a ha he
      simp only [Bool.and_eq_true, beq_iff_eq] at he
      exact hd a ha he
    simp only [this]
  have hs : as.any (same ⟨some p, svgUri, l, v⟩) = true ↔ ∃ a ∈ as, a.ns = svgUri ∧ a.loc = l := by
    rw [List.any_eq_true]
    constructor
    · rintro ⟨a, ha, he⟩
      simp only [same, Bool.and_eq_true, beq_iff_eq] at he
      exact ⟨a, ha, he.1.symm, he.2.symm⟩
    · rintro ⟨a, ha, he⟩
      exact ⟨a, ha, by simp [same, he.1, he.2]⟩
  simp only [addAll, parse, split_one hp hl, hf]
  rw [show nsOf svgUri (some p) = svgUri by simp [nsOf]]
  by_cases h : ∃ a ∈ as, a.ns = svgUri ∧ a.loc = l
  · rw [if_pos h, if_pos (hs.2 h)]
  · rw [if_neg h, if_neg (fun hc => h (hs.1 hc))]

/-- **C74 (an attribute twice)**: if the root element declares a prefix, and this declaration is to be added, it has two attributes of one name
afterwards: the document is not well formed. -/
theorem twice_violated (as : List Attr) (p u v : Str) (hp : 58 ∉ p) (hm : ⟨some (lit "xmlns"), xmlnsUri, p, u⟩ ∈ as)
    (hd : ∀ a ∈ as, ¬ (a.ns = xmlnsUri ∧ a.loc = lit "xmlns")) (hs : ∀ a ∈ as, ¬ (a.ns = svgUri ∧ a.loc = p)) :
    ∃ bs, addAll [(lit "xmlns" ++ 58 :: p, v)] as = some bs ∧ ¬ (bs.map Attr.written).Nodup := by
  refine ⟨_, prefix_violated as (lit "xmlns") p v (by decide) hp hd, ?_⟩
  rw [if_neg (by rintro ⟨a, ha, he⟩; exact hs a ha he), List.map_append, List.nodup_append]
  rintro ⟨_, _, h⟩
  exact h _ (List.mem_map_of_mem hm) _ (List.mem_map_of_mem List.mem_cons_self) rfl

/-- **C74 (a panic)**: a name with two colons ends the program, though the job is never to fail. -/
theorem panic_violated (as : List Attr) (p q l v : Str) (hp : 58 ∉ p) : addAll [(p ++ 58 :: (q ++ 58 :: l), v)] as = none := by
  have h1 : ∀ s : Str, ∃ w ws, splitColon s = w :: ws := by
    intro s
    cases h : splitColon s with
    | nil => exact absurd h (split_joined s).1
    | cons w ws => exact ⟨w, ws, rfl⟩
  have h2 : ∀ (s t : Str), ∃ w x ws, splitColon (s ++ 58 :: t) = w :: x :: ws := by
    intro s t
    induction s with
    | nil =>
      obtain ⟨w, ws, e⟩ := h1 t
      exact ⟨[], w, ws, by simp [splitColon, e]⟩
    | cons c s ih =>
      obtain ⟨w, x, ws, e⟩ := ih
      by_cases hc : c = 58
      · exact ⟨[], w, x :: ws, by simp [splitColon, hc, e]⟩
      · exact ⟨c :: w, x, ws, by simp [splitColon, hc, e]⟩
  have h3 : splitColon (p ++ 58 :: (q ++ 58 :: l)) = p :: splitColon (q ++ 58 :: l) := by
    induction p with
    | nil => simp [splitColon]
    | cons c p ih =>
      have hc : c ≠ 58 := fun e => hp (e ▸ List.mem_cons_self)
      simp [splitColon, hc, ih fun hm => hp (.tail _ hm)]
  obtain ⟨w, x, ws, e⟩ := h2 q l
  simp [addAll, parse, h3, e]

/-- **C74 (no class attribute)**: nothing is added to an element without classes. -/
theorem missing_violated (o : Options) (c : Option Class) (h : AddClasses o .missing c) : c = some .missing := by
  cases h; rfl

/-- **C74 (classes are lost)**: with `className`, the classes that were there are replaced. -/
theorem replaced_violated (name : Str) (l : List Str) (c : Option Class) (h : AddClasses ⟨none, some name⟩ (.classes l) c) :
    c = some (.classes (splitWhitespace name)) := by
  cases h with
  | names h1 _ => cases h1
  | name _ h1 => cases h1; rfl
  | neither _ h1 => cases h1

/-- **C74 (the order is random)**: two different classes can come in both orders, so that runs differ. -/
theorem order_violated (a b : Str) (h : a ≠ b) : AddClasses ⟨some [b], none⟩ (.classes [a]) (some (.classes [a, b])) ∧
    AddClasses ⟨some [b], none⟩ (.classes [a]) (some (.classes [b, a])) := by
  constructor
  · exact .names rfl ⟨by simp [h], fun c => by simp⟩
  · exact .names rfl ⟨by simp [Ne.symm h], fun c => by simp [or_comm]⟩

/-- **C74 (a panic)**: a class attribute with another prefix for the namespace of SVG ends the program. -/
theorem aliased_violated (o : Options) (l : List Str) (c : Option Class) (h : AddClasses o (.aliased l) c) : c = none := by
  cases h; rfl

/-! ## Examples -/

private def width : Attr := ⟨none, svgUri, lit "width", lit "10"⟩
private def space : Attr := ⟨some (lit "xml"), lit "http://www.w3.org/XML/1998/namespace", lit "space", lit "preserve"⟩

example : run [(lit "focusable", lit "false"), (lit "width", lit "5")] [.elem true 0 [width, space] [.elem true 1 [] []]] =
    some [.elem true 0 [width, space, ⟨none, svgUri, lit "focusable", lit "false"⟩] [.elem true 1 [] []]] := by rfl

example : Usual [width, space] svgUri := ⟨by decide, by decide, by decide⟩

example : addAll [(lit "xml:space", lit "default")] [width, space] = some [width, space, ⟨some (lit "xml"), svgUri, lit "space", lit "default"⟩] := by decide +kernel

end Verif.RootAttrs
