import Verif.StyleAttr.Props

/-! # C68: where values change, and examples -/

namespace Verif.StyleAttr

variable {V : Type}

/-- A declaration whose value is understood. -/
def decl (n : String) (v : V) : Decl V := ⟨n, false, true, v⟩

/-- `style="n:v"`. -/
def plain (n : String) (v : V) : List (Item V) := [.style ⟨[decl n v], []⟩]

/-- No style sheets. -/
def noSheets : Sheets V := ⟨fun _ _ => none, fun _ _ => none⟩

theorem gives_one (part : String → String → V → V) {n p : String} (h : p ∈ sets n) (v : V) : Gives part p [decl n v] (some (part n p v)) :=
  .last [] (decl n v) [] rfl h (by simp)

theorem gives_nil (part : String → String → V → V) (p : String) : Gives part p [] none := .nothing [] (by simp)

theorem styled_plain (n : String) (v : V) : Styled (plain n v) ⟨[decl n v], []⟩ := .inl (by simp [plain])

theorem styled_empty {n : String} {v : V} : Styled [.attr n v] ⟨[], []⟩ := .inr ⟨by simp, rfl⟩

theorem element_plain (k : Bool) {n : String} (h : n ∈ table) (v : V) : element k id (plain n v) = [.attr n v] := by
  have ht : toAttr (decl n v) = some (n, v) := toAttr_some ⟨rfl, rfl, h⟩
  cases k <;> simp [element, plain, findStyle, collect, ht, insert, putStyle, setAttr]

theorem element_important {n : String} (h : n ∈ table) (v : V) : element false id [.style ⟨[], [decl n v]⟩] = [.attr n v] := by
  have ht : toAttr (decl n v) = some (n, v) := toAttr_some ⟨rfl, rfl, h⟩
  simp [element, findStyle, collect, ht, insert, putStyle, setAttr]

/-- **C68 (violated: style sheets)** Every property in the table, of every element, gets another value if a style sheet gives it one: the `style` attribute
beats a rule, the attribute does not. -/
theorem sheet_violated (part : String → String → V → V) (hpart : ∀ p v, part p p v = v) (k svg : Bool) (el : String) {p : String} (hp : p ∈ table)
    (hf : p ≠ "font") (hm : p ≠ "marker") (v w : V) :
    let S : Sheets V := ⟨fun _ q => if q = p then some w else none, fun _ _ => none⟩
    Wins S part svg el (plain p v) p (some v) ∧ Wins S part svg el (element k id (plain p v)) p (some w) := by
  intro S
  rw [element_plain k hp]
  refine ⟨?_, .sheet styled_empty (gives_nil ..) rfl (gives_nil ..) (by simp [S])⟩
  have := gives_one part (n := p) (p := p) (by rw [sets_self hf hm]; simp) v
  rw [hpart] at this
  exact .style (styled_plain p v) (gives_nil ..) rfl this

/-- **C68 (violated: important declarations)** Unless `keepImportant` is set, so do important declarations, which nothing in a style sheet beats. -/
theorem important_violated (part : String → String → V → V) (hpart : ∀ p v, part p p v = v) (svg : Bool) (el : String) {p : String} (hp : p ∈ table)
    (hf : p ≠ "font") (hm : p ≠ "marker") (v w : V) :
    let S : Sheets V := ⟨fun _ _ => none, fun _ q => if q = p then some w else none⟩
    Wins S part svg el [.style ⟨[], [decl p v]⟩] p (some v) ∧ Wins S part svg el (element false id [.style ⟨[], [decl p v]⟩]) p (some w) := by
  intro S
  rw [element_important hp]
  refine ⟨?_, .importantSheet styled_empty (gives_nil ..) (by simp [S])⟩
  have := gives_one part (n := p) (p := p) (by rw [sets_self hf hm]; simp) v
  rw [hpart] at this
  exact .important (.inl List.mem_cons_self) this

/-- **C68 (violated: shorthands)** `font` and `marker` are no presentation attributes: all that they set is lost, in documents without style sheets. -/
theorem shorthand_violated (part : String → String → V → V) (k svg : Bool) (el : String) {n p : String} (hn : n = "font" ∨ n = "marker") (hp : p ∈ sets n)
    (v : V) : Wins noSheets part svg el (plain n v) p (some (part n p v)) ∧ Wins noSheets part svg el (element k id (plain n v)) p none := by
  have ht : n ∈ table := by rcases hn with rfl | rfl <;> decide +kernel
  have hne : p ≠ n := by
    rcases hn with rfl | rfl
    · rintro rfl; exact absurd hp (by decide +kernel)
    · rintro rfl; exact absurd hp (by decide +kernel)
  rw [element_plain k ht]
  refine ⟨.style (styled_plain n v) (gives_nil ..) rfl (gives_one part hp v), .nothing styled_empty (gives_nil ..) rfl (gives_nil ..) rfl ?_⟩
  intro w _ hw
  simp only [HasAttr, List.mem_singleton, Item.attr.injEq] at hw
  exact hne hw.1

/-- **C68 (violated: other elements)** Elements that are not of SVG, as in `foreignObject`, lose every property. -/
theorem html_violated (part : String → String → V → V) (hpart : ∀ p v, part p p v = v) (k : Bool) (el : String) {p : String} (hp : p ∈ table)
    (hf : p ≠ "font") (hm : p ≠ "marker") (v : V) :
    Wins noSheets part false el (plain p v) p (some v) ∧ Wins noSheets part false el (element k id (plain p v)) p none := by
  rw [element_plain k hp]
  refine ⟨?_, .nothing styled_empty (gives_nil ..) rfl (gives_nil ..) rfl fun w h => absurd h.1 (by simp)⟩
  have := gives_one part (n := p) (p := p) (by rw [sets_self hf hm]; simp) v
  rw [hpart] at this
  exact .style (styled_plain p v) (gives_nil ..) rfl this

/-- **C68 (violated: gradients)** A gradient or pattern loses its transform: the attribute has another name there. -/
theorem gradient_violated (part : String → String → V → V) (hpart : ∀ p v, part p p v = v) (k : Bool) {el : String} (hel : el ∈ otherTransform) (v : V) :
    Wins noSheets part true el (plain "transform" v) "transform" (some v) ∧
      Wins noSheets part true el (element k id (plain "transform" v)) "transform" none := by
  rw [element_plain k (by decide +kernel)]
  refine ⟨?_, .nothing styled_empty (gives_nil ..) rfl (gives_nil ..) rfl fun w h => absurd hel (h.2.2 rfl)⟩
  have := gives_one part (n := "transform") (p := "transform") (by decide +kernel) v
  rw [hpart] at this
  exact .style (styled_plain _ v) (gives_nil ..) rfl this

/-- **C68 (violated: declarations that stay)** `font:var(--f);font-size:v`: the first declaration stays, and beats the attribute of the second. -/
theorem retained_violated (part : String → String → V → V) (hpart : ∀ p v, part p p v = v) (k svg : Bool) (el : String) (u v : V) :
    let as : List (Item V) := [.style ⟨[⟨"font", false, false, u⟩, decl "font-size" v], []⟩]
    Wins noSheets part svg el as "font-size" (some v) ∧ Wins noSheets part svg el (element k id as) "font-size" (some (part "font" "font-size" u)) := by
  intro as
  have he : element k id as = [.style ⟨[⟨"font", false, false, u⟩], []⟩, .attr "font-size" v] := by
    have h1 : toAttr (⟨"font", false, false, u⟩ : Decl V) = none := toAttr_none (by simp [Taken])
    have h2 : toAttr (decl "font-size" v) = some ("font-size", v) := toAttr_some ⟨rfl, rfl, by show "font-size" ∈ table; decide +kernel⟩
    cases k <;> simp [as, element, findStyle, collect, h1, h2, insert, putStyle, setAttr]
  rw [he]
  constructor
  · have := Gives.last (part := part) (p := "font-size") [⟨"font", false, false, u⟩] (decl "font-size" v) [] rfl
      (by show "font-size" ∈ sets "font-size"; decide +kernel) (by simp)
    rw [show (decl "font-size" v).prop = "font-size" from rfl, hpart] at this
    exact .style (.inl List.mem_cons_self) (gives_nil ..) rfl this
  · exact .style (.inl List.mem_cons_self) (gives_nil ..) rfl (.last [] ⟨"font", false, false, u⟩ [] rfl (by show "font-size" ∈ sets "font"; decide +kernel) (by simp))

open Classical in
/-- **C68 (violated: selectors)** A rule for `[style]` no longer applies, also to properties that the attribute does not set. -/
theorem selector_violated (part : String → String → V → V) (k svg : Bool) (el : String) {n p : String} (hn : n ∈ table) (hp : p ∉ sets n) (hne : p ≠ n) (v w : V) :
    let S : Sheets V := ⟨fun as _ => if ∃ b, .style b ∈ as then some w else none, fun _ _ => none⟩
    Wins S part svg el (plain n v) p (some w) ∧ Wins S part svg el (element k id (plain n v)) p none := by
  intro S
  rw [element_plain k hn]
  refine ⟨.sheet (styled_plain n v) (gives_nil ..) rfl (.nothing _ ?_) ?_, .nothing styled_empty (gives_nil ..) rfl (gives_nil ..) ?_ ?_⟩
  · intro d hd _
    rw [List.mem_singleton.1 hd]
    exact hp
  · show (if _ then _ else _) = _
    rw [if_pos ⟨_, by simp [plain]; rfl⟩]
  · show (if _ then _ else _) = _
    rw [if_neg (by simp)]
  · intro u _ hu
    simp only [HasAttr, List.mem_singleton, Item.attr.injEq] at hu
    exact hne hu.1

/-! ## Examples -/

/-- `style="fill:red;-webkit-x:1;fill:blue;stroke:a!important" fill="green"`. -/
def sample : List (Item String) :=
  [.style ⟨[decl "fill" "red", ⟨"x", true, true, "1"⟩, decl "fill" "blue"], [decl "stroke" "a"]⟩, .attr "fill" "green", .attr "id" "i"]

example : element false id sample = [.style ⟨[⟨"x", true, true, "1"⟩], []⟩, .attr "fill" "blue", .attr "id" "i", .attr "stroke" "a"] := rfl

example : element true id sample = [.style ⟨[⟨"x", true, true, "1"⟩], [decl "stroke" "a"]⟩, .attr "fill" "blue", .attr "id" "i"] := rfl

/-- The values of the sample are kept. -/
example (o : Option String) : Wins noSheets (fun _ _ v => v) true "path" (element false id sample) "fill" o ↔
    Wins noSheets (fun _ _ v => v) true "path" sample "fill" o := by
  refine values_kept_partial (fun _ _ => rfl) (fun b o => ⟨Iff.rfl, Iff.rfl⟩) ?_ ⟨rfl, rfl⟩ ⟨rfl, rfl⟩ ⟨rfl, by decide +kernel, by decide +kernel⟩ ?_ ?_ o
  · simp [sample, Distinct]
  · intro b hb d hd hv hs
    simp only [sample, List.mem_cons, Item.style.injEq, reduceCtorEq, List.not_mem_nil, or_false] at hb
    subst hb
    simp only [id, List.cons_append, List.nil_append, List.mem_cons, List.not_mem_nil, or_false] at hd
    rcases hd with rfl | rfl | rfl | rfl
    · exact ⟨rfl, rfl, rfl, by show "fill" ∈ table; decide +kernel⟩
    · cases hv
    · exact ⟨rfl, rfl, rfl, by show "fill" ∈ table; decide +kernel⟩
    · exact absurd hs (by show "fill" ∉ sets "stroke"; decide +kernel)
  · intro h; cases h

/-- A property that is not touched keeps its value, also with style sheets. -/
example (S : Sheets String) (h : ∀ as as' p, S.normal as p = S.normal as' p ∧ S.important as p = S.important as' p) (o : Option String) :
    Wins S (fun _ _ v => v) true "path" (element false id sample) "opacity" o ↔ Wins S (fun _ _ v => v) true "path" sample "opacity" o := by
  refine untouched_kept (fun b o => ⟨Iff.rfl, Iff.rfl⟩) (by simp [sample, Distinct]) (h _ _ _).1 (h _ _ _).2 ?_ o
  intro b hb d hd ht
  simp only [sample, List.mem_cons, Item.style.injEq, reduceCtorEq, List.not_mem_nil, or_false] at hb
  subst hb
  simp only [candidates, id, Bool.false_eq_true, if_false, List.cons_append, List.nil_append, List.mem_cons, List.not_mem_nil, or_false] at hd
  rcases hd with rfl | rfl | rfl | rfl
  · show "opacity" ∉ sets "fill" ∧ "fill" ≠ "opacity"; decide +kernel
  · cases ht.2.1
  · show "opacity" ∉ sets "fill" ∧ "fill" ≠ "opacity"; decide +kernel
  · show "opacity" ∉ sets "stroke" ∧ "stroke" ≠ "opacity"; decide +kernel

end Verif.StyleAttr
