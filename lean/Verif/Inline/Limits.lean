import Verif.Inline.Result

/-!
# C58: what inlining breaks

All documents have an `svg` element with the key 0, whose children are the other elements.
-/

namespace Verif.Inline

open Verif.Names

/-- Selectors with one combinator, for a document of which all elements are children of the one with the key 0. A nested rule
declares `stroke: 9` for what its selectors match. -/
def sem : Sem Nat Unit where
  test t v := match v with
    | .classes cs => cs.any fun c => c = [t]
    | .val v => v == t
    | _ => false
  structural _ _ := true
  complex f s k := !s.pseudo && k != 0 && s.tail.all (f k) && s.heads.all fun h => h.all (f 0)
  nested f sels _ k := if sels.any fun s => s.tail.all (f k) then [(1000, ⟨[(lit "stroke", 9)], []⟩)] else []
  recover n := ⟨[(lit "fill", n)], []⟩
  complex_local f g s h := by
    funext k
    have h1 : ∀ l : List Token, (∀ t ∈ l, t ∈ s.tokens) → ∀ k, l.all (f k) = l.all (g k) := by
      intro l hl k
      rw [Bool.eq_iff_iff, List.all_eq_true, List.all_eq_true]
      constructor <;> intro hx t ht <;> have := h t (hl t ht) k <;> have := hx t ht <;> simp_all
    have h2 : (s.heads.all fun h => h.all (f 0)) = s.heads.all fun h => h.all (g 0) := by
      rw [Bool.eq_iff_iff, List.all_eq_true, List.all_eq_true]
      have : ∀ l ∈ s.heads, l.all (f 0) = l.all (g 0) := fun l hl => h1 l (fun t ht => by
        simp only [Sel.tokens, List.mem_append, List.mem_flatten]
        exact .inr ⟨l, hl, ht⟩) 0
      constructor <;> intro hx l hl <;> have := this l hl <;> have := hx l hl <;> simp_all
    rw [h1 s.tail (fun t ht => by simp [Sel.tokens, ht]) k, h2]
  nested_local f g sels r h := by
    funext k
    have : (sels.any fun s => s.tail.all (f k)) = sels.any fun s => s.tail.all (g k) := by
      rw [Bool.eq_iff_iff, List.any_eq_true, List.any_eq_true]
      have : ∀ s ∈ sels, s.tail.all (f k) = s.tail.all (g k) := by
        intro s hs
        rw [Bool.eq_iff_iff, List.all_eq_true, List.all_eq_true]
        constructor <;> intro hx t ht <;> have := h s hs t (by simp [Sel.tokens, ht]) k <;> have := hx t ht <;> simp_all
      constructor
      · rintro ⟨s, hs, h⟩
        exact ⟨s, hs, by rw [← this s hs]; exact h⟩
      · rintro ⟨s, hs, h⟩
        exact ⟨s, hs, by rw [this s hs]; exact h⟩
    rw [this]

abbrev El := Elem Nat Nat Unit
abbrev Ru := Rule Nat Nat Unit

/-- A selector engine that is right. -/
def engine (doc : List El) : Engine := fun s => some ((doc.filter fun e => matchesSel sem (holds sem doc) s e.key).map (·.key))

theorem nodup_filter {p : El → Bool} : ∀ {l : List El}, (l.map (·.key)).Nodup → ((l.filter p).map (·.key)).Nodup
  | [], _ => by simp
  | e :: l, h => by
    simp only [List.map_cons, List.nodup_cons] at h
    rw [List.filter_cons]
    split
    · simp only [List.map_cons, List.nodup_cons]
      refine ⟨fun hm => h.1 ?_, nodup_filter h.2⟩
      obtain ⟨x, hx, hk⟩ := List.mem_map.mp hm
      exact List.mem_map.mpr ⟨x, (List.mem_filter.mp hx).1, hk⟩
    · exact nodup_filter h.2

/-- The engine meets what the theorems ask for. -/
theorem engine_right (doc : List El) (hk : (doc.map (·.key)).Nodup) (s : Sel) (ks : List Nat) (h : engine doc s = some ks) :
    ks.Nodup ∧ ∀ e ∈ doc, (e.key ∈ ks ↔ matchesSel sem (holds sem doc) s e.key = true) := by
  simp only [engine, Option.some.injEq] at h
  subst h
  refine ⟨nodup_filter hk, fun e he => ?_⟩
  simp only [List.mem_map, List.mem_filter]
  constructor
  · rintro ⟨x, ⟨_, hm⟩, hxk⟩
    rw [← hxk]
    exact hm
  · intro h
    exact ⟨e, ⟨he, h⟩, rfl⟩

def svg : El := ⟨0, lit "svg", false, none, [], .absent, [], [], none, none, none, false⟩
def shape (k : Nat) (name : String) (classes : List String) (attrs : List (Str × Nat)) : El :=
  ⟨k, lit name, false, none, classes.map lit, .absent, attrs, [], none, none, none, false⟩
def sheet (k : Nat) (rs : List Ru) : El := ⟨k, lit "style", false, none, [], .absent, [], [], none, none, some rs, false⟩
/-- A type selector. -/
def ty (name : String) : Sel := ⟨[.name (lit name)], [], false, 1⟩
/-- A class selector. -/
def cl (name : String) : Sel := ⟨[.cls (lit name)], [], false, 1000⟩
/-- `fill` or `stroke`. -/
def fill (n : Nat) : Block Nat := ⟨[(lit "fill", n)], []⟩
def stroke (n : Nat) : Block Nat := ⟨[(lit "stroke", n)], []⟩

def run (doc : List El) : List El := job sem.test (engine doc) Opts.usual doc

/-- The value of a property on the element with a key. -/
def valueIn (env : Nat → Bool) (doc : List El) (k : Nat) (p : String) : Option Nat :=
  (doc.find? fun e => e.key = k).bind fun e => value sem env doc e (lit p)
/-- The same where all conditions hold. -/
def valueAt (doc : List El) (k : Nat) (p : String) : Option Nat := valueIn (fun _ => true) doc k p

/-! ## Examples -/

/-- `.a{fill:1} rect{fill:2;stroke:3}` with one rectangle `fill="8"` of class `a`, and a circle. -/
def plain : List El := [sheet 1 [.style [cl "a"] (fill 1), .style [ty "rect"] ⟨[(lit "fill", 2), (lit "stroke", 3)], []⟩],
  shape 2 "rect" ["a", "b"] [(lit "fill", 8), (lit "x", 4)], shape 3 "circle" [] [(lit "fill", 8)], svg]

/-- `values_kept_partial`, `all_inlined_partial`, `attrs_kept`, `selectors_kept`: the style sheet goes, and the class and the attribute
with it; the greater specificity wins. -/
example : ((run plain).map fun e => (e.key, e.gone, e.classes, e.attrs)) =
    [(1, true, [], []), (2, false, [lit "b"], [(lit "x", 4)]), (3, false, [], [(lit "fill", 8)]), (0, false, [], [])] := by
  decide +kernel

example : ((run plain).map (·.style)) = [.absent, .block ⟨[(lit "fill", 2), (lit "stroke", 3), (lit "fill", 1)], []⟩, .absent, .absent] ∧
    valueAt plain 2 "fill" = some 1 ∧ valueAt (run plain) 2 "fill" = some 1 ∧ valueAt plain 2 "stroke" = some 3 ∧
    valueAt (run plain) 2 "stroke" = some 3 ∧ valueAt (run plain) 3 "fill" = some 8 := by
  decide +kernel

example (e e' : El) (he : e ∈ plain) (he' : e' ∈ run plain) (hk : e'.key = e.key) (env : Nat → Bool) (p : Str) :
    value sem env (run plain) e' p = value sem env plain e p := by
  have hr : ((run plain).map fun e => (e.name, (e.sheet.getD []).length)) =
      [(lit "style", 0), (lit "rect", 0), (lit "circle", 0), (lit "svg", 0)] := by decide +kernel
  have hkeys : (plain.map (·.key)).Nodup := by decide +kernel
  refine all_inlined_partial sem (engine plain) Opts.usual plain hkeys (by decide +kernel) (engine_right plain hkeys) ?_ ?_ ?_ ?_ env e e' he he' hk p
  · intro e he hn _
    simp only [plain, List.mem_cons, List.not_mem_nil, or_false] at he
    rcases he with rfl | rfl | rfl | rfl <;> simp [sheet, shape, svg] at hn ⊢
  · intro e he l hl text c rs hm
    simp only [plain, List.mem_cons, List.not_mem_nil, or_false] at he
    rcases he with rfl | rfl | rfl | rfl <;> simp [sheet, shape, svg] at hl
    subst hl
    simp at hm
  · intro e he n
    simp only [plain, List.mem_cons, List.not_mem_nil, or_false] at he
    rcases he with rfl | rfl | rfl | rfl <;> simp [sheet, shape, svg]
  · intro e he _ _
    have : (e.name, (e.sheet.getD []).length) ∈ (run plain).map fun e => (e.name, (e.sheet.getD []).length) := List.mem_map.mpr ⟨e, he, rfl⟩
    rw [hr] at this
    have h0 : (e.sheet.getD []).length = 0 := by
      simp only [List.mem_cons, Prod.mk.injEq, List.not_mem_nil, or_false] at this
      rcases this with h | h | h | h <;> exact h.2
    exact List.length_eq_zero_iff.mp h0

/-- `.a{fill:1} svg>rect{stroke:2} @media print{circle{fill:3}}`. -/
def mixed : List El := [sheet 1 [.style [cl "a"] (fill 1), .style [⟨[.name (lit "rect")], [[.name (lit "svg")]], false, 2⟩] (stroke 2),
  .group (lit "media print") 0 [.style [ty "circle"] (fill 3)]], shape 2 "rect" ["a"] [(lit "stroke", 8)], shape 3 "circle" [] [], svg]

/-- `values_kept_partial`: the first rule is inlined, the others stay, and no value changes. -/
example (e e' : El) (he : e ∈ mixed) (he' : e' ∈ run mixed) (hk : e'.key = e.key) (env : Nat → Bool) (p : Str) :
    value sem env (run mixed) e' p = value sem env mixed e p := by
  have hkeys : (mixed.map (·.key)).Nodup := by decide +kernel
  have ht : ((taken sem.test (engine mixed) Opts.usual mixed).map fun x => (x.key, x.tokens)) = [(2, [.cls (lit "a")])] := by decide +kernel
  have hb : ((taken sem.test (engine mixed) Opts.usual mixed).map fun x => x.block) = [fill 1] := by decide +kernel
  have hx : ∀ x ∈ taken sem.test (engine mixed) Opts.usual mixed, x.key = 2 ∧ x.tokens = [.cls (lit "a")] ∧ x.block = fill 1 := by
    intro x hx
    have h1 : (x.key, x.tokens) ∈ (taken sem.test (engine mixed) Opts.usual mixed).map fun x => (x.key, x.tokens) := List.mem_map.mpr ⟨x, hx, rfl⟩
    have h2 : x.block ∈ (taken sem.test (engine mixed) Opts.usual mixed).map fun x => x.block := List.mem_map.mpr ⟨x, hx, rfl⟩
    rw [ht] at h1
    rw [hb] at h2
    simpa [and_assoc] using And.intro h1 h2
  have hr : (run mixed) = [sheet 1 [.style [⟨[.name (lit "rect")], [[.name (lit "svg")]], false, 2⟩] (stroke 2),
      .group (lit "media print") 0 [.style [ty "circle"] (fill 3)]],
      { shape 2 "rect" [] [(lit "stroke", 8)] with style := .block (fill 1) }, shape 3 "circle" [] [], svg] := by rfl
  have hd : ∀ env, declared sem env (holds sem mixed) (run mixed) 2 = [(2, stroke 2)] := by
    intro env
    rw [hr]
    have h1 : declared sem (fun _ => false) (holds sem mixed) [sheet 1 [.style [⟨[.name (lit "rect")], [[.name (lit "svg")]], false, 2⟩] (stroke 2)]] 2 =
        [(2, stroke 2)] := by decide +kernel
    have h2 : matchesSel sem (holds sem mixed) (ty "circle") 2 = false := by decide +kernel
    simp only [declared, entriesAll, entries, sheet, shape, svg, List.flatMap_cons, List.flatMap_nil, Option.getD_some, Option.getD_none] at h1 ⊢
    simp_all
  have hno : ∀ z ∈ run mixed, ∀ r ∈ z.sheet.getD [], topTails r ⊆ [.name (lit "rect")] := by
    rw [hr]
    intro z hz r hrz
    simp only [List.mem_cons, List.not_mem_nil, or_false] at hz
    rcases hz with rfl | rfl | rfl | rfl <;> simp [sheet, shape, svg] at hrz
    rcases hrz with rfl | rfl <;> simp [topTails]
  refine values_kept_partial sem (engine mixed) Opts.usual mixed hkeys (by decide +kernel) (engine_right mixed hkeys) ?_ ?_ ?_ ?_ ?_ ?_ ?_ env e e' he he' hk p
  · intro e he hn _
    simp only [mixed, List.mem_cons, List.not_mem_nil, or_false] at he
    rcases he with rfl | rfl | rfl | rfl <;> simp [sheet, shape, svg] at hn ⊢
  · intro e he l hl text c rs hm
    simp only [mixed, List.mem_cons, List.not_mem_nil, or_false] at he
    rcases he with rfl | rfl | rfl | rfl <;> simp [sheet, shape, svg] at hl
    subst hl
    simp at hm
    obtain ⟨rfl, rfl, rfl⟩ := hm
    decide +kernel
  · intro x _ e he _ n
    simp only [mixed, List.mem_cons, List.not_mem_nil, or_false] at he
    rcases he with rfl | rfl | rfl | rfl <;> simp [sheet, shape, svg]
  · intro x h env y hy p hp hq
    obtain ⟨h1, _, h3⟩ := hx x h
    rw [h1] at hy
    have hy' : y ∈ declared sem env (holds sem mixed) (run mixed) 2 := hy
    rw [hd] at hy'
    simp only [List.mem_cons, List.not_mem_nil, or_false] at hy'
    rw [h3] at hp
    rw [hy'] at hq
    simp only [Block.Declares, fill, stroke, List.mem_cons, List.not_mem_nil, or_false, Prod.mk.injEq] at hp hq
    obtain ⟨_, h1, _⟩ := hp
    obtain ⟨_, h2, _⟩ := hq
    rw [h1] at h2
    exact absurd h2 (by decide +kernel)
  · intro z hz _ _ r hrz t ht
    have := hno z hz r hrz ht
    simp only [List.mem_cons, List.not_mem_nil, or_false] at this
    subst this
    simp
  · intro z hz _ _ r hrz n v ht
    have := hno z hz r hrz ht
    simp at this
  · intro z hz _ _ s hs n v ht
    have hz' : z ∈ run mixed := hz
    rw [hr] at hz'
    simp only [List.mem_cons, List.not_mem_nil, or_false] at hz'
    rcases hz' with rfl | rfl | rfl | rfl <;> simp [sheet, shape, svg, selsOfAll, selsOf] at hs
    rcases hs with rfl | rfl <;> simp [Sel.tokens, ty] at ht

/-- `selectors_kept`, `elements_kept`: a selector that matches twice, one with a combinator and a media rule stay. -/
example : ((run [sheet 1 [.style [cl "a"] (fill 1), .style [⟨[.name (lit "rect")], [[.name (lit "svg")]], false, 2⟩] (fill 2),
      .group (lit "media print") 0 [.style [ty "circle"] (fill 3)]],
      shape 2 "rect" ["a"] [], shape 3 "circle" ["a"] [], svg]).map fun e => (e.key, e.gone, e.classes, (selsOfAll (e.sheet.getD [])).length)) =
    [(1, false, [], 3), (2, false, [lit "a"], 0), (3, false, [lit "a"], 0), (0, false, [], 0)] := by
  decide +kernel

/-- `referenced_kept`: an id goes with its rule, unless something refers to it. -/
example : ((run [sheet 1 [.style [⟨[.id (lit "x")], [], false, 1000000⟩] (fill 1)], { shape 2 "rect" [] [] with id := some (lit "x") }, svg]).map
      (·.id)) = [none, none, none] ∧
    ((run [sheet 1 [.style [⟨[.id (lit "x")], [], false, 1000000⟩] (fill 1)], { shape 2 "rect" [] [] with id := some (lit "x") },
      { shape 3 "use" [] [] with refs := [lit "x"] }, svg]).map (·.id)) = [none, some (lit "x"), none, none] := by
  decide +kernel

/-- `off`. -/
example : run [shape 2 "rect" ["a"] [(lit "fill", 1)], svg] = [shape 2 "rect" ["a"] [(lit "fill", 1)], svg] :=
  off _ _ _ _ (by intro e he; simp only [List.mem_cons, List.not_mem_nil, or_false] at he; rcases he with rfl | rfl <;> decide +kernel)

/-! ## What goes wrong -/

/-- **C58 (violated)**: a rule that is inlined wins over one of greater specificity that stays: `rect{fill:1} .a{fill:2}` with a rectangle
and a circle of class `a`. -/
theorem specificity_violated : ∃ doc : List El, valueAt doc 2 "fill" = some 2 ∧ valueAt (run doc) 2 "fill" = some 1 :=
  ⟨[sheet 1 [.style [ty "rect"] (fill 1), .style [cl "a"] (fill 2)], shape 2 "rect" ["a"] [], shape 3 "circle" ["a"] [], svg],
    by decide +kernel⟩

/-- **C58 (violated)**: a class is removed though a rule that stays asks for it: `rect.a{fill:1} .a{stroke:2}` with a rectangle and a
circle of class `a`. -/
theorem class_violated : ∃ doc : List El, valueAt doc 2 "stroke" = some 2 ∧ valueAt (run doc) 2 "stroke" = none :=
  ⟨[sheet 1 [.style [⟨[.name (lit "rect"), .cls (lit "a")], [], false, 1001⟩] (fill 1), .style [cl "a"] (stroke 2)],
    shape 2 "rect" ["a"] [], shape 3 "circle" ["a"] [], svg], by decide +kernel⟩

/-- **C58 (violated)**: the same for a selector that asks for the attribute: `rect.a{fill:1} [class~=a]{stroke:2}`. -/
theorem class_attr_violated : ∃ doc : List El, valueAt doc 2 "stroke" = some 2 ∧ valueAt (run doc) 2 "stroke" = none :=
  ⟨[sheet 1 [.style [⟨[.name (lit "rect"), .cls (lit "a")], [], false, 1001⟩] (fill 1),
      .style [⟨[.attr (lit "class") (some 97)], [], false, 1000⟩] (stroke 2)],
    shape 2 "rect" ["a"] [], shape 3 "circle" ["a"] [], svg], by decide +kernel⟩

/-- **C58 (violated)**: an attribute is removed though a rule that stays asks for it: `rect{fill:1} [fill]{stroke:2}` with a rectangle and
a circle with `fill`. -/
theorem attr_violated : ∃ doc : List El, valueAt doc 2 "stroke" = some 2 ∧ valueAt (run doc) 2 "stroke" = none :=
  ⟨[sheet 1 [.style [ty "rect"] (fill 1), .style [⟨[.attr (lit "fill") none], [], false, 1000⟩] (stroke 2)],
    shape 2 "rect" [] [(lit "fill", 8)], shape 3 "circle" [] [(lit "fill", 8)], svg], by decide +kernel⟩

/-- **C58 (violated)**: the `media` attribute of a style element is ignored: its rules apply afterwards where it did not. -/
theorem media_attr_violated : ∃ doc : List El, valueIn (fun _ => false) doc 2 "fill" = none ∧ valueIn (fun _ => false) (run doc) 2 "fill" = some 1 :=
  ⟨[{ sheet 1 [.style [ty "rect"] (fill 1)] with media := some 7 }, shape 2 "rect" [] [], svg], by decide +kernel⟩

/-- **C58 (violated)**: a rule that is inlined wins over one in a media rule: `rect{fill:1} @media print{.a{fill:2}}`. -/
theorem media_rule_violated : ∃ doc : List El, valueAt doc 2 "fill" = some 2 ∧ valueAt (run doc) 2 "fill" = some 1 :=
  ⟨[sheet 1 [.style [ty "rect"] (fill 1), .group (lit "media print") 0 [.style [cl "a"] (fill 2)]], shape 2 "rect" ["a"] [], svg],
    by decide +kernel⟩

/-- **C58 (violated)**: within one style sheet a class that a media rule asks for keeps others from being inlined, but not a media rule
in the next: `.a{fill:1}` and `@media print{.a{fill:2}}`. -/
theorem two_sheets_violated : ∃ r s : Ru, valueAt (run [sheet 1 [r, s], shape 2 "rect" ["a"] [], svg]) 2 "fill" = some 2 ∧
    valueAt [sheet 1 [r], sheet 3 [s], shape 2 "rect" ["a"] [], svg] 2 "fill" = some 2 ∧
    valueAt (run [sheet 1 [r], sheet 3 [s], shape 2 "rect" ["a"] [], svg]) 2 "fill" = some 1 :=
  ⟨.style [cl "a"] (fill 1), .group (lit "media print") 0 [.style [cl "a"] (fill 2)], by decide +kernel⟩

/-- **C58 (violated)**: the classes that rules with nested rules ask for are not protected. -/
theorem nested_violated : ∃ doc : List El, valueAt doc 2 "stroke" = some 9 ∧ valueAt (run doc) 2 "stroke" = none :=
  ⟨[sheet 1 [.style [cl "a"] (fill 1), .nest [cl "a"] ()], shape 2 "rect" ["a"] [], svg], by decide +kernel⟩

/-- **C58 (violated)**: a `style` attribute that the parser does not read is replaced. -/
theorem style_attr_violated : ∃ doc : List El, valueAt doc 2 "fill" = some 5 ∧ valueAt (run doc) 2 "fill" = none :=
  ⟨[sheet 1 [.style [ty "rect"] (stroke 1)], { shape 2 "rect" [] [] with style := .raw 5 }, svg], by decide +kernel⟩

/-- **C58 (violated)**: a media query that the options name is dropped: its rules apply everywhere afterwards. -/
theorem named_media_violated : ∃ doc : List El, valueIn (fun _ => false) doc 2 "fill" = none ∧
    valueIn (fun _ => false) (job sem.test (engine doc) ⟨true, [lit "media screen"], [[]]⟩ doc) 2 "fill" = some 1 :=
  ⟨[sheet 1 [.group (lit "media screen") 0 [.style [ty "rect"] (fill 1)]], shape 2 "rect" [] [], svg], by decide +kernel⟩

/-- **C58 (violated)**: an attribute is removed by its name alone, also where it is not a presentation attribute: `pattern{width:1}` takes
the `width` of a pattern, which CSS does not set. -/
theorem width_violated : ∃ doc : List El, (doc.map (·.attrs)) = [[], [(lit "width", 8)], []] ∧ ((run doc).map (·.attrs)) = [[], [], []] :=
  ⟨[sheet 1 [.style [ty "pattern"] ⟨[(lit "width", 1)], []⟩], shape 2 "pattern" [] [(lit "width", 8)], svg], by decide +kernel⟩

end Verif.Inline
