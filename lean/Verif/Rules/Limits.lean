import Verif.Rules.Props

/-! # C92: what the lint rules miss, and examples -/

namespace Verif.Rules

open Verif.Names

variable {E K V : Type} [DecidableEq K]

/-- **C92 (place of the rest of a path)** If the value stands in the source as it is read, without references, and the rest is the
end of the value, then the range that is reported is the one of the rest. -/
theorem rest_place {src value rest : Str} {s e : Nat} (hs : (src.drop s).take (e - s) = value) (hse : s ≤ e) (he : e ≤ src.length)
    (hr : rest <:+ value) : rest.length ≤ e ∧ (src.drop (e - rest.length)).take (e - (e - rest.length)) = rest := by
  obtain ⟨good, hg⟩ := hr
  have hl : value.length = e - s := by rw [← hs]; simp; omega
  have hl2 : good.length + rest.length = e - s := by rw [← hl, ← hg, List.length_append]
  refine ⟨by omega, ?_⟩
  have h1 : e - rest.length = s + good.length := by omega
  have h2 : e - (e - rest.length) = (e - s) - good.length := by omega
  rw [h2, h1, ← List.drop_drop, ← List.drop_take, hs, ← hg, List.drop_left]

/-- **C92 (violated: prefixed elements)** A deprecated element is not reported if it is written with a prefix. -/
theorem prefixed_legacy_violated (W : Vocab E K V) {pre : Option Str → Prefix} (hp : ∀ ns, (pre ns).WF)
    (parent : Option (ElemId E)) {p : Prefix} (hpe : p.WF) (loc : Str) (start : Nat) (decls : List (Option Str × Str)) (as : List Src)
    {e : E} (he : Named W p loc e) (hl : W.legacy e = true) (ha : p.isAliased = true) :
    ∀ r ∈ noDeprecated W (readElem W pre parent p loc start decls as), ∀ i, r.problem ≠ .oldElem i := by
  have hnl : (ElemId.new W p loc).legacy W = false := by
    rcases elem_cases W hpe loc with ⟨h, _⟩ | ⟨e', _, ⟨_, h⟩ | ⟨h, _⟩⟩
    · rw [h]; rfl
    · rw [ha] at h; cases h
    · rw [h]; rfl
  intro r hr i h
  unfold noDeprecated at hr
  simp only [readElem, hnl, Bool.false_eq_true, if_false, List.nil_append, List.mem_filterMap] at hr
  obtain ⟨a, _, hr⟩ := hr
  split at hr
  · cases hr
  · injection hr with hr
    subst hr
    cases h

/-- **C92 (violated: prefixed attributes)** An invalid value of a known attribute is not reported if the prefix is not the usual
one of its namespace. -/
theorem aliased_invalid_violated (W : Vocab E K V) {pre : Option Str → Prefix} (hp : ∀ ns, (pre ns).WF)
    (parent : Option (ElemId E)) (p : Prefix) (loc : Str) (start : Nat) (a : Src) {k : K}
    (hr : row W (ElemId.new W p loc) (pre a.ns).uri a.loc = some k) (hv : W.parse k a.value = none)
    (ha : (pre a.ns).isAliased = true) : noInvalid W (readElem W pre parent p loc start [] [a]) = some [] := by
  have he := read_eq W hp (ElemId.new W p loc) a
  rw [hr] at he
  simp only [ha, if_true] at he
  simp only [noInvalid, readElem, List.map_nil, List.nil_append, List.map_cons, he, mapM_cons', invalidReport, List.mapM_nil]
  rfl

/-- **C92 (violated: ranges of attributes of the same name)** If two attributes have the same namespace and the same local name, which
a document with `xmlns` and a prefix for SVG may have, the range of the last one is reported for both. -/
theorem shared_range_violated (W : Vocab E K V) {pre : Option Str → Prefix} (hp : ∀ ns, (pre ns).WF) (e : ElemId E) (as : List Src) (b : Src)
    {a : Src} (ha : ((pre a.ns).uri, a.loc) = ((pre b.ns).uri, b.loc)) :
    getRanges ((as ++ [b]).foldl (fun m a => ((readAttr W pre e a).name, a.ranges) :: m) []) (readAttr W pre e a).name =
      some b.ranges := by
  rw [ranges_eq (fun a => (readAttr W pre e a).name), List.append_nil]
  have hid : idOf W pre e b = idOf W pre e a ∨ (idOf W pre e b).eq (idOf W pre e a) = true := by
    unfold idOf
    simp only [Prod.mk.injEq] at ha
    rw [ha.1, ha.2]
    cases row W e (pre b.ns).uri b.loc with
    | none =>
      refine .inr ?_
      have := (prefix_eq_iff (hp b.ns) (hp a.ns)).2 ha.1.symm
      simp [AttrId.eq, AttrId.unaliased, this]
    | some k => exact .inl rfl
  have heq : (idOf W pre e b).eq (idOf W pre e a) = true := by
    rcases hid with h | h
    · rw [h]; exact id_eq_refl W.names (id_wf W hp e a)
    · exact h
  unfold getRanges
  simp only [List.map_append, List.map_cons, List.map_nil, List.reverse_append, List.reverse_cons, List.reverse_nil, List.nil_append,
    List.cons_append, List.find?_cons, read_name W hp, heq]
  rfl

/-! ## Examples -/

/-- Elements for the examples: `svg`, `rect`, `tref` (deprecated). -/
inductive El | svg | rect | tref deriving DecidableEq

/-- Attributes for the examples. -/
inductive At | width | d | version | xmlns | show' | title | href deriving DecidableEq

/-- Tables for the examples; a path is read up to `!`. -/
def exW : Vocab El At (Str × Option Str) where
  names := { pre := fun k => match k with | .xmlns => .xmlns | .show' => .xlink | .title => .xlink | .href => .xlink | _ => .svg
             loc := fun k => match k with
              | .width => lit "width" | .d => lit "d" | .version => lit "version" | .xmlns => lit "xmlns"
              | .show' => lit "show" | .title => lit "title" | .href => lit "href" }
  all := [.width, .d, .version, .xmlns, .show', .title, .href]
  elems := [(lit "svg", .svg), (lit "rect", .rect), (lit "tref", .tref)]
  legacy e := e = .tref
  safe k := k = .version
  notSafe _ := false
  expected _ := [.width, .d, .version]
  grouped e k := e = .rect ∧ (k = .show' ∨ k = .title ∨ k = .href)
  groupedUnknown _ := true
  permitsAll _ := false
  permits p c := p = .svg ∧ c = .rect
  parse k s := if k = .width ∧ s = lit "x" then none else some (s, if s.contains 33 then some (s.dropWhile (· ≠ 33)) else none)
  isPath k := k = .d
  rest v := v.2
  xmlns := .xmlns
  xlinkShow := .show'
  xlinkTitle := .title
  xlinkHref := .href
  replaces v := if v.1 = lit "replace" then some true else if v.1 = lit "new" then some false else none
  raw s := (s, none)

theorem exW_sound : Sound exW := ⟨rfl, ⟨rfl, rfl⟩, rfl, rfl, rfl, rfl⟩

/-- `xmlns:x` is bound to XLink, the rest is bound to SVG. -/
def exPre : Option Str → Prefix
  | none => .std .svg
  | some u => Prefix.new u (some (lit "x"))

theorem exPre_wf : ∀ ns, (exPre ns).WF
  | none => trivial
  | some _ => new_wf _ _

/-- An attribute for the examples. -/
def exSrc (ns : Option Str) (loc value : Str) (n : Nat) : Src := ⟨ns, loc, value, ⟨(n, n + 9), (n, n + 1), (n + 2, n + 8)⟩⟩

/-- The attributes of the examples: `width="x" version="1" foo="1" d="M0!z" x:title="t" x:role="r"`. -/
def exAs : List Src :=
  [exSrc none (lit "width") (lit "x") 0, exSrc none (lit "version") (lit "1") 10, exSrc none (lit "foo") (lit "1") 20,
    exSrc none (lit "d") (lit "M0!z") 30, exSrc (some StdNs.xlink.uri) (lit "title") (lit "t") 40,
    exSrc (some StdNs.xlink.uri) (lit "role") (lit "r") 50]

theorem exAs_distinct : Distinct exPre exAs := by unfold Distinct; decide +kernel

/-- The element of the examples. -/
def exData : Data El At (Str × Option Str) :=
  readElem exW exPre (some (.known .svg)) (.std .svg) (lit "rect") 5 [(none, StdNs.svg.uri), (some (lit "x"), StdNs.xlink.uri)] exAs

example : (noUnknownAttrs exW exData).map (·.range) = [some (20, 29), some (50, 59)] := by decide +kernel
example : (noDeprecated exW exData).map (·.range) = [some (10, 11)] := by decide +kernel
example : (noXlink exW exData).map (·.range) = [some (40, 49), some (50, 59)] := by decide +kernel
example : (noInvalid exW exData).map (·.map (·.range)) = some [some (2, 8), some (36, 38)] := by decide +kernel
example : (noUnknownElems exW exData).length = 0 := by decide +kernel
example : (noUnknownElems exW { exData with element := .known .tref }).length = 1 := by decide +kernel
example : (noUnknownElems exW { exData with element := .unknown (.std .svg) (lit "foo") }).length = 1 := by decide +kernel

/-- The theorems apply to it. -/
example := unknown_attrs exW exW_sound exPre_wf none (p := .std .svg) trivial (lit "rect") 5 [] exAs_distinct (e := .rect) ⟨rfl, by decide +kernel⟩
example := deprecated_iff exW exW_sound exPre_wf none (p := .std .svg) trivial (lit "rect") 5 [] exAs_distinct
example := xlink_iff exW exW_sound (by decide) exPre_wf none (.std .svg) (lit "rect") 5 [] exAs_distinct
example := invalid_iff exW exW_sound exPre_wf none (.std .svg) (lit "rect") 5 [] exAs_distinct

/-- `<x:tref>` is not reported although `<tref>` is. -/
example : (noDeprecated exW (readElem exW exPre none (Prefix.new StdNs.svg.uri (some (lit "x"))) (lit "tref") 0 [] [])).length = 0 ∧
    (noDeprecated exW (readElem exW exPre none (.std .svg) (lit "tref") 0 [] [])).length = 1 := by decide +kernel

/-- `x:width="x"` is not reported although `width="x"` is. -/
example : (noInvalid exW (readElem exW exPre none (.std .svg) (lit "rect") 0 [] [exSrc (some StdNs.svg.uri) (lit "width") (lit "x") 0])).map List.length = some 0 ∧
    (noInvalid exW (readElem exW exPre none (.std .svg) (lit "rect") 0 [] [exSrc none (lit "width") (lit "x") 0])).map List.length = some 1 := by
  decide +kernel

/-- **C92 (violated: place of the rest of a path)** For `d="M0&#33;"` the last byte of the value, `;`, is reported and not the
reference, as the rest `!` is as long as that; if an entity stands for more text than there is in front of the end of the value,
then the rule stops with a panic. -/
theorem rest_place_violated :
    (∃ (src : Str) (a : Src), src = lit "<a d=\"M0&#33;\"" ∧ a.value = lit "M0!" ∧ (src.drop a.ranges.value.1).take (a.ranges.value.2 - a.ranges.value.1) = lit "M0&#33;" ∧
      ∃ r, ((noInvalid exW (readElem exW exPre none (.std .svg) (lit "rect") 0 [] [a])).map (·.map (·.range))) = some [some r] ∧
        (src.drop r.1).take (r.2 - r.1) = lit ";") ∧
    ∃ a : Src, a.value.length = 20 ∧ a.ranges.value = (10, 13) ∧
      (noInvalid exW (readElem exW exPre none (.std .svg) (lit "rect") 0 [] [a])).isNone = true := by
  refine ⟨⟨_, ⟨none, lit "d", lit "M0!", ⟨(3, 14), (3, 4), (6, 13)⟩⟩, rfl, rfl, by decide +kernel, (12, 13), by decide +kernel, by decide +kernel⟩,
    ⟨none, lit "d", List.replicate 20 33, ⟨(7, 14), (7, 8), (10, 13)⟩⟩, by decide +kernel, rfl, by decide +kernel⟩

/-- The rest of a path without references is where the range says. -/
example := rest_place (src := lit "<a d=\"M0!z\"") (value := lit "M0!z") (rest := lit "!z") (s := 6) (e := 10) (by decide +kernel) (by decide)
  (by decide +kernel) ⟨lit "M0", by decide +kernel⟩

end Verif.Rules
