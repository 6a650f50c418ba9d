import Verif.Select.Props

/-! # C67: where selectors are not treated as CSS says, and examples -/

namespace Verif.Select

theorem only_iff (sc : Option Loc) (s : Simple) (l : Loc) : MatchesSels sc (only s) l ↔ MatchesSimple sc s l := by
  simp [only, MatchesSels, Matches, MatchesComp]

/-- **C67 (violated)** A name with upper case, such as `linearGradient`, selects no element of this name in any document. -/
theorem camel_violated (E : Env) (addr : Nat) (root l : Loc) {n : Str} (h : lower n ≠ n) (hl : l.here.name.loc = n) :
    l ∉ select E addr root (only (.name n)) ∧ MatchesSels none (only (.name n)) l := by
  refine ⟨fun m => h ?_, (only_iff ..).2 (by simp [MatchesSimple, hl])⟩
  exact ((name_iff E addr root l n).1 m).2.symm.trans hl

/-- **C67 (violated)** An attribute with upper case, such as `viewBox`, is never found. -/
theorem attr_camel_violated (E : Env) (addr : Nat) (root l : Loc) {n : Str} (w : Bool) (f : Flag) (h : lower n ≠ n)
    (hl : ∀ a ∈ l.here.attrs, a.loc = n) (hn : ∃ a ∈ l.here.attrs, a.pre = none) :
    l ∉ select E addr root (only (.attr w n .present f)) ∧ MatchesSels none (only (.attr w n .present f)) l := by
  constructor
  · intro m
    obtain ⟨_, pre, a, rest, v, ha, hp, _⟩ := (attr_iff ..).1 m
    exact h (hp.2.symm.trans (hl a (by simp [ha])))
  · rw [only_iff]
    obtain ⟨a, ha, hp⟩ := hn
    simp only [MatchesSimple]
    refine ⟨a, ha, .inr hp, hl a ha, ?_⟩
    cases f <;> simp [SaysFlag, Says, Op.lower]

/-- **C67 (violated)** `[*|n]` never finds an attribute with a prefix. -/
theorem prefix_violated (E : Env) (addr : Nat) (root l : Loc) (n : Str) (f : Flag) (hl : ∀ a ∈ l.here.attrs, a.pre ≠ none)
    (hn : ∃ a ∈ l.here.attrs, a.loc = n) :
    l ∉ select E addr root (only (.attr true n .present f)) ∧ MatchesSels none (only (.attr true n .present f)) l := by
  constructor
  · intro m
    obtain ⟨_, pre, a, rest, v, ha, hp, _⟩ := (attr_iff ..).1 m
    exact hl a (by simp [ha]) hp.1
  · rw [only_iff]
    obtain ⟨a, ha, hp⟩ := hn
    simp only [MatchesSimple]
    refine ⟨a, ha, .inl trivial, hp, ?_⟩
    cases f <;> simp [SaysFlag, Says, Op.lower]

/-- **C67 (violated)** An element with a comment in it is not `:empty`. -/
theorem empty_violated (E : Env) (addr : Nat) (root l : Loc) (h : .other ∈ l.here.kids) : l ∉ select E addr root (only .empty) := fun m => by
  obtain ⟨t, e, _⟩ := ((empty_iff ..).1 m).2 _ h
  cases e

theorem pick_known {E : Env} {sc : Option Nat} {t e : Bool} {a b : Int} (hn : ¬ (a = 0 ∧ b = 1 ∧ t = false)) {i k : Nat} {ls : List Loc}
    {c : Cache} (hE : ∀ l ∈ ls, E.addr l = k) (h : c.get (t, e, k) = some i) :
    pick E sc (only (.nth t e a b)) ls c = if onStep a b i = true then ls else [] := by
  induction ls with
  | nil => simp [pick]
  | cons l ls ih =>
    have hl := hE l (by simp)
    have key : sels E sc (only (.nth t e a b)) l c = (onStep a b i, c) := by
      simp only [only, sels, sel, comp, simple, nthChild, if_neg hn, hl, h, Run.or, Run.and, Run.ret]
      cases onStep a b i <;> simp
    simp only [pick, key, ih fun l hl => hE l (by simp [hl])]
    cases onStep a b i <;> simp

/-- **C67 (violated)** If the wrappers of the elements that are tested are all at one address, as temporaries in a loop are, then
`:nth-child` (unless it asks for the first or the last) selects all elements or none: whatever the place of the first one tested says. -/
theorem nth_violated {E : Env} {k : Nat} (addr : Nat) (root : Loc) {t e : Bool} {a b : Int} (hn : ¬ (a = 0 ∧ b = 1 ∧ t = false))
    (hE : ∀ l ∈ root.below, E.addr l = k) :
    select E addr root (only (.nth t e a b)) = root.below ∨ select E addr root (only (.nth t e a b)) = [] := by
  unfold select
  cases h : root.below with
  | nil => exact .inl rfl
  | cons l ls =>
    rw [h] at hE
    have hl := hE l (by simp)
    have key : sels E (some addr) (only (.nth t e a b)) l [] = (onStep a b (index t e l), [((t, e, k), index t e l)]) := by
      have hg : Cache.get [] (t, e, k) = none := rfl
      simp only [only, sels, sel, comp, simple, nthChild, if_neg hn, hl, hg, Run.or, Run.and, Run.ret]
      cases onStep a b (index t e l) <;> simp
    have hk := pick_known (E := E) (sc := some addr) (e := e) hn (i := index t e l) (c := [((t, e, k), index t e l)]) (ls := ls)
      (fun l hl => hE l (by simp [hl])) (by simp [Cache.get])
    simp only [pick, key, hk]
    cases onStep a b (index t e l) <;> simp

theorem scope_run (E : Env) (addr : Nat) (k : Comb) (c : Comp) (l : Loc) (h : ∀ x, E.addr x ≠ addr) (ca : Cache) :
    (sels E (some addr) (.cons (.join (.one (.cons .scope .nil)) k c) .nil) l ca).1 = false := by
  have hs : ∀ x ca, (sel E (some addr) (.one (.cons .scope .nil)) x ca).1 = false := by
    intro x ca
    simp [sel, comp, simple, Run.and, Run.ret, h x]
  have ha : ∀ ls ca, (Run.any (sel E (some addr) (.one (.cons .scope .nil))) ls ca).1 = false := by
    intro ls
    induction ls with
    | nil => intro ca; rfl
    | cons x ls ih => intro ca; simp only [Run.any, Run.or, hs, Bool.false_eq_true, if_false]; exact ih _
  by_cases hc : (comp E (some addr) c l ca).1 = true <;> cases k <;> simp only [sels, Run.or, Run.ret] <;> rw [sel] <;>
    simp [Run.and, hc, ha]

/-- **C67 (violated)** Unless the wrapper of an element is by chance at the address of that of the scope, `:scope > x`, `:scope x` and the
like select nothing. -/
theorem scope_violated (E : Env) (addr : Nat) (root : Loc) (k : Comb) (c : Comp) (h : ∀ x, E.addr x ≠ addr) :
    select E addr root (.cons (.join (.one (.cons .scope .nil)) k c) .nil) = [] := by
  unfold select
  generalize root.below = ls
  generalize ([] : Cache) = ca
  induction ls generalizing ca with
  | nil => rfl
  | cons l ls ih => simp only [pick, scope_run E addr k c l h, Bool.false_eq_true, if_false]; exact ih _

/-! ## Witnesses and examples -/

/-- Everything is written as it is, except that colours are written shorter; values of `type` have no case; each wrapper has the address of its
place among its siblings, or one for all. -/
def env (same : Bool) : Env where
  print _ a := if a.val = lit "#ff0000" then some (lit "red") else some a.val
  noCase n := n = lit "type"
  addr l := if same then 1 else l.path.foldl (fun h i => h * 10 + i + 1) 0

def at' (n v : String) : Attr := ⟨none, lit n, lit v⟩
def el (n : String) (as : List Attr) (ks : List Node) : Node := .elem ⟨svgNs, lit n⟩ as ks

/-- `<svg><g class="a b"><rect id="r"/><!-- --><path fill="#ff0000"/></g><linearGradient/><a xlink:href="#r"><g><!-- --></g></a></svg>` -/
def doc : Loc := ⟨⟨[], ⟨svgNs, lit "svg"⟩, [at' "viewBox" "0 0 1 1"],
  [el "g" [at' "class" "a b"] [el "rect" [at' "id" "r"] [], .other, el "path" [at' "fill" "#ff0000", at' "type" "A"] []],
    el "linearGradient" [] [], el "a" [⟨some (lit "xlink"), lit "href", lit "#r"⟩] [el "g" [] [.other]]], []⟩, []⟩

/-- The names of what is selected. -/
def names (s : Bool) (ss : Sels) : List Str := (select (env s) 0 doc ss).map fun l => l.here.name.loc

def joined (k : Comb) (a b : Simple) : Sels := .cons (.join (.one (.cons a .nil)) k (.cons b .nil)) .nil

/-- All of the document, level by level. -/
example : names false (only .any) = [lit "g", lit "linearGradient", lit "a", lit "rect", lit "path", lit "g"] := by decide +kernel

/-- `.b > rect`, `rect + path`, `svg g`, `g ~ a`, `:not(g)`. -/
example : names false (joined .child (.cls (lit "b")) (.name (lit "rect"))) = [lit "rect"] ∧
    names false (joined .next (.name (lit "rect")) (.name (lit "path"))) = [lit "path"] ∧
    names false (joined .descendant (.name (lit "svg")) (.name (lit "g"))) = [lit "g", lit "g"] ∧
    names false (joined .later (.name (lit "g")) (.name (lit "a"))) = [lit "a"] ∧
    names false (only (.neg (only (.name (lit "g"))))) = [lit "linearGradient", lit "a", lit "rect", lit "path"] ∧
    names false (only (.nth false false 2 0)) = [lit "linearGradient", lit "path"] := by decide +kernel

/-- The hypotheses of `select_partial` hold for a document and for `g.a > path:nth-child(2):not([fill^=b])`. -/
example : let d : Loc := ⟨⟨[.other], ⟨svgNs, lit "svg"⟩, [], [el "g" [at' "class" "a b"] [el "rect" [] [], el "path" [at' "fill" "red"] []]], []⟩, []⟩
    let E : Env := { env false with addr := fun _ => 0 }
    let s : Sels := .cons (.join (.one (.cons (.name (lit "g")) (.cons (.cls (lit "a")) .nil))) .child
      (.cons (.name (lit "path")) (.cons (.nth false true 0 1) (.cons (.neg (only (.attr false (lit "fill") (.starts (lit "b")) .auto))) .nil)))) .nil
    s.Plain E ∧ Single d ∧ Throughout (Faithful E) d ∧ (select E 0 d s).map (·.path) = [[1, 0, 1]] := by
  refine ⟨?_, ?_, ?_, by decide +kernel⟩
  · refine ⟨⟨⟨(?_ : lower (lit "g") = lit "g"), trivial, trivial⟩, (?_ : lower (lit "path") = lit "path"), .inl ⟨rfl, rfl, rfl⟩, ⟨⟨⟨rfl, ?_, fun _ => ?_⟩, trivial⟩, trivial⟩, trivial⟩, trivial⟩ <;> decide +kernel
  · intro f hf
    simp only [List.getLast?_singleton, Option.some.injEq] at hf
    subst hf
    simp [Node.isElem]
  · intro f hf
    simp only [List.mem_singleton] at hf
    subst hf
    simp [Frame.node, Node.All, AllOf, el, at', Faithful, env]
    decide +kernel

/-- **C67 (violated)** Values are compared as they would be written: `[fill="#ff0000"]` does not find what `fill="#ff0000"` says if it is written
as `red`. -/
theorem value_violated : names false (only (.attr false (lit "fill") (.equals (lit "#ff0000")) .auto)) = [] ∧
    names false (only (.attr false (lit "fill") (.equals (lit "red")) .auto)) = [lit "path"] := by decide +kernel

/-- **C67 (violated)** For attributes of which HTML compares the values without case, so does oxvg: `[type=a]` finds `type="A"`. -/
theorem case_violated : names false (only (.attr false (lit "type") (.equals (lit "a")) .auto)) = [lit "path"] := by decide +kernel

/-- **C67 (violated)** A link by `xlink:href` is no `:link`. -/
theorem link_violated : names false (only .link) = [] ∧
    ∃ l, (∃ n, Below doc n l) ∧ l.here.name.loc = lit "a" ∧ MatchesSels none (only .link) l := by
  refine ⟨by decide +kernel, ?_⟩
  obtain ⟨l, hl, h⟩ : ∃ l ∈ doc.below, l.here.name = ⟨svgNs, lit "a"⟩ ∧ l.here.attrs = [⟨some (lit "xlink"), lit "href", lit "#r"⟩] := by
    refine ⟨_, List.getElem_mem (l := doc.below) (n := 2) (by decide +kernel), by decide +kernel⟩
  refine ⟨l, (below_iff _ _).1 hl, by rw [h.1], ?_⟩
  rw [only_iff]
  simp [MatchesSimple, h.1, h.2]

/-- **C67 (violated)** The same document, with wrappers at one address: `:nth-child(2)` finds nothing, `:nth-child(3n+1)` everything. -/
theorem nth_cache_violated : names true (only (.nth false false 0 2)) = [] ∧ names true (only (.nth false false 3 1)) = names true (only .any) ∧
    names false (only (.nth false false 0 2)) = [lit "linearGradient", lit "path"] := by decide +kernel

/-- **C67 (violated)** Words of `class` are separated by any Unicode whitespace: `class="a b"` with a no-break space is of the class `a`. -/
theorem class_violated : hasClass ⟨⟨[], ⟨svgNs, lit "g"⟩, [⟨none, lit "class", [97, 0xa0, 98]⟩], [], []⟩, []⟩ (lit "a") = true ∧
    ¬ MatchesSimple none (.cls (lit "a")) ⟨⟨[], ⟨svgNs, lit "g"⟩, [⟨none, lit "class", [97, 0xa0, 98]⟩], [], []⟩, []⟩ := by
  refine ⟨by decide +kernel, ?_⟩
  simp only [MatchesSimple, List.mem_singleton, exists_eq_left, not_and, isWord_iff]
  intro _ _ _ h
  have := (splitCss_iff _ _).2 h
  revert this
  decide +kernel

end Verif.Select
