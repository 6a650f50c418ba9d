import Verif.MoveAttrs.Props

/-!
# C28: reuse of elements, cases in which the values change, and examples
-/

namespace Verif.MoveAttrs

open Verif.Tree Verif.Names

set_option linter.unusedSectionVars false

variable {K V X N C : Type} [DecidableEq K] [DecidableEq V] [DecidableEq X] [DecidableEq N]

/-! ## The bound on the depth is no restriction -/

theorem depthAll_map (f : Node (GAttr K V X N) → Node (GAttr K V X N)) (hf : ∀ n, depth (f n) = depth n)
    (ns : List (Node (GAttr K V X N))) : depthAll (ns.map f) = depthAll ns := by
  induction ns with
  | nil => rfl
  | cons n ns ih => simp only [List.map_cons, depthAll, hf, ih]

theorem depth_pushDown (l : List X) (n : Node (GAttr K V X N)) : depth (pushDown l n) = depth n := by
  cases n <;> rfl

theorem enter_shape (E : Env N) (white : Char → Bool) (refers : GAttr K V X N → Bool) (n : EName)
    (as : List (GAttr K V X N)) (ks : List (Node (GAttr K V X N))) :
    ∃ as' ks', enterElement E white refers n as ks = .elem n as' ks' ∧ depthAll ks' = depthAll ks := by
  unfold enterElement
  repeat' (split; exact ⟨_, _, rfl, rfl⟩)
  unfold spread
  split
  · exact ⟨_, _, rfl, depthAll_map _ (depth_pushDown _) ks⟩
  · exact ⟨_, _, rfl, rfl⟩
  · exact ⟨_, _, rfl, rfl⟩
  · exact ⟨_, _, rfl, rfl⟩

theorem depth_le {ns : List (Node (GAttr K V X N))} {n : Node (GAttr K V X N)} (h : n ∈ ns) : depth n ≤ depthAll ns := by
  induction ns with
  | nil => simp at h
  | cons m ns ih =>
    simp only [depthAll]
    rcases List.mem_cons.1 h with rfl | h
    · omega
    · have := ih h
      omega

/-- More fuel than the depth of the node changes nothing: the recursion of the model is the recursion of the
visitor. -/
theorem toElems_fuel (E : Env N) (white : Char → Bool) (refers : GAttr K V X N → Bool) :
    ∀ (f f' : Nat) (n : Node (GAttr K V X N)), depth n ≤ f → depth n ≤ f' →
      toElems E white refers f n = toElems E white refers f' n := by
  have pos : ∀ n : Node (GAttr K V X N), 0 < depth n := by intro n; cases n <;> simp [depth]
  intro f
  induction f with
  | zero => intro f' n h; have := pos n; omega
  | succ f ih =>
    intro f' n h h'
    cases f' with
    | zero => have := pos n; omega
    | succ f' =>
      cases n with
      | elem nm as ks =>
        obtain ⟨as', ks', e, hd⟩ := enter_shape E white refers nm as ks
        simp only [depth] at h h'
        simp only [toElems, e]
        congr 1
        apply List.map_congr_left
        intro x hx
        have := depth_le hx
        exact ih f' x (by omega) (by omega)
      | _ => rfl

/-! ## Reuse -/

/-- Whether the element has an `id`. -/
def hasIdent (as : List (GAttr K V X N)) : Bool := as.any fun a => match a with
  | .ident => true
  | _ => false

/-- What is seen of the copy of an element with an `id` wherever it is put. -/
def reusedAt (act : K → V → C → C) : List (Node (GAttr K V X N)) → Option (Ctx K X C → List (Seen K V X N C))
  | .elem n as ks :: _ => if hasIdent as then some (fun c => seen act c [.elem n as ks]) else none
  | _ => none

/-- What is seen of the copies of all elements with an `id`. -/
def reused (act : K → V → C → C) (doc : List (Node (GAttr K V X N))) : List (Ctx K X C → List (Seen K V X N C)) :=
  (lines doc).filterMap (reusedAt act)

mutual
def copies (act : K → V → C → C) : Node (GAttr K V X N) → List (Ctx K X C → List (Seen K V X N C))
  | .elem n as ks => (if hasIdent as then [fun c => view act c (.elem n as ks)] else []) ++ copiesAll act ks
  | .text _ => []
  | .css _ => []
  | .comment _ => []
  | .pi _ _ => []
def copiesAll (act : K → V → C → C) : List (Node (GAttr K V X N)) → List (Ctx K X C → List (Seen K V X N C))
  | [] => []
  | n :: ns => copies act n ++ copiesAll act ns
end

mutual
theorem copies_lines (act : K → V → C → C) (n : Node (GAttr K V X N)) (anc : List (Node (GAttr K V X N))) :
    (n.lines anc).filterMap (reusedAt act) = copies act n := by
  match n with
  | .elem nm as ks =>
    have ih := copiesAll_lines act ks (.elem nm as ks :: anc)
    simp only [Node.lines, List.filterMap_cons, ih, copies, reusedAt]
    have : (fun c => seen act c [.elem nm as ks]) = fun c => view act c (.elem nm as ks) := by
      funext c
      rw [seen_eq]
      simp [viewAll]
    cases hasIdent as <;> simp [this]
  | .text s => simp [Node.lines, reusedAt, copies]
  | .css s => simp [Node.lines, reusedAt, copies]
  | .comment s => simp [Node.lines, reusedAt, copies]
  | .pi t d => simp [Node.lines, reusedAt, copies]
theorem copiesAll_lines (act : K → V → C → C) (ns : List (Node (GAttr K V X N))) (anc : List (Node (GAttr K V X N))) :
    (linesAll anc ns).filterMap (reusedAt act) = copiesAll act ns := by
  match ns with
  | [] => simp [linesAll, copiesAll]
  | n :: ns => simp only [linesAll, List.filterMap_append, copies_lines, copiesAll_lines, copiesAll]
end

theorem reused_eq (act : K → V → C → C) (doc : List (Node (GAttr K V X N))) : reused act doc = copiesAll act doc :=
  copiesAll_lines act doc []

theorem hasIdent_rest (as : List (GAttr K V X N)) : hasIdent as = hasIdent (rest as) := by
  induction as with
  | nil => rfl
  | cons a as ih =>
    unfold hasIdent rest at *
    cases a <;> simp_all

theorem hasIdent_get (as : List (GAttr K V X N)) : hasIdent as = (getNamed .ident as).isSome := by
  induction as with
  | nil => rfl
  | cons a as ih =>
    rw [getNamed_cons]
    unfold hasIdent at *
    cases a <;> simp_all [GAttr.id]

theorem pushDown_copies (act : K → V → C → C) (E : Env N) (l : List X) (n : Node (GAttr K V X N)) (b : Bool)
    (h : Straight b n) (hb : blocks E n = false) : copies act (pushDown l n) = copies act n := by
  cases n with
  | elem nm as ks =>
    obtain ⟨h1, h2, -, -⟩ := h
    obtain ⟨-, p2, -, -⟩ := push_facts l as h1 h2
    rw [pushDown_elem]
    have e : hasIdent as = false := by
      rw [hasIdent_get]
      simp only [blocks, Bool.or_eq_false_iff] at hb
      exact hb.2
    have e' : hasIdent (pushAttrs l as) = false := by rw [hasIdent_rest, p2, ← hasIdent_rest, e]
    simp [copies, e, e']
  | _ => rfl

theorem enter_copies (act : K → V → C → C) (E : Env N) (white : Char → Bool) (refers : GAttr K V X N → Bool) {b : Bool}
    {n : EName} {as as' : List (GAttr K V X N)} {ks ks' : List (Node (GAttr K V X N))}
    (h : Straight b (.elem n as ks)) (e : enterElement E white refers n as ks = .elem n as' ks') :
    copiesAll act ks' = copiesAll act ks ∧ hasIdent as' = hasIdent as := by
  have same : ∀ {as'' : List (GAttr K V X N)} {ks'' : List (Node (GAttr K V X N))},
      (Node.elem n as'' ks'' : Node (GAttr K V X N)) = .elem n as' ks' → rest as'' = rest as →
      copiesAll act ks'' = copiesAll act ks →
      copiesAll act ks' = copiesAll act ks ∧ hasIdent as' = hasIdent as := by
    intro as'' ks'' he hr hc
    injection he with _ e1 e2
    subst e1; subst e2
    exact ⟨hc, by rw [hasIdent_rest, hr, ← hasIdent_rest]⟩
  unfold enterElement at e
  repeat' (split at e; exact same e rfl rfl)
  rename_i hbl
  have hbl : ∀ x ∈ ks, blocks E x = false := by simpa using hbl
  obtain ⟨h1, h2, h3, h4⟩ := h
  obtain ⟨r1, r2, r3, r4⟩ := removeT_facts as h1
  unfold spread at e
  split at e
  · rename_i l hl
    refine same e r2 ?_
    revert h4 hbl
    generalize ks = ks
    clear e
    induction ks with
    | nil => intro _ _; rfl
    | cons x ks ih =>
      intro hbl h4
      simp only [List.map_cons, copiesAll]
      rw [ih (fun y hy => hbl y (by simp [hy])) h4.2, pushDown_copies act E l x _ h4.1 (hbl x (by simp))]
  · rename_i hl
    exact absurd (by rw [attributedT_get, hl]; rfl) h2
  · exact same e r2 rfl
  · exact same e rfl rfl

theorem toElems_copies (act : K → V → C → C) (E : Env N) (white : Char → Bool) (refers : GAttr K V X N → Bool) :
    ∀ (fuel : Nat) (b : Bool) (n : Node (GAttr K V X N)), Straight b n →
      copies act (toElems E white refers fuel n) = copies act n := by
  intro fuel
  induction fuel with
  | zero => intro b n h; rfl
  | succ fuel ih =>
    intro b n h
    have hview := (toElems_view act E white refers (fuel + 1) b n h).2
    cases n with
    | elem nm as ks =>
      obtain ⟨⟨as', ks', e⟩, e2, e3⟩ := enter_view act E white refers h
      obtain ⟨c1, c2⟩ := enter_copies act E white refers h e
      have ht : toElems E white refers (fuel + 1) (.elem nm as ks) = .elem nm as' (ks'.map (toElems E white refers fuel)) := by
        simp only [toElems, e]
      rw [ht] at hview ⊢
      rw [e] at e2
      have key : ∀ l : List (Node (GAttr K V X N)), StraightAll (nm.is "g") l →
          copiesAll act (l.map (toElems E white refers fuel)) = copiesAll act l := by
        intro l
        induction l with
        | nil => intro _; rfl
        | cons x l ihl =>
          intro hl
          simp only [List.map_cons, copiesAll, ih _ x hl.1, ihl hl.2]
      have hv : (fun c => view act c (.elem nm as' (ks'.map (toElems E white refers fuel)))) =
          fun c => view act c (.elem nm as ks) := funext hview
      simp only [copies, key ks' e2.2.2.2, c1, c2, hv]
    | _ => rfl

/-- **C28 (group to children, reuse)** Under the conditions of `toElems_partial` a copy of an element with an `id`,
put anywhere, is seen as before. -/
theorem toElems_reuse_partial (act : K → V → C → C) (E : Env N) (white : Char → Bool) (refers : GAttr K V X N → Bool)
    (on : Bool) (doc : List (Node (GAttr K V X N))) (h : StraightAll false doc) :
    reused act (moveGroupAttrs E white refers on doc) = reused act doc := by
  unfold moveGroupAttrs
  split
  · rw [reused_eq, reused_eq]
    induction doc with
    | nil => rfl
    | cons n ns ih =>
      simp only [List.map_cons, copiesAll, toElems_copies act E white refers _ false n h.1, ih h.2]
  · rfl

/-! ## Where the values change -/

/-- A name in the SVG namespace. -/
def svgName (s : String) : EName := ⟨.std .svg, lit s⟩

/-- Attributes of the examples: properties, values, transform functions and other attributes are numbers. -/
abbrev A := GAttr Nat Nat Nat Nat

/-- An element. -/
def el (s : String) (as : List A) (ks : List (Node A)) : Node A := .elem (svgName s) as ks

/-- Value `0` is `inherit`, `1` is `2em`, all others are absolute. -/
def tact (_ v c : Nat) : Nat := if v = 0 then c else if v = 1 then 2 * c else v

/-- `path` takes `d`; attribute `0` stands for `clip-path`. -/
def tenv : Env Nat where
  pathLike := fun n => n.loc == lit "path"
  passThrough := fun n => n == 0

/-- At the root. -/
def root : Ctx Nat Nat Nat where
  vals := fun _ => 7
  total := []
  own := []

/-- Value of property 0 and transforms of the elements that are not groups. -/
def short (doc : List (Node A)) : List (Nat × List Nat) := (seen tact root doc).map fun s => (s.vals 0, s.total)

/-- The same for the copies of the elements with an `id`. -/
def shortCopies (doc : List (Node A)) : List (List (Nat × List Nat)) :=
  (reused tact doc).map fun f => (f root).map fun s => (s.vals 0, s.total)

/-- The job on the children's attributes in the examples. -/
def up (doc : List (Node A)) : List (Node A) := moveElemsAttrs tenv true false doc

/-- The job on the group's attributes in the examples. -/
def down (doc : List (Node A)) : List (Node A) := moveGroupAttrs tenv (· == ' ') (fun _ => false) true doc

theorem short_ne {a b : List (Node A)} (h : short a ≠ short b) : seen tact root a ≠ seen tact root b :=
  fun e => h (by unfold short; rw [e])

/-- **C28 (children to group)** A declaration in the group's `style` wins over the attribute moved to the group:
`<g style="fill:5"><path fill="3"/><path fill="3"/></g>`. -/
theorem group_style_violated : ∃ doc : List (Node A), seen tact root (up doc) ≠ seen tact root doc :=
  ⟨[el "g" [.style [(0, 5)] none] [el "path" [.pres 0 3] [], el "path" [.pres 0 3] []]], short_ne (by decide +kernel)⟩

/-- **C28 (children to group)** `inherit` on all children replaces the group's own value:
`<g fill="5"><path fill="inherit"/><path fill="inherit"/></g>`. -/
theorem inherit_violated : ∃ doc : List (Node A), seen tact root (up doc) ≠ seen tact root doc :=
  ⟨[el "g" [.pres 0 5] [el "path" [.pres 0 0] [], el "path" [.pres 0 0] []]], short_ne (by decide +kernel)⟩

/-- **C28 (children to group)** An attribute that is overridden in a child by a relative declaration becomes
what this declaration is relative to. -/
theorem relative_violated : ∃ doc : List (Node A), seen tact root (up doc) ≠ seen tact root doc :=
  ⟨[el "g" [] [el "path" [.pres 0 3, .style [(0, 1)] none] [], el "path" [.pres 0 3] []]], short_ne (by decide +kernel)⟩

/-- **C28 (children to group)** A transform attribute hidden by a declaration in `style` acts when it is on the
group. -/
theorem hidden_transform_violated : ∃ doc : List (Node A), seen tact root (up doc) ≠ seen tact root doc :=
  ⟨[el "g" [] [el "circle" [.transform (.defined [3]), .style [] (some [4])] [], el "circle" [.transform (.defined [3])] []]],
    short_ne (by decide +kernel)⟩

/-- **C28 (children to group)** A `transform` that cannot be read replaces the group's transform when all children
have it. -/
theorem unreadable_transform_violated : ∃ doc : List (Node A), seen tact root (up doc) ≠ seen tact root doc :=
  ⟨[el "g" [.transform (.defined [3])] [el "circle" [.transform (.unparsed ['x'])] [],
    el "circle" [.transform (.unparsed ['x'])] []]], short_ne (by decide +kernel)⟩

/-- **C28 (children to group)** A copy of a child (`use`) does not have the attribute any more. -/
theorem reuse_violated : ∃ doc : List (Node A), PlainAll tact false doc ∧ reused tact (up doc) ≠ reused tact doc := by
  refine ⟨[el "g" [] [el "path" [.ident, .pres 0 3] [], el "path" [.pres 0 3] []]], ?_, ?_⟩
  · have hp : ∀ as : List A, as = [.ident, .pres 0 3] ∨ as = [.pres 0 3] → PlainAttrs tact as := by
      rintro as (rfl | rfl)
      all_goals
        refine ⟨by unfold Distinct; decide, by simp [attributedT], ?_, by simp [declared]⟩
        intro k v h
        simp only [attributed, List.findSome?_cons, List.findSome?_nil] at h
        split at h
        · rename_i heq
          split at heq
          · injection heq with heq
            injection h with h
            subst h; subst heq
            intro c c'
            rfl
          · cases heq
        · cases h
    have h0 : PlainAttrs tact ([] : List A) := ⟨by unfold Distinct; decide, by simp [attributedT], by simp [attributed], by simp [declared]⟩
    exact ⟨⟨h0, fun _ _ => rfl, fun _ => rfl, ⟨hp _ (Or.inl rfl), fun _ _ => rfl, fun _ => rfl, trivial⟩,
      ⟨hp _ (Or.inr rfl), fun _ _ => rfl, fun _ => rfl, trivial⟩, trivial⟩, trivial⟩
  · intro e
    have : shortCopies (up [el "g" [] [el "path" [.ident, .pres 0 3] [], el "path" [.pres 0 3] []]]) =
        shortCopies [el "g" [] [el "path" [.ident, .pres 0 3] [], el "path" [.pres 0 3] []]] := by
      unfold shortCopies
      rw [e]
    revert this
    decide +kernel

/-- **C28 (group to children)** A transform in a child's `style` hides the transform moved to the child. -/
theorem child_style_violated : ∃ doc : List (Node A), seen tact root (down doc) ≠ seen tact root doc :=
  ⟨[el "g" [.transform (.defined [3])] [el "path" [.style [] (some [4])] []]], short_ne (by decide +kernel)⟩

/-- **C28 (group to children)** A group transform hidden by the group's `style` acts when it is on the children. -/
theorem group_hidden_violated : ∃ doc : List (Node A), seen tact root (down doc) ≠ seen tact root doc :=
  ⟨[el "g" [.transform (.defined [3]), .style [] (some [4])] [el "path" [] []]], short_ne (by decide +kernel)⟩

/-- **C28 (group to children)** `transform="inherit"` on a child is overwritten. -/
theorem child_inherit_violated : ∃ doc : List (Node A), seen tact root (down doc) ≠ seen tact root doc :=
  ⟨[el "g" [.transform (.defined [3])] [el "path" [.transform .inherit] []]], short_ne (by decide +kernel)⟩

/-! ## Examples -/

/-- Both jobs change this document, nested groups are merged from the inside out. -/
example : up [el "g" [.pres 1 9] [el "g" [.transform (.defined [1])] [
      el "circle" [.pres 0 3, .transform (.defined [2])] [], .text ['x'], el "path" [.transform (.defined [2]), .pres 0 3] []],
      el "text" [.pres 0 3, .other 4] []]] =
    [el "g" [.pres 1 9, .pres 0 3] [el "g" [.transform (.defined [1, 2])] [
      el "circle" [] [], .text ['x'], el "path" [] []], el "text" [.other 4] []]] := by rfl

/-- Only paths, or a clip path on the group: the transform stays. -/
example : up [el "g" [] [el "path" [.transform (.defined [2]), .pres 0 3] [], el "path" [.transform (.defined [2]), .pres 0 3] []]] =
    [el "g" [.pres 0 3] [el "path" [.transform (.defined [2])] [], el "path" [.transform (.defined [2])] []]] ∧
    up [el "g" [.other 0] [el "circle" [.transform (.defined [2])] [], el "circle" [.transform (.defined [2])] []]] =
    [el "g" [.other 0] [el "circle" [.transform (.defined [2])] [], el "circle" [.transform (.defined [2])] []]] := ⟨rfl, rfl⟩

example : down [el "g" [.transform (.defined [1]), .pres 0 3] [el "g" [.transform (.defined [2])] [el "path" [] [],
      el "text" [.transform (.defined [3])] []], el "path" [.transform (.unparsed ['x'])] []]] =
    [el "g" [.pres 0 3] [el "g" [] [el "path" [.transform (.defined [1, 2])] [],
      el "text" [.transform (.defined [1, 2, 3])] []], el "path" [.transform (.defined [1])] []]] := rfl

/-- A child with an `id` stops the transform. -/
example : down [el "g" [.transform (.defined [1])] [el "g" [] [el "path" [.ident] []]]] =
    [el "g" [] [el "g" [.transform (.defined [1])] [el "path" [.ident] []]]] := rfl

example : short [el "g" [.pres 0 5, .transform (.defined [1])] [el "path" [.style [(0, 1), (1, 2)] none, .transform (.defined [2])] [],
      el "circle" [.transform .inherit] []]] = [(10, [1, 2]), (5, [1, 1])] := by decide +kernel

end Verif.MoveAttrs
