import Verif.Removal.Model

/-!
# C26: jobs that remove nodes remove exactly what they say

A document is described by its outline: its nodes in document order, each with its depth and its name
and attributes or its text (`Verif.Tree.outline_inj`: the outline determines the document). `remaining drop`
is the outline without the nodes for which `drop` holds and without everything below them.
-/

namespace Verif.Removal

open Verif.Tree Verif.Names

variable {A P : Type}

/-- No pattern is a regular expression that matches the text. -/
def unmatched (re : Regex P) (ps : List P) (s : List Char) : Bool :=
  ps.all fun p => (re p).all fun m => !m s

/-- A comment that no pattern preserves. -/
def plainComment (re : Regex P) (ps : List P) : Node A → Bool
  | .comment s => unmatched re ps s
  | _ => false

/-- An SVG element of this name. -/
def isNamed (name : String) : Node A → Bool
  | .elem n _ _ => n.pre.unaliased == .std .svg && n.loc == lit name
  | _ => false

/-- **C26 (names)** An element has one of the names of the jobs exactly if its namespace is that of SVG,
whatever prefix stands for it, and its local name is the name. -/
theorem is_iff (n : EName) (name : String) (h : n.pre.WF) :
    n.is name = true ↔ n.pre.ns = .std .svg ∧ n.loc = lit name := by
  obtain ⟨p, l⟩ := n
  simp only [EName.is, Bool.and_eq_true, beq_iff_eq]
  refine and_congr_left fun _ => ?_
  cases p with
  | std s => simp [Prefix.unaliased, Prefix.ns]
  | unknown q ns =>
    cases ns with
    | std s => exact absurd h (by simp [Prefix.WF])
    | unknown u => simp [Prefix.unaliased, Prefix.ns]
  | aliased q a =>
    cases q with
    | std s => simp [Prefix.unaliased, Prefix.ns]
    | _ => exact absurd h (by simp [Prefix.WF])

/-- A processing instruction with the target `xml`. -/
def isXmlDecl : Node A → Bool
  | .pi t _ => t == lit "xml"
  | _ => false

/-- A description that is empty or says which editor made the document, or any if asked for. -/
def uselessDesc (white : Char → Bool) (removeAny : Bool) : Node A → Bool
  | .elem n _ ks => n.is "desc" &&
      (removeAny || ks.all (fun k => match k with | .text s => s.all white | _ => false) ||
        ks.any fun k => match k with
          | .text s => "Created with".toList.isPrefixOf s || "Created using".toList.isPrefixOf s
          | _ => false)
  | _ => false

/-! ## Comments -/

theorem preserved_ok {re : Regex P} {s : List Char} : ∀ {ps : List P} {b : Bool},
    preserved re s ps = .ok b → b = !unmatched re ps s
  | [], b, h => by cases h; rfl
  | p :: ps, b, h => by
    simp only [preserved] at h
    cases hp : re p with
    | none => simp [hp] at h
    | some m =>
      simp only [hp] at h
      by_cases hm : m s = true
      · simp only [hm, if_true] at h
        cases h
        simp [unmatched, hp, hm]
      · simp only [hm, if_false, Bool.false_eq_true] at h
        rw [preserved_ok h]
        simp [unmatched, hp, hm]

theorem preserved_error {re : Regex P} {s : List Char} {e : Err} : ∀ {ps : List P},
    preserved re s ps = .error e ↔ ∃ l p r, ps = l ++ p :: r ∧ re p = none ∧ ∀ q ∈ l, ∃ m, re q = some m ∧ m s = false
  | [] => by
    simp only [preserved, reduceCtorEq, false_iff]
    rintro ⟨l, p, r, h, -⟩
    cases l <;> simp at h
  | p :: ps => by
    have ih := preserved_error (re := re) (s := s) (e := e) (ps := ps)
    simp only [preserved]
    cases hp : re p with
    | none =>
      simp only
      constructor
      · intro _; exact ⟨[], p, ps, rfl, hp, by simp⟩
      · intro _; cases e; simp
    | some m =>
      simp only
      by_cases hm : m s = true
      · simp only [hm, if_true, reduceCtorEq, false_iff]
        rintro ⟨l, q, r, h, hq, hl⟩
        cases l with
        | nil =>
          simp only [List.nil_append, List.cons.injEq] at h
          rw [← h.1, hp] at hq; cases hq
        | cons x l =>
          simp only [List.cons_append, List.cons.injEq] at h
          obtain ⟨m', h1, h2⟩ := hl x (by simp)
          rw [← h.1, hp] at h1
          cases h1
          rw [hm] at h2; cases h2
      · simp only [hm, if_false, Bool.false_eq_true]
        rw [ih]
        constructor
        · rintro ⟨l, q, r, h, hq, hl⟩
          refine ⟨p :: l, q, r, by rw [h]; rfl, hq, ?_⟩
          intro x hx
          rcases List.mem_cons.1 hx with rfl | hx
          · exact ⟨m, hp, by simpa using hm⟩
          · exact hl x hx
        · rintro ⟨l, q, r, h, hq, hl⟩
          cases l with
          | nil =>
            simp only [List.nil_append, List.cons.injEq] at h
            rw [← h.1, hp] at hq; cases hq
          | cons x l =>
            simp only [List.cons_append, List.cons.injEq] at h
            exact ⟨l, q, r, h.2, hq, fun y hy => hl y (by simp [hy])⟩

/-- The decision of the comment job. -/
def commentKeep (re : Regex P) (ps : List P) (n : Node A) : Option (List A) :=
  kept (!plainComment re ps n) (own n)

theorem edits_own {d : Node A → Option (List A)} (h : ∀ n as, d n = some as → as = own n) : Edits d id := by
  refine ⟨?_, fun _ _ => rfl⟩
  intro n as ks as' e
  have := h _ _ e
  rw [this]
  rfl

theorem kept_own {b : Bool} {n : Node A} {as : List A} (h : kept b (own n) = some as) : as = own n := by
  unfold kept at h
  split at h
  · exact (Option.some.inj h).symm
  · cases h

theorem kept_isNone (b : Bool) (as : List A) : (kept b as).isNone = !b := by cases b <;> rfl

theorem comments_prune {re : Regex P} {dflt : List P} {opt : Option (List P)} {doc out : List (Node A)}
    (h : removeComments re dflt opt doc = .ok out) :
    (∀ m, Occurs doc m → commentHook re dflt opt m = .ok (commentKeep re (opt.getD dflt) m)) ∧
      out = pruneAll (commentKeep re (opt.getD dflt)) doc := by
  have hd : ∀ m, Occurs doc m → commentHook re dflt opt m = .ok (commentKeep re (opt.getD dflt) m) := by
    intro m hm
    cases hk : commentHook re dflt opt m with
    | error e =>
      obtain ⟨e', he⟩ := visitAll_fails (commentHook re dflt opt) doc m e hm hk
      rw [removeComments, start, if_pos rfl, he] at h
      cases h
    | ok r =>
      cases m with
      | comment s =>
        simp only [commentHook, bind, Except.bind] at hk
        cases hp : preserved re s (opt.getD dflt) with
        | error e => simp [hp] at hk
        | ok b =>
          simp only [hp, pure, Except.pure, Except.ok.injEq] at hk
          rw [← hk, preserved_ok hp]
          rfl
      | _ => simpa [commentHook, commentKeep, plainComment, kept, own] using hk.symm
  refine ⟨hd, ?_⟩
  have := visitAll_ok (commentHook re dflt opt) _ doc hd
  rw [removeComments, start, if_pos rfl, this] at h
  exact (Except.ok.inj h).symm

/-- **C26 (comments)** When the job succeeds, the result is the document without the comments that none
of the patterns matches, everything else unchanged and in order. -/
theorem comments_spec {re : Regex P} {dflt : List P} {opt : Option (List P)} {doc out : List (Node A)}
    (h : removeComments re dflt opt doc = .ok out) :
    outline out = remaining (plainComment re (opt.getD dflt)) id doc := by
  obtain ⟨-, rfl⟩ := comments_prune h
  rw [outline_prune (d := commentKeep re (opt.getD dflt)) (edits_own fun n as e => kept_own e)]
  congr 1
  funext n
  simp [commentKeep, kept_isNone]

/-- **C26 (comments)** The job fails exactly when, for some comment of the document, a pattern that is no
regular expression is reached, i.e. none of the patterns before it matches the comment. -/
theorem comments_error_iff (re : Regex P) (dflt : List P) (opt : Option (List P)) (doc : List (Node A)) :
    (∃ e, removeComments re dflt opt doc = .error e) ↔
      ∃ s, Occurs doc (.comment s) ∧ ∃ l p r, opt.getD dflt = l ++ p :: r ∧ re p = none ∧
        ∀ q ∈ l, ∃ m, re q = some m ∧ m s = false := by
  constructor
  · rintro ⟨e, h⟩
    false_or_by_contra
    rename_i hn
    have hd : ∀ m, Occurs doc m → commentHook re dflt opt m = .ok (commentKeep re (opt.getD dflt) m) := by
      intro m hm
      cases m with
      | comment s =>
        cases hp : preserved re s (opt.getD dflt) with
        | error e => exact absurd ⟨s, hm, preserved_error.1 hp⟩ hn
        | ok b =>
          simp only [commentHook, bind, Except.bind, hp, pure, Except.pure, commentKeep, plainComment]
          rw [preserved_ok hp]
          rfl
      | _ => rfl
    rw [removeComments, start, if_pos rfl, visitAll_ok _ _ doc hd] at h
    cases h
  · rintro ⟨s, hs, h⟩
    have he : commentHook re dflt opt (.comment s : Node A) = .error .invalidUserRegex := by
      have hp : preserved re s (opt.getD dflt) = .error .invalidUserRegex := preserved_error.2 h
      simp only [commentHook, hp]
      rfl
    obtain ⟨e, h'⟩ := visitAll_fails (commentHook re dflt opt) doc _ _ hs he
    exact ⟨e, by rw [removeComments, start, if_pos rfl, h']⟩

theorem commentKeep_head (re : Regex P) (ps : List P) (n : EName) (as : List A) (ks : List (Node A)) :
    commentKeep re ps (.elem n as ks) = some as := rfl

theorem occurs_prune {d : Node A → Option (List A)} (hd : ∀ n as ks as', d (.elem n as ks) = some as' → as' = as) :
    ∀ (doc : List (Node A)) (m : Node A), Occurs (pruneAll d doc) m → ∃ m', Occurs doc m' ∧ m.bare = m'.bare := by
  intro doc m ⟨anc, hm⟩
  have hf : Edits d id := ⟨fun n as ks as' e => by rw [hd n as ks as' e]; rfl, fun _ _ => rfl⟩
  have h := outline_prune hf doc
  have h1 : (anc.length + 1, m.bare) ∈ outline (pruneAll d doc) := by
    rw [outline_eq, List.mem_filterMap]
    exact ⟨_, hm, by rw [entry_cons]; rfl⟩
  rw [h, remaining_eq, List.mem_filterMap] at h1
  obtain ⟨l, hl, e⟩ := h1
  have hl' := (List.mem_filter.1 hl).1
  cases l with
  | nil => simp [entry] at e
  | cons x l =>
    rw [entry_cons] at e
    simp only [id, Option.some.injEq, Prod.mk.injEq] at e
    exact ⟨x, ⟨l, hl'⟩, e.2.symm⟩

/-- **C26 (comments)** A second run succeeds and changes nothing. -/
theorem comments_idem {re : Regex P} {dflt : List P} {opt : Option (List P)} {doc out : List (Node A)}
    (h : removeComments re dflt opt doc = .ok out) : removeComments re dflt opt out = .ok out := by
  obtain ⟨hd, rfl⟩ := comments_prune h
  rw [removeComments, start, if_pos rfl, visitAll_ok _ (commentKeep re (opt.getD dflt))]
  · rw [pruneAll_idem]
    intro nm as ks as' _ e
    rw [commentKeep_head] at e ⊢
  · intro m hm
    obtain ⟨m', hm', e⟩ := occurs_prune (fun n as ks as' e => by
      rw [commentKeep_head] at e; exact (Option.some.inj e).symm) doc m hm
    cases m with
    | comment s =>
      cases m' with
      | comment s' => simp only [Node.bare, Node.comment.injEq] at e; subst e; exact hd _ hm'
      | _ => simp [Node.bare] at e
    | _ => rfl

/-! ## Elements by name and processing instructions -/

theorem named_prune (name : String) (doc : List (Node A)) :
    visitAll (namedHook name) doc = .ok (pruneAll (fun n => kept (!isNamed name n) (own n)) doc) := by
  apply visitAll_ok
  intro m _
  cases m <;> rfl

theorem named_spec (name : String) (doc : List (Node A)) :
    ∃ out, start true (namedHook name) doc = .ok out ∧ outline out = remaining (isNamed name) id doc ∧
      start true (namedHook name) out = .ok out := by
  refine ⟨_, named_prune name doc, ?_, ?_⟩
  · rw [outline_prune (edits_own fun n as e => kept_own e)]
    congr 1
    funext n
    simp [kept_isNone]
  · rw [start, if_pos rfl, named_prune, pruneAll_idem]
    intro nm as ks as' _ e
    have := kept_own e
    rw [this] at e ⊢
    exact e

/-- **C26 (metadata)** Exactly the `metadata` elements go away, with what they contain; a second run
changes nothing. -/
theorem metadata_spec (doc : List (Node A)) : ∃ out, removeMetadata true doc = .ok out ∧
    outline out = remaining (isNamed "metadata") id doc ∧ removeMetadata true out = .ok out :=
  named_spec "metadata" doc

/-- **C26 (title)** Exactly the `title` elements go away. -/
theorem title_spec (doc : List (Node A)) : ∃ out, removeTitle true doc = .ok out ∧
    outline out = remaining (isNamed "title") id doc ∧ removeTitle true out = .ok out :=
  named_spec "title" doc

/-- **C26 (style elements)** Exactly the `style` elements go away. -/
theorem styleElement_spec (doc : List (Node A)) : ∃ out, removeStyleElement true doc = .ok out ∧
    outline out = remaining (isNamed "style") id doc ∧ removeStyleElement true out = .ok out :=
  named_spec "style" doc

/-- **C26 (processing instructions)** Exactly the processing instructions with the target `xml` go away. -/
theorem procInst_spec (doc : List (Node A)) : ∃ out, removeProcInst true doc = .ok out ∧
    outline out = remaining isXmlDecl id doc ∧ removeProcInst true out = .ok out := by
  have hp : ∀ doc : List (Node A), visitAll procInstHook doc =
      .ok (pruneAll (fun n => kept (!isXmlDecl n) (own n)) doc) := by
    intro doc
    apply visitAll_ok
    intro m _
    cases m <;> rfl
  refine ⟨_, hp doc, ?_, ?_⟩
  · rw [outline_prune (edits_own fun n as e => kept_own e)]
    congr 1
    funext n
    simp [kept_isNone]
  · rw [removeProcInst, start, if_pos rfl, hp, pruneAll_idem]
    intro nm as ks as' _ e
    have := kept_own e
    rw [this]
    rfl

/-- **C26 (switches)** A job that is switched off leaves the document alone. -/
theorem off_spec (doc : List (Node A)) : removeMetadata false doc = .ok doc ∧ removeTitle false doc = .ok doc ∧
    removeStyleElement false doc = .ok doc ∧ removeProcInst false doc = .ok doc := ⟨rfl, rfl, rfl, rfl⟩

/-! ## Descriptions -/

/-- The decision of the description job. -/
def descKeep (white : Char → Bool) (removeAny : Bool) (n : Node A) : Option (List A) :=
  kept (!uselessDesc white removeAny n) (own n)

theorem desc_prune (white : Char → Bool) (removeAny : Bool) (doc : List (Node A)) :
    removeDesc white removeAny doc = .ok (pruneAll (descKeep white removeAny) doc) := by
  apply visitAll_ok
  intro m _
  cases m with
  | elem n as ks =>
    have h1 : ∀ k : Node A, isStandardText k = (match k with
          | .text s => "Created with".toList.isPrefixOf s || "Created using".toList.isPrefixOf s
          | _ => false) := by
      intro k; cases k <;> rfl
    have h2 : ∀ k : Node A, k.isBlankText white = (match k with | .text s => s.all white | _ => false) := by
      intro k; cases k <;> rfl
    simp only [descHook, descKeep, uselessDesc, isEmpty, h2, own, funext h1]
    cases hn : n.is "desc"
    · simp [kept]
    · simp
  | _ => rfl

/-- **C26 (descriptions)** Exactly the descriptions that are empty or name an editor, or all of them if
asked for, go away. -/
theorem desc_spec (white : Char → Bool) (removeAny : Bool) (doc : List (Node A)) :
    ∃ out, removeDesc white removeAny doc = .ok out ∧ outline out = remaining (uselessDesc white removeAny) id doc := by
  refine ⟨_, desc_prune white removeAny doc, ?_⟩
  rw [outline_prune (d := descKeep white removeAny) (edits_own fun n as e => kept_own e)]
  congr 1
  funext n
  simp [kept_isNone, descKeep]

theorem prune_kids_same {d : Node A → Option (List A)} (ks : List (Node A))
    (h : ∀ k ∈ ks, ∃ k', prune d k = [k'] ∧ k'.bare = k.bare) :
    ∀ p : Node A → Bool, (∀ x, p x = p x.bare) → (pruneAll d ks).all p = ks.all p ∧ (pruneAll d ks).any p = ks.any p := by
  intro p hp
  induction ks with
  | nil => simp [pruneAll]
  | cons k ks ih =>
    obtain ⟨k', h1, h2⟩ := h k (by simp)
    have := ih fun x hx => h x (by simp [hx])
    simp only [pruneAll, h1, List.singleton_append, List.all_cons, List.any_cons, this]
    rw [hp k', h2, ← hp k]
    exact ⟨rfl, rfl⟩

/-- **C26 (descriptions)** A second run changes nothing if all descriptions are removed, or if no
description is a child of another one. -/
theorem desc_idem_partial (white : Char → Bool) (removeAny : Bool) (doc out : List (Node A))
    (hnest : removeAny = true ∨ ∀ n as ks, Occurs doc (.elem n as ks) → n.is "desc" = true →
      ∀ n' as' ks', (.elem n' as' ks' : Node A) ∈ ks → n'.is "desc" = false)
    (h : removeDesc white removeAny doc = .ok out) : removeDesc white removeAny out = .ok out := by
  rw [desc_prune] at h
  cases h
  rw [desc_prune, pruneAll_idem]
  intro nm as ks as' hocc e
  have := kept_own e
  change as' = as at this
  subst this
  by_cases hn : nm.is "desc" = true
  · rcases hnest with rfl | hnest
    · simp [descKeep, uselessDesc, hn, kept] at e
    · have hkids : ∀ k ∈ ks, ∃ k', prune (descKeep white removeAny) k = [k'] ∧ k'.bare = k.bare := by
        intro k hk
        cases k with
        | elem n' as'' ks' =>
          have := hnest nm as' ks hocc hn n' as'' ks' hk
          refine ⟨.elem n' as'' (pruneAll (descKeep white removeAny) ks'), ?_, rfl⟩
          simp [prune, descKeep, uselessDesc, this, kept, rebuild, own]
        | _ => exact ⟨_, rfl, rfl⟩
      have h1 := (prune_kids_same ks hkids (fun k => match k with | .text s => s.all white | _ => false)
        (by intro x; cases x <;> rfl)).1
      have h2 := (prune_kids_same ks hkids (fun k => match k with
          | .text s => "Created with".toList.isPrefixOf s || "Created using".toList.isPrefixOf s
          | _ => false) (by intro x; cases x <;> rfl)).2
      simp only [descKeep, uselessDesc, h1, h2, own] at e ⊢
      exact e
  · simp [descKeep, uselessDesc, hn, kept, own]

/-! ## Examples -/

/-- An SVG element name. -/
def svgName (s : String) : EName := ⟨.std .svg, lit s⟩

/-- An element without attributes. -/
def el (s : String) (ks : List (Node Unit)) : Node Unit := .elem (svgName s) [] ks

/-- The spaces of the examples. -/
def space (c : Char) : Bool := c == ' '

/-- **C26 (descriptions)** A description that becomes empty because the description in it was removed stays
until the next run. -/
theorem desc_violated : ∃ doc out : List (Node Unit), removeDesc space false doc = .ok out ∧
    ∃ out', removeDesc space false out = .ok out' ∧ outline out ≠ outline out' := by
  refine ⟨[el "svg" [el "desc" [el "desc" []]]], [el "svg" [el "desc" []]], rfl, [el "svg" []], rfl, ?_⟩
  intro h
  have := congrArg List.length h
  revert this
  decide

/-- Patterns of the examples: an initial letter, and something that is no regular expression. -/
def initial : Regex (Option Char)
  | some c => some fun s => s.head? == some c
  | none => none

/-- Adjacent comments, comments in a removed comment's neighbourhood and nested ones; `!` preserves. -/
def commented : List (Node Unit) :=
  [.comment "a".toList, .comment "!b".toList, el "svg" [.comment "c".toList, .comment "d".toList, .text "x".toList,
    el "g" [.comment "!".toList, .comment "e".toList]]]

example : removeComments initial [some '!'] none commented =
    .ok [.comment "!b".toList, el "svg" [.text "x".toList, el "g" [.comment "!".toList]]] := rfl

/-- The invalid pattern is reached by the first comment but is never looked at when all comments match
before. -/
example : removeComments initial [] (some [some '!', none]) commented = .error .invalidUserRegex ∧
    removeComments initial [] (some [some '!', none]) [.comment "!".toList, el "svg" []] =
      .ok [.comment "!".toList, el "svg" []] := ⟨rfl, rfl⟩

example : removeMetadata true [el "svg" [el "metadata" [el "g" []], el "metadata" [], .text "t".toList,
    el "g" [el "metadata" [.comment "c".toList], el "path" []]]] =
    .ok [el "svg" [.text "t".toList, el "g" [el "path" []]]] := rfl

example : removeDesc space false [el "svg" [el "desc" [.text "  ".toList], el "desc" [.text "hi".toList],
    el "desc" [el "g" [], .text "Created with love".toList]]] =
    .ok [el "svg" [el "desc" [.text "hi".toList]]] := rfl

example : removeProcInst true [.pi (lit "xml") none, .pi (lit "php") none, el "svg" [.pi (lit "xml") none]] =
    .ok [.pi (lit "php") none, el "svg" [] ] := rfl

end Verif.Removal
