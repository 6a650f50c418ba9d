import Verif.Colors.Props

/-! # C71: which colours stay, which masks change, and examples -/

namespace Verif.Colors

variable {C V : Type}

/-- A node of a document, at any depth. -/
inductive Within : List (Node C V) → Node C V → Prop
  | here {doc : List (Node C V)} {n : Node C V} : n ∈ doc → Within doc n
  | deep {doc ks : List (Node C V)} {m : Bool} {n : V} {as : List (Attr C V)} {x : Node C V} : .elem m n as ks ∈ doc → Within ks x → Within doc x

/-- **C71 (violated by style sheets)**: every rule of every style sheet keeps its colours. -/
theorem sheet_violated {doc : List (Node C V)} {rules : List (V × List (Decl C V))} (h : Within doc (.sheet rules)) :
    Within (run (some .currentColor) doc) (.sheet rules) := by
  have key : ∀ {doc : List (Node C V)} {x : Node C V}, Within doc x → x = .sheet rules → ∀ {out}, DoneAll doc out → Within out x := by
    intro doc x h
    induction h with
    | here hm =>
      rintro rfl out hd
      obtain ⟨b, hb, h1⟩ := done_mem' hd hm
      cases h1
      exact .here hb
    | deep hm hin ih =>
      intro e out hd
      obtain ⟨b, hb, h1⟩ := done_mem' hd hm
      cases h1 with
      | mask => exact .deep hb hin
      | elem _ _ h3 => exact .deep hb (ih e h3)
  exact key h rfl (run_exact doc)

/-- **C71 (violated by colours to fall back to)**: a paint that refers to something keeps the colour for when that is missing. -/
theorem fallback_violated {doc : List (Node C V)} {ch : List (El C V)} {e : El C V} (h : At doc (ch ++ [e])) {n : String} {v : V} {f : Option (Color C)}
    (ha : .plain n (.defined (.paint (.url v f))) ∈ e.attrs) : ∃ ch' e', At (run (some .currentColor) doc) (ch' ++ [e']) ∧ ch'.length = ch.length ∧
      .plain n (.defined (.paint (.url v f))) ∈ e'.attrs := by
  obtain ⟨out, h1, h2⟩ := at_forth h (run_exact doc)
  have key : ∀ {l r : List (El C V)}, Conv l r → ∀ ch, l = ch ++ [e] →
      ∃ ch' e', r = ch' ++ [e'] ∧ ch'.length = ch.length ∧ Attr.plain n (.defined (.paint (.url v f))) ∈ e'.attrs := by
    intro l r hc
    induction hc with
    | nil => intro ch e; cases ch <;> simp at e
    | outside m h1 h3 ih =>
      intro ch he
      cases ch with
      | nil =>
        simp only [List.nil_append, List.cons.injEq] at he
        obtain ⟨he, rfl⟩ := he
        subst he
        cases h3
        obtain ⟨b, hb, hr⟩ := each_mem' h1 ha
        refine ⟨[], _, rfl, rfl, ?_⟩
        cases hr with
        | plain _ hv =>
          cases hv with
          | single h => cases h
          | defined h =>
            cases h with
            | single h => cases h; exact hb
      | cons o ch =>
        simp only [List.cons_append, List.cons.injEq] at he
        obtain ⟨ch', e', h6, h4, h5⟩ := ih ch he.2
        exact ⟨_ :: ch', e', by rw [h6]; rfl, by simp [h4], h5⟩
    | mask n as l =>
      intro ch he
      exact ⟨ch, e, he, rfl, ha⟩
  obtain ⟨ch', e', rfl, hl, hm⟩ := key h2 ch rfl
  exact ⟨ch', e', h1, hl, hm⟩

theorem text_append {l : List (El C V)} (hn : ∀ x ∈ l, ∀ c, ¬ Says x.attrs "color" (.other c)) {ch : List (El C V)} {o r : C} (h : Text o ch r) :
    Text o (ch ++ l) r := by
  induction h with
  | nil => exact (text_only hn _ _).2 rfl
  | said h1 _ ih => exact .said h1 ih
  | unsaid h1 _ ih => exact .unsaid h1 ih

/-- **C71 (violated by masks)**: an element in a mask that uses `currentColor`, with the colour of an element around the mask, uses another colour
afterwards, though masks are to stay as they are. -/
theorem mask_violated {doc : List (Node C V)} {outs l : List (El C V)} {m e : El C V} {ins : List (El C V)} (h : At doc (outs ++ m :: ins))
    (ho : ∀ e ∈ outs, e.mask = false) (hm : m.mask = true) (hl : m :: ins = l ++ [e]) {outer c : C} (hne : c ≠ outer) (ht : Text outer outs c)
    (hn : ∀ x ∈ m :: ins, ∀ c, ¬ Says x.attrs "color" (.other c)) {p : String} (hp : p ≠ "color") (hs : Says e.attrs p .current)
    (hu : ∀ c, Says e.attrs p c → c = .current) : Uses outer (outs ++ m :: ins) p c ∧
      ∃ outs', At (run (some .currentColor) doc) (outs' ++ m :: ins) ∧ Uses outer (outs' ++ m :: ins) p outer ∧
        ¬ Uses outer (outs' ++ m :: ins) p c := by
  constructor
  · refine .current (l := outs ++ l) (e := e) (by rw [hl, List.append_assoc]) hs hp ?_
    exact text_append hn ht
  · obtain ⟨outs', _, h1, h2⟩ := mask_exact h ho hm
    have h3 : ∀ r, Text outer (outs' ++ m :: ins) r ↔ r = outer := fun r => (h2 outer r).trans (text_only hn outer r)
    have he : outs' ++ m :: ins = (outs' ++ l) ++ [e] := by rw [hl, List.append_assoc]
    refine ⟨outs', h1, .current he hs hp ((h3 _).2 rfl), fun hu' => ?_⟩
    cases hu' with
    | other e' hc _ =>
      rw [he] at e'
      have := (List.append_inj' e' rfl).2
      simp only [List.cons.injEq, and_true] at this
      subst this
      cases hu _ hc
    | current _ _ _ h => exact hne ((h3 _).1 h)
    | color hc _ => exact hp hc

/-- A group of colour 1 with a path that is filled with colour 2 and has colour 3 to fall back to for its stroke, and a mask, in which a path takes the
colour of the group. -/
def sample : List (Node Nat String) :=
  [.elem false "svg" [] [.sheet [("path", [⟨"fill", [.other 7], ""⟩])],
    .elem false "g" [.plain "color" (.defined (.color (.other 1)))] [
      .elem false "path" [.plain "fill" (.defined (.paint (.color (.other 2)))), .plain "stroke" (.defined (.paint (.url "#a" (some (.other 3)))))] [],
      .elem false "path" [.style [⟨"fill", [.other 4], ""⟩, ⟨"filter", [.other 5, .other 6], "drop-shadow"⟩]] [],
      .elem true "mask" [] [.elem false "path" [.plain "fill" (.defined (.paint (.color .current)))] []]]]]

example : run (some .currentColor) sample =
    [.elem false "svg" [] [.sheet [("path", [⟨"fill", [.other 7], ""⟩])],
      .elem false "g" [.plain "color" (.defined (.color .current))] [
        .elem false "path" [.plain "fill" (.defined (.paint (.color .current))), .plain "stroke" (.defined (.paint (.url "#a" (some (.other 3)))))] [],
        .elem false "path" [.style [⟨"fill", [.current], ""⟩, ⟨"filter", [.current, .current], "drop-shadow"⟩]] [],
        .elem true "mask" [] [.elem false "path" [.plain "fill" (.defined (.paint (.color .current)))] []]]]] := rfl

example : run none sample = sample := run_same none (by simp) sample

/-- The chain to the path in the mask. -/
def outs : List (El Nat String) := [⟨false, "svg", []⟩, ⟨false, "g", [.plain "color" (.defined (.color (.other 1)))]⟩]

/-- The path in the mask was of colour 1, and is of colour 0, if that is around the document. -/
example : Uses 0 (outs ++ [⟨true, "mask", []⟩, ⟨false, "path", [.plain "fill" (.defined (.paint (.color .current)))]⟩]) "fill" 1 ∧
    ∃ outs', At (run (some .currentColor) sample) (outs' ++ [⟨true, "mask", []⟩, ⟨false, "path", [.plain "fill" (.defined (.paint (.color .current)))]⟩]) ∧
      Uses 0 (outs' ++ [⟨true, "mask", []⟩, ⟨false, "path", [.plain "fill" (.defined (.paint (.color .current)))]⟩]) "fill" 0 ∧
      ¬ Uses 0 (outs' ++ [⟨true, "mask", []⟩, ⟨false, "path", [.plain "fill" (.defined (.paint (.color .current)))]⟩]) "fill" 1 := by
  refine mask_violated (l := [⟨true, "mask", []⟩]) (ins := [⟨false, "path", [.plain "fill" (.defined (.paint (.color .current)))]⟩]) (doc := sample) ?_ ?_ rfl rfl (by decide) ?_ ?_ (by decide) ?_ ?_
  · exact .deep (.head _) (.deep (.tail _ (.head _)) (.deep (.tail _ (.tail _ (.head _))) (.here (.head _))))
  · intro e he
    simp only [outs, List.mem_cons, List.not_mem_nil, or_false] at he
    rcases he with rfl | rfl <;> rfl
  · refine .unsaid (fun c h => ?_) (.said (.plain (fun ds h => ?_) (.head _) (.defined (.color _))) (.nil _))
    · cases h with
      | style h => cases h
      | plain _ h => cases h
    · simp at h
  · intro x hx c h
    simp only [List.mem_cons, List.not_mem_nil, or_false] at hx
    rcases hx with rfl | rfl
    · cases h with
      | style h => cases h
      | plain _ h => cases h
    · cases h with
      | style h => simp at h
      | plain _ h => simp at h
  · exact .plain (fun ds h => by simp at h) (.head _) (.defined (.paint _))
  · intro c h
    cases h with
    | style h => simp at h
    | plain _ h hi =>
      simp only [List.mem_cons, List.not_mem_nil, or_false, Attr.plain.injEq, true_and] at h
      subst h
      cases hi with
      | defined hi => cases hi; rfl

end Verif.Colors
