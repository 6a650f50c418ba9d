import Verif.Colors.Spec

/-! # C71: converting colours -/

namespace Verif.Colors

variable {C V : Type}

theorem once_light (v : Content C V) : visitOnce .lightning v = v := by
  unfold visitOnce
  split <;> rfl

theorem content_light : ∀ v : Content C V, visitContent .lightning v = v
  | .color _ => rfl
  | .paint p => by simp only [visitContent, once_light]
  | .decoration _ _ => rfl
  | .list l => by
    simp only [visitContent, Content.list.injEq]
    exact List.map_id'' once_light l
  | .defined v => by simp only [visitContent, content_light v]
  | .other _ => rfl

theorem decl_light (d : Decl C V) : visitDecl .lightning d = d := by
  cases d
  simp only [visitDecl, Decl.mk.injEq, true_and, and_true]
  exact List.map_id'' (fun _ => rfl) _

theorem attr_light (a : Attr C V) : visitAttr .lightning a = a := by
  cases a with
  | style ds =>
    simp only [visitAttr, Attr.style.injEq]
    exact List.map_id'' decl_light ds
  | plain n v => simp only [visitAttr, content_light]

theorem element_masked (m : Method) {anc : List Bool} {mask : Bool} (h : mask = true ∨ true ∈ anc) (as : List (Attr C V)) :
    element m anc mask as = as := by
  have : (mask || anc.any id) = true := by
    rcases h with rfl | h
    · rfl
    · simp [h]
  simp only [element, this, Bool.true_and]
  cases m <;> exact List.map_id'' attr_light as

mutual
theorem visit_masked (m : Method) {anc : List Bool} (h : true ∈ anc) : ∀ n : Node C V, visit m anc n = n
  | .leaf _ => rfl
  | .sheet _ => rfl
  | .elem mask n as ks => by simp only [visit, element_masked m (.inr h) as, visitAll_masked m (.tail mask h) ks]
theorem visitAll_masked (m : Method) {anc : List Bool} (h : true ∈ anc) : ∀ ns : List (Node C V), visitAll m anc ns = ns
  | [] => rfl
  | n :: ns => by simp only [visitAll, visit_masked m h n, visitAll_masked m h ns]
end

theorem once_turned (v : Content C V) : Turned v (visitOnce .currentColor v) ∨ ((∀ u, ¬ Turned v u) ∧ visitOnce .currentColor v = v) := by
  cases v with
  | color c => exact .inl (.color c)
  | paint p =>
    cases p with
    | color c => exact .inl (.paint c)
    | url v f => exact .inl (.url v f)
    | other v => exact .inl (.otherPaint v)
  | decoration v c => exact .inl (.decoration v c)
  | list l => exact .inr ⟨fun u h => (by cases h), rfl⟩
  | defined c => exact .inr ⟨fun u h => (by cases h), rfl⟩
  | other v => exact .inl (.other v)

theorem zip_map {A : Type} {f : A → A} {l : List A} {a b : A} (h : (a, b) ∈ l.zip (l.map f)) : b = f a := by
  induction l with
  | nil => cases h
  | cons x l ih =>
    cases h with
    | head => rfl
    | tail _ h => exact ih h

theorem content_recoloured : ∀ v : Content C V, Recoloured v (visitContent .currentColor v)
  | .color c => .single (.color c)
  | .paint (.color c) => .single (.paint c)
  | .paint (.url v f) => .single (.url v f)
  | .paint (.other v) => .single (.otherPaint v)
  | .decoration v c => .single (.decoration v c)
  | .list l => .list (by simp) fun v w h => by rw [zip_map h]; exact once_turned v
  | .defined v => .defined (content_recoloured v)
  | .other v => .single (.other v)

theorem each_map {A : Type} {R : A → A → Prop} {f : A → A} (h : ∀ a, R a (f a)) (l : List A) : Each R l (l.map f) := by
  induction l with
  | nil => exact .nil
  | cons a l ih => exact .cons (h a) ih

theorem each_mem {A : Type} {R : A → A → Prop} {l r : List A} (h : Each R l r) {b : A} (hb : b ∈ r) : ∃ a ∈ l, R a b := by
  induction h with
  | nil => cases hb
  | cons h1 _ ih =>
    cases hb with
    | head => exact ⟨_, List.mem_cons_self, h1⟩
    | tail _ hb =>
      obtain ⟨a, ha, hr⟩ := ih hb
      exact ⟨a, .tail _ ha, hr⟩

theorem each_mem' {A : Type} {R : A → A → Prop} {l r : List A} (h : Each R l r) {a : A} (ha : a ∈ l) : ∃ b ∈ r, R a b := by
  induction h with
  | nil => cases ha
  | cons h1 _ ih =>
    cases ha with
    | head => exact ⟨_, List.mem_cons_self, h1⟩
    | tail _ ha =>
      obtain ⟨b, hb, hr⟩ := ih ha
      exact ⟨b, .tail _ hb, hr⟩

theorem decl_re (d : Decl C V) : Redeclared d (visitDecl .currentColor d) := by
  refine ⟨rfl, rfl, by simp [visitDecl], fun c hc => ?_⟩
  obtain ⟨x, _, rfl⟩ := List.mem_map.1 hc
  rfl

theorem attr_re (a : Attr C V) : Attr.Re a (visitAttr .currentColor a) := by
  cases a with
  | style ds => exact .style (each_map decl_re ds)
  | plain n v => exact .plain n (content_recoloured v)

mutual
theorem visit_done {anc : List Bool} (h : true ∉ anc) : ∀ n : Node C V, Done n (visit .currentColor anc n)
  | .leaf v => .leaf v
  | .sheet r => .sheet r
  | .elem true n as ks => by
    simp only [visit, element_masked .currentColor (.inl rfl) as, visitAll_masked .currentColor (anc := true :: anc) List.mem_cons_self ks]
    exact .mask n as ks
  | .elem false n as ks => by
    have : anc.any id = false := by
      rw [List.any_eq_false]
      rintro b hb rfl
      exact h hb
    have e : element .currentColor anc false as = as.map (visitAttr .currentColor) := by simp [element, this]
    simp only [visit, e]
    exact .elem n (each_map attr_re as) (visitAll_done (by simpa using h) ks)
theorem visitAll_done {anc : List Bool} (h : true ∉ anc) : ∀ ns : List (Node C V), DoneAll ns (visitAll .currentColor anc ns)
  | [] => .nil
  | n :: ns => .cons (visit_done h n) (visitAll_done h ns)
end

/-- **C71 (exactly the result)**: with `currentColor`, the colours of all attributes of elements outside of masks are replaced, and nothing else
changes. -/
theorem run_exact (doc : List (Node C V)) : DoneAll doc (run (some .currentColor) doc) := visitAll_done (by simp) doc

/-- **C71 (the other methods)**: by default nothing changes. -/
theorem run_same (m : Option Method) (h : m ≠ some .currentColor) (doc : List (Node C V)) : run m doc = doc := by
  unfold run
  split
  · exact absurd rfl h
  · rfl

/-- What becomes of a chain of elements. -/
inductive Conv : List (El C V) → List (El C V) → Prop
  | nil : Conv [] []
  | outside (n : V) {as bs : List (Attr C V)} {l r : List (El C V)} : Each Attr.Re as bs → Conv l r → Conv (⟨false, n, as⟩ :: l) (⟨false, n, bs⟩ :: r)
  | mask (n : V) (as : List (Attr C V)) (l : List (El C V)) : Conv (⟨true, n, as⟩ :: l) (⟨true, n, as⟩ :: l)

theorem done_mem {doc out : List (Node C V)} (h : DoneAll doc out) {b : Node C V} (hb : b ∈ out) : ∃ a ∈ doc, Done a b := by
  induction doc generalizing out with
  | nil => cases h; cases hb
  | cons a doc ih =>
    cases h with
    | cons h1 h2 =>
      cases hb with
      | head => exact ⟨a, List.mem_cons_self, h1⟩
      | tail _ hb =>
        obtain ⟨x, hx, hd⟩ := ih h2 hb
        exact ⟨x, .tail _ hx, hd⟩

theorem done_mem' {doc out : List (Node C V)} (h : DoneAll doc out) {a : Node C V} (ha : a ∈ doc) : ∃ b ∈ out, Done a b := by
  induction doc generalizing out with
  | nil => cases ha
  | cons x doc ih =>
    cases h with
    | cons h1 h2 =>
      cases ha with
      | head => exact ⟨_, List.mem_cons_self, h1⟩
      | tail _ ha =>
        obtain ⟨b, hb, hd⟩ := ih h2 ha
        exact ⟨b, .tail _ hb, hd⟩

theorem at_back {out : List (Node C V)} {ch : List (El C V)} (h : At out ch) : ∀ {doc}, DoneAll doc out → ∃ ch0, At doc ch0 ∧ Conv ch0 ch := by
  induction h with
  | here hm =>
    intro doc hd
    obtain ⟨a, ha, h1⟩ := done_mem hd hm
    cases h1 with
    | mask => exact ⟨_, .here ha, .mask _ _ _⟩
    | elem _ h2 _ => exact ⟨_, .here ha, .outside _ h2 .nil⟩
  | deep hm hin ih =>
    intro doc hd
    obtain ⟨a, ha, h1⟩ := done_mem hd hm
    cases h1 with
    | mask => exact ⟨_, .deep ha hin, .mask _ _ _⟩
    | elem _ h2 h3 =>
      obtain ⟨ch0, h4, h5⟩ := ih h3
      exact ⟨_, .deep ha h4, .outside _ h2 h5⟩

theorem at_forth {doc : List (Node C V)} {ch : List (El C V)} (h : At doc ch) : ∀ {out}, DoneAll doc out → ∃ ch', At out ch' ∧ Conv ch ch' := by
  induction h with
  | here hm =>
    intro out hd
    obtain ⟨b, hb, h1⟩ := done_mem' hd hm
    cases h1 with
    | mask => exact ⟨_, .here hb, .mask _ _ _⟩
    | elem _ h2 _ => exact ⟨_, .here hb, .outside _ h2 .nil⟩
  | deep hm hin ih =>
    intro out hd
    obtain ⟨b, hb, h1⟩ := done_mem' hd hm
    cases h1 with
    | mask => exact ⟨_, .deep hb hin, .mask _ _ _⟩
    | elem _ h2 h3 =>
      obtain ⟨ch0, h4, h5⟩ := ih h3
      exact ⟨_, .deep hb h4, .outside _ h2 h5⟩

theorem turned_is {v w : Content C V} (h : Turned v w) {c : Color C} (hc : Is w c) : c = .current := by
  cases h <;> cases hc <;> rfl

theorem recoloured_is {v w : Content C V} (h : Recoloured v w) {c : Color C} (hc : Is w c) : c = .current := by
  induction h with
  | single h => exact turned_is h hc
  | list => cases hc
  | defined _ ih => cases hc with | defined hc => exact ih hc

theorem re_says {as bs : List (Attr C V)} (h : Each Attr.Re as bs) {p : String} {c : Color C} (hs : Says bs p c) : c = .current := by
  cases hs with
  | style hm hd =>
    obtain ⟨a, _, hr⟩ := each_mem h hm
    cases hr with
    | style he =>
      obtain ⟨x, d, y, e, _, hc, _⟩ := hd
      obtain ⟨d0, _, hr⟩ := each_mem he (b := d) (by rw [e]; simp)
      exact hr.2.2.2 c (by rw [hc]; simp)
  | plain _ hm hi =>
    obtain ⟨a, _, hr⟩ := each_mem h hm
    cases hr with
    | plain _ hv => exact recoloured_is hv hi

theorem conv_outside {l r : List (El C V)} (h : Conv l r) (hm : ∀ e ∈ r, e.mask = false) : ∀ e ∈ r, ∀ p c, Says e.attrs p c → c = .current := by
  induction h with
  | nil => intro e he; cases he
  | outside n h1 _ ih =>
    intro e he p c hs
    cases he with
    | head => exact re_says h1 hs
    | tail _ he => exact ih (fun e he => hm e (.tail _ he)) e he p c hs
  | mask n as l => cases hm _ List.mem_cons_self

theorem text_skip {outs ins : List (El C V)} (h : ∀ e ∈ outs, ∀ c, ¬ Says e.attrs "color" (.other c)) (outer r : C) :
    Text outer (outs ++ ins) r ↔ Text outer ins r := by
  induction outs with
  | nil => rfl
  | cons e outs ih =>
    have ih := ih fun x hx => h x (.tail _ hx)
    rw [List.cons_append, ← ih]
    constructor
    · intro ht
      cases ht with
      | said hs _ => exact absurd hs (h e List.mem_cons_self _)
      | unsaid _ ht => exact ht
    · exact fun ht => .unsaid (h e List.mem_cons_self) ht

theorem text_only {ch : List (El C V)} (h : ∀ e ∈ ch, ∀ c, ¬ Says e.attrs "color" (.other c)) (outer r : C) : Text outer ch r ↔ r = outer := by
  have := text_skip (ins := []) h outer r
  rw [List.append_nil] at this
  rw [this]
  constructor
  · intro ht
    cases ht
    rfl
  · rintro rfl
    exact .nil _

/-- **C71 (every colour that is said)**: outside of masks, every property that an element sets to a colour is `currentColor`. -/
theorem said_current {doc : List (Node C V)} {ch : List (El C V)} (h : At (run (some .currentColor) doc) ch) (hm : ∀ e ∈ ch, e.mask = false)
    {e : El C V} (he : e ∈ ch) {p : String} {c : Color C} (hs : Says e.attrs p c) : c = .current := by
  obtain ⟨ch0, _, hc⟩ := at_back h (run_exact doc)
  exact conv_outside hc hm e he p c hs

/-- **C71 (the colour of the text around the document)**: outside of masks, every colour that an element sets is the one that the document gets from
where it is used. -/
theorem uses_outer {doc : List (Node C V)} {ch : List (El C V)} (h : At (run (some .currentColor) doc) ch) (hm : ∀ e ∈ ch, e.mask = false)
    {outer c : C} {p : String} (hu : Uses outer ch p c) : c = outer := by
  have hs : ∀ e ∈ ch, ∀ p c, Says e.attrs p c → c = .current := fun e he p c hs => said_current h hm he hs
  have ht : ∀ r, Text outer ch r ↔ r = outer := text_only (fun e he c hc => by cases hs e he _ _ hc) outer
  cases hu with
  | other e hc _ => cases hs _ (by rw [e]; simp) _ _ hc
  | current _ _ _ h => exact (ht _).1 h
  | color _ h => exact (ht _).1 h

/-- **C71 (masks)**: elements from a mask on keep what they say; the colour that they inherit is no longer that of the elements around the mask. -/
theorem mask_exact {doc : List (Node C V)} {outs ins : List (El C V)} {m : El C V} (h : At doc (outs ++ m :: ins)) (ho : ∀ e ∈ outs, e.mask = false)
    (hm : m.mask = true) : ∃ outs', outs'.length = outs.length ∧ At (run (some .currentColor) doc) (outs' ++ m :: ins) ∧
      ∀ outer r, Text outer (outs' ++ m :: ins) r ↔ Text outer (m :: ins) r := by
  obtain ⟨ch', h1, h2⟩ := at_forth h (run_exact doc)
  have key : ∀ {l r : List (El C V)}, Conv l r → ∀ outs, (∀ e ∈ outs, e.mask = false) → l = outs ++ m :: ins →
      ∃ outs', outs'.length = outs.length ∧ r = outs' ++ m :: ins ∧ ∀ e ∈ outs', ∀ c, ¬ Says e.attrs "color" (.other c) := by
    intro l r hc
    induction hc with
    | nil => intro outs _ e; cases outs <;> simp at e
    | outside n h1 _ ih =>
      intro outs ho e
      cases outs with
      | nil =>
        simp only [List.nil_append, List.cons.injEq] at e
        rw [← e.1] at hm
        cases hm
      | cons o outs =>
        simp only [List.cons_append, List.cons.injEq] at e
        obtain ⟨outs', hl, e', hs⟩ := ih outs (fun e he => ho e (.tail _ he)) e.2
        refine ⟨⟨false, n, _⟩ :: outs', by simp [hl], by rw [e']; rfl, fun x hx c hc => ?_⟩
        cases hx with
        | head => cases re_says h1 hc
        | tail _ hx => exact hs x hx c hc
    | mask n as l =>
      intro outs ho e
      cases outs with
      | nil => exact ⟨[], rfl, e, fun _ hx => by cases hx⟩
      | cons o outs =>
        simp only [List.cons_append, List.cons.injEq] at e
        have := ho o List.mem_cons_self
        rw [← e.1] at this
        cases this
  obtain ⟨outs', hl, e, hs⟩ := key h2 outs ho rfl
  subst e
  exact ⟨outs', hl, h1, fun outer r => text_skip hs outer r⟩

end Verif.Colors
