import Verif.Gradients.Props

/-! # C75: limits, and examples -/

namespace Verif.Gradients

open Verif.Names (Str lit)

variable {C V : Type}

/-- A gradient that goes is no longer there for the paints that refer to it, and these stay if the gradient is not turned into a colour. -/
theorem run_lost (ord : List Nat → List Nat) (doc : List (Node C V)) (hd : Single doc) (hi : ((elems doc).filterMap idOf).Nodup) (h : Nat) (e : Elem C V)
    (ks : List (Node C V)) (i : Str) (hm : .elem h .gradient e ks ∈ elems doc) (he : e.id = some i) (hs : fate doc e ks ≠ .stays) :
    ∃ out, run ord true doc = some out ∧ (∀ t ∈ servers out, t.id ≠ some i) ∧ ((∀ c, fate doc e ks ≠ .turns (some c)) → ∃ f : Paint C V → Paint C V,
      lasting out = (lasting doc).map (fun x => (x.1, x.2.map f)) ∧ ∀ b, f (.url (35 :: i) b) = .url (35 :: i) b) := by
  obtain ⟨out, h1, h2, h3⟩ := run_single ord doc hd
  refine ⟨out, h1, fun t ht hti => ?_, fun hc => ⟨_, h3, fun b => ?_⟩⟩
  · rw [h2, List.mem_filter, Bool.not_eq_true', ← Bool.not_eq_true, List.contains_iff_mem] at ht
    obtain ⟨h', e', ks', hm', rfl⟩ := (mem_servers doc).1 ht.1
    have := unique_id hi hm hm' he hti
    cases this
    exact ht.2 (mem_gone.2 ⟨e, ks, hm, hs⟩)
  · rcases applied_url (changes doc (elems doc)) (35 :: i) b with ⟨ha, _⟩ | ⟨⟨j, c⟩, hx, hu, _⟩
    · exact ha
    · cases hu
      obtain ⟨h', e', ks', hm', hj, hf⟩ := mem_changes.1 hx
      have := unique_id hi hm hm' he hj
      cases this
      exact absurd hf (hc c)

/-- **C75 (a stop without a colour)**: a gradient with one stop whose colour is not found, as that of a stop without `stop-color`, which is black, is removed
all the same; what was painted with it is painted with the fallback, or not at all. -/
theorem color_violated (ord : List Nat → List Nat) (doc : List (Node C V)) (hd : Single doc) (hi : ((elems doc).filterMap idOf).Nodup) (h : Nat) (e : Elem C V)
    (ks : List (Node C V)) (i : Str) (hm : .elem h .gradient e ks ∈ elems doc) (he : e.id = some i) (stop : Node C V) (hs : ks.filter isStop = [stop])
    (hc : colorOf stop = none) : ∃ out, run ord true doc = some out ∧ (∀ t ∈ servers out, t.id ≠ some i) ∧ ∃ f : Paint C V → Paint C V,
      lasting out = (lasting doc).map (fun x => (x.1, x.2.map f)) ∧ ∀ b, f (.url (35 :: i) b) = .url (35 :: i) b := by
  have hf : fate doc e ks = .turns none := by
    unfold fate effective
    rw [hs]
    simp only [hs, hc]
  obtain ⟨out, h1, h2, h3⟩ := run_lost ord doc hd hi h e ks i hm he (by rw [hf]; simp)
  exact ⟨out, h1, h2, h3 (by rw [hf]; simp)⟩

/-- **C75 (a template that is missing)**: a gradient without stops whose template is missing paints nothing; it is removed, and the fallback is painted. -/
theorem template_violated {S : Type} (plain : C → S) (look : V → S) (ord : List Nat → List Nat) (doc : List (Node C V)) (hd : Single doc)
    (hi : ((elems doc).filterMap idOf).Nodup) (h : Nat) (e : Elem C V) (ks : List (Node C V)) (i j : Str) (hm : .elem h .gradient e ks ∈ elems doc)
    (he : e.id = some i) (hs : ks.filter isStop = []) (hl : e.href = some (35 :: j)) (hx : e.xlink = none) (hj : ∀ n ∈ elems doc, idOf n ≠ some j) (b : Option V) :
    Sees plain look (servers doc) (.url (35 :: i) b) .nothing ∧ ∃ out, run ord true doc = some out ∧ ∃ f : Paint C V → Paint C V,
      lasting out = (lasting doc).map (fun x => (x.1, x.2.map f)) ∧ Sees plain look (servers out) (f (.url (35 :: i) b)) (.fallback b) := by
  have hst : stopsOf ks = [] := by
    obtain ⟨l, h1, h2⟩ := stopsOf_filter ks
    rw [hs] at h1
    cases l with
    | nil => exact h2
    | cons => cases h1
  have hf : fate doc e ks = .goes := by
    have : (breadthFirst doc).find? (fun n => decide (idOf n = some j)) = none := by
      rw [List.find?_eq_none]
      intro n hn hj'
      exact hj n (mem_breadthFirst.1 hn) (of_decide_eq_true hj')
    unfold fate effective
    rw [hs]
    simp only [hx, hl, Option.none_or, this, Option.map_none]
  have hsm : (⟨h, e.id, e.href.or e.xlink, stopsOf ks⟩ : Server V) ∈ servers doc := (mem_servers doc).2 ⟨h, e, ks, hm, rfl⟩
  refine ⟨.nothing b hsm he (.bare hst fun k hk t ht hti => ?_), ?_⟩
  · simp only [hl, hx, Option.some_or, Option.some.injEq, List.cons.injEq, true_and] at hk
    subst hk
    obtain ⟨h', e', ks', hm', rfl⟩ := (mem_servers doc).1 ht
    exact hj _ hm' hti
  · obtain ⟨out, h1, h2, h3⟩ := run_lost ord doc hd hi h e ks i hm he (by rw [hf]; simp)
    obtain ⟨f, h4, h5⟩ := h3 (by rw [hf]; simp)
    exact ⟨out, h1, f, h4, by rw [h5]; exact .missing b h2⟩

/-- **C75 (the template of another gradient)**: a gradient of one stop is removed even if it is the template of a gradient that stays, which loses its
geometry. -/
theorem geometry_violated (ord : List Nat → List Nat) (doc : List (Node C V)) (hd : Single doc) (hi : ((elems doc).filterMap idOf).Nodup) (h g : Nat)
    (e e' : Elem C V) (ks ks' : List (Node C V)) (i : Str) (hm : .elem h .gradient e ks ∈ elems doc) (he : e.id = some i) (stop : Node C V)
    (hs : ks.filter isStop = [stop]) (hm' : .elem g .gradient e' ks' ∈ elems doc) (hl : e'.href = some (35 :: i)) (hs' : 1 < (ks'.filter isStop).length) :
    ∃ out, run ord true doc = some out ∧ (⟨g, e'.id, some (35 :: i), stopsOf ks'⟩ : Server V) ∈ servers out ∧ ∀ t ∈ servers out, t.id ≠ some i := by
  have hf : fate doc e ks = .turns (colorOf stop) := by
    unfold fate effective
    rw [hs]
    simp only [hs]
  have hf' : fate doc e' ks' = .stays := by
    unfold fate effective
    cases hx : ks'.filter isStop with
    | nil => rw [hx] at hs'; simp at hs'
    | cons a b =>
      cases b with
      | nil => rw [hx] at hs'; simp at hs'
      | cons c d => simp only [hx]
  obtain ⟨out, h1, h2, h3⟩ := run_single ord doc hd
  obtain ⟨out', h4, h5, _⟩ := run_lost ord doc hd hi h e ks i hm he (by rw [hf]; simp)
  rw [h1] at h4
  cases h4
  refine ⟨out, h1, ?_, h5⟩
  rw [h2, List.mem_filter, Bool.not_eq_true', ← Bool.not_eq_true, List.contains_iff_mem]
  refine ⟨(mem_servers doc).2 ⟨g, e', ks', hm', by rw [hl]; rfl⟩, fun hg => ?_⟩
  obtain ⟨e'', ks'', hm'', hn⟩ := mem_gone.1 hg
  obtain ⟨_, rfl, rfl⟩ := elems_one hd.numbers hm' hm''
  exact hn hf'

/-- **C75 (templates of templates)**: only one template is followed. If the template of a gradient has no stops, but a template with one, it is removed, and
the gradient has no stops any more. -/
theorem chain_violated (ord : List Nat → List Nat) (doc : List (Node C V)) (hd : Single doc) (hi : ((elems doc).filterMap idOf).Nodup) (a b c : Nat)
    (ea eb ec : Elem C V) (ka kb kc : List (Node C V)) (i j : Str) (ha : .elem a .gradient ea ka ∈ elems doc) (hb : .elem b .gradient eb kb ∈ elems doc)
    (hc : .elem c .gradient ec kc ∈ elems doc) (la : ea.href = some (35 :: i)) (xa : ea.xlink = none) (ib : eb.id = some i) (lb : eb.href = some (35 :: j))
    (xb : eb.xlink = none) (ic : ec.id = some j) (sa : ka.filter isStop = []) (sb : kb.filter isStop = []) (stop : Node C V) (sc : kc.filter isStop = [stop]) :
    (∃ v, Stops (servers doc) ⟨a, ea.id, some (35 :: i), []⟩ [v]) ∧ ∃ out, run ord true doc = some out ∧
      (⟨a, ea.id, some (35 :: i), []⟩ : Server V) ∈ servers out ∧ Stops (servers out) ⟨a, ea.id, some (35 :: i), []⟩ [] := by
  have nil : ∀ {ks : List (Node C V)}, ks.filter isStop = [] → stopsOf ks = [] := by
    intro ks h
    obtain ⟨l, h1, h2⟩ := stopsOf_filter ks
    rw [h] at h1
    cases l with
    | nil => exact h2
    | cons => cases h1
  have find : ∀ {n : Node C V} {k : Str}, n ∈ elems doc → idOf n = some k → (breadthFirst doc).find? (fun n => decide (idOf n = some k)) = some n := by
    intro n k hn hk
    cases hx : (breadthFirst doc).find? (fun n => decide (idOf n = some k)) with
    | none =>
      rw [List.find?_eq_none] at hx
      exact absurd (decide_eq_true hk) (hx _ (mem_breadthFirst.2 hn))
    | some m =>
      have h3 := List.find?_some hx
      rw [decide_eq_true_eq] at h3
      rw [unique_id hi (mem_breadthFirst.1 (List.mem_of_find?_eq_some hx)) hn h3 hk]
  have fa : fate doc ea ka = .stays := by
    unfold fate effective
    rw [sa]
    simp only [xa, la, Option.none_or, find hb ib, Option.map_some, kids, sb]
  have fb : fate doc eb kb ≠ .stays := by
    unfold fate effective
    rw [sb]
    simp only [xb, lb, Option.none_or, find hc ic, Option.map_some, kids, sc]
    simp
  have hsb : (⟨b, eb.id, eb.href.or eb.xlink, stopsOf kb⟩ : Server V) ∈ servers doc := (mem_servers doc).2 ⟨b, eb, kb, hb, rfl⟩
  have hsc : (⟨c, ec.id, ec.href.or ec.xlink, stopsOf kc⟩ : Server V) ∈ servers doc := (mem_servers doc).2 ⟨c, ec, kc, hc, rfl⟩
  obtain ⟨v, hv⟩ : ∃ v, stopsOf kc = [v] := by
    obtain ⟨l, h1, h2⟩ := stopsOf_filter kc
    rw [sc] at h1
    match l, h1 with
    | [x], _ => exact ⟨_, h2⟩
  refine ⟨⟨v, .via rfl rfl hsb ib (.via (nil sb) (by simp [lb]) hsc ic ?_)⟩, ?_⟩
  · rw [← hv]
    exact .own (by simp [hv])
  · obtain ⟨out, h1, h2, h3⟩ := run_single ord doc hd
    obtain ⟨out', h4, h5, _⟩ := run_lost ord doc hd hi b eb kb i hb ib fb
    rw [h1] at h4
    cases h4
    refine ⟨out, h1, ?_, .bare rfl fun k hk t ht => ?_⟩
    · rw [h2, List.mem_filter, Bool.not_eq_true', ← Bool.not_eq_true, List.contains_iff_mem]
      refine ⟨(mem_servers doc).2 ⟨a, ea, ka, ha, by rw [la, nil sa]; rfl⟩, fun hg => ?_⟩
      obtain ⟨e'', ks'', hm'', hn⟩ := mem_gone.1 hg
      obtain ⟨_, rfl, rfl⟩ := elems_one hd.numbers ha hm''
      exact hn fa
    · cases hk
      exact h5 t ht

/-- The leaves of a document. -/
def leaves : List (Node C V) → List (V × List (Paint C V))
  | [] => []
  | .leaf v s :: ns => (v, s) :: leaves ns
  | .elem _ _ _ ks :: ns => leaves ks ++ leaves ns

theorem leaves_update (i : Str) (c : C) (l : List (Node C V)) : leaves (update i c l) = leaves l := by
  induction l using forest with
  | nil => simp [update]
  | leaf v s ns ih => simp [update, leaves, ih]
  | elem h k e ks ns ih1 ih2 => simp [update, leaves, ih1, ih2]

theorem leaves_undeclare (g : Nat) (l : List (Node C V)) : leaves (undeclare g l) = leaves l := by
  induction l using forest with
  | nil => simp [undeclare]
  | leaf v s ns ih => simp [undeclare, leaves, ih]
  | elem h k e ks ns ih1 ih2 => simp [undeclare, leaves, ih1, ih2]

theorem leaves_detach (p : Nat → Bool) (l : List (Node C V)) : (leaves (detach p l)).Sublist (leaves l) := by
  induction l using forest with
  | nil => simp [detach]
  | leaf v s ns ih => simpa [detach, leaves] using ih
  | elem h k e ks ns ih1 ih2 =>
    rw [detach]
    split
    · rw [leaves]
      exact ih2.trans (List.sublist_append_right _ _)
    · rw [leaves, leaves]
      exact ih1.append ih2

theorem leaves_cleanDefs (a : List Nat) : ∀ (gs : List Nat) (l : List (Node C V)), (leaves (cleanDefs a gs l)).Sublist (leaves l)
  | [], l => List.Sublist.refl _
  | g :: gs, l => by
    rw [cleanDefs]
    refine (leaves_cleanDefs a gs _).trans ?_
    split
    · exact leaves_detach _ _
    · exact List.Sublist.refl _

theorem leaves_enter (p : Option Nat) (h : Nat) (k : Kind) (e : Elem C V) (ks : List (Node C V)) (s : State C V) :
    leaves (enter p h k e ks s).doc = leaves s.doc := by
  cases k with
  | gradient =>
    rw [enter_gradient]
    cases fate s.doc e ks with
    | stays => rfl
    | goes => rfl
    | turns c => cases e.id <;> cases c <;> simp [leaves_update]
  | _ => simp only [enter]; split <;> rfl

theorem leaves_walk (ord : List Nat → List Nat) (l : List (Node C V)) : ∀ p s t, walk ord p l s = some t → (leaves t.doc).Sublist (leaves s.doc) := by
  induction l using forest with
  | nil =>
    intro p s t h
    rw [walk] at h
    cases h
    exact List.Sublist.refl _
  | leaf v sh ns ih =>
    intro p s t h
    rw [walk] at h
    exact ih p s t h
  | elem h k e ks ns ih1 ih2 =>
    intro p s t hw
    rw [walk, Option.bind_eq_bind, Option.bind_eq_some_iff] at hw
    obtain ⟨s1, h1, hw⟩ := hw
    obtain ⟨s2, h2, h3⟩ : ∃ s2, (if k = .svg then leave ord h s1 else some s1) = some s2 ∧ walk ord p ns s2 = some t := by
      simp only at hw
      split at hw
      · next hk =>
        rw [Option.bind_eq_some_iff] at hw
        rw [if_pos hk]
        exact hw
      · next hk => exact ⟨s1, by rw [if_neg hk], hw⟩
    have e1 := ih1 _ _ _ h1
    rw [leaves_enter] at e1
    refine (ih2 _ _ _ h3).trans (List.Sublist.trans ?_ e1)
    split at h2
    · unfold leave at h2
      simp only at h2
      split at h2
      · cases h2
        refine (leaves_cleanDefs _ _ _).trans ?_
        split
        · rw [leaves_undeclare]
          exact leaves_detach _ _
        · exact leaves_detach _ _
      · cases h2
    · cases h2
      exact List.Sublist.refl _

/-- **C75 (style sheets)**: the paints in style sheets stay as they are, whatever becomes of the gradients. -/
theorem sheet_violated (ord : List Nat → List Nat) (doc out : List (Node C V)) (h : run ord true doc = some out) : (leaves out).Sublist (leaves doc) := by
  unfold run at h
  rw [if_pos rfl, Option.map_eq_some_iff] at h
  obtain ⟨s, h1, rfl⟩ := h
  exact leaves_walk ord doc _ _ _ h1

/-- **C75 (the prefix `xlink`)**: the declaration is removed from the `svg` element if no element has an `xlink:href`, whatever other attributes have the
prefix, and even if there is no gradient at all. -/
theorem declaration_violated (ord : List Nat → List Nat) (h : Nat) (e : Elem C V) (ks : List (Node C V)) (hx : e.xlink = none)
    (hk : ∀ n ∈ elems ks, ∃ g f l, n = .elem g .other f l ∧ f.xlink = none) (hh : ∀ n ∈ tags ks, n.1 ≠ h) :
    run ord true [.elem h .svg e ks] = some [.elem h .svg { e with decl := false } ks] := by
  have hw : ∀ (l : List (Node C V)), (∀ n ∈ elems l, ∃ g f m, n = .elem g .other f m ∧ f.xlink = none) → ∀ p s, walk ord p l s = some s := by
    intro l
    induction l using forest with
    | nil => intro _ _ _; rw [walk]
    | leaf v s ns ih =>
      intro h p t
      rw [elems] at h
      rw [walk, ih h]
    | elem h k e ks ns ih1 ih2 =>
      intro hn p s
      rw [elems] at hn
      obtain ⟨g, f, m, he, hf⟩ := hn _ List.mem_cons_self
      cases he
      rw [walk, ih1 fun n hm => hn n (.tail _ (List.mem_append_left _ hm))]
      simp only [Option.bind_eq_bind, Option.bind_some]
      rw [if_neg (by decide)]
      rw [ih2 fun n hm => hn n (.tail _ (List.mem_append_right _ hm))]
      simp [enter, hf]
  have hdet : ∀ l : List (Node C V), detach (fun g => (([] : List (Nat × Bool)).map Prod.fst).contains g) l = l := by
    intro l
    induction l using forest with
    | nil => rw [detach]
    | leaf v s ns ih => rw [detach, ih]
    | elem h k e ks ns ih1 ih2 =>
      rw [detach, ih1, ih2]
      simp
  have hund : ∀ l : List (Node C V), (∀ n ∈ tags l, n.1 ≠ h) → undeclare h l = l := by
    intro l
    induction l using forest with
    | nil => intro _; rw [undeclare]
    | leaf v s ns ih =>
      intro hn
      rw [tags] at hn
      rw [undeclare, ih hn]
    | elem g k e ks ns ih1 ih2 =>
      intro hn
      rw [tags] at hn
      rw [undeclare, ih1 fun n hm => hn n (.tail _ (List.mem_append_left _ hm)), ih2 fun n hm => hn n (.tail _ (List.mem_append_right _ hm)),
        if_neg (hn _ List.mem_cons_self)]
  have hclean : ∀ (gs : List Nat) (l : List (Node C V)), cleanDefs [] gs l = l := by
    intro gs
    induction gs with
    | nil => intro l; rfl
    | cons g gs ih =>
      intro l
      rw [cleanDefs]
      simp [ih]
  unfold run
  rw [if_pos rfl, walk, hw ks hk]
  simp only [Option.bind_eq_bind, Option.bind_some, if_pos]
  simp only [enter, hx, Option.isSome_none, Bool.false_eq_true, if_false, leave, List.filter_nil, List.length_nil, Nat.le_refl, if_true, Option.bind_some, walk,
    Option.map_some, Nat.sub_self, hdet, hclean]
  rw [undeclare, hund ks hh, undeclare]
  simp [hx]

/-! ## Examples -/

private def bare : Elem Nat Nat := ⟨none, none, none, [], false, none, 0⟩

/-- `<svg><defs><linearGradient id="a"><stop stop-color="7"/></linearGradient></defs><rect fill="url(#a)"/></svg>`. -/
private def small : List (Node Nat Nat) :=
  [.elem 0 .svg bare [.elem 1 .defs bare [.elem 2 .gradient { bare with id := some (lit "a") } [.elem 3 .stop { bare with color := some 7, rest := 7 } []]],
    .elem 4 .other { bare with paints := [.url (lit "#a") none] } []]]

private theorem small_elems : elems small = [
    .elem 0 .svg bare [.elem 1 .defs bare [.elem 2 .gradient { bare with id := some (lit "a") } [.elem 3 .stop { bare with color := some 7, rest := 7 } []]],
      .elem 4 .other { bare with paints := [.url (lit "#a") none] } []],
    .elem 1 .defs bare [.elem 2 .gradient { bare with id := some (lit "a") } [.elem 3 .stop { bare with color := some 7, rest := 7 } []]],
    .elem 2 .gradient { bare with id := some (lit "a") } [.elem 3 .stop { bare with color := some 7, rest := 7 } []],
    .elem 3 .stop { bare with color := some 7, rest := 7 } [],
    .elem 4 .other { bare with paints := [.url (lit "#a") none] } []] := by
  simp [small, elems]

example : Good id id small := by
  have hs : servers small = [⟨2, some (lit "a"), none, [7]⟩] := by simp [small, servers, stopsOf, bare]
  refine ⟨⟨⟨[], 0, bare, _, [], rfl, by simp [elems], by simp [elems], ?_⟩, ?_, ?_⟩, ?_, ?_, ?_, ?_⟩
  · simp [elems, IsSvg]
  · simp [small, tags]
  · intro h e ks hm
    rw [small_elems] at hm
    simp at hm
    obtain ⟨_, _, rfl⟩ := hm
    simp [servers]
  · rw [small_elems]
    simp [idOf, bare, List.filterMap_cons]
  · intro h e ks hm
    rw [small_elems] at hm
    simp at hm
    obtain ⟨_, rfl, _⟩ := hm
    exact .inl rfl
  · intro s hm
    rw [hs] at hm
    simp at hm
    subst hm
    simp
  · intro h e ks hm h' k' e' ks' hf
    rw [small_elems] at hm
    simp at hm
    obtain ⟨_, _, rfl⟩ := hm
    have : ([.elem 3 .stop { bare with color := some 7, rest := 7 } []] : List (Node Nat Nat)).filter isStop =
        [.elem 3 .stop { bare with color := some 7, rest := 7 } []] := rfl
    rw [this] at hf
    cases hf
    exact ⟨7, rfl, rfl⟩

example : run id true small = some [.elem 0 .svg bare [.elem 4 .other { bare with paints := [.color 7] } []]] := by
  simp [run, small, walk, enter, leave, effective, isStop, bare, List.filter_cons, update, repaint, lit, detach, undeclare, cleanDefs, hollow, elems, isElem, colorOf]

/-- `<svg><defs><defs><linearGradient><stop/></linearGradient></defs><linearGradient><stop/></linearGradient></defs></svg>`. -/
private def nested : List (Node Nat Nat) :=
  [.elem 0 .svg bare [.elem 1 .defs bare [.elem 2 .defs bare [.elem 3 .gradient bare [.elem 4 .stop bare []]], .elem 5 .gradient bare [.elem 6 .stop bare []]]]]

/-- **C75 (the order of a map)**: which `defs` are left can depend on the order of a map, so that runs differ. -/
theorem order_violated : run id true nested = some [.elem 0 .svg bare []] ∧
    run List.reverse true nested = some [.elem 0 .svg bare [.elem 1 .defs bare []]] := by
  constructor <;> simp [run, nested, walk, enter, leave, effective, isStop, bare, List.filter_cons, detach, undeclare, cleanDefs, hollow, elems, isElem, colorOf]

/-- Counting below zero: a gradient with an `xlink:href` is counted down at the end of each `svg` element. -/
example : run id true ([.elem 0 .svg bare [.elem 1 .gradient { bare with xlink := some (lit "#x") } [], .elem 2 .svg bare []]] : List (Node Nat Nat)) = none := by
  simp [run, walk, enter, leave, effective, bare, lit, breadthFirst, atDepth, elems, List.range, List.range.loop, idOf, kids, isElem, detach, undeclare,
    cleanDefs]

end Verif.Gradients
