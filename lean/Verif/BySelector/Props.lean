import Verif.BySelector.Clean

/-! # C89: what removing attributes by selectors removes -/

namespace Verif.BySelector

open Verif.Select

/-! ## Places -/

theorem kidAt_clean (rm : List Str) (l : Loc) (i : Nat) : kidAt (cleanLoc rm l) i = (kidAt l i).map (cleanLoc rm) := by
  simp only [kidAt, cleanLoc, cleanFrame, List.getElem?_map]
  cases h : l.here.kids[i]? with
  | none => rfl
  | some k =>
    cases k with
    | elem n as ks => simp [clean, cleanLoc, cleanFrame, cleanAll_map, List.map_take, List.map_drop]
    | text t => rfl
    | other => rfl

theorem locAt_clean (rm : List Str) (l : Loc) (p : Place) : locAt (cleanLoc rm l) p = (locAt l p).map (cleanLoc rm) := by
  induction p generalizing l with
  | nil => rfl
  | cons i p ih =>
    simp only [locAt, kidAt_clean]
    cases kidAt l i with
    | none => rfl
    | some k => exact ih k

theorem clean_modify (rm : List Str) (ks : List Node) (i : Nat) (f : Node → Node) (h : ∀ x, clean rm (f x) = clean rm x) :
    (ks.modify i f).map (clean rm) = ks.map (clean rm) := by
  induction ks generalizing i with
  | nil => simp
  | cons k ks ih => cases i <;> simp [h, ih]

theorem clean_strip (rm : List Str) (p : Place) (x : Node) : clean rm (stripIn rm p x) = clean rm x := by
  induction p generalizing x with
  | nil => cases x <;> simp [stripIn, clean]
  | cons i p ih =>
    cases x with
    | elem n as ks => simp [stripIn, clean, cleanAll_map, clean_modify rm ks i _ ih]
    | text t => simp [stripIn]
    | other => simp [stripIn]

theorem strip_node (rm : List Str) (p : Place) (d : Frame) : (stripTop rm p d).node = stripIn rm p d.node := by
  cases p <;> rfl

theorem strip_around (rm : List Str) (p : Place) (d : Frame) : (stripTop rm p d).before = d.before ∧ (stripTop rm p d).after = d.after := by
  cases p <;> exact ⟨rfl, rfl⟩

theorem cleanFrame_strip (rm : List Str) (p : Place) (d : Frame) : cleanFrame rm (stripTop rm p d) = cleanFrame rm d := by
  have h := clean_strip rm p d.node
  rw [← strip_node, clean_node, clean_node] at h
  simp only [Frame.node, Node.elem.injEq] at h
  have hb := strip_around rm p d
  have e : ∀ f : Frame, cleanFrame rm f = ⟨f.before.map (clean rm), (cleanFrame rm f).name, (cleanFrame rm f).attrs, (cleanFrame rm f).kids, f.after.map (clean rm)⟩ :=
    fun _ => rfl
  rw [e (stripTop rm p d), e d, h.1, h.2.1, h.2.2, hb.1, hb.2]

/-- The attributes of the element at a place. -/
def attrsAt : Place → Node → Option (List Attr)
  | [], .elem _ as _ => some as
  | i :: p, .elem _ _ ks => match ks[i]? with
    | some k => attrsAt p k
    | none => none
  | _, _ => none

theorem attrsAt_locAt (p : Place) (l : Loc) : attrsAt p l.here.node = (locAt l p).map fun m => m.here.attrs := by
  induction p generalizing l with
  | nil => rfl
  | cons i p ih =>
    simp only [Frame.node, attrsAt, locAt, kidAt]
    cases h : l.here.kids[i]? with
    | none => rfl
    | some k =>
      cases k with
      | elem n as ks => exact ih ⟨⟨_, n, as, ks, _⟩, _⟩
      | text t => cases p <;> rfl
      | other => cases p <;> rfl

theorem attrsAt_strip (rm : List Str) (p q : Place) (x : Node) :
    attrsAt q (stripIn rm p x) = if q = p then (attrsAt q x).map (List.filter (keeps rm)) else attrsAt q x := by
  induction p generalizing q x with
  | nil =>
    cases x with
    | elem n as ks => cases q <;> simp [stripIn, attrsAt]
    | text t => cases q <;> simp [stripIn, attrsAt]
    | other => cases q <;> simp [stripIn, attrsAt]
  | cons i p ih =>
    cases x with
    | elem n as ks =>
      cases q with
      | nil => simp [stripIn, attrsAt]
      | cons j q =>
        simp only [stripIn, attrsAt, List.getElem?_modify]
        cases h : ks[j]? with
        | none => simp
        | some k =>
          by_cases e : i = j
          · subst e; simp [ih]
          · have e' : j ≠ i := fun h => e h.symm
            simp [e, e']
    | text t => cases q <;> simp [stripIn, attrsAt]
    | other => cases q <;> simp [stripIn, attrsAt]

/-! ## The elements of a document are those at its places -/

theorem locAt_append (l : Loc) (p q : Place) : locAt l (p ++ q) = (locAt l p).bind fun m => locAt m q := by
  induction p generalizing l with
  | nil => rfl
  | cons i p ih =>
    simp only [List.cons_append, locAt]
    cases kidAt l i with
    | none => rfl
    | some k => exact ih k

theorem kidAt_child {r l : Loc} (h : IsChild r l) : kidAt r l.here.before.length = some l := by
  obtain ⟨hp, hk⟩ := h
  have hi : r.here.kids[l.here.before.length]? = some l.here.node := by rw [hk]; simp
  have ht : r.here.kids.take l.here.before.length = l.here.before.reverse := by rw [hk]; simp
  have hd : r.here.kids.drop (l.here.before.length + 1) = l.here.after := by rw [hk]; simp [← List.drop_drop]
  cases l with
  | mk f u =>
    simp only at hi ht hd
    have hp : u = r.here :: r.up := hp
    simp only [kidAt, hi, Frame.node, ht, hd, List.reverse_reverse, hp]

theorem child_kidAt {r l : Loc} {i : Nat} (h : kidAt r i = some l) : IsChild r l ∧ l.here.before.length = i := by
  simp only [kidAt] at h
  cases hk : r.here.kids[i]? with
  | none => simp [hk] at h
  | some k =>
    obtain ⟨hi, hx⟩ := List.getElem?_eq_some_iff.1 hk
    cases k with
    | elem n as ks =>
      simp only [hk, Option.some.injEq] at h
      subst h
      refine ⟨⟨rfl, ?_⟩, by simp; omega⟩
      simp only [List.reverse_reverse, Frame.node]
      rw [← hx]
      simp
    | text t => simp [hk] at h
    | other => simp [hk] at h

theorem locAt_path {r l : Loc} {n : Nat} (h : Below r n l) : ∃ p, l.path = r.path ++ p ∧ locAt r p = some l ∧ p ≠ [] := by
  induction h with
  | child h => exact ⟨[_], child_path h.1, by simp [locAt, kidAt_child h], by simp⟩
  | deeper _ h ih =>
    obtain ⟨p, e, hp, _⟩ := ih
    exact ⟨p ++ [_], by rw [child_path h.1, e, List.append_assoc], by rw [locAt_append, hp]; simp [locAt, kidAt_child h], by simp⟩

theorem locAt_below {r l : Loc} {p : Place} (h : locAt r p = some l) : l = r ∨ ∃ n, Below r n l := by
  have key : ∀ (p : Place) (r l : Loc), locAt r p = some l → l = r ∨ ∃ n, Below r n l := by
    intro p
    induction p with
    | nil => intro r l h; simp [locAt] at h; exact .inl h.symm
    | cons i p ih =>
      intro r l h
      simp only [locAt] at h
      cases hk : kidAt r i with
      | none => simp [hk] at h
      | some k =>
        rw [hk] at h
        have hc := (child_kidAt hk).1
        rcases ih k l h with rfl | ⟨n, hn⟩
        · exact .inr ⟨1, .child hc⟩
        · exact .inr ⟨n + 1, hn.first ((children_iff _ _).2 hc)⟩
  exact key p r l h

theorem locAt_path' {r l : Loc} {p : Place} (h : locAt r p = some l) : l.path = r.path ++ p := by
  induction p generalizing r with
  | nil => simp [locAt] at h; simp [h]
  | cons i p ih =>
    simp only [locAt] at h
    cases hk : kidAt r i with
    | none => simp [hk] at h
    | some k =>
      rw [hk] at h
      have hc := child_kidAt hk
      rw [ih h, child_path hc.1.1, hc.2]
      simp

theorem drop_path (d : Frame) (p : Place) : ((⟨d, []⟩ : Loc).path ++ p).drop 1 = p := by simp [Loc.path]

theorem mem_everything {d : Frame} {l : Loc} : l ∈ everything d ↔ ∃ p, locAt ⟨d, []⟩ p = some l := by
  simp only [everything, List.mem_cons, below_iff]
  constructor
  · rintro (rfl | ⟨n, h⟩)
    · exact ⟨[], rfl⟩
    · obtain ⟨p, _, hp, _⟩ := locAt_path h
      exact ⟨p, hp⟩
  · rintro ⟨p, h⟩
    exact locAt_below h

theorem mem_places {d : Frame} {p : Place} : p ∈ places d ↔ ∃ l, locAt ⟨d, []⟩ p = some l := by
  simp only [places, List.mem_map]
  constructor
  · rintro ⟨l, hl, rfl⟩
    obtain ⟨p, hp⟩ := mem_everything.1 hl
    rw [locAt_path' hp, drop_path]
    exact ⟨l, hp⟩
  · rintro ⟨l, hl⟩
    exact ⟨l, mem_everything.2 ⟨p, hl⟩, by rw [locAt_path' hl, drop_path]⟩

theorem places_nodup (d : Frame) : (places d).Nodup := by
  have h : (everything d).Pairwise Sooner := by
    simp only [everything, List.pairwise_cons]
    refine ⟨fun l hl => .inl ?_, below_sorted _⟩
    obtain ⟨n, hn⟩ := (below_iff _ _).1 hl
    have := hn.depth
    cases hn <;> simp_all <;> omega
  rw [places, List.Nodup, List.pairwise_map]
  refine h.imp_of_mem ?_
  intro a b ha hb hs e
  obtain ⟨p, hp⟩ := mem_everything.1 ha
  obtain ⟨q, hq⟩ := mem_everything.1 hb
  have h1 := locAt_path' hp
  have h2 := locAt_path' hq
  rw [h1, h2, drop_path, drop_path] at e
  have e2 : a.path = b.path := by rw [h1, h2, e]
  rcases hs with hs | ⟨_, hs⟩
  · have := congrArg List.length e2
    rw [path_length, path_length] at this
    omega
  · rw [e2] at hs; exact List.lt_irrefl _ hs

/-! ## The loop -/

theorem same_place {rm : List Str} {d d' : Frame} (h : cleanFrame rm d' = cleanFrame rm d) {p : Place} {l : Loc}
    (hl : locAt ⟨d, []⟩ p = some l) : ∃ m, locAt ⟨d', []⟩ p = some m ∧ cleanLoc rm m = cleanLoc rm l := by
  have e : cleanLoc rm ⟨d', []⟩ = cleanLoc rm ⟨d, []⟩ := by simp [cleanLoc, h]
  have h1 := locAt_clean rm ⟨d', []⟩ p
  rw [e, locAt_clean, hl] at h1
  cases hm : locAt ⟨d', []⟩ p with
  | none => rw [hm] at h1; simp at h1
  | some m => rw [hm] at h1; exact ⟨m, rfl, by simpa using h1.symm⟩

theorem loop_spec {E : Env} {addr : Nat} {ss : Sels} {rm : List Str} (hs : SteadySels rm ss) (d0 : Frame) :
    ∀ (ps : List Place) (d : Frame) (c : Cache), ps.Nodup → (∀ p ∈ ps, ∃ l, locAt ⟨d0, []⟩ p = some l) → cleanFrame rm d = cleanFrame rm d0 →
    (∀ p ∈ ps, attrsAt p d.node = attrsAt p d0.node) →
    cleanFrame rm (loop E addr ss rm ps d c) = cleanFrame rm d0 ∧
      (∀ p, p ∉ ps → attrsAt p (loop E addr ss rm ps d c).node = attrsAt p d.node) ∧
      ∀ p ∈ ps, ∀ l, locAt ⟨d0, []⟩ p = some l → attrsAt p (loop E addr ss rm ps d c).node =
        some (if (sels E (some addr) ss l []).1 then l.here.attrs.filter (keeps rm) else l.here.attrs)
  | [], d, c, _, _, hc, _ => ⟨hc, fun _ _ => rfl, fun _ h => by simp at h⟩
  | p :: ps, d, c, hn, hp, hc, ha => by
    obtain ⟨l, hl⟩ := hp p (by simp)
    obtain ⟨m, hm, hml⟩ := same_place hc hl
    have hat : m.here.attrs = l.here.attrs := by
      have h1 := ha p (by simp)
      have e1 := attrsAt_locAt p ⟨d, []⟩
      have e2 := attrsAt_locAt p ⟨d0, []⟩
      simp only at e1 e2
      rw [e1, e2, hm, hl] at h1
      simpa using h1
    have hsel : sels E (some addr) ss m = sels E (some addr) ss l := sels_steady E _ rm ss m l hs ⟨hml, hat⟩
    obtain ⟨b, hb⟩ := sels_quiet E (some addr) rm ss l hs
    have hpl : attrsAt p d0.node = some l.here.attrs := by
      have e2 := attrsAt_locAt p ⟨d0, []⟩
      simp only at e2
      rw [e2, hl]; rfl
    have hn' := List.nodup_cons.1 hn
    simp only [loop, hm, hsel, hb, Run.ret]
    generalize hd' : (if b = true then stripTop rm p d else d) = d'
    have hc' : cleanFrame rm d' = cleanFrame rm d0 := by
      subst hd'
      split
      · rw [cleanFrame_strip, hc]
      · exact hc
    have hat' : ∀ q, attrsAt q d'.node = if q = p then some (if b = true then l.here.attrs.filter (keeps rm) else l.here.attrs) else attrsAt q d.node := by
      intro q
      subst hd'
      by_cases hb' : b = true
      · simp only [hb', if_true, strip_node, attrsAt_strip]
        by_cases e : q = p
        · subst e
          simp [ha q (by simp), hpl]
        · simp [e]
      · simp only [hb', if_false]
        by_cases e : q = p
        · subst e
          simp [ha q (by simp), hpl]
        · simp [e]
    obtain ⟨r1, r2, r3⟩ := loop_spec (E := E) (addr := addr) hs d0 ps d' c hn'.2 (fun q hq => hp q (by simp [hq])) hc' (fun q hq => by
      have hne : q ≠ p := fun e => hn'.1 (e ▸ hq)
      rw [hat', if_neg hne]
      exact ha q (by simp [hq]))
    refine ⟨r1, fun q hq => ?_, fun q hq k hk => ?_⟩
    · simp only [List.mem_cons, not_or] at hq
      rw [r2 q hq.2, hat', if_neg hq.1]
    · rcases List.mem_cons.1 hq with rfl | hq'
      · rw [hl] at hk
        cases hk
        rw [r2 q hn'.1, hat', if_pos rfl, hb]
        rfl
      · exact r3 q hq' k hk

theorem remove_loop {E : Env} {addr : Nat} {ss : Sels} {rm : List Str} (hs : SteadySels rm ss) {d : Frame} {p : Place} {l : Loc}
    (hl : locAt ⟨d, []⟩ p = some l) : ∃ m, locAt ⟨removeOne E addr ss rm d, []⟩ p = some m ∧ cleanLoc rm m = cleanLoc rm l ∧
      m.here.attrs = if (sels E (some addr) ss l []).1 then l.here.attrs.filter (keeps rm) else l.here.attrs := by
  obtain ⟨h1, _, h3⟩ := loop_spec (E := E) (addr := addr) hs d (places d) d [] (places_nodup d) (fun p hp => mem_places.1 hp) rfl (fun _ _ => rfl)
  obtain ⟨m, hm, hc⟩ := same_place (d' := removeOne E addr ss rm d) h1 hl
  refine ⟨m, hm, hc, ?_⟩
  have h := h3 p (mem_places.2 ⟨l, hl⟩) l hl
  have e := attrsAt_locAt p ⟨removeOne E addr ss rm d, []⟩
  simp only [hm] at e
  have := e.symm.trans h
  simpa using this

theorem loop_clean (E : Env) (addr : Nat) (ss : Sels) (rm : List Str) (ps : List Place) (d : Frame) (c : Cache) :
    cleanFrame rm (loop E addr ss rm ps d c) = cleanFrame rm d := by
  induction ps generalizing d c with
  | nil => rfl
  | cons p ps ih =>
    simp only [loop]
    split
    · exact ih d c
    · rw [ih]
      split
      · exact cleanFrame_strip rm p d
      · rfl

theorem loop_sub (E : Env) (addr : Nat) (ss : Sels) (rm : List Str) (q : Place) (ps : List Place) (d : Frame) (c : Cache) {as : List Attr}
    (h : attrsAt q d.node = some as) : ∃ bs, attrsAt q (loop E addr ss rm ps d c).node = some bs ∧ bs.Sublist as := by
  induction ps generalizing d c as with
  | nil => exact ⟨as, h, List.Sublist.refl _⟩
  | cons p ps ih =>
    simp only [loop]
    split
    · exact ih d c h
    · split
      · have e : attrsAt q (stripTop rm p d).node = some (if q = p then as.filter (keeps rm) else as) := by
          rw [strip_node, attrsAt_strip, h]; split <;> rfl
        obtain ⟨bs, hb, hs⟩ := ih _ _ e
        refine ⟨bs, hb, hs.trans ?_⟩
        split
        · exact List.filter_sublist
        · exact List.Sublist.refl _
      · exact ih d _ h

/-! ## The property -/

/-- The text is the name of the attribute as it is written. -/
def Written (a : Attr) (s : Str) : Prop := (a.pre = none ∧ s = a.loc) ∨ ∃ p, a.pre = some p ∧ s = p ++ lit ":" ++ a.loc

theorem written_iff (a : Attr) (s : Str) : Written a s ↔ s = qname a := by
  unfold Written qname
  have : lit ":" = [58] := by decide
  cases h : a.pre with
  | none => simp
  | some p => simp [this]

theorem keeps_iff (rm : List Str) (a : Attr) : keeps rm a = true ↔ ∀ s ∈ rm, ¬ Written a s := by
  simp only [keeps, Bool.not_eq_true', written_iff]
  constructor
  · intro h s hs e
    subst e
    rw [← List.contains_iff_mem, h] at hs
    cases hs
  · intro h
    cases e : rm.contains (qname a) with
    | false => rfl
    | true => exact absurd rfl (h _ (List.contains_iff_mem.1 e))

theorem same_place_iff {rm : List Str} {d d' : Frame} (h : cleanFrame rm d' = cleanFrame rm d) (p : Place) :
    (∃ l, locAt ⟨d', []⟩ p = some l) ↔ ∃ l, locAt ⟨d, []⟩ p = some l :=
  ⟨fun ⟨_, hl⟩ => (same_place h.symm hl).imp fun _ h => h.1, fun ⟨_, hl⟩ => (same_place h hl).imp fun _ h => h.1⟩

theorem everywhere {P : Name → List Attr → Prop} {d : Frame} {p : Place} {l : Loc} (hl : locAt ⟨d, []⟩ p = some l) :
    (Throughout P ⟨d, []⟩ → Throughout P l) ∧ (Single ⟨d, []⟩ → Single l) := by
  rcases locAt_below hl with rfl | ⟨n, hn⟩
  · exact ⟨id, id⟩
  · exact ⟨fun h => h.below hn, fun h => h.below hn⟩

/-- **C89 (partial)** For a selector that is treated as CSS says, that asks for the listed attributes of the element itself only, and not of
ancestors or siblings, an element loses an attribute iff it matches the selector in the document as it was and the attribute is listed by the
name it is written with. The elements are where they were, with their names, and attributes are in their order. -/
theorem remove_partial {E : Env} {addr : Nat} {ss : Sels} {rm : List Str} {d : Frame} (hs : SteadySels rm ss) (hp : ss.Plain E)
    (h1 : Single ⟨d, []⟩) (h2 : Throughout (Faithful E) ⟨d, []⟩) {p : Place} {l : Loc} (hl : locAt ⟨d, []⟩ p = some l) :
    ∃ m, locAt ⟨removeOne E addr ss rm d, []⟩ p = some m ∧ m.here.name = l.here.name ∧ m.here.attrs.Sublist l.here.attrs ∧
      ∀ a, a ∈ m.here.attrs ↔ a ∈ l.here.attrs ∧ ¬ (MatchesSels none ss l ∧ ∃ s ∈ rm, Written a s) := by
  obtain ⟨m, hm, hc, ha⟩ := remove_loop (E := E) (addr := addr) hs hl
  have hr := ((sels_right (E := E) (sc := some addr) (sc' := none) (s := ss) hp ((everywhere (P := Faithful E) hl).2 h1) ((everywhere hl).1 h2)) [] (good_nil E)).1
  refine ⟨m, hm, congrArg (fun x => x.here.name) hc, ?_, fun a => ?_⟩
  · rw [ha]; split
    · exact List.filter_sublist
    · exact List.Sublist.refl _
  · rw [ha]
    by_cases hM : (sels E (some addr) ss l []).1 = true
    · rw [if_pos hM, List.mem_filter, keeps_iff]
      have := hr.1 hM
      constructor
      · rintro ⟨h, k⟩; exact ⟨h, fun ⟨_, s, hs, hw⟩ => k s hs hw⟩
      · rintro ⟨h, k⟩; exact ⟨h, fun s hs hw => k ⟨this, s, hs, hw⟩⟩
    · rw [if_neg hM]
      exact ⟨fun h => ⟨h, fun k => hM (hr.2 k.1)⟩, fun h => h.1⟩

/-! ## All items -/

/-- The names that are listed by any of the items. -/
def listed (items : List (Str × List Str)) : List Str := items.flatMap (·.2)

theorem filter_more {rm rm' : List Str} (h : ∀ s ∈ rm, s ∈ rm') (as : List Attr) : (as.filter (keeps rm)).filter (keeps rm') = as.filter (keeps rm') := by
  rw [List.filter_filter]
  congr 1
  funext a
  by_cases hk : keeps rm' a = true
  · have : keeps rm a = true := by rw [keeps_iff] at hk ⊢; exact fun s hs => hk s (h s hs)
    simp [hk, this]
  · simp [hk]

mutual
theorem clean_more {rm rm' : List Str} (h : ∀ s ∈ rm, s ∈ rm') : ∀ x, clean rm' (clean rm x) = clean rm' x
  | .elem n as ks => by simp only [clean, filter_more h, cleanAll_more h ks]
  | .text t => by simp only [clean]
  | .other => by simp only [clean]
theorem cleanAll_more {rm rm' : List Str} (h : ∀ s ∈ rm, s ∈ rm') : ∀ xs, cleanAll rm' (cleanAll rm xs) = cleanAll rm' xs
  | [] => by simp only [cleanAll]
  | x :: xs => by simp only [cleanAll, clean_more h x, cleanAll_more h xs]
end

theorem cleanFrame_more {rm rm' : List Str} (h : ∀ s ∈ rm, s ∈ rm') (f : Frame) : cleanFrame rm' (cleanFrame rm f) = cleanFrame rm' f := by
  have : ∀ xs : List Node, (xs.map (clean rm)).map (clean rm') = xs.map (clean rm') := fun xs => by
    rw [List.map_map]; exact List.map_congr_left fun x _ => clean_more h x
  simp only [cleanFrame, filter_more h, this]

theorem clean_widen {rm rm' : List Str} (h : ∀ s ∈ rm, s ∈ rm') {d d' : Frame} (e : cleanFrame rm d' = cleanFrame rm d) :
    cleanFrame rm' d' = cleanFrame rm' d := by
  rw [← cleanFrame_more h d', e, cleanFrame_more h]

theorem job_clean {E : Env} {addr : Nat} {parse : Str → Option Sels} {items : List (Str × List Str)} {d d' : Frame} (rm : List Str)
    (h : job E addr parse items d = some d') (hr : ∀ i ∈ items, ∀ s ∈ i.2, s ∈ rm) : cleanFrame rm d' = cleanFrame rm d := by
  induction items generalizing d with
  | nil => simp [job] at h; rw [h]
  | cons i items ih =>
    obtain ⟨s, r⟩ := i
    simp only [job] at h
    cases e : parse s with
    | none => simp [e] at h
    | some ss =>
      rw [e] at h
      rw [ih h fun i hi => hr i (by simp [hi])]
      exact clean_widen (hr (s, r) (by simp)) (loop_clean E addr ss r (places d) d [])

theorem job_sub {E : Env} {addr : Nat} {parse : Str → Option Sels} {items : List (Str × List Str)} {d d' : Frame}
    (h : job E addr parse items d = some d') {p : Place} {as : List Attr} (ha : attrsAt p d.node = some as) :
    ∃ bs, attrsAt p d'.node = some bs ∧ bs.Sublist as := by
  induction items generalizing d as with
  | nil => simp [job] at h; rw [← h]; exact ⟨as, ha, List.Sublist.refl _⟩
  | cons i items ih =>
    obtain ⟨s, r⟩ := i
    simp only [job] at h
    cases e : parse s with
    | none => simp [e] at h
    | some ss =>
      rw [e] at h
      obtain ⟨bs, hb, hs⟩ := loop_sub E addr ss r p (places d) d [] ha
      obtain ⟨cs, hc, hs'⟩ := ih h hb
      exact ⟨cs, hc, hs'.trans hs⟩

/-- **C89 (proved part)** Whatever the selectors are: the elements of the result are those of the document, at their places and with their
names; an element has no attributes it did not have, in no other order; and an attribute that no item lists is still there. -/
theorem others_kept {E : Env} {addr : Nat} {parse : Str → Option Sels} {items : List (Str × List Str)} {d d' : Frame}
    (h : job E addr parse items d = some d') (p : Place) :
    ((∃ m, locAt ⟨d', []⟩ p = some m) ↔ ∃ l, locAt ⟨d, []⟩ p = some l) ∧
    ∀ l m, locAt ⟨d, []⟩ p = some l → locAt ⟨d', []⟩ p = some m → m.here.name = l.here.name ∧ m.here.kids.length = l.here.kids.length ∧
      (∀ (i : Nat) t, m.here.kids[i]? = some (Node.text t) ↔ l.here.kids[i]? = some (Node.text t)) ∧
      m.here.attrs.Sublist l.here.attrs ∧ ∀ a ∈ l.here.attrs, (∀ i ∈ items, ∀ s ∈ i.2, ¬ Written a s) → a ∈ m.here.attrs := by
  have hc := job_clean (listed items) h fun i hi s hs => List.mem_flatMap.2 ⟨i, hi, hs⟩
  refine ⟨same_place_iff hc p, fun l m hl hm => ?_⟩
  obtain ⟨m', hm', hml⟩ := same_place hc hl
  rw [hm] at hm'
  cases hm'
  have hk := congrArg (fun x => x.here.kids) hml
  simp only [cleanLoc, cleanFrame] at hk
  refine ⟨congrArg (fun x => x.here.name) hml, by simpa using congrArg List.length hk, fun i t => ?_, ?_, fun a ha hn => ?_⟩
  · have := congrArg (fun ks => ks[i]?) hk
    simp only [List.getElem?_map] at this
    cases e1 : m.here.kids[i]? with
    | none => cases e2 : l.here.kids[i]? with
      | none => simp
      | some y => simp [e1, e2] at this
    | some x => cases e2 : l.here.kids[i]? with
      | none => simp [e1, e2] at this
      | some y =>
        rw [e1, e2] at this
        cases x <;> cases y <;> simp_all [clean]
  · have e1 := attrsAt_locAt p ⟨d, []⟩
    have e2 := attrsAt_locAt p ⟨d', []⟩
    simp only [hl, hm, Option.map_some] at e1 e2
    obtain ⟨bs, hb, hs⟩ := job_sub h e1
    rw [e2] at hb
    cases hb
    exact hs
  · have := congrArg (fun x => x.here.attrs) hml
    simp only [cleanLoc, cleanFrame] at this
    have hk : a ∈ l.here.attrs.filter (keeps (listed items)) := by
      rw [List.mem_filter, keeps_iff]
      refine ⟨ha, fun s hs => ?_⟩
      obtain ⟨i, hi, hs⟩ := List.mem_flatMap.1 hs
      exact hn i hi s hs
    rw [← this] at hk
    exact (List.mem_filter.1 hk).1

/-- `job` fails iff one of the selectors cannot be parsed. -/
theorem job_fails_iff (E : Env) (addr : Nat) (parse : Str → Option Sels) (items : List (Str × List Str)) (d : Frame) :
    job E addr parse items d = none ↔ ∃ i ∈ items, parse i.1 = none := by
  induction items generalizing d with
  | nil => simp [job]
  | cons i items ih =>
    obtain ⟨s, r⟩ := i
    simp only [job]
    cases e : parse s with
    | none => simp [e]
    | some ss => simp [e, ih]

mutual
theorem clear_steady {rm rm' : List Str} (h : ∀ s ∈ rm, s ∈ rm') : ∀ s : Sel, Clear rm' s → Steady rm s
  | .one c, k => clearComp_steady h c k
  | .join s _ c, k => ⟨clear_less h s k.1, clearComp_steady h c k.2⟩
theorem clearComp_steady {rm rm' : List Str} (h : ∀ s ∈ rm, s ∈ rm') : ∀ s : Comp, ClearComp rm' s → SteadyComp rm s
  | .nil, _ => trivial
  | .cons s c, k => ⟨clearSimple_steady h s k.1, clearComp_steady h c k.2⟩
theorem clearSimple_steady {rm rm' : List Str} (h : ∀ s ∈ rm, s ∈ rm') : ∀ s : Simple, ClearSimple rm' s → SteadySimple rm s
  | .any, _ => trivial
  | .name _, _ => trivial
  | .id _, _ => trivial
  | .cls _, _ => trivial
  | .attr .., _ => trivial
  | .root, _ => trivial
  | .empty, _ => trivial
  | .link, _ => trivial
  | .scope, k => k
  | .nth .., k => k
  | .neg ss, k => clearSels_steady h ss k
  | .isAny ss, k => clearSels_steady h ss k
theorem clearSels_steady {rm rm' : List Str} (h : ∀ s ∈ rm, s ∈ rm') : ∀ s : Sels, ClearSels rm' s → SteadySels rm s
  | .nil, _ => trivial
  | .cons s ss, k => ⟨clear_steady h s k.1, clearSels_steady h ss k.2⟩
theorem clear_less {rm rm' : List Str} (h : ∀ s ∈ rm, s ∈ rm') : ∀ s : Sel, Clear rm' s → Clear rm s
  | .one c, k => clearComp_less h c k
  | .join s _ c, k => ⟨clear_less h s k.1, clearComp_less h c k.2⟩
theorem clearComp_less {rm rm' : List Str} (h : ∀ s ∈ rm, s ∈ rm') : ∀ s : Comp, ClearComp rm' s → ClearComp rm s
  | .nil, _ => trivial
  | .cons s c, k => ⟨clearSimple_less h s k.1, clearComp_less h c k.2⟩
theorem clearSimple_less {rm rm' : List Str} (h : ∀ s ∈ rm, s ∈ rm') : ∀ s : Simple, ClearSimple rm' s → ClearSimple rm s
  | .any, _ => trivial
  | .name _, _ => trivial
  | .id _, k => fun m => k (h _ m)
  | .cls _, k => fun m => k (h _ m)
  | .attr .., k => fun m => k (h _ m)
  | .root, _ => trivial
  | .empty, _ => trivial
  | .link, k => fun m => k (h _ m)
  | .scope, k => k
  | .nth .., k => k
  | .neg ss, k => clearSels_less h ss k
  | .isAny ss, k => clearSels_less h ss k
theorem clearSels_less {rm rm' : List Str} (h : ∀ s ∈ rm, s ∈ rm') : ∀ s : Sels, ClearSels rm' s → ClearSels rm s
  | .nil, _ => trivial
  | .cons s ss, k => ⟨clear_less h s k.1, clearSels_less h ss k.2⟩
end

theorem job_run {E : Env} {addr : Nat} {parse : Str → Option Sels} (rm : List Str) {d0 : Frame} {p : Place} {l0 : Loc}
    (h0 : locAt ⟨d0, []⟩ p = some l0) : ∀ (items : List (Str × List Str)) (d d' : Frame) (l : Loc),
    (∀ i ∈ items, ∀ s ∈ i.2, s ∈ rm) → (∀ i ∈ items, ∀ ss, parse i.1 = some ss → ClearSels rm ss) →
    cleanFrame rm d = cleanFrame rm d0 → locAt ⟨d, []⟩ p = some l → job E addr parse items d = some d' →
    ∃ m, locAt ⟨d', []⟩ p = some m ∧ ∀ a, a ∈ m.here.attrs ↔ a ∈ l.here.attrs ∧
      ∀ i ∈ items, ∀ ss, parse i.1 = some ss → (sels E (some addr) ss l0 []).1 = true → keeps i.2 a = true
  | [], d, d', l, _, _, _, hl, h => by
    simp [job] at h
    subst h
    exact ⟨l, hl, by simp⟩
  | (s, r) :: items, d, d', l, hr, hcl, hc, hl, h => by
    simp only [job] at h
    cases e : parse s with
    | none => simp [e] at h
    | some ss =>
      rw [e] at h
      have hsub : ∀ x ∈ r, x ∈ rm := hr (s, r) (by simp)
      have hss := hcl (s, r) (by simp) ss e
      obtain ⟨m, hm, hcm, ham⟩ := remove_loop (E := E) (addr := addr) (clearSels_steady hsub ss hss) hl
      have hc' : cleanFrame rm (removeOne E addr ss r d) = cleanFrame rm d0 :=
        (clean_widen hsub (loop_clean E addr ss r (places d) d [])).trans hc
      obtain ⟨k, hk, hka⟩ := job_run rm h0 items _ d' m (fun i hi => hr i (by simp [hi])) (fun i hi => hcl i (by simp [hi])) hc' hm h
      refine ⟨k, hk, fun a => ?_⟩
      have hsame : sels E (some addr) ss l = sels E (some addr) ss l0 := by
        obtain ⟨x, hx, hxe⟩ := same_place hc h0
        rw [hl] at hx
        cases hx
        rw [← sels_clean E _ rm ss l hss, hxe, sels_clean E _ rm ss l0 hss]
      rw [hka, ham, hsame]
      constructor
      · rintro ⟨h1, h2⟩
        split at h1
        · rw [List.mem_filter] at h1
          refine ⟨h1.1, fun i hi ss' e' hM => ?_⟩
          rcases List.mem_cons.1 hi with rfl | hi
          · exact h1.2
          · exact h2 i hi ss' e' hM
        · rename_i hn
          refine ⟨h1, fun i hi ss' e' hM => ?_⟩
          rcases List.mem_cons.1 hi with rfl | hi
          · rw [e] at e'; cases e'; exact absurd hM hn
          · exact h2 i hi ss' e' hM
      · rintro ⟨h1, h2⟩
        refine ⟨?_, fun i hi => h2 i (by simp [hi])⟩
        split
        · rename_i hM
          exact List.mem_filter.2 ⟨h1, h2 (s, r) (by simp) ss e hM⟩
        · exact h1

/-- **C89 (partial)** If no selector asks for an attribute that any item lists, then of all items together an element loses an attribute
iff some item lists it whose selector the element matches in the document as it was. -/
theorem items_partial {E : Env} {addr : Nat} {parse : Str → Option Sels} {items : List (Str × List Str)} {d d' : Frame}
    (hcl : ∀ i ∈ items, ∀ ss, parse i.1 = some ss → ClearSels (listed items) ss ∧ ss.Plain E) (h1 : Single ⟨d, []⟩)
    (h2 : Throughout (Faithful E) ⟨d, []⟩) (h : job E addr parse items d = some d') {p : Place} {l : Loc} (hl : locAt ⟨d, []⟩ p = some l) :
    ∃ m, locAt ⟨d', []⟩ p = some m ∧ ∀ a, a ∈ m.here.attrs ↔
      a ∈ l.here.attrs ∧ ¬ ∃ i ∈ items, ∃ ss, parse i.1 = some ss ∧ MatchesSels none ss l ∧ ∃ s ∈ i.2, Written a s := by
  obtain ⟨m, hm, ha⟩ := job_run (E := E) (addr := addr) (parse := parse) (listed items) hl items d d' l
    (fun i hi s hs => List.mem_flatMap.2 ⟨i, hi, hs⟩) (fun i hi ss e => (hcl i hi ss e).1) rfl hl h
  refine ⟨m, hm, fun a => ?_⟩
  rw [ha]
  refine and_congr_right fun _ => ?_
  have hr : ∀ i ∈ items, ∀ ss, parse i.1 = some ss → ((sels E (some addr) ss l []).1 = true ↔ MatchesSels none ss l) := fun i hi ss e =>
    ((sels_right (E := E) (sc := some addr) (sc' := none) (s := ss) (hcl i hi ss e).2 ((everywhere (P := Faithful E) hl).2 h1) ((everywhere hl).1 h2)) [] (good_nil E)).1
  constructor
  · rintro k ⟨i, hi, ss, e, hM, s, hs, hw⟩
    exact (keeps_iff _ _).1 (k i hi ss e ((hr i hi ss e).2 hM)) s hs hw
  · intro k i hi ss e hM
    rw [keeps_iff]
    exact fun s hs hw => k ⟨i, hi, ss, e, (hr i hi ss e).1 hM, s, hs, hw⟩

end Verif.BySelector
