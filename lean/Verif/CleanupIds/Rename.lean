import Verif.CleanupIds.Lemmas

/-!
# What renaming does to all attributes
-/

namespace Verif.CleanupIds

open Verif.IdGen

/-- A name such as the job generates. -/
def Letters (s : Str) : Prop := ∀ b ∈ s, Letter b

/-- The reference names the id `t`: it is `t`, or it is `#` with the percent-encoded form of `t`. -/
def Names (E : Env) (r : Ref) (t : Str) : Prop :=
  (r.kind = .id ∧ r.text = t) ∨
    (r.kind = .url ∧ ∃ u, r.text = 35 :: u ∧ (E.decode u = some t ∨ (E.decode u = none ∧ u = t)))

theorem names_iff {E : Env} {r : Ref} {t : Str} : Names E r t ↔ target E r = some t := by
  rcases r with ⟨k, s⟩
  unfold Names target
  cases k
  · cases s with
    | nil => simp
    | cons b u =>
      by_cases hb : b = 35
      · subst hb
        cases hd : E.decode u <;> simp [hd]
      · simp [hb]
  · simp

/-- The attribute refers to one id only; or its addresses need no percent-encoding and nothing in it looks like a name
the job generates. -/
def Clear (E : Env) (a : Attr) : Prop :=
  (∀ r ∈ a.refs, ∀ s ∈ a.refs, ∀ t u, Names E r t → Names E s u → t = u) ∨
    ∀ r ∈ a.refs, ∀ t, Names E r t → ¬ Letters t ∧ r.text = newText r.kind t

/-- Letters need no percent-encoding. -/
def DecodesLetters (E : Env) : Prop := ∀ s, Letters s → E.decode s = some s

theorem isRef_of_target {E : Env} {r : Ref} {t : Str} (h : target E r = some t) : isRef E t r = true := by
  rcases r with ⟨k, s⟩
  unfold target at h
  unfold isRef
  cases k
  · cases s with
    | nil => simp at h
    | cons b u =>
      by_cases hb : b = 35
      · subst hb
        simp only [Option.some.injEq] at h
        cases hd : E.decode u with
        | none => simp [hd] at h; simp [h]
        | some v => simp [hd] at h; simp [h, hd]
      · simp [hb] at h
  · simp at h; simp [h]

theorem isRef_none {E : Env} {r : Ref} {t : Str} (h : target E r = none) : isRef E t r = false := by
  rcases r with ⟨k, s⟩
  unfold target at h
  unfold isRef
  cases k
  · cases s with
    | nil => rfl
    | cons b u =>
      by_cases hb : b = 35
      · subst hb; simp at h
      · simp [hb]
  · simp at h

theorem isRef_new {E : Env} (hE : DecodesLetters E) {k : Kind} {t m : Str} (hm : Letters m) :
    isRef E t ⟨k, newText k m⟩ = true ↔ m = t := by
  cases k
  · simp only [isRef, newText, hE m hm]
    simp
  · simp [isRef, newText]

theorem target_new {E : Env} (hE : DecodesLetters E) {k : Kind} {m : Str} (hm : Letters m) :
    target E ⟨k, newText k m⟩ = some m := by
  cases k
  · simp [target, newText, hE m hm]
  · simp [target, newText]

/-- The reference as it is after the pairs `D` have been renamed by `M`. -/
def upd (E : Env) (D : List (Nat × Str)) (M : Str → Str) (i : Nat) (r : Ref) : Ref :=
  match target E r with
  | none => r
  | some u => if (i, u) ∈ D then { r with text := newText r.kind (M u) } else r

theorem step_ref {E : Env} (hE : DecodesLetters E) {a : Attr} (hc : Clear E a) {D : List (Nat × Str)} {M : Str → Str}
    {i : Nat} {t m : Str} {r : Ref} (hr : r ∈ a.refs) (ht : ∃ s ∈ a.refs, target E s = some t)
    (hM : ∀ u, (i, u) ∈ D → Letters (M u)) (hm : Letters m) (hD : (i, t) ∈ D → M t = m) :
    putAny E t m (upd E D M i r) = upd E ((i, t) :: D) (fun u => if u = t then m else M u) i r := by
  cases hu : target E r with
  | none => simp [upd, hu, putAny, isRef_none hu]
  | some u =>
    simp only [upd, hu]
    by_cases e : u = t
    · subst e
      simp only [List.mem_cons, true_or, if_true]
      by_cases hd : (i, u) ∈ D
      · rw [if_pos hd, hD hd]
        simp [putAny]
      · rw [if_neg hd]
        simp [putAny, isRef_of_target hu]
    · have hne : ((i, u) ∈ (i, t) :: D) ↔ (i, u) ∈ D := by simp [e]
      simp only [hne, if_neg e]
      rcases hc with hc | hc
      · obtain ⟨s, hs, est⟩ := ht
        exact absurd (hc r hr s hs u t (names_iff.2 hu) (names_iff.2 est)) e
      · obtain ⟨s, hs, est⟩ := ht
        have htl := (hc s hs t (names_iff.2 est)).1
        by_cases hd : (i, u) ∈ D
        · rw [if_pos hd]
          have : ¬ isRef E t { r with text := newText r.kind (M u) } = true := by
            rw [isRef_new hE (hM u hd)]
            intro c
            exact htl (c ▸ hM u hd)
          simp [putAny, this]
        · rw [if_neg hd]
          have htx := (hc r hr u (names_iff.2 hu)).2
          have : ¬ isRef E t r = true := by
            rcases r with ⟨k, s⟩
            simp only at htx
            subst htx
            cases k
            · simp only [isRef, newText, target, Option.some.injEq] at hu ⊢
              cases hdd : E.decode u with
              | none => simp [e]
              | some v => rw [hdd] at hu; simp at hu; simp [hu, e]
            · simp [isRef, newText, e]
          simp [putAny, this]

/-- The new name that the map gives. -/
def nameOf (st : St) (t : Str) : Str := (st.map.lookup t).getD t

def updAll (E : Env) (D : List (Nat × Str)) (M : Str → Str) (d : List Attr) : List Attr :=
  d.mapIdx fun i a => { a with refs := a.refs.map (upd E D M i) }

/-- The state while renaming, with the pairs `D` done. -/
structure J (E : Env) (res : List Str) (d : List Attr) (D : List (Nat × Str)) (s : St × List Attr) : Prop where
  inv : Inv s.1.gen
  same : s.1.gen.reserved = res
  doc : s.2 = updAll E D (nameOf s.1) d
  keys : ∀ t, (s.1.map.lookup t).isSome ↔ ∃ i, (i, t) ∈ D
  vals : ∀ t m, s.1.map.lookup t = some m → Letters m ∧ m ≠ [] ∧ m ∉ res ∧ ord m < ord s.1.gen.current
  inj : ∀ t u m, s.1.map.lookup t = some m → s.1.map.lookup u = some m → t = u
  used : ∀ z, z ∈ s.1.used ↔ ∃ i t a, (i, t) ∈ D ∧ d[i]? = some a ∧ a.isId = false ∧ s.1.map.lookup t = some z

theorem updAll_get {E : Env} {D : List (Nat × Str)} {M : Str → Str} {d : List Attr} {i : Nat} {a : Attr}
    (h : d[i]? = some a) : (updAll E D M d)[i]? = some { a with refs := a.refs.map (upd E D M i) } := by
  simp [updAll, List.getElem?_mapIdx, h]

/-- Pairs that concern other attributes do not matter to this one. -/
theorem upd_other {E : Env} {D : List (Nat × Str)} {M M' : Str → Str} {i j : Nat} {t : Str} {r : Ref} (hij : j ≠ i)
    (hM : ∀ u, (j, u) ∈ D → M' u = M u) : upd E ((i, t) :: D) M' j r = upd E D M j r := by
  unfold upd
  cases target E r with
  | none => rfl
  | some u =>
    have : ((j, u) ∈ (i, t) :: D) ↔ (j, u) ∈ D := by simp [hij]
    simp only [this]
    split
    · rename_i h; rw [hM u h]
    · rfl

theorem rename_step {E : Env} {o : Options} (hE : DecodesLetters E) (hm : o.minify = true) {R res : List Str}
    {d : List Attr} {D : List (Nat × Str)} {s : St × List Attr} (h : J E res d D s) {i : Nat} {t : Str} {a : Attr}
    (hR : t ∈ R) (ha : d[i]? = some a) (hc : Clear E a) (ht : ∃ r ∈ a.refs, target E r = some t) :
    ∃ s', rename E o R s (i, t) = some s' ∧ J E res d ((i, t) :: D) s' := by
  obtain ⟨st, doc⟩ := s
  have hdoc : doc = updAll E D (nameOf st) d := h.doc
  subst hdoc
  have hi := h.inv
  simp only at hi
  obtain ⟨st', l', ev, i', yes, no⟩ := visitAttr_spec (E := E) hm t { a with refs := a.refs.map (upd E D (nameOf st) i) } hi
  have hlook : ∀ u, (∃ k, (k, u) ∈ D) → st.map.lookup u = some (nameOf st u) := by
    intro u hu
    have := (h.keys u).2 hu
    obtain ⟨m, em⟩ := Option.isSome_iff_exists.1 this
    simp only at em
    simp [nameOf, em]
  have hletters : ∀ u, (∃ k, (k, u) ∈ D) → Letters (nameOf st u) := fun u hu => (h.vals u _ (hlook u hu)).1
  refine ⟨(st', (updAll E D (nameOf st) d).set i { a with refs := l' }), ?_, ?_⟩
  · simp only [rename]
    rw [if_pos (by simpa using hR)]
    simp only [updAll_get ha]
    rw [ev]
    rfl
  -- the new state
  have key : ∃ m, l' = (a.refs.map (upd E D (nameOf st) i)).map (putAny E t m) ∧
      (∀ z, z ∈ st'.used ↔ z ∈ st.used ∨ (a.isId = false ∧ z = m)) ∧
      ((st.map.lookup t = some m ∧ st'.map = st.map ∧ st'.gen = st.gen) ∨
        (st.map.lookup t = none ∧ st'.map = (t, m) :: st.map ∧ take st.gen = some (m, st'.gen))) := by
    by_cases hit : ∃ r ∈ a.refs.map (upd E D (nameOf st) i), isRef E t r = true
    · obtain ⟨m, a1, a2⟩ := yes hit
      exact ⟨m, a2, a1.used, a1.how⟩
    · obtain ⟨e1, e2⟩ := no hit
      have hd : (i, t) ∈ D := by
        obtain ⟨r, hr, er⟩ := ht
        by_cases c : (i, t) ∈ D
        · exact c
        · exfalso
          apply hit
          refine ⟨r, List.mem_map.2 ⟨r, hr, ?_⟩, isRef_of_target er⟩
          simp [upd, er, c]
      refine ⟨nameOf st t, ?_, ?_, .inl ⟨hlook t ⟨i, hd⟩, by rw [e1], by rw [e1]⟩⟩
      · rw [e2]
        simp only
        refine (Eq.trans (List.map_congr_left (g := id) fun r hr => ?_) (List.map_id _)).symm
        have : ¬ isRef E t r = true := fun c => hit ⟨r, hr, c⟩
        simp [putAny, this]
      · intro z
        rw [e1]
        constructor
        · exact .inl
        · rintro (h1 | ⟨h1, rfl⟩)
          · exact h1
          · exact (h.used _).2 ⟨i, t, a, hd, ha, h1, hlook t ⟨i, hd⟩⟩
  obtain ⟨m, el, hused, how⟩ := key
  have hlk : ∀ u, st'.map.lookup u = if u = t then some m else st.map.lookup u := by
    intro u
    rcases how with ⟨h1, h2, -⟩ | ⟨h1, h2, -⟩
    · rw [h2]
      by_cases e : u = t
      · rw [if_pos e, e, h1]
      · rw [if_neg e]
    · rw [h2, List.lookup_cons]
      by_cases e : u = t
      · simp [e]
      · have : (u == t) = false := by simpa using e
        rw [this, if_neg e]
  have hname : ∀ u, nameOf st' u = if u = t then m else nameOf st u := by
    intro u
    unfold nameOf
    rw [hlk]
    split <;> rfl
  have hcur : Letters m ∧ m ≠ [] ∧ m ∉ res ∧ ord m < ord st'.gen.current ∧ ord st.gen.current ≤ ord st'.gen.current ∧
      st'.gen.reserved = res := by
    rcases how with ⟨h1, h2, h3⟩ | ⟨h1, h2, h3⟩
    · obtain ⟨v1, v2, v3, v4⟩ := h.vals t m h1
      simp only at v4
      rw [h3]
      exact ⟨v1, v2, v3, v4, Nat.le_refl _, h.same⟩
    · obtain ⟨g, e1, e2, e3, e4, e5⟩ := take_inv hi
      rw [e1] at h3
      simp only [Option.some.injEq, Prod.mk.injEq] at h3
      obtain ⟨rfl, rfl⟩ := h3
      have hs := h.same
      simp only at hs
      refine ⟨hi.letters, hi.nonempty, ?_, e4, Nat.le_of_lt e4, e3.trans hs⟩
      rw [← hs]; exact hi.free
  obtain ⟨cl, cn, cr, co, cle, cs⟩ := hcur
  refine ⟨i', cs, ?_, ?_, ?_, ?_, ?_⟩
  · -- the document
    simp only
    apply List.ext_getElem?
    intro j
    by_cases hj : j = i
    · subst hj
      have hlen : j < (updAll E D (nameOf st) d).length := by
        have := (List.getElem?_eq_some_iff.1 ha).1
        simpa [updAll] using this
      rw [List.getElem?_set_self hlen, updAll_get ha]
      congr 2
      rw [el, List.map_map]
      refine List.map_congr_left fun r hr => ?_
      have hfun : nameOf st' = fun u => if u = t then m else nameOf st u := funext hname
      rw [hfun]
      refine step_ref hE hc hr ht (fun u hu => hletters u ⟨j, hu⟩) cl fun hd => ?_
      rcases how with ⟨h1, -⟩ | ⟨h1, -⟩
      · rw [hlook t ⟨j, hd⟩] at h1; exact Option.some.inj h1
      · rw [hlook t ⟨j, hd⟩] at h1; cases h1
    · rw [List.getElem?_set_ne (Ne.symm hj)]
      simp only [updAll, List.getElem?_mapIdx]
      congr 1
      funext b
      congr 1
      refine List.map_congr_left fun r _ => ?_
      refine (upd_other hj fun u hu => ?_).symm
      rw [hname]
      split
      · rename_i e
        subst e
        rcases how with ⟨h1, -⟩ | ⟨h1, -⟩
        · rw [hlook u ⟨j, hu⟩] at h1; exact (Option.some.inj h1).symm
        · rw [hlook u ⟨j, hu⟩] at h1; cases h1
      · rfl
  · -- keys
    intro u
    simp only
    rw [hlk]
    by_cases e : u = t
    · subst e
      simp only [if_true, Option.isSome_some, true_iff]
      exact ⟨i, by simp⟩
    · rw [if_neg e, h.keys]
      simp [e]
  · -- values
    intro u z hz
    simp only at hz
    rw [hlk] at hz
    by_cases e : u = t
    · rw [if_pos e] at hz
      cases hz
      exact ⟨cl, cn, cr, co⟩
    · rw [if_neg e] at hz
      obtain ⟨v1, v2, v3, v4⟩ := h.vals u z hz
      exact ⟨v1, v2, v3, Nat.lt_of_lt_of_le v4 cle⟩
  · -- injective
    intro u v z hu hv
    simp only at hu hv
    rw [hlk] at hu hv
    have hnew : ∀ w, w ≠ t → st.map.lookup w ≠ some m := by
      intro w hw c
      rcases how with ⟨h1, -⟩ | ⟨h1, h2, h3⟩
      · exact hw (h.inj w t m c h1)
      · have := (h.vals w m c).2.2.2
        obtain ⟨g, e1, -⟩ := take_inv hi
        rw [e1] at h3
        simp only [Option.some.injEq, Prod.mk.injEq] at h3
        rw [← h3.1] at this
        exact Nat.lt_irrefl _ this
    by_cases e1 : u = t <;> by_cases e2 : v = t
    · rw [e1, e2]
    · rw [if_pos e1] at hu; rw [if_neg e2] at hv
      cases hu
      exact absurd hv (hnew v e2)
    · rw [if_neg e1] at hu; rw [if_pos e2] at hv
      cases hv
      exact absurd hu (hnew u e1)
    · rw [if_neg e1] at hu; rw [if_neg e2] at hv
      exact h.inj u v z hu hv
  · -- used
    intro z
    simp only
    rw [hused]
    constructor
    · rintro (h1 | ⟨h1, rfl⟩)
      · obtain ⟨k, u, b, hd, hb, hid, hl⟩ := (h.used z).1 h1
        refine ⟨k, u, b, by simp [hd], hb, hid, ?_⟩
        simp only at hl
        rw [hlk]
        by_cases e : u = t
        · subst e
          rw [if_pos rfl]
          rcases how with ⟨h2, -⟩ | ⟨h2, -⟩
          · rw [hl] at h2; exact h2.symm
          · rw [hl] at h2; cases h2
        · rw [if_neg e]; exact hl
      · exact ⟨i, t, a, by simp, ha, h1, by rw [hlk, if_pos rfl]⟩
    · rintro ⟨k, u, b, hd, hb, hid, hl⟩
      rw [hlk] at hl
      by_cases e : (k, u) = (i, t)
      · simp only [Prod.mk.injEq] at e
        obtain ⟨rfl, rfl⟩ := e
        rw [if_pos rfl] at hl
        rw [ha] at hb
        cases hb
        cases hl
        exact .inr ⟨hid, rfl⟩
      · have hd' : (k, u) ∈ D := by
          rcases List.mem_cons.1 hd with c | c
          · exact absurd c e
          · exact c
        left
        refine (h.used z).2 ⟨k, u, b, hd', hb, hid, ?_⟩
        simp only
        by_cases e2 : u = t
        · subst e2
          rw [if_pos rfl] at hl
          cases hl
          rcases how with ⟨h2, -⟩ | ⟨h2, -⟩
          · exact h2
          · rw [hlook u ⟨k, hd'⟩] at h2; cases h2
        · rw [if_neg e2] at hl; exact hl

theorem renameAll_spec {E : Env} {o : Options} (hE : DecodesLetters E) (hm : o.minify = true) {R res : List Str}
    {d : List Attr} (hc : ∀ a ∈ d, Clear E a) (w D : List (Nat × Str)) {s : St × List Attr} (h : J E res d D s)
    (hw : ∀ i t, (i, t) ∈ w → t ∈ R ∧ ∃ a, d[i]? = some a ∧ ∃ r ∈ a.refs, target E r = some t) :
    ∃ s', renameAll E o R w s = some s' ∧ J E res d (w.reverse ++ D) s' := by
  induction w generalizing D s with
  | nil => exact ⟨s, rfl, by simpa using h⟩
  | cons x w ih =>
    obtain ⟨i, t⟩ := x
    obtain ⟨hR, a, ha, ht⟩ := hw i t (by simp)
    obtain ⟨s1, e1, j1⟩ := rename_step (o := o) hE hm h hR ha (hc a (List.mem_of_getElem? ha)) ht
    obtain ⟨s2, e2, j2⟩ := ih _ j1 fun i t hi => hw i t (by simp [hi])
    exact ⟨s2, by simp [renameAll, e1, e2], by simpa using j2⟩

end Verif.CleanupIds
