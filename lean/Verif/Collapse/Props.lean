import Verif.Collapse.Lemmas

/-!
# C48: collapsing groups keeps the picture
-/

namespace Verif.Collapse

open Verif.Tree Verif.Names Verif.Empty

variable {T V : Type}

/-! ## What the attributes of a group and of its only child say together -/

/-- What a group with one element in it draws. -/
def both (L : Lang V) (env : String → Option V) (t : List T) (g c : List (Attr T V))
    (core : List (Attr T V) → (String → Option V) → List T → List (Pic T V)) : List (Pic T V) :=
  effects L g (t ++ ownXf g) (effects L c (t ++ ownXf g ++ ownXf c)
    (core (ownAttrs L c) (inherit L c (inherit L g env)) (t ++ ownXf g ++ ownXf c)))

/-- The effects of the child apart from its opacity. -/
def inner (c : List (Attr T V)) (t : List T) (core : List (Pic T V)) : List (Pic T V) :=
  through c "mask" (some t) (through c "clip-path" (some t) (through c "filter" (some t) core))

theorem through_none {as : List (Attr T V)} {name : String} (h : look as (plainName name) = none) (t : Option (List T))
    (l : List (Pic T V)) : through as name t l = l := by rw [through, h]

theorem through_nil (as : List (Attr T V)) (name : String) (t : Option (List T)) : through as name t [] = [] := by
  rw [through]
  split <;> rfl

theorem effects_two (L : Lang V) {g : List (Attr T V)} (hm : look g (plainName "mask") = none)
    (hc : look g (plainName "clip-path") = none) (hf : look g (plainName "filter") = none) (c : List (Attr T V)) (t1 t2 : List T)
    (core : List (Pic T V)) : effects L g t1 (effects L c t2 core) =
      if isHidden L g || isHidden L c then [] else through g "opacity" none (through c "opacity" none (inner c t2 core)) := by
  unfold effects inner
  rw [through_none hm, through_none hc, through_none hf]
  cases isHidden L g <;> cases isHidden L c <;> simp [through_nil]

theorem plainName_inj {s s' : String} (h : plainName s = plainName s') : s = s' := congrArg AName.loc h

theorem inner_congr {c c' : List (Attr T V)} (h : ∀ s ∈ ["mask", "clip-path", "filter"], look c' (plainName s) = look c (plainName s))
    (t : List T) (core : List (Pic T V)) : inner c' t core = inner c t core := by
  unfold inner through
  rw [h "mask" (by simp), h "clip-path" (by simp), h "filter" (by simp)]

/-- What is needed of an attribute that is given to the child. -/
structure Movable (L : Lang V) (a : Attr T V) (g c : List (Attr T V)) : Prop where
  kind : GroupAttr L a.name
  effect : a.name ≠ plainName "mask" ∧ a.name ≠ plainName "clip-path" ∧ a.name ≠ plainName "filter"
  group : look g a.name = none
  xf : a.name = plainName "transform" → ∃ l, a.val = .xf (some l) ∧ ∀ v, look c a.name = some v → ∃ m, v = .xf (some m)
  inh : a.name.pre = "" → L.inherited a.name.loc = true → ∃ o, a.val = .inh o ∧ ∀ v, look c a.name = some v → ∃ o, v = .inh o
  loose : loose a.name → look c a.name = none

theorem plain_of {n : AName} (h : n.pre = "") : n = plainName n.loc := by
  obtain ⟨p, l⟩ := n
  simp only at h
  subst h
  rfl

theorem declared_congr (L : Lang V) {c c' : List (Attr T V)} (hst : look c' (plainName "style") = look c (plainName "style"))
    (p : String) : declared L c' p = declared L c p := by unfold declared; rw [hst]

theorem inherit_congr (L : Lang V) {c c' : List (Attr T V)} (env : String → Option V)
    (hst : look c' (plainName "style") = look c (plainName "style"))
    (h : ∀ p, L.inherited p = true → look c' (plainName p) = look c (plainName p)) : inherit L c' env = inherit L c env := by
  funext p
  simp only [inherit]
  split
  · rename_i hp; rw [declared_congr L hst, h p hp]
  · rfl

theorem look_cons_ne {a : Attr T V} {g : List (Attr T V)} {n : AName} (h : n ≠ a.name) : look (a :: g) n = look g n := by
  rw [look, if_neg (fun e => h e.symm)]

theorem isHidden_congr (L : Lang V) {c c' : List (Attr T V)} (h : look c' (plainName "display") = look c (plainName "display")) :
    isHidden L c' = isHidden L c := by unfold isHidden; rw [h]

theorem through_congr {c c' : List (Attr T V)} {s : String} (h : look c' (plainName s) = look c (plainName s)) (t : Option (List T))
    (l : List (Pic T V)) : through c' s t l = through c s t l := by unfold through; rw [h]

theorem ownXf_congr {c c' : List (Attr T V)} (h : look c' (plainName "transform") = look c (plainName "transform")) :
    ownXf c' = ownXf c := by unfold ownXf; rw [h]

theorem GroupAttr.placed {L : Lang V} {n : AName} (h : GroupAttr L n) : isPlaced L n = true := by
  unfold isPlaced
  rcases h with h | h | h | h | h | h | h
  · simp [h]
  · simp [h.1, h.2]
  · rcases h with h | h <;> simp [h]
  · simp [h]
  · simp [h]
  · simp [h]
  · simp [h]

/-- One attribute given to the child leaves what is drawn. -/
theorem both_step {L : Lang V} (hs : L.Sane) {a : Attr T V} {g c c' : List (Attr T V)} (hm : Movable L a g c) (st : Step a c c')
    (h1 : look g (plainName "mask") = none) (h2 : look g (plainName "clip-path") = none)
    (h3 : look g (plainName "filter") = none) (h4 : look g (plainName "style") = none) (env : String → Option V) (t : List T)
    (core : List (Attr T V) → (String → Option V) → List T → List (Pic T V)) :
    both L env t (a :: g) c core = both L env t g c' core := by
  have e1 : look (a :: g) (plainName "mask") = none := by rw [look_cons_ne hm.effect.1.symm, h1]
  have e2 : look (a :: g) (plainName "clip-path") = none := by rw [look_cons_ne hm.effect.2.1.symm, h2]
  have e3 : look (a :: g) (plainName "filter") = none := by rw [look_cons_ne hm.effect.2.2.symm, h3]
  have hown : ownAttrs L c' = ownAttrs L c := by
    refine st.rest (fun n => !isPlaced L n) ?_
    simp [hm.kind.placed]
  have hinner : ∀ t core, inner c' t core = inner c t core := by
    intro t core
    apply inner_congr
    intro s hs
    refine st.other _ fun e => ?_
    simp only [List.mem_cons, List.not_mem_nil, or_false] at hs
    rcases hs with rfl | rfl | rfl
    · exact hm.effect.1 e.symm
    · exact hm.effect.2.1 e.symm
    · exact hm.effect.2.2 e.symm
  have hne : ∀ {s : String}, plainName s ≠ a.name → look (a :: g) (plainName s) = look g (plainName s) ∧
      look c' (plainName s) = look c (plainName s) := fun h => ⟨look_cons_ne h, st.other _ h⟩
  unfold both
  rw [effects_two L e1 e2 e3, effects_two L h1 h2 h3, hown, hinner]
  have hstyle : plainName "style" ≠ a.name := by
    intro e
    rcases hm.kind with h | h | h | h | h | h | h
    · rw [h] at e; exact absurd (plainName_inj e) (by decide)
    · rw [← e] at h
      exact absurd (h.2.symm.trans (hs.inherited "style" (by simp))) (by simp)
    · rcases h with h | h <;> (rw [h] at e; exact absurd (plainName_inj e) (by decide))
    · exact hm.effect.1 h
    · exact hm.effect.2.1 h
    · exact hm.effect.2.2 h
    · rw [← e, hs.inert "style" (by simp)] at h; cases h
  -- each part stays if the name is another one
  have pT : plainName "transform" ≠ a.name → ownXf (a :: g) = ownXf g ∧ ownXf c' = ownXf c := fun h =>
    ⟨ownXf_congr (hne h).1, ownXf_congr (hne h).2⟩
  have pD : plainName "display" ≠ a.name → isHidden L (a :: g) = isHidden L g ∧ isHidden L c' = isHidden L c := fun h =>
    ⟨isHidden_congr L (hne h).1, isHidden_congr L (hne h).2⟩
  have pO : plainName "opacity" ≠ a.name → ∀ l, through (a :: g) "opacity" none (through c "opacity" none l) =
      through g "opacity" none (through c' "opacity" none l) := fun h l => by
    rw [through_congr (hne h).1, through_congr (hne h).2]
  have pE : (∀ p, L.inherited p = true → plainName p ≠ a.name) →
      inherit L c (inherit L (a :: g) env) = inherit L c' (inherit L g env) := fun h => by
    rw [inherit_congr L _ (hne hstyle).1 fun p hp => (hne (h p hp)).1, inherit_congr L _ (hne hstyle).2 fun p hp => (hne (h p hp)).2]
  have nT : ∀ s, s ≠ "transform" → a.name = plainName s → plainName "transform" ≠ a.name := fun s hs' e e' =>
    hs' (plainName_inj (e'.trans e)).symm
  by_cases kT : a.name = plainName "transform"
  · obtain ⟨l, hl, hc⟩ := hm.xf kT
    have d1 : plainName "display" ≠ a.name := by rw [kT]; exact fun e => absurd (plainName_inj e) (by decide)
    have d2 : plainName "opacity" ≠ a.name := by rw [kT]; exact fun e => absurd (plainName_inj e) (by decide)
    have d3 : ∀ p, L.inherited p = true → plainName p ≠ a.name := by
      intro p hp e
      rw [kT] at e
      rw [plainName_inj e, hs.inherited "transform" (by simp)] at hp
      cases hp
    have x1 : ownXf (a :: g) = l := by simp [ownXf, look, kT, hl]
    have x2 : ownXf g = [] := by
      have := hm.group
      rw [kT] at this
      simp [ownXf, this]
    have x3 : ownXf c' = l ++ ownXf c := by
      have := st.same
      rw [kT] at this
      rw [ownXf, this, hl]
      cases hcl : look c (plainName "transform") with
      | none => simp [merge, ownXf, hcl]
      | some v =>
        obtain ⟨m, rfl⟩ := hc v (by rw [kT, hcl])
        simp [merge, ownXf, hcl]
    rw [x1, x2, x3, (pD d1).1, (pD d1).2, pE d3, pO d2]
    simp [List.append_assoc]
  by_cases kE : a.name.pre = "" ∧ L.inherited a.name.loc = true
  · obtain ⟨hp, hi⟩ := kE
    have hn := plain_of hp
    obtain ⟨o, ho, hc⟩ := hm.inh hp hi
    have d0 : ∀ s ∈ ["transform", "style", "display", "opacity", "mask", "clip-path", "filter"], plainName s ≠ a.name := by
      intro s hmem e
      rw [← e] at hi
      rw [show (plainName s).loc = s from rfl, hs.inherited s hmem] at hi
      cases hi
    have hE : inherit L c (inherit L (a :: g) env) = inherit L c' (inherit L g env) := by
      funext p
      by_cases hpi : L.inherited p = true
      · by_cases hpa : plainName p = a.name
        · have hg0 := hm.group
          rw [← hpa] at hg0
          have hs1 := (hne hstyle).1
          have hs2 := (hne hstyle).2
          have hs3 := st.same
          rw [← hpa, ho] at hs3
          have hc' : ∀ v, look c (plainName p) = some v → ∃ o, v = .inh o := by rw [hpa]; exact hc
          have hG : look (a :: g) (plainName p) = some (.inh o) := by rw [look, if_pos hpa.symm, ho]
          have g1 : declared L g p = none := by unfold declared; rw [h4]
          simp only [inherit, hpi, if_true, declared_congr L hs1, declared_congr L hs2, g1, hg0, hG, hs3]
          cases declared L c p with
          | some v => rfl
          | none =>
            cases hlc : look c (plainName p) with
            | none => cases o <;> simp [merge]
            | some v =>
              obtain ⟨o', rfl⟩ := hc' v hlc
              cases o' <;> cases o <;> simp [merge]
        · simp only [inherit, hpi, if_true, declared_congr L (hne hstyle).1, declared_congr L (hne hstyle).2, (hne hpa).1, (hne hpa).2]
      · simp only [inherit, if_neg hpi]
    rw [(pT (d0 _ (by simp))).1, (pT (d0 _ (by simp))).2, (pD (d0 _ (by simp))).1, (pD (d0 _ (by simp))).2, hE,
      pO (d0 _ (by simp))]
  by_cases kL : loose a.name
  · have hc := hm.loose kL
    have hsame := st.same
    rw [hc] at hsame
    simp only [merge] at hsame
    have hg := hm.group
    have d1 : plainName "transform" ≠ a.name := fun e => kT e.symm
    have d3 : ∀ p, L.inherited p = true → plainName p ≠ a.name := by
      intro p hp e
      exact kE (by rw [← e]; exact ⟨rfl, hp⟩)
    rw [(pT d1).1, (pT d1).2, pE d3]
    rcases kL with k | k
    · have d2 : plainName "display" ≠ a.name := by rw [k]; exact fun e => absurd (plainName_inj e) (by decide)
      rw [(pD d2).1, (pD d2).2]
      rw [k] at hc hsame hg
      have e1 : look (a :: g) (plainName "opacity") = some a.val := by rw [look, if_pos k]
      rw [through_none hg]
      unfold through
      rw [e1, hc, hsame]
    · have d2 : plainName "opacity" ≠ a.name := by rw [k]; exact fun e => absurd (plainName_inj e) (by decide)
      rw [pO d2]
      rw [k] at hc hsame hg
      have e1 : look (a :: g) (plainName "display") = some a.val := by rw [look, if_pos k]
      have e2 : isHidden L (a :: g) = isHidden L c' := by unfold isHidden; rw [e1, hsame]
      have e3 : isHidden L g = false := by unfold isHidden; rw [hg]
      have e4 : isHidden L c = false := by unfold isHidden; rw [hc]
      rw [e2, e3, e4]
      simp
  · have hin : L.inert a.name = true := by
      rcases hm.kind with h | h | h | h | h | h | h
      · exact absurd h kT
      · exact absurd h kE
      · exact absurd h kL
      · exact absurd h hm.effect.1
      · exact absurd h hm.effect.2.1
      · exact absurd h hm.effect.2.2
      · exact h
    have d1 : plainName "transform" ≠ a.name := fun e => kT e.symm
    have d2 : plainName "display" ≠ a.name := fun e => kL (.inr e.symm)
    have d3 : plainName "opacity" ≠ a.name := fun e => kL (.inl e.symm)
    have d4 : ∀ p, L.inherited p = true → plainName p ≠ a.name := by
      intro p hp e
      exact kE (by rw [← e]; exact ⟨rfl, hp⟩)
    rw [(pT d1).1, (pT d1).2, (pD d2).1, (pD d2).2, pE d4, pO d3]

/-- Several attributes given to the child leave what is drawn. -/
theorem both_steps {L : Lang V} (hs : L.Sane) {P Q c c' : List (Attr T V)} (st : Steps P c c')
    (hm : ∀ a ∈ P, GroupAttr L a.name) (h1 : look (P ++ Q) (plainName "mask") = none)
    (h2 : look (P ++ Q) (plainName "clip-path") = none) (h3 : look (P ++ Q) (plainName "filter") = none)
    (h4 : look (P ++ Q) (plainName "style") = none) (hn : ((P ++ Q).map (·.name)).Nodup)
    (hx : ∀ a ∈ P, a.name = plainName "transform" → ∃ l, a.val = .xf (some l) ∧ ∀ v, look c a.name = some v → ∃ m, v = .xf (some m))
    (hi : ∀ a ∈ P, a.name.pre = "" → L.inherited a.name.loc = true →
      ∃ o, a.val = .inh o ∧ ∀ v, look c a.name = some v → ∃ o, v = .inh o)
    (hl : ∀ a ∈ P, loose a.name → look c a.name = none) (env : String → Option V) (t : List T)
    (core : List (Attr T V) → (String → Option V) → List T → List (Pic T V)) :
    both L env t (P ++ Q) c core = both L env t Q c' core := by
  induction st with
  | nil => rfl
  | @cons a as c c1 c2 s1 s2 ih =>
    have hn' := hn
    rw [List.cons_append, List.map_cons, List.nodup_cons] at hn'
    have hne : ∀ b ∈ as, b.name ≠ a.name := fun b hb e => hn'.1 (e ▸ List.mem_map_of_mem (List.mem_append_left _ hb))
    have tail : ∀ s : String, look (a :: as ++ Q) (plainName s) = none → look (as ++ Q) (plainName s) = none ∧ a.name ≠ plainName s := by
      intro s h
      rw [List.cons_append, look] at h
      split at h
      · cases h
      · exact ⟨h, ‹_›⟩
    rw [List.cons_append, both_step hs (c' := c1) ?_ s1 (tail _ h1).1 (tail _ h2).1 (tail _ h3).1 (tail _ h4).1]
    · apply ih
      · exact fun b hb => hm b (List.mem_cons_of_mem _ hb)
      · exact (tail _ h1).1
      · exact (tail _ h2).1
      · exact (tail _ h3).1
      · exact (tail _ h4).1
      · exact hn'.2
      · intro b hb e
        rw [s1.other b.name (hne b hb)]
        exact hx b (List.mem_cons_of_mem _ hb) e
      · intro b hb e e'
        rw [s1.other b.name (hne b hb)]
        exact hi b (List.mem_cons_of_mem _ hb) e e'
      · intro b hb e
        rw [s1.other b.name (hne b hb)]
        exact hl b (List.mem_cons_of_mem _ hb) e
    · refine ⟨hm a (by simp), ⟨(tail _ h1).2, (tail _ h2).2, (tail _ h3).2⟩, ?_, hx a (by simp), hi a (by simp), hl a (by simp)⟩
      rw [look_none]
      exact fun b hb e => hn'.1 (e ▸ List.mem_map_of_mem hb)

/-! ## The attributes afterwards -/

theorem drop_all {P' Q : List (Attr T V)} {names : List AName} (hp : P'.map (·.name) = names) :
    names.foldl drop (P' ++ Q) = Q := by
  induction P' generalizing names with
  | nil => cases hp; rfl
  | cons a P ih =>
    cases hp
    rw [List.map_cons, List.foldl_cons]
    have : drop (a :: P ++ Q) a.name = P ++ Q := by simp [drop]
    rw [this]
    exact ih rfl

theorem steps_mem {P c c' : List (Attr T V)} (st : Steps P c c') {b : Attr T V} (hb : b ∈ c') :
    b ∈ c ∨ ∃ a ∈ P, b.name = a.name := by
  induction st with
  | nil => exact .inl hb
  | cons s1 _ ih =>
    rcases ih hb with h | ⟨a, ha, e⟩
    · rcases s1.mem b h with h | h
      · exact .inl h
      · exact .inr ⟨_, by simp, h⟩
    · exact .inr ⟨a, List.mem_cons_of_mem _ ha, e⟩

theorem steps_names {P c c' : List (Attr T V)} (st : Steps P c c') (h : (c.map (·.name)).Nodup) : (c'.map (·.name)).Nodup := by
  induction st with
  | nil => exact h
  | cons s1 _ ih => exact ih (s1.names h)

theorem mem_look {as : List (Attr T V)} (hn : (as.map (·.name)).Nodup) {a : Attr T V} (h : a ∈ as) : look as a.name = some a.val := by
  induction as with
  | nil => cases h
  | cons b as ih =>
    rw [List.map_cons, List.nodup_cons] at hn
    rw [look]
    rcases List.mem_cons.mp h with rfl | h
    · simp
    · rw [if_neg]
      · exact ih hn.2 h
      · exact fun e => hn.1 (e ▸ List.mem_map_of_mem h)

theorem step_typed {L : Lang V} {a : Attr T V} {c c' : List (Attr T V)} (st : Step a c c') (hc : Typed L c) (ha : Typed L [a])
    (hl : loose a.name → look c a.name = none) : Typed L c' := by
  have hv : ∀ b ∈ c', b ∈ c ∨ (b.name = a.name ∧ b.val = merge a.val (look c a.name)) := by
    intro b hb
    by_cases e : b.name = a.name
    · refine .inr ⟨e, ?_⟩
      have := mem_look (st.names hc.names) hb
      rw [e, st.same] at this
      exact (Option.some.inj this).symm
    · left
      have := mem_look (st.names hc.names) hb
      rw [st.other _ e] at this
      exact look_mem this
  have key : ∀ (q : Val T V → Prop), (∀ v, look c a.name = some v → q v) → q a.val → (∀ l m, q (.xf (some l)) → q (.xf (some m)) → q (.xf (some (l ++ m)))) →
      q (merge a.val (look c a.name)) := by
    intro q hq qa qx
    cases hlk : look c a.name with
    | none => exact qa
    | some w =>
      have := hq w hlk
      cases w with
      | xf o => cases o with
        | none => exact qa
        | some m =>
          cases hav : a.val with
          | xf o => cases o with
            | none => exact this
            | some l => exact qx l m (hav ▸ qa) this
          | inh => exact this
          | plain => exact this
      | inh o => cases o with
        | none => exact qa
        | some => exact this
      | plain => exact this
  refine ⟨st.names hc.names, ?_, ?_, ?_, ?_⟩
  · intro b hb e
    rcases hv b hb with h | ⟨h, h'⟩
    · exact hc.xf b h e
    · rw [h']
      refine key (fun v => ∃ l, v = .xf (some l)) (fun v hv => hc.xf ⟨_, v⟩ (look_mem hv) (h ▸ e)) (ha.xf a (by simp) (h ▸ e)) ?_
      intro l m _ _
      exact ⟨_, rfl⟩
  · intro b hb e e'
    rcases hv b hb with h | ⟨h, h'⟩
    · exact hc.inh b h e e'
    · rw [h']
      refine key (fun v => ∃ o, v = .inh o) (fun v hv => hc.inh ⟨_, v⟩ (look_mem hv) (h ▸ e) (h ▸ e')) (ha.inh a (by simp) (h ▸ e) (h ▸ e')) ?_
      rintro l m ⟨o, ho⟩
      cases ho
  · intro b hb e
    rcases hv b hb with h | ⟨h, h'⟩
    · exact hc.loose b h e
    · rw [h', hl (h ▸ e)]
      exact ha.loose a (by simp) (h ▸ e)
  · intro b hb e
    rcases hv b hb with h | ⟨h, h'⟩
    · exact hc.inert b h e
    · rw [h']
      refine key (fun v => ∃ w, v = .plain w) (fun v hv => hc.inert ⟨_, v⟩ (look_mem hv) (h ▸ e)) (ha.inert a (by simp) (h ▸ e)) ?_
      rintro l m ⟨o, ho⟩
      cases ho

theorem Typed.sub {L : Lang V} {as bs : List (Attr T V)} (h : Typed L as) (hb : bs.Sublist as) : Typed L bs :=
  ⟨(hb.map _).nodup h.names, fun a ha => h.xf a (hb.subset ha), fun a ha => h.inh a (hb.subset ha),
    fun a ha => h.loose a (hb.subset ha), fun a ha => h.inert a (hb.subset ha)⟩

theorem steps_typed {L : Lang V} {P c c' : List (Attr T V)} (st : Steps P c c') (hc : Typed L c) (hP : Typed L P)
    (hl : ∀ a ∈ P, loose a.name → look c a.name = none) : Typed L c' := by
  induction st with
  | nil => exact hc
  | @cons a as c c1 c2 s1 _ ih =>
    have hn := hP.names
    rw [List.map_cons, List.nodup_cons] at hn
    refine ih (step_typed s1 hc (hP.sub (by simp)) (hl a (by simp))) (hP.sub (by simp)) ?_
    intro b hb e
    rw [s1.other]
    · exact hl b (List.mem_cons_of_mem _ hb) e
    · exact fun e => hn.1 (e ▸ List.mem_map_of_mem hb)

/-! ## Fit trees -/

mutual
theorem Fit.mono {L : Lang V} {shows inG inG' : Bool} {taken taken' : AName → Prop} (h1 : inG' = true → inG = true)
    (h2 : ∀ m, loose m → taken' m → taken m) (n : Node (Attr T V)) (h : Fit L shows inG taken n) : Fit L shows inG' taken' n := by
  match n with
  | .elem n as ks =>
    obtain ⟨a, b, c, d, e, f⟩ := h
    refine ⟨a, b, fun x hx hl ht => c x hx hl (h2 _ hl ht), d, fun hi => e (h1 hi), ?_⟩
    refine FitAll.mono id (fun m hl => ?_) ks f
    rintro (h | h)
    · exact .inl (h2 m hl h)
    · exact .inr h
  | .text _ => trivial
  | .css _ => trivial
  | .comment _ => trivial
  | .pi _ _ => trivial
theorem FitAll.mono {L : Lang V} {shows inG inG' : Bool} {taken taken' : AName → Prop} (h1 : inG' = true → inG = true)
    (h2 : ∀ m, loose m → taken' m → taken m) (ns : List (Node (Attr T V))) (h : FitAll L shows inG taken ns) :
    FitAll L shows inG' taken' ns := by
  match ns with
  | [] => trivial
  | n :: ns => exact ⟨Fit.mono h1 h2 n h.1, FitAll.mono h1 h2 ns h.2⟩
end

theorem fitAll_append {L : Lang V} {shows inG : Bool} {taken : AName → Prop} {a b : List (Node (Attr T V))} :
    FitAll L shows inG taken (a ++ b) ↔ FitAll L shows inG taken a ∧ FitAll L shows inG taken b := by
  induction a with
  | nil => simp [FitAll]
  | cons x a ih => simp only [List.cons_append, FitAll, ih, and_assoc]

theorem picsAll_append (L : Lang V) (shows : Bool) (env : String → Option V) (t : List T) (a b : List (Node (Attr T V))) :
    picsAll L shows env t (a ++ b) = picsAll L shows env t a ++ picsAll L shows env t b := by
  induction a with
  | nil => rfl
  | cons x a ih => simp only [List.cons_append, picsAll, ih, List.append_assoc]

theorem only_split {ks : List (Node (Attr T V))} {m : EName} {c : List (Attr T V)} {k : List (Node (Attr T V))}
    (h : only ks = some (m, c, k)) : ∃ p q, ks = p ++ .elem m c k :: q ∧ (∀ x ∈ p, isElem x = false) ∧ ∀ x ∈ q, isElem x = false := by
  have hf : ks.filter isElem = [.elem m c k] := by
    unfold only at h
    split at h
    · rename_i e; cases h; exact e
    · cases h
  clear h
  induction ks with
  | nil => cases hf
  | cons x ks ih =>
    rw [List.filter_cons] at hf
    split at hf
    · simp only [List.cons.injEq] at hf
      obtain ⟨rfl, hf⟩ := hf
      exact ⟨[], ks, rfl, by simp, fun x hx => by simpa using List.filter_eq_nil_iff.mp hf x hx⟩
    · rename_i hx
      obtain ⟨p, q, rfl, hp, hq⟩ := ih hf
      refine ⟨x :: p, q, rfl, ?_, hq⟩
      intro y hy
      rcases List.mem_cons.mp hy with rfl | hy
      · simpa using hx
      · exact hp y hy

theorem setOnly_same (as : List (Attr T V)) {p : List (Node (Attr T V))} (h : ∀ x ∈ p, isElem x = false) : setOnly as p = p := by
  induction p with
  | nil => rfl
  | cons x p ih =>
    have h1 := h x (by simp)
    have h2 := ih fun y hy => h y (List.mem_cons_of_mem _ hy)
    unfold setOnly at h2 ⊢
    rw [List.map_cons, h2]
    cases x with
    | elem => cases h1
    | text | css | comment | pi => rfl

theorem setOnly_split (as : List (Attr T V)) {p q : List (Node (Attr T V))} {m : EName} {c : List (Attr T V)}
    {k : List (Node (Attr T V))} (hp : ∀ x ∈ p, isElem x = false) (hq : ∀ x ∈ q, isElem x = false) :
    setOnly as (p ++ .elem m c k :: q) = p ++ .elem m as k :: q := by
  have h1 := setOnly_same as hp
  have h2 := setOnly_same as hq
  unfold setOnly at h1 h2 ⊢
  rw [List.map_append, List.map_cons, h1, h2]

theorem pics_blank (L : Lang V) (env : String → Option V) (t : List T) {p : List (Node (Attr T V))} (h : ∀ x ∈ p, isElem x = false) :
    picsAll L false env t p = [] := by
  induction p with
  | nil => rfl
  | cons x p ih =>
    have h1 := h x (by simp)
    rw [picsAll, ih fun y hy => h y (List.mem_cons_of_mem _ hy)]
    cases x with
    | elem => cases h1
    | text | css | comment | pi => simp [pics]

theorem fit_blank {L : Lang V} {shows inG : Bool} {taken : AName → Prop} {p : List (Node (Attr T V))} (h : ∀ x ∈ p, isElem x = false) :
    FitAll L shows inG taken p := by
  induction p with
  | nil => trivial
  | cons x p ih =>
    have h1 := h x (by simp)
    refine ⟨?_, ih fun y hy => h y (List.mem_cons_of_mem _ hy)⟩
    cases x with
    | elem => cases h1
    | text | css | comment | pi => trivial

mutual
theorem fit_still {L : Lang V} {shows inG : Bool} {taken : AName → Prop} (q : EName → List (Attr T V) → Bool)
    (hq : ∀ n as, isAnimation n = false → q n as = false) (n : Node (Attr T V)) (h : Fit L shows inG taken n) : anyElem q n = false := by
  match n with
  | .elem n as ks =>
    obtain ⟨a, b, c, d, e, f⟩ := h
    rw [anyElem, hq n as a, fit_stillAll q hq ks f]
    rfl
  | .text _ => rfl
  | .css _ => rfl
  | .comment _ => rfl
  | .pi _ _ => rfl
theorem fit_stillAll {L : Lang V} {shows inG : Bool} {taken : AName → Prop} (q : EName → List (Attr T V) → Bool)
    (hq : ∀ n as, isAnimation n = false → q n as = false) (ns : List (Node (Attr T V))) (h : FitAll L shows inG taken ns) :
    anyElems q ns = false := by
  match ns with
  | [] => rfl
  | n :: ns => rw [anyElems, fit_still q hq n h.1, fit_stillAll q hq ns h.2]; rfl
end

theorem among_g {n : EName} (h : n.is "g" = true) : n.is "svg" = false ∧ isFresh n = false ∧ ∀ b, textShows n b = b := by
  have hl : n.loc = lit "g" := by simp only [EName.is, Bool.and_eq_true, beq_iff_eq] at h; exact h.2
  have h1 : n.is "svg" = false := by simp [EName.is, hl, lit]
  refine ⟨h1, ?_, ?_⟩
  · simp [isFresh, among, EName.is, hl, lit]
  · intro b
    simp only [textShows, h1, Bool.false_eq_true, if_false]
    rw [if_pos]
    exact List.any_eq_true.mpr ⟨"g", by simp, h⟩

/-- A fit group without attributes draws what its content draws. -/
theorem pics_bare (L : Lang V) (shows : Bool) (env : String → Option V) (t : List T) {n : EName} (h : n.is "g" = true)
    (ks : List (Node (Attr T V))) : pics L shows env t (.elem n [] ks) = picsAll L shows env t ks := by
  obtain ⟨h1, h2, h3⟩ := among_g h
  have hi : inherit L ([] : List (Attr T V)) env = env := by
    funext p
    simp [inherit, declared, look]
  simp [pics, h, h2, h3, hi, effects, through, isHidden, look, ownXf]

/-- What moving the attributes of a group leaves. -/
theorem moveAttrs_spec [DecidableEq T] [DecidableEq V] {L : Lang V} (hs : L.Sane) (word : String → V) (styleFilter : V → Bool)
    {inG : Bool} {taken : AName → Prop} {n m : EName} {g c : List (Attr T V)} {k : List (Node (Attr T V))} (hn : n.is "g" = true)
    (hg : Typed L g) (hk : ∀ a ∈ g, GroupAttr L a.name) (ht : ∀ a ∈ g, loose a.name → ¬ taken a.name)
    (hc : Fit L false true (fun x => taken x ∨ ∃ a ∈ g, a.name = x) (.elem m c k)) :
    ∃ g' c', moveAttrs word styleFilter g m c k = .ok (g', c') ∧ g'.Sublist g ∧
      Fit L false true (fun x => taken x ∨ ∃ a ∈ g', a.name = x) (.elem m c' k) ∧
      ∀ env (t : List T), pics L false env t (.elem n g' [.elem m c' k]) = pics L false env t (.elem n g [.elem m c k]) := by
  unfold moveAttrs
  by_cases c1 : g.isEmpty = true
  · rw [if_pos c1]; exact ⟨g, c, rfl, List.Sublist.refl _, hc, fun _ _ => rfl⟩
  rw [if_neg c1]
  by_cases c2 : identifiable g c = true
  · rw [if_pos c2]; exact ⟨g, c, rfl, List.Sublist.refl _, hc, fun _ _ => rfl⟩
  rw [if_neg c2]
  by_cases c3 : unstable g m c = true
  · rw [if_pos c3]; exact ⟨g, c, rfl, List.Sublist.refl _, hc, fun _ _ => rfl⟩
  rw [if_neg c3]
  by_cases c4 : withFilter styleFilter g = true
  · rw [if_pos c4]; exact ⟨g, c, rfl, List.Sublist.refl _, hc, fun _ _ => rfl⟩
  rw [if_neg c4]
  obtain ⟨f1, f2, f3, f4, f5, f6⟩ := hc
  have hanim : ∀ (c' : List (Attr T V)) (s : String), anyElem (animates word s) (.elem m c' k) = false := by
    intro c' s
    rw [anyElem, fit_stillAll _ (fun n as h => by simp [animates, h]) k f6]
    simp [animates, f1]
  rw [f1]
  obtain ⟨g1, c', rm, P, Q, P', e1, e2, st, e3, e4, e5⟩ := loop_spec (fun c loc => anyElem (animates word loc) (.elem m c k)) hanim g c []
    (by
      intro a ha l hl v hv
      rcases hk a ha with h | h | h | h | h | h | h
      · exact f2.xf ⟨_, v⟩ (look_mem hv) h
      · obtain ⟨o, ho⟩ := hg.inh a ha h.1 h.2
        rw [hl] at ho; cases ho
      · obtain ⟨o, ho⟩ := hg.loose a ha h
        rw [hl] at ho; cases ho
      · exfalso; apply c3; simp only [unstable, has_look]
        have := mem_look hg.names ha
        rw [h] at this
        simp [this]
      · exfalso; apply c3; simp only [unstable, has_look]
        have := mem_look hg.names ha
        rw [h] at this
        simp [this]
      · exfalso; apply c4; simp only [withFilter, has_look]
        have := mem_look hg.names ha
        rw [h] at this
        simp [this]
      · obtain ⟨o, ho⟩ := hg.inert a ha h
        rw [hl] at ho; cases ho) hg.names
  rw [e1]
  subst e2
  have hlo : ∀ a ∈ P, loose a.name → look c a.name = none := by
    intro a ha hl
    rw [look_none]
    intro b hb e
    exact f3 b hb (e ▸ hl) (.inr ⟨a, List.mem_append_left _ ha, e.symm⟩)
  have hsub : Q.Sublist (P ++ Q) := List.sublist_append_right P Q
  have hdrop : rm.foldl drop g1 = Q := by
    rw [e5, e3, List.nil_append]
    exact drop_all e4
  refine ⟨Q, c', ?_, hsub, ?_, ?_⟩
  · simp only [hdrop]
  · refine ⟨f1, steps_typed st f2 (hg.sub (List.sublist_append_left P Q)) hlo, ?_, ?_, f5, ?_⟩
    · intro b hb hl
      rcases steps_mem st hb with h | ⟨a, ha, e⟩
      · rintro (ht' | ⟨x, hx, hxe⟩)
        · exact f3 b h hl (.inl ht')
        · exact f3 b h hl (.inr ⟨x, hsub.subset hx, hxe⟩)
      · rintro (ht' | ⟨x, hx, hxe⟩)
        · exact ht a (List.mem_append_left _ ha) (e ▸ hl) (e ▸ ht')
        · have hn := hg.names
          rw [List.map_append, List.nodup_append] at hn
          exact hn.2.2 _ (List.mem_map_of_mem ha) _ (List.mem_map_of_mem hx) (hxe ▸ e).symm
    · intro hgm
      refine ⟨rfl, fun b hb => ?_⟩
      rcases steps_mem st hb with h | ⟨a, ha, e⟩
      · exact (f4 hgm).2 b h
      · rw [e]; exact hk a (List.mem_append_left _ ha)
    · refine FitAll.mono id ?_ k f6
      rintro x hx ((h | ⟨a, ha, e⟩) | ⟨b, hb, e⟩)
      · exact .inl (.inl h)
      · exact .inl (.inr ⟨a, hsub.subset ha, e⟩)
      · rcases steps_mem st hb with h | ⟨a, ha, e'⟩
        · exact .inr ⟨b, h, e⟩
        · exact .inl (.inr ⟨a, List.mem_append_left _ ha, e'.symm.trans e⟩)
  · intro env t
    obtain ⟨-, hgf, hgs⟩ := among_g hn
    have hcf : isFresh m = false := f5 rfl
    have hb : ∀ (g c : List (Attr T V)), pics L false env t (.elem n g [.elem m c k]) =
        both L env t g c fun own env' t' => if m.is "g" then picsAll L (textShows m false) env' t' k
          else [.item m own env' t' (picsAll L (textShows m false) env' t' k)] := by
      intro g c
      simp only [pics, picsAll, hn, hgf, hcf, hgs, both, Bool.false_eq_true, if_false, if_true, List.append_nil, List.append_assoc]
    rw [hb, hb]
    have n1 : look (P ++ Q) (plainName "mask") = none ∧ look (P ++ Q) (plainName "clip-path") = none := by
      simp only [unstable, has_look, Bool.not_eq_true, Bool.or_eq_false_iff] at c3
      exact ⟨by simpa using c3.1.2, by simpa using c3.1.1⟩
    have n2 : look (P ++ Q) (plainName "filter") = none := by
      simp only [withFilter, has_look, Bool.not_eq_true, Bool.or_eq_false_iff] at c4
      simpa using c4.1
    have n3 : look (P ++ Q) (plainName "style") = none := by
      rw [look_none]
      intro a ha e
      rcases hk a ha with h | h | h | h | h | h | h
      · rw [e] at h; exact absurd (plainName_inj h) (by decide)
      · rw [e] at h; exact absurd (h.2.symm.trans (hs.inherited "style" (by simp))) (by simp)
      · rw [e] at h; rcases h with h | h <;> exact absurd (plainName_inj h) (by decide)
      · rw [e] at h; exact absurd (plainName_inj h) (by decide)
      · rw [e] at h; exact absurd (plainName_inj h) (by decide)
      · rw [e] at h; exact absurd (plainName_inj h) (by decide)
      · rw [e, hs.inert "style" (by simp)] at h; cases h
    symm
    refine both_steps hs st (fun a ha => hk a (List.mem_append_left _ ha)) n1.1 n1.2 n2 n3 hg.names ?_ ?_ hlo env t _
    · intro a ha e
      obtain ⟨l, hl⟩ := hg.xf a (List.mem_append_left _ ha) e
      exact ⟨l, hl, fun v hv => f2.xf ⟨_, v⟩ (look_mem hv) e⟩
    · intro a ha e e'
      obtain ⟨o, ho⟩ := hg.inh a (List.mem_append_left _ ha) e e'
      exact ⟨o, ho, fun v hv => f2.inh ⟨_, v⟩ (look_mem hv) e e'⟩

theorem exit_fit [DecidableEq T] [DecidableEq V] {L : Lang V} (hs : L.Sane) (word : String → V) (styleFilter : V → Bool)
    (parent : Option EName) {shows inG : Bool} {taken : AName → Prop} {n : EName} {as : List (Attr T V)} {ks : List (Node (Attr T V))}
    (h : Fit L shows inG taken (.elem n as ks)) :
    ∃ out, exit word styleFilter parent n as ks = .ok out ∧ FitAll L shows inG taken out ∧
      ∀ env (t : List T), picsAll L shows env t out = pics L shows env t (.elem n as ks) := by
  have stay : ∀ out, out = [.elem n as ks] → FitAll L shows inG taken out ∧
      ∀ env (t : List T), picsAll L shows env t out = pics L shows env t (.elem n as ks) := by
    rintro out rfl
    exact ⟨⟨h, trivial⟩, fun env t => by simp [picsAll]⟩
  unfold exit
  cases parent with
  | none => exact ⟨_, rfl, stay _ rfl⟩
  | some p =>
    by_cases c1 : p.is "switch" = true
    · simp only [c1, if_true]; exact ⟨_, rfl, stay _ rfl⟩
    by_cases c2 : (!n.is "g" || !ks.any isElem) = true
    · simp only [c1, c2, if_true]; exact ⟨_, rfl, stay _ rfl⟩
    simp only [c1, c2, if_false]
    simp only [Bool.or_eq_true, Bool.not_eq_true', not_or, Bool.not_eq_false] at c2
    obtain ⟨hn, -⟩ := c2
    obtain ⟨f1, f2, f3, f4, f5, f6⟩ := h
    obtain ⟨rfl, hk⟩ := f4 hn
    obtain ⟨-, hgf, hgs⟩ := among_g hn
    rw [hgs, hn] at f6
    -- the group is dropped or kept
    have flat : ∀ (as' : List (Attr T V)) (ks' : List (Node (Attr T V))), as'.Sublist as →
        FitAll L false true (fun x => taken x ∨ ∃ a ∈ as', a.name = x) ks' →
        (∀ env (t : List T), pics L false env t (.elem n as' ks') = pics L false env t (.elem n as ks)) →
        ∀ out, out = (if !as'.isEmpty then [.elem n as' ks'] else if anyElems (fun m _ => isAnimation m) ks' then [.elem n as' ks'] else ks') →
        FitAll L false inG taken out ∧ ∀ env (t : List T), picsAll L false env t out = pics L false env t (.elem n as ks) := by
      intro as' ks' hsub hfit hpic out hout
      have kept : FitAll L false inG taken [.elem n as' ks'] ∧
          ∀ env (t : List T), picsAll L false env t [.elem n as' ks'] = pics L false env t (.elem n as ks) := by
        refine ⟨⟨⟨f1, f2.sub hsub, fun a ha => f3 a (hsub.subset ha), fun _ => ⟨rfl, fun a ha => hk a (hsub.subset ha)⟩, f5, ?_⟩, trivial⟩, ?_⟩
        · rw [hgs, hn]; exact hfit
        · intro env t
          simp only [picsAll, List.append_nil, hpic]
      by_cases he : as'.isEmpty = true
      · simp only [he, Bool.not_true, Bool.false_eq_true, if_false] at hout
        split at hout
        · subst hout; exact kept
        · subst hout
          rw [List.isEmpty_iff] at he
          subst he
          refine ⟨FitAll.mono (fun _ => rfl) (fun m _ h => Or.inl h) _ hfit, fun env t => ?_⟩
          rw [← hpic, pics_bare L false env t hn]
      · simp only [he, Bool.not_false, if_true] at hout
        subst hout
        exact kept
    cases ho : only ks with
    | none => exact ⟨_, rfl, flat as ks (List.Sublist.refl _) f6 (fun _ _ => rfl) _ rfl⟩
    | some x =>
      obtain ⟨m, c, k⟩ := x
      obtain ⟨p', q, rfl, hp, hq⟩ := only_split ho
      have hfit := f6
      rw [fitAll_append] at hfit
      obtain ⟨g', c', e1, hsub, hfit', hpic⟩ := moveAttrs_spec hs word styleFilter (n := n) (inG := inG) hn f2 hk f3 hfit.2.1
      simp only [e1, setOnly_split c' hp hq]
      refine ⟨_, rfl, flat g' _ hsub ?_ ?_ _ rfl⟩
      · rw [fitAll_append]
        exact ⟨fit_blank hp, hfit', fit_blank hq⟩
      · intro env t
        have hb : ∀ (as c : List (Attr T V)), pics L false env t (.elem n as (p' ++ .elem m c k :: q)) =
            pics L false env t (.elem n as [.elem m c k]) := by
          intro as c
          rw [pics, pics]
          simp only [hgs, picsAll_append, picsAll, pics_blank L _ _ hp, pics_blank L _ _ hq, List.nil_append, List.append_nil]
        rw [hb, hb, hpic]

mutual
theorem run_fit [DecidableEq T] [DecidableEq V] {L : Lang V} (hs : L.Sane) (word : String → V) (styleFilter : V → Bool)
    (parent : Option EName) {shows inG : Bool} {taken : AName → Prop} (n : Node (Attr T V)) (h : Fit L shows inG taken n) :
    ∃ out, run word styleFilter parent n = .ok out ∧ FitAll L shows inG taken out ∧
      ∀ env (t : List T), picsAll L shows env t out = pics L shows env t n := by
  match n with
  | .elem n as ks =>
    obtain ⟨f1, f2, f3, f4, f5, f6⟩ := h
    obtain ⟨ks', e1, g1, g2⟩ := runAll_fit hs word styleFilter (some n) ks f6
    obtain ⟨out, e2, g3, g4⟩ := exit_fit hs word styleFilter parent (n := n) (as := as) (ks := ks') (shows := shows) (inG := inG) (taken := taken)
      ⟨f1, f2, f3, f4, f5, g1⟩
    refine ⟨out, ?_, g3, fun env t => ?_⟩
    · rw [run, e1]; exact e2
    · rw [g4, pics, pics]
      simp only [g2]
  | .text s => exact ⟨_, rfl, ⟨trivial, trivial⟩, fun env t => by simp [picsAll]⟩
  | .css s => exact ⟨_, rfl, ⟨trivial, trivial⟩, fun env t => by simp [picsAll]⟩
  | .comment s => exact ⟨_, rfl, ⟨trivial, trivial⟩, fun env t => by simp [picsAll]⟩
  | .pi _ _ => exact ⟨_, rfl, ⟨trivial, trivial⟩, fun env t => by simp [picsAll]⟩
theorem runAll_fit [DecidableEq T] [DecidableEq V] {L : Lang V} (hs : L.Sane) (word : String → V) (styleFilter : V → Bool)
    (parent : Option EName) {shows inG : Bool} {taken : AName → Prop} (ns : List (Node (Attr T V))) (h : FitAll L shows inG taken ns) :
    ∃ out, runAll word styleFilter parent ns = .ok out ∧ FitAll L shows inG taken out ∧
      ∀ env (t : List T), picsAll L shows env t out = picsAll L shows env t ns := by
  match ns with
  | [] => exact ⟨[], rfl, trivial, fun _ _ => rfl⟩
  | n :: ns =>
    obtain ⟨a, e1, g1, g2⟩ := run_fit hs word styleFilter parent n h.1
    obtain ⟨b, e2, g3, g4⟩ := runAll_fit hs word styleFilter parent ns h.2
    refine ⟨a ++ b, ?_, fitAll_append.mpr ⟨g1, g3⟩, fun env t => ?_⟩
    · rw [runAll, e1, e2]
    · rw [picsAll_append, g2, g4, picsAll]
end

/-- **C48.** In a fit document every element that is not a group is drawn as before: with the same own attributes, inherited
properties, transforms and effects around it, in the same order. What is missing is shown by the theorems on violations. -/
theorem collapse_partial [DecidableEq T] [DecidableEq V] {L : Lang V} (hs : L.Sane) (word : String → V) (styleFilter : V → Bool)
    (on : Bool) (doc : List (Node (Attr T V))) (h : FitAll L false false (fun _ => False) doc) :
    ∃ out, collapseGroups word styleFilter on doc = .ok out ∧ picture L out = picture L doc := by
  cases on with
  | false => exact ⟨doc, rfl, rfl⟩
  | true =>
    obtain ⟨out, e, -, hp⟩ := runAll_fit hs word styleFilter none doc h
    exact ⟨out, e, hp _ _⟩

end Verif.Collapse
