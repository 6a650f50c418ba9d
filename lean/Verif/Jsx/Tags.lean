import Verif.Jsx.Render

/-!
# The component can be read as JSX
-/

namespace Verif.Jsx

mutual
/-- Every tag is closed, by itself if it has no children or by one of its name, also inside of
expressions, and the characters of texts stand for themselves. -/
def Sound : Jsx → Prop
  | .elem n _ sc cl ks => (if sc then cl = none ∧ ks = [] else cl = some n) ∧ Sounds ks
  | .frag ks => Sounds ks
  | .text s => s.all literal
  | .cond _ a b => Sound a ∧ Sound b
  | _ => True
def Sounds : List Jsx → Prop
  | [] => True
  | j :: js => Sound j ∧ Sounds js
end

private theorem steps_append (s : List V × List Frame) (a b : List Tok) :
    steps s (a ++ b) = (steps s a).bind fun s => steps s b := by
  induction a generalizing s with
  | nil => rfl
  | cons t a ih =>
    simp only [List.cons_append, steps]
    rcases step s t with _ | s'
    · rfl
    · simpa using ih s'

private theorem steps_chars (ks : List V) (fs : List Frame) (s : List Char) (h : s.all literal) :
    ∃ ks', steps (ks, fs) (s.map .chr) = some (ks', fs) := by
  induction s generalizing ks with
  | nil => exact ⟨ks, rfl⟩
  | cons c s ih =>
    simp only [List.all_cons, Bool.and_eq_true] at h
    simp only [List.map_cons, steps, step, h.1, if_true, Option.bind_some]
    exact ih _ h.2

mutual
private theorem sound_steps (j : Jsx) (h : Sound j) (ks : List V) (fs : List Frame) :
    ∃ ks', steps (ks, fs) (emit j) = some (ks', fs) := by
  match j with
  | .elem n as sc cl kids =>
    simp only [Sound] at h
    cases sc with
    | true =>
      obtain ⟨⟨rfl, rfl⟩, _⟩ := h
      exact ⟨_, by simp [emit, emits, steps, step]; rfl⟩
    | false =>
      obtain ⟨rfl, h⟩ := h
      obtain ⟨ks', hk⟩ := sounds_steps kids h [] ((some (n, as), ks) :: fs)
      refine ⟨.el n as ks'.reverse :: ks, ?_⟩
      simp [emit, steps, step, steps_append, hk]
  | .frag kids =>
    obtain ⟨ks', hk⟩ := sounds_steps kids h [] ((none, ks) :: fs)
    refine ⟨.fr ks'.reverse :: ks, ?_⟩
    simp [emit, steps, step, steps_append, hk]
  | .text s => exact steps_chars ks fs s h
  | .empty => exact ⟨_, rfl⟩
  | .ident _ => exact ⟨_, rfl⟩
  | .cond .. => exact ⟨_, rfl⟩
  | .null => exact ⟨_, rfl⟩
private theorem sounds_steps (js : List Jsx) (h : Sounds js) (ks : List V) (fs : List Frame) :
    ∃ ks', steps (ks, fs) (emits js) = some (ks', fs) := by
  match js with
  | [] => exact ⟨ks, rfl⟩
  | j :: js =>
    obtain ⟨k1, h1⟩ := sound_steps j h.1 ks fs
    obtain ⟨k2, h2⟩ := sounds_steps js h.2 k1 fs
    exact ⟨k2, by simp [emits, steps_append, h1, h2]⟩
end

mutual
private theorem sound_modFirst (n : String) (f : Jsx → Jsx)
    (hf : ∀ as sc cl ks, Sound (.elem n as sc cl ks) → Sound (f (.elem n as sc cl ks)))
    (j j' : Jsx) (hj : Sound j) (h : modFirst n f j = some j') : Sound j' := by
  match j with
  | .elem m as sc cl ks =>
    simp only [modFirst] at h
    split at h
    · rename_i hm
      cases h
      subst hm
      exact hf _ _ _ _ hj
    · simp only [Option.map_eq_some_iff] at h
      obtain ⟨ks', hk, rfl⟩ := h
      have hs := sounds_modFirst n f hf ks ks' hj.2 hk
      refine ⟨?_, hs⟩
      have h1 := hj.1
      cases sc with
      | true =>
        obtain ⟨_, rfl⟩ := h1
        simp [modFirsts] at hk
      | false => exact h1
  | .frag ks =>
    simp only [modFirst, Option.map_eq_some_iff] at h
    obtain ⟨ks', hk, rfl⟩ := h
    exact sounds_modFirst n f hf ks ks' hj hk
  | .text _ => cases h
  | .empty => cases h
  | .ident _ => cases h
  | .cond .. => cases h
  | .null => cases h
private theorem sounds_modFirst (n : String) (f : Jsx → Jsx)
    (hf : ∀ as sc cl ks, Sound (.elem n as sc cl ks) → Sound (f (.elem n as sc cl ks)))
    (js js' : List Jsx) (hj : Sounds js) (h : modFirsts n f js = some js') : Sounds js' := by
  match js with
  | [] => cases h
  | j :: js =>
    simp only [modFirsts] at h
    split at h
    · rename_i j' hj'
      cases h
      exact ⟨sound_modFirst n f hf j j' hj.1 hj', hj.2⟩
    · simp only [Option.map_eq_some_iff] at h
      obtain ⟨ks', hk, rfl⟩ := h
      exact ⟨hj.1, sounds_modFirst n f hf js ks' hj.2 hk⟩
end

mutual
private theorem sound_setValue (o : String) (v : AVal) (j : Jsx) (h : Sound j) : Sound (setValue o v j) := by
  match j with
  | .elem n as sc cl ks =>
    have hs := sounds_setValue o v ks h.2
    refine ⟨?_, hs⟩
    have h1 := h.1
    cases sc with
    | true =>
      obtain ⟨rfl, rfl⟩ := h1
      exact ⟨rfl, rfl⟩
    | false => exact h1
  | .frag ks => exact sounds_setValue o v ks h
  | .text _ => exact h
  | .empty => exact h
  | .ident _ => exact h
  | .cond .. => exact h
  | .null => exact h
private theorem sounds_setValue (o : String) (v : AVal) (js : List Jsx) (h : Sounds js) :
    Sounds (setValues o v js) := by
  match js with
  | [] => trivial
  | j :: js => exact ⟨sound_setValue o v j h.1, sounds_setValue o v js h.2⟩
end

private theorem sound_inserting (tag id child : String) (e : Option AVal) : Sound (inserting tag id child e) :=
  ⟨rfl, trivial, trivial⟩

private theorem sound_conditional (tag id child root : String) (j j' : Jsx) (hj : Sound j)
    (h : conditional tag id child root j = some j') : Sound j' := by
  simp only [conditional] at h
  split at h
  · rename_i j2 h2
    cases h
    exact sound_modFirst tag (eitherElem tag id child) (fun as sc cl ks hs => ⟨hs, sound_inserting _ _ _ _⟩) j _ hj h2
  · exact sound_modFirst root (insertFirst tag id child) (fun as sc cl ks hs => ⟨rfl, ⟨sound_inserting _ _ _ _, trivial⟩, hs.2⟩) j _ hj h

/-- **C86 (every tag is closed)**: without React Native, JSX of which every tag is closed and every
text can be read stays so, with any configuration: also the elements for the title and the
description that are put in, and the element they are put into. -/
theorem preset_sound (parse : String → Option String) (c : Config) (hn : c.native ≠ some true)
    (j j' : Jsx) (ids : List String) (hj : Sound j) (h : preset parse c j = .ok (j', ids)) :
    Sound j' ∧ (read (emit j')).isSome ∧ ids = [] := by
  have hn' : c.native.getD false = false := by
    rcases hc : c.native with _ | _ | _ <;> simp_all
  have key : Sound j' ∧ ids = [] := by
    simp only [preset, hn', Bool.false_eq_true, if_false] at h
    split at h
    · cases h
    split at h
    · cases h
    split at h
    · cases h
    rename_i j1 h1
    have s1 := sound_modFirst _ _ (fun as sc cl ks (hs : Sound (.elem _ as sc cl ks)) => (hs : Sound (.elem _ _ sc cl ks))) _ _ hj h1
    split at h
    · cases h
    rename_i rs hrs
    clear hrs
    have s2 : Sound (rs.foldl (fun j r => setValue r.1 r.2 j) j1) := by
      clear h h1
      induction rs generalizing j1 with
      | nil => exact s1
      | cons r rs ih => exact ih _ (sound_setValue _ _ _ s1)
    generalize rs.foldl (fun j r => setValue r.1 r.2 j) j1 = j2 at h s2
    split at h
    · cases h
    rename_i j3 h3
    have s3 : Sound j3 := by
      split at h3
      · exact sound_conditional _ _ _ _ _ _ s2 h3
      · cases h3; exact s2
    split at h
    · cases h
    rename_i j4 h4
    have s4 : Sound j4 := by
      split at h4
      · exact sound_conditional _ _ _ _ _ _ s3 h4
      · cases h4; exact s3
    cases h
    exact ⟨s4, rfl⟩
  refine ⟨key.1, ?_, key.2⟩
  obtain ⟨ks, hk⟩ := sound_steps j' key.1 [] []
  simp [read, hk]

mutual
/-- The characters of all texts stand for themselves. -/
def Literal : Doc → Prop
  | .element _ _ _ kids => Literals kids
  | .text v => ∀ s, v = some s → (trim s).all literal
  | .pi v => ∀ s, v = some s → (trim s).all literal
  | .comment => True
  | .style css => css.all literal
def Literals : List Doc → Prop
  | [] => True
  | d :: ds => Literal d ∧ Literals ds
end

mutual
private theorem sound_toJsx (d : Doc) (h : Literal d) : Sound (toJsx d) := by
  match d with
  | .element pre loc attrs kids =>
    have hs := sounds_toJsxs kids h
    simp only [toJsx]
    split
    · trivial
    · refine ⟨?_, hs⟩
      cases kids with
      | nil => simp [toJsxs]
      | cons k ks => simp
  | .style css => exact h
  | .text none => trivial
  | .text (some s) => exact h s rfl
  | .pi none => trivial
  | .pi (some s) => exact h s rfl
  | .comment => trivial
private theorem sounds_toJsxs (ds : List Doc) (h : Literals ds) : Sounds (toJsxs ds) := by
  match ds with
  | [] => trivial
  | d :: ds => exact ⟨sound_toJsx d h.1, sounds_toJsxs ds h.2⟩
end

private theorem literals_filter (p : Doc → Bool) (ds : List Doc) (h : Literals ds) : Literals (ds.filter p) := by
  induction ds with
  | nil => trivial
  | cons d ds ih =>
    rw [List.filter_cons]
    split
    · exact ⟨h.1, ih h.2⟩
    · exact ih h.2

/-- **C86 (the component of a document can be read)**: without React Native, for every document of
which the characters of the texts stand for themselves, and any configuration. -/
theorem preset_readable (parse : String → Option String) (c : Config) (hn : c.native ≠ some true)
    (ds : List Doc) (hd : Literals ds) (j' : Jsx) (ids : List String)
    (h : preset parse c (docJsx ds) = .ok (j', ids)) : (read (emit j')).isSome := by
  have hs : Sounds (toJsxs (ds.filter Doc.shown)) := sounds_toJsxs _ (literals_filter _ _ hd)
  have : Sound (docJsx ds) := by
    simp only [docJsx]
    split
    · rename_i j e
      rw [e] at hs
      exact hs.1
    · exact hs
  exact (preset_sound parse c hn _ _ _ this h).2.1

/-- **C86 (the size of an icon)**: with `icon`, the width and the height are 24 for React Native and
`1em` otherwise, whatever the document and the configured properties say, as long as no other
properties come last. -/
theorem icon_size (ρ σ : Vars) (c : Config) (hi : c.icon = some (.bool true)) (vs : List (String × AVal))
    (hv : (vs.map (·.1)).Nodup) (as : List JAttr) (h : Plain as) (n : String) (hn : n = "width" ∨ n = "height")
    (hσ : c.expand = .last → σ n = none) :
    valueOf ρ σ (svgAttrs c vs as) n =
      some (some (if c.native = some true then .num (24, 1) else .str "1em")) := by
  rw [svgAttrs_value ρ σ c vs hv as h n, if_pos hn]
  have e1 : (if c.expand = .last then (σ n).map some else none) = none := by
    split
    · rename_i he; rw [hσ he]; rfl
    · rfl
  rw [e1, hi]
  rcases hc : c.native with _ | _ | _ <;> simp [iconVal, AVal.eval]

/-- `<svg/>`. -/
def bare : List Doc := [.element none "svg" [] []]

/-- The title is put into `<svg/>`, which then has a closing tag. -/
example : ∃ j ids, preset (fun _ => none) { titleProp := some true } (docJsx bare) = .ok (j, ids) ∧
    (read (emit j)).isSome := by
  obtain ⟨j, ids, h⟩ : ∃ j ids, preset (fun _ => none) { titleProp := some true } (docJsx bare) = .ok (j, ids) :=
    ⟨_, _, rfl⟩
  exact ⟨j, ids, h, preset_readable _ _ (by decide) bare ⟨trivial, trivial⟩ j ids h⟩

example (σ : Vars) : valueOf (fun _ => none) σ
    (svgAttrs { icon := some (.bool true), native := some true, expandProps := some .off } []
      [.attr "width" (some (.num (3, 1)))]) "width" = some (some (.num (24, 1))) :=
  icon_size _ _ _ rfl _ (by simp) _ ⟨by simp, by simp [attrNames]⟩ _ (.inl rfl) (by simp [Config.expand])

end Verif.Jsx
