import Verif.Jsx.Facts

/-!
# The names of attributes in JSX
-/

namespace Verif.Jsx

/-- The known attributes: those with an arm and those without. -/
def Known (n : Name) : Prop :=
  n.pre = n.std ∧ n.isKnown = true ∧
    ((∃ p, (n.std, n.loc, p) ∈ known) ∨ (n.std = none ∧ n.loc ∈ plain))

/-- The arms of known attributes. -/
private theorem arm_some {n : Name} {p : String} (h : arm n = some p) :
    n.isKnown = true ∧ (n.std, n.loc, p) ∈ known := by
  simp only [arm] at h
  split at h
  · rename_i hk
    simp only [Option.map_eq_some_iff] at h
    obtain ⟨r, h, rfl⟩ := h
    have h1 := List.mem_of_find?_eq_some h
    have h2 := List.find?_some h
    simp only [Bool.and_eq_true, beq_iff_eq] at h2
    rw [← h2.1, ← h2.2]
    exact ⟨hk, h1⟩
  · cases h

private theorem arm_none {n : Name} (h : arm n = none) (hk : n.isKnown = true) (p : String) :
    (n.std, n.loc, p) ∉ known := by
  simp only [arm, hk, if_true, Option.map_eq_none_iff] at h
  intro hp
  simpa using List.find?_eq_none.mp h _ hp

private theorem armHtml_some {l p : String} (h : armHtml l = some p) : (l, p) ∈ html := by
  simp only [armHtml, Option.map_eq_some_iff] at h
  obtain ⟨r, h, rfl⟩ := h
  have h1 := List.mem_of_find?_eq_some h
  have h2 := List.find?_some h
  simp only [beq_iff_eq] at h2
  rw [← h2]
  exact h1

private theorem armHtml_none {l : String} : armHtml l = none ↔ ∀ r ∈ html, r.1 ≠ l := by
  simp only [armHtml, Option.map_eq_none_iff, List.find?_eq_none, beq_iff_eq, ne_eq]

/-- **C85 (names)**: a name that is kept is a spelling of the attribute. -/
theorem attrName_spells (n : Name) (p : String) (h : attrName n = .ok p) : Spells n p := by
  obtain ⟨pre, std, loc, k⟩ := n
  simp only [attrName] at h
  split at h
  · cases h
  · rename_i hps
    have hps : pre = std := by simpa using hps
    subst hps
    split at h
    · rename_i r hr
      cases h
      exact known_spells _ (arm_some hr).2
    · split at h
      · rename_i hx
        split at h
        · rename_i hl
          cases h
          rw [hl, hx.2]
          have hq : canon (Name.qual ⟨some "xmlns", some "xmlns", "xlink", true⟩) = canon "xmlnsXlink" := by
            decide +kernel
          exact Or.inl hq
        · cases h
      · split at h
        · cases h
        · rename_i hn
          have hn : pre = none := by simpa using hn
          subst hn
          split at h
          · rename_i r hr
            cases h
            exact html_spells _ (armHtml_some hr)
          · split at h
            · cases h
              exact Or.inl rfl
            · cases h

/-- The JSX name of a known attribute. -/
private theorem known_name {n : Name} (h : Known n) :
    ∃ p, attrName n = .ok p ∧ ((n.std, n.loc, p) ∈ known ∨ (n.std = none ∧ n.loc ∈ plain ∧ p = n.loc)) := by
  obtain ⟨h1, h2, h3⟩ := h
  rcases ha : arm n with _ | r
  · rcases h3 with ⟨p, hp⟩ | ⟨h3, h4⟩
    · exact absurd hp (arm_none ha h2 p)
    · refine ⟨n.loc, ?_, Or.inr ⟨h3, h4, rfl⟩⟩
      have hh : armHtml n.loc = none := armHtml_none.mpr fun r hr => plain_html n.loc h4 r hr
      simp only [attrName]
      rw [if_neg (by simp [h1]), ha]
      simp only
      rw [if_neg (by simp [h2]), if_neg (by simp [h1, h3]), hh]
      simp only
      rw [if_pos (plain_alnum n.loc h4)]
  · refine ⟨r, ?_, Or.inl (arm_some ha).2⟩
    simp only [attrName]
    rw [if_neg (by simp [h1]), ha]

/-- **C85 (known attributes)**: no attribute the element knows is left out, unless its prefix is
written in another way. -/
theorem known_kept (n : Name) (h : Known n) : ∃ p, attrName n = .ok p :=
  let ⟨p, hp, _⟩ := known_name h
  ⟨p, hp⟩

private theorem mem_unique {α β : Type} {f : α → β} {l : List α} (h : (l.map f).Nodup) {a b : α}
    (ha : a ∈ l) (hb : b ∈ l) (hab : f a = f b) : a = b := by
  induction l with
  | nil => cases ha
  | cons c l ih =>
    simp only [List.map_cons, List.nodup_cons, List.mem_map, not_exists, not_and] at h
    cases ha <;> cases hb
    · rfl
    · rename_i hb
      exact absurd hab.symm (h.1 b hb)
    · rename_i ha
      exact absurd hab (h.1 a ha)
    · rename_i ha hb
      exact ih h.2 ha hb

/-- **C85 (distinct names)**: two known attributes with the same name in JSX are the same. -/
theorem known_inj (n m : Name) (hn : Known n) (hm : Known m) (h : attrName n = attrName m) :
    n = m := by
  obtain ⟨p, hp, hp'⟩ := known_name hn
  obtain ⟨q, hq, hq'⟩ := known_name hm
  rw [hp, hq] at h
  cases h
  have key : n.std = m.std ∧ n.loc = m.loc := by
    rcases hp' with a | ⟨a1, a2, a3⟩ <;> rcases hq' with b | ⟨b1, b2, b3⟩
    · have := mem_unique known_names a b rfl
      simpa using this
    · exact absurd b3 (plain_known _ b2 _ a).2
    · exact absurd a3 (plain_known _ a2 _ b).2
    · exact ⟨a1.trans b1.symm, a3.symm.trans b3⟩
  obtain ⟨a1, a2, -⟩ := hn
  obtain ⟨b1, b2, -⟩ := hm
  cases n; cases m
  simp_all

/-- **C85 (left out)**: exactly these attributes are left out: those whose prefix is written in
another way, those with a prefix JSX has no name for, and unknown ones with punctuation in their
names. -/
theorem dropped_iff (n : Name) :
    (∃ e, attrName n = .error e) ↔
      n.pre ≠ n.std ∨
      ((n.std ≠ none ∨ n.loc.toList.all Char.isAlphanum = false ∧ ∀ r ∈ html, r.1 ≠ n.loc) ∧
        (n.isKnown = true → ∀ p, (n.std, n.loc, p) ∉ known) ∧
        ¬ (n.isKnown = false ∧ n.std = some "xmlns" ∧ n.loc = "xlink")) := by
  by_cases hps : n.pre = n.std
  case neg => simp [attrName, hps]
  simp only [attrName, hps, ne_eq, not_true_eq_false, if_false, false_or]
  rcases ha : arm n with _ | p
  · have hk : n.isKnown = true → ∀ p, (n.std, n.loc, p) ∉ known := fun h p => arm_none ha h p
    simp only
    by_cases hx : n.isKnown = false ∧ n.std = some "xmlns"
    · rw [if_pos hx]
      by_cases hl : n.loc = "xlink"
      · simp [hl, hx.1, hx.2]
      · simp [hl, hx.1, hx.2]
    · rw [if_neg hx]
      by_cases hs : n.std = none
      · rw [if_neg (by simp [hs])]
        rcases hh : armHtml n.loc with _ | p
        · have hh' := armHtml_none.mp hh
          simp only
          by_cases hal : n.loc.toList.all Char.isAlphanum = true
          · rw [if_pos hal]
            simp [hs, hal]
          · rw [if_neg hal]
            simp only [Except.error.injEq, exists_eq', true_iff]
            refine ⟨Or.inr ⟨by simpa using hal, hh'⟩, hk, ?_⟩
            intro h
            exact hx ⟨h.1, h.2.1⟩
        · simp only [reduceCtorEq, exists_false, false_iff]
          rintro ⟨h | h, -⟩
          · exact h hs
          · exact h.2 _ (armHtml_some hh) rfl
      · rw [if_pos hs]
        simp only [Except.error.injEq, exists_eq', true_iff]
        exact ⟨Or.inl hs, hk, fun h => hx ⟨h.1, h.2.1⟩⟩
  · have := arm_some ha
    simp only [reduceCtorEq, exists_false, false_iff]
    rintro ⟨-, h, -⟩
    exact h this.1 p this.2

end Verif.Jsx
