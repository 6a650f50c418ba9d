import Verif.Shared.Model
import Mathlib.Data.List.Nodup
import Mathlib.Tactic.Tauto

/-! # The loop over the selected elements -/

namespace Verif.Shared

variable {N A K G : Type} [DecidableEq N] [DecidableEq A]

theorem get_insert (m : List (A × Text)) (a b : A) (v : Text) :
    get (insert m a v) b = if a = b then some v else get m b := by
  unfold get insert
  by_cases h : a = b
  · simp [h]
  · rw [if_neg h, List.find?_cons_of_neg (by simpa using h), List.find?_filter]
    congr 1
    apply congrArg (fun f => List.find? f m)
    funext p
    by_cases hp : p.1 = b
    · have : p.1 ≠ a := fun e => h (e ▸ hp)
      simp [hp, Ne.symm h]
    · simp [hp]

/-- The names of the attributes are distinct. -/
def Unique (l : List (A × Option Text)) : Prop := (l.map (·.1)).Nodup

theorem collect_none (first : Bool) (old : List (A × Text)) :
    ∀ (l : List (A × Option Text)) (acc : List (A × Text)),
      collect first old l acc = none ↔
        ∃ a, (a, none) ∈ l ∧ (first = true ∨ ∃ v, get old a = some v) := by
  intro l
  induction l with
  | nil => intro acc; simp [collect]
  | cons p rest ih =>
    obtain ⟨a, v⟩ := p
    intro acc
    rw [collect.eq_def]
    dsimp only
    by_cases h : (first || (get old a).isSome) = true
    · have h' : first = true ∨ ∃ v, get old a = some v := by
        simpa [Option.isSome_iff_exists] using h
      rw [if_pos h]
      cases v with
      | none => simp only [true_iff]; exact ⟨a, by simp, h'⟩
      | some v =>
        have : ∀ acc, collect first old rest acc = none ↔
            ∃ b, (b, none) ∈ (a, some v) :: rest ∧
              (first = true ∨ ∃ v, get old b = some v) := by
          intro acc; rw [ih acc]; simp
        dsimp only
        split_ifs <;> exact this _
    · have h' : ¬(first = true ∨ ∃ v, get old a = some v) := by
        simpa [Option.isSome_iff_exists] using h
      rw [if_neg h, ih acc]
      constructor
      · rintro ⟨b, hb, hc⟩
        exact ⟨b, by simp [hb], hc⟩
      · rintro ⟨b, hb, hc⟩
        rcases List.mem_cons.1 hb with hb | hb
        · cases hb; exact absurd hc h'
        · exact ⟨b, hb, hc⟩

theorem collect_some (first : Bool) (old : List (A × Text)) :
    ∀ (l : List (A × Option Text)) (acc m : List (A × Text)), Unique l →
      (∀ p ∈ l, get acc p.1 = none) → collect first old l acc = some m → ∀ a v,
      (get m a = some v ↔
        get acc a = some v ∨ ((a, some v) ∈ l ∧ (first = true ∨ get old a = some v))) := by
  intro l
  induction l with
  | nil => intro acc m _ _ h a v; simp only [collect, Option.some.injEq] at h; simp [h]
  | cons p rest ih =>
    obtain ⟨b, w⟩ := p
    intro acc m hu hacc h a v
    have hu' : Unique rest := (List.nodup_cons.1 hu).2
    have hb : ∀ w, (b, w) ∉ rest := fun w hw =>
      (List.nodup_cons.1 hu).1 (List.mem_map.2 ⟨(b, w), hw, rfl⟩)
    have hacc' : ∀ p ∈ rest, get acc p.1 = none := fun p hp => hacc p (by simp [hp])
    have hbacc : get acc b = none := hacc (b, w) (by simp)
    rw [collect.eq_def] at h
    dsimp only at h
    by_cases hf : (first || (get old b).isSome) = true
    · rw [if_pos hf] at h
      cases w with
      | none => cases h
      | some w =>
        dsimp only at h
        by_cases hg : (first || decide (get old b = some w)) = true
        · rw [if_pos hg] at h
          have hg' : first = true ∨ get old b = some w := by simpa using hg
          rw [ih _ _ hu' ?_ h, get_insert]
          · by_cases e : b = a
            · subst e
              simp only [↓reduceIte, hbacc, Option.some.injEq, List.mem_cons, Prod.mk.injEq,
                true_and, hb, or_false, false_and, reduceCtorEq, false_or]
              constructor
              · rintro rfl; exact ⟨rfl, hg'⟩
              · rintro ⟨rfl, -⟩; rfl
            · rw [if_neg e]
              simp [Ne.symm e]
          · intro p hp
            rw [get_insert, if_neg, hacc' p hp]
            rintro rfl
            exact hb p.2 hp
        · rw [if_neg hg] at h
          have hg' : ¬(first = true ∨ get old b = some w) := by simpa using hg
          rw [ih _ _ hu' hacc' h]
          constructor
          · rintro (h | ⟨h, h'⟩)
            · exact .inl h
            · exact .inr ⟨by simp [h], h'⟩
          · rintro (h | ⟨h, h'⟩)
            · exact .inl h
            · rcases List.mem_cons.1 h with h | h
              · cases h; exact absurd h' hg'
              · exact .inr ⟨h, h'⟩
    · rw [if_neg hf] at h
      have hf' : ¬(first = true ∨ ∃ v, get old b = some v) := by
        simpa [Option.isSome_iff_exists] using hf
      rw [ih _ _ hu' hacc' h]
      constructor
      · rintro (h | ⟨h, h'⟩)
        · exact .inl h
        · exact .inr ⟨by simp [h], h'⟩
      · rintro (h | ⟨h, h'⟩)
        · exact .inl h
        · rcases List.mem_cons.1 h with h | h
          · cases h; exact absurd (h'.imp id fun x => ⟨_, x⟩) hf'
          · exact .inr ⟨h, h'⟩

theorem mem_insertId (s : List N) (n m : N) : m ∈ insertId s n ↔ m ∈ s ∨ m = n := by
  unfold insertId; split_ifs with h
  · constructor
    · exact .inl
    · rintro (h' | rfl)
      · exact h'
      · exact h
  · simp [or_comm]

theorem nodup_insertId {s : List N} (h : s.Nodup) (n : N) : (insertId s n).Nodup := by
  unfold insertId; split_ifs with hn
  · exact h
  · exact List.nodup_cons.2 ⟨hn, h⟩

/-- What the variables hold after the elements `es`. -/
structure Holds (t : Tables N A K G) (es : List (Element N A)) (s : Vars N A K G) : Prop where
  ids : ∀ n, n ∈ s.ids ↔ ∃ e ∈ es, e.name = n
  nodup : s.ids.Nodup
  categories : ∀ k, s.categories k = true
  groups : ∀ g, s.groups g = true
  elements : ∀ n, n ∈ s.elements ↔ es ≠ [] ∧ ∀ e ∈ es, n ∈ t.elements e.name
  attributes : ∀ a, a ∈ s.attributes ↔ es ≠ [] ∧ ∀ e ∈ es, a ∈ t.attributes e.name
  values : ∀ a v, get s.values a = some v ↔ es ≠ [] ∧ ∀ e ∈ es, (a, some v) ∈ e.attributes
  text : s.text = es.foldl nextText (some [])

omit [DecidableEq N] in
theorem holds_start (t : Tables N A K G) : Holds t [] (start : Vars N A K G) := by
  constructor <;> simp [start, get]

theorem holds_step {t : Tables N A K G} {es : List (Element N A)} {s s' : Vars N A K G}
    {e : Element N A} (h : Holds t es s) (hu : Unique e.attributes)
    (hs : step t es.isEmpty s e = some s') : Holds t (es ++ [e]) s' := by
  unfold step at hs
  cases hc : collect es.isEmpty s.values e.attributes [] with
  | none => rw [hc] at hs; cases hs
  | some values =>
    rw [hc] at hs
    cases hs
    have hv := collect_some _ _ _ _ _ hu (by simp [get]) hc
    constructor
    · intro n
      rw [mem_insertId, h.ids]
      simp only [List.mem_append, List.mem_singleton, or_and_right, exists_or, exists_eq_left]
      exact or_congr Iff.rfl eq_comm
    · exact nodup_insertId h.nodup _
    · intro k; simp [h.categories]
    · intro g; simp [h.groups]
    · intro n
      cases es with
      | nil => simp
      | cons e0 es =>
        simp only [List.mem_filter, List.isEmpty_cons, Bool.false_or, decide_eq_true_eq,
          h.elements]
        simp only [List.mem_append, List.mem_singleton, or_imp, forall_and, forall_eq]
        simp; tauto
    · intro a
      cases es with
      | nil => simp
      | cons e0 es =>
        simp only [List.mem_filter, List.isEmpty_cons, Bool.false_or, decide_eq_true_eq,
          h.attributes]
        simp only [List.mem_append, List.mem_singleton, or_imp, forall_and, forall_eq]
        simp; tauto
    · intro a v
      rw [hv]
      cases es with
      | nil => simp [get]
      | cons e0 es =>
        rw [h.values]
        simp only [List.mem_append, List.mem_singleton, or_imp, forall_and, forall_eq]
        simp [get]; tauto
    · simp [h.text]

/-- A step fails exactly if an attribute cannot be printed that the elements before share. -/
theorem step_none {t : Tables N A K G} {es : List (Element N A)} {s : Vars N A K G}
    {e : Element N A} (h : Holds t es s) :
    step t es.isEmpty s e = none ↔
      ∃ a, (a, none) ∈ e.attributes ∧ ∃ v, ∀ e' ∈ es, (a, some v) ∈ e'.attributes := by
  have : step t es.isEmpty s e = none ↔
      collect es.isEmpty s.values e.attributes [] = none := by
    unfold step
    cases collect es.isEmpty s.values e.attributes [] <;> simp
  rw [this, collect_none]
  cases es with
  | nil => simp
  | cons e0 es =>
    constructor
    · rintro ⟨a, ha, hf | ⟨v, hv⟩⟩
      · simp at hf
      · exact ⟨a, ha, v, ((h.values a v).1 hv).2⟩
    · rintro ⟨a, ha, v, hv⟩
      exact ⟨a, ha, .inr ⟨v, (h.values a v).2 ⟨by simp, hv⟩⟩⟩

theorem loop_holds {t : Tables N A K G} :
    ∀ (es done : List (Element N A)) (s s' : Vars N A K G), Holds t done s →
      (∀ e ∈ es, Unique e.attributes) → loop t done.isEmpty s es = some s' →
      Holds t (done ++ es) s' := by
  intro es
  induction es with
  | nil => intro done s s' h _ hl; simp only [loop, Option.some.injEq] at hl; simpa [← hl] using h
  | cons e rest ih =>
    intro done s s' h hu hl
    rw [loop] at hl
    cases hs : step t done.isEmpty s e with
    | none => rw [hs] at hl; cases hl
    | some s1 =>
      rw [hs] at hl
      have := ih (done ++ [e]) s1 s' (holds_step h (hu e (by simp)) hs)
        (fun e' he => hu e' (by simp [he])) (by
          have he : (done ++ [e]).isEmpty = false := by simp
          rw [he]; exact hl)
      simpa using this

theorem loop_none {t : Tables N A K G} :
    ∀ (es done : List (Element N A)) (s : Vars N A K G), Holds t done s →
      (∀ e ∈ es, Unique e.attributes) →
      (loop t done.isEmpty s es = none ↔
        ∃ init e rest, es = init ++ e :: rest ∧ ∃ a, (a, none) ∈ e.attributes ∧
          ∃ v, ∀ e' ∈ done ++ init, (a, some v) ∈ e'.attributes) := by
  intro es
  induction es with
  | nil => intro done s _ _; simp [loop]
  | cons e rest ih =>
    intro done s h hu
    rw [loop]
    cases hs : step t done.isEmpty s e with
    | none =>
      simp only [true_iff]
      obtain ⟨a, ha, v, hv⟩ := (step_none h).1 hs
      exact ⟨[], e, rest, rfl, a, ha, v, by simpa using hv⟩
    | some s1 =>
      have hl := ih (done ++ [e]) s1 (holds_step h (hu e (by simp)) hs)
        (fun e' he => hu e' (by simp [he]))
      have he : (done ++ [e]).isEmpty = false := by simp
      rw [he] at hl
      dsimp only
      rw [hl]
      constructor
      · rintro ⟨init, e', rest', rfl, a, ha, v, hv⟩
        exact ⟨e :: init, e', rest', rfl, a, ha, v, by simpa using hv⟩
      · rintro ⟨init, e', rest', heq, a, ha, v, hv⟩
        cases init with
        | nil =>
          simp only [List.nil_append, List.cons.injEq] at heq
          obtain ⟨rfl, rfl⟩ := heq
          have := (step_none h).2 ⟨a, ha, v, by simpa using hv⟩
          rw [this] at hs; cases hs
        | cons e0 init =>
          simp only [List.cons_append, List.cons.injEq] at heq
          obtain ⟨rfl, rfl⟩ := heq
          exact ⟨init, e', rest', rfl, a, ha, v, by simpa using hv⟩

omit [DecidableEq N] [DecidableEq A] in
theorem text_none (es : List (Element N A)) : es.foldl nextText none = none := by
  induction es with
  | nil => rfl
  | cons e rest ih => simpa [nextText] using ih

end Verif.Shared
