import Verif.Collapse.Spec

namespace Verif.Collapse

open Verif.Tree Verif.Names Verif.Empty

variable {T V : Type}

/-! ## Looking up attributes -/

theorem look_append (as : List (Attr T V)) (a : Attr T V) (n : AName) :
    look (as ++ [a]) n = (look as n).or (if a.name = n then some a.val else none) := by
  induction as with
  | nil => simp [look]
  | cons b as ih =>
    rw [List.cons_append, look, look]
    split
    · rfl
    · exact ih

theorem look_none {as : List (Attr T V)} {n : AName} : look as n = none ↔ ∀ a ∈ as, a.name ≠ n := by
  induction as with
  | nil => simp [look]
  | cons b as ih =>
    rw [look]
    split
    · rename_i h; simp [h]
    · rename_i h; simp [ih, h]

theorem look_mem {as : List (Attr T V)} {n : AName} {v : Val T V} (h : look as n = some v) : ⟨n, v⟩ ∈ as := by
  induction as with
  | nil => cases h
  | cons b as ih =>
    rw [look] at h
    split at h
    · rename_i hn
      cases h
      subst hn
      simp
    · exact List.mem_cons_of_mem _ (ih h)

theorem get_look [DecidableEq T] [DecidableEq V] (as : List (Attr T V)) (n : AName) :
    get as n = (look as n).map fun v => ⟨n, v⟩ := by
  induction as with
  | nil => rfl
  | cons b as ih =>
    rw [look]
    unfold get at ih ⊢
    rw [List.find?_cons]
    by_cases h : b.name = n
    · subst h; simp
    · simp only [beq_eq_false_iff_ne.mpr h, if_neg h, ih]

theorem has_look (as : List (Attr T V)) (s : String) : has as s = (look as (plainName s)).isSome := by
  induction as with
  | nil => rfl
  | cons b as ih =>
    rw [look]
    unfold has at ih ⊢
    rw [List.any_cons]
    by_cases h : b.name = plainName s
    · simp [h]
    · simp only [beq_eq_false_iff_ne.mpr h, if_neg h, ih, Bool.false_or]

theorem look_put (as : List (Attr T V)) (n m : AName) (v : Val T V) :
    look (put as n v) m = if n = m ∧ (look as n).isSome then some v else look as m := by
  induction as with
  | nil => simp [put, look]
  | cons b as ih =>
    rw [put]
    by_cases h : b.name = n
    · simp only [h, if_true, look]
      by_cases h2 : n = m <;> simp [h2]
    · simp only [h, if_false, look, ih]
      by_cases h2 : n = m
      · subst h2; simp [h]
      · simp [h2]

theorem put_names (as : List (Attr T V)) (n : AName) (v : Val T V) : (put as n v).map (·.name) = as.map (·.name) := by
  induction as with
  | nil => rfl
  | cons b as ih =>
    rw [put]
    split
    · rename_i h; simp [h]
    · simp [ih]

theorem put_filter (as : List (Attr T V)) (n : AName) (v : Val T V) (p : AName → Bool) (hp : p n = false) :
    (put as n v).filter (fun a => p a.name) = as.filter (fun a => p a.name) := by
  induction as with
  | nil => rfl
  | cons b as ih =>
    rw [put]
    split
    · rename_i h; simp [h, hp]
    · simp [List.filter_cons, ih]

theorem put_mem {as : List (Attr T V)} {n : AName} {v : Val T V} {a : Attr T V} (h : a ∈ put as n v) : a ∈ as ∨ a = ⟨n, v⟩ := by
  induction as with
  | nil => cases h
  | cons b as ih =>
    rw [put] at h
    split at h
    · rcases List.mem_cons.mp h with rfl | h
      · exact .inr rfl
      · exact .inl (List.mem_cons_of_mem _ h)
    · rcases List.mem_cons.mp h with rfl | h
      · exact .inl (by simp)
      · rcases ih h with h | h
        · exact .inl (List.mem_cons_of_mem _ h)
        · exact .inr h

/-! ## One attribute given to the child -/

/-- The value of the child. -/
def merge (v : Val T V) : Option (Val T V) → Val T V
  | none => v
  | some (.xf (some m)) => match v with
    | .xf (some l) => .xf (some (l ++ m))
    | _ => .xf (some m)
  | some (.xf none) => v
  | some (.inh none) => v
  | some w => w

/-- The attributes of the child after one attribute of the group has been given to it. -/
structure Step (a : Attr T V) (c c' : List (Attr T V)) : Prop where
  same : look c' a.name = some (merge a.val (look c a.name))
  other : ∀ m, m ≠ a.name → look c' m = look c m
  rest : ∀ p : AName → Bool, p a.name = false → c'.filter (fun b => p b.name) = c.filter (fun b => p b.name)
  names : (c.map (·.name)).Nodup → (c'.map (·.name)).Nodup
  mem : ∀ b ∈ c', b ∈ c ∨ b.name = a.name

/-- Several attributes one after the other. -/
inductive Steps : List (Attr T V) → List (Attr T V) → List (Attr T V) → Prop
  | nil {c} : Steps [] c c
  | cons {a as c c' c''} : Step a c c' → Steps as c' c'' → Steps (a :: as) c c''

theorem step_push {a : Attr T V} {c : List (Attr T V)} (h : look c a.name = none) : Step a c (c ++ [a]) where
  same := by rw [look_append, h]; simp [merge]
  other m hm := by rw [look_append, if_neg (fun e => hm e.symm), Option.or_none]
  rest p hp := by simp [hp]
  names hn := by
    rw [List.map_append, List.nodup_append]
    refine ⟨hn, by simp, ?_⟩
    intro x hx y hy e
    simp only [List.map_cons, List.map_nil, List.mem_singleton] at hy
    subst hy; subst e
    obtain ⟨b, hb, e⟩ := List.mem_map.mp hx
    exact look_none.mp h b hb e
  mem b hb := by
    rcases List.mem_append.mp hb with h | h
    · exact .inl h
    · exact .inr (by rw [List.mem_singleton.mp h])

theorem step_put {a : Attr T V} {c : List (Attr T V)} {w v : Val T V} (h : look c a.name = some w) (hv : merge a.val (some w) = v) :
    Step a c (put c a.name v) where
  same := by rw [look_put, h]; simp [hv]
  other m hm := by rw [look_put, if_neg (fun e => hm e.1.symm)]
  rest p hp := put_filter c a.name v p hp
  names hn := by rwa [put_names]
  mem b hb := by
    rcases put_mem hb with h | h
    · exact .inl h
    · exact .inr (by rw [h])

theorem step_stay {a : Attr T V} {c : List (Attr T V)} {w : Val T V} (h : look c a.name = some w) (hv : merge a.val (some w) = w) :
    Step a c c where
  same := by rw [h, hv]
  other _ _ := rfl
  rest _ _ := rfl
  names := id
  mem b hb := .inl hb

/-- Without animations the loop gives the first attributes to the child, up to one that differs in both. The types of values are
needed for the transforms. -/
theorem loop_spec [DecidableEq T] [DecidableEq V] (animated : List (Attr T V) → String → Bool) (ha : ∀ c s, animated c s = false)
    (g c : List (Attr T V)) (rm : List AName)
    (hg : ∀ a ∈ g, ∀ l, a.val = .xf (some l) → ∀ v, look c a.name = some v → ∃ m, v = .xf (some m))
    (hn : (g.map (·.name)).Nodup) :
    ∃ g' c' rm' P Q P', loop animated false g c rm = .ok (g', c', rm', .done) ∧ g = P ++ Q ∧ Steps P c c' ∧
      g' = P' ++ Q ∧ P'.map (·.name) = P.map (·.name) ∧ rm' = rm ++ P.map (·.name) := by
  induction g generalizing c rm with
  | nil => exact ⟨[], c, rm, [], [], [], rfl, rfl, .nil, rfl, rfl, by simp⟩
  | cons a as ih =>
    have key : ∀ (a' : Attr T V) (c' : List (Attr T V)), a'.name = a.name → Step a c c' →
        ∃ g' c'' rm' P Q P', (match loop animated false as c' (rm ++ [a.name]) with
          | .ok (g, r) => Except.ok (a' :: g, r)
          | .error e => .error e) = .ok (g', c'', rm', Stop.done) ∧ a :: as = P ++ Q ∧ Steps P c c'' ∧
          g' = P' ++ Q ∧ P'.map (·.name) = P.map (·.name) ∧ rm' = rm ++ P.map (·.name) := by
      intro a' c' hn' hs
      rw [List.map_cons, List.nodup_cons] at hn
      obtain ⟨g', c'', rm', P, Q, P', h1, h2, h3, h4, h5, h6⟩ := ih c' (rm ++ [a.name]) (by
        intro b hb l hl v hv
        refine hg b (List.mem_cons_of_mem _ hb) l hl v ?_
        rw [← hs.other b.name (fun e => hn.1 (e ▸ List.mem_map_of_mem hb)), hv]) hn.2
      refine ⟨a' :: g', c'', rm', a :: P, Q, a' :: P', ?_, by rw [h2]; rfl, .cons hs h3, by rw [h4]; rfl, ?_, ?_⟩
      · rw [h1]
      · simp [hn', h5]
      · rw [h6]; simp
    rw [loop, Bool.and_false, if_neg (by simp), ha, if_neg (by simp)]
    simp only [get_look]
    cases hl : look c a.name with
    | none => exact key a (c ++ [a]) rfl (step_push hl)
    | some w =>
      simp only [Option.map_some]
      cases hv : a.val with
      | xf o =>
        cases o with
        | some l =>
          obtain ⟨m, rfl⟩ := hg a (by simp) l hv w hl
          exact key _ _ rfl (step_put hl (by rw [hv]; rfl))
        | none =>
          cases w with
          | xf o => cases o with
            | some m => exact key a c rfl (step_stay hl (by rw [hv]; rfl))
            | none => exact key a _ rfl (step_put hl (by rw [hv]; rfl))
          | inh o => cases o with
            | some m => exact key a c rfl (step_stay hl (by rw [hv]; rfl))
            | none => exact key a _ rfl (step_put hl (by rw [hv]; rfl))
          | plain w =>
            refine ⟨a :: as, c, rm, [], a :: as, [], ?_, rfl, .nil, rfl, rfl, by simp⟩
            simp
      | inh o =>
        cases w with
        | xf o' => cases o' with
          | some m => exact key a c rfl (step_stay hl (by rw [hv]; rfl))
          | none =>
            exact key a _ rfl (step_put hl (by rw [hv]; rfl))
        | inh o' => cases o' with
          | some m => exact key a c rfl (step_stay hl (by rw [hv]; rfl))
          | none => exact key a _ rfl (step_put hl (by rw [hv]; rfl))
        | plain w =>
          refine ⟨a :: as, c, rm, [], a :: as, [], ?_, rfl, .nil, rfl, rfl, by simp⟩
          simp
      | plain v =>
        cases w with
        | xf o' => cases o' with
          | some m => exact key a c rfl (step_stay hl (by rw [hv]; rfl))
          | none => exact key a _ rfl (step_put hl (by rw [hv]; rfl))
        | inh o' => cases o' with
          | some m => exact key a c rfl (step_stay hl (by rw [hv]; rfl))
          | none => exact key a _ rfl (step_put hl (by rw [hv]; rfl))
        | plain w =>
          by_cases e : v = w
          · subst e
            simp only [if_true]
            exact key a c rfl (step_stay hl (by rw [hv]; rfl))
          · refine ⟨a :: as, c, rm, [], a :: as, [], ?_, rfl, .nil, rfl, rfl, by simp⟩
            simp [e]

end Verif.Collapse
