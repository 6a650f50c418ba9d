import Verif.MergePaths.Spec
import Mathlib.Data.List.Perm.Subperm

/-!
# Path data put together, and attributes compared
-/

namespace Verif.MergePaths

open Verif.Segment

/-! ## Path data -/

theorem act_explicit (c : Cmd) (s : Pen) : act (explicit c) s = act c s := by
  induction c with
  | implicit c ih => simpa [explicit, act] using ih
  | _ => rfl

theorem draw_append (cs rest : List Cmd) (p : Pt) (s : Pen) (ops : List Op) :
    draw (cs ++ .moveTo p :: rest) s ops = draw cs s ops ++ draw rest ⟨p, p, none, none⟩ [] := by
  induction cs generalizing s ops with
  | nil => simp [draw, act]
  | cons c cs ih =>
    simp only [List.cons_append, draw]
    split <;> simp [ih]

theorem subpaths_append {c : List Cmd} (h : Valid c) (p : Pt) (rest : List Cmd) :
    subpaths (c ++ .moveTo p :: rest) = subpaths c ++ subpaths (.moveTo p :: rest) := by
  rcases h with rfl | ⟨q, cs, rfl | rfl⟩
  · rfl
  · simp [subpaths, act, draw_append]
  · simp [subpaths, act, draw_append]

theorem drawn_append {c : List Cmd} (h : Valid c) (p : Pt) (rest : List Cmd) :
    drawn (c ++ .moveTo p :: rest) = drawn c ++ drawn (.moveTo p :: rest) := by
  simp [drawn, subpaths_append h]

theorem isMove_act {c : Cmd} (h : isMove c = true) (s : Pen) : ∃ p, act c s = .move p := by
  rw [← act_explicit]
  unfold isMove at h
  split at h
  · next e => rw [e]; exact ⟨_, rfl⟩
  · next e => rw [e]; exact ⟨_, rfl⟩
  · exact nomatch h

theorem draw_last (cs : List Cmd) {c : Cmd} (h : isMove c = true) (s : Pen) (ops : List Op) :
    ∃ p, draw (cs ++ [c]) s ops = draw cs s ops ++ [⟨p, [], false⟩] := by
  induction cs generalizing s ops with
  | nil =>
    obtain ⟨p, e⟩ := isMove_act h s
    exact ⟨p, by simp [draw, e]⟩
  | cons d cs ih =>
    simp only [List.cons_append, draw]
    split
    · next p _ => obtain ⟨q, e⟩ := ih ⟨p, p, none, none⟩ []; exact ⟨q, by rw [e]; rfl⟩
    · obtain ⟨q, e⟩ := ih ⟨s.start, s.start, none, none⟩ []; exact ⟨q, by rw [e]; rfl⟩
    · exact ih _ _

theorem drawn_last (cs : List Cmd) {c : Cmd} (h : isMove c = true) : drawn (cs ++ [c]) = drawn cs := by
  cases cs with
  | nil =>
    obtain ⟨p, e⟩ := isMove_act h ⟨⟨0, 0⟩, ⟨0, 0⟩, none, none⟩
    simp [drawn, subpaths, e, draw]
  | cons d cs =>
    simp only [drawn, List.cons_append, subpaths]
    split
    · next p _ =>
      obtain ⟨q, e⟩ := draw_last cs h ⟨p, p, none, none⟩ []
      simp [e]
    · rfl

theorem drawn_popMove (c : List Cmd) : drawn (popMove c) = drawn c := by
  unfold popMove
  split
  · next d hd =>
    split
    · next h =>
      obtain ⟨l, rfl⟩ := List.getLast?_eq_some_iff.1 hd
      rw [List.dropLast_concat, drawn_last l h]
    · rfl
  · rfl

theorem valid_popMove {c : List Cmd} (h : Valid c) : Valid (popMove c) := by
  unfold popMove
  split
  · split
    · rcases h with rfl | ⟨p, cs, rfl | rfl⟩
      · exact .inl rfl
      · cases cs with
        | nil => exact .inl rfl
        | cons d cs => exact .inr ⟨p, _, .inl rfl⟩
      · cases cs with
        | nil => exact .inl rfl
        | cons d cs => exact .inr ⟨p, _, .inr rfl⟩
    · exact h
  · exact h

theorem act_second (c : Cmd) (s : Pen) : act (second c) s = act c s := by
  unfold second
  split
  · next c =>
    split
    · rfl
    · rw [act_explicit]; rfl
  · rfl

theorem draw_second (c : Cmd) (cs : List Cmd) (s : Pen) (ops : List Op) :
    draw (second c :: cs) s ops = draw (c :: cs) s ops := by
  simp only [draw, act_second]

theorem zero_pt (p : Pt) : (⟨0 + p.x, 0 + p.y⟩ : Pt) = p := by
  simp [Rat.zero_add]

theorem drawn_absolute (c : List Cmd) : drawn (absolute c) = drawn c := by
  unfold absolute
  split
  · simp only [drawn, subpaths, act, draw_second, zero_pt]
  · simp only [drawn, subpaths, act, zero_pt]
  · rfl

/-- After the change, data begin with an absolute move if they are valid. -/
theorem absolute_valid {c : List Cmd} (h : Valid c) : absolute c = [] ∨ ∃ p cs, absolute c = .moveTo p :: cs := by
  rcases h with rfl | ⟨p, cs, rfl | rfl⟩
  · exact .inl rfl
  · exact .inr ⟨p, cs, rfl⟩
  · cases cs with
    | nil => exact .inr ⟨p, [], rfl⟩
    | cons d cs => exact .inr ⟨p, _, rfl⟩

theorem drawn_merge {c d : List Cmd} (hc : Valid c) (hd : Valid d) :
    drawn (popMove c ++ absolute d) = drawn c ++ drawn d ∧ Valid (popMove c ++ absolute d) := by
  have hp := valid_popMove hc
  rw [← drawn_popMove c, ← drawn_absolute d]
  rcases absolute_valid hd with e | ⟨p, cs, e⟩
  · rw [e]
    simpa [drawn, subpaths] using hp
  · rw [e]
    refine ⟨drawn_append hp p cs, ?_⟩
    rcases hp with h | ⟨q, ds, h | h⟩
    · rw [h]; exact .inr ⟨p, cs, .inl rfl⟩
    · rw [h]; exact .inr ⟨q, _, .inl rfl⟩
    · rw [h]; exact .inr ⟨q, _, .inr rfl⟩

/-! ## Attributes -/

variable {V : Type}

theorem dataOf_eq (e : El V) : dataOf e.attrs = e.data := by
  unfold El.data
  generalize e.attrs = as
  induction as with
  | nil => rfl
  | cons a as ih => cases a <;> simp [dataOf, ih]

theorem rest_setData (c : List Cmd) (as : List (Attr V)) : rest (setData c as) = rest as := by
  induction as with
  | nil => rfl
  | cons a as ih => cases a <;> simp_all [setData, rest]

theorem dataOf_setData (c : List Cmd) (as : List (Attr V)) : dataOf (setData c as) = some c := by
  induction as with
  | nil => rfl
  | cons a as ih => cases a <;> simp_all [setData, dataOf]

theorem names_setData (c : List Cmd) {as : List (Attr V)} (h : (dataOf as).isSome) :
    (setData c as).map Attr.name = as.map Attr.name := by
  induction as with
  | nil => exact nomatch h
  | cons a as ih =>
    cases a with
    | d => rfl
    | other n v => simp only [setData, List.map_cons, ih h]

theorem mem_setData (c c' : List Cmd) {as : List (Attr V)} (hn : (as.map Attr.name).Nodup)
    (h : .d c' ∈ setData c as) : c' = c := by
  induction as with
  | nil => simpa [setData] using h
  | cons a as ih =>
    cases a with
    | d b =>
      rcases List.mem_cons.1 h with e | m
      · exact Attr.d.inj e
      · have := (List.nodup_cons.1 hn).1
        exact absurd (List.mem_map.2 ⟨_, m, rfl⟩) this
    | other n v =>
      rcases List.mem_cons.1 h with e | m
      · exact nomatch e
      · exact ih (List.nodup_cons.1 hn).2 m

theorem proper_set {e : El V} {c : List Cmd} (h : e.Proper) (hd : e.data.isSome) (hc : Valid c) :
    El.Proper { e with attrs := setData c e.attrs } := by
  rw [← dataOf_eq] at hd
  constructor
  · show ((setData c e.attrs).map Attr.name).Nodup
    rw [names_setData c hd]; exact h.1
  · intro c' m
    rw [mem_setData c c' h.1 m]; exact hc

theorem dataOf_mem {as : List (Attr V)} {c : List Cmd} (h : dataOf as = some c) : .d c ∈ as := by
  induction as with
  | nil => exact nomatch h
  | cons a as ih =>
    cases a with
    | d b => simp [dataOf] at h; simp [h]
    | other n v => exact List.mem_cons_of_mem _ (ih h)

theorem mem_dataOf {as : List (Attr V)} {c : List Cmd} (h : .d c ∈ as) : (dataOf as).isSome := by
  induction as with
  | nil => exact nomatch h
  | cons a as ih =>
    cases a with
    | d b => rfl
    | other n v => exact ih ((List.mem_cons.1 h).resolve_left (fun e => nomatch e))

theorem mem_rest {as : List (Attr V)} {n : String} {v : V} : (n, v) ∈ rest as ↔ .other n v ∈ as := by
  simp only [rest, List.mem_filterMap]
  constructor
  · rintro ⟨a, m, e⟩
    cases a with
    | d => exact nomatch e
    | other n' v' =>
      simp only [Option.some.injEq, Prod.mk.injEq] at e
      rw [← e.1, ← e.2]; exact m
  · intro m
    exact ⟨_, m, rfl⟩

theorem length_rest {as : List (Attr V)} (hn : (as.map Attr.name).Nodup) (hd : (dataOf as).isSome) :
    as.length = (rest as).length + 1 := by
  induction as with
  | nil => exact nomatch hd
  | cons a as ih =>
    obtain ⟨h1, h2⟩ := List.nodup_cons.1 hn
    cases a with
    | d c =>
      have : ∀ a ∈ as, ∃ n v, a = .other n v := by
        intro a m
        cases a with
        | d c' => exact absurd (List.mem_map.2 ⟨_, m, rfl⟩) h1
        | other n v => exact ⟨n, v, rfl⟩
      have e : (rest as).length = as.length := by
        clear ih h1 h2 hn hd
        induction as with
        | nil => rfl
        | cons b as ih =>
          obtain ⟨n, v, rfl⟩ := this b List.mem_cons_self
          have := ih fun a m => this a (List.mem_cons_of_mem _ m)
          simpa [rest] using this
      simp only [List.length_cons, ← e]
      rfl
    | other n v =>
      have := ih h2 hd
      simp only [List.length_cons, this]
      rfl

theorem named_iff {as : List (Attr V)} (hn : (as.map Attr.name).Nodup) {n : String} {v : V} :
    named n as = some v ↔ .other n v ∈ as := by
  induction as with
  | nil => simp [named]
  | cons a as ih =>
    obtain ⟨h1, h2⟩ := List.nodup_cons.1 hn
    cases a with
    | d c => simp [named, ih h2]
    | other m w =>
      simp only [named, List.mem_cons, Attr.other.injEq]
      by_cases e : m = n
      · subst e
        simp only [beq_self_eq_true, if_true, Option.some.injEq, true_and]
        constructor
        · intro h; exact .inl h.symm
        · rintro (h | h)
          · exact h.symm
          · exact absurd (List.mem_map.2 ⟨_, h, rfl⟩) h1
      · simp only [beq_iff_eq, e, if_false, ih h2]
        constructor
        · exact .inr
        · rintro (⟨h, _⟩ | h)
          · exact absurd h.symm e
          · exact h

theorem nodup_rest {as : List (Attr V)} (hn : (as.map Attr.name).Nodup) : (rest as).Nodup := by
  induction as with
  | nil => exact List.nodup_nil
  | cons a as ih =>
    obtain ⟨h1, h2⟩ := List.nodup_cons.1 hn
    cases a with
    | d c => exact ih h2
    | other n v =>
      refine List.nodup_cons.2 ⟨fun m => h1 ?_, ih h2⟩
      exact List.mem_map.2 ⟨_, mem_rest.1 m, rfl⟩

theorem sameAttrs_iff [DecidableEq V] {p c : List (Attr V)} (hp : (p.map Attr.name).Nodup)
    (hc : (c.map Attr.name).Nodup) (dp : (dataOf p).isSome) (dc : (dataOf c).isSome) :
    sameAttrs p c = true ↔ (rest p).Perm (rest c) := by
  have lp := length_rest hp dp
  have lc := length_rest hc dc
  simp only [sameAttrs, Bool.and_eq_true, beq_iff_eq, List.all_eq_true]
  have sub : (∀ x ∈ c, found p x = true) ↔
      rest c ⊆ rest p := by
    constructor
    · rintro h ⟨n, v⟩ m
      have := h _ (mem_rest.1 m)
      simp only [found, beq_iff_eq] at this
      exact mem_rest.2 ((named_iff hp).1 this)
    · intro h a m
      cases a with
      | d => rfl
      | other n v =>
        simp only [found, beq_iff_eq]
        exact (named_iff hp).2 (mem_rest.1 (h (mem_rest.2 m)))
  rw [sub]
  constructor
  · rintro ⟨l, s⟩
    exact ((List.subperm_of_subset (nodup_rest hc) s).perm_of_length_le (by omega)).symm
  · intro h
    exact ⟨by have := h.length_eq; omega, h.symm.subset⟩

theorem blocks_iff (s : Style) : s.blocks = false ↔ s.Free := by
  obtain ⟨m, k, f, st, fl⟩ := s
  have paint : ∀ r : Option (Ref × Mode), paintBlocks r = false ↔
      ∀ u, r = some (.url u, .static) → u.startsWith "#" = false := by
    intro r
    cases r with
    | none => simp [paintBlocks]
    | some r =>
      obtain ⟨r, m⟩ := r
      cases r <;> cases m <;> simp [paintBlocks, Ref.isLocal]
  have filt : filterBlocks fl = false ↔
      ∀ rs u, fl = some (rs, .static) → .url u ∈ rs → u.startsWith "#" = false := by
    cases fl with
    | none => simp [filterBlocks]
    | some r =>
      obtain ⟨rs, m⟩ := r
      cases m
      · simp only [filterBlocks, beq_self_eq_true, Bool.true_and, List.any_eq_false, Option.some.injEq, Prod.mk.injEq,
          and_true]
        constructor
        · rintro h _ u rfl m
          simpa [Ref.isLocal] using h _ m
        · intro h r m
          cases r with
          | url u => simpa [Ref.isLocal] using h _ u rfl m
          | plain k => simp [Ref.isLocal]
      · simp [filterBlocks]
  simp only [Style.blocks, Style.Free, Bool.or_eq_false_iff, paint, filt]
  constructor
  · rintro ⟨⟨⟨⟨a, b⟩, c⟩, d⟩, e⟩; exact ⟨a, b, c, e, d⟩
  · rintro ⟨a, b, c, d, e⟩; exact ⟨⟨⟨⟨a, b⟩, c⟩, e⟩, d⟩

theorem noId_iff (e : El V) : hasNamed "id" e.attrs = false ↔ e.NoId := by
  simp only [hasNamed, El.NoId, List.any_eq_false]
  constructor
  · intro h v m
    simpa using h _ m
  · intro h a m
    cases a with
    | d => simp
    | other n v =>
      intro e
      simp only [beq_iff_eq] at e
      subst e
      exact h v m

end Verif.MergePaths
