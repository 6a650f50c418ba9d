import Verif.ClassList.Model
import Verif.Attrs.Props

/-!
# C09: class list operations are set operations on tokens

Specification: the tokens of an element are those of its class attribute, none if there is no such
attribute; the other attributes are all the rest.
-/

set_option linter.unusedSectionVars false

namespace Verif.ClassList

open Verif.Names Verif.Attrs

variable {K : Type} [DecidableEq K]

/-- Specification: the class attribute's expanded name. -/
def className (T : Table K) (cls : K) : Str × Str := (AttrId.known cls).expanded T

/-- Specification: the class tokens of an element. -/
def tokens (T : Table K) (cls : K) (l : List (Attr K Val)) : List Str :=
  match at? T l (className T cls) with
  | some (.typed _ (.tokens ts)) => ts
  | _ => []

/-- Specification: whether there is a class attribute. -/
def hasClass (T : Table K) (cls : K) (l : List (Attr K Val)) : Prop :=
  (at? T l (className T cls)).isSome = true

/-- Specification: all attributes but the class attribute. -/
def others (T : Table K) (cls : K) (l : List (Attr K Val)) : List (Attr K Val) :=
  l.filter (fun a => a.expanded T ≠ className T cls)

/-- The elements considered: attributes as the parser makes them, without repetition, and the class
attribute (if any) parsed as a token list. -/
structure Ok (T : Table K) (cls : K) (l : List (Attr K Val)) : Prop where
  wf : AllWF T l
  distinct : Distinct T l
  parsed : ∀ a ∈ l, a.expanded T = className T cls → ∃ ts, a = .typed cls (.tokens ts)

/-- A list with its class attribute in view. -/
theorem ok_cases {T : Table K} {cls : K} {l : List (Attr K Val)} (h : Ok T cls l) :
    (∃ pre ts post, l = pre ++ .typed cls (.tokens ts) :: post ∧
      (∀ a ∈ pre, a.expanded T ≠ className T cls) ∧ (∀ a ∈ post, a.expanded T ≠ className T cls)) ∨
    (∀ a ∈ l, a.expanded T ≠ className T cls) := by
  by_cases hx : ∀ a ∈ l, a.expanded T ≠ className T cls
  · exact .inr hx
  · left
    have : ∃ a ∈ l, a.expanded T = className T cls := by
      simpa using hx
    obtain ⟨a, ha, he⟩ := this
    obtain ⟨ts, rfl⟩ := h.parsed a ha he
    obtain ⟨pre, post, rfl⟩ := List.append_of_mem ha
    have hd := h.distinct
    unfold Distinct at hd
    rw [List.pairwise_append, List.pairwise_cons] at hd
    refine ⟨pre, ts, post, rfl, fun a ha => ?_, fun a ha => ?_⟩
    · rw [← he]; exact hd.2.2 a ha _ (by simp)
    · rw [← he]; exact fun e => hd.2.1.1 a ha e.symm

theorem classTokens_some {cls : K} {a : Attr K Val} {ts : List Str} (h : classTokens cls a = some ts) :
    a = .typed cls (.tokens ts) := by
  unfold classTokens at h
  split at h
  · split at h
    · simp at h; subst h; subst_vars; rfl
    · simp at h
  · simp at h

theorem classTokens_other {T : Table K} {cls : K} {a : Attr K Val} (h : a.expanded T ≠ className T cls) :
    classTokens cls a = none := by
  cases hc : classTokens cls a with
  | none => rfl
  | some ts => rw [classTokens_some hc] at h; exact absurd rfl h

theorem search_none {T : Table K} {cls : K} (l : List (Attr K Val)) (i : Nat)
    (h : ∀ a ∈ l, a.expanded T ≠ className T cls) : attrBySearch cls l i = none := by
  induction l generalizing i with
  | nil => rfl
  | cons a l ih =>
    rw [attrBySearch, classTokens_other (h a (by simp))]
    exact ih _ (fun b hb => h b (by simp [hb]))

theorem search_some {T : Table K} {cls : K} (pre post : List (Attr K Val)) (ts : List Str) (i : Nat)
    (h : ∀ a ∈ pre, a.expanded T ≠ className T cls) :
    attrBySearch cls (pre ++ .typed cls (.tokens ts) :: post) i = some (i + pre.length, ts) := by
  induction pre generalizing i with
  | nil => simp [attrBySearch, classTokens]
  | cons a l ih =>
    rw [List.cons_append, attrBySearch, classTokens_other (h a (by simp))]
    simp only
    rw [ih _ (fun b hb => h b (by simp [hb]))]
    simp; omega

theorem memo_none {T : Table K} {cls : K} {c : CL K} (h : ∀ a ∈ c.attrs, a.expanded T ≠ className T cls) :
    attrByMemo cls c = none := by
  unfold attrByMemo
  cases hm : c.attrs[c.memo]? with
  | none => rfl
  | some a =>
    have := List.mem_of_getElem? hm
    simp [classTokens_other (h a this)]

theorem memo_cases {T : Table K} {cls : K} {c : CL K} {pre post : List (Attr K Val)} {ts : List Str}
    (e : c.attrs = pre ++ .typed cls (.tokens ts) :: post)
    (h1 : ∀ a ∈ pre, a.expanded T ≠ className T cls) (h2 : ∀ a ∈ post, a.expanded T ≠ className T cls) :
    attrByMemo cls c = none ∨ attrByMemo cls c = some (pre.length, ts) := by
  unfold attrByMemo
  rw [e]
  rcases Nat.lt_trichotomy c.memo pre.length with h | h | h
  · left
    rw [List.getElem?_append_left h]
    cases hm : pre[c.memo]? with
    | none => rfl
    | some a => simp [classTokens_other (h1 a (List.mem_of_getElem? hm))]
  · right
    rw [h]
    simp [classTokens]
  · left
    rw [List.getElem?_append_right (by omega)]
    obtain ⟨k, hk⟩ : ∃ k, c.memo - pre.length = k + 1 := ⟨c.memo - pre.length - 1, by omega⟩
    rw [hk, List.getElem?_cons_succ]
    cases hm : post[k]? with
    | none => rfl
    | some a => simp [classTokens_other (h2 a (List.mem_of_getElem? hm))]

/-- Whatever index is remembered, the class attribute is found where it is. -/
theorem attr_spec {T : Table K} {cls : K} {c : CL K} (h : Ok T cls c.attrs) :
    (∃ pre ts post m, c.attrs = pre ++ .typed cls (.tokens ts) :: post ∧
      (∀ a ∈ pre, a.expanded T ≠ className T cls) ∧ (∀ a ∈ post, a.expanded T ≠ className T cls) ∧
      attr cls c = ({ c with memo := m }, some (pre.length, ts))) ∨
    ((∀ a ∈ c.attrs, a.expanded T ≠ className T cls) ∧ attr cls c = (c, none)) := by
  rcases ok_cases h with ⟨pre, ts, post, e, h1, h2⟩ | hn
  · left
    refine ⟨pre, ts, post, ?_⟩
    unfold attr
    rcases memo_cases e h1 h2 with hm | hm
    · rw [hm, e, search_some (T := T) pre post ts 0 h1]
      exact ⟨pre.length, rfl, h1, h2, by simp⟩
    · rw [hm]; exact ⟨c.memo, e, h1, h2, rfl⟩
  · right
    refine ⟨hn, ?_⟩
    unfold attr
    rw [memo_none hn, search_none (T := T) _ _ hn]

theorem at_some {T : Table K} {cls : K} {pre post : List (Attr K Val)} {ts : List Str}
    (h1 : ∀ a ∈ pre, a.expanded T ≠ className T cls) :
    at? T (pre ++ .typed cls (.tokens ts) :: post) (className T cls) = some (.typed cls (.tokens ts)) := by
  unfold at?
  rw [List.find?_append, List.find?_eq_none.2 (by intro b hb; simpa using h1 b hb), List.find?_cons_of_pos]
  · rfl
  · exact beq_self_eq_true _

theorem at_none {T : Table K} {cls : K} {l : List (Attr K Val)}
    (h : ∀ a ∈ l, a.expanded T ≠ className T cls) : at? T l (className T cls) = none := by
  unfold at?
  exact List.find?_eq_none.2 (by intro b hb; simpa using h b hb)

theorem tokens_some {T : Table K} {cls : K} {pre post : List (Attr K Val)} {ts : List Str}
    (h1 : ∀ a ∈ pre, a.expanded T ≠ className T cls) :
    tokens T cls (pre ++ .typed cls (.tokens ts) :: post) = ts := by
  unfold tokens; rw [at_some h1]

theorem tokens_none {T : Table K} {cls : K} {l : List (Attr K Val)}
    (h : ∀ a ∈ l, a.expanded T ≠ className T cls) : tokens T cls l = [] := by
  unfold tokens; rw [at_none h]

theorem filter_keep {T : Table K} {cls : K} {l : List (Attr K Val)} (h : ∀ a ∈ l, a.expanded T ≠ className T cls) :
    l.filter (fun a => decide (a.expanded T ≠ className T cls)) = l := by
  rw [List.filter_eq_self]; intro a ha; simpa using h a ha

theorem others_some {T : Table K} {cls : K} {pre post : List (Attr K Val)} {ts : List Str}
    (h1 : ∀ a ∈ pre, a.expanded T ≠ className T cls) (h2 : ∀ a ∈ post, a.expanded T ≠ className T cls) :
    others T cls (pre ++ .typed cls (.tokens ts) :: post) = pre ++ post := by
  unfold others
  rw [List.filter_append, List.filter_cons, filter_keep h1, filter_keep h2]
  have : (Attr.typed cls (.tokens ts) : Attr K Val).expanded T = className T cls := rfl
  simp [this]

theorem others_none {T : Table K} {cls : K} {l : List (Attr K Val)}
    (h : ∀ a ∈ l, a.expanded T ≠ className T cls) : others T cls l = l := filter_keep h

/-- Replacing the tokens keeps the element in order. -/
theorem ok_replace {T : Table K} {cls : K} {pre post : List (Attr K Val)} {ts ts' : List Str}
    (h : Ok T cls (pre ++ .typed cls (.tokens ts) :: post)) :
    Ok T cls (pre ++ .typed cls (.tokens ts') :: post) := by
  obtain ⟨w, d, p⟩ := h
  refine ⟨fun a ha => ?_, ?_, fun a ha he => ?_⟩
  · simp only [List.mem_append, List.mem_cons] at ha
    rcases ha with ha | rfl | ha
    · exact w a (by simp [ha])
    · trivial
    · exact w a (by simp [ha])
  · unfold Distinct at *
    rw [List.pairwise_append, List.pairwise_cons] at d ⊢
    refine ⟨d.1, ⟨fun a ha => d.2.1.1 a ha, d.2.1.2⟩, fun a ha b hb => ?_⟩
    rcases List.mem_cons.1 hb with rfl | hb
    · exact d.2.2 a ha (.typed cls (.tokens ts)) (List.mem_cons_self ..)
    · exact d.2.2 a ha b (by simp [hb])
  · simp only [List.mem_append, List.mem_cons] at ha
    rcases ha with ha | rfl | ha
    · exact p a (by simp [ha]) he
    · exact ⟨_, rfl⟩
    · exact p a (by simp [ha]) he

theorem ok_drop {T : Table K} {cls : K} {pre post : List (Attr K Val)} {a : Attr K Val}
    (h : Ok T cls (pre ++ a :: post)) : Ok T cls (pre ++ post) := by
  obtain ⟨w, d, p⟩ := h
  have sub : (pre ++ post).Sublist (pre ++ a :: post) := (List.sublist_cons_self a post).append_left pre
  exact ⟨fun b hb => w b (sub.subset hb), d.sublist sub, fun b hb => p b (sub.subset hb)⟩

/-- **C09 (contains, length).** Whatever index is remembered, `contains` is membership in the tokens and
`length` is their number; asking changes no attribute. -/
theorem contains_spec {T : Table K} {cls : K} {c : CL K} (h : Ok T cls c.attrs) (t : Str) :
    ((contains cls c t).2 = true ↔ t ∈ tokens T cls c.attrs) ∧ (contains cls c t).1.attrs = c.attrs := by
  unfold contains
  rcases attr_spec h with ⟨pre, ts, post, m, e, h1, h2, ha⟩ | ⟨hn, ha⟩
  · rw [ha]
    simp only [e, tokens_some h1]
    simp
  · rw [ha]
    simp only [tokens_none hn]
    simp

theorem length_spec {T : Table K} {cls : K} {c : CL K} (h : Ok T cls c.attrs) :
    length cls c = (tokens T cls c.attrs).length := by
  unfold length
  rcases attr_spec h with ⟨pre, ts, post, m, e, h1, h2, ha⟩ | ⟨hn, ha⟩
  · rw [ha]; simp only [e, tokens_some h1]
  · rw [ha]; simp only [tokens_none hn]; rfl

/-- **C09 (add).** The token is appended unless present; nothing else changes. -/
theorem add_spec {T : Table K} {cls : K} {c : CL K} (h : Ok T cls c.attrs) (t : Str) :
    Ok T cls (add T cls c t).attrs ∧
    tokens T cls (add T cls c t).attrs
      = (if t ∈ tokens T cls c.attrs then tokens T cls c.attrs else tokens T cls c.attrs ++ [t]) ∧
    others T cls (add T cls c t).attrs = others T cls c.attrs := by
  unfold add
  obtain ⟨hc, ea⟩ := contains_spec h t
  generalize hcc : contains cls c t = r at hc ea
  obtain ⟨c', b⟩ := r
  simp only at hc ea
  cases b with
  | true =>
    simp only [true_iff] at hc
    simp only [ea]
    rw [if_pos hc]; exact ⟨h, rfl, trivial⟩
  | false =>
    simp only [Bool.false_eq_true, false_iff] at hc
    rw [if_neg hc]
    have h' : Ok T cls c'.attrs := by rw [ea]; exact h
    rw [← ea]
    simp only
    rcases attr_spec h' with ⟨pre, ts, post, m, e, h1, h2, ha⟩ | ⟨hn, ha⟩
    · rw [ha]
      simp only [put, e, List.set_append_right _ _ (Nat.le_refl _), Nat.sub_self, List.set_cons_zero]
      rw [tokens_some h1, tokens_some h1, others_some h1 h2, others_some h1 h2]
      exact ⟨ok_replace (by rw [← e]; exact h'), rfl, rfl⟩
    · rw [ha]
      simp only
      have hw : (Attr.typed cls (.tokens [t]) : Attr K Val).WF T := trivial
      rcases set_spec T c'.attrs (.typed cls (.tokens [t])) h'.wf hw with ⟨pre, old, post, e, ho, _, _⟩ | ⟨_, hs⟩
      · exact absurd ho (hn old (by rw [e]; simp))
      · rw [hs]
        simp only
        rw [tokens_some hn, tokens_none hn, others_some hn (by simp), others_none hn]
        refine ⟨⟨?_, ?_, ?_⟩, rfl, by simp⟩
        · have := set_wf T c'.attrs (.typed cls (.tokens [t])) h'.wf hw; rwa [hs] at this
        · have := set_distinct T c'.attrs (.typed cls (.tokens [t])) h'.wf hw h'.distinct; rwa [hs] at this
        · intro a ha he
          rcases List.mem_append.1 ha with ha | ha
          · exact h'.parsed a ha he
          · exact ⟨[t], List.mem_singleton.1 ha⟩

/-- **C09 (remove).** Exactly the given token disappears, the class attribute disappears exactly if no
token is left, and nothing else changes. -/
theorem remove_spec {T : Table K} {cls : K} {c : CL K} (h : Ok T cls c.attrs) (t : Str) :
    Ok T cls (remove cls c t).attrs ∧
    tokens T cls (remove cls c t).attrs = (tokens T cls c.attrs).filter (· ≠ t) ∧
    others T cls (remove cls c t).attrs = others T cls c.attrs ∧
    (hasClass T cls (remove cls c t).attrs ↔ (tokens T cls c.attrs).filter (· ≠ t) ≠ []) := by
  unfold remove hasClass
  rcases attr_spec h with ⟨pre, ts, post, m, e, h1, h2, ha⟩ | ⟨hn, ha⟩
  · rw [ha]
    have hf : ts.filter (· != t) = ts.filter (fun x => decide (x ≠ t)) := by
      congr 1; funext x; simp [bne, Bool.beq_eq_decide_eq]
    have hx := h; rw [e] at hx
    simp only [put, e, List.set_append_right _ _ (Nat.le_refl _), Nat.sub_self, List.set_cons_zero]
    rw [tokens_some h1, others_some h1 h2, hf]
    by_cases he : ts.filter (fun x => decide (x ≠ t)) = []
    · rw [he]
      simp only [List.isEmpty_nil, if_true]
      have hr : (Attrs.remove (pre ++ Attr.typed cls (.tokens []) :: post) (.known cls)).1 = pre ++ post := by
        have ok' : Ok T cls (pre ++ Attr.typed cls (.tokens []) :: post) := ok_replace hx
        have := (Attrs.remove_partial T (pre ++ Attr.typed cls (.tokens []) :: post) (.known cls) ok'.wf ok'.distinct
          trivial (by
            intro a ha hex
            obtain ⟨us, rfl⟩ := ok'.parsed a ha hex
            simp [Attr.name, AttrId.eq, AttrId.unaliased])).1
        rw [this]
        exact others_some h1 h2
      rw [hr]
      have hpp : ∀ a ∈ pre ++ post, a.expanded T ≠ className T cls := by
        intro a ha; rcases List.mem_append.1 ha with ha | ha
        · exact h1 a ha
        · exact h2 a ha
      rw [tokens_none hpp, others_none hpp, at_none hpp]
      exact ⟨ok_drop hx, rfl, rfl, by simp⟩
    · rw [if_neg (by simpa [List.isEmpty_iff] using he)]
      simp only
      rw [tokens_some h1, others_some h1 h2, at_some h1]
      exact ⟨ok_replace hx, rfl, rfl, by simpa using he⟩
  · rw [ha]
    simp only [tokens_none hn, at_none hn]
    exact ⟨h, rfl, trivial, by simp⟩

/-- **C09 (toggle).** The result says whether the token is present afterwards, which is the opposite of
before; other tokens and attributes stay. -/
theorem toggle_spec {T : Table K} {cls : K} {c : CL K} (h : Ok T cls c.attrs) (t : Str) :
    Ok T cls (toggle T cls c t).1.attrs ∧
    ((toggle T cls c t).2 = true ↔ t ∈ tokens T cls (toggle T cls c t).1.attrs) ∧
    ((toggle T cls c t).2 = true ↔ t ∉ tokens T cls c.attrs) ∧
    (tokens T cls (toggle T cls c t).1.attrs).filter (· ≠ t) = (tokens T cls c.attrs).filter (· ≠ t) ∧
    others T cls (toggle T cls c t).1.attrs = others T cls c.attrs := by
  unfold toggle
  obtain ⟨hc, ea⟩ := contains_spec h t
  generalize hcc : contains cls c t = r at hc ea
  obtain ⟨c', b⟩ := r
  simp only at hc ea
  have h' : Ok T cls c'.attrs := by rw [ea]; exact h
  rw [← ea] at hc ⊢
  cases b with
  | true =>
    obtain ⟨o, r1, r2, _⟩ := remove_spec h' t
    simp only [true_iff] at hc
    simp only [Bool.false_eq_true, false_iff]
    refine ⟨o, by rw [r1]; simp, by simpa using hc, by rw [r1]; simp, r2⟩
  | false =>
    obtain ⟨o, r1, r2⟩ := add_spec h' t
    simp only [Bool.false_eq_true, false_iff] at hc
    rw [if_neg hc] at r1
    simp only [true_iff]
    exact ⟨o, by rw [r1]; simp, hc, by rw [r1]; simp [List.filter_append], r2⟩

/-- **C09 (toggle twice).** Toggling a token twice restores the membership of every token. -/
theorem toggle_twice {T : Table K} {cls : K} {c : CL K} (h : Ok T cls c.attrs) (t u : Str) :
    u ∈ tokens T cls (toggle T cls (toggle T cls c t).1 t).1.attrs ↔ u ∈ tokens T cls c.attrs := by
  obtain ⟨o1, a1, b1, d1, _⟩ := toggle_spec h t
  obtain ⟨o2, a2, b2, d2, _⟩ := toggle_spec o1 t
  by_cases hu : u = t
  · subst hu
    rw [← a2, b2, ← a1, b1]; simp
  · have hmem : ∀ l : List Str, u ∈ l ↔ u ∈ l.filter (· ≠ t) := by intro l; simp [hu]
    rw [hmem, d2, d1, ← hmem]

theorem replaceFirst_spec (old new : Str) (ts : List Str) :
    (∃ pre post, ts = pre ++ old :: post ∧ old ∉ pre ∧ replaceFirst old new ts = some (pre ++ new :: post)) ∨
    (old ∉ ts ∧ replaceFirst old new ts = none) := by
  induction ts with
  | nil => right; simp [replaceFirst]
  | cons x l ih =>
    unfold replaceFirst
    by_cases hx : x = old
    · left; subst hx; exact ⟨[], l, rfl, by simp, by simp⟩
    · rw [if_neg (by simpa using hx)]
      rcases ih with ⟨pre, post, rfl, hn, e⟩ | ⟨hn, e⟩
      · left; exact ⟨x :: pre, post, rfl, by simp [hn, Ne.symm hx], by simp [e]⟩
      · right; exact ⟨by simp [hn, Ne.symm hx], by simp [e]⟩

/-- **C09 (replace).** The result says whether the old token was present; if so its first occurrence is
replaced in place, and nothing else changes. -/
theorem replace_spec {T : Table K} {cls : K} {c : CL K} (h : Ok T cls c.attrs) (old new : Str) :
    Ok T cls (replace cls c old new).1.attrs ∧
    others T cls (replace cls c old new).1.attrs = others T cls c.attrs ∧
    ((replace cls c old new).2 = true ↔ old ∈ tokens T cls c.attrs) ∧
    (old ∉ tokens T cls c.attrs → tokens T cls (replace cls c old new).1.attrs = tokens T cls c.attrs) ∧
    (∀ pre post, old ∉ pre → tokens T cls c.attrs = pre ++ old :: post →
      tokens T cls (replace cls c old new).1.attrs = pre ++ new :: post) := by
  unfold replace
  rcases attr_spec h with ⟨p, ts, q, m, e, h1, h2, ha⟩ | ⟨hn, ha⟩
  · rw [ha]
    have hx := h; rw [e] at hx
    simp only
    rcases replaceFirst_spec old new ts with ⟨pre, post, rfl, hn, er⟩ | ⟨hn, er⟩ <;> rw [er]
    · simp only [put, e, List.set_append_right _ _ (Nat.le_refl _), Nat.sub_self, List.set_cons_zero]
      rw [tokens_some h1, others_some h1 h2, others_some h1 h2, tokens_some h1]
      refine ⟨ok_replace hx, rfl, by simp, fun h => absurd h (by simp), fun pre' post' hn' he => ?_⟩
      have : pre.length = pre'.length := by
        have l1 : (pre ++ old :: post).idxOf old = pre.length := by
          rw [List.idxOf_append]; simp [hn]
        have l2 : (pre' ++ old :: post').idxOf old = pre'.length := by
          rw [List.idxOf_append]; simp [hn']
        rw [← l1, ← l2, he]
      have := List.append_inj he this
      rw [this.1]
      simp at this
      rw [this.2]
    · simp only [e]
      rw [tokens_some h1]
      refine ⟨hx, trivial, by simpa using hn, fun _ => trivial, fun pre post _ he => ?_⟩
      exact absurd (by rw [he]; simp) hn
  · rw [ha]
    simp only [tokens_none hn]
    exact ⟨h, trivial, by simp, fun _ => trivial, fun pre post _ he => absurd he (by simp)⟩

/-- **C09 (retain).** Exactly the tokens chosen stay, in order; nothing else changes. -/
theorem retain_spec {T : Table K} {cls : K} {c : CL K} (h : Ok T cls c.attrs) (f : Str → Bool) :
    Ok T cls (retain cls c f).attrs ∧
    tokens T cls (retain cls c f).attrs = (tokens T cls c.attrs).filter f ∧
    others T cls (retain cls c f).attrs = others T cls c.attrs := by
  unfold retain
  rcases attr_spec h with ⟨pre, ts, post, m, e, h1, h2, ha⟩ | ⟨hn, ha⟩
  · rw [ha]
    have hx := h; rw [e] at hx
    simp only [put, e, List.set_append_right _ _ (Nat.le_refl _), Nat.sub_self, List.set_cons_zero]
    rw [tokens_some h1, tokens_some h1, others_some h1 h2, others_some h1 h2]
    exact ⟨ok_replace hx, rfl, rfl⟩
  · rw [ha]; simp only [tokens_none hn]; exact ⟨h, rfl, trivial⟩

/-- One operation on a class list. -/
inductive Op
  | contains (t : Str) | add (t : Str) | remove (t : Str) | toggle (t : Str) | replace (old new : Str)
  | retain (f : Str → Bool)

def step (T : Table K) (cls : K) (c : CL K) : Op → CL K
  | .contains t => (contains cls c t).1
  | .add t => add T cls c t
  | .remove t => remove cls c t
  | .toggle t => (toggle T cls c t).1
  | .replace o n => (replace cls c o n).1
  | .retain f => retain cls c f

/-- Specification: the operation on a bare token list. -/
def spec (ts : List Str) : Op → List Str
  | .contains _ => ts
  | .add t => if t ∈ ts then ts else ts ++ [t]
  | .remove t => ts.filter (· ≠ t)
  | .toggle t => if t ∈ ts then ts.filter (· ≠ t) else ts ++ [t]
  | .replace o n => ts.takeWhile (· ≠ o) ++ (match ts.dropWhile (· ≠ o) with | [] => [] | _ :: r => n :: r)
  | .retain f => ts.filter f

theorem toggle_tokens {T : Table K} {cls : K} {c : CL K} (h : Ok T cls c.attrs) (t : Str) :
    tokens T cls (toggle T cls c t).1.attrs = spec (tokens T cls c.attrs) (.toggle t) := by
  unfold toggle
  obtain ⟨hc, ea⟩ := contains_spec h t
  generalize hcc : contains cls c t = r at hc ea
  obtain ⟨c', b⟩ := r
  simp only at hc ea
  have h' : Ok T cls c'.attrs := by rw [ea]; exact h
  rw [← ea] at hc ⊢
  unfold spec
  cases b with
  | true =>
    obtain ⟨o, r1, r2, _⟩ := remove_spec h' t
    simp only [true_iff] at hc
    simp only [if_pos hc]; exact r1
  | false =>
    obtain ⟨o, r1, r2⟩ := add_spec h' t
    simp only [Bool.false_eq_true, false_iff] at hc
    rw [if_neg hc] at r1
    simp only [if_neg hc]; exact r1

theorem replace_tokens {T : Table K} {cls : K} {c : CL K} (h : Ok T cls c.attrs) (old new : Str) :
    tokens T cls (replace cls c old new).1.attrs = spec (tokens T cls c.attrs) (.replace old new) := by
  obtain ⟨_, _, _, r1, r2⟩ := replace_spec h old new
  generalize tokens T cls c.attrs = ts at *
  unfold spec
  simp only
  rcases replaceFirst_spec old new ts with ⟨pre, post, rfl, hn, er⟩ | ⟨hn, er⟩
  · rw [r2 pre post hn rfl]
    have hp : ∀ x ∈ pre, decide (x ≠ old) = true := by
      intro x hx; simpa using fun e : x = old => hn (e ▸ hx)
    rw [List.takeWhile_append_of_pos hp, List.dropWhile_append_of_pos hp]
    simp
  · rw [r1 hn]
    have hp : ∀ x ∈ ts, decide (x ≠ old) = true := by
      intro x hx; simpa using fun e : x = old => hn (e ▸ hx)
    have e1 : ts.takeWhile (fun x => decide (x ≠ old)) = ts := by
      have := List.takeWhile_append_of_pos (l₂ := []) hp; simpa using this
    have e2 : ts.dropWhile (fun x => decide (x ≠ old)) = [] := by
      have := List.dropWhile_append_of_pos (l₂ := []) hp; simpa using this
    rw [e1, e2]; simp

/-- **C09 (every history).** After any history of operations, starting with any remembered index, the
tokens are those of the same history on a bare list and no other attribute has changed. -/
theorem history_spec {T : Table K} {cls : K} (ops : List Op) (c : CL K) (h : Ok T cls c.attrs) :
    Ok T cls (ops.foldl (step T cls) c).attrs ∧
    tokens T cls (ops.foldl (step T cls) c).attrs = ops.foldl spec (tokens T cls c.attrs) ∧
    others T cls (ops.foldl (step T cls) c).attrs = others T cls c.attrs := by
  induction ops generalizing c with
  | nil => exact ⟨h, rfl, rfl⟩
  | cons op ops ih =>
    rw [List.foldl_cons, List.foldl_cons]
    have key : Ok T cls (step T cls c op).attrs ∧
        tokens T cls (step T cls c op).attrs = spec (tokens T cls c.attrs) op ∧
        others T cls (step T cls c op).attrs = others T cls c.attrs := by
      cases op with
      | contains t => simp only [step, (contains_spec h t).2]; exact ⟨h, rfl, trivial⟩
      | add t => exact add_spec h t
      | remove t => exact ⟨(remove_spec h t).1, (remove_spec h t).2.1, (remove_spec h t).2.2.1⟩
      | toggle t => exact ⟨(toggle_spec h t).1, toggle_tokens h t, (toggle_spec h t).2.2.2.2⟩
      | replace o n => exact ⟨(replace_spec h o n).1, replace_tokens h o n, (replace_spec h o n).2.1⟩
      | retain f => exact retain_spec h f
    obtain ⟨i1, i2, i3⟩ := ih _ key.1
    exact ⟨i1, by rw [i2, key.2.1], by rw [i3, key.2.2]⟩

/-- An element with an id and a class attribute `a b` (variant 3 of the example table plays `class`), and
a remembered index pointing elsewhere. -/
def exCL : CL (Fin 4) := ⟨[.typed 1 (.other 5), .typed 3 (.tokens [lit "a", lit "b"])], 7⟩

example : Ok exTable 3 exCL.attrs := by
  refine ⟨?_, ?_, ?_⟩
  · intro a ha
    simp only [exCL, List.mem_cons, List.not_mem_nil, or_false] at ha
    rcases ha with rfl | rfl <;> trivial
  · unfold Distinct exCL; decide +kernel
  · intro a ha he
    simp only [exCL, List.mem_cons, List.not_mem_nil, or_false] at ha
    rcases ha with rfl | rfl
    · exact absurd he (by decide +kernel)
    · exact ⟨_, rfl⟩

example : (add exTable 3 exCL (lit "c")).attrs
    = [.typed 1 (.other 5), .typed 3 (.tokens [lit "a", lit "b", lit "c"])] := by decide +kernel

/-- **C09 violated outside of the hypotheses.** A class attribute that could not be parsed (for instance
`'a b`, whose leading quote makes the list parser take it as one item) is stored as raw text; `add`
replaces it altogether. -/
theorem add_raw_violated :
    let raw : Attr (Fin 4) Val := .unparsed (.known 3) (.other 0)
    (add exTable 3 ⟨[raw], 0⟩ (lit "x")).attrs = [.typed 3 (.tokens [lit "x"])] := by decide +kernel

end Verif.ClassList
