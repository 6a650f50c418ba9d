import Verif.CleanupIds.Model
import Verif.IdGen.Props

/-!
# Lemmas on cleaning up ids
-/

namespace Verif.CleanupIds

open Verif.IdGen

theorem setReserved_inv (ids : List Str) :
    ∃ g, setReserved ids Gen.default = some g ∧ Inv g ∧ g.reserved = ids := by
  unfold setReserved
  dsimp only
  split
  · obtain ⟨s, h1, h2, h3, h4, h5, h6⟩ := next_fuel { Gen.default with reserved := ids } inv_default.letters
    rw [h1]
    exact ⟨_, rfl, ⟨h2, h3, h4⟩, rfl⟩
  · rename_i h
    exact ⟨_, rfl, ⟨inv_default.letters, inv_default.nonempty, h⟩, rfl⟩

/-! ## Finding ids -/

/-- The id at attribute `i`. -/
def idAt (d : List Attr) (i : Nat) : Option Str := d[i]?.bind idOf

theorem findAttr_some {E : Env} {o : Options} {d : List Attr} {s : Found} {i : Nat} {x : Str} (h : idAt d i = some x) :
    findAttr E o d s i = findId E o i s x := by
  unfold idAt at h
  simp [findAttr, h]

theorem findAttr_none {E : Env} {o : Options} {d : List Attr} {s : Found} {i : Nat} (h : idAt d i = none) :
    findAttr E o d s i = s := by
  unfold idAt at h
  simp [findAttr, h]

/-- No id is how another id is written in an address. -/
def Plain (E : Env) (d : List Attr) : Prop :=
  ∀ (i j : Nat) (x y : Str), idAt d i = some x → idAt d j = some y → x ≠ y → E.encode x ≠ y

/-- What is known after the attributes `p`. -/
structure Known (E : Env) (o : Options) (d : List Attr) (p : List Nat) (s : Found) : Prop where
  repl : ∀ t, t ∈ s.replaceable ↔ ∃ i ∈ p, ∃ x, idAt d i = some x ∧ E.numeric x = false ∧ preserved o x = false ∧
    (t = x ∨ t = E.encode x)
  kept : ∀ t, t ∈ s.kept ↔ ∃ i ∈ p, idAt d i = some t ∧ E.numeric t = false ∧ preserved o t = true
  gone : ∀ i, i ∈ s.gone ↔ ∃ q r, p = q ++ i :: r ∧ ∃ x, idAt d i = some x ∧
    (E.numeric x = true ∨ (preserved o x = false ∧ ∃ j ∈ q, idAt d j = some x))

theorem split_snoc {p q r : List Nat} {i k : Nat} : p ++ [k] = q ++ i :: r ↔
    (r = [] ∧ q = p ∧ i = k) ∨ ∃ r', r = r' ++ [k] ∧ p = q ++ i :: r' := by
  constructor
  · intro h
    rcases r.eq_nil_or_concat with rfl | ⟨r', z, rfl⟩
    · left
      have := List.append_inj' h (by simp)
      simp at this
      exact ⟨rfl, this.1.symm, this.2.symm⟩
    · right
      have h2 : p ++ [k] = (q ++ i :: r') ++ [z] := by simpa using h
      have := List.append_inj' h2 (by simp)
      simp at this
      exact ⟨r', by simp [this.2], this.1⟩
  · rintro (⟨rfl, rfl, rfl⟩ | ⟨r', rfl, rfl⟩) <;> simp

theorem known_step {E : Env} {o : Options} {d : List Attr} {p : List Nat} {s : Found} {k : Nat} (hp : Plain E d)
    (h : Known E o d p s) : Known E o d (p ++ [k]) (findAttr E o d s k) := by
  have gsplit : ∀ i, (∃ q r, p ++ [k] = q ++ i :: r ∧ ∃ x, idAt d i = some x ∧
      (E.numeric x = true ∨ (preserved o x = false ∧ ∃ j ∈ q, idAt d j = some x))) ↔
      (i ∈ s.gone ∨ (i = k ∧ ∃ x, idAt d k = some x ∧
        (E.numeric x = true ∨ (preserved o x = false ∧ ∃ j ∈ p, idAt d j = some x)))) := by
    intro i
    constructor
    · rintro ⟨q, r, e, rest⟩
      rcases split_snoc.1 e with ⟨rfl, rfl, rfl⟩ | ⟨r', rfl, e2⟩
      · exact .inr ⟨rfl, rest⟩
      · exact .inl ((h.gone i).2 ⟨q, r', e2, rest⟩)
    · rintro (hg | ⟨rfl, rest⟩)
      · obtain ⟨q, r, e, rest⟩ := (h.gone i).1 hg
        exact ⟨q, r ++ [k], by simp [e], rest⟩
      · exact ⟨p, [], by simp, rest⟩
  cases hk : idAt d k with
  | none =>
    rw [findAttr_none hk]
    refine ⟨fun t => ?_, fun t => ?_, fun i => ?_⟩
    · rw [h.repl]
      constructor
      · rintro ⟨i, hi, r⟩; exact ⟨i, by simp [hi], r⟩
      · rintro ⟨i, hi, x, hx, r⟩
        rcases List.mem_append.1 hi with hi | hi
        · exact ⟨i, hi, x, hx, r⟩
        · rw [List.mem_singleton.1 hi, hk] at hx; cases hx
    · rw [h.kept]
      constructor
      · rintro ⟨i, hi, r⟩; exact ⟨i, by simp [hi], r⟩
      · rintro ⟨i, hi, hx, r⟩
        rcases List.mem_append.1 hi with hi | hi
        · exact ⟨i, hi, hx, r⟩
        · rw [List.mem_singleton.1 hi, hk] at hx; cases hx
    · rw [gsplit]
      simp [hk]
  | some x =>
    rw [findAttr_some hk]
    have hin : x ∈ s.replaceable ↔ E.numeric x = false ∧ preserved o x = false ∧ ∃ j ∈ p, idAt d j = some x := by
      rw [h.repl]
      constructor
      · rintro ⟨i, hi, y, hy, n, pr, rfl | e⟩
        · exact ⟨n, pr, i, hi, hy⟩
        · by_cases hxy : y = x
          · subst hxy; exact ⟨n, pr, i, hi, hy⟩
          · exact absurd e.symm (hp i k y x hy hk hxy)
      · rintro ⟨n, pr, j, hj, e⟩
        exact ⟨j, hj, x, e, n, pr, .inl rfl⟩
    have mem_snoc : ∀ (P : Nat → Prop), (∃ i ∈ p ++ [k], P i) ↔ (∃ i ∈ p, P i) ∨ P k := by
      intro P
      constructor
      · rintro ⟨i, hi, r⟩
        rcases List.mem_append.1 hi with hi | hi
        · exact .inl ⟨i, hi, r⟩
        · rw [List.mem_singleton.1 hi] at r; exact .inr r
      · rintro (⟨i, hi, r⟩ | r)
        · exact ⟨i, by simp [hi], r⟩
        · exact ⟨k, by simp, r⟩
    have xx : ∀ (P : Str → Prop), (∃ y, idAt d k = some y ∧ P y) ↔ P x := by
      intro P
      rw [hk]
      constructor
      · rintro ⟨y, e, r⟩; cases e; exact r
      · exact fun r => ⟨x, rfl, r⟩
    by_cases hg : x ∈ s.replaceable ∨ E.numeric x = true
    · have e : findId E o k s x = { s with gone := k :: s.gone } := by
        rw [findId, if_pos (by simpa using hg)]
      rw [e]
      refine ⟨fun t => ?_, fun t => ?_, fun i => ?_⟩
      · rw [mem_snoc, ← h.repl, xx]
        simp only
        constructor
        · exact .inl
        · rintro (h1 | ⟨n, pr, e⟩)
          · exact h1
          · rcases hg with hg | hg
            · obtain ⟨j, hj, ej⟩ := (hin.1 hg).2.2
              exact (h.repl t).2 ⟨j, hj, x, ej, n, pr, e⟩
            · rw [hg] at n; cases n
      · rw [mem_snoc, ← h.kept, hk]
        simp only
        constructor
        · exact .inl
        · rintro (h1 | ⟨e, n, pr⟩)
          · exact h1
          · cases e
            rcases hg with hg | hg
            · rw [(hin.1 hg).2.1] at pr; cases pr
            · rw [hg] at n; cases n
      · rw [gsplit, xx]
        simp only [List.mem_cons]
        constructor
        · rintro (rfl | h1)
          · right
            refine ⟨rfl, ?_⟩
            rcases hg with hg | hg
            · exact .inr (hin.1 hg).2
            · exact .inl hg
          · exact .inl h1
        · rintro (h1 | ⟨rfl, -⟩)
          · exact .inr h1
          · exact .inl rfl
    · have hnr : x ∉ s.replaceable := fun c => hg (.inl c)
      have hnn : E.numeric x = false := by
        cases hn : E.numeric x
        · rfl
        · exact absurd (.inr hn) hg
      have ngone : ¬ (E.numeric x = true ∨ (preserved o x = false ∧ ∃ j ∈ p, idAt d j = some x)) := by
        rintro (c | c)
        · rw [hnn] at c; cases c
        · exact hnr (hin.2 ⟨hnn, c⟩)
      cases hpr : preserved o x
      · have e : findId E o k s x = { s with replaceable := x :: (if E.encode x ≠ x then E.encode x :: s.replaceable
            else s.replaceable) } := by
          rw [findId, if_neg (by simpa using hg), if_neg (by simp [hpr])]
        rw [e]
        refine ⟨fun t => ?_, fun t => ?_, fun i => ?_⟩
        · rw [mem_snoc, ← h.repl, xx]
          simp only [List.mem_cons, hnn, hpr, true_and]
          by_cases he : E.encode x ≠ x
          · rw [if_pos he, List.mem_cons]
            constructor
            · rintro (h1 | h1 | h1)
              · exact .inr (.inl h1)
              · exact .inr (.inr h1)
              · exact .inl h1
            · rintro (h1 | h1 | h1)
              · exact .inr (.inr h1)
              · exact .inl h1
              · exact .inr (.inl h1)
          · rw [if_neg he]
            have he' : E.encode x = x := Classical.not_not.1 he
            rw [he']
            constructor
            · rintro (h1 | h1)
              · exact .inr (.inl h1)
              · exact .inl h1
            · rintro (h1 | h1 | h1)
              · exact .inr h1
              · exact .inl h1
              · exact .inl h1
        · rw [mem_snoc, ← h.kept, hk]
          simp only
          constructor
          · exact .inl
          · rintro (h1 | ⟨e, n, pr⟩)
            · exact h1
            · cases e; rw [hpr] at pr; cases pr
        · rw [gsplit, xx]
          simp only
          constructor
          · exact .inl
          · rintro (h1 | ⟨-, c⟩)
            · exact h1
            · exact absurd c ngone
      · have e : findId E o k s x = { s with kept := x :: s.kept } := by
          rw [findId, if_neg (by simpa using hg), if_pos hpr]
        rw [e]
        refine ⟨fun t => ?_, fun t => ?_, fun i => ?_⟩
        · rw [mem_snoc, ← h.repl, xx]
          simp only [hpr]
          constructor
          · exact .inl
          · rintro (h1 | ⟨-, c, -⟩)
            · exact h1
            · cases c
        · rw [mem_snoc, ← h.kept, hk]
          simp only [List.mem_cons]
          constructor
          · rintro (rfl | h1)
            · exact .inr ⟨rfl, hnn, hpr⟩
            · exact .inl h1
          · rintro (h1 | ⟨e, -⟩)
            · exact .inr h1
            · cases e; exact .inl rfl
        · rw [gsplit, xx]
          simp only
          constructor
          · exact .inl
          · rintro (h1 | ⟨-, c⟩)
            · exact h1
            · exact absurd c ngone

theorem find_known {E : Env} {o : Options} {d : List Attr} (hp : Plain E d) (order : List Nat) :
    Known E o d order (find E o order d) := by
  have key : ∀ (l p : List Nat) (s : Found), Known E o d p s → Known E o d (p ++ l) (l.foldl (findAttr E o d) s) := by
    intro l
    induction l with
    | nil => intro p s h; simpa using h
    | cons k l ih =>
      intro p s h
      have := ih _ _ (known_step (k := k) hp h)
      simpa using this
  have := key order [] noFound ⟨by simp [noFound], by simp [noFound], by simp [noFound]⟩
  rw [List.nil_append] at this
  exact this

/-! ## Collecting references -/

theorem track_spec {R : List Str} {i : Nat} {s : Tracked} (h : Inv s.gen) (t : Option Str) :
    ∃ s', track R i s t = some s' ∧ Inv s'.gen ∧
      s'.renames = s.renames ++ ((t.toList.filter (R.contains ·)).map (i, ·)) ∧
      (∀ z, z ∈ s'.gen.reserved ↔ z ∈ s.gen.reserved ∨ (t = some z ∧ z ∉ R)) := by
  cases t with
  | none => exact ⟨s, rfl, h, by simp, by simp⟩
  | some t =>
    by_cases hr : t ∈ R
    · refine ⟨{ s with renames := s.renames ++ [(i, t)] }, by rw [track, if_pos (by simpa using hr)], h, by simp [hr],
        fun z => ?_⟩
      constructor
      · exact .inl
      · rintro (h1 | ⟨e, c⟩)
        · exact h1
        · cases e; exact absurd hr c
    · obtain ⟨g, e, hi, hres, -⟩ := reserve_inv h t
      refine ⟨{ s with gen := g }, by rw [track, if_neg (by simpa using hr), e]; rfl, hi, by simp [hr], fun z => ?_⟩
      simp only [hres, List.mem_cons]
      constructor
      · rintro (rfl | h1)
        · exact .inr ⟨rfl, hr⟩
        · exact .inl h1
      · rintro (h1 | ⟨e, -⟩)
        · exact .inr h1
        · cases e; exact .inl rfl

theorem trackAll_spec {R : List Str} {i : Nat} (l : List (Option Str)) {s : Tracked} (h : Inv s.gen) :
    ∃ s', trackAll R i l s = some s' ∧ Inv s'.gen ∧
      s'.renames = s.renames ++ (((l.filterMap id).filter (R.contains ·)).map (i, ·)) ∧
      (∀ z, z ∈ s'.gen.reserved ↔ z ∈ s.gen.reserved ∨ (some z ∈ l ∧ z ∉ R)) := by
  induction l generalizing s with
  | nil => exact ⟨s, rfl, h, by simp, by simp⟩
  | cons t l ih =>
    obtain ⟨s1, e1, i1, r1, g1⟩ := track_spec (R := R) (i := i) h t
    obtain ⟨s2, e2, i2, r2, g2⟩ := ih i1
    refine ⟨s2, by simp [trackAll, e1, e2], i2, ?_, fun z => ?_⟩
    · rw [r2, r1]
      cases t with
      | none => simp
      | some t =>
        by_cases hr : t ∈ R <;> simp [hr]
    · rw [g2, g1]
      simp only [List.mem_cons]
      constructor
      · rintro ((h1 | ⟨h1, h2⟩) | ⟨h1, h2⟩)
        · exact .inl h1
        · exact .inr ⟨.inl h1.symm, h2⟩
        · exact .inr ⟨.inr h1, h2⟩
      · rintro (h1 | ⟨h1 | h1, h2⟩)
        · exact .inl (.inl h1)
        · exact .inl (.inr ⟨h1.symm, h2⟩)
        · exact .inr ⟨h1, h2⟩

theorem mem_visited {a : Attr} {r : Ref} : r ∈ visited a ↔ r ∈ a.refs := by
  unfold visited
  simp only [List.mem_append, List.mem_filter]
  constructor
  · rintro (h | h) <;> exact h.1
  · intro h
    cases hk : r.kind
    · exact .inl ⟨h, by simp [hk]⟩
    · exact .inr ⟨h, by simp [hk]⟩

theorem collect_spec {E : Env} {R : List Str} (l : List Attr) (i : Nat) {s : Tracked} (h : Inv s.gen) :
    ∃ s', collect E R i l s = some s' ∧ Inv s'.gen ∧
      (∃ w, s'.renames = s.renames ++ w ∧
        ∀ k t, (k, t) ∈ w ↔ t ∈ R ∧ ∃ j a r, k = i + j ∧ l[j]? = some a ∧ r ∈ a.refs ∧ target E r = some t) ∧
      (∀ z, z ∈ s'.gen.reserved ↔ z ∈ s.gen.reserved ∨ (z ∉ R ∧ ∃ a ∈ l, ∃ r ∈ a.refs, target E r = some z)) := by
  induction l generalizing s i with
  | nil => exact ⟨s, rfl, h, ⟨[], by simp, by simp⟩, by simp⟩
  | cons a l ih =>
    obtain ⟨s1, e1, i1, r1, g1⟩ := trackAll_spec (R := R) (i := i) ((visited a).map (target E)) h
    obtain ⟨s2, e2, i2, ⟨w, r2, m2⟩, g2⟩ := ih (i + 1) i1
    refine ⟨s2, by simp [collect, e1, e2], i2, ⟨_, by rw [r2, r1, List.append_assoc], fun k t => ?_⟩, fun z => ?_⟩
    · rw [List.mem_append, m2]
      simp only [List.mem_map, List.mem_filter, List.mem_filterMap, id]
      constructor
      · rintro (⟨u, ⟨⟨v, ⟨r, hr, er⟩, ev⟩, hu⟩, e⟩ | ⟨ht, j, a', r, ek, ea, hr, er⟩)
        · cases e
          subst ev
          exact ⟨by simpa using hu, 0, a, r, rfl, rfl, mem_visited.1 hr, er⟩
        · exact ⟨ht, j + 1, a', r, by omega, by simpa using ea, hr, er⟩
      · rintro ⟨ht, j, a', r, ek, ea, hr, er⟩
        cases j with
        | zero =>
          simp only [List.getElem?_cons_zero, Option.some.injEq] at ea
          subst ea
          exact .inl ⟨t, ⟨⟨some t, ⟨r, mem_visited.2 hr, er⟩, rfl⟩, by simpa using ht⟩, by simp [ek]⟩
        | succ j =>
          exact .inr ⟨ht, j, a', r, by omega, by simpa using ea, hr, er⟩
    · rw [g2, g1]
      simp only [List.mem_map, List.mem_cons]
      constructor
      · rintro ((h1 | ⟨⟨r, hr, er⟩, h2⟩) | ⟨h2, a', ha, rest⟩)
        · exact .inl h1
        · exact .inr ⟨h2, a, .inl rfl, r, mem_visited.1 hr, er⟩
        · exact .inr ⟨h2, a', .inr ha, rest⟩
      · rintro (h1 | ⟨h2, a', rfl | ha, rest⟩)
        · exact .inl (.inl h1)
        · obtain ⟨r, hr, er⟩ := rest
          exact .inl (.inr ⟨⟨r, mem_visited.2 hr, er⟩, h2⟩)
        · exact .inr ⟨h2, a', ha, rest⟩

/-! ## Renaming in one attribute -/

/-- The state after `t` was given the name `m`. -/
structure After (isId : Bool) (t m : Str) (st st' : St) : Prop where
  known : st'.map.lookup t = some m
  how : (st.map.lookup t = some m ∧ st'.map = st.map ∧ st'.gen = st.gen) ∨
    (st.map.lookup t = none ∧ st'.map = (t, m) :: st.map ∧ take st.gen = some (m, st'.gen))
  used : ∀ z, z ∈ st'.used ↔ z ∈ st.used ∨ (isId = false ∧ z = m)

theorem After.trans {isId : Bool} {t m m' : Str} {st st1 st2 : St} (h1 : After isId t m st st1)
    (h2 : After isId t m' st1 st2) : m' = m ∧ After isId t m st st2 := by
  have k1 := h1.known
  rcases h2.how with ⟨a, b, c⟩ | ⟨a, -⟩
  · rw [k1] at a
    cases a
    refine ⟨rfl, ⟨h2.known, ?_, fun z => ?_⟩⟩
    · rw [b, c]; exact h1.how
    · rw [h2.used, h1.used]
      constructor
      · rintro ((h | h) | h)
        · exact .inl h
        · exact .inr h
        · exact .inr h
      · rintro (h | h)
        · exact .inl (.inl h)
        · exact .inr h
  · rw [k1] at a; cases a

theorem mem_addUsed {isId : Bool} {m z : Str} {st : St} :
    z ∈ (addUsed isId m st).used ↔ z ∈ st.used ∨ (isId = false ∧ z = m) := by
  cases isId
  · simp only [addUsed, Bool.false_eq_true, if_false, List.mem_cons, true_and]
    exact or_comm
  · simp [addUsed]

theorem addUsed_map (isId : Bool) (m : Str) (st : St) :
    (addUsed isId m st).map = st.map ∧ (addUsed isId m st).gen = st.gen := by
  cases isId <;> simp [addUsed]

theorem assign_spec {isId : Bool} {t : Str} {st : St} (h : Inv st.gen) :
    ∃ st' m, assign isId t st = some (st', m) ∧ After isId t m st st' ∧ Inv st'.gen := by
  cases hl : st.map.lookup t with
  | some m =>
    have e := addUsed_map isId m st
    refine ⟨addUsed isId m st, m, by simp [assign, hl], ⟨by rw [e.1]; exact hl, .inl ⟨hl, e.1, e.2⟩, fun z => mem_addUsed⟩,
      by rw [e.2]; exact h⟩
  | none =>
    obtain ⟨g, et, hi, -⟩ := take_inv h
    have e := addUsed_map isId st.gen.current { st with map := (t, st.gen.current) :: st.map, gen := g }
    refine ⟨_, st.gen.current, by simp [assign, hl, et], ⟨by rw [e.1]; simp, .inr ⟨hl, e.1, ?_⟩, fun z => mem_addUsed⟩, ?_⟩
    · rw [e.2]; exact et
    · rw [e.2]; exact hi

/-- One thing visited gets the text of its new name. -/
def put (E : Env) (t : Str) (k : Kind) (m : Str) (r : Ref) : Ref :=
  if r.kind = k ∧ isRef E t r = true then { r with text := newText k m } else r

theorem put_of_hit {E : Env} {t m : Str} {k : Kind} {r : Ref} (h : r.kind = k ∧ isRef E t r = true) :
    put E t k m r = { r with text := newText k m } := if_pos h

theorem map_put_of_miss {E : Env} {t m : Str} {k : Kind} {l : List Ref}
    (h : ¬ ∃ r ∈ l, r.kind = k ∧ isRef E t r = true) : l.map (put E t k m) = l := by
  rw [List.map_congr_left (g := id), List.map_id]
  intro r hr
  exact if_neg fun c => h ⟨r, hr, c⟩

theorem visitRefs_spec {E : Env} {o : Options} (hm : o.minify = true) {isId : Bool} {t : Str} {k : Kind} (l : List Ref)
    {st : St} (h : Inv st.gen) :
    ∃ st' l', visitRefs E o isId t k l st = some (st', l') ∧ Inv st'.gen ∧
      ((∃ r ∈ l, r.kind = k ∧ isRef E t r = true) → ∃ m, After isId t m st st' ∧ l' = l.map (put E t k m)) ∧
      (¬ (∃ r ∈ l, r.kind = k ∧ isRef E t r = true) → st' = st ∧ l' = l) := by
  induction l generalizing st with
  | nil => exact ⟨st, [], rfl, h, by simp, by simp⟩
  | cons r l ih =>
    by_cases hr : r.kind = k ∧ isRef E t r = true
    · obtain ⟨st1, m, e1, a1, i1⟩ := assign_spec (isId := isId) (t := t) h
      obtain ⟨st2, l2, e2, i2, y2, n2⟩ := ih i1
      refine ⟨st2, { r with text := newText k m } :: l2, ?_, i2, fun _ => ?_, fun c => absurd ⟨r, by simp, hr⟩ c⟩
      · simp [visitRefs, visitRef, hr, e1, hm, e2]
      · by_cases hl : ∃ r ∈ l, r.kind = k ∧ isRef E t r = true
        · obtain ⟨m', a2, el⟩ := y2 hl
          obtain ⟨rfl, a3⟩ := a1.trans a2
          exact ⟨m', a3, by simp [el, put, hr]⟩
        · obtain ⟨rfl, rfl⟩ := n2 hl
          refine ⟨m, a1, ?_⟩
          rw [List.map_cons, put_of_hit hr, map_put_of_miss hl]
    · obtain ⟨st2, l2, e2, i2, y2, n2⟩ := ih h
      refine ⟨st2, r :: l2, ?_, i2, fun c => ?_, fun c => ?_⟩
      · simp only [visitRefs, visitRef, if_neg hr]
        simp [e2]
      · obtain ⟨r', h1, h2⟩ := c
        rcases List.mem_cons.1 h1 with rfl | h1
        · exact absurd h2 hr
        · obtain ⟨m, a, el⟩ := y2 ⟨r', h1, h2⟩
          exact ⟨m, a, by simp [el, put, hr]⟩
      · obtain ⟨rfl, rfl⟩ := n2 (fun ⟨r', h1, h2⟩ => c ⟨r', by simp [h1], h2⟩)
        exact ⟨rfl, rfl⟩

/-- Anything that refers to `t` gets the text of its new name. -/
def putAny (E : Env) (t m : Str) (r : Ref) : Ref :=
  if isRef E t r = true then { r with text := newText r.kind m } else r

theorem put_put (E : Env) (t m : Str) (r : Ref) : put E t .id m (put E t .url m r) = putAny E t m r := by
  unfold putAny
  cases hk : r.kind
  · have h1 : put E t .url m r = if isRef E t r = true then { r with text := newText .url m } else r := by
      simp [put, hk]
    rw [h1]
    split
    · simp [put, hk]
    · simp [put, hk]
  · have h1 : put E t .url m r = r := by simp [put, hk]
    rw [h1]
    simp [put, hk]

theorem hit_id {E : Env} {t m : Str} {l : List Ref} :
    (∃ r ∈ l.map (put E t .url m), r.kind = .id ∧ isRef E t r = true) ↔ ∃ r ∈ l, r.kind = .id ∧ isRef E t r = true := by
  constructor
  · rintro ⟨r', h, hk, hr⟩
    obtain ⟨r, h1, rfl⟩ := List.mem_map.1 h
    by_cases c : r.kind = .url ∧ isRef E t r = true
    · rw [put_of_hit c] at hk
      rw [c.1] at hk; cases hk
    · have e : put E t .url m r = r := if_neg c
      rw [e] at hk hr
      exact ⟨r, h1, hk, hr⟩
  · rintro ⟨r, h1, hk, hr⟩
    have e : put E t .url m r = r := if_neg (by simp [hk])
    exact ⟨r, List.mem_map.2 ⟨r, h1, e⟩, hk, hr⟩

theorem visitAttr_spec {E : Env} {o : Options} (hm : o.minify = true) (t : Str) (a : Attr) {st : St} (h : Inv st.gen) :
    ∃ st' l', visitAttr E o t a st = some (st', { a with refs := l' }) ∧ Inv st'.gen ∧
      ((∃ r ∈ a.refs, isRef E t r = true) → ∃ m, After a.isId t m st st' ∧ l' = a.refs.map (putAny E t m)) ∧
      (¬ (∃ r ∈ a.refs, isRef E t r = true) → st' = st ∧ l' = a.refs) := by
  obtain ⟨st1, l1, e1, i1, y1, n1⟩ := visitRefs_spec (E := E) hm (isId := a.isId) (t := t) (k := .url) a.refs h
  obtain ⟨st2, l2, e2, i2, y2, n2⟩ := visitRefs_spec (E := E) hm (isId := a.isId) (t := t) (k := .id) l1 i1
  refine ⟨st2, l2, by simp [visitAttr, e1, e2], i2, ?_, ?_⟩
  · rintro ⟨r, hr, hit⟩
    by_cases hu : ∃ r ∈ a.refs, r.kind = .url ∧ isRef E t r = true
    · obtain ⟨m, a1, rfl⟩ := y1 hu
      have hmap : (a.refs.map (put E t .url m)).map (put E t .id m) = a.refs.map (putAny E t m) := by
        rw [List.map_map]
        exact List.map_congr_left fun r _ => put_put E t m r
      by_cases hi : ∃ r ∈ a.refs.map (put E t .url m), r.kind = .id ∧ isRef E t r = true
      · obtain ⟨m', a2, rfl⟩ := y2 hi
        obtain ⟨rfl, a3⟩ := a1.trans a2
        exact ⟨m', a3, hmap⟩
      · obtain ⟨rfl, rfl⟩ := n2 hi
        refine ⟨m, a1, ?_⟩
        rw [← hmap, map_put_of_miss hi]
    · obtain ⟨rfl, rfl⟩ := n1 hu
      have hi : ∃ r ∈ a.refs, r.kind = .id ∧ isRef E t r = true := by
        refine ⟨r, hr, ?_, hit⟩
        cases hk : r.kind
        · exact absurd ⟨r, hr, hk, hit⟩ hu
        · rfl
      obtain ⟨m, a2, rfl⟩ := y2 hi
      refine ⟨m, a2, List.map_congr_left fun r hr => ?_⟩
      rw [← put_put]
      have e : put E t .url m r = r := if_neg fun c => hu ⟨r, hr, c⟩
      rw [e]
  · intro hn
    obtain ⟨rfl, rfl⟩ := n1 fun ⟨r, h1, h2⟩ => hn ⟨r, h1, h2.2⟩
    exact n2 fun ⟨r, h1, h2⟩ => hn ⟨r, h1, h2.2⟩

end Verif.CleanupIds
