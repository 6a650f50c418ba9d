import Verif.Lint.Spec

/-! # Lemmas on the stack of declarations -/

namespace Verif.Lint

open Verif.Names

variable {K : Type} [DecidableEq K]

/-- `t` is `s` after the declarations in `U` were used. -/
def Marked (U : Decl → Prop) (s t : List Entry) : Prop :=
  (∀ e, (e, true) ∈ t ↔ (e, true) ∈ s ∨ ((e, false) ∈ s ∧ U e)) ∧
  (∀ e, (e, false) ∈ t ↔ (e, false) ∈ s ∧ ¬ U e) ∧ (s.Nodup → t.Nodup)

def After (U : Decl → Prop) : List (List Entry) → List (List Entry) → Prop
  | [], [] => True
  | s :: r, t :: q => Marked U s t ∧ After U r q
  | _, _ => False

/-- What is used further in is not unused further out. -/
def Inv : List (List Entry) → Prop
  | [] => True
  | s :: r => (∀ e, (e, true) ∈ s → ∀ t ∈ r, (e, false) ∉ t) ∧ Inv r

theorem Marked.trans {U W : Decl → Prop} {s t q : List Entry} (h : Marked U s t) (k : Marked W t q) :
    Marked (fun e => U e ∨ W e) s q := by
  obtain ⟨h1, h2, h3⟩ := h
  obtain ⟨k1, k2, k3⟩ := k
  refine ⟨fun e => ?_, fun e => ?_, fun n => k3 (h3 n)⟩
  · rw [k1, h1, h2]
    by_cases hu : U e <;> simp [hu]
  · rw [k2, h2]
    by_cases hu : U e <;> simp [hu]

theorem Marked.congr {U W : Decl → Prop} {s t : List Entry} (h : Marked U s t) (k : ∀ e, U e ↔ W e) :
    Marked W s t := by
  obtain ⟨h1, h2, h3⟩ := h
  exact ⟨fun e => by rw [h1, k], fun e => by rw [h2, k], h3⟩

theorem After.trans {U W : Decl → Prop} : ∀ {a b c : List (List Entry)}, After U a b → After W b c →
    After (fun e => U e ∨ W e) a c
  | [], [], [], _, _ => trivial
  | _ :: _, _ :: _, _ :: _, h, k => ⟨h.1.trans k.1, h.2.trans k.2⟩
  | [], [], _ :: _, _, k => k.elim
  | [], _ :: _, _, h, _ => h.elim
  | _ :: _, [], _, h, _ => h.elim
  | _ :: _, _ :: _, [], _, k => k.elim

theorem After.congr {U W : Decl → Prop} (k : ∀ e, U e ↔ W e) : ∀ {a b : List (List Entry)}, After U a b → After W a b
  | [], [], _ => trivial
  | _ :: _, _ :: _, h => ⟨h.1.congr k, h.2.congr k⟩
  | [], _ :: _, h => h.elim
  | _ :: _, [], h => h.elim

theorem After.refl : ∀ (a : List (List Entry)), After (fun _ => False) a a
  | [] => trivial
  | s :: r => ⟨⟨by simp, by simp, id⟩, After.refl r⟩

theorem After.mem {U : Decl → Prop} : ∀ {a b : List (List Entry)}, After U a b → ∀ t ∈ b, ∃ s ∈ a, Marked U s t
  | [], [], _, t, ht => by simp at ht
  | s :: r, t :: q, h, x, hx => by
    rcases List.mem_cons.1 hx with rfl | hx
    · exact ⟨s, by simp, h.1⟩
    · obtain ⟨s', hs, hm⟩ := h.2.mem x hx
      exact ⟨s', by simp [hs], hm⟩
  | [], _ :: _, h, _, _ => h.elim
  | _ :: _, [], h, _, _ => h.elim

theorem Inv.after {U : Decl → Prop} : ∀ {a b : List (List Entry)}, Inv a → After U a b → Inv b
  | [], [], _, _ => trivial
  | s :: r, t :: q, i, h => by
    refine ⟨fun e he x hx => ?_, i.2.after h.2⟩
    obtain ⟨y, hy, hm⟩ := h.2.mem x hx
    rw [hm.2.1]
    rintro ⟨h1, h2⟩
    rcases (h.1.1 e).1 he with h3 | h3
    · exact i.1 e h3 y hy h1
    · exact h2 h3.2
  | [], _ :: _, _, h => h.elim
  | _ :: _, [], _, h => h.elim

theorem mem_put {e f : Entry} {s : List Entry} : f ∈ put e s ↔ f = e ∨ f ∈ s := by
  unfold put
  split
  · constructor
    · exact Or.inr
    · rintro (rfl | h)
      · assumption
      · exact h
  · simp

theorem put_nodup {e : Entry} {s : List Entry} (h : s.Nodup) : (put e s).Nodup := by
  unfold put
  split
  · exact h
  · exact List.nodup_cons.2 ⟨‹_›, h⟩

theorem marked_none {d : Decl} {s : List Entry} (h : (d, false) ∉ s) : Marked (· = d) s s := by
  refine ⟨fun e => ?_, fun e => ?_, id⟩
  · constructor
    · exact Or.inl
    · rintro (h1 | ⟨h1, rfl⟩)
      · exact h1
      · exact absurd h1 h
  · constructor
    · intro h1
      exact ⟨h1, fun h2 => h (h2 ▸ h1)⟩
    · exact And.left

theorem after_none {d : Decl} : ∀ {st : List (List Entry)}, (∀ s ∈ st, (d, false) ∉ s) → After (· = d) st st
  | [], _ => trivial
  | s :: r, h => ⟨marked_none (h s (by simp)), after_none fun t ht => h t (by simp [ht])⟩

/-- The sets of a stack never hold a declaration both ways. -/
def Clean (st : List (List Entry)) : Prop := ∀ s ∈ st, ∀ d, (d, true) ∈ s → (d, false) ∉ s

theorem Clean.after {U : Decl → Prop} {a b : List (List Entry)} (h : Clean a) (k : After U a b) : Clean b := by
  intro t ht d h1 h2
  obtain ⟨s, hs, hm⟩ := k.mem t ht
  rw [hm.1] at h1
  rw [hm.2.1] at h2
  rcases h1 with h1 | h1
  · exact h s hs d h1 h2.1
  · exact h2.2 h1.2

theorem useName_after (d : Decl) : ∀ (st : List (List Entry)), Inv st → Clean st → After (· = d) st (useName d st)
  | [], _, _ => trivial
  | s :: r, i, c => by
    have cr : Clean r := fun t ht => c t (by simp [ht])
    unfold useName
    split
    · rename_i h
      refine ⟨marked_none (c s (by simp) d h), after_none (i.1 d h)⟩
    · rename_i hu
      split
      · rename_i h
        refine ⟨⟨fun e => ?_, fun e => ?_, fun n => put_nodup (n.filter _)⟩, useName_after d r i.2 cr⟩
        · rw [mem_put, List.mem_filter]
          by_cases he : e = d
          · subst he; simp [h]
          · simp [he]
        · rw [mem_put, List.mem_filter]
          by_cases he : e = d
          · subst he; simp
          · simp [he]
      · rename_i h
        exact ⟨marked_none h, useName_after d r i.2 cr⟩

theorem useAll_after (V : Vocab K) : ∀ (as : List (Attr K Str)) (st : List (List Entry)), Inv st → Clean st →
    After (fun e => ∃ a ∈ as, key (a.prefix' V.table) = e) st
      (as.foldl (fun st a => useName (key (a.prefix' V.table)) st) st)
  | [], st, _, _ => (After.refl st).congr (by simp)
  | a :: as, st, i, c => by
    have h := useName_after (key (a.prefix' V.table)) st i c
    exact (h.trans (useAll_after V as _ (i.after h) (c.after h))).congr (by
      intro e; simp [eq_comm])

theorem track_after (V : Vocab K) (name : Prefix) (as : List (Attr K Str)) (st : List (List Entry)) (i : Inv st)
    (c : Clean st) (pos : Nat) (ks : List (Node K)) :
    After (fun e => Writes V e (.elem pos name as ks)) st (track V name as st) := by
  have h := useAll_after V as st i c
  refine (h.trans (useName_after (key name) _ (i.after h) (c.after h))).congr ?_
  intro e
  obtain ⟨p, u⟩ := e
  simp only [Writes, key, Prod.mk.injEq]
  constructor
  · rintro (h | ⟨h1, h2⟩)
    · exact .inr h
    · exact .inl ⟨h1.symm, h2.symm⟩
  · rintro (⟨h1, h2⟩ | h)
    · exact .inr ⟨h1.symm, h2.symm⟩
    · exact .inl h

theorem pushSet_mem (V : Vocab K) (as : List (Attr K Str)) (e : Entry) :
    e ∈ pushSet V as ↔ e.2 = false ∧ ∃ a ∈ as, declared V a = some e.1 := by
  have key : ∀ (l : List (Attr K Str)) (s : List Entry),
      (e ∈ l.foldl (pushStep V) s ↔ e ∈ s ∨ (e.2 = false ∧ ∃ a ∈ l, declared V a = some e.1)) := by
    intro l
    induction l with
    | nil => simp
    | cons a l ih =>
      intro s
      rw [List.foldl_cons, ih, pushStep]
      obtain ⟨d, b⟩ := e
      cases h : declared V a with
      | none => simp [h]
      | some d' =>
        simp only [mem_put, List.mem_cons, exists_eq_or_imp, h, Prod.mk.injEq, Option.some.injEq]
        constructor
        · rintro ((⟨rfl, rfl⟩ | h) | h)
          · simp
          · exact .inl h
          · exact .inr ⟨h.1, .inr h.2⟩
        · rintro (h | ⟨h, rfl | h2⟩)
          · exact .inl (.inr h)
          · exact .inl (.inl ⟨rfl, h⟩)
          · exact .inr ⟨h, h2⟩
  simpa [pushSet] using key as []

theorem pushSet_nodup (V : Vocab K) (as : List (Attr K Str)) : (pushSet V as).Nodup := by
  have key : ∀ (l : List (Attr K Str)) (s : List Entry), s.Nodup → (l.foldl (pushStep V) s).Nodup := by
    intro l
    induction l with
    | nil => simp
    | cons a l ih =>
      intro s hs
      refine ih _ ?_
      unfold pushStep
      split
      · exact put_nodup hs
      · exact hs
  exact key as [] List.nodup_nil

theorem declared_iff (V : Vocab K) (n : Node K) (d : Decl) :
    (∃ a ∈ n.attrs, declared V a = some d) ↔ Declares V n d := by
  unfold Declares
  refine exists_congr fun a => and_congr_right fun _ => ?_
  obtain ⟨p, u⟩ := d
  unfold declared
  split
  · rename_i k v
    simp only [Attr.typed.injEq, reduceCtorEq, and_false, exists_false, or_false]
    split
    · rename_i h; simp [h, eq_comm, and_comm]
    · rename_i h; simp [h]
  · rename_i q l v
    simp only [reduceCtorEq, false_and, false_or, Attr.unparsed.injEq, AttrId.unknown.injEq]
    split
    · rename_i h
      simp only [h, true_and, Option.some.injEq, Prod.mk.injEq]
      constructor
      · rintro ⟨rfl, rfl⟩; exact ⟨_, rfl, rfl, rfl⟩
      · rintro ⟨_, rfl, rfl, rfl⟩; exact ⟨rfl, rfl⟩
    · rename_i h
      simp [h]
  · rename_i h1 h2
    simp only [reduceCtorEq, false_iff, not_or, not_and, not_exists]
    refine ⟨fun h => absurd h (h1 _ _), fun q _ h => absurd h (h2 _ _ _)⟩

/-- What is reported for the elements of a forest. -/
def Reported (V : Vocab K) (ns : List (Node K)) (r : Nat × Decl) : Prop :=
  ∃ e ∈ subsAll ns, e.pos = r.1 ∧ Declares V e r.2 ∧ ∀ f ∈ subs e, ¬ Writes V r.2 f

theorem inv_push {V : Vocab K} {as : List (Attr K Str)} {st : List (List Entry)} (i : Inv st) :
    Inv (pushSet V as :: st) := by
  refine ⟨fun e he => ?_, i⟩
  rw [pushSet_mem] at he
  simp at he

theorem clean_push {V : Vocab K} {as : List (Attr K Str)} {st : List (List Entry)} (c : Clean st) :
    Clean (pushSet V as :: st) := by
  intro s hs d h
  rcases List.mem_cons.1 hs with rfl | hs
  · rw [pushSet_mem] at h
    simp at h
  · exact c s hs d h

theorem mem_unused {pos : Nat} {s : List Entry} {r : Nat × Decl} :
    r ∈ unused pos s ↔ r.1 = pos ∧ (r.2, false) ∈ s := by
  obtain ⟨p, d⟩ := r
  simp only [unused, List.mem_filterMap]
  constructor
  · rintro ⟨⟨e, b⟩, he, h⟩
    cases b with
    | true => simp at h
    | false =>
      simp only [Bool.false_eq_true, if_false, Option.some.injEq, Prod.mk.injEq] at h
      obtain ⟨rfl, rfl⟩ := h
      exact ⟨rfl, he⟩
  · rintro ⟨rfl, h⟩
    exact ⟨_, h, by simp⟩

mutual
theorem visit_spec (V : Vocab K) : ∀ (n : Node K) (st : List (List Entry)) (out : List (Nat × Decl)),
    Inv st → Clean st →
    After (fun d => ∃ f ∈ subs n, Writes V d f) st (visit V st out n).1 ∧
    ∀ r, r ∈ (visit V st out n).2 ↔ r ∈ out ∨ Reported V [n] r
  | .other, st, out, _, _ => by
    unfold visit
    refine ⟨(After.refl st).congr (by simp [subs]), fun r => ?_⟩
    simp [Reported, subsAll, subs]
  | .elem pos name attrs kids, st, out, i, c => by
    have ip := inv_push (V := V) (as := attrs) i
    have cp := clean_push (V := V) (as := attrs) c
    have h1 := track_after V name attrs (pushSet V attrs :: st) ip cp pos kids
    obtain ⟨h2, h3⟩ := visitAll_spec V kids (track V name attrs (pushSet V attrs :: st)) out (ip.after h1) (cp.after h1)
    have h4 := (h1.trans h2).congr (W := fun d => ∃ f ∈ subs (.elem pos name attrs kids), Writes V d f) (by
      intro d; simp [subs])
    rw [visit]
    generalize hr : visitAll V (track V name attrs (pushSet V attrs :: st)) out kids = r at h2 h3 h4
    obtain ⟨st', out'⟩ := r
    cases st' with
    | nil => exact h4.elim
    | cons s rest =>
      refine ⟨h4.2, fun r => ?_⟩
      simp only [leave, List.mem_append, h3]
      rw [mem_unused, h4.1.2.1, pushSet_mem]
      have hd := declared_iff V (.elem pos name attrs kids) r.2
      simp only [Node.attrs] at hd
      simp only [true_and, hd, or_assoc]
      refine or_congr_right ?_
      simp only [Reported, subsAll, List.append_nil]
      constructor
      · rintro (⟨e, he, h⟩ | ⟨h5, h6, h7⟩)
        · exact ⟨e, by simp [subs, he], h⟩
        · exact ⟨.elem pos name attrs kids, by simp [subs], h5.symm, h6, fun f hf hw => h7 ⟨f, hf, hw⟩⟩
      · rintro ⟨e, he, h5, h6, h7⟩
        rw [subs, List.mem_cons] at he
        rcases he with rfl | he
        · exact .inr ⟨h5.symm, h6, fun ⟨f, hf, hw⟩ => h7 f hf hw⟩
        · exact .inl ⟨e, he, h5, h6, h7⟩
theorem visitAll_spec (V : Vocab K) : ∀ (ns : List (Node K)) (st : List (List Entry)) (out : List (Nat × Decl)),
    Inv st → Clean st →
    After (fun d => ∃ f ∈ subsAll ns, Writes V d f) st (visitAll V st out ns).1 ∧
    ∀ r, r ∈ (visitAll V st out ns).2 ↔ r ∈ out ∨ Reported V ns r
  | [], st, out, _, _ => by
    unfold visitAll
    refine ⟨(After.refl st).congr (by simp [subsAll]), fun r => ?_⟩
    simp [Reported, subsAll]
  | n :: ns, st, out, i, c => by
    obtain ⟨h1, h2⟩ := visit_spec V n st out i c
    obtain ⟨h3, h4⟩ := visitAll_spec V ns (visit V st out n).1 (visit V st out n).2 (i.after h1) (c.after h1)
    rw [visitAll]
    refine ⟨(h1.trans h3).congr (by intro d; simp [subsAll, or_and_right, exists_or]), fun r => ?_⟩
    rw [h4, h2, or_assoc]
    refine or_congr_right ?_
    simp [Reported, subsAll, or_and_right, exists_or]
end

theorem unused_nodup {pos : Nat} {s : List Entry} (h : s.Nodup) : (unused pos s).Nodup := by
  unfold unused
  induction s with
  | nil => simp
  | cons e s ih =>
    obtain ⟨h1, h2⟩ := List.nodup_cons.1 h
    rw [List.filterMap_cons]
    obtain ⟨d, b⟩ := e
    cases b with
    | true => simpa using ih h2
    | false =>
      simp only [Bool.false_eq_true, if_false]
      refine List.nodup_cons.2 ⟨fun hm => ?_, ih h2⟩
      exact h1 (mem_unused.1 hm).2

mutual
theorem visit_nodup (V : Vocab K) : ∀ (n : Node K) (st : List (List Entry)) (out : List (Nat × Decl)),
    Inv st → Clean st → ((subs n).map Node.pos).Nodup →
    ∃ l, (visit V st out n).2 = out ++ l ∧ l.Nodup ∧ ∀ r ∈ l, r.1 ∈ (subs n).map Node.pos
  | .other, st, out, _, _, _ => ⟨[], by simp [visit]⟩
  | .elem pos name attrs kids, st, out, i, c, hn => by
    have ip := inv_push (V := V) (as := attrs) i
    have cp := clean_push (V := V) (as := attrs) c
    have h1 := track_after V name attrs (pushSet V attrs :: st) ip cp pos kids
    obtain ⟨h2, _⟩ := visitAll_spec V kids (track V name attrs (pushSet V attrs :: st)) out (ip.after h1) (cp.after h1)
    have h4 := h1.trans h2
    rw [subs, List.map_cons] at hn
    obtain ⟨hn1, hn2⟩ := List.nodup_cons.1 hn
    obtain ⟨l, h5, h6, h7⟩ := visitAll_nodup V kids (track V name attrs (pushSet V attrs :: st)) out (ip.after h1)
      (cp.after h1) hn2
    rw [visit]
    generalize hr : visitAll V (track V name attrs (pushSet V attrs :: st)) out kids = r at h2 h4 h5
    obtain ⟨st', out'⟩ := r
    cases st' with
    | nil => exact h4.elim
    | cons s rest =>
      have hs : s.Nodup := h4.1.2.2 (pushSet_nodup V attrs)
      simp only at h5
      subst h5
      refine ⟨l ++ unused pos s, by simp [leave], ?_, ?_⟩
      · rw [List.nodup_append]
        refine ⟨h6, unused_nodup hs, ?_⟩
        rintro a ha b hb rfl
        exact hn1 ((mem_unused.1 hb).1 ▸ h7 a ha)
      · intro r hr
        rw [subs, List.map_cons, List.mem_cons]
        rcases List.mem_append.1 hr with h | h
        · exact .inr (h7 r h)
        · exact .inl (mem_unused.1 h).1
theorem visitAll_nodup (V : Vocab K) : ∀ (ns : List (Node K)) (st : List (List Entry)) (out : List (Nat × Decl)),
    Inv st → Clean st → ((subsAll ns).map Node.pos).Nodup →
    ∃ l, (visitAll V st out ns).2 = out ++ l ∧ l.Nodup ∧ ∀ r ∈ l, r.1 ∈ (subsAll ns).map Node.pos
  | [], st, out, _, _, _ => ⟨[], by simp [visitAll]⟩
  | n :: ns, st, out, i, c, hn => by
    rw [subsAll, List.map_append, List.nodup_append] at hn
    obtain ⟨h1, _⟩ := visit_spec V n st out i c
    obtain ⟨l1, h2, h3, h4⟩ := visit_nodup V n st out i c hn.1
    obtain ⟨l2, h5, h6, h7⟩ := visitAll_nodup V ns (visit V st out n).1 (visit V st out n).2 (i.after h1) (c.after h1)
      hn.2.1
    rw [visitAll]
    refine ⟨l1 ++ l2, by rw [h5, h2, List.append_assoc], ?_, ?_⟩
    · rw [List.nodup_append]
      refine ⟨h3, h6, ?_⟩
      rintro a ha b hb rfl
      exact hn.2.2 _ (h4 a ha) _ (h7 a hb) rfl
    · intro r hr
      rw [subsAll, List.map_append, List.mem_append]
      rcases List.mem_append.1 hr with h | h
      · exact .inl (h4 r h)
      · exact .inr (h7 r h)
end

end Verif.Lint
